import Verif.IoStream.Send

/-!
Model of a stream between two nodes in one direction, from `connection::push` on one side to `node::on_recv` on the other:
`connection::push` and `ios_push_fn` (`src/atbus_connection.cpp:416-435,846-853`), the sending half of the stream (`IoStream.Send`), the
bytes on the way, the receiving half (`IoStream.Recv`), `iostream_on_recv_cb` (566-615), `iostream_on_disconnected` (656-668) and
`node::on_recv` (`src/atbus_node.cpp:1439-1486`).

What a handler does is a choice of the environment: it ends well or with an error, and something in it may reset the connection.  Messages
that the handler sends go the other way or over other connections and are left out.
-/
namespace Verif.Node.Stream

open Verif.IoStream

/-- What the two ends are configured with: limit of the sending stream, receiving stream, checksum, `fault_tolerant` of the receiving node. -/
structure Conf where
  limit : Nat
  recv : RConf
  hash : Hash
  tol : Nat

/-- What happens with a message that was received. -/
inductive Out where
  /-- `unpack` refuses it, `src/atbus_connection.cpp:606-608` -/
  | garbage
  /-- `on_recv` dispatches it, and the handler ends well or not; `kill`: meanwhile the connection was reset (by the handler, the application,
  or because the endpoint was removed) -/
  | handled (ok kill : Bool)
deriving DecidableEq, Repr

/-- The two ends of the stream. -/
structure S where
  /-- sending stream -/
  c : SConn := sinit
  /-- sending connection is CONNECTED or HANDSHAKING -/
  open_ : Bool := true
  /-- receiving stream -/
  r : RConn
  /-- how many of the bytes written have been read -/
  taken : Nat := 0
  /-- the receiving stream still has its connection (`conn_ios->data`) -/
  up : Bool := true
  /-- `stat_.fault_count` of the receiving connection -/
  fault : Nat := 0
  /-- ghost: messages given to `unpack` by the receiving node, in order -/
  got : List (List Byte) := []
  /-- ghost: messages whose push returned success, in order -/
  sent : List (List Byte) := []
  /-- ghost: messages that were put into the queue, in order: also those whose push returned that the write could not be started -/
  queue : List (List Byte) := []

/-- `connection::push`, `src/atbus_connection.cpp:416-435,846-853`: state and result. -/
def push (cf : Conf) (s : S) (m : List Byte) (ev : Env) : Option (S × Int) :=
  if !s.open_ then some (s, Err.NOT_INITED)
  else match send cf.limit cf.hash ev s.c m with
    | none => none
    | some (c, x, _) => some ({ s with
        c := c
        sent := if x = Err.SUCCESS ∧ m ≠ [] then s.sent ++ [m] else s.sent
        queue := if (x = Err.SUCCESS ∨ x = Err.WRITE_FAILED) ∧ m ≠ [] then s.queue ++ [m] else s.queue }, x)

/-- `connection::reset` of the receiving connection: the stream is disconnected and forgets it, `src/atbus_connection.cpp:97-130,837-844`. -/
def S.drop (s : S) : S := { s with up := false, fault := 0 }

/-- `node::add_connection_fault`, `src/atbus_node.cpp:2092-2100`. -/
def addFault (cf : Conf) (s : S) : S :=
  if s.fault + 1 > cf.tol then s.drop else { s with fault := s.fault + 1 }

/-- `iostream_on_recv_cb` with `node::on_recv`: one callback of the receiving stream.  A message without a head is refused by
`dispatch_msg` (`src/atbus_msg_handler.cpp:93-95`). -/
def onCb (cf : Conf) (s : S) (cb : Cb) (o : Out) : S :=
  if !s.up then s
  else if cb.code < 0 ∨ cb.data = [] then
    match o with
    | .handled _ true => s.drop
    | _ => addFault cf s
  else
    let s := { s with got := s.got ++ [cb.data] }
    match o with
    | .garbage => s
    | .handled _ true => s.drop
    | .handled true false => { s with fault := 0 }
    | .handled false false => addFault cf s

/-- The callbacks of one read, in order; `os` says what happens with each (a message is handled well if nothing is said). -/
def onCbs (cf : Conf) : S → List Cb → List Out → S
  | s, [], _ => s
  | s, cb :: cbs, os => onCbs cf (onCb cf s cb (os.headD (.handled true false))) cbs os.tail

/-- An event of the receiving stream.  If its connection is gone afterwards, the stream was disconnected. -/
def net (cf : Conf) (s : S) (e : REv) (os : List Out) : Option S :=
  match rstep cf.recv cf.hash s.r e with
  | none => none
  | some (r, cbs) =>
    let s := onCbs cf { s with r := r } cbs os
    some { s with r := { s.r with closed := s.r.closed || !s.up } }

/-- What happens. -/
inductive Ev where
  /-- the sending node pushes a message -/
  | push (m : List Byte) (ev : Env)
  /-- a write of the sending stream is finished -/
  | written (ev : Env)
  /-- the sending node resets or disconnects its connection, `src/atbus_connection.cpp:379-414,837-844` -/
  | leave
  /-- the receiving stream reads the next `n` bytes -/
  | read (n : Nat) (os : List Out)
  /-- it reads nothing -/
  | again
  /-- it reads the end of the stream or an error -/
  | fail (os : List Out)
  /-- the receiving stream reports that it was closed, `iostream_on_disconnected`; or the receiving node resets its connection -/
  | gone
deriving DecidableEq, Repr

/-- One event. -/
def step (cf : Conf) (s : S) : Ev → Option S
  | .push m ev => (push cf s m ev).map Prod.fst
  | .written ev => (written ev s.c).map fun r => { s with c := r.1 }
  | .leave => some { s with c := disconnect false s.c, open_ := false }
  | .read n os => (net cf s (.data ((s.c.wire.drop s.taken).take n)) os).map fun s' => { s' with taken := s.taken + n }
  | .again => net cf s .again []
  | .fail os => net cf s .fail os
  | .gone => some { s.drop with r := { s.r with closed := true } }

/-- The event can happen: a write ends only while one is running, the queue refuses a message with one of two codes, and no more is read
than was written and than fits the buffer offered. -/
def Can (s : S) : Ev → Prop
  | .written _ => s.c.writing = true
  | .push m ev => m.length < 2 ^ 63 ∧ ∀ x, ev.push = some x → x = Err.BUFF_LIMIT ∨ x = Err.MALLOC
  | .read n _ => s.r.closed = false ∧ 0 < n ∧ s.taken + n ≤ s.c.wire.length ∧ n ≤ s.r.offered
  | .again => s.r.closed = false
  | .fail _ => s.r.closed = false
  | _ => True

/-- A new connection on a channel whose counters are given. -/
def init (hf bf ag : Nat) : S := { r := rinit hf bf ag }

/-- Runs the events in order; `none`: undefined behaviour. -/
def run (cf : Conf) (s : S) : List Ev → Option S
  | [] => some s
  | e :: es =>
    match step cf s e with
    | none => none
    | some s => run cf s es

/-- Every event can happen when it does. -/
def Cans (cf : Conf) (s : S) : List Ev → Prop
  | [] => True
  | e :: es => Can s e ∧ ∀ s', step cf s e = some s' → Cans cf s' es

end Verif.Node.Stream
