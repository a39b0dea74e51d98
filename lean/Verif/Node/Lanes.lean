import Verif.Node.Stream
import Verif.Endpoint.Model

/-!
Model of the messages a node sends to one endpoint over all the stream connections it has with it: `node::send_data_msg`
(`src/atbus_node.cpp:2259-2265`) chooses a connection (`Endpoint.dataConnection`), `connection::push` gives the message to its stream, and
the stream is the one of `Node.Stream`.

A connection object that was disconnected and is opened again gets a new stream; what is still on its way in the old one may still arrive.
Streams are numbered.  The counters of the receiving channel are kept for every stream separately (with peers that follow the protocol only
the count of reads that give nothing changes).  Connections over memory are left out (C79).
-/
namespace Verif.Node.Lanes

open Verif.IoStream

/-- The state of both ends. -/
structure S where
  /-- connections and endpoints of the sending node -/
  ep : Endpoint.S
  /-- the streams -/
  lane : Nat → Stream.S
  /-- the stream of each connection -/
  cur : Nat → Nat := fun c => c
  /-- number of the next new stream -/
  next : Nat
  /-- ghost: messages accepted, with the stream, in order -/
  sends : List (Nat × List Byte) := []
  /-- ghost: messages put into the queue of a stream, also those whose write could not be started, in order -/
  queue : List (Nat × List Byte) := []
  /-- ghost: messages that the receiving node got, with the stream, in order -/
  gots : List (Nat × List Byte) := []

/-- Who sends to whom (numbers of the endpoints at the sending node), and the configuration of the streams. -/
structure Conf where
  me : Nat
  to : Nat
  stream : Nat → Stream.Conf

/-- What happens. -/
inductive Ev where
  /-- the application sends a message to the endpoint -/
  | send (m : List Byte) (ev : Env)
  /-- something happens to the connections of the sending node -/
  | op (o : Endpoint.Op)
  /-- something happens to a stream (all but a push) -/
  | lane (i : Nat) (e : Stream.Ev)

/-- Update of one stream; the receiving node gets what is new. -/
def S.setLane (s : S) (i : Nat) (l : Stream.S) : S :=
  { s with lane := Endpoint.upd s.lane i l, gots := s.gots ++ (l.got.drop (s.lane i).got.length).map fun m => (i, m) }

/-- `node::send_data_msg` for an endpoint that is known, `src/atbus_node.cpp:2259-2265,2271-2348`: state and result. -/
def send (cf : Conf) (s : S) (m : List Byte) (ev : Env) : Option (S × Int) :=
  let r := Endpoint.dataConnection cf.me cf.to true s.ep
  let s := { s with ep := r.1 }
  match r.2 with
  | none => some (s, Err.ATNODE_NO_CONNECTION)
  | some c =>
    let i := s.cur c
    match Stream.push (cf.stream i) (s.lane i) m ev with
    | none => none
    | some (l, x) =>
      let s := s.setLane i l
      some ({ s with
        sends := if x = Err.SUCCESS ∧ m ≠ [] then s.sends ++ [(i, m)] else s.sends
        queue := if (x = Err.SUCCESS ∨ x = Err.WRITE_FAILED) ∧ m ≠ [] then s.queue ++ [(i, m)] else s.queue }, x)

/-- A connection that is opened has a new stream, `src/atbus_connection.cpp:188-378`, `iostream_on_accepted`. -/
def opened (s : S) : Endpoint.Op → S
  | .openConn c _ _ _ =>
    if (s.ep.conn c).st = .disconnected then { s with cur := Endpoint.upd s.cur c s.next, next := s.next + 1 } else s
  | _ => s

/-- One event; `hook` and `d` as in `Endpoint.step`. -/
def step (cf : Conf) (hook : Nat → Endpoint.S → Option Endpoint.S) (d : Nat) (s : S) : Ev → Option S
  | .send m ev => (send cf s m ev).map Prod.fst
  | .op o => (Endpoint.step hook d s.ep o).map fun e => { opened s o with ep := e }
  | .lane i e => (Stream.step (cf.stream i) (s.lane i) e).map fun l => s.setLane i l

/-- The event can happen. -/
def Can (cf : Conf) (s : S) : Ev → Prop
  | .send m ev => m.length < 2 ^ 63 ∧ ∀ x, ev.push = some x → x = Err.BUFF_LIMIT ∨ x = Err.MALLOC
  | .op _ => True
  | .lane i e => (∀ m ev, e ≠ .push m ev) ∧ Stream.Can (s.lane i) e

/-- Runs the events in order. -/
def run (cf : Conf) (hook : Nat → Endpoint.S → Option Endpoint.S) (d : Nat) (s : S) : List Ev → Option S
  | [] => some s
  | e :: es =>
    match step cf hook d s e with
    | none => none
    | some s => run cf hook d s es

/-- Every event can happen when it does. -/
def Cans (cf : Conf) (hook : Nat → Endpoint.S → Option Endpoint.S) (d : Nat) (s : S) : List Ev → Prop
  | [] => True
  | e :: es => Can cf s e ∧ ∀ s', step cf hook d s e = some s' → Cans cf hook d s' es

/-- Some connections, with new streams. -/
def init (ep : Endpoint.S) (next hf bf ag : Nat) : S := { ep := ep, lane := fun _ => Stream.init hf bf ag, next := next }

end Verif.Node.Lanes
