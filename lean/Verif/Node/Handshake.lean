import Verif.Node.Registry

/-!
The registration of two nodes over one stream connection.  Each end sends a registration request when the connection is there
(`node::on_new_connection`, `src/atbus_node.cpp:1552-1574`), answers the request of the other end
(`msg_handler::on_recv_node_reg_req`) and takes its answer (`on_recv_node_reg_rsp`, `src/atbus_msg_handler.cpp:724-1091`).  Both nodes run
the code of `Verif/Node/Registry.lean`; here are the two queues between them and the life of the connection.

Simplified:
* of the messages on the connection only registrations are modelled (the other messages do not change it);
* the callbacks of a registration do nothing (calls of the application happen between the messages);
* whether an answer goes out is a choice of the environment.
-/
namespace Verif.Node.Handshake

open Verif.Node.Registry

/-- The data of the node that `send_reg` puts into its messages and that do not change, `src/atbus_msg_handler.cpp:189-240`. -/
structure Conf where
  id : Nat
  /-- `get_protocol_version()` -/
  version : Nat := 0
  pid : Int := 0
  host : Nat := 0
  hash : Nat := 0
  confs : List (Nat × Nat) := []
  tokens : List Nat := []

/-- What is on the way. -/
inductive Msg where
  /-- `kNodeRegisterReq` with its access keys -/
  | req (keys : List Key)
  /-- `kNodeRegisterRsp` with its result and its access keys -/
  | rsp (ret : Int) (keys : List Key)
  /-- the end of the stream -/
  | eof
deriving DecidableEq

/-- One end of the connection. -/
structure Side where
  conf : Conf
  reg : Registry.S
  /-- the connection object of this end -/
  c : Nat
  /-- the connection was not reset -/
  live : Bool := true
  /-- ghost: the request of the other end was accepted or refused -/
  verdict : Option Bool := none

/-- Both ends (`true`: the one that connected) and the messages on the way to each of them. -/
structure S where
  side : Bool → Side
  q : Bool → List Msg

/-- Update of one entry (plumbing). -/
def updB {α : Type} (f : Bool → α) (b : Bool) (v : α) : Bool → α := fun x => if x = b then v else f x

/-- A message for `b` is queued. -/
def S.push (s : S) (b : Bool) (m : Msg) : S := { s with q := updB s.q b (s.q b ++ [m]) }

/-- The state of end `b` changes. -/
def S.set (s : S) (b : Bool) (e : Side) : S := { s with side := updB s.side b e }

/-- `connection::reset`, `src/atbus_connection.cpp:97-130`: the other end reads the end of the stream after what was sent before. -/
def close (s : S) (b : Bool) : S :=
  (s.set b { s.side b with live := false, reg := resetConn (s.side b).reg (s.side b).c }).push (!b) .eof

/-- What the environment chooses when a message is handled. -/
structure Env where
  /-- see `Registry.Req` -/
  atParent : Bool := false
  /-- an answer goes out -/
  sent : Bool := true
  /-- random numbers of the answer -/
  salt : Nat → Nat := fun _ => 0

/-- The request of the node `k` as it arrives on connection `c`. -/
def reqOf (k : Conf) (c : Nat) (keys : List Key) (e : Env) : Req :=
  { conn := c, version := k.version, keys := keys, busId := k.id, pid := k.pid, host := k.host, hash := k.hash, confs := k.confs,
    atParent := e.atParent, sent := e.sent }

/-- The request is refused before it is looked at, `src/atbus_msg_handler.cpp:747-783`. -/
def early (H : Nat → Nat → Nat × Nat) (s : Registry.S) (m : Req) : Bool :=
  decide (m.version < s.minVersion) || !access H s.tokens m.keys

/-- `on_recv_node_reg_req` on end `b`, `src/atbus_msg_handler.cpp:724-1003`.  A request that is refused early leaves the connection
open; the answer makes the other end close it. -/
def onReq (H : Nat → Nat → Nat × Nat) (s : S) (b : Bool) (keys : List Key) (e : Env) : Option S :=
  let x := s.side b
  let m := reqOf (s.side (!b)).conf x.c keys e
  match regReq H x.reg m with
  | none => none
  | some (r, code) =>
    let s1 := s.set b { x with reg := r, verdict := some (decide (0 ≤ code)) }
    let s2 := if e.sent then s1.push (!b) (.rsp code (keysOf H x.conf.tokens e.salt)) else s1
    if 0 ≤ code ∨ (early H x.reg m = true ∧ e.sent = true) then some s2 else some (close s2 b)

/-- `on_recv_node_reg_rsp` on end `b`, `src/atbus_msg_handler.cpp:1005-1091`. -/
def onRsp (H : Nat → Nat → Nat × Nat) (s : S) (b : Bool) (ret : Int) (keys : List Key) : S :=
  if (regRsp H (s.side b).reg (s.side b).c keys ret).2 then s else close s b

/-- The next message for `b` is handled: `connection::iostream_on_recv_cb`, `iostream_on_disconnected`,
`src/atbus_connection.cpp:566-615`, `:656-670`.  Messages for a connection that was reset are dropped. -/
def deliver (H : Nat → Nat → Nat × Nat) (s : S) (b : Bool) (e : Env) : Option S :=
  match s.q b with
  | [] => some s
  | m :: rest =>
    let s := { s with q := updB s.q b rest }
    if (s.side b).live then
      match m with
      | .req keys => onReq H s b keys e
      | .rsp ret keys => some (onRsp H s b ret keys)
      | .eof => some (close s b)
    else some s

/-- The operation uses connection `c` in another way than closing it. -/
def uses (c : Nat) : Registry.Op → Bool
  | .reg m => m.conn == c
  | .rsp c' _ _ => c' == c
  | .link c' _ => c' == c
  | _ => false

/-- The operation closes a connection that is not established. -/
def cancels (c : Nat) : Registry.Op → Bool
  | .close c' => c' == c
  | .reset _ => true
  | _ => false

/-- Something else happens on node `b`: a registration over another connection, a call of the application, a timeout.  The
connection goes with its endpoint; a connection that is not established goes when it is closed or the node is reset. -/
def other (H : Nat → Nat → Nat × Nat) (s : S) (b : Bool) (op : Registry.Op) : Option S :=
  let x := s.side b
  if uses x.c op then some s
  else match Registry.step H x.reg op with
    | none => none
    | some r =>
      let s1 := s.set b { x with reg := r }
      if x.live && (cancels x.c op || ((x.reg.conn x.c).connected && !(r.conn x.c).connected)) then some (close s1 b) else some s1

/-- An event. -/
inductive Ev where
  /-- the next message for `b` is handled -/
  | deliver (b : Bool) (e : Env)
  /-- something else happens on node `b` -/
  | other (b : Bool) (op : Registry.Op)
  /-- the connection breaks: both ends still read the first messages on the way to them, then the end of the stream -/
  | cut (n m : Nat)

/-- One event; `none` where the code is undefined. -/
def step (H : Nat → Nat → Nat × Nat) (s : S) : Ev → Option S
  | .deliver b e => deliver H s b e
  | .other b op => other H s b op
  | .cut n m => some { s with q := fun b => (s.q b).take (if b then n else m) ++ [.eof] }

/-- Runs the events in order (plumbing). -/
def run (H : Nat → Nat → Nat × Nat) (s : S) : List Ev → Option S
  | [] => some s
  | e :: es => (step H s e).bind fun s => run H s es

/-- The connection has just been made, `src/atbus_connection.cpp:526-564`, `:617-650`: both ends sent their request.  An end that was
opened to a known endpoint (`node::connect(addr, ep)`) is bound to it already. -/
def start (H : Nat → Nat → Nat × Nat) (x y : Side) (saltX saltY : Nat → Nat) : S where
  side b := if b then x else y
  q b := if b then [.req (keysOf H y.conf.tokens saltY)] else [.req (keysOf H x.conf.tokens saltX)]

end Verif.Node.Handshake
