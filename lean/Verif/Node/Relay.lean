import Verif.Node.Forward
import Verif.Node.Stream
import Verif.Endpoint.Model

/-!
Model of data messages that are passed on from node to node over streams: `node::send_data` (`src/atbus_node.cpp:842-895`) and the handlers
of data messages (`Node.Forward`), with every push going into a stream of `Node.Stream`, and every message that comes out of a stream going
through `connection::unpack` (`src/atbus_connection.cpp:866-881`) into the handler of the node on the other end.

Streams are numbered, for the whole network, and so are the connections that push into them.  The tables of a node (`Node`) may be different
every time it handles something.  A message that came out of a stream is handled in an event of its own, in the order of the stream; the code
handles it before the read returns, which is one of the orders allowed here.  Messages of other kinds are only pushed (`Ev.other`).
-/
namespace Verif.Node.Relay

open Verif.IoStream
open Verif.Subnet (Ep)

/-- Configuration of the streams, and the encoding of data messages. -/
structure Conf where
  stream : Nat → Stream.Conf
  /-- the encoding in `msg_handler::send_msg`, `src/atbus_msg_handler.cpp:401-420` (a message refused there for its size counts as refused by
  the queue of the stream) -/
  pack : Msg → List Byte
  /-- `none`: not a data message -/
  unpack : List Byte → Option Msg

/-- The circumstances in which a node sends or handles something. -/
structure H where
  /-- its tables; `push` is what the connections answer -/
  n : Node
  /-- id of the endpoint that the connection is bound to -/
  bound : Option Nat := none
  /-- the connection is CONNECTED -/
  connected : Bool := true
  /-- what the system does at each push -/
  evs : List Env := []

/-- The network. -/
structure S where
  lane : Nat → Stream.S
  /-- how many of the messages that came out of a stream have been handled -/
  done : Nat → Nat := fun _ => 0
  /-- ghost: messages put into the queues of the streams, in order -/
  queue : List (Nat × List Byte) := []
  /-- ghost: messages handled, with their stream, in order -/
  handled : List (Nat × List Byte) := []
  /-- ghost: calls of `on_recv_msg`, with the node, in order -/
  delivered : List (Nat × Msg) := []
  /-- ghost: messages built by `send_data`, in order -/
  calls : List Msg := []
  /-- ghost: those of them that a connection accepted, in order -/
  sends : List Msg := []

/-- `connection::push` of the connection with stream `c`. -/
def put (cf : Conf) (s : S) (c : Nat) (b : List Byte) (ev : Env) : Option (S × Int) :=
  match Stream.push (cf.stream c) (s.lane c) b ev with
  | none => none
  | some (l, x) => some ({ s with
      lane := Endpoint.upd s.lane c l
      queue := s.queue ++ (l.queue.drop (s.lane c).queue.length).map fun m => (c, m) }, x)

/-- A push that works at once. -/
def calmEnv : Env := ⟨none, 0, true⟩

/-- The effects of a handler of node `x`. -/
def perform (cf : Conf) (x : Nat) : S → List Eff → List Env → Option S
  | s, [], _ => some s
  | s, .deliver m :: es, evs => perform cf x { s with delivered := s.delivered ++ [(x, m)] } es evs
  | s, .sent _ c m :: es, evs =>
    match put cf s c (cf.pack m) (evs.headD calmEnv) with
    | none => none
    | some (s, _) => perform cf x s es evs.tail
  | s, .refused _ c m :: es, evs =>
    match put cf s c (cf.pack m) (evs.headD calmEnv) with
    | none => none
    | some (s, _) => perform cf x s es evs.tail
  | s, .response _ :: es, evs => perform cf x s es evs
  | s, .toSelf _ :: es, evs => perform cf x s es evs
  | s, .sync _ _ :: es, evs => perform cf x s es evs

/-- What happens. -/
inductive Ev where
  /-- the application of a node calls `send_data` -/
  | send (h : H) (limit tid : Nat) (content : List Nat) (seq : Nat) (needRsp : Bool)
  /-- a message of another kind is pushed -/
  | other (c : Nat) (b : List Byte) (ev : Env)
  /-- something happens to a stream (all but a push) -/
  | lane (l : Nat) (e : Stream.Ev)
  /-- the next message that came out of a stream is handled -/
  | handle (l : Nat) (h : H)

/-- Messages accepted. -/
def accepted (es : List Eff) : List Msg :=
  es.filterMap fun x => match x with
    | .sent _ _ m => some m
    | _ => none

/-- What the handler of `h` does with a message, `src/atbus_connection.cpp:866-881`, `src/atbus_msg_handler.cpp:73-110`. -/
def H.effects (h : H) (m : Msg) : List Eff := (Node.handle h.n (some h.connected) (unpackSrc h.bound m)).1

/-- The next message of stream `l` is taken. -/
def S.take (s : S) (l : Nat) (b : List Byte) : S :=
  { s with done := Endpoint.upd s.done l (s.done l + 1), handled := s.handled ++ [(l, b)] }

/-- `send_data` with the effects `es`. -/
def S.call (s : S) (m : Msg) (es : List Eff) : S := { s with calls := s.calls ++ [m], sends := s.sends ++ accepted es }

/-- One event; `none`: undefined behaviour. -/
def step (cf : Conf) (s : S) : Ev → Option S
  | .send h limit tid content seq needRsp =>
    let es := (sendData h.n limit tid content seq needRsp).1
    perform cf h.n.id (s.call (dataMsg h.n tid content seq needRsp) es) es h.evs
  | .other c b ev => (put cf s c b ev).map Prod.fst
  | .lane l e => (Stream.step (cf.stream l) (s.lane l) e).map fun x => { s with lane := Endpoint.upd s.lane l x }
  | .handle l h =>
    match (s.lane l).got[s.done l]? with
    | none => some s
    | some b =>
      match cf.unpack b with
      | none => some (s.take l b)
      | some m => perform cf h.n.id (s.take l b) (h.effects m) h.evs

/-- Runs the events in order. -/
def run (cf : Conf) (s : S) : List Ev → Option S
  | [] => some s
  | e :: es =>
    match step cf s e with
    | none => none
    | some s => run cf s es

/-- New streams. -/
def init (hf bf ag : Nat) : S := { lane := fun _ => Stream.init hf bf ag }

end Verif.Node.Relay
