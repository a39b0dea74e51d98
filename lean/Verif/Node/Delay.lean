import Verif.Basic
import Verif.Node.SelfQueue

/-!
Model of the measurement of the delay to an endpoint: the clock of a node (`node::start`, `node::proc`, `src/atbus_node.cpp:230-238`,
`:389-400`), `node::ping_endpoint` (`:1785-1824`), `msg_handler::send_ping` (`src/atbus_msg_handler.cpp:138-161`),
`on_recv_node_ping` and `on_recv_node_pong` (`:1132-1202`), `endpoint::set_stat_ping` and `set_stat_ping_delay`
(`src/atbus_endpoint.cpp:537-548`).

One node, one of its endpoints and the node at the other end.  Simplified: the messages between them may be lost and may overtake each other
(there can be more than one connection); the fault counters of `ping_endpoint` are in `Verif.Node.Peer`.  `time_t` has 64 bits.
-/
namespace Verif.Node.Delay

/-- The values of `time_t` and `int64_t`. -/
def inRange (x : Int) : Bool := decide (-(2 ^ 63) ≤ x ∧ x < 2 ^ 63)

/-- A signed operation with the exact result `x`; `none`: it overflows, which is undefined. -/
def signed (x : Int) : Option Int := if inRange x then some x else none

/-- `sec * 1000 + (usec / 1000) % 1000`, `src/atbus_msg_handler.cpp:158`, `:1196`. -/
def millis (sec usec : Int) : Option Int :=
  match signed (sec * 1000) with
  | none => none
  | some a => signed (a + (usec.tdiv 1000).tmod 1000)

/-- A ping or a pong: `head().sequence()` and `time_point`. -/
structure Msg where
  seq : Nat
  time : Int
deriving DecidableEq, Repr

structure S where
  /-- `event_timer_.sec`, `event_timer_.usec` -/
  sec : Int := 0
  usec : Int := 0
  /-- `msg_seq_alloc_` -/
  seq : Nat := 0
  /-- `stat_.unfinished_ping`, `stat_.ping_delay`, `stat_.last_pong_time` of the endpoint -/
  stat : Nat := 0
  delay : Int := 0
  lastPong : Int := 0
  /-- pings and pongs on their way -/
  out : List Msg := []
  back : List Msg := []
  /-- ghost: pings sent, with the clock at that time, in order -/
  sent : List (Nat × Int × Int) := []
  /-- ghost: the time points `on_pong` was called with -/
  given : List Int := []
deriving DecidableEq, Repr

/-- What happens. -/
inductive Ev where
  /-- `start` with this time -/
  | start (sec usec : Int)
  /-- `proc` with this time -/
  | proc (sec usec : Int)
  /-- `ping_endpoint` finds a control connection; `ok`: the connection takes the message -/
  | ping (ok : Bool)
  /-- another message of the node takes a sequence number -/
  | other
  /-- the other end handles a ping; `bound`: its connection is bound to an endpoint -/
  | answer (i : Nat) (bound : Bool)
  /-- a pong is handled -/
  | pong (i : Nat)
  /-- a ping or a pong is lost -/
  | loseOut (i : Nat)
  | loseBack (i : Nat)
  /-- the other end sends a pong of its own making -/
  | forge (m : Msg)
deriving DecidableEq, Repr

/-- The clock in `proc`, `src/atbus_node.cpp:395-400`. -/
def tick (s : S) (sec usec : Int) : S :=
  if sec > s.sec then { s with sec := sec, usec := usec }
  else if sec = s.sec ∧ usec > s.usec then { s with usec := usec }
  else s

/-- `on_recv_node_pong`, `src/atbus_msg_handler.cpp:1178-1202`: the callback gets `m.node_ping_req()`, which is not set in a pong. -/
def onPong (s : S) (m : Msg) : Option S :=
  let s := { s with given := s.given ++ [0] }
  if m.seq = s.stat then
    match millis s.sec s.usec with
    | none => none
    | some now =>
      match signed (now - m.time) with
      | none => none
      | some d => some { s with stat := 0, delay := d, lastPong := s.sec }
  else some s

/-- One event; `none`: undefined behaviour. -/
def step (s : S) : Ev → Option S
  /- an explicit time; 0, 0 is replaced by the time of the system -/
  | .start sec usec => some { s with sec := sec, usec := usec }
  | .proc sec usec => some (tick s sec usec)
  | .ping ok =>
    let q := allocSeq s.seq
    match millis s.sec s.usec with
    | none => none
    | some t =>
      if ok then some { s with seq := q, stat := q, out := s.out ++ [⟨q, t⟩], sent := s.sent ++ [(q, s.sec, s.usec)] }
      else some { s with seq := q }
  | .other => some { s with seq := allocSeq s.seq }
  | .answer i bound =>
    match s.out[i]? with
    | none => some s
    | some m => some { s with out := s.out.eraseIdx i, back := if bound then s.back ++ [m] else s.back }
  | .pong i =>
    match s.back[i]? with
    | none => some s
    | some m => onPong { s with back := s.back.eraseIdx i } m
  | .loseOut i => some { s with out := s.out.eraseIdx i }
  | .loseBack i => some { s with back := s.back.eraseIdx i }
  | .forge m => some { s with back := s.back ++ [m] }

/-- Runs the events in order. -/
def run (s : S) : List Ev → Option S
  | [] => some s
  | e :: es =>
    match step s e with
    | none => none
    | some s => run s es

end Verif.Node.Delay
