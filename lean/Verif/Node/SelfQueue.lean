import Verif.Basic

/-!
Model of sequence numbers and of the messages a node sends to itself,
`src/atbus_node.cpp`.

Simplifications: a queued message is kept decoded (protobuf serialising and
parsing of the same message gives the message back).  Application code runs
inside callbacks; it is an arbitrary function `cb` of everything that happened so
far, which says what the callback does.  Handling a command
(`on_recv(NULL, ...)`) calls application code and may queue a response; both are
covered by `cb`.
-/
namespace Verif.Node

/-- `node::alloc_msg_seq`, `src/atbus_node.cpp:1840-1846`: the counter `c` (also the last value handed out) is incremented
until it is not 0.  `seq_alloc_u64::inc` (library) is taken to return the incremented 64-bit counter. -/
def allocSeq (c : Nat) : Nat := if (c + 1) % W64 = 0 then (c + 2) % W64 else (c + 1) % W64

/-- The value handed out by the `k`-th allocation (`k = 0`: the initial counter). -/
def seqAfter (c : Nat) : Nat → Nat
  | 0 => c
  | k + 1 => allocSeq (seqAfter c k)

namespace Self

/-- A message to the node itself: data request, data response, or command. -/
inductive Kind where
  | req
  | rsp
  | cmd
deriving DecidableEq, Repr

/-- A message to the node itself; of its content only the kind, the flag asking for an answer, and a ghost tag. -/
structure SMsg where
  kind : Kind
  needRsp : Bool := false
  tag : Nat
deriving DecidableEq, Repr

/-- What can be observed, in order. -/
inductive Ev where
  /-- message put into a queue by `send_msg` -/
  | queued (m : SMsg)
  /-- `on_recv_msg` -/
  | data (m : SMsg)
  /-- `on_forward_response` for a message to oneself -/
  | fake (m : SMsg)
  /-- a command handled by `on_recv` -/
  | cmd (m : SMsg)
deriving DecidableEq, Repr

/-- What a callback can do with the node: send to itself, or reset the node. -/
inductive Act where
  | send (m : SMsg)
  | reset
deriving DecidableEq, Repr

/-- `self_data_msgs_`, `self_cmd_msgs_`, the two flags of `flags_` and the observations so far. -/
structure Q where
  data : List SMsg := []
  cmd : List SMsg := []
  /-- EN_FT_RECV_SELF_MSG -/
  recvSelf : Bool := false
  /-- EN_FT_IN_CALLBACK -/
  inCb : Bool := false
  log : List Ev := []
deriving DecidableEq, Repr

/-- The queueing part of `node::send_msg`, `src/atbus_node.cpp:2304-2326`. -/
def push (q : Q) (m : SMsg) : Q :=
  match m.kind with
  | .cmd => { q with cmd := q.cmd ++ [m], log := q.log ++ [.queued m] }
  | _ => { q with data := q.data ++ [m], log := q.log ++ [.queued m] }

/-- One action inside a callback: `send_msg` queues and its call of `dispatch_all_self_msgs` returns at once because the
flags are set; `reset` (`src/atbus_node.cpp:270-387`) cannot dispatch either, and clears the flags and the queues
(`:381-384`). -/
def act (q : Q) : Act → Q
  | .send m => push q m
  | .reset => { q with data := [], cmd := [], recvSelf := false, inCb := false }

/-- A callback. -/
def callback (cb : List Ev → List Act) (q : Q) : Q := (cb q.log).foldl act q

/-- The body of the first loop of `dispatch_all_self_msgs`, `src/atbus_node.cpp:1698-1742`, for the message `m` at the front:
`none` if `pop_front` is called on an empty list (undefined behaviour).  The second component counts `++ret`. -/
def stepData (cb : List Ev → List Act) (m : SMsg) (q : Q) : Option (Q × Nat) :=
  let r : Q × Nat :=
    if m.kind = .req then
      let q1 := callback cb { q with log := q.log ++ [.data m] }
      (if m.needRsp then callback cb { q1 with log := q1.log ++ [.fake m] } else q1, 1)
    else (q, 0)
  match r.1.data with
  | [] => none
  | _ :: rest => some ({ r.1 with data := rest }, r.2)

/-- The body of the second loop, `src/atbus_node.cpp:1746-1777`. -/
def stepCmd (cb : List Ev → List Act) (m : SMsg) (q : Q) : Option (Q × Nat) :=
  let q1 := callback cb { q with log := q.log ++ [.cmd m] }
  match q1.cmd with
  | [] => none
  | _ :: rest => some ({ q1 with cmd := rest }, 1)

/-- First loop, `src/atbus_node.cpp:1697-1743`: state, number handled, `loop_left` when the loop ends (0 if it was not
positive). -/
def loopData (cb : List Ev → List Act) : Nat → Q → Option (Q × Nat × Nat)
  | 0, q => some (q, 0, 0)
  | k + 1, q =>
    match q.data with
    | [] => some (q, 0, k)
    | m :: _ =>
      match stepData cb m q with
      | none => none
      | some (q', a) =>
        match loopData cb k q' with
        | none => none
        | some (q'', b, l) => some (q'', a + b, l)

/-- Second loop, `src/atbus_node.cpp:1745-1778`. -/
def loopCmd (cb : List Ev → List Act) : Nat → Q → Option (Q × Nat)
  | 0, q => some (q, 0)
  | k + 1, q =>
    match q.cmd with
    | [] => some (q, 0)
    | m :: _ =>
      match stepCmd cb m q with
      | none => none
      | some (q', a) =>
        match loopCmd cb k q' with
        | none => none
        | some (q'', b) => some (q'', a + b)

/-- `loop_left` at the start, `src/atbus_node.cpp:1691-1694`. -/
def loopLimit (loopTimes : Int) : Nat := if loopTimes ≤ 0 then 10240 else loopTimes.toNat

/-- `node::dispatch_all_self_msgs`, `src/atbus_node.cpp:1683-1780`. -/
def dispatch (loopTimes : Int) (cb : List Ev → List Act) (q : Q) : Option (Q × Nat) :=
  if q.recvSelf || q.inCb then some (q, 0)
  else
    match loopData cb (loopLimit loopTimes) { q with recvSelf := true } with
    | none => none
    | some (q1, a, l) =>
      match loopCmd cb l q1 with
      | none => none
      | some (q2, b) => some ({ q2 with recvSelf := false }, a + b)

/-- `node::send_msg` to the own id outside callbacks, `src/atbus_node.cpp:2279-2330`. -/
def send (loopTimes : Int) (cb : List Ev → List Act) (m : SMsg) (q : Q) : Option Q :=
  (dispatch loopTimes cb (push q m)).map (·.1)

/-- Calls from outside: a send, a send from a callback that was not caused by the queue (for example for a network
message), and the call of `proc` or `poll`. -/
inductive Op where
  | send (m : SMsg)
  | sendFromCallback (m : SMsg)
  | dispatch
deriving DecidableEq, Repr

/-- One call. -/
def step (loopTimes : Int) (cb : List Ev → List Act) (q : Q) : Op → Option Q
  | .send m => send loopTimes cb m q
  | .sendFromCallback m =>
    (send loopTimes cb m { q with inCb := true }).map fun q => { q with inCb := false }
  | .dispatch => (dispatch loopTimes cb q).map (·.1)

/-- Runs the calls in order (plumbing). -/
def run (loopTimes : Int) (cb : List Ev → List Act) (q : Q) : List Op → Option Q
  | [] => some q
  | o :: os => (step loopTimes cb q o).bind fun q' => run loopTimes cb q' os

end Self
end Verif.Node
