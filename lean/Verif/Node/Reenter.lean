import Verif.Basic

/-!
Model of calls back into a node: the flags that mark what a node is doing, their
guards (`node::flag_guard_t`, `src/atbus_node.cpp:85-97`, and
`io_stream_flag_guard`, `src/channel_io_stream.cpp:138-159`), and the functions
that look at them: `proc`, `poll`, `reset`, `init`, `shutdown`,
`dispatch_all_self_msgs` and `io_stream_close`.

Calls that are not finished are a stack of frames.  Where a function of the node
calls the application the application may call any function of the node again.
What the network, the memory channels and the timers cause is free: at any place
where the code may call the application it may do so any number of times.
Messages to oneself are only counted, data and commands together.  Connections
and endpoints are left out.  Calling `on_debug`, which has no guard, is left out.
-/
namespace Verif.Node.Reenter

/-- How far `proc` or `poll` is. -/
inductive Ph where
  /-- shutting down on entry, `src/atbus_node.cpp:408-412,620-624` -/
  | stop
  /-- the same after the messages to oneself -/
  | die
  /-- `proc`: the loop over the memory channels, `:416-419`; `poll`: `uv_run`, `:629-632` -/
  | io
  /-- `proc`: timers, `:421-573` -/
  | timers
  /-- before the messages to oneself, `:576,637` -/
  | selfs
  /-- before the collection of endpoints, `:579-596,640-657` -/
  | gcE
  /-- before the collection of connections, `:599-602,660-663` -/
  | gcC
  /-- before the last look at SHUTDOWN, `:605-608,666-669` -/
  | check
  /-- about to return -/
  | last
deriving DecidableEq, Repr

/-- How far `reset` is, `src/atbus_node.cpp:270-387`. -/
inductive RPh where
  /-- messages to oneself, `:276-282` -/
  | selfs
  /-- connections and endpoints are reset, `:284-326` -/
  | down
  /-- pending lists and ping timers are cleared, `:329-356` -/
  | gc
  /-- `uv_run` for connections that are still referred to, `:360-362` -/
  | wait
  /-- `io_stream_close`, `:365` -/
  | close
deriving DecidableEq, Repr

/-- A call that is not finished.  `hold`: its guard set the flag and clears it. -/
inductive Frame where
  /-- `node::proc`; `life`: which static buffer and table of memory channels it uses -/
  | proc (ph : Ph) (life : Nat)
  | poll (ph : Ph)
  | gcE (hold : Bool)
  | gcC (hold : Bool)
  /-- `dispatch_all_self_msgs`; `busy`: it handles the message at the front -/
  | self (busy : Bool)
  /-- a callback of the application -/
  | cb (hold : Bool)
  /-- a callback of libuv in the stream channel -/
  | uv (hold : Bool)
  /-- any other function of the node that the application called -/
  | op
  /-- the application runs the event loop itself -/
  | loop
  | init
  | reset (ph : RPh)
deriving DecidableEq, Repr

/-- The node: state other than CREATED, flags, the stream channel and its flag IN_CALLBACK, the number of messages to
oneself, and how often the static buffer and the tables were freed. -/
structure S where
  on : Bool := false
  inProc : Bool := false
  inPoll : Bool := false
  inCb : Bool := false
  recvSelf : Bool := false
  gcEp : Bool := false
  gcConn : Bool := false
  resetting : Bool := false
  resettingGc : Bool := false
  shutdown : Bool := false
  chan : Bool := false
  chanCb : Bool := false
  selfQ : Nat := 0
  life : Nat := 0
  stack : List Frame := []
deriving DecidableEq, Repr

/-- What may go wrong. -/
inductive Bad where
  /-- `abort()` in `io_stream_close`, `src/channel_io_stream.cpp:271-273` -/
  | abort
  /-- use of the freed static buffer, of an iterator of the cleared table or of the deleted channel -/
  | useAfterFree
  /-- `pop_front` of an empty list, `src/atbus_node.cpp:1742,1777` -/
  | popEmpty
deriving DecidableEq, Repr

/-- What happens next. -/
inductive Ev where
  /-- calls of the application -/
  | proc | poll | reset | init | shutdown | op | loop | sendSelf
  /-- the application returns from a callback -/
  | ret
  /-- the node calls the application -/
  | call
  /-- libuv calls the stream channel -/
  | uv
  /-- a list to collect is not empty -/
  | gc
  /-- the next message to oneself is taken -/
  | take
  /-- `reset` dispatches messages to oneself (again) -/
  | again
  /-- the stream channel is made, `get_iostream_channel` -/
  | chan
  /-- the code goes on -/
  | next
deriving DecidableEq, Repr

/-- Result of a step. -/
inductive Out where
  | ok (s : S)
  | bad (b : Bad)
deriving DecidableEq, Repr

/-- The application has control: outside of all calls or inside a callback. -/
def atApp : List Frame → Bool
  | [] => true
  | .cb _ :: _ => true
  | _ => false

/-- `dispatch_all_self_msgs` is called, `src/atbus_node.cpp:1683-1690`. -/
def callSelf (s : S) : S :=
  if s.recvSelf || s.inCb then s else { s with recvSelf := true, stack := .self false :: s.stack }

/-- `reset` is called, `src/atbus_node.cpp:270-275`. -/
def callReset (s : S) : S :=
  if s.resetting then s else { s with resetting := true, stack := .reset .selfs :: s.stack }

/-- The end of `reset`, `src/atbus_node.cpp:365-386`; `k` are the calls below it. -/
def resetTail (s : S) (k : List Frame) : S :=
  { on := false, selfQ := 0, life := s.life + 1, stack := k }

/-- A callback of the application begins: `flag_guard_t fgd(this, EN_FT_IN_CALLBACK)`. -/
def callApp (s : S) : S := { s with inCb := true, stack := .cb (!s.inCb) :: s.stack }

/-- A callback of libuv begins: `io_stream_flag_guard flag_guard(channel->flags, EN_CF_IN_CALLBACK)`. -/
def callUv (s : S) : S := { s with chanCb := true, stack := .uv (!s.chanCb) :: s.stack }

/-- A call of the application where it has control. -/
def appCall (s : S) : Ev → Option S
  /- `src/atbus_node.cpp:389-412` -/
  | .proc =>
    if s.inProc || !s.on then some s
    else some { s with inProc := true, stack := .proc (if s.shutdown then .stop else .io) s.life :: s.stack }
  /- `src/atbus_node.cpp:613-624` -/
  | .poll =>
    if s.inPoll then some s
    else some { s with inPoll := true, stack := .poll (if s.shutdown then .stop else .io) :: s.stack }
  | .reset => some (callReset s)
  /- `src/atbus_node.cpp:189-192` -/
  | .init => let s := { s with stack := .init :: s.stack }
    if s.on then some (callReset s) else some s
  /- `src/atbus_node.cpp:1663-1670,1576-1588` -/
  | .shutdown => if s.shutdown then some s else some { s with shutdown := true, stack := .op :: s.stack }
  | .op => some { s with stack := .op :: s.stack }
  | .loop => some { s with stack := .loop :: s.stack }
  /- `src/atbus_node.cpp:2270-2330` -/
  | .sendSelf => if s.on then some (callSelf { s with selfQ := s.selfQ + 1 }) else some s
  | _ => none

/-- `proc` and `poll` after the input: the next place, and what is called there. -/
def later (s : S) : Ph → Option (Ph × (S → S))
  | .stop => some (.die, callSelf)
  | .die => some (.last, callReset)
  | .selfs => some (.gcE, callSelf)
  | .gcE => some (.gcC, id)
  | .gcC => some (.check, id)
  | .check => some (.last, if s.shutdown then callReset else id)
  | _ => none

/-- One step; `none` if it is not possible here. -/
def step (s : S) (e : Ev) : Option Out :=
  match s.stack with
  | [] => (appCall s e).map .ok
  | .cb h :: k =>
    match e with
    | .ret => some (.ok { s with inCb := if h then false else s.inCb, stack := k })
    | e => (appCall s e).map .ok
  | .proc .io l :: k =>
    if l ≠ s.life then some (.bad .useAfterFree)
    else match e with
      | .call => some (.ok (callApp s))
      | .next => some (.ok { s with stack := .proc .timers l :: k })
      | _ => none
  | .proc .timers l :: k =>
    match e with
    | .call => some (.ok (callApp s))
    | .next => some (.ok { s with stack := .proc .selfs l :: k })
    | _ => none
  | .proc .last _ :: k =>
    match e with
    | .next => some (.ok { s with inProc := false, stack := k })
    | _ => none
  | .proc ph l :: k =>
    match e, ph, later s ph with
    | .gc, .gcE, _ => some (.ok { s with gcEp := true, stack := .gcE (!s.gcEp) :: .proc .gcC l :: k })
    | .gc, .gcC, _ => some (.ok { s with gcConn := true, stack := .gcC (!s.gcConn) :: .proc .check l :: k })
    | .next, _, some (ph', f) => some (.ok (f { s with stack := .proc ph' l :: k }))
    | _, _, _ => none
  | .poll .io :: k =>
    match e with
    | .uv => if s.chan then some (.ok (callUv s)) else none
    | .next => some (.ok { s with stack := .poll .selfs :: k })
    | _ => none
  | .poll .timers :: _ => none
  | .poll .last :: k =>
    match e with
    | .next => some (.ok { s with inPoll := false, stack := k })
    | _ => none
  | .poll ph :: k =>
    match e, ph, later s ph with
    | .gc, .gcE, _ => some (.ok { s with gcEp := true, stack := .gcE (!s.gcEp) :: .poll .gcC :: k })
    | .gc, .gcC, _ => some (.ok { s with gcConn := true, stack := .gcC (!s.gcConn) :: .poll .check :: k })
    | .next, _, some (ph', f) => some (.ok (f { s with stack := .poll ph' :: k }))
    | _, _, _ => none
  | .gcE h :: k =>
    match e with
    | .call => some (.ok (callApp s))
    | .next => some (.ok { s with gcEp := if h then false else s.gcEp, stack := k })
    | _ => none
  | .gcC h :: k =>
    match e with
    | .call => some (.ok (callApp s))
    | .next => some (.ok { s with gcConn := if h then false else s.gcConn, stack := k })
    | _ => none
  | .self false :: k =>
    match e with
    | .take => if s.selfQ = 0 then none else some (.ok { s with stack := .self true :: k })
    | .next => some (.ok { s with recvSelf := false, stack := k })
    | _ => none
  | .self true :: k =>
    match e with
    | .call => some (.ok (callApp s))
    | .next => if s.selfQ = 0 then some (.bad .popEmpty)
      else some (.ok { s with selfQ := s.selfQ - 1, stack := .self false :: k })
    | _ => none
  | .uv h :: k =>
    match e with
    | .call => some (.ok (callApp s))
    | .next => if !s.chan then some (.bad .useAfterFree)
      else some (.ok { s with chanCb := if h then false else s.chanCb, stack := k })
    | _ => none
  | .op :: k =>
    match e with
    | .call => some (.ok (callApp s))
    | .chan => if s.chan then none else some (.ok { s with chan := true, chanCb := false })
    | .next => some (.ok { s with stack := k })
    | _ => none
  | .loop :: k =>
    match e with
    | .uv => if s.chan then some (.ok (callUv s)) else none
    | .next => some (.ok { s with stack := k })
    | _ => none
  /- `src/atbus_node.cpp:194-224` -/
  | .init :: k =>
    match e with
    | .next => some (.ok { s with on := true, selfQ := 0, stack := k })
    | _ => none
  | .reset .selfs :: k =>
    match e with
    | .call => some (.ok (callApp s))
    | .again => some (.ok (callSelf s))
    | .next => some (.ok { s with stack := .reset .down :: k })
    | _ => none
  | .reset .down :: k =>
    match e with
    | .call => some (.ok (callApp s))
    | .next => some (.ok { s with resettingGc := true, stack := .reset .gc :: k })
    | _ => none
  | .reset .gc :: k =>
    match e with
    | .call => some (.ok (callApp s))
    | .next => some (.ok { s with stack := .reset .wait :: k })
    | _ => none
  | .reset .wait :: k =>
    match e with
    | .uv => if s.chan then some (.ok (callUv s)) else none
    /- `src/channel_io_stream.cpp:268-273` -/
    | .next => if s.chan && s.chanCb then some (.bad .abort) else some (.ok { s with stack := .reset .close :: k })
    | _ => none
  | .reset .close :: k =>
    match e with
    | .uv => if s.chan then some (.ok (callUv s)) else none
    | .next => some (.ok (resetTail s k))
    | _ => none

/-- Steps in order. -/
def run (s : S) : List Ev → Option Out
  | [] => some (.ok s)
  | e :: es =>
    match step s e with
    | none => none
    | some (.bad b) => some (.bad b)
    | some (.ok s') => run s' es

end Verif.Node.Reenter
