import Verif.Basic

/-!
Model of the life cycle of a node: activation, shutdown and reset,
`src/atbus_node.cpp` and the parts of `src/atbus_msg_handler.cpp` that activate a
node or shut it down.

A function of the code that calls application code runs the parameter `hook` at
that place.  What the application does there, and what the network and the timers
cause inside `proc`, `poll` and the other functions, is an arbitrary list of
calls that may depend on everything observed so far.  Times, connections and
endpoints other than the parent are left out.
-/
namespace Verif.Node.Life

/-- `node::state_t`, `include/atbus_node.h:90-101`. -/
inductive St where
  | created | inited | lostParent | connectingParent | running
deriving DecidableEq, Repr

/-- What can be observed, in order. -/
inductive Ev where
  /-- `on_node_up`; `late`: the flag SHUTDOWN was already set, or the node is being reset -/
  | up (late : Bool)
  /-- `on_node_down` -/
  | down
  /-- `reset` begins ("node reset" in the info log); `early`: the node is active and the flag SHUTDOWN not set -/
  | resetBegins (early : Bool)
  /-- `reset` ends: the life cycle is over -/
  | resetEnds
  /-- any other call of application code -/
  | other
deriving DecidableEq, Repr

/-- The modelled members: state, flags ACTIVED, SHUTDOWN, PARENT_REG_DONE, RESETTING, IN_PROC and IN_POLL; whether the id
is not 0, a parent address is configured, and `node_parent_.node_` is set. -/
structure S where
  st : St := .created
  actived : Bool := false
  shutdown : Bool := false
  regDone : Bool := false
  resetting : Bool := false
  inProc : Bool := false
  inPoll : Bool := false
  hasId : Bool := false
  parentAddr : Bool := false
  parent : Bool := false
  log : List Ev := []
deriving DecidableEq, Repr

/-- The calls, by the application or by a connection. -/
inductive Call where
  | init (hasId parentAddr : Bool)
  /-- `connectOk`: the result of `connect` -/
  | start (connectOk : Bool)
  | shutdown
  | reset
  /-- `reconnect`: the timer for the parent is due, there is no control connection and `connect` succeeds -/
  | proc (reconnect : Bool)
  | poll
  /-- `add_endpoint` with an endpoint that contains the subnets of the node -/
  | addParent
  /-- `remove_endpoint` with the id of the parent -/
  | removeParent
  /-- `disconnect` with the id of the parent -/
  | disconnectParent
  /-- `on_disconnect` for a connection with the address of the parent -/
  | connectionLost
  /-- a registration response: accepted, on a connection with the parent's address, from the parent, whose subnets
  contain the own id -/
  | regRsp (accepted onParentAddr fromParent covers : Bool)
  /-- a registration request on a connection with the parent's address, whose subnets do not contain the own ones -/
  | regConflict
deriving DecidableEq, Repr

/-- Appends to the history (ghost). -/
def S.emit (s : S) (e : Ev) : S := { s with log := s.log ++ [e] }

/-- `node::on_actived`, `src/atbus_node.cpp:1599-1613`. -/
def onActived (hook : S → Option S) (s : S) : Option S :=
  if s.actived then some { s with st := .running }
  else hook ({ s with st := .running, actived := true }.emit (.up (s.shutdown || s.resetting)))

/-- `node::on_shutdown`, `src/atbus_node.cpp:1576-1588`. -/
def onShutdown (hook : S → Option S) (s : S) : Option S :=
  if s.actived then hook (s.emit .down) else some s

/-- `node::shutdown`, `src/atbus_node.cpp:1663-1670`. -/
def shutdownF (hook : S → Option S) (s : S) : Option S :=
  if s.shutdown then some s else onShutdown hook { s with shutdown := true }

/-- Application code that is called for another reason. -/
def callOut (hook : S → Option S) (s : S) : Option S := hook (s.emit .other)

/-- `node::fatal_shutdown`, `src/atbus_node.cpp:1672-1681`. -/
def fatal (hook : S → Option S) (s : S) : Option S :=
  if s.shutdown then some s else (shutdownF hook s).bind (callOut hook)

/-- The parent's branch of `node::remove_endpoint`, `src/atbus_node.cpp:2224-2248`. -/
def removeParent (hook : S → Option S) (s : S) : Option S :=
  if s.hasId && s.parent then
    (callOut hook { s with parent := false, st := .lostParent }).bind fun s =>
      if s.actived then some s else fatal hook s
  else some s

/-- The end of `reset`, `src/atbus_node.cpp:379-385`. -/
def clearAll (s : S) : S :=
  { st := .created, hasId := s.hasId, parentAddr := s.parentAddr, parent := s.parent, log := s.log ++ [.resetEnds] }

/-- `node::reset`, `src/atbus_node.cpp:270-387`. -/
def resetF (hook : S → Option S) (s : S) : Option S :=
  if s.resetting then some s
  else
    (callOut hook ({ s with resetting := true }.emit (.resetBegins (s.actived && !s.shutdown)))).bind fun s =>
      (removeParent hook s).bind fun s =>
        (callOut hook s).bind fun s => some (clearAll s)

/-- `node::init`, `src/atbus_node.cpp:189-223`. -/
def initF (hook : S → Option S) (hasId parentAddr : Bool) (s : S) : Option S :=
  (if s.st = .created then some s else resetF hook s).bind fun s =>
    some { s with st := .inited, hasId := hasId, parentAddr := parentAddr }

/-- `node::start`, `src/atbus_node.cpp:225-262`. -/
def startF (hook : S → Option S) (connectOk : Bool) (s : S) : Option S :=
  if s.st = .created then some s
  else if s.hasId && s.parentAddr then
    if s.parent then some s
    else (callOut hook s).bind fun s => some { s with st := if connectOk then .connectingParent else .lostParent }
  else onActived hook s

/-- The reconnection to the parent in `proc`, `src/atbus_node.cpp:459-478`; `connect` fails in the state CREATED, `:706-709`. -/
def reconnectF (hook : S → Option S) (reconnect : Bool) (s : S) : Option S :=
  if s.hasId && s.parentAddr && reconnect && s.st != .created then
    (callOut hook s).bind fun s => some { s with st := .connectingParent }
  else some s

/-- The part of `proc` after the guard, `src/atbus_node.cpp:402-610`. -/
def procBody (hook : S → Option S) (reconnect : Bool) (s : S) : Option S :=
  if s.st = .created then some s
  else if s.shutdown then (callOut hook s).bind (resetF hook)
  else
    (callOut hook s).bind fun s =>
      (reconnectF hook reconnect s).bind fun s =>
        (callOut hook s).bind fun s => if s.shutdown then resetF hook s else some s

/-- `node::proc`, `src/atbus_node.cpp:389-611`, with its `flag_guard_t`. -/
def procF (hook : S → Option S) (reconnect : Bool) (s : S) : Option S :=
  if s.inProc then some s
  else (procBody hook reconnect { s with inProc := true }).map fun s => { s with inProc := false }

/-- The part of `poll` after the guard, `src/atbus_node.cpp:619-671`. -/
def pollBody (hook : S → Option S) (s : S) : Option S :=
  if s.shutdown then (callOut hook s).bind (resetF hook)
  else (callOut hook s).bind fun s => if s.shutdown then resetF hook s else some s

/-- `node::poll`, `src/atbus_node.cpp:613-672`. -/
def pollF (hook : S → Option S) (s : S) : Option S :=
  if s.inPoll then some s
  else (pollBody hook { s with inPoll := true }).map fun s => { s with inPoll := false }

/-- The parent's branch of `node::add_endpoint`, `src/atbus_node.cpp:1068-1107`. -/
def addParentF (hook : S → Option S) (s : S) : Option S :=
  if s.resetting then some s
  else if !s.hasId || s.parent then some s
  else
    (if (s.st = .lostParent ∨ s.st = .connectingParent) ∧ s.regDone = true then onActived hook { s with parent := true }
     else some { s with parent := true }).bind (callOut hook)

/-- The parent's branch of `node::disconnect`, `src/atbus_node.cpp:795-810`. -/
def disconnectParentF (hook : S → Option S) (s : S) : Option S :=
  if s.parent then (callOut hook { s with parent := false }).bind (callOut hook) else some s

/-- `node::on_disconnect`, `src/atbus_node.cpp:1530-1550`. -/
def connectionLostF (hook : S → Option S) (s : S) : Option S :=
  if s.st = .connectingParent ∧ s.parentAddr = true then
    if s.actived then some { s with st := .lostParent } else fatal hook { s with st := .lostParent }
  else some s

/-- The accepted branch of `on_recv_node_reg_rsp`, `src/atbus_msg_handler.cpp:1070-1088`. -/
def regAccepted (hook : S → Option S) (fromParent covers : Bool) (s : S) : Option S :=
  if s.st = .connectingParent then
    if s.hasId && s.parent && fromParent then onActived hook { s with regDone := true }
    else if covers then some { s with regDone := true } else some s
  else some s

/-- `msg_handler::on_recv_node_reg_rsp`, `src/atbus_msg_handler.cpp:1005-1091`. -/
def regRspF (hook : S → Option S) (accepted onParentAddr fromParent covers : Bool) (s : S) : Option S :=
  (callOut hook s).bind fun s =>
    if accepted then regAccepted hook fromParent covers s
    else (if onParentAddr && !s.actived then fatal hook s else callOut hook s).bind (callOut hook)

/-- `src/atbus_msg_handler.cpp:886-905`. -/
def regConflictF (hook : S → Option S) (s : S) : Option S :=
  (if s.st = .connectingParent then fatal hook s else some s).bind (callOut hook)

/-- One call of the application; the functions are cited above. -/
def callF (hook : S → Option S) (s : S) : Call → Option S
  | .init i p => initF hook i p s
  | .start ok => startF hook ok s
  | .shutdown => shutdownF hook s
  | .reset => resetF hook s
  | .proc r => procF hook r s
  | .poll => pollF hook s
  | .addParent => addParentF hook s
  | .removeParent => removeParent hook s
  | .disconnectParent => disconnectParentF hook s
  | .connectionLost => connectionLostF hook s
  | .regRsp a o f c => regRspF hook a o f c s
  | .regConflict => regConflictF hook s

/-- A list of calls; `f` executes one of them. -/
def calls (f : S → Call → Option S) : S → List Call → Option S
  | s, [] => some s
  | s, c :: cs => (f s c).bind fun s => calls f s cs

/-- Callbacks may call the node again; `d` bounds the depth of these calls (`none` when it is exceeded). -/
def exec (cb : List Ev → List Call) : Nat → S → Call → Option S
  | 0, _, _ => none
  | d + 1, s, c => callF (fun s => calls (exec cb d) s (cb s.log)) s c

/-- Runs the calls from a new node; callbacks nest up to depth `d`. -/
def run (cb : List Ev → List Call) (d : Nat) (cs : List Call) : Option S := calls (exec cb d) {} cs

end Verif.Node.Life
