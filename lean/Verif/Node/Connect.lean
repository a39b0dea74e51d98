import Verif.Address.Model

/-!
Model of connection attempts and of the connection to the parent: `src/atbus_node.cpp` (connect 706-793, start 226-262, the
timeouts and the parent part of proc 422-493, timers 1398-1433, on_disconnect 1530-1550, on_parent_reg_done 1615-1624,
remove_endpoint 2222-2245) and `src/atbus_connection.cpp` (create 70-85, reset 97-130, connect 266-377, disconnect
379-411, set_status 480-490, the callbacks 528-566 and 619-650).

* A text is the list of its characters.  An address that makes `make_address` throw or misbehave (C54) is treated
  like one it refuses.
* Callbacks into the application do not call back into the node.
* Times are unbounded integers.  After a shutdown was requested nothing more is modelled (see `LifeCycle`).
-/
namespace Verif.Node.Connect

open Verif.Address (parse Parsed prefixCI)

/-- Text of an address. -/
abbrev Text := List Char

/-- `connection::state_t`; `DISCONNECTING` is left before the function that sets it returns. -/
inductive CSt where
  | disconnected
  | connecting
  | handshaking
  | connected
deriving DecidableEq, Repr

/-- A connection object. -/
structure Conn where
  /-- `address_.address` -/
  addr : Text
  st : CSt
  /-- `binding_` -/
  bind : Option Nat
  /-- the stream channel works on a connect request for it -/
  pending : Bool
deriving DecidableEq, Repr

/-- `node::state_t` -/
inductive NSt where
  | inited
  | lost
  | connecting
  | running
deriving DecidableEq, Repr

/-- History of what is done for the parent (ghost). -/
inductive Ev where
  /-- `node::connect` was called for the parent at this time -/
  | call (now : Int)
  /-- the parent was pinged at this time or, still without data connection after `first_idle_timeout`, given up (481-488) -/
  | ping (now : Int)
deriving DecidableEq, Repr

/-- The members of `node::conf_t` used, `include/atbus_node.h:104-138`. -/
structure Conf where
  /-- `first_idle_timeout`, `retry_interval`, `ping_interval` -/
  idle : Int
  retry : Int
  ping : Int
  /-- `parent_address` -/
  parent : Text
  /-- the node has an id -/
  hasId : Bool

/-- The members of `node` used, `include/atbus_node.h:690-760`. -/
structure S where
  /-- `event_timer_.sec` -/
  sec : Int := 0
  conn : Nat → Conn := fun _ => ⟨[], .disconnected, none, false⟩
  /-- connection objects created -/
  next : Nat := 0
  /-- `event_timer_.connecting_list` -/
  list : List (Int × Nat) := []
  /-- `event_timer_.parent_opr_time_point` -/
  opr : Int := 0
  state : NSt := .inited
  /-- `EN_FT_ACTIVED`, `EN_FT_PARENT_REG_DONE` -/
  active : Bool := false
  regDone : Bool := false
  /-- `EN_FT_SHUTDOWN` -/
  shut : Bool := false
  /-- `node_parent_.node_` is set; it has a control connection -/
  parent : Bool := false
  ctl : Bool := false
  log : List Ev := []

/-- Update of one entry (plumbing). -/
def S.set (s : S) (c : Nat) (k : Conn) : S := { s with conn := fun x => if x = c then k else s.conn x }

/-- `UTIL_STRFUNC_STRNCASE_CMP(addr, p, p.size()) == 0`, `src/atbus_node.cpp:718-719`. -/
def matches_ (p addr : Text) : Bool := (addr.take p.length).map Char.toLower == p.map Char.toLower

/-- `remove_connection_timer`, `src/atbus_node.cpp:1418-1431`. -/
def untime (s : S) (c : Nat) : S := { s with list := s.list.filter fun x => x.2 != c }

/-- `connection::create` with `add_connection_timer`, `src/atbus_connection.cpp:70-85`, `src/atbus_node.cpp:1398-1416`. -/
def create (cf : Conf) (s : S) : S × Nat :=
  ({ s with
     conn := fun x => if x = s.next then ⟨[], .disconnected, none, false⟩ else s.conn x
     next := s.next + 1
     list := s.list ++ [(s.sec + cf.idle, s.next)] }, s.next)

/-- `connection::set_status`, `src/atbus_connection.cpp:480-490`. -/
def setStatus (s : S) (c : Nat) (v : CSt) : S :=
  if (s.conn c).st = v then s
  else
    let s := s.set c { s.conn c with st := v }
    if v = .connected then untime s c else s

/-- `node::on_disconnect`, `src/atbus_node.cpp:1530-1550`. -/
def onDisconnect (cf : Conf) (s : S) (c : Nat) : S :=
  if s.state = .connecting ∧ cf.parent ≠ [] ∧ cf.parent = (s.conn c).addr then
    { s with state := .lost, opr := s.sec + cf.retry, shut := s.shut || !s.active }
  else s

/-- `connection::disconnect`, `src/atbus_connection.cpp:379-411`. -/
def disconnect (cf : Conf) (s : S) (c : Nat) : S :=
  if (s.conn c).st = .disconnected then s
  else
    let s := onDisconnect cf s c
    s.set c { s.conn c with st := .disconnected }

/-- `connection::reset`, `src/atbus_connection.cpp:97-130`. -/
def reset (cf : Conf) (s : S) (c : Nat) : S :=
  let s := disconnect cf (untime s c) c
  s.set c { s.conn c with bind := none }

/-- The loopback redirection of `connection::connect`, `src/atbus_connection.cpp:350-354`: the new text. -/
def redirect (addr : Text) : Text :=
  match parse addr with
  | .ok a =>
    if prefixCI "ipv4".toList a.scheme ∧ a.host = "0.0.0.0".toList then Address.format "ipv4".toList "127.0.0.1".toList a.port
    else if prefixCI "ipv6".toList a.scheme ∧ a.host = "::".toList then Address.format "ipv6".toList "::1".toList a.port
    else addr
  | _ => addr

/-- Scheme of a memory or shared memory channel, as `connection::connect` tells it, `src/atbus_connection.cpp:280`, `:317`. -/
def isShared (addr : Text) : Bool :=
  match parse addr with
  | .ok a => prefixCI "mem".toList a.scheme || prefixCI "shm".toList a.scheme
  | _ => false

/-- `connection::connect` of a new object, `src/atbus_connection.cpp:266-377`; `sys`: the channel (stream, memory or shared
memory) takes the call. -/
def connConnect (s : S) (c : Nat) (addr : Text) (sys : Bool) : S × Int :=
  match parse addr with
  | .ok _ =>
    if isShared addr then
      let s := s.set c { s.conn c with addr := addr }
      if sys then (setStatus s c (if (s.conn c).bind = none then .handshaking else .connected), Err.SUCCESS)
      else (s, Err.CHANNEL_BUFFER_INVALID)
    else
      let s := s.set c { s.conn c with addr := redirect addr, st := .connecting }
      if sys then (s.set c { s.conn c with pending := true }, Err.SUCCESS) else (s, Err.CHANNEL_NOT_SUPPORT)
  | _ => (s.set c { s.conn c with addr := addr }, Err.CHANNEL_ADDR_INVALID)

/-- An attempt that is found in the list, `src/atbus_node.cpp:712-722`, `:755-767`. -/
def found (s : S) (ok : Conn → Bool) (addr : Text) : Bool :=
  s.list.any fun x => (s.conn x.2).st != .connected && ok (s.conn x.2) && matches_ (s.conn x.2).addr addr

/-- `node::connect(addr)`, `src/atbus_node.cpp:706-744`. -/
def connect (cf : Conf) (s : S) (addr : Text) (sys : Bool) : S × Int :=
  if found s (fun _ => true) addr then (s, Err.SUCCESS)
  else
    let (s, c) := create cf s
    if prefixCI "mem:".toList addr || prefixCI "shm:".toList addr then (s, Err.ACCESS_DENY)
    else connConnect s c addr sys

/-- `node::connect(addr, endpoint)`, `src/atbus_node.cpp:746-793`; the endpoint takes every connection. -/
def connectTo (cf : Conf) (s : S) (addr : Text) (ep : Nat) (sys : Bool) : S × Int :=
  if found s (fun k => k.bind == some ep) addr then (s, Err.SUCCESS)
  else
    let (s, c) := create cf s
    let (s, code) := connConnect s c addr sys
    if code < 0 then (s, code)
    else
      let s := s.set c { s.conn c with bind := some ep }
      -- `endpoint::add_connection` makes a handshaking connection connected, `src/atbus_endpoint.cpp:311-315`
      (if (s.conn c).st = .handshaking then setStatus s c .connected else s, Err.SUCCESS)

/-- The timeouts of `node::proc`, `src/atbus_node.cpp:422-456`.  Every round removes the first entry. -/
def expire (cf : Conf) (sec : Int) : Nat → S → S
  | 0, s => s
  | n + 1, s =>
    match s.list with
    | [] => s
    | (d, c) :: _ =>
      if (s.conn c).st = .connected then expire cf sec n (untime s c)
      else if d ≥ sec then s
      else expire cf sec n (reset cf s c)

/-- The parent part of `node::proc`, `src/atbus_node.cpp:459-493`; `sys`: as for `connConnect`. -/
def parentPart (cf : Conf) (s : S) (sec : Int) (sys : Bool) : S :=
  if cf.hasId = true ∧ cf.parent ≠ [] ∧ s.opr ≠ 0 ∧ s.opr < sec then
    if s.parent && s.ctl then { s with opr := sec + cf.ping, log := s.log ++ [.ping sec] }
    else
      let (s, code) := connect cf { s with log := s.log ++ [.call sec] } cf.parent sys
      if code < 0 then { s with opr := sec + cf.retry } else { s with opr := sec + cf.idle, state := .connecting }
  else s

/-- `node::start`, `src/atbus_node.cpp:226-262`. -/
def start (cf : Conf) (s : S) (now : Int) (sys : Bool) : S :=
  let s := { s with sec := now }
  if cf.hasId = true ∧ cf.parent ≠ [] then
    if s.parent then s
    else
      let (s, code) := connect cf { s with log := s.log ++ [.call now] } cf.parent sys
      if code ≥ 0 then { s with opr := s.sec + cf.idle, state := .connecting }
      else { s with opr := s.sec + cf.retry, state := .lost }
  else { s with state := .running, active := true }

/-- A call of the node or an event of its connections. -/
inductive Op where
  | start (now : Int) (sys : Bool)
  | proc (sec : Int) (sys : Bool)
  | connect (addr : Text) (sys : Bool)
  | connectTo (addr : Text) (ep : Nat) (sys : Bool)
  /-- the stream channel reports the end of a connect request -/
  | done (c : Nat) (ok : Bool)
  /-- a peer connected, and has this address -/
  | accepted (addr : Text)
  /-- `connection::set_status(CONNECTED)`: the connection is bound to an endpoint -/
  | established (c : Nat) (ep : Nat)
  /-- `connection::reset` -/
  | drop (c : Nat)
  /-- the parent becomes the parent, `src/atbus_node.cpp:1082-1095`; its control connection is found or lost -/
  | parentUp
  | ctl (b : Bool)
  /-- the parent accepted the registration, `src/atbus_msg_handler.cpp:1070-1076` -/
  | regDone
  /-- `remove_endpoint` of the parent -/
  | parentDown
  /-- `node::disconnect` of the parent, `src/atbus_node.cpp:795-808` -/
  | parentGone
deriving Repr

/-- `node::on_actived` as far as it matters here. -/
def activate (s : S) : S := { s with state := .running, active := true }

/-- One event. -/
def step (cf : Conf) (s : S) : Op → S × Int
  | .start now sys => (start cf s now sys, Err.SUCCESS)
  | .proc sec sys =>
    if s.shut then (s, Err.SUCCESS)
    else
      let s := if sec > s.sec then { s with sec := sec } else s
      (parentPart cf (expire cf sec s.list.length s) sec sys, Err.SUCCESS)
  | .connect addr sys => connect cf s addr sys
  | .connectTo addr ep sys => connectTo cf s addr ep sys
  | .done c ok =>
    if (s.conn c).pending then
      let s := s.set c { s.conn c with pending := false }
      if ok then (setStatus s c (if (s.conn c).bind = none then .handshaking else .connected), Err.SUCCESS)
      else (reset cf s c, Err.SUCCESS)
    else (s, Err.SUCCESS)
  | .accepted addr =>
    let (s, c) := create cf s
    ((setStatus s c .handshaking).set c { (setStatus s c .handshaking).conn c with addr := addr }, Err.SUCCESS)
  | .established c ep =>
    if (s.conn c).st = .handshaking then (setStatus (s.set c { s.conn c with bind := some ep }) c .connected, Err.SUCCESS)
    else (s, Err.SUCCESS)
  | .drop c => (reset cf s c, Err.SUCCESS)
  | .parentUp =>
    if s.parent then (s, Err.SUCCESS)
    else
      let s := { s with parent := true, ctl := true }
      (if (s.state = .lost ∨ s.state = .connecting) ∧ s.regDone = true then activate s else s, Err.SUCCESS)
  | .ctl b => ({ s with ctl := b }, Err.SUCCESS)
  | .regDone =>
    if s.state = .connecting then
      let s := { s with regDone := true, opr := if s.sec + cf.ping < s.opr then s.sec + cf.ping else s.opr }
      (if s.parent then activate s else s, Err.SUCCESS)
    else (s, Err.SUCCESS)
  | .parentDown =>
    if s.parent then
      ({ s with parent := false, ctl := false, state := .lost, opr := s.sec + cf.retry, shut := s.shut || !s.active }, Err.SUCCESS)
    else (s, Err.SUCCESS)
  | .parentGone => ({ s with parent := false, ctl := false }, Err.SUCCESS)

/-- Runs the calls in order (plumbing). -/
def run (cf : Conf) (s : S) : List Op → S
  | [] => s
  | op :: ops => run cf (step cf s op).1 ops

end Verif.Node.Connect
