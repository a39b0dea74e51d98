import Verif.Address.Model
import Verif.Node.Connect

/-!
Model of the connections a node opens when a new endpoint registers (`src/atbus_msg_handler.cpp:909-990`), and of the address in
the request to connect directly (`msg_handler::send_node_connect_sync`, `src/atbus_msg_handler.cpp:346-398`).
-/
namespace Verif.Node.Mesh

open Verif.Address (isDuplex isSimplex isLocalHost isLocalProcess prefixCI)

/-- Text of an address or host name. -/
abbrev Text := List Char

/-- What a registration tells about a node, `register_data`, `include/libatbus_protocol.proto:52-64`, filled in by
`msg_handler::send_reg`, `src/atbus_msg_handler.cpp:163-245`. -/
structure Info where
  id : Nat
  host : Nat
  pid : Int
  /-- the addresses the node listens on, `node::get_listen_list` -/
  listens : List Text
deriving DecidableEq, Repr

/-- `src/atbus_msg_handler.cpp:351,921`. -/
def sameHost (a b : Info) : Bool := decide (a.host = b.host)
/-- `src/atbus_msg_handler.cpp:922`. -/
def samePid (a b : Info) : Bool := decide (a.pid = b.pid)

/-- `can_be_connected_by_ep`, `src/atbus_msg_handler.cpp:916-928`. -/
def connectable (self ep : Info) : Bool :=
  self.listens.any fun a =>
    isDuplex (some a) &&
      (if (sameHost self ep && samePid self ep) || !isLocalProcess (some a) then true
       else sameHost self ep || !isLocalHost (some a))

/-- What the loop over the channels changes: the calls of `node::connect(address, endpoint)`, the addresses added by
`endpoint::add_listen`, and `has_data_conn`. -/
structure Acc where
  calls : List Text := []
  listens : List Text := []
  hasData : Bool := false
deriving DecidableEq, Repr

/-- One round of the loop, `src/atbus_msg_handler.cpp:934-979`; `res` is the result of `node::connect`. -/
def visit (self ep : Info) (res : Text → Int) (s : Acc) (a : Text) : Acc :=
  if a = [] then s
  else
    let wait := connectable self ep && decide (self.id > ep.id)
    let s := if wait then { s with hasData := true } else s
    if wait && isDuplex (some a) then s
    else if isLocalHost (some a) && !sameHost self ep then s
    else if isLocalProcess (some a) && !samePid self ep then s
    else if self.id ≠ 0 ∧ ep.id ≠ 0 then
      if res a < 0 then { s with calls := s.calls ++ [a] }
      else { calls := s.calls ++ [a], listens := s.listens ++ [a], hasData := true }
    else { s with listens := s.listens ++ [a], hasData := true }

/-- The loop, `src/atbus_msg_handler.cpp:930-980`, at the node `self` for the new endpoint `ep`. -/
def plan (self ep : Info) (res : Text → Int) : Acc := ep.listens.foldl (visit self ep res) {}

/-- The new endpoint is put on the list for removal, `src/atbus_msg_handler.cpp:982-989`. -/
def discarded (self ep : Info) (res : Text → Int) : Bool := !(plan self ep res).hasData && !connectable self ep

/-- Flag HAS_LISTEN_FD of the endpoint, `endpoint::add_listen`, `src/atbus_endpoint.cpp:403-416`. -/
def listenFd (l : List Text) : Bool := l.any fun a => !(prefixCI "mem:".toList a || prefixCI "shm:".toList a)

/-- The choice of the address, `src/atbus_msg_handler.cpp:350-366`. -/
def select (l : List Text) (same : Bool) : Option Text :=
  l.find? fun a =>
    if prefixCI "mem:".toList a || prefixCI "shm:".toList a then false
    else if prefixCI "unix:".toList a && !same then false
    else true

/-- The address in the request that the node `self` sends to its child `src` after forwarding a message to its child `dst`:
`src/atbus_msg_handler.cpp:484-501` (the flag is asked for) and `:346-398`.  `resD` is the result of `connect` when `dst`
registered. -/
def syncAddr (self src dst : Info) (resD : Text → Int) : Option Text :=
  if listenFd (plan self dst resD).listens then
    match select (plan self dst resD).listens (sameHost src dst) with
    | some a => if a = [] then none else some a
    | none => none
  else none

/-- The address the child connects to, `on_recv_node_conn_syn`, `src/atbus_msg_handler.cpp:1124`, and `connection::connect`,
`src/atbus_connection.cpp:350-354`. -/
def target (a : Text) : Text := Connect.redirect a

/-- The text of the memory address that `connection::connect` opens as a channel (attaching, or else initialising it), if it takes the
address for one of this kind, `src/atbus_connection.cpp:276-289`. -/
def memoryAt (a : Text) : Option Text :=
  match Address.parse a with
  | .ok x => if prefixCI "mem".toList x.scheme then some x.host else none
  | _ => none

end Verif.Node.Mesh
