import Verif.Basic

/-!
Model of the pointers between connections and endpoints, with an application that may do anything inside a callback and with the
destruction of endpoint objects.

A connection has a plain pointer to its endpoint (`binding_`), the endpoint has counted references to its connections.  Calls that
are not finished are frames on a stack: the code runs until the next callback, where the application makes further calls or returns.
The callbacks are those made inside `connection::reset` before the binding is given up (`on_invalid_connection`, the callbacks of
`disconnect`).

Simplified: the references to endpoints (tables, lists for collection, the application) are not counted; an endpoint may be destroyed
whenever no running call holds it.  Connection objects are not destroyed; their destructor calls `reset`, which is an event here.
-/
namespace Verif.Endpoint.Life

/-- Where a call is. -/
inductive Frame where
  /-- in the callbacks of the reset of connection `c` -/
  | conn (c : Nat)
  /-- in the reset of connection `c`, during the reset of its endpoint -/
  | tail (c : Nat)
  /-- in the reset of endpoint `e`, during the reset of the control connection -/
  | ctrl (e : Nat)
  /-- in the reset of endpoint `e`, at the head of the loop over the data connections -/
  | loop (e : Nat)
  /-- in the reset of endpoint `e`, during the reset of the data connection `c` -/
  | data (e c : Nat)
  /-- in the destructor of endpoint `e`, after its reset -/
  | dtor (e : Nat)
deriving DecidableEq, Repr

/-- All objects. -/
structure S where
  /-- `connection::binding_` -/
  binding : Nat → Option Nat := fun _ => none
  /-- `connection::flag_t::RESETTING` -/
  busy : Nat → Bool := fun _ => false
  /-- `endpoint::ctrl_conn_` -/
  ctrl : Nat → Option Nat := fun _ => none
  /-- `endpoint::data_conn_` -/
  data : Nat → List Nat := fun _ => []
  /-- `endpoint::flag_t::RESETTING` -/
  clearing : Nat → Bool := fun _ => false
  /-- `endpoint::flag_t::DESTRUCTING`, and later: the object does not exist any more -/
  dying : Nat → Bool := fun _ => false
  freed : Nat → Bool := fun _ => false
  stack : List Frame := []
  /-- undefined behaviour: an endpoint was used that does not exist any more -/
  ub : Bool := false
  /-- ghost: the connections that were bound some time, and the endpoint each was bound to -/
  used : List Nat := []
  home : Nat → Nat := fun _ => 0
  /-- ghost: the connection was reset some time -/
  down : Nat → Bool := fun _ => false

/-- Update of one entry (plumbing). -/
def upd {α : Type} (f : Nat → α) (k : Nat) (v : α) : Nat → α := fun x => if x = k then v else f x

/-- `connection::reset` up to the callbacks, `src/atbus_connection.cpp:97-110`; `k` is the rest of the stack. -/
def startConn (s : S) (c : Nat) (k : List Frame) : S :=
  if s.busy c then { s with stack := k }
  else { s with busy := upd s.busy c true, down := upd s.down c true, stack := .conn c :: k }

/-- `endpoint::reset` up to the reset of the control connection or to the loop, `src/atbus_endpoint.cpp:193-208`. -/
def startEp (s : S) (e : Nat) (k : List Frame) : S :=
  if s.clearing e then { s with stack := k }
  else
    let s := { s with clearing := upd s.clearing e true }
    match s.ctrl e with
    | none => { s with stack := .loop e :: k }
    | some c => startConn { s with binding := upd s.binding c none } c (.ctrl e :: k)

/-- The end of `connection::reset`, `src/atbus_connection.cpp:121-129`. -/
def endConn (s : S) (c : Nat) (k : List Frame) : S := { s with busy := upd s.busy c false, stack := k }

/-- The rest of `connection::reset` after the callbacks, `src/atbus_connection.cpp:112-129`, with `endpoint::remove_connection`,
`src/atbus_endpoint.cpp:319-357` (release build: the assertions are not evaluated). -/
def unbind (s : S) (c : Nat) (k : List Frame) : S :=
  match s.binding c with
  | none => endConn s c k
  | some e =>
    if s.freed e then { s with ub := true }
    else if s.clearing e then endConn { s with binding := upd s.binding c none } c k
    else if s.ctrl e = some c then startEp s e (.tail c :: k)
    else if c ∈ s.data e then
      let s := { s with binding := upd s.binding c none, data := upd s.data e ((s.data e).erase c) }
      if s.data e = [] then startEp s e (.tail c :: k) else endConn s c k
    else endConn s c k

/-- The callbacks return, or the code runs on.  Nothing happens after undefined behaviour. -/
def go (s : S) : S :=
  if s.ub then s
  else match s.stack with
  | [] => s
  | .conn c :: k => unbind s c k
  | .tail c :: k => endConn s c k
  -- `src/atbus_endpoint.cpp:207`
  | .ctrl e :: k => { s with ctrl := upd s.ctrl e none, stack := .loop e :: k }
  -- `src/atbus_endpoint.cpp:211-213,227`
  | .loop e :: k =>
    match s.data e with
    | [] => { s with clearing := upd s.clearing e false, stack := k }
    | c :: _ => startConn s c (.data e c :: k)
  -- `src/atbus_endpoint.cpp:215-217`
  | .data e c :: k =>
    if (s.data e).head? = some c then { s with data := upd s.data e (s.data e).tail, stack := .loop e :: k }
    else { s with stack := .loop e :: k }
  | .dtor e :: k => { s with freed := upd s.freed e true, stack := k }

/-- What the application or the network does. -/
inductive Op where
  /-- `endpoint::add_connection`, `src/atbus_endpoint.cpp:287-317` -/
  | add (e c : Nat) (force : Bool)
  /-- `connection::reset`, also that of the destructor -/
  | resetConn (c : Nat)
  /-- `endpoint::reset`, called by the node or the application -/
  | resetEp (e : Nat)
  /-- the sort of `get_data_connection`, `src/atbus_endpoint.cpp:498-501`; any order may be the result -/
  | sort (e : Nat) (l : List Nat)
  /-- the last reference to the endpoint is given up: `~endpoint`, `src/atbus_endpoint.cpp:183-191` -/
  | free (e : Nat)
deriving DecidableEq, Repr

/-- A call from the application. -/
def call (s : S) : Op → S
  | .add e c force =>
    if s.clearing e then s
    else if s.binding c ≠ none then s
    else
      let s := if force || (s.ctrl e).isSome then { s with data := upd s.data e (s.data e ++ [c]), home := upd s.home c e }
        else { s with ctrl := upd s.ctrl e (some c) }
      { s with binding := upd s.binding c (some e), used := c :: s.used }
  | .resetConn c => startConn s c s.stack
  | .resetEp e => startEp s e s.stack
  | .sort e l => { s with data := upd s.data e l }
  | .free e => startEp { s with dying := upd s.dying e true } e (.dtor e :: s.stack)

/-- The application has control. -/
def S.idle (s : S) : Bool := match s.stack with
  | [] => true
  | .conn _ :: _ => true
  | _ => false

/-- The call has the endpoint in use. -/
def Frame.uses (e : Nat) : Frame → Bool
  | .ctrl e' => e' == e
  | .loop e' => e' == e
  | .data e' _ => e' == e
  | .dtor e' => e' == e
  | _ => false

/-- An event: a call of the application, or the code runs on. -/
inductive Act where
  | app (op : Op)
  | go
deriving DecidableEq, Repr

/-- Calls are possible while the application has control, on endpoints that exist and are not being destroyed.  An endpoint that a
running call holds is not destroyed. -/
def S.can (s : S) (op : Op) : Bool :=
  s.idle && !s.ub && match op with
    | .add e _ _ => !s.dying e
    | .resetConn _ => true
    | .resetEp e => !s.dying e
    | .sort e l => !s.dying e && l.isPerm (s.data e)
    | .free e => !s.dying e && !s.stack.any (Frame.uses e)

/-- One event. -/
def step (s : S) : Act → S
  | .go => go s
  | .app op => if s.can op then call s op else s

/-- Runs the events in order (plumbing). -/
def run (s : S) (acts : List Act) : S := acts.foldl step s

end Verif.Endpoint.Life
