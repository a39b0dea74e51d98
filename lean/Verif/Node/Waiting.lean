import Verif.Basic

/-!
Model of the list of unfinished connections of a node (`event_timer_.connecting_list`, `include/atbus_node.h:729`) with an application that
may do anything inside a callback.

The list is a `std::list`; its nodes have addresses chosen by the allocator, an iterator is an address.  A call that is not finished
is a frame on a stack; the code runs until the next callback, where the application makes further calls or returns.

Simplified: the other parts of `proc` and `node::reset` do nothing to the list and are left out, except that callbacks happen in
the rest of `node::reset`.
-/
namespace Verif.Node.Waiting

/-- Where a call is. -/
inductive Frame where
  /-- in the callback `on_invalid_connection`, called by `remove_connection_timer` in the reset of connection `c` -/
  | inv (c : Nat)
  /-- in the callbacks of `connection::disconnect` in the reset of connection `c` -/
  | close (c : Nat)
  /-- at the head of the loop of `proc` -/
  | loop (sec : Int)
  /-- in the callback `on_error` of `proc`, which holds the iterator `a` -/
  | err (sec : Int) (a : Nat)
  /-- `proc`, after the reset of the connection of the entry `a` -/
  | after (sec : Int) (a : Nat)
  /-- in the second callback of `proc` for the entry `a` -/
  | prot (sec : Int) (a : Nat)
  /-- at the head of the loop of `node::reset` -/
  | nloop
  /-- `node::reset`, after the reset of the connection of the entry `a` -/
  | nafter (a : Nat)
  /-- in the callbacks of the rest of `node::reset` -/
  | ntail
deriving DecidableEq, Repr

/-- The application is running. -/
def Frame.cb : Frame → Bool
  | .inv _ => true
  | .close _ => true
  | .err _ _ => true
  | .prot _ _ => true
  | .ntail => true
  | _ => false

/-- What can be seen of a connection. -/
inductive Ev where
  /-- it was put on the list -/
  | listed (c : Nat)
  /-- it was established in time -/
  | finished (c : Nat)
  /-- `on_invalid_connection` -/
  | invalid (c : Nat)
deriving DecidableEq, Repr

/-- The node. -/
structure S where
  /-- `connecting_list`: address of the list node, connection -/
  list : List (Nat × Nat) := []
  /-- time of the entry of a connection -/
  limit : Nat → Int := fun _ => 0
  /-- `connection::owner_checker_`; `none` is `end()` -/
  chk : Nat → Option Nat := fun _ => none
  /-- `connection::flag_t::RESETTING` -/
  busy : Nat → Bool := fun _ => false
  /-- `connection::is_connected()` -/
  up : Nat → Bool := fun _ => false
  /-- `connection::flag_t::TEMPORARY` -/
  temp : Nat → Bool := fun _ => false
  /-- number of connections made so far -/
  n : Nat := 0
  /-- the state is not CREATED -/
  on : Bool := true
  /-- `flag_t::EN_FT_IN_PROC` -/
  inProc : Bool := false
  /-- `flag_t::EN_FT_RESETTING` -/
  inReset : Bool := false
  stack : List Frame := []
  log : List Ev := []
  /-- undefined behaviour: an iterator was used that is not valid -/
  ub : Bool := false
  /-- ghost: all addresses that list nodes ever had -/
  used : List Nat := []

/-- Update of one entry (plumbing). -/
def upd {α : Type} (f : Nat → α) (k : Nat) (v : α) : Nat → α := fun x => if x = k then v else f x

/-- The connection of the list node at `a`, if there is one. -/
def S.entry (s : S) (a : Nat) : Option Nat := (s.list.find? fun e => e.1 == a).map Prod.snd

/-- `std::list::erase` of the node at `a`. -/
def S.erase (s : S) (a : Nat) : S :=
  if s.entry a = none then { s with ub := true } else { s with list := s.list.filter fun e => e.1 != a }

/-- `connection::reset` up to the first callback, `src/atbus_connection.cpp:97-110`, with `remove_connection_timer`,
`src/atbus_node.cpp:1418-1431`; `k` is the rest of the stack. -/
def startReset (s : S) (c : Nat) (k : List Frame) : S :=
  if s.busy c then { s with stack := k }
  else
    let s := { s with busy := upd s.busy c true }
    match s.chk c with
    | none => { s with stack := .close c :: k }
    | some a =>
      match s.entry a with
      | none => { s with ub := true }
      | some d =>
        if s.up d then { s.erase a with chk := upd s.chk c none, stack := .close c :: k }
        else { s with log := s.log ++ [.invalid d], stack := .inv c :: k }

/-- The rest of `remove_connection_timer` after the callback, `src/atbus_node.cpp:1428-1430`, then the next callbacks. -/
def endInvalid (s : S) (c : Nat) (k : List Frame) : S :=
  match s.chk c with
  | none => { s with ub := true }
  | some a => { s.erase a with chk := upd s.chk c none, stack := .close c :: k }

/-- The loop of `proc` over the list, `src/atbus_node.cpp:422-446`: up to the next callback or to the end of the loop. -/
def loop (s : S) (sec : Int) (k : List Frame) : S :=
  match s.list with
  | [] => { s with stack := k, inProc := false }
  | (a, c) :: rest =>
    if s.up c then
      if s.chk c = some a then { s with list := rest, chk := upd s.chk c none } else { s with list := rest }
    else if sec ≤ s.limit c then { s with stack := k, inProc := false }
    else if s.temp c then startReset s c (.after sec a :: k)
    else { s with stack := .err sec a :: k }

/-- The callback returns, or the code runs on.  Nothing happens after undefined behaviour. -/
def go (s : S) : S :=
  if s.ub then s
  else match s.stack with
  | [] => s
  | .inv c :: k => endInvalid s c k
  -- `src/atbus_connection.cpp:111-130`
  | .close c :: k => { s with busy := upd s.busy c false, up := upd s.up c false, temp := upd s.temp c false, stack := k }
  | .loop sec :: k => loop s sec k
  -- `src/atbus_node.cpp:446`
  | .err sec a :: k =>
    match s.entry a with
    | none => { s with ub := true }
    | some c => startReset s c (.after sec a :: k)
  -- `src/atbus_node.cpp:449-453`
  | .after sec a :: k =>
    match s.list with
    | (a', c) :: _ => if a' = a then { s with log := s.log ++ [.invalid c], stack := .prot sec a :: k } else { s with stack := .loop sec :: k }
    | [] => { s with stack := .loop sec :: k }
  -- `src/atbus_node.cpp:454`
  | .prot sec a :: k => { s.erase a with stack := .loop sec :: k }
  -- `src/atbus_node.cpp:312-314`
  | .nloop :: k =>
    match s.list with
    | [] => { s with stack := .ntail :: k }
    | (a, c) :: _ => startReset s c (.nafter a :: k)
  -- `src/atbus_node.cpp:317-319`
  | .nafter a :: k =>
    match s.list with
    | (a', _) :: rest => if a' = a then { s with list := rest, stack := .nloop :: k } else { s with stack := .nloop :: k }
    | [] => { s with stack := .nloop :: k }
  -- `src/atbus_node.cpp:380-381`: all flags are cleared, also that of a `proc` that is still running
  | .ntail :: k => { s with on := false, inReset := false, inProc := false, stack := k }

/-- What the application or the network does. -/
inductive Op where
  /-- `connection::create`, `src/atbus_connection.cpp:70-85`, with `add_connection_timer`, `src/atbus_node.cpp:1398-1416`: the list node
  gets address `a`, the time is over at `t` -/
  | new (a : Nat) (t : Int)
  /-- `set_status(CONNECTED)`, `src/atbus_connection.cpp:480-490` -/
  | done (c : Nat)
  /-- `set_temporary` -/
  | temporary (c : Nat)
  /-- `connection::reset` -/
  | reset (c : Nat)
  /-- `node::proc` -/
  | proc (sec : Int)
  /-- `node::reset` -/
  | nodeReset
  /-- `node::init` -/
  | init
deriving DecidableEq, Repr

/-- A call from the application. -/
def call (s : S) : Op → S
  | .new a t =>
    if s.on then
      { s with n := s.n + 1, list := s.list ++ [(a, s.n)], chk := upd s.chk s.n (some a), limit := upd s.limit s.n t, used := a :: s.used,
               log := s.log ++ [.listed s.n] }
    else { s with n := s.n + 1 }
  | .done c =>
    if s.up c then s
    else
      let s := { s with up := upd s.up c true }
      match s.chk c with
      | none => s
      | some a => { s.erase a with chk := upd s.chk c none, log := s.log ++ [.finished c] }
  | .temporary c => { s with temp := upd s.temp c true }
  | .reset c => startReset s c s.stack
  | .proc sec => if s.inProc || !s.on then s else { s with inProc := true, stack := .loop sec :: s.stack }
  | .nodeReset => if s.inReset then s else { s with inReset := true, stack := .nloop :: s.stack }
  | .init => { s with on := true }

/-- The application has control. -/
def S.idle (s : S) : Bool := match s.stack with
  | [] => true
  | f :: _ => f.cb

/-- An event: a call of the application, or the code runs on. -/
inductive Act where
  | app (op : Op)
  | go
deriving DecidableEq, Repr

/-- Calls are possible while the application has control, on connections that exist; a new list node does not lie on another one. -/
def S.can (s : S) (op : Op) : Bool :=
  s.idle && !s.ub && match op with
    | .new a _ => !s.list.any fun e => e.1 == a
    | .done c => decide (c < s.n)
    | .temporary c => decide (c < s.n)
    | .reset c => decide (c < s.n)
    | _ => true

/-- One event. -/
def step (s : S) : Act → S
  | .go => go s
  | .app op => if s.can op then call s op else s

/-- Runs the events in order (plumbing). -/
def run (s : S) (acts : List Act) : S := acts.foldl step s

end Verif.Node.Waiting
