import Verif.Basic

/-!
Model of the binding of connections to endpoints and of the choice of a
connection: `src/atbus_endpoint.cpp` (add_connection, remove_connection, reset,
get_ctrl_connection, get_data_connection, sort) and `src/atbus_connection.cpp`
(reset, disconnect, the state of connect/listen).

Connections and endpoints are numbered.  Reference counting and the garbage lists
are left out.  Code of the application can run inside
`connection::disconnect` (log and error callbacks); it is the parameter `hook`.
-/
namespace Verif.Endpoint

/-- `connection::state_t`, `include/atbus_connection.h:63-72`. -/
inductive St where
  | disconnected | connecting | handshaking | connected | disconnecting
deriving DecidableEq, Repr

/-- `connection::stat_t`, `include/atbus_connection.h:79-91`, without the count of faults (see `Node.Poll`): for each kind of event the
number of events and the bytes.  The counters do not wrap (the code's are `size_t`). -/
structure Stat where
  startN : Nat := 0
  startB : Nat := 0
  okN : Nat := 0
  okB : Nat := 0
  badN : Nat := 0
  badB : Nat := 0
  pullN : Nat := 0
  pullB : Nat := 0
deriving DecidableEq, Repr

/-- What is counted: a push begins, succeeds or fails (`Node.PushStat` says when), a message was received.  The number is the size. -/
inductive Traffic where
  | start (n : Nat)
  | ok (n : Nat)
  | bad (n : Nat)
  | pull (n : Nat)
deriving DecidableEq, Repr

/-- The updates of the counters, `src/atbus_connection.cpp:417-418` (start), `:695-696`, `:763-764`, `:828-829` (success), `:421-422`,
`:428-429`, `:682-683`, `:766-767`, `:831-832`, `:849-850` (failure), `:595-596`, `:731-732`, `:799-800` (received). -/
def Stat.add (s : Stat) : Traffic → Stat
  | .start n => { s with startN := s.startN + 1, startB := s.startB + n }
  | .ok n => { s with okN := s.okN + 1, okB := s.okB + n }
  | .bad n => { s with badN := s.badN + 1, badB := s.badB + n }
  | .pull n => { s with pullN := s.pullN + 1, pullB := s.pullB + n }

/-- The modelled members of `connection`: state, the flags ACCESS_SHARE_ADDR, ACCESS_SHARE_HOST and RESETTING, the
binding, the statistics; `include/atbus_connection.h:46-72,236-247`. -/
structure Conn where
  st : St := .disconnected
  shareAddr : Bool := false
  shareHost : Bool := false
  resetting : Bool := false
  binding : Option Nat := none
  stat : Stat := {}
deriving DecidableEq, Repr

/-- The modelled members of `endpoint`; `include/atbus_endpoint.h:100-230`.  Host names are numbered. -/
structure Ep where
  ctrl : Option Nat := none
  data : List Nat := []
  resetting : Bool := false
  sorted : Bool := false
  host : Nat := 0
  pid : Int := 0
deriving DecidableEq, Repr

/-- All connection objects and all endpoint objects. -/
structure S where
  conn : Nat → Conn
  ep : Nat → Ep

/-- Update of one entry (plumbing). -/
def upd {α : Type} (f : Nat → α) (i : Nat) (v : α) : Nat → α := fun j => if j = i then v else f j

/-- Update of one entry (plumbing). -/
def S.setConn (s : S) (c : Nat) (v : Conn) : S := { s with conn := upd s.conn c v }
/-- Update of one entry (plumbing). -/
def S.setEp (s : S) (e : Nat) (v : Ep) : S := { s with ep := upd s.ep e v }

/-- `endpoint::add_connection`, `src/atbus_endpoint.cpp:287-317`; also returns the result. -/
def addConnection (e c : Nat) (force : Bool) (s : S) : S × Bool :=
  if (s.ep e).resetting then (s, false)
  else if (s.conn c).binding = some e then (s, true)
  else if (s.conn c).binding ≠ none then (s, false)
  else
    let ep := s.ep e
    let ep := if force || ep.ctrl.isSome then { ep with data := ep.data ++ [c], sorted := false }
      else { ep with ctrl := some c }
    let cn : Conn := { s.conn c with binding := some e }
    let cn := if cn.st = .handshaking then { cn with st := .connected } else cn
    ((s.setEp e ep).setConn c cn, true)

/-- `endpoint::remove_connection`, `src/atbus_endpoint.cpp:319-357` (release build: the assertion is not evaluated). -/
def removeConnection (epReset : Nat → S → Option S) (e c : Nat) (s : S) : Option S :=
  let unbound : S := s.setConn c { s.conn c with binding := none }
  if (s.ep e).resetting then some unbound
  else if (s.ep e).ctrl = some c then epReset e s
  else if c ∈ (s.ep e).data then
    let ep := { s.ep e with data := (s.ep e).data.erase c }
    let s := unbound.setEp e ep
    if ep.data = [] then epReset e s else some s
  else some s

/-- `connection::disconnect`, `src/atbus_connection.cpp:379-414`. -/
def disconnect (hook : Nat → S → Option S) (c : Nat) (s : S) : Option S :=
  match (s.conn c).st with
  | .disconnected => some s
  | .disconnecting => some s
  | _ =>
    match hook c (s.setConn c { s.conn c with st := .disconnecting }) with
    | none => none
    | some s => some (s.setConn c { s.conn c with st := .disconnected })

/-- `connection::reset`, `src/atbus_connection.cpp:95-130`. -/
def connResetF (hook epReset : Nat → S → Option S) (c : Nat) (s : S) : Option S :=
  if (s.conn c).resetting then some s
  else
    match disconnect hook c (s.setConn c { s.conn c with resetting := true }) with
    | none => none
    | some s =>
      let r := match (s.conn c).binding with
        | none => some s
        | some e => removeConnection epReset e c s
      match r with
      | none => none
      | some s => some (s.setConn c { s.conn c with resetting := false, shareAddr := false, shareHost := false, stat := {} })

/-- The loop over the data connections, `src/atbus_endpoint.cpp:211-218`.  Each round removes the first connection, so
`n` rounds suffice for `n` connections; `none` would mean that they do not. -/
def epLoop (connReset : Nat → S → Option S) (e : Nat) : Nat → S → Option S
  | n, s =>
    match (s.ep e).data, n with
    | [], _ => some s
    | _ :: _, 0 => none
    | c :: _, n + 1 =>
      match connReset c s with
      | none => none
      | some s =>
        let s := if (s.ep e).data.head? = some c then s.setEp e { s.ep e with data := (s.ep e).data.tail } else s
        epLoop connReset e n s

/-- `endpoint::reset`, `src/atbus_endpoint.cpp:191-232`. -/
def epResetF (connReset : Nat → S → Option S) (e : Nat) (s : S) : Option S :=
  if (s.ep e).resetting then some s
  else
    let s := s.setEp e { s.ep e with resetting := true }
    let r := match (s.ep e).ctrl with
      | none => some s
      | some c =>
        match connReset c (s.setConn c { s.conn c with binding := none }) with
        | none => none
        | some s => some (s.setEp e { s.ep e with ctrl := none })
    match r with
    | none => none
    | some s =>
      match epLoop connReset e (s.ep e).data.length s with
      | none => none
      | some s => some (s.setEp e { s.ep e with resetting := false, sorted := false })

/-- The two functions call each other; `d` bounds the depth of the calls (`none` when it is exceeded). -/
def level (hook : Nat → S → Option S) : Nat → (Nat → S → Option S) × (Nat → S → Option S)
  | 0 => (fun _ _ => none, fun _ _ => none)
  | d + 1 => (connResetF hook (level hook d).2, epResetF (level hook d).1)

/-- `connection::reset`, `src/atbus_connection.cpp:97-131`, to depth `d`. -/
def connReset (hook : Nat → S → Option S) (d c : Nat) (s : S) : Option S := (level hook d).1 c s
/-- `endpoint::reset`, `src/atbus_endpoint.cpp:193-228`, to depth `d`. -/
def epReset (hook : Nat → S → Option S) (d e : Nat) (s : S) : Option S := (level hook d).2 e s

/-- The score of `sort_connection_cmp_fn`, `src/atbus_endpoint.cpp:443-460`. -/
def score (c : Conn) : Nat := (if c.shareAddr then 0 else 8) + (if c.shareHost then 0 else 4)

/-- `std::list::sort` with the score (stable). -/
def insertC (f : Nat → Conn) (x : Nat) : List Nat → List Nat
  | [] => [x]
  | y :: ys => if score (f y) < score (f x) then y :: insertC f x ys else x :: y :: ys

/-- The sort of `src/atbus_endpoint.cpp:443-460,499`. -/
def sortC (f : Nat → Conn) : List Nat → List Nat
  | [] => []
  | x :: xs => insertC f x (sortC f xs)

/-- `endpoint::get_ctrl_connection`, `src/atbus_endpoint.cpp:462-476`; `me` is the calling endpoint. -/
def ctrlConnection (me e : Nat) (s : S) : Option Nat :=
  if me = e then none
  else match (s.ep e).ctrl with
    | none => none
    | some c => if (s.conn c).st = .connected then some c else none

/-- The selection test of the loop in `get_data_connection`, `src/atbus_endpoint.cpp:503-518`. -/
def eligible (sharePid shareHost : Bool) (c : Conn) : Bool :=
  decide (c.st = .connected) &&
    ((sharePid && c.shareAddr) || (shareHost && c.shareHost) || !c.shareHost)

/-- `endpoint::get_data_connection`, `src/atbus_endpoint.cpp:478-526`. -/
def dataConnection (me e : Nat) (fallback : Bool) (s : S) : S × Option Nat :=
  if me = e then (s, none)
  else
    let shareHost := decide ((s.ep e).host = (s.ep me).host)
    let sharePid := shareHost && decide ((s.ep e).pid = (s.ep me).pid)
    let s := if (s.ep e).sorted then s
      else s.setEp e { s.ep e with data := sortC s.conn (s.ep e).data, sorted := true }
    match (s.ep e).data.find? (fun c => eligible sharePid shareHost (s.conn c)) with
    | some c => (s, some c)
    | none => (s, if fallback then ctrlConnection me e s else none)

/-- The statistic functions of an endpoint, `src/atbus_endpoint.cpp:550-668`: each is this function for one counter. -/
def total (f : Stat → Nat) (e : Nat) (s : S) : Nat :=
  let n := (s.ep e).data.foldl (fun n c => n + f (s.conn c).stat) 0
  match (s.ep e).ctrl with
  | none => n
  | some c => n + f (s.conn c).stat

/-- What can happen to connections and endpoints. -/
inductive Op where
  /-- `add_connection` -/
  | add (e c : Nat) (force : Bool)
  /-- `connection::reset` (failure, closing by the peer, timeout, application) -/
  | resetConn (c : Nat)
  /-- `endpoint::reset` (`node::disconnect`, fault limit, garbage collection, application) -/
  | resetEp (e : Nat)
  /-- `connect`, `listen`, accept: a disconnected connection gets its flags and first state -/
  | openConn (c : Nat) (connecting shareAddr shareHost : Bool)
  /-- the connection becomes usable: HANDSHAKING, or CONNECTED if it is bound, `src/atbus_connection.cpp:543-549` -/
  | established (c : Nat)
  /-- the choice of a connection, which may sort -/
  | select (me e : Nat)
  /-- something is counted at the connection -/
  | traffic (c : Nat) (t : Traffic)
deriving Repr

/-- One operation. -/
def step (hook : Nat → S → Option S) (d : Nat) (s : S) : Op → Option S
  | .add e c f => some (addConnection e c f s).1
  | .resetConn c => connReset hook d c s
  | .resetEp e => epReset hook d e s
  | .openConn c w a h =>
    if (s.conn c).st = .disconnected then
      let st := if w then St.connecting else if (s.conn c).binding = none then .handshaking else .connected
      some (s.setConn c { s.conn c with st := st, shareAddr := a, shareHost := h })
    else some s
  | .established c =>
    if (s.conn c).st = .connecting then
      some (s.setConn c { s.conn c with st := if (s.conn c).binding = none then .handshaking else .connected })
    else some s
  | .select me e => some (dataConnection me e true s).1
  | .traffic c t => some (s.setConn c { s.conn c with stat := (s.conn c).stat.add t })

/-- Runs the calls in order (plumbing). -/
def run (hook : Nat → S → Option S) (d : Nat) : S → List Op → Option S
  | s, [] => some s
  | s, o :: os =>
    match step hook d s o with
    | none => none
    | some s => run hook d s os

/-- Nothing bound; the hosts and process ids are those given. -/
def initial (host : Nat → Nat) (pid : Nat → Int) : S :=
  { conn := fun _ => {}, ep := fun e => { host := host e, pid := pid e } }

end Verif.Endpoint
