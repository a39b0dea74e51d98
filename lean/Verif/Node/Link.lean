import Verif.Basic

/-!
Model of the pointers between the connections of a node (`atbus::connection`, `src/atbus_connection.cpp`) and the connections of its stream
channel (`channel::io_stream_connection`, `src/channel_io_stream.cpp`): `conn_data_.shared.ios_fd.conn` one way, `data` the other way.
Neither of them owns the other.  A node connection lives as long as something counts as a reference to it: the list of connections
that have to finish in time, an endpoint, a pending request, the list of discarded connections, or the application.

Both kinds of objects are numbers that are never used again.  The environment chooses what the stream channel reports, what the application
does in a callback (it resets connections) and which registrations succeed.
-/
namespace Verif.Node.Link

/-- `connection::state_t`; DISCONNECTING is left before the function that sets it returns. -/
inductive St where
  | disconnected | connecting | handshaking | connected
deriving DecidableEq, Repr

/-- The part of `connection` used here. -/
structure Conn where
  /-- the object exists -/
  alive : Bool := false
  st : St := .disconnected
  /-- `conn_data_.shared.ios_fd.conn`, with `free_fn` set -/
  link : Option Nat := none
  /-- in `event_timer_.connecting_list` -/
  listed : Bool := false
  /-- bound to an endpoint, which has it in its lists -/
  bound : Bool := false
  /-- in `event_timer_.pending_connection_gc_list` -/
  gc : Bool := false
  /-- the application has a reference -/
  kept : Bool := false
  /-- pending requests (`connection_async_data`) of this object -/
  async : Nat := 0
deriving DecidableEq, Repr

/-- Something counts as a reference. -/
def Conn.held (k : Conn) : Bool := k.listed || k.bound || k.gc || k.kept || k.async != 0

/-- The part of `io_stream_connection` used here. -/
structure Str where
  /-- the object exists -/
  live : Bool := false
  /-- `io_stream_disconnect` was called -/
  closing : Bool := false
  data : Option Nat := none
deriving DecidableEq, Repr

/-- All connection objects (`include/atbus_connection.h`) and all stream connections (`io_stream_connection`, `include/detail/libatbus_channel_types.h`). -/
structure S where
  conn : Nat → Conn := fun _ => {}
  /-- number of node connections made so far -/
  n : Nat := 0
  str : Nat → Str := fun _ => {}
  /-- number of stream connections made so far -/
  ns : Nat := 0
  /-- undefined behaviour: a pointer to an object that does not exist was used -/
  ub : Bool := false
  /-- ghost: an object was connected again while a request of it was pending -/
  reused : Bool := false
  /-- ghost: the stream channel reported a connection it could not accept -/
  refused : Bool := false

/-- Update of one entry (plumbing). -/
def S.set (s : S) (c : Nat) (k : Conn) : S := { s with conn := fun x => if x = c then k else s.conn x }
/-- Update of one entry (plumbing). -/
def S.setStr (s : S) (k : Nat) (t : Str) : S := { s with str := fun x => if x = k then t else s.str x }

/-- `connection::disconnect`, `src/atbus_connection.cpp:379-414`, with `ios_free_fn`, `:837-844`. -/
def disconnect (s : S) (c : Nat) : S :=
  let k := s.conn c
  if k.st = .disconnected then s
  else
    let s := match k.link with
      | none => s
      | some i =>
        if (s.str i).live then s.setStr i { s.str i with closing := true, data := none } else { s with ub := true }
    s.set c { k with st := .disconnected, link := none }

/-- `connection::reset`, `src/atbus_connection.cpp:95-130`.  The discarded connection is not listed for collection while the node itself
is being reset (`nogc`), `src/atbus_node.cpp:1860-1868`. -/
def reset (s : S) (c : Nat) (nogc : Bool) : S :=
  let s := s.set c { s.conn c with listed := false }
  let s := disconnect s c
  s.set c { s.conn c with bound := false, gc := (s.conn c).gc || !nogc }

/-- A reference went away: without any left the destructor runs, `src/atbus_connection.cpp:87-95`. -/
def collect (s : S) (c : Nat) : S :=
  if (s.conn c).alive && !(s.conn c).held then
    let s := disconnect s c
    s.set c { s.conn c with alive := false }
  else s

/-- The application (or the node) resets connections inside a callback.  Only existing objects can be reset. -/
def resets (s : S) (cs : List Nat) : S :=
  cs.foldl (fun s c => if (s.conn c).alive then reset s c false else s) s

/-- `connection::set_status(CONNECTED)`, `src/atbus_connection.cpp:478-489`. -/
def setConnected (s : S) (c : Nat) : S := s.set c { s.conn c with st := .connected, listed := false }

/-- `node::on_new_connection`, `src/atbus_node.cpp:1552-1574`: the callback of the application runs, then the registration is sent (over
a connection that was not reset), and the connection is reset when it cannot be sent. -/
def newConnection (s : S) (c : Nat) (cs : List Nat) (sent : Bool) : S :=
  let s := resets s cs
  if (s.conn c).link.isSome && !sent then reset s c false else s

/-- `endpoint::add_connection`, `src/atbus_endpoint.cpp:287-317`. -/
def bind (s : S) (c : Nat) : S :=
  let s := s.set c { s.conn c with bound := true }
  if (s.conn c).st = .handshaking then setConnected s c else s

/-- A new stream connection that points at `c`, and `c` at it. -/
def link (s : S) (c : Nat) : S :=
  { (s.setStr s.ns { live := true, data := some c }).set c { s.conn c with link := some s.ns } with ns := s.ns + 1 }

/-- A call or an event of the stream channel. -/
inductive Op where
  /-- `connection::create` and `connect` or `listen` of a stream address; `sys`: the channel takes the request; `ep`: and the connection
  is bound to an endpoint at once -/
  | start (sys ep : Bool)
  /-- `node::listen` of a stream address that needs no name lookup: the callback runs before `connection::listen` returns; `ep`: the
  endpoint of the node takes the connection -/
  | listen (cs : List Nat) (ep : Bool)
  /-- the same as `start` on an object that exists already -/
  | again (c : Nat) (sys : Bool)
  /-- a request ends: `iostream_on_connected_cb` -/
  | connected (c : Nat) (ok : Bool) (cs : List Nat) (sent : Bool)
  /-- a request ends: `iostream_on_listen_cb` -/
  | listening (c : Nat) (ok : Bool) (cs : List Nat)
  /-- a peer connected: `iostream_on_accepted`; `ok`: there is a stream connection -/
  | accepted (ok : Bool) (cs : List Nat) (sent : Bool)
  /-- data on a stream: `iostream_on_recv_cb`; the handler resets connections and, with `reg`, the connection is bound -/
  | recv (i : Nat) (cs : List Nat) (reg : Bool)
  /-- a stream is closed and its object is gone: `iostream_on_disconnected` -/
  | closed (i : Nat)
  /-- `connection::reset` by a timeout, an endpoint or the application -/
  | reset (c : Nat) (nogc : Bool)
  /-- `connection::disconnect` by the application -/
  | disconnect (c : Nat)
  /-- the list of discarded connections is cleared -/
  | gc (c : Nat)
  /-- the application takes or drops a reference -/
  | keep (c : Nat) (on : Bool)
deriving DecidableEq, Repr

/-- Number of entries of `event_timer_.connecting_list`. -/
def waiting (s : S) : Nat := ((List.range s.n).filter fun c => (s.conn c).listed).length

/-- `connection::connect` and `connection::listen` of a stream address, `src/atbus_connection.cpp:218-255`, `:346-376`. -/
def request (s : S) (c : Nat) (sys : Bool) : S :=
  let k := s.conn c
  { s.set c { k with st := .connecting, async := if sys then k.async + 1 else k.async } with
    reused := s.reused || k.async != 0 }

/-- `b` is `conf.backlog`. -/
def step (b : Nat) (s : S) : Op → S
  | .start sys ep =>
    let c := s.n
    let s := { s.set c { alive := true, listed := true } with n := s.n + 1 }
    let s := request s c sys
    if sys && ep then bind s c else s
  -- `src/atbus_node.cpp:674-704`, `src/channel_io_stream.cpp:1117-1133`
  | .listen cs ep =>
    let c := s.n
    let s := { s.set c { alive := true, listed := true } with n := s.n + 1 }
    let s := request s c true
    let s := resets (link (setConnected s c) c) cs
    let s := s.set c { s.conn c with async := (s.conn c).async - 1 }
    collect (if ep then bind s c else s) c
  | .again c sys => if (s.conn c).alive && (s.conn c).st == .disconnected then request s c sys else s
  -- `src/atbus_connection.cpp:526-566`
  | .connected c ok cs sent =>
    if (s.conn c).async = 0 then s
    else
      let s :=
        if ok then
          let s := if (s.conn c).bound then setConnected s c else s.set c { s.conn c with st := .handshaking }
          newConnection (link s c) c cs sent
        else reset s c false
      collect (s.set c { s.conn c with async := (s.conn c).async - 1 }) c
  -- `src/atbus_connection.cpp:492-524`
  | .listening c ok cs =>
    if (s.conn c).async = 0 then s
    else
      let s := if ok then resets (link (setConnected s c) c) cs else s.set c { s.conn c with st := .disconnected }
      collect (s.set c { s.conn c with async := (s.conn c).async - 1 }) c
  -- `src/atbus_connection.cpp:617-652`, called from `src/channel_io_stream.cpp:892-894`, `:970-972`
  | .accepted ok cs sent =>
    let s := { s with refused := s.refused || !ok }
    if b > 0 && b ≤ waiting s then
      if ok then { s.setStr s.ns { live := true, closing := true } with ns := s.ns + 1 } else s
    else if !ok then { s with ub := true }
    else
      let c := s.n
      let s := { s.set c { alive := true, listed := true, st := .handshaking } with n := s.n + 1 }
      newConnection (link s c) c cs sent
  -- `src/atbus_connection.cpp:568-615`, `src/atbus_node.cpp:1439-1485`
  | .recv i cs reg =>
    if (s.str i).live then
      match (s.str i).data with
      | none => s
      | some c =>
        if (s.conn c).alive then
          let s := resets s cs
          if reg then bind s c else s
        else { s with ub := true }
    else s
  -- `src/atbus_connection.cpp:657-671`, called from `src/channel_io_stream.cpp:657-664`
  | .closed i =>
    if (s.str i).live then
      let s := match (s.str i).data with
        | none => s
        | some c => if (s.conn c).alive then reset s c false else { s with ub := true }
      s.setStr i { s.str i with live := false, closing := true }
    else s
  | .reset c nogc => if (s.conn c).alive then collect (reset s c nogc) c else s
  | .disconnect c => if (s.conn c).alive then disconnect s c else s
  -- `src/atbus_node.cpp:600-604`, `:665-669`
  | .gc c => collect (s.set c { s.conn c with gc := false }) c
  | .keep c on => if (s.conn c).alive then collect (s.set c { s.conn c with kept := on }) c else s

/-- Runs the calls in order (plumbing). -/
def run (b : Nat) (s : S) (ops : List Op) : S := ops.foldl (step b) s

end Verif.Node.Link
