import Verif.Basic

/-!
Model of the memory a stream channel gives to libuv, `src/channel_io_stream.cpp`: the event loop (222-261, 263-336), the
handles and the objects that keep them alive (626-807), and the functions that create and close handles: accepting (809-978),
listening (1060-1221), connecting (1223-1282, 1356-1486) and disconnecting (1488-1542).

* A handle is kept alive by shared pointers: a local variable, the connection object, the data of a connect request, or a
  pointer allocated for the closing handle alone.  When the last one goes the deleter frees the memory of the handle.
* libuv is the environment: it reports every connect request once, and every handle given to `uv_close` once, at any later
  time while the loop runs.  Until this report it uses the memory of the handle.
* `none` is undefined behaviour or a failed assertion: use of freed memory, a second `uv_close`, a handle freed
  before libuv reported it as closed, `data` of the wrong type, running the loop `NULL`.
* `Pool` has the connection objects, callbacks and calls inside callbacks.  Here calls of the application are steps between the
  callbacks: what a function does to handles after a callback into the application is done before it, which makes no
  difference, because the application cannot run the loop there.
* Simplified: a socket, a pipe and both address families are one kind; allocation does not fail; resolving
  names is added in `HandlesDns`; a delayed disconnect is a later step.
-/
namespace Verif.IoStream.Handles

/-- `stream_t::data`, a pointer without type. -/
inductive Data where
  | null
  | conn (c : Nat)
  | async (a : Nat)
  | ptr (p : Nat)
deriving DecidableEq, Repr

/-- The function given to `uv_close`. -/
inductive Cb where
  /-- `io_stream_connection_on_close` -/
  | conn
  /-- `io_stream_async_data_on_close` -/
  | async
  /-- `io_stream_shared_ptr_on_close` -/
  | ptr
deriving DecidableEq, Repr

/-- A libuv handle (`uv_tcp_t` or `uv_pipe_t`), with the counter of its shared pointers. -/
structure Hnd where
  loop : Nat
  data : Data
  refs : Nat
  /-- `uv_close` was called, with this callback -/
  closing : Option Cb
  /-- libuv reported the handle as closed -/
  closed : Bool
  freed : Bool
deriving DecidableEq, Repr

/-- `io_stream_connect_async_data`, `src/channel_io_stream.cpp:625-634`, or `std::shared_ptr` on the heap, 724; `conn->handle` of
a connection. -/
structure Obj where
  /-- the handle it keeps alive -/
  h : Nat
  live : Bool
deriving DecidableEq, Repr

/-- An event loop. -/
structure Loop where
  /-- made by `io_stream_get_loop` -/
  own : Bool
  freed : Bool
deriving DecidableEq, Repr

/-- `io_stream_channel`, `include/detail/libatbus_channel_types.h:168-198`, with the memory. -/
structure St where
  hnd : Nat → Hnd
  nh : Nat
  asy : Nat → Obj
  na : Nat
  ptr : Nat → Obj
  np : Nat
  con : Nat → Obj
  nc : Nat
  lps : Nat → Loop
  nl : Nat
  /-- connect requests libuv works on -/
  reqs : List Nat
  /-- `conn_pool`: connection objects -/
  pool : List Nat
  /-- `conn_gc_pool` -/
  gc : List Nat
  /-- `ev_loop` -/
  evLoop : Option Nat
  /-- `EN_CF_IS_LOOP_OWNER` -/
  owner : Bool
  /-- `EN_CF_CLOSING` -/
  closing : Bool

/-- A new `io_stream_channel`, nothing allocated. -/
def St.start : St :=
  { hnd := fun _ => ⟨0, .null, 0, none, false, false⟩, nh := 0, asy := fun _ => ⟨0, false⟩, na := 0
    ptr := fun _ => ⟨0, false⟩, np := 0, con := fun _ => ⟨0, false⟩, nc := 0, lps := fun _ => ⟨false, false⟩, nl := 0
    reqs := [], pool := [], gc := [], evLoop := none, owner := false, closing := false }

/-- Update of one entry (plumbing). -/
def upd {α : Type} (f : Nat → α) (i : Nat) (v : α) : Nat → α := fun x => if x = i then v else f x

/-! ### Loop -/

/-- `io_stream_get_loop`, `src/channel_io_stream.cpp:222-236`. -/
def getLoop (s : St) : St :=
  match s.evLoop with
  | some _ => s
  | none => { s with lps := upd s.lps s.nl ⟨true, false⟩, nl := s.nl + 1, evLoop := some s.nl, owner := true }

/-- `io_stream_init`, `src/channel_io_stream.cpp:238-261`; `user`: the application gives a loop of its own. -/
def initCh (s : St) (user : Bool) : St :=
  if user then
    { s with lps := upd s.lps s.nl ⟨false, false⟩, nl := s.nl + 1, evLoop := some s.nl, owner := false, closing := false }
  else { s with evLoop := none, owner := false, closing := false }

/-! ### Handles -/

/-- `io_stream_make_stream_ptr`, `src/channel_io_stream.cpp:799-806`, and `uv_tcp_init`: handle `s.nh` on a loop, kept by a local
variable. -/
def makeStream (s : St) (l : Nat) : Option St :=
  if (s.lps l).freed then none
  else some { s with hnd := upd s.hnd s.nh ⟨l, .null, 1, none, false, false⟩, nh := s.nh + 1 }

/-- A shared pointer to the handle goes; with the last one `io_stream_delete_stream_fn`, `src/channel_io_stream.cpp:790-797`, frees
it. -/
def release (s : St) (h : Nat) : Option St :=
  let x := s.hnd h
  if x.freed ∨ x.refs = 0 then none
  else if x.refs = 1 then
    if x.closing.isSome ∧ x.closed then some { s with hnd := upd s.hnd h { x with refs := 0, freed := true } } else none
  else some { s with hnd := upd s.hnd h { x with refs := x.refs - 1 } }

/-- A copy of a shared pointer to the handle. -/
def retain (s : St) (h : Nat) : St := { s with hnd := upd s.hnd h { s.hnd h with refs := (s.hnd h).refs + 1 } }

/-- `handle->data = …`. -/
def setData (s : St) (h : Nat) (d : Data) : St := { s with hnd := upd s.hnd h { s.hnd h with data := d } }

/-- `uv_close`; it must not be called twice. -/
def uvClose (s : St) (h : Nat) (cb : Cb) : Option St :=
  let x := s.hnd h
  if x.freed ∨ x.closing.isSome ∨ (s.lps x.loop).freed then none
  else some { s with hnd := upd s.hnd h { x with closing := some cb } }

/-- `io_stream_make_connection`, `src/channel_io_stream.cpp:740-788`, after `uv_fileno` succeeded. -/
def makeConn (s : St) (h : Nat) : Option St :=
  if (s.hnd h).freed then none
  else
    let s1 := setData (retain s h) h (.conn s.nc)
    some { s1 with con := upd s1.con s.nc ⟨h, true⟩, nc := s.nc + 1, pool := s.pool ++ [s.nc] }

/-- `io_stream_shutdown_ev_handle(io_stream_connection *)`, `src/channel_io_stream.cpp:695-717`. -/
def shutdownConn (s : St) (c : Nat) : Option St :=
  if (s.con c).live = true ∧ (s.hnd (s.con c).h).data = .conn c ∧ c ∈ s.pool then
    uvClose { s with pool := s.pool.filter (· ≠ c), gc := s.gc ++ [c] } (s.con c).h .conn
  else none

/-- `io_stream_shutdown_ev_handle(io_stream_connect_async_data *)`, `src/channel_io_stream.cpp:719-728`. -/
def shutdownAsync (s : St) (a : Nat) : Option St :=
  if (s.asy a).live = true ∧ ((s.hnd (s.asy a).h).data = .async a ∨ (s.hnd (s.asy a).h).data = .null) then
    uvClose (setData s (s.asy a).h (.async a)) (s.asy a).h .async
  else none

/-- `io_stream_shutdown_ev_handle(std::shared_ptr<adapter::stream_t> &)`, `src/channel_io_stream.cpp:730-738`. -/
def shutdownPtr (s : St) (h : Nat) : Option St :=
  if (s.hnd h).data = .null then
    uvClose (setData (retain { s with ptr := upd s.ptr s.np ⟨h, true⟩, np := s.np + 1 } h) h (.ptr s.np)) h .ptr
  else none

/-! ### Listening, connecting, accepting, disconnecting -/

/-- `io_stream_listen`, `src/channel_io_stream.cpp:1060-1196`; `ok`: binding, listening and `uv_fileno` succeed. -/
def listen (s : St) (ok : Bool) : Option St :=
  if s.closing then some s
  else
    let s0 := getLoop s
    let h := s0.nh
    do
      let s1 ← makeStream s0 (s0.evLoop.getD 0)
      let s2 ← if ok then makeConn s1 h else shutdownPtr s1 h
      release s2 h

/-- `io_stream_connect`, `src/channel_io_stream.cpp:1356-1460`; `ok`: libuv takes the request. -/
def connect (s : St) (ok : Bool) : Option St :=
  if s.closing then some s
  else
    let s0 := getLoop s
    let h := s0.nh
    let a := s0.na
    do
      let s1 ← makeStream s0 (s0.evLoop.getD 0)
      let s2 := { retain s1 h with asy := upd s1.asy a ⟨h, true⟩, na := a + 1 }
      let s3 ← if ok then some { s2 with reqs := s2.reqs ++ [a] } else shutdownAsync s2 a
      release s3 h

/-- `delete async_data`. -/
def deleteAsync (s : St) (a : Nat) : Option St :=
  if (s.asy a).live then release { s with asy := upd s.asy a { s.asy a with live := false } } (s.asy a).h else none

/-- `io_stream_all_connected_cb`, `src/channel_io_stream.cpp:1223-1282`; `ok`: connected; `fileno`: `uv_fileno` succeeds. -/
def connected (s : St) (a : Nat) (ok fileno : Bool) : Option St :=
  if (s.asy a).live then
    let s1 := { s with reqs := s.reqs.filter (· ≠ a) }
    if ok ∧ ¬ s.closing ∧ fileno then do
      let s2 ← makeConn s1 (s1.asy a).h
      deleteAsync s2 a
    else shutdownAsync s1 a
  else none

/-- `io_stream_tcp_connection_cb` and `io_stream_pipe_connection_cb`, `src/channel_io_stream.cpp:809-978`, on the listening connection
`l`; `ok`: the status; `acc`: `uv_accept` succeeds. -/
def accept (s : St) (l : Nat) (ok acc fileno : Bool) : Option St :=
  if (s.con l).live = true ∧ (s.hnd (s.con l).h).data = .conn l then
    if ok then
      let h := s.nh
      do
        let s1 ← makeStream s (s.hnd (s.con l).h).loop
        let s2 ← if acc ∧ ¬ s.closing ∧ fileno then makeConn s1 h else shutdownPtr s1 h
        release s2 h
    else some s
  else none

/-- `io_stream_disconnect` as far as it closes, `src/channel_io_stream.cpp:1488-1542`; a connection that is closing already
(`EN_CF_CLOSING`) is left alone. -/
def disconnect (s : St) (c : Nat) : Option St :=
  if (s.con c).live then if c ∈ s.gc then some s else shutdownConn s c else none

/-- The report of libuv that the handle is closed: `src/channel_io_stream.cpp:636-693`. -/
def onClose (s : St) (h : Nat) : Option St :=
  let x := s.hnd h
  if x.freed then none
  else
    let s1 := { s with hnd := upd s.hnd h { x with closed := true } }
    match x.closing, x.data with
    | some .conn, .conn c =>
      if (s.con c).live = true ∧ c ∈ s.gc then
        release { s1 with gc := s.gc.filter (· ≠ c), con := upd s.con c { s.con c with live := false } } (s.con c).h
      else none
    | some .conn, .null => some s1
    | some .async, .async a => if (s.asy a).live = true ∧ (s.asy a).h = h then deleteAsync s1 a else none
    | some .ptr, .ptr p =>
      if (s.ptr p).live = true ∧ (s.ptr p).h = h then
        release { s1 with ptr := upd s.ptr p { s.ptr p with live := false } } h
      else none
    | _, _ => none

/-! ### Closing the channel -/

/-- Disconnects the connections of a list. -/
def disconnectAll : St → List Nat → Option St
  | s, [] => some s
  | s, c :: t => (disconnect s c).bind fun s1 => disconnectAll s1 t

/-- `io_stream_close` up to the first run of the loop, `src/channel_io_stream.cpp:263-289`; `late`: connections that write, they are
disconnected by later steps. -/
def close (s : St) (late : List Nat) : Option St :=
  disconnectAll { s with closing := true } (s.pool.filter fun c => !late.contains c)

/-- A handle on the loop is not closed yet: `uv_run` returns nonzero, `uv_loop_close` returns `UV_EBUSY`. -/
def busy (s : St) (l : Nat) : Bool := (List.range s.nh).any fun h => (s.hnd h).loop == l && !(s.hnd h).closed

/-- `io_stream_close` runs the loop again, `src/channel_io_stream.cpp:294-318`. -/
def waits (s : St) : Bool :=
  match s.evLoop with
  | some l => if s.owner then busy s l else !s.pool.isEmpty || !s.gc.isEmpty || !s.reqs.isEmpty
  | none => !s.pool.isEmpty || !s.gc.isEmpty || !s.reqs.isEmpty

/-- The rest of `io_stream_close`, `src/channel_io_stream.cpp:302-322`, when it need not wait. -/
def closeEnd (s : St) : Option St :=
  match s.evLoop with
  | some l =>
    if s.owner then
      if (s.lps l).freed then none
      else some { s with lps := upd s.lps l { s.lps l with freed := true }, evLoop := none, closing := false }
    else some { s with evLoop := none, closing := false }
  | none => if waits s then none else some { s with closing := false }

/-- `io_stream_run`, `src/channel_io_stream.cpp:325-336`: the code returned after a run in which `s` was reached. -/
def runCode (s : St) : Int :=
  match (getLoop s).evLoop with
  | some l => if busy (getLoop s) l then -605 else Err.SUCCESS
  | none => Err.SUCCESS

/-! ### Histories -/

/-- Calls of the application and reports of libuv. -/
inductive Ev where
  | init (user : Bool)
  | run
  | listen (ok : Bool)
  | connect (ok : Bool)
  | connected (a : Nat) (ok fileno : Bool)
  | accept (l : Nat) (ok acc fileno : Bool)
  | disconnect (c : Nat)
  | closed (h : Nat)
  | close (late : List Nat)
  | closeEnd
deriving DecidableEq, Repr

/-- What the event does. -/
def step (s : St) : Ev → Option St
  | .init u => some (initCh s u)
  | .run => some (getLoop s)
  | .listen ok => listen s ok
  | .connect ok => connect s ok
  | .connected a ok f => connected s a ok f
  | .accept l ok a f => accept s l ok a f
  | .disconnect c => disconnect s c
  | .closed h => onClose s h
  | .close late => close s late
  | .closeEnd => closeEnd s

/-- The events that can happen: the application initialises a channel that is new or closed, uses only connections that were
not reported as disconnected, and does not close a channel while it closes it; libuv reports what was asked of it. -/
def can (s : St) : Ev → Bool
  | .init _ => s.evLoop.isNone && !s.closing
  | .run => true
  | .listen _ => true
  | .connect _ => true
  | .connected a _ _ => s.reqs.contains a
  | .accept l _ _ _ => s.pool.contains l && (s.hnd (s.con l).h).closing.isNone
  | .disconnect c => s.pool.contains c || s.gc.contains c
  | .closed h => decide (h < s.nh) && (s.hnd h).closing.isSome && !(s.hnd h).closed
  | .close _ => !s.closing
  | .closeEnd => s.closing && !waits s

/-- A history, if it is possible and every step is defined. -/
def run : St → List Ev → Option St
  | s, [] => some s
  | s, e :: t => if can s e then (step s e).bind fun s1 => run s1 t else none

end Verif.IoStream.Handles
