import Verif.Basic

/-!
Model of the life of the connections of a stream channel, `src/channel_io_stream.cpp`: closing (263-323), the
receive callback as far as it closes connections (392-568), the close callbacks (636-738), new connections
(740-788), accepting (809-978), resolving, listening and connecting (991-1486), disconnecting (1488-1542), the write
callback (1544-1621), `io_stream_try_write` (1623-1757) and `io_stream_send` (1759-1804).

* A call of the application, a callback into the application and an event of libuv are steps.  While a callback runs the
  rest of the function that made it is a frame on a stack, and the application may make any call; so
  re-entrant use is part of the model.
* libuv is the environment: it reports every request once, every closed handle once and after its requests, and only
  while the loop runs (no callback is active, or `io_stream_close` waits).
* Messages are numbers, a write buffer is a list of blocks of messages.  Frames, sizes and limits are in
  `Send` and `Recv`.
* Simplified: a socket, a pipe and both address families are one kind; memory allocation does not fail; the channel
  does not own the loop (`io_stream_close` waits for less then).
-/
namespace Verif.IoStream.Pool

/-- `include/detail/libatbus_error.h:60`. -/
def SOCK_CONNECT_FAILED : Int := -403
/-- `include/detail/libatbus_error.h:58`. -/
def SOCK_BIND_FAILED : Int := -401
/-- `include/detail/libatbus_error.h:68`. -/
def DNS_GETADDR_FAILED : Int := -601

/-- An object of type `io_stream_connection`: number in the order of creation. -/
abbrev Ref := Nat

/-- Number of a call; stands for the callback and the private data given with it. -/
abbrev Tok := Nat

/-- `io_stream_connection::status_t`, `include/detail/libatbus_channel_types.h:122`. -/
inductive Status where
  | created
  | connected
  | disconnecting
  | disconnected
deriving DecidableEq, Repr

/-- `io_stream_connection`, `include/detail/libatbus_channel_types.h:108-146`. -/
structure Conn where
  fd : Nat
  status : Status
  /-- `EN_CF_WRITING` -/
  writing : Bool
  /-- `EN_CF_CLOSING` -/
  closing : Bool
  /-- `act_disc_cbk` -/
  cbk : Option Tok
  /-- `write_buffers` -/
  q : List (List Nat)
deriving DecidableEq, Repr

/-- Requests libuv works on. -/
inductive Req where
  | dnsListen (t : Tok)
  | dnsConnect (t : Tok)
  | connect (t : Tok)
  | write (c : Ref)
deriving DecidableEq, Repr

/-- Handles given to `uv_close`; `loose`: without a connection object. -/
inductive Hand where
  | conn (c : Ref)
  | loose
deriving DecidableEq, Repr

/-- Callbacks into the application, and returns of its calls. -/
inductive Ev where
  /-- a call of listen or connect returned -/
  | ret (t : Tok) (code : Int)
  /-- `EN_FN_CONNECTED` -/
  | answer (t : Tok) (code : Int) (c : Option Ref)
  /-- `EN_FN_ACCEPTED` on a listening connection -/
  | accepted (l : Ref) (code : Int) (c : Option Ref)
  /-- `EN_FN_RECVED` -/
  | recv (c : Ref)
  /-- a message was put into the write buffer -/
  | sent (c : Ref) (m : Nat)
  /-- `EN_FN_WRITEN`; `ok`: libuv wrote the message -/
  | written (c : Ref) (m : Nat) (code : Int) (ok : Bool)
  /-- `EN_FN_DISCONNECTED` -/
  | disconnected (c : Ref)
  /-- the callback given to `io_stream_disconnect` -/
  | discCb (t : Tok) (c : Ref)
deriving DecidableEq, Repr

/-- What is left to do after the running callback returned. -/
inductive Frame where
  /-- `io_stream_listen` returns to its caller, `src/channel_io_stream.cpp:1133`, 1190 -/
  | listenRet (t : Tok)
  /-- nothing (1052-1058, `src/channel_io_stream.cpp:1279-1281,1344-1350`, and the inner calls of 1026-1039) -/
  | cbEnd
  /-- a handle without connection is closed, `src/channel_io_stream.cpp:896-899,974-977,1276-1278` -/
  | loose
  /-- `io_stream_connection_on_close`, `src/channel_io_stream.cpp:656-664`; `valid`: the iterator was not invalidated; `second`: the second
  callback was made -/
  | onClose (c : Ref) (valid second : Bool)
  /-- `io_stream_on_written_fn`, `src/channel_io_stream.cpp:1576-1620`: messages not reported yet, and whether libuv wrote them -/
  | written (c : Ref) (todo : List Nat) (ok : Bool)
  /-- `io_stream_try_write` of a closing connection, `src/channel_io_stream.cpp:1640-1672`; `after`: called by `io_stream_on_written_fn` -/
  | cancel (c : Ref) (todo : List Nat) (after : Bool)
  /-- `io_stream_on_recv_read_fn`: callbacks left, and whether the connection is closed then -/
  | recv (c : Ref) (left : Nat) (free : Bool)
  /-- `io_stream_on_recv_read_fn` after a read error, `src/channel_io_stream.cpp:416-424` -/
  | recvErr (c : Ref) (force : Bool)
  /-- `io_stream_close` runs the loop, `src/channel_io_stream.cpp:308-317` -/
  | closeWait
deriving DecidableEq, Repr

/-- The frame belongs to a callback made by libuv (`EN_CF_IN_CALLBACK` is set). -/
def Frame.uv : Frame → Bool
  | .listenRet _ | .closeWait => false
  | _ => true

/-- A rehash of the table of closing connections invalidates iterators. -/
def Frame.rehash : Frame → Frame
  | .onClose c _ b => .onClose c false b
  | f => f

/-- `io_stream_channel`, `include/detail/libatbus_channel_types.h:168-198`, with what libuv has to do for it. -/
structure St where
  conn : Ref → Conn
  /-- objects created -/
  next : Nat
  /-- `conn_pool` -/
  pool : List (Nat × Ref)
  /-- `conn_gc_pool` -/
  gc : List (Ref × Ref)
  reqs : List Req
  hands : List Hand
  /-- `active_reqs` -/
  active : Nat
  /-- `read_net_eagain_count` -/
  again : Nat
  /-- `EN_CF_CLOSING` of the channel -/
  closing : Bool
  stack : List Frame
  /-- calls made -/
  calls : Nat
  log : List Ev

/-- After `io_stream_init`. -/
def St.init : St :=
  { conn := fun _ => ⟨0, .created, false, false, none, []⟩, next := 0, pool := [], gc := [], reqs := [], hands := [],
    active := 0, again := 0, closing := false, stack := [], calls := 0, log := [] }

/-- `ub`: undefined behaviour; `abort`: the process ends; `no`: the step is not possible. -/
inductive Out where
  | ok (s : St)
  | ub
  | abort
  | no

/-- Continues unless the outcome is undefined (plumbing). -/
def Out.bind : Out → (St → Out) → Out
  | .ok s, f => f s
  | o, _ => o

/-- Update of one entry (plumbing). -/
def upd (f : Ref → Conn) (r : Ref) (c : Conn) : Ref → Conn := fun x => if x = r then c else f x

/-- Update of one entry (plumbing). -/
def St.set (s : St) (r : Ref) (c : Conn) : St := { s with conn := upd s.conn r c }
/-- Appends to the history (ghost). -/
def St.emit (s : St) (e : Ev) : St := { s with log := s.log ++ [e] }
/-- Enters a call (plumbing). -/
def St.push (s : St) (f : Frame) : St := { s with stack := f :: s.stack }
/-- Leaves a call (plumbing). -/
def St.pop (s : St) : St := { s with stack := s.stack.tail }

/-- `conn_pool.erase(key)`. -/
def erase (m : List (Nat × Ref)) (k : Nat) : List (Nat × Ref) := m.filter fun p => p.1 ≠ k
/-- `conn_pool[key] = value`. -/
def insert (m : List (Nat × Ref)) (k : Nat) (v : Ref) : List (Nat × Ref) := (k, v) :: erase m k

/-- Choices of the environment: `merge`: queued blocks merged with the first one; `uvOk`: `uv_write` takes the
request; `rehash`: an insertion into `conn_gc_pool` changes its number of buckets. -/
structure Env where
  merge : Nat
  uvOk : Bool
  rehash : Bool
deriving DecidableEq, Repr

/-! ### Disconnecting -/

/-- `io_stream_shutdown_ev_handle(io_stream_connection *)`, `src/channel_io_stream.cpp:696-717`. -/
def shutdownConn (ev : Env) (s : St) (r : Ref) : Out :=
  match s.pool.lookup (s.conn r).fd with
  | none => .ub
  | some o =>
    .ok { s with
      pool := erase s.pool (s.conn r).fd
      gc := insert s.gc r o
      hands := s.hands ++ [.conn r]
      stack := if ev.rehash then s.stack.map Frame.rehash else s.stack }

/-- `io_stream_disconnect_run`, `src/channel_io_stream.cpp:1488-1503`. -/
def disconnectRun (ev : Env) (s : St) (r : Ref) : Out :=
  if (s.conn r).closing then .ok s else shutdownConn ev (s.set r { s.conn r with closing := true }) r

/-- `io_stream_disconnect_inner`, `src/channel_io_stream.cpp:1505-1525`. -/
def disconnectInner (ev : Env) (s : St) (r : Ref) (cb : Option Tok) (force : Bool) : Out :=
  let s := s.set r { s.conn r with cbk := cb }
  if (s.conn r).status ≠ .connected then .ok s
  else
    let s := s.set r { s.conn r with status := .disconnecting }
    if force = false ∧ (s.conn r).writing = true then .ok s
    else disconnectRun ev s r

/-! ### Writing -/

/-- End of `io_stream_on_written_fn`, `src/channel_io_stream.cpp:1616-1620`. -/
def afterTry (ev : Env) (s : St) (r : Ref) : Out :=
  if (s.conn r).status = .disconnecting ∧ (s.conn r).writing = false then disconnectRun ev s r else .ok s

/-- Head of the loop over the blocks of a closing connection, `src/channel_io_stream.cpp:1640-1641`. -/
def cancelNext (ev : Env) (s : St) (r : Ref) (after : Bool) : Out :=
  match (s.conn r).q.dropWhile (· = []) with
  | [] =>
    let s := s.set r { s.conn r with q := [] }
    if after then afterTry ev s r else .ok s
  | b :: bs =>
    let s := s.set r { s.conn r with q := b :: bs }
    match b with
    | [] => .no
    | m :: rest => .ok ((s.emit (.written r m Err.CLOSING false)).push (.cancel r rest after))

/-- `io_stream_try_write`, `src/channel_io_stream.cpp:1623-1757`; `after`: followed by the end of `io_stream_on_written_fn`. -/
def tryWrite (ev : Env) (s : St) (r : Ref) (after : Bool) : Out :=
  let done := fun s => if after then afterTry ev s r else Out.ok s
  if (s.conn r).writing then done s
  else if (s.conn r).q = [] then done s
  else if (s.conn r).closing then cancelNext ev s r after
  else
    let q := (s.conn r).q
    let s := s.set r { s.conn r with q := (q.take (ev.merge + 1)).flatten :: q.drop (ev.merge + 1) }
    if ev.uvOk then
      let s := s.set r { s.conn r with writing := true }
      done { s with reqs := s.reqs ++ [.write r], active := s.active + 1 }
    else done s

/-- `io_stream_send`, `src/channel_io_stream.cpp:1759-1804`, of a message within the limits. -/
def send (ev : Env) (s : St) (r : Ref) (m : Nat) : Out :=
  if (s.conn r).status ≠ .connected then .ok s
  else
    let s := s.set r { s.conn r with q := (s.conn r).q ++ [[m]] }
    tryWrite ev (s.emit (.sent r m)) r false

/-! ### New connections -/

/-- `io_stream_make_connection`, `src/channel_io_stream.cpp:740-788`, and the status set after it. -/
def make (s : St) (fd : Nat) : St × Ref :=
  ({ s with
     conn := upd s.conn s.next ⟨fd, .connected, false, false, none, []⟩
     next := s.next + 1
     pool := insert s.pool fd s.next }, s.next)

/-- Results of the system and libuv calls of listen and connect. -/
inductive Sys where
  /-- `bind`, `listen`, `connect` or `uv_fileno` fails -/
  | fail
  /-- a listening socket gets the number `fd`; of no meaning for connect -/
  | ok (fd : Nat)
deriving DecidableEq, Repr

/-- `io_stream_listen` of an address that needs no name resolution, `src/channel_io_stream.cpp:1061-1199`, and its return value.  The frame is
the one its callback leaves. -/
def listenAddr (s : St) (t : Tok) (sys : Sys) (f : Frame) : St × Int :=
  if s.closing then (s, Err.CHANNEL_CLOSING)
  else
    match sys with
    | .fail => ({ s with hands := s.hands ++ [.loose] }, SOCK_BIND_FAILED)
    | .ok fd =>
      let (s, r) := make s fd
      ((s.emit (.answer t Err.SUCCESS (some r))).push f, Err.SUCCESS)

/-- `io_stream_connect` of an address that needs no name resolution, `src/channel_io_stream.cpp:1353-1463`. -/
def connectAddr (s : St) (t : Tok) (sys : Sys) : St × Int :=
  if s.closing then (s, Err.CHANNEL_CLOSING)
  else
    match sys with
    | .fail => ({ s with hands := s.hands ++ [.loose] }, SOCK_CONNECT_FAILED)
    | .ok _ => ({ s with reqs := s.reqs ++ [.connect t], active := s.active + 1 }, Err.SUCCESS)

/-- A name that has to be resolved, `src/channel_io_stream.cpp:1200-1218,1464-1483`. -/
def resolve (s : St) (req : Req) (ok : Bool) : St × Int :=
  if s.closing then (s, Err.CHANNEL_CLOSING)
  else if ok then ({ s with reqs := s.reqs ++ [req], active := s.active + 1 }, Err.SUCCESS)
  else (s, DNS_GETADDR_FAILED)

/-! ### Steps -/

/-- A step: a call of the application (`src/channel_io_stream.cpp`), its return from a callback, or an event of libuv. -/
inductive In where
  /-- calls of the application -/
  | listen (sys : Sys)
  | listenName (ok : Bool)
  | connect (sys : Sys)
  | connectName (ok : Bool)
  /-- an address of another kind -/
  | badAddr
  | disconnect (c : Ref) (cb : Bool) (ev : Env)
  | disconnectFd (fd : Nat) (cb : Bool) (ev : Env)
  | send (c : Ref) (m : Nat) (ev : Env)
  | close (ev : Env)
  /-- the running callback returns -/
  | ret (ev : Env)
  /-- libuv: a name was resolved (`none`: not) -/
  | resolved (r : Req) (res : Option Sys)
  /-- libuv: a connect request is finished; `none`: with an error, or the socket has no number -/
  | connected (t : Tok) (fd : Option Nat)
  /-- libuv: a connection on a listening socket; `none`: with an error; `acc`: a handle was made for it -/
  | incoming (l : Ref) (fd : Option Nat) (acc : Bool)
  /-- libuv: a handle is closed -/
  | closed (h : Hand)
  /-- libuv: a write request is finished -/
  | written (c : Ref) (ok : Bool) (ev : Env)
  /-- libuv: nothing to read now, or interrupted -/
  | again (c : Ref) (ev : Env)
  /-- libuv: a read error; `force`: connection reset -/
  | readErr (c : Ref) (force : Bool)
  /-- libuv: data with `n` messages (`free`: and a frame that closes the connection) -/
  | data (c : Ref) (n : Nat) (free : Bool) (ev : Env)
  /-- the loop of `io_stream_close` is done -/
  | closeDone
deriving DecidableEq, Repr

/-- The application runs: it was not called, or a callback is active. -/
def St.canCall (s : St) : Bool := match s.stack with
  | .closeWait :: _ => false
  | _ => true

/-- The loop runs. -/
def St.canLoop (s : St) : Bool := match s.stack with
  | [] | .closeWait :: _ => true
  | _ => false

/-- `EN_CF_IN_CALLBACK`. -/
def St.inCb (s : St) : Bool := s.stack.any Frame.uv

/-- The object exists: a table holds a reference to it. -/
def St.held (s : St) (r : Ref) : Bool := s.pool.any (fun p => p.2 == r) || s.gc.any (fun p => p.2 == r)

/-- The code uses the object. -/
def use (s : St) (r : Ref) (k : Out) : Out := if s.held r then k else .ub

/-- The handle of a connection is open. -/
def St.opened (s : St) (r : Ref) : Bool := s.pool.any fun p => p.2 == r

/-- A call with the next number, and its return. -/
def call (s : St) (f : St → Tok → St × Int) : St :=
  let t := s.calls
  let (s, code) := f { s with calls := t + 1 } t
  s.emit (.ret t code)

/-- As `call`, for a listening call: the return comes after the callback. -/
def callListen (s : St) (sys : Sys) : St :=
  let t := s.calls
  let (s, code) := listenAddr { s with calls := t + 1 } t sys (.listenRet t)
  if code = Err.SUCCESS then s else s.emit (.ret t code)

/-- Disconnects all connections, `io_stream_close`, `src/channel_io_stream.cpp:275-287`. -/
def disconnectAll (ev : Env) : St → List Ref → Out
  | s, [] => .ok s
  | s, r :: rs => (disconnectInner ev s r none false).bind fun s => disconnectAll ev s rs

/-- A request is reported. -/
def St.done (s : St) (r : Req) : St := { s with reqs := s.reqs.erase r, active := s.active - 1 }

/-- `io_stream_connection_on_close`, `src/channel_io_stream.cpp:664`: the last step. -/
def gcErase (s : St) (r : Ref) (valid : Bool) : Out :=
  if valid then .ok { s with gc := erase s.gc r } else .ub

/-- The callback on top of the stack returns. -/
def ret (ev : Env) (s : St) : Out :=
  match s.stack with
  | [] | .closeWait :: _ => .no
  | .listenRet t :: _ => .ok (s.pop.emit (.ret t Err.SUCCESS))
  | .cbEnd :: _ => .ok s.pop
  | .loose :: _ => .ok { s.pop with hands := s.hands ++ [.loose] }
  | .onClose r valid false :: _ =>
    use s r <| match (s.conn r).cbk with
    | some t => .ok ((s.pop.emit (.discCb t r)).push (.onClose r valid true))
    | none => gcErase s.pop r valid
  | .onClose r valid true :: _ => gcErase s.pop r valid
  | .written r todo ok :: _ =>
    use s r <| match todo with
    | m :: rest => .ok ((s.pop.emit (.written r m Err.SUCCESS ok)).push (.written r rest ok))
    | [] =>
      let s := s.pop
      tryWrite ev (s.set r { s.conn r with q := (s.conn r).q.tail, writing := false }) r true
  | .cancel r todo after :: _ =>
    use s r <| match todo with
    | m :: rest => .ok ((s.pop.emit (.written r m Err.CLOSING false)).push (.cancel r rest after))
    | [] =>
      let s := s.pop
      cancelNext ev (s.set r { s.conn r with q := (s.conn r).q.tail }) r after
  | .recv r left free :: _ =>
    use s r <| match left with
    | n + 1 => .ok ((s.pop.emit (.recv r)).push (.recv r n free))
    | 0 => if free then disconnectInner ev s.pop r none false else .ok s.pop
  | .recvErr r force :: _ => use s r (disconnectInner ev s.pop r none force)

/-- `max` is `max_read_net_eagain_count`. -/
def step (max : Nat) (s : St) : In → Out
  | .listen sys => if s.canCall then .ok (callListen s sys) else .no
  | .listenName ok => if s.canCall then .ok (call s fun s t => resolve s (.dnsListen t) ok) else .no
  | .connect sys => if s.canCall then .ok (call s fun s t => connectAddr s t sys) else .no
  | .connectName ok => if s.canCall then .ok (call s fun s t => resolve s (.dnsConnect t) ok) else .no
  | .badAddr =>
    if s.canCall then .ok (call s fun s _ => (s, if s.closing then Err.CHANNEL_CLOSING else Err.CHANNEL_NOT_SUPPORT))
    else .no
  | .disconnect r cb ev =>
    if s.canCall then
      use s r (disconnectInner ev { s with calls := s.calls + 1 } r (if cb then some s.calls else none) false)
    else .no
  | .disconnectFd fd cb ev =>
    if s.canCall then
      match s.pool.lookup fd with
      | none => .ok s
      | some r => disconnectInner ev { s with calls := s.calls + 1 } r (if cb then some s.calls else none) false
    else .no
  | .send r m ev => if s.canCall then use s r (send ev s r m) else .no
  | .close ev =>
    if s.canCall then
      if s.inCb then .abort
      else (disconnectAll ev { s with closing := true } (s.pool.map (·.2))).bind fun s => .ok (s.push .closeWait)
    else .no
  | .ret ev => ret ev s
  | .resolved req res =>
    if s.canLoop = true ∧ req ∈ s.reqs then
      match req, res with
      | .dnsListen t, some sys =>
        let (s, code) := listenAddr (s.done req) t sys .cbEnd
        .ok (if code = Err.SUCCESS then s else (s.emit (.answer t DNS_GETADDR_FAILED none)).push .cbEnd)
      | .dnsConnect t, some sys =>
        let (s, code) := connectAddr (s.done req) t sys
        .ok (if code = Err.SUCCESS then s else (s.emit (.answer t DNS_GETADDR_FAILED none)).push .cbEnd)
      | .dnsListen t, none | .dnsConnect t, none =>
        .ok (((s.done req).emit (.answer t DNS_GETADDR_FAILED none)).push .cbEnd)
      | _, _ => .no
    else .no
  | .connected t fd =>
    if s.canLoop = true ∧ .connect t ∈ s.reqs then
      let s := s.done (.connect t)
      match fd with
      | none => .ok ((s.emit (.answer t SOCK_CONNECT_FAILED none)).push .loose)
      | some fd =>
        if s.closing then .ok ((s.emit (.answer t Err.CHANNEL_CLOSING none)).push .loose)
        else
          let (s, r) := make s fd
          .ok ((s.emit (.answer t Err.SUCCESS (some r))).push .cbEnd)
    else .no
  | .incoming l fd acc =>
    if s.canLoop = true ∧ s.opened l = true then
      match fd with
      | none => .ok ((s.emit (.accepted l SOCK_CONNECT_FAILED none)).push (if acc then .loose else .cbEnd))
      | some fd =>
        if s.closing then .ok ((s.emit (.accepted l Err.CHANNEL_CLOSING none)).push .loose)
        else
          let (s, r) := make s fd
          .ok ((s.emit (.accepted l Err.SUCCESS (some r))).push .cbEnd)
    else .no
  | .closed h =>
    if s.canLoop = true ∧ h ∈ s.hands then
      match h with
      | .loose => .ok { s with hands := s.hands.erase h }
      | .conn r =>
        if .write r ∈ s.reqs then .no
        else
          match s.gc.lookup r with
          | none => .ub
          | some o =>
            let s := { s with hands := s.hands.erase h }
            .ok (((s.set o { s.conn o with status := .disconnected }).emit (.disconnected o)).push (.onClose r true false))
    else .no
  | .written r ok ev =>
    if s.canLoop = true ∧ .write r ∈ s.reqs then
      let s := s.done (.write r)
      use s r <| match (s.conn r).q with
      | (m :: rest) :: _ => .ok ((s.emit (.written r m Err.SUCCESS ok)).push (.written r rest ok))
      | _ => tryWrite ev (s.set r { s.conn r with q := (s.conn r).q.tail, writing := false }) r true
    else .no
  | .again r ev =>
    if s.canLoop = true ∧ s.opened r = true then
      if (s.conn r).status ≠ .connected then .ok s
      else
        let s := { s with again := s.again + 1 }
        if s.again > max then disconnectInner ev s r none false else .ok s
    else .no
  | .readErr r force =>
    if s.canLoop = true ∧ s.opened r = true then
      if (s.conn r).status ≠ .connected then .ok s
      else .ok ((s.emit (.recv r)).push (.recvErr r force))
    else .no
  | .data r n free ev =>
    if s.canLoop = true ∧ s.opened r = true then
      if (s.conn r).status ≠ .connected then .ok s
      else match n with
        | n + 1 => .ok ((s.emit (.recv r)).push (.recv r n free))
        | 0 => if free then disconnectInner ev s r none false else .ok s
    else .no
  | .closeDone =>
    match s.stack with
    | .closeWait :: _ =>
      if s.pool = [] ∧ s.gc = [] ∧ s.active = 0 then .ok { s.pop with closing := false } else .no
    | _ => .no

/-- Runs the calls in order (plumbing). -/
def run (max : Nat) (s : St) : List In → Out
  | [] => .ok s
  | i :: is => (step max s i).bind fun s => run max s is

end Verif.IoStream.Pool
