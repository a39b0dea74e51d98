import Verif.IoStream.SendInv

/-!
Model of the push statistics of a connection, `src/atbus_connection.cpp`: `connection::push` (416-435), the
push functions of streams (845-853), shared and process memory (759-771, 825-836), the write callback
(664-704) and the places where the counters are cleared (105-130) or the stream is detached (379-414, 838-843).

The sending half of the stream is `IoStream.SConn`.  Simplified: the counters do not wrap (the code's are
`size_t`); the result of a push into a memory channel is a choice of the environment, see `Mem` for the channel.
-/
namespace Verif.Node.PushStat

open Verif.IoStream

/-- The push counters of `connection::stat_t`, `include/atbus_connection.h:79-91`. -/
structure Stat where
  startN : Nat
  startB : Nat
  okN : Nat
  okB : Nat
  badN : Nat
  badB : Nat
deriving DecidableEq, Repr

/-- `memset(&stat_, 0, sizeof(stat_))`, `src/atbus_connection.cpp:67`. -/
def Stat.zero : Stat := ⟨0, 0, 0, 0, 0, 0⟩

/-- One more push started, `src/atbus_connection.cpp:417-418`. -/
def Stat.start (n : Nat) (s : Stat) : Stat := { s with startN := s.startN + 1, startB := s.startB + n }

/-- One more push successful, `src/atbus_connection.cpp:695-696`, `763-764`, `828-829`. -/
def Stat.ok (n : Nat) (s : Stat) : Stat := { s with okN := s.okN + 1, okB := s.okB + n }

/-- One more push failed, `src/atbus_connection.cpp:421-422`, `428-429`, `682-683`, `766-767`, `849-850`. -/
def Stat.bad (n : Nat) (s : Stat) : Stat := { s with badN := s.badN + 1, badB := s.badB + n }

/-- `state_` as far as pushing is concerned: `active` is `CONNECTED` or `HANDSHAKING`. -/
inductive Phase where
  | idle
  | connecting
  | active
deriving DecidableEq, Repr

/-- `conn_data_.push_fn`; connections made by `listen` have none. -/
inductive Fn where
  | none
  | mem
  | ios
deriving DecidableEq, Repr

/-- A connection; `attached`: the `data` pointer of the stream refers to it. -/
structure S where
  phase : Phase
  fn : Fn
  stat : Stat
  chan : SConn
  attached : Bool
deriving DecidableEq, Repr

/-- A new connection, `src/atbus_connection.cpp:64-68`. -/
def init : S := ⟨.idle, .none, Stat.zero, sinit, false⟩

/-- `iostream_on_written`, `src/atbus_connection.cpp:664-704`: one callback. -/
def onWritten (s : S) (cb : Cb) : S :=
  if s.attached then
    { s with stat := if cb.code = Err.SUCCESS then s.stat.ok cb.data.length else s.stat.bad cb.data.length }
  else s

/-- Choices of the environment in a push: those of the stream and the result of the memory channel. -/
structure PEnv where
  ios : Env
  mem : Int
deriving DecidableEq, Repr

/-- `ios_push_fn`, `src/atbus_connection.cpp:845-853`. -/
def iosPush (limit : Nat) (h : Hash) (ev : PEnv) (s : S) (m : List Byte) : Option (S × Int) :=
  match send limit h ev.ios s.chan m with
  | none => none
  | some (c, ret, cbs) =>
    let s1 := cbs.foldl onWritten { s with chan := c }
    some (if ret < 0 then { s1 with stat := s1.stat.bad m.length } else s1, ret)

/-- `mem_push_fn` and `shm_push_fn`, `src/atbus_connection.cpp:759-771` and `825-836`. -/
def memPush (ev : PEnv) (s : S) (m : List Byte) : S × Int :=
  if ev.mem ≥ 0 then ({ s with stat := s.stat.ok m.length }, ev.mem)
  else ({ s with stat := s.stat.bad m.length }, ev.mem)

/-- `connection::push`, `src/atbus_connection.cpp:416-435`. -/
def push (limit : Nat) (h : Hash) (ev : PEnv) (s : S) (m : List Byte) : Option (S × Int) :=
  let s1 := { s with stat := s.stat.start m.length }
  if s1.phase ≠ .active then some ({ s1 with stat := s1.stat.bad m.length }, Err.NOT_INITED)
  else
    match s1.fn with
    | .none => some ({ s1 with stat := s1.stat.bad m.length }, Err.ACCESS_DENY)
    | .mem => some (memPush ev s1 m)
    | .ios => iosPush limit h ev s1 m

/-- `connection::disconnect`, `src/atbus_connection.cpp:379-414`, with `ios_free_fn`, `838-843`. -/
def disconnect (s : S) : S :=
  if s.phase = .idle then s
  else
    { s with phase := .idle, fn := .none,
             chan := if s.attached then IoStream.disconnect false s.chan else s.chan, attached := false }

/-- `connection::reset`, `src/atbus_connection.cpp:93-130`. -/
def reset (s : S) : S := { disconnect s with stat := Stat.zero }

/-- What can happen to a connection. -/
inductive Op where
  /-- `connect` or `listen` of a stream address, not yet finished, `src/atbus_connection.cpp:231`, `361` -/
  | connecting
  /-- the stream is connected or accepted, `src/atbus_connection.cpp:541-560`, `624-634`; the connection may have
  been reset or used otherwise in the meantime, but is not attached to another stream -/
  | stream
  /-- `listen`, of any kind -/
  | listen
  /-- `connect` of a memory or shared memory address, `src/atbus_connection.cpp:265-340` -/
  | memory
  /-- `connection::push` -/
  | push (m : List Byte) (ev : PEnv)
  /-- `uv_write` finished -/
  | written (ev : Env)
  /-- the stream is being closed by the channel (error, or the other side closed it) -/
  | shut (force : Bool)
  /-- `connection::disconnect` called directly -/
  | disconnect
  /-- `connection::reset` -/
  | reset
deriving DecidableEq, Repr

/-- New state and, for a push, its return value; `none`: the code would read outside a block. -/
def step (limit : Nat) (h : Hash) (s : S) : Op → Option (S × Int)
  | .connecting => some (if s.phase = .idle then { s with phase := .connecting } else s, 0)
  | .stream => some (if s.attached = false then { s with phase := .active, fn := .ios, chan := sinit, attached := true } else s, 0)
  | .listen => some (if s.phase ≠ .active ∧ s.attached = false then { s with phase := .active, fn := .none } else s, 0)
  | .memory => some (if s.phase = .idle then { s with phase := .active, fn := .mem } else s, 0)
  | .push m ev => push limit h ev s m
  | .written ev =>
    if s.attached then
      match IoStream.written ev s.chan with
      | none => none
      | some (c, cbs) => some (cbs.foldl onWritten { s with chan := c }, 0)
    else some (s, 0)
  | .shut f => some (if s.attached then { s with chan := IoStream.disconnect f s.chan } else s, 0)
  | .disconnect => some (disconnect s, 0)
  | .reset => some (reset s, 0)

/-- A history: final state and the return values. -/
def run (limit : Nat) (h : Hash) (s : S) : List Op → Option (S × List Int)
  | [] => some (s, [])
  | o :: os =>
    match step limit h s o with
    | none => none
    | some (s1, r) =>
      match run limit h s1 os with
      | none => none
      | some (s2, rs) => some (s2, r :: rs)

end Verif.Node.PushStat
