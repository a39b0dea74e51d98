import Verif.IoStream.Recv

/-!
Model of the sending half of a stream connection, `src/channel_io_stream.cpp`:
disconnecting (1488-1527), write completion (1544-1621), `io_stream_try_write`
(1623-1757) and `io_stream_send` (1759-1804).

`write_buffers` is the queue of its blocks, front first; a block is the list of
its bytes without the leading `uv_write_t`.  That the buffer manager behaves
like such a queue in both modes, and that the merged block always fits, is C04,
C06 and C25.  Three things are left to the environment and are part of every
event: whether the queue has room for one more block, how many blocks the merge
loop takes (at least one), and whether `uv_write` accepts the request.

Simplified: a user's write callback does not call back into the channel.  (A
send made there is queued behind the block being completed, as if it had been
made just before the completion.)
-/
namespace Verif.IoStream

/-- A connection as the sending half sees it; `include/detail/libatbus_channel_types.h:105-150`. -/
structure SConn where
  /-- `write_buffers` -/
  q : List (List Byte)
  /-- `EN_CF_WRITING`: `uv_write` was called for the front block and has not completed -/
  writing : Bool
  /-- `EN_CF_CLOSING` -/
  closing : Bool
  /-- `status == EN_ST_CONNECTED` -/
  connected : Bool
  /-- everything given to `uv_write` so far -/
  wire : List Byte
deriving DecidableEq, Repr

/-- The bytes `io_stream_send` queues for a message, `src/channel_io_stream.cpp:1775-1800`. -/
def encode (h : Hash) (m : List Byte) : List Byte :=
  h.bytes m ++ (Vint.writeVint m.length 16).2 ++ m

/-- The loop reporting the messages of one block, `src/channel_io_stream.cpp:1577-1600` and `1648-1668`; `none`:
the block is not made of whole frames (the code then reads outside of it). -/
def report (code : Int) : Nat → List Byte → Option (List Cb)
  | 0, _ => none
  | fuel + 1, left =>
    if left.length = 0 then some []
    else if left.length ≤ 4 then none
    else
      match Vint.readVint (left.drop 4) with
      | (out, l) =>
        if left.length < 4 + l + out then none
        else
          match slice left (4 + l) out, report code fuel (left.drop (4 + l + out)) with
          | some d, some r => some (⟨code, d⟩ :: r)
          | _, _ => none

/-- Cancelling all queued blocks, `src/channel_io_stream.cpp:1641-1673`. -/
def cancelAll : List (List Byte) → Option (List Cb)
  | [] => some []
  | b :: q => do
    let x ← report Err.CLOSING (b.length + 1) b
    let y ← cancelAll q
    some (x ++ y)

/-- Choices of the environment in one event: result of `push_back` (`none`: success), number of blocks
the merge loop takes, whether `uv_write` succeeds. -/
structure Env where
  push : Option Int
  merge : Nat
  uvOk : Bool
deriving DecidableEq, Repr

/-- The merge loop, `src/channel_io_stream.cpp:1679-1720`, taking `max 1 k` of the queued blocks when there is more
than one. -/
def mergeFront (k : Nat) (q : List (List Byte)) : List (List Byte) :=
  if q.length > 1 then (q.take (max 1 k)).flatten :: q.drop (max 1 k) else q

/-- `io_stream_try_write`, `src/channel_io_stream.cpp:1623-1757`: state, return value, write callbacks. -/
def tryWrite (ev : Env) : Nat → SConn → Option (SConn × Int × List Cb)
  | 0, _ => none
  | fuel + 1, c =>
    if c.writing then some (c, Err.SUCCESS, [])
    else if c.q.isEmpty then some (c, Err.SUCCESS, [])
    else if c.closing then
      match cancelAll c.q with
      | none => none
      | some cbs => some ({ c with q := [] }, Err.SUCCESS, cbs)
    else
      match mergeFront ev.merge c.q with
      | [] => none
      | b :: rest =>
        if b.length = 0 then tryWrite ev fuel { c with q := rest }
        else if ev.uvOk then
          some ({ c with q := b :: rest, writing := true, wire := c.wire ++ b }, Err.SUCCESS, [])
        else some ({ c with q := b :: rest }, Err.WRITE_FAILED, [])

/-- `io_stream_disconnect_run`, `src/channel_io_stream.cpp:1488-1503`. -/
def disconnectRun (c : SConn) : SConn := { c with closing := true }

/-- `io_stream_disconnect_inner`, `src/channel_io_stream.cpp:1505-1525`. -/
def disconnect (force : Bool) (c : SConn) : SConn :=
  if c.connected then
    if !force && c.writing then { c with connected := false }
    else disconnectRun { c with connected := false }
  else c

/-- `io_stream_send`, `src/channel_io_stream.cpp:1759-1804`. -/
def send (limit : Nat) (h : Hash) (ev : Env) (c : SConn) (m : List Byte) : Option (SConn × Int × List Cb) :=
  if limit > 0 ∧ m.length > limit then some (c, Err.INVALID_SIZE, [])
  else if !c.connected then some (c, Err.CLOSING, [])
  else if m.length > 0 then
    match ev.push with
    | some e => some (c, e, [])
    | none => tryWrite ev (c.q.length + 2) { c with q := c.q ++ [encode h m] }
  else tryWrite ev (c.q.length + 1) c

/-- `io_stream_on_written_fn`, `src/channel_io_stream.cpp:1544-1621`.  (The code reports success whatever the
status of the write is.) -/
def written (ev : Env) (c : SConn) : Option (SConn × List Cb) :=
  match c.q with
  | [] => none
  | b :: rest =>
    match report Err.SUCCESS (b.length + 1) b with
    | none => none
    | some cbs =>
      match tryWrite ev (rest.length + 1) { c with q := rest, writing := false } with
      | none => none
      | some (c, _, cbs2) =>
        some (if !c.connected && !c.writing then disconnectRun c else c, cbs ++ cbs2)

/-- What happens on a connection. -/
inductive SEv where
  | send (m : List Byte) (ev : Env)
  | written (ev : Env)
  | disconnect (force : Bool)
deriving DecidableEq, Repr

/-- Result of an event: state, return value of a send, write callbacks. -/
def sstep (limit : Nat) (h : Hash) (c : SConn) : SEv → Option (SConn × Option Int × List Cb)
  | .send m ev => (send limit h ev c m).map fun r => (r.1, some r.2.1, r.2.2)
  | .written ev => (written ev c).map fun r => (r.1, none, r.2)
  | .disconnect f => some (disconnect f c, none, [])

/-- A run: final state, the messages with the return values of their sends, the write callbacks. -/
def srun (limit : Nat) (h : Hash) (c : SConn) : List SEv → Option (SConn × List (List Byte × Int) × List Cb)
  | [] => some (c, [], [])
  | e :: es => do
    let r ← sstep limit h c e
    let s ← srun limit h r.1 es
    some (s.1, (match e, r.2.1 with | .send m _, some x => (m, x) :: s.2.1 | _, _ => s.2.1), r.2.2 ++ s.2.2)

/-- A new connection. -/
def sinit : SConn := ⟨[], false, false, true, []⟩

/-- A write completes only while one is in flight, `push_back` fails with one of
two error codes, `src/detail/buffer.cpp:253-290`, and a message is shorter than half the address space. -/
def SLegal (limit : Nat) (h : Hash) (c : SConn) : List SEv → Prop
  | [] => True
  | e :: es =>
    (match e with
      | .written _ => c.writing = true
      | .send m ev => m.length < 2 ^ 63 ∧ ∀ x, ev.push = some x → x = Err.BUFF_LIMIT ∨ x = Err.MALLOC
      | _ => True) ∧
    ∀ r, sstep limit h c e = some r → SLegal limit h r.1 es

end Verif.IoStream
