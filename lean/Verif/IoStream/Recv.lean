import Verif.Vint.Model

/-!
Model of the receiving half of a stream connection, `src/channel_io_stream.cpp`:
the allocation callback (338-390) and the read callback (392-568).

A frame on the wire is a 32-bit checksum, the payload length as a
variable-length integer, and the payload.  The checksum function is a parameter
that gives the four bytes as they lie in memory.  `read_head.buffer` is the list
of the `read_head.len` bytes it holds.  Every read of received bytes goes
through `slice`, which refuses to read what is not there: such a read, and a
64-bit sum that wraps around (which makes the code read outside), is the outcome
`none`.

Simplified: the user's callback does not call back into the channel.
-/
namespace Verif.IoStream

/-- `sizeof(read_head.buffer)`, `include/detail/libatbus_channel_types.h` (`ATBUS_MACRO_DATA_SMALL_SIZE`). -/
abbrev headCap : Nat := 3072

/-- Parameters of a channel, `src/channel_io_stream.cpp:194-220`.  `accept s` says whether the (empty)
read buffer manager can hold a block of `s` bytes (it is empty whenever a block is
pushed, `push_on_empty`; C09 makes the answer a function of the size in static mode). -/
structure RConf where
  accept : Nat → Bool
  limit : Nat
  maxHash : Nat
  maxBlock : Nat
  maxAgain : Nat

/-- Checksum of a payload: its four bytes in memory. -/
abbrev Hash := List Byte → Byte × Byte × Byte × Byte

/-- The four bytes of the checksum as they are in memory. -/
def Hash.bytes (h : Hash) (p : List Byte) : List Byte := [(h p).1, (h p).2.1, (h p).2.2.1, (h p).2.2.2]

/-- A connection and the channel counters it touches. -/
structure RConn where
  /-- contents of `read_head` -/
  head : List Byte
  /-- `read_buffers`: bytes already there and size, per block, front first -/
  bufs : List (List Byte × Nat)
  hashFail : Nat
  blockFail : Nat
  again : Nat
  /-- the connection is not in the connected state any more -/
  closed : Bool
deriving DecidableEq, Repr

/-- A call of the receive callback: error code and the data it is given. -/
structure Cb where
  code : Int
  data : List Byte
deriving DecidableEq, Repr

/-- Bytes `[off, off+n)` of a buffer, if they are there. -/
def slice (l : List Byte) (off n : Nat) : Option (List Byte) :=
  if off + n ≤ l.length then some ((l.drop off).take n) else none

/-- `read_buffers.back` is not usable for writing: no block, or the last one is full,
`src/channel_io_stream.cpp:362,435`. -/
def RConn.headPhase (st : RConn) : Bool :=
  match st.bufs.getLast? with
  | none => true
  | some b => b.1.length == b.2

/-- Length offered by the allocation callback, `src/channel_io_stream.cpp:338-390` (0: none). -/
def RConn.offered (st : RConn) : Nat :=
  if st.closed then 0
  else match st.bufs.getLast? with
    | none => headCap - st.head.length
    | some b => if b.1.length = b.2 then headCap - st.head.length else b.2 - b.1.length

/-- Verdict on a complete frame, `src/channel_io_stream.cpp:463-482,527-540`: error code and whether the
failure count is now above its maximum; counters updated. -/
def judge (cf : RConf) (h : Hash) (st : RConn) (expect payload : List Byte) : RConn × Int × Bool :=
  if h.bytes payload ≠ expect then
    ({ st with hashFail := st.hashFail + 1 }, Err.BAD_DATA, decide (st.hashFail + 1 > cf.maxHash))
  else if cf.limit > 0 ∧ payload.length > cf.limit then
    ({ st with blockFail := st.blockFail + 1 }, Err.INVALID_SIZE, decide (st.blockFail + 1 > cf.maxBlock))
  else (st, Err.SUCCESS, false)

/-- The loop over the head buffer, `src/channel_io_stream.cpp:442-507`.  `left` are the bytes from
`buff_start` on.  Result: connection, callbacks, `is_free`, bytes left over. -/
def headLoop (cf : RConf) (h : Hash) : Nat → RConn → List Byte → Bool → Option (RConn × List Cb × Bool × List Byte)
  | 0, _, _, _ => none
  | fuel + 1, st, left, free =>
    if left.length ≤ 4 then some (st, [], free, left)
    else
      match Vint.readVint (left.drop 4) with
      | (v, l) =>
        if l = 0 then some (st, [], free, left)
        else if 4 + l + v ≥ W64 then none
        else if left.length ≥ 4 + l + v then
          match slice left 0 4, slice left (4 + l) v with
          | some expect, some payload =>
            match judge cf h st expect payload with
            | (st', code, f) =>
              match headLoop cf h fuel st' (left.drop (4 + l + v)) (free || f) with
              | none => none
              | some (st'', cbs, free', left') => some (st'', ⟨code, payload⟩ :: cbs, free', left')
          | _, _ => none
        else if cf.accept (4 + v) then
          match slice left 0 4, slice left (4 + l) (left.length - 4 - l) with
          | some hs, some part =>
            if 4 + part.length ≤ 4 + v then
              some ({ st with bufs := st.bufs ++ [(hs ++ part, 4 + v)] }, [], free, [])
            else none
          | _, _ => none
        else some ({ st with blockFail := st.blockFail + 1 }, [], true, left.drop (4 + l))

/-- Delivery of a completed block, `src/channel_io_stream.cpp:519-553`. -/
def deliverBlock (cf : RConf) (h : Hash) (st : RConn) : Option (RConn × List Cb × Bool) :=
  match st.bufs with
  | [] => some (st, [], false)
  | (b, size) :: rest =>
    if b.length = size then
      match slice b 0 4, slice b 4 (size - 4) with
      | some expect, some payload =>
        match judge cf h st expect payload with
        | (st', code, f) => some ({ st' with bufs := rest }, [⟨code, payload⟩], f)
      | _, _ => none
    else some (st, [], false)

/-- What the event loop reports for a connection. -/
inductive REv where
  /-- bytes were received (at most as many as were offered) -/
  | data (chunk : List Byte)
  /-- nothing to read, interrupted -/
  | again
  /-- network error or end of stream -/
  | fail
deriving DecidableEq, Repr

/-- `io_stream_on_recv_read_fn` with `nread > 0`, `src/channel_io_stream.cpp:430-568`. -/
def onData (cf : RConf) (h : Hash) (st : RConn) (chunk : List Byte) : Option (RConn × List Cb) :=
  let r1 : Option (RConn × List Cb × Bool) :=
    if st.headPhase then
      match headLoop cf h (st.head.length + chunk.length + 1) st (st.head ++ chunk) false with
      | none => none
      | some (st', cbs, free, left) => some ({ st' with head := left }, cbs, free)
    else
      match st.bufs.getLast? with
      | none => none
      | some b =>
        if b.1.length + chunk.length ≤ b.2 then
          some ({ st with bufs := st.bufs.dropLast ++ [(b.1 ++ chunk, b.2)] }, [], false)
        else none
  match r1 with
  | none => none
  | some (st, cbs, free) =>
    match deliverBlock cf h st with
    | none => none
    | some (st, cbs2, free2) =>
      if free || free2 then
        some ({ st with closed := true },
          cbs ++ cbs2 ++ if st.head.length > 0 then [⟨Err.INVALID_SIZE, st.head⟩] else [])
      else some (st, cbs ++ cbs2)

/-- `io_stream_on_recv_read_fn`, `src/channel_io_stream.cpp:392-568`. -/
def rstep (cf : RConf) (h : Hash) (st : RConn) : REv → Option (RConn × List Cb)
  | ev =>
    if st.closed then some (st, [])
    else match ev with
      | .again =>
        let st := { st with again := st.again + 1 }
        some ({ st with closed := decide (st.again > cf.maxAgain) }, [])
      | .fail => some ({ st with closed := true }, [⟨Err.READ_FAILED, []⟩])
      | .data chunk => if chunk.isEmpty then none else onData cf h st chunk

/-- A fresh connection on a channel whose counters are given. -/
def rinit (hashFail blockFail again : Nat) : RConn := ⟨[], [], hashFail, blockFail, again, false⟩

/-- A run; `none` if undefined behaviour is reached. -/
def rrun (cf : RConf) (h : Hash) (st : RConn) : List REv → Option (RConn × List Cb)
  | [] => some (st, [])
  | e :: es => do
    let r ← rstep cf h st e
    let s ← rrun cf h r.1 es
    some (s.1, r.2 ++ s.2)

/-! ### Callbacks made before a run becomes undefined -/

/-- The callbacks the loop over the head buffer makes, `src/channel_io_stream.cpp:442-507`, up to a read outside what was received. -/
def headCbs (cf : RConf) (h : Hash) : Nat → RConn → List Byte → List Cb
  | 0, _, _ => []
  | fuel + 1, st, left =>
    if left.length ≤ 4 then []
    else
      match Vint.readVint (left.drop 4) with
      | (v, l) =>
        if l = 0 then []
        else if 4 + l + v ≥ W64 then []
        else if left.length ≥ 4 + l + v then
          match slice left 0 4, slice left (4 + l) v with
          | some expect, some payload =>
            match judge cf h st expect payload with
            | (st', code, _) => ⟨code, payload⟩ :: headCbs cf h fuel st' (left.drop (4 + l + v))
          | _, _ => []
        else []

/-- The callbacks of one event, `src/channel_io_stream.cpp:392-568`; a read that becomes undefined does so in the head buffer. -/
def stepCbs (cf : RConf) (h : Hash) (st : RConn) (e : REv) : List Cb :=
  match rstep cf h st e, e with
  | some r, _ => r.2
  | none, .data chunk => if st.headPhase then headCbs cf h (st.head.length + chunk.length + 1) st (st.head ++ chunk) else []
  | none, _ => []

/-- All callbacks of a run, up to the point where it becomes undefined. -/
def madeCbs (cf : RConf) (h : Hash) (st : RConn) : List REv → List Cb
  | [] => []
  | e :: es => stepCbs cf h st e ++ match rstep cf h st e with
    | some r => madeCbs cf h r.1 es
    | none => []

/-- The event loop never delivers more bytes than were offered, and at least one. -/
def Legal (cf : RConf) (h : Hash) (st : RConn) : List REv → Prop
  | [] => True
  | e :: es =>
    (match e with
      | .data c => st.closed = true ∨ (c ≠ [] ∧ c.length ≤ st.offered)
      | _ => True) ∧
    ∀ r, rstep cf h st e = some r → Legal cf h r.1 es

end Verif.IoStream
