import Verif.Basic

/-!
Model of `src/detail/buffer.cpp` (buffer blocks and the buffer manager).

Memory of the static mode is one area of `size` cells; a cell is a payload
byte, part of a block header, or never written.  Addresses are offsets from
`static_buffer_.buffer_`.  Every access is checked: `none` is the outcome
"undefined behaviour" (access outside the area, NULL dereference, header read
where no intact header is stored, overlapping `memcpy`).

Sizes are natural numbers here; the 64-bit wrap-around of the size computations
is modelled separately in `Size64` below (property C10).  `assert`s are those
of a release build (no effect).  `malloc` never fails.
-/
namespace Verif.Buffer

/-- `buffer_block::padding_size`, `src/detail/buffer.cpp:184-191`
(`ATBUS_MACRO_DATA_ALIGN_SIZE = 16`). -/
def padding (s : Nat) : Nat := if s % 16 = 0 then s else s + 16 - s % 16

/-- `buffer_block::head_size`, `src/detail/buffer.cpp:193`: padding of
`sizeof(buffer_block) = 24`. -/
def headSize : Nat := 32

/-- `buffer_block::full_size`, `src/detail/buffer.cpp:195`. -/
def full (s : Nat) : Nat := headSize + padding s

/-- `fn::buffer_offset`, `src/detail/buffer.cpp:41-45`. -/
def offset (l r : Nat) : Nat := if l < r then r - l else l - r

/-- Fields of a `buffer_block`, `include/detail/buffer.h:97-101`. -/
structure Hdr where
  size : Nat
  used : Nat
  ptr : Nat
deriving DecidableEq, Repr

/-- One cell of the static area. -/
inductive Cell where
  | junk
  | hdr (h : Hdr)
  | hdrRest
  | byte (b : Byte)
deriving DecidableEq, Repr

/-- Memory of the static buffer, `static_buffer_`, `include/detail/buffer.h`. -/
abbrev Mem := Nat → Cell

/-- Store a block header (24 bytes) at `p` in an area of `Z` cells. -/
def writeHdr (Z : Nat) (m : Mem) (p : Nat) (h : Hdr) : Option Mem :=
  if p + 24 ≤ Z then
    some fun a => if a = p then .hdr h else if p < a ∧ a < p + 24 then .hdrRest else m a
  else none

/-- Load the block header at `p`; fails if any of its 24 bytes is not part of
an intact header. -/
def readHdr (Z : Nat) (m : Mem) (p : Nat) : Option Hdr :=
  if p + 24 ≤ Z ∧ (List.range 23).all (fun i => m (p + 1 + i) == .hdrRest) then
    match m p with
    | .hdr h => some h
    | _ => none
  else none

/-- The user stores bytes at an address. -/
def writeBytes (Z : Nat) (m : Mem) (a : Nat) (d : List Byte) : Option Mem :=
  if a + d.length ≤ Z then
    some fun x => if a ≤ x then
        match d[x - a]? with
        | some b => .byte b
        | none => m x
      else m x
  else none

/-- `memmove` inside the area. -/
def moveCells (Z : Nat) (m : Mem) (dst src n : Nat) : Option Mem :=
  if dst + n ≤ Z ∧ src + n ≤ Z then
    some fun x => if dst ≤ x ∧ x < dst + n then m (src + (x - dst)) else m x
  else none

/-- `memcpy` inside the area: overlapping ranges are undefined behaviour. -/
def copyCells (Z : Nat) (m : Mem) (dst src n : Nat) : Option Mem :=
  if n = 0 ∨ dst + n ≤ src ∨ src + n ≤ dst then moveCells Z m dst src n else none

/-- `buffer_block::create`, `src/detail/buffer.cpp:150-168`.  Outer `none`:
undefined behaviour; inner `none`: NULL; otherwise the new memory and the first
address behind the block. -/
def create (Z : Nat) (m : Mem) (p s bs : Nat) : Option (Option (Mem × Nat)) :=
  if full bs > s then some none
  else match writeHdr Z m p { size := bs, used := 0, ptr := p + headSize } with
    | none => none
    | some m' => some (some (m', p + full bs))

/-- `buffer_block::pop`, `src/detail/buffer.cpp:114-122`. -/
def Hdr.pop (h : Hdr) (s : Nat) : Hdr :=
  if h.used + s > h.size then { h with used := h.size } else { h with used := h.used + s }

/-- `buffer_block::size`, `src/detail/buffer.cpp:110`. -/
def Hdr.left (h : Hdr) : Nat := h.size - h.used

/-- `buffer_manager` in static mode: `static_buffer_t` and `limit_t`,
`include/detail/buffer.h:109-115,221-233`. -/
structure SBuf where
  size : Nat
  idx : List (Option Nat)
  head : Nat
  tail : Nat
  mem : Mem
  costNum : Nat
  costSize : Nat
  limNum : Nat
  limSize : Nat

/-- `set_mode` with non-zero arguments, `src/detail/buffer.cpp:959-975`. -/
def setMode (maxSize maxNum : Nat) : SBuf :=
  { size := padding (maxSize + 16), idx := List.replicate (maxNum + 1) none,
    head := 0, tail := 0, mem := fun _ => .junk,
    costNum := 0, costSize := 0, limNum := maxNum, limSize := maxSize }

/-- The "empty init" part of the static pushes,
`src/detail/buffer.cpp:370-378,455-463`. -/
def emptyInit (st : SBuf) (h t : Option Nat) : SBuf × Nat × Nat :=
  match h, t with
  | some h, some t => (st, h, t)
  | _, _ => ({ st with head := 0, tail := 0, idx := st.idx.set 0 (some 0) }, 0, 0)

/-- `add_tail(); assign_tail(next_free)`, `src/detail/buffer.cpp:361-364`:
the returned address is `circle_index_[tail_]->data()`. -/
def addTail (st : SBuf) (nextFree : Nat) : Option (SBuf × Int × Option Nat) :=
  match st.idx[st.tail]? with
  | some (some p) =>
    match readHdr st.size st.mem p with
    | some h =>
      let tail' := (st.tail + 1) % st.idx.length
      some ({ st with tail := tail', idx := st.idx.set tail' (some nextFree) },
            Err.SUCCESS, some (h.ptr + h.used))
    | none => none
  | _ => none

/-- `static_push_back`, `src/detail/buffer.cpp:353-433`: new state, return
value, `pointer`. -/
def staticPushBack (st : SBuf) (s : Nat) : Option (SBuf × Int × Option Nat) :=
  if st.idx.length = 0 then none
  else if (st.tail + 1) % st.idx.length = st.head then some (st, Err.BUFF_LIMIT, none)
  else match st.idx[st.head]?, st.idx[st.tail]? with
    | some h0, some t0 =>
      match emptyInit st h0 t0 with
      | (st, h, t) =>
        if t ≥ h then
          if offset t st.size ≥ full s then
            match create st.size st.mem t (offset t st.size) s with
            | none => none
            | some none => some (st, Err.MALLOC, none)
            | some (some (m, nf)) => addTail { st with mem := m } nf
          else if offset 0 h ≤ full s then some (st, Err.BUFF_LIMIT, none)
          else
            match create st.size st.mem 0 (offset 0 h) s with
            | none => none
            | some none => some (st, Err.MALLOC, none)
            | some (some (m, nf)) =>
              addTail { st with mem := m, idx := st.idx.set st.tail (some 0) } nf
        else if offset t h ≤ full s then some (st, Err.BUFF_LIMIT, none)
        else
          match create st.size st.mem t (offset t h) s with
          | none => none
          | some none => some (st, Err.MALLOC, none)
          | some (some (m, nf)) => addTail { st with mem := m } nf
    | _, _ => none

/-- `sub_head(d)`, `src/detail/buffer.cpp:446-449`. -/
def subHead (st : SBuf) (d : Nat) : Option (SBuf × Int × Option Nat) :=
  let head' := (st.head + st.idx.length - 1) % st.idx.length
  match readHdr st.size st.mem d with
  | some h =>
    some ({ st with head := head', idx := st.idx.set head' (some d) },
          Err.SUCCESS, some (h.ptr + h.used))
  | none => none

/-- `static_push_front`, `src/detail/buffer.cpp:435-515`. -/
def staticPushFront (st : SBuf) (s : Nat) : Option (SBuf × Int × Option Nat) :=
  if st.idx.length = 0 then none
  else if (st.tail + 1) % st.idx.length = st.head then some (st, Err.BUFF_LIMIT, none)
  else match st.idx[st.head]?, st.idx[st.tail]? with
    | some h0, some t0 =>
      match emptyInit st h0 t0 with
      | (st, h, t) =>
        if t ≥ h then
          if offset h 0 ≥ full s then
            match create st.size st.mem (offset h 0 - full s) (full s) s with
            | none => none
            | some none => some (st, Err.MALLOC, none)
            | some (some (m, _)) => subHead { st with mem := m } (offset h 0 - full s)
          else if offset t st.size ≤ full s then some (st, Err.BUFF_LIMIT, none)
          else
            match create st.size st.mem (t + (offset t st.size - full s)) (full s) s with
            | none => none
            | some none => some (st, Err.MALLOC, none)
            | some (some (m, _)) => subHead { st with mem := m } (t + (offset t st.size - full s))
        else if offset t h ≤ full s then some (st, Err.BUFF_LIMIT, none)
        else
          match create st.size st.mem (t + (offset t h - full s)) (full s) s with
          | none => none
          | some none => some (st, Err.MALLOC, none)
          | some (some (m, _)) => subHead { st with mem := m } (t + (offset t h - full s))
    | _, _ => none

/-- Common end of the static pops, `src/detail/buffer.cpp:545-555,588-598`. -/
def popFinish (st : SBuf) (s : Nat) : SBuf :=
  if st.head = st.tail then
    { st with head := 0, tail := 0, idx := st.idx.set 0 (some 0), costSize := 0, costNum := 0 }
  else { st with costSize := st.costSize - (if st.costSize ≥ s then s else st.costSize) }

/-- `static_pop_back`, `src/detail/buffer.cpp:517-561`. -/
def staticPopBack (st : SBuf) (s : Nat) (fu : Bool) : Option (SBuf × Int) :=
  if st.head = st.tail then some (st, Err.NO_DATA)
  else if st.idx.length = 0 then none
  else
    let ti := (st.tail + st.idx.length - 1) % st.idx.length
    match st.idx[ti]? with
    | some (some p) =>
      match readHdr st.size st.mem p with
      | none => none
      | some h =>
        let s := if s > h.left then h.left else s
        match writeHdr st.size st.mem p (h.pop s) with
        | none => none
        | some m =>
          if fu && (h.pop s).left == 0 then
            some (popFinish { st with mem := m, idx := st.idx.set st.tail none, tail := ti,
                                      costNum := st.costNum - 1 } s, Err.SUCCESS)
          else some (popFinish { st with mem := m } s, Err.SUCCESS)
    | _ => none

/-- `static_pop_front`, `src/detail/buffer.cpp:563-603`. -/
def staticPopFront (st : SBuf) (s : Nat) (fu : Bool) : Option (SBuf × Int) :=
  if st.head = st.tail then some (st, Err.NO_DATA)
  else if st.idx.length = 0 then none
  else
    match st.idx[st.head]? with
    | some (some p) =>
      match readHdr st.size st.mem p with
      | none => none
      | some h =>
        let s := if s > h.left then h.left else s
        match writeHdr st.size st.mem p (h.pop s) with
        | none => none
        | some m =>
          if fu && (h.pop s).left == 0 then
            some (popFinish { st with mem := m, idx := st.idx.set st.head none,
                                      head := (st.head + 1) % st.idx.length,
                                      costNum := st.costNum - 1 } s, Err.SUCCESS)
          else some (popFinish { st with mem := m } s, Err.SUCCESS)
    | _ => none

/-- In-place extension of the last block,
`src/detail/buffer.cpp:630-636,674-680`. -/
def extendLast (st : SBuf) (p : Nat) (lh : Hdr) (s : Nat) : Option (SBuf × Int × Option Nat) :=
  match writeHdr st.size st.mem p { lh with size := lh.size + s } with
  | none => none
  | some m =>
    some ({ st with mem := m, idx := st.idx.set st.tail (some (p + full (lh.size + s))) },
          Err.SUCCESS, some (lh.ptr + lh.size))

/-- Relocation of the last block to the start of the area,
`src/detail/buffer.cpp:638-663`. -/
def relocateLast (st : SBuf) (h : Nat) (lh : Hdr) (ti s : Nat) :
    Option (SBuf × Int × Option Nat) :=
  if offset 0 h ≤ full (s + lh.size) then some (st, Err.BUFF_LIMIT, none)
  else match create st.size st.mem 0 (offset 0 h) (s + lh.size) with
    | none => none
    | some none => some (st, Err.MALLOC, none)
    | some (some (m, nf)) =>
      match readHdr st.size m 0 with
      | none => none
      | some rh =>
        match copyCells st.size m (rh.ptr + rh.used) lh.ptr lh.size with
        | none => none
        | some m2 =>
          match writeHdr st.size m2 0 (rh.pop (lh.size - lh.left)) with
          | none => none
          | some m3 =>
            some ({ st with mem := m3, idx := (st.idx.set st.tail (some nf)).set ti (some 0) },
                  Err.SUCCESS, some (rh.ptr + rh.used + lh.size))

/-- `static_merge_back`, `src/detail/buffer.cpp:605-687` (called on a
non-empty manager only, line 299). -/
def staticMergeBack (st : SBuf) (s : Nat) : Option (SBuf × Int × Option Nat) :=
  if s = 0 then some (st, Err.SUCCESS, none)
  else if st.idx.length = 0 then none
  else
    let ti := (st.tail + st.idx.length - 1) % st.idx.length
    match st.idx[st.head]?, st.idx[st.tail]?, st.idx[ti]? with
    | some (some h), some (some t), some (some p) =>
      match readHdr st.size st.mem p with
      | none => none
      | some lh =>
        if t ≥ h ∨ p ≥ h then
          if offset t st.size ≥ padding s ∧ t ≥ h then extendLast st p lh s
          else relocateLast st h lh ti s
        else if offset t h ≤ padding s then some (st, Err.BUFF_LIMIT, none)
        else extendLast st p lh s
    | some _, some _, some _ => some (st, Err.NO_DATA, none)
    | _, _, _ => none

/-- The move at the end of `static_merge_front`,
`src/detail/buffer.cpp:713-716,759-765`: create the new header at `d`, move the
old payload behind it, restore the consumed count. -/
def moveHead (st : SBuf) (d : Nat) (oh : Hdr) (s : Nat) : Option (SBuf × Int × Option Nat) :=
  match create st.size st.mem d (full (s + oh.size)) (s + oh.size) with
  | none => none
  | some none => some (st, Err.MALLOC, none)
  | some (some (m, _)) =>
    match readHdr st.size m d with
    | none => none
    | some nh =>
      match moveCells st.size m (nh.ptr + nh.used) oh.ptr oh.size with
      | none => none
      | some m2 =>
        match writeHdr st.size m2 d (nh.pop (oh.size - oh.left)) with
        | none => none
        | some m3 =>
          some ({ st with mem := m3, idx := st.idx.set st.head (some d) },
                Err.SUCCESS, some (nh.ptr + nh.used + oh.size))

/-- `static_merge_front`, `src/detail/buffer.cpp:689-769` (called on a
non-empty manager only, line 317). -/
def staticMergeFront (st : SBuf) (s : Nat) : Option (SBuf × Int × Option Nat) :=
  if s = 0 then some (st, Err.SUCCESS, none)
  else
    match st.idx[st.head]?, st.idx[st.tail]? with
    | some (some h), some (some t) =>
      match readHdr st.size st.mem h with
      | none => none
      | some oh =>
        if t ≥ h then
          if offset h 0 ≥ padding s then moveHead st (offset h 0 - padding s) oh s
          else if offset t st.size ≤ full (s + oh.size) then some (st, Err.BUFF_LIMIT, none)
          else moveHead st (t + (offset t st.size - full (s + oh.size))) oh s
        else if offset t h ≤ padding s then some (st, Err.BUFF_LIMIT, none)
        else moveHead st (t + (offset t h - padding s)) oh s
    | some _, some _ => some (st, Err.NO_DATA, none)
    | _, _ => none

/-- Counters after a successful push, `src/detail/buffer.cpp:263-266`. -/
def addCost (s : Nat) : Option (SBuf × Int × Option Nat) → Option (SBuf × Int × Option Nat)
  | some (st, r, p) =>
    if r ≥ 0 then some ({ st with costNum := st.costNum + 1, costSize := st.costSize + s }, r, p)
    else some (st, r, p)
  | none => none

/-- Counters after a successful merge, `src/detail/buffer.cpp:309-311`. -/
def addCostSize (s : Nat) : Option (SBuf × Int × Option Nat) → Option (SBuf × Int × Option Nat)
  | some (st, r, p) =>
    if r ≥ 0 then some ({ st with costSize := st.costSize + s }, r, p) else some (st, r, p)
  | none => none

/-- `push_back` in static mode, `src/detail/buffer.cpp:252-269`. -/
def SBuf.pushBack (st : SBuf) (s : Nat) : Option (SBuf × Int × Option Nat) :=
  if st.limNum > 0 ∧ st.costNum ≥ st.limNum then some (st, Err.BUFF_LIMIT, none)
  else if st.limSize > 0 ∧ st.costSize + s > st.limSize then some (st, Err.BUFF_LIMIT, none)
  else addCost s (staticPushBack st s)

/-- `push_front` in static mode, `src/detail/buffer.cpp:271-288`. -/
def SBuf.pushFront (st : SBuf) (s : Nat) : Option (SBuf × Int × Option Nat) :=
  if st.limNum > 0 ∧ st.costNum ≥ st.limNum then some (st, Err.BUFF_LIMIT, none)
  else if st.limSize > 0 ∧ st.costSize + s > st.limSize then some (st, Err.BUFF_LIMIT, none)
  else addCost s (staticPushFront st s)

/-- `merge_back` in static mode, `src/detail/buffer.cpp:298-314`. -/
def SBuf.mergeBack (st : SBuf) (s : Nat) : Option (SBuf × Int × Option Nat) :=
  if st.head = st.tail then st.pushBack s
  else if st.limSize > 0 ∧ st.costSize + s > st.limSize then some (st, Err.BUFF_LIMIT, none)
  else addCostSize s (staticMergeBack st s)

/-- `merge_front` in static mode, `src/detail/buffer.cpp:316-332`. -/
def SBuf.mergeFront (st : SBuf) (s : Nat) : Option (SBuf × Int × Option Nat) :=
  if st.head = st.tail then st.pushFront s
  else if st.limSize > 0 ∧ st.costSize + s > st.limSize then some (st, Err.BUFF_LIMIT, none)
  else addCostSize s (staticMergeFront st s)

/-- The user stores `d` at `raw_data() + off` of the `i`-th live block.  The
address is the one the API handed out (push: offset 0, merge: offset of the old
end, `front`/`back`: offset of the consumed part). -/
def SBuf.write (st : SBuf) (i off : Nat) (d : List Byte) : Option (SBuf × Int) :=
  if st.idx.length = 0 then none
  else match st.idx[(st.head + i) % st.idx.length]? with
    | some (some p) =>
      match readHdr st.size st.mem p with
      | none => none
      | some h =>
        match writeBytes st.size st.mem (h.ptr + off) d with
        | none => none
        | some m => some ({ st with mem := m }, Err.SUCCESS)
    | _ => none

/-- Operations of the manager plus user writes into live blocks. -/
inductive Op where
  | pushBack (s : Nat)
  | pushFront (s : Nat)
  | mergeBack (s : Nat)
  | mergeFront (s : Nat)
  | popBack (s : Nat) (fu : Bool)
  | popFront (s : Nat) (fu : Bool)
  | write (i off : Nat) (d : List Byte)
deriving DecidableEq, Repr

/-- One call on a static-mode manager: new state, return value, `pointer`. -/
def SBuf.step (st : SBuf) : Op → Option (SBuf × Int × Option Nat)
  | .pushBack s => st.pushBack s
  | .pushFront s => st.pushFront s
  | .mergeBack s => st.mergeBack s
  | .mergeFront s => st.mergeFront s
  | .popBack s fu => (staticPopBack st s fu).map fun (st, r) => (st, r, none)
  | .popFront s fu => (staticPopFront st s fu).map fun (st, r) => (st, r, none)
  | .write i off d => (st.write i off d).map fun (st, r) => (st, r, none)

/-- Number of live blocks of the index ring. -/
def SBuf.count (st : SBuf) : Nat :=
  if st.head ≤ st.tail then st.tail - st.head else st.tail + st.idx.length - st.head

/-- What a user can see of the `i`-th block: address, header and payload
cells (`raw_data()`, `raw_size()`). -/
def SBuf.block (st : SBuf) (i : Nat) : Option (Nat × Hdr × List Cell) :=
  if st.idx.length = 0 then none
  else match st.idx[(st.head + i) % st.idx.length]? with
    | some (some p) =>
      match readHdr st.size st.mem p with
      | none => none
      | some h => some (p, h, (List.range h.size).map fun j => st.mem (h.ptr + j))
    | _ => none

/-! ### Dynamic mode -/

/-- A heap block: payload cells (`none`: not yet written) and consumed count. -/
structure DBlk where
  cells : List (Option Byte)
  used : Nat
deriving DecidableEq, Repr

/-- `buffer_manager` in dynamic mode. -/
structure DBuf where
  blocks : List DBlk
  costNum : Nat
  costSize : Nat
  limNum : Nat
  limSize : Nat
deriving DecidableEq, Repr

/-- `buffer_block::pop` on a heap block, `src/detail/buffer.cpp:114-122`. -/
def DBlk.pop (b : DBlk) (s : Nat) : DBlk :=
  if b.used + s > b.cells.length then { b with used := b.cells.length }
  else { b with used := b.used + s }

/-- `buffer_block::size`. -/
def DBlk.left (b : DBlk) : Nat := b.cells.length - b.used

/-- `buffer_block::malloc` for a block of `s` bytes,
`src/detail/buffer.cpp:127-139`. -/
def DBlk.malloc (s : Nat) : DBlk := { cells := List.replicate s none, used := 0 }

/-- `push_back`, `src/detail/buffer.cpp:252-269,789-800`. -/
def DBuf.pushBack (st : DBuf) (s : Nat) : DBuf × Int :=
  if st.limNum > 0 ∧ st.costNum ≥ st.limNum then (st, Err.BUFF_LIMIT)
  else if st.limSize > 0 ∧ st.costSize + s > st.limSize then (st, Err.BUFF_LIMIT)
  else ({ st with blocks := st.blocks ++ [DBlk.malloc s], costNum := st.costNum + 1,
                  costSize := st.costSize + s }, Err.SUCCESS)

/-- `push_front`, `src/detail/buffer.cpp:271-288,802-813`. -/
def DBuf.pushFront (st : DBuf) (s : Nat) : DBuf × Int :=
  if st.limNum > 0 ∧ st.costNum ≥ st.limNum then (st, Err.BUFF_LIMIT)
  else if st.limSize > 0 ∧ st.costSize + s > st.limSize then (st, Err.BUFF_LIMIT)
  else ({ st with blocks := DBlk.malloc s :: st.blocks, costNum := st.costNum + 1,
                  costSize := st.costSize + s }, Err.SUCCESS)

/-- Counters at the end of the dynamic pops, `src/detail/buffer.cpp:835-841`. -/
def DBuf.popFinish (st : DBuf) (s : Nat) : DBuf :=
  if st.blocks.isEmpty then { st with costSize := 0, costNum := 0 }
  else { st with costSize := st.costSize - (if st.costSize ≥ s then s else st.costSize) }

/-- `dynamic_pop_back`, `src/detail/buffer.cpp:815-844`. -/
def DBuf.popBack (st : DBuf) (s : Nat) (fu : Bool) : DBuf × Int :=
  match st.blocks.getLast? with
  | none => (st, Err.NO_DATA)
  | some t =>
    let s := if s > t.left then t.left else s
    if fu && (t.pop s).left == 0 then
      (DBuf.popFinish { st with blocks := st.blocks.dropLast, costNum := st.costNum - 1 } s,
       Err.SUCCESS)
    else (DBuf.popFinish { st with blocks := st.blocks.dropLast ++ [t.pop s] } s, Err.SUCCESS)

/-- `dynamic_pop_front`, `src/detail/buffer.cpp:846-875`. -/
def DBuf.popFront (st : DBuf) (s : Nat) (fu : Bool) : DBuf × Int :=
  match st.blocks with
  | [] => (st, Err.NO_DATA)
  | t :: rest =>
    let s := if s > t.left then t.left else s
    if fu && (t.pop s).left == 0 then
      (DBuf.popFinish { st with blocks := rest, costNum := st.costNum - 1 } s, Err.SUCCESS)
    else (DBuf.popFinish { st with blocks := t.pop s :: rest } s, Err.SUCCESS)

/-- Allocation of the merged block and copy of the old payload,
`src/detail/buffer.cpp:887-902,916-931`: the new block is fresh
(`malloc`), the first `raw_size` cells are copied, then the consumed count is
restored with `pop`. -/
def DBlk.grow (b : DBlk) (s : Nat) : DBlk :=
  let res := DBlk.malloc (s + b.cells.length)
  { res with cells := b.cells ++ res.cells.drop b.cells.length }.pop (b.cells.length - b.left)

/-- `merge_back`, `src/detail/buffer.cpp:298-314,877-904`. -/
def DBuf.mergeBack (st : DBuf) (s : Nat) : DBuf × Int :=
  match st.blocks.getLast? with
  | none => st.pushBack s
  | some b =>
    if st.limSize > 0 ∧ st.costSize + s > st.limSize then (st, Err.BUFF_LIMIT)
    else if s = 0 then (st, Err.SUCCESS)
    else ({ st with blocks := st.blocks.dropLast ++ [b.grow s], costSize := st.costSize + s },
          Err.SUCCESS)

/-- `merge_front`, `src/detail/buffer.cpp:316-332,906-933`. -/
def DBuf.mergeFront (st : DBuf) (s : Nat) : DBuf × Int :=
  match st.blocks with
  | [] => st.pushFront s
  | b :: rest =>
    if st.limSize > 0 ∧ st.costSize + s > st.limSize then (st, Err.BUFF_LIMIT)
    else if s = 0 then (st, Err.SUCCESS)
    else ({ st with blocks := b.grow s :: rest, costSize := st.costSize + s }, Err.SUCCESS)

/-- The user stores `d` at offset `off` of a heap block; `none` when it does
not fit (undefined behaviour). -/
def DBlk.write (b : DBlk) (off : Nat) (d : List Byte) : Option DBlk :=
  if off + d.length ≤ b.cells.length then
    some { b with cells := b.cells.take off ++ d.map some ++ b.cells.drop (off + d.length) }
  else none

/-- One call on a dynamic-mode manager. -/
def DBuf.step (st : DBuf) : Op → Option (DBuf × Int)
  | .pushBack s => some (st.pushBack s)
  | .pushFront s => some (st.pushFront s)
  | .mergeBack s => some (st.mergeBack s)
  | .mergeFront s => some (st.mergeFront s)
  | .popBack s fu => some (st.popBack s fu)
  | .popFront s fu => some (st.popFront s fu)
  | .write i off d =>
    match st.blocks[i]? with
    | none => none
    | some b => (b.write off d).map fun b' => ({ st with blocks := st.blocks.set i b' }, Err.SUCCESS)

/-- `buffer_manager()` followed by `set_limit`,
`src/detail/buffer.cpp:198-216`. -/
def DBuf.init (limSize limNum : Nat) : DBuf :=
  { blocks := [], costNum := 0, costSize := 0, limNum := limNum, limSize := limSize }

/-! ### Size arithmetic with 64-bit wrap-around -/
namespace Size64

/-- `padding_size` on `size_t`, `src/detail/buffer.cpp:184-191`. -/
def padding (s : Nat) : Nat := if s % 16 = 0 then s else (s + 16 - s % 16) % W64

/-- `full_size` on `size_t`, `src/detail/buffer.cpp:195`. -/
def full (s : Nat) : Nat := (headSize + padding s) % W64

/-- The limit checks of `push_back` on `size_t`,
`src/detail/buffer.cpp:254-260`. -/
def limitOk (costNum costSize limNum limSize s : Nat) : Bool :=
  !(decide (limNum > 0) && decide (costNum ≥ limNum)) &&
  !(decide (limSize > 0) && decide ((costSize + s) % W64 > limSize))

/-- `dynamic_push_back` on `size_t`, `src/detail/buffer.cpp:252-269,789-800,
127-139`: `some n` is success with an allocation of `n` bytes in total. -/
def push (costNum costSize limNum limSize s : Nat) : Option Nat :=
  if limitOk costNum costSize limNum limSize s then
    -- malloc(ms), then create(ret, ms, s) whose check `fs > s` is false
    if full s > full s then none else some (full s)
  else none

end Size64

end Verif.Buffer
