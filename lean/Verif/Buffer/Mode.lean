import Verif.Buffer.Spec

/-!
Model of a whole `buffer_manager`: changes of mode and limits, the accessors of the first and last block, and the memory it takes from
and gives back to the C library.  The contents of blocks are those of `Model.lean`; here every allocated block has a number, an
allocation can fail, and giving back something twice is noticed.

Release build: `destroy` fills the memory only in debug builds (`src/detail/buffer.cpp:177-179`).
-/
namespace Verif.Buffer

/-- The allocations of the C library made by one manager. -/
structure Heap where
  live : List Nat := []
  next : Nat := 0
  /-- something was given back that was not allocated -/
  bad : Bool := false
deriving DecidableEq, Repr

/-- `::malloc`. -/
def Heap.malloc (h : Heap) (ok : Bool) : Heap × Option Nat :=
  if ok then ({ h with live := h.next :: h.live, next := h.next + 1 }, some h.next) else (h, none)

/-- `::free`. -/
def Heap.free (h : Heap) (a : Nat) : Heap :=
  if a ∈ h.live then { h with live := h.live.erase a } else { h with bad := true }

/-- `buffer_manager`, `include/detail/buffer.h:109-115,221-235`.  In static mode the ring and the counters are in `area`. -/
structure Mgr where
  heap : Heap := {}
  /-- `static_buffer_`, if `buffer_` is not NULL -/
  area : Option (Nat × SBuf) := none
  /-- `dynamic_buffer_` -/
  dyn : List (Nat × DBlk) := []
  costNum : Nat := 0
  costSize : Nat := 0
  limNum : Nat := 0
  limSize : Nat := 0

/-- The limit test of the pushes, `src/detail/buffer.cpp:254-260`. -/
def Mgr.overPush (m : Mgr) (s : Nat) : Bool :=
  decide (m.limNum > 0 ∧ m.costNum ≥ m.limNum) || decide (m.limSize > 0 ∧ m.costSize + s > m.limSize)

/-- `push_back` and `push_front` in dynamic mode, `src/detail/buffer.cpp:252-288,789-813`. -/
def Mgr.push (m : Mgr) (ok : Bool) (s : Nat) (back : Bool) : Mgr × Int :=
  if m.overPush s then (m, Err.BUFF_LIMIT)
  else
    match m.heap.malloc ok with
    | (h, none) => ({ m with heap := h }, Err.MALLOC)
    | (h, some a) =>
      ({ m with
          heap := h, dyn := if back then m.dyn ++ [(a, DBlk.malloc s)] else (a, DBlk.malloc s) :: m.dyn
          costNum := m.costNum + 1, costSize := m.costSize + s }, Err.SUCCESS)

/-- The end of the dynamic pops, `src/detail/buffer.cpp:835-841,866-872`. -/
def Mgr.popEnd (m : Mgr) (s : Nat) : Mgr :=
  if m.dyn.isEmpty then { m with costSize := 0, costNum := 0 }
  else { m with costSize := m.costSize - (if m.costSize ≥ s then s else m.costSize) }

/-- `dynamic_pop_back`, `src/detail/buffer.cpp:815-844`. -/
def Mgr.popBack (m : Mgr) (s : Nat) (fu : Bool) : Mgr × Int :=
  match m.dyn.getLast? with
  | none => (m, Err.NO_DATA)
  | some (a, t) =>
    let s := if s > t.left then t.left else s
    if fu && (t.pop s).left == 0 then
      (Mgr.popEnd { m with heap := m.heap.free a, dyn := m.dyn.dropLast, costNum := m.costNum - 1 } s, Err.SUCCESS)
    else (Mgr.popEnd { m with dyn := m.dyn.dropLast ++ [(a, t.pop s)] } s, Err.SUCCESS)

/-- `dynamic_pop_front`, `src/detail/buffer.cpp:846-875`. -/
def Mgr.popFront (m : Mgr) (s : Nat) (fu : Bool) : Mgr × Int :=
  match m.dyn with
  | [] => (m, Err.NO_DATA)
  | (a, t) :: rest =>
    let s := if s > t.left then t.left else s
    if fu && (t.pop s).left == 0 then
      (Mgr.popEnd { m with heap := m.heap.free a, dyn := rest, costNum := m.costNum - 1 } s, Err.SUCCESS)
    else (Mgr.popEnd { m with dyn := (a, t.pop s) :: rest } s, Err.SUCCESS)

/-- `merge_back` in dynamic mode, `src/detail/buffer.cpp:298-314,877-904`: allocate, copy, give back the old block. -/
def Mgr.mergeBack (m : Mgr) (ok : Bool) (s : Nat) : Mgr × Int :=
  match m.dyn.getLast? with
  | none => m.push ok s true
  | some (a, b) =>
    if m.limSize > 0 ∧ m.costSize + s > m.limSize then (m, Err.BUFF_LIMIT)
    else if s = 0 then (m, Err.SUCCESS)
    else match m.heap.malloc ok with
      | (h, none) => ({ m with heap := h }, Err.MALLOC)
      | (h, some a') =>
        ({ m with heap := h.free a, dyn := m.dyn.dropLast ++ [(a', b.grow s)], costSize := m.costSize + s }, Err.SUCCESS)

/-- `merge_front` in dynamic mode, `src/detail/buffer.cpp:316-332,906-933`. -/
def Mgr.mergeFront (m : Mgr) (ok : Bool) (s : Nat) : Mgr × Int :=
  match m.dyn with
  | [] => m.push ok s false
  | (a, b) :: rest =>
    if m.limSize > 0 ∧ m.costSize + s > m.limSize then (m, Err.BUFF_LIMIT)
    else if s = 0 then (m, Err.SUCCESS)
    else match m.heap.malloc ok with
      | (h, none) => ({ m with heap := h }, Err.MALLOC)
      | (h, some a') =>
        ({ m with heap := h.free a, dyn := (a', b.grow s) :: rest, costSize := m.costSize + s }, Err.SUCCESS)

/-- A call in dynamic mode; `none`: undefined behaviour (of a write by the user). -/
def Mgr.dynStep (m : Mgr) (ok : Bool) : Op → Option (Mgr × Int)
  | .pushBack s => some (m.push ok s true)
  | .pushFront s => some (m.push ok s false)
  | .mergeBack s => some (m.mergeBack ok s)
  | .mergeFront s => some (m.mergeFront ok s)
  | .popBack s fu => some (m.popBack s fu)
  | .popFront s fu => some (m.popFront s fu)
  | .write i off d =>
    match m.dyn[i]? with
    | none => none
    | some (a, b) => (b.write off d).map fun b' => ({ m with dyn := m.dyn.set i (a, b') }, Err.SUCCESS)

/-- A call, by the mode, `src/detail/buffer.cpp:218-334`. -/
def Mgr.step (m : Mgr) (ok : Bool) (o : Op) : Option (Mgr × Int) :=
  match m.area with
  | none => m.dynStep ok o
  | some (a, st) =>
    match st.step o with
    | none => none
    | some (st', r, _) => some ({ m with area := some (a, st') }, r)

/-- `set_limit`, `src/detail/buffer.cpp:208-216`. -/
def Mgr.setLimit (m : Mgr) (s n : Nat) : Mgr × Bool :=
  match m.area with
  | none => ({ m with limNum := n, limSize := s }, true)
  | some _ => (m, false)

/-- `reset`, `src/detail/buffer.cpp:937-957`; also the destructor, 204. -/
def Mgr.reset (m : Mgr) : Mgr :=
  let h := match m.area with
    | none => m.heap
    | some (a, _) => m.heap.free a
  { heap := m.dyn.foldl (fun h b => h.free b.1) h }

/-- `set_mode`, `src/detail/buffer.cpp:959-975`, sizes as 64-bit numbers. -/
def Mgr.setMode (m : Mgr) (ok : Bool) (s n : Nat) : Mgr :=
  let m := m.reset
  if s ≠ 0 ∧ n > 0 then
    match m.heap.malloc ok with
    | (h, none) => { m with heap := h }
    | (h, some a) =>
      { m with
        heap := h
        area := some (a, { Buffer.setMode s n with
          size := Size64.padding ((s + 16) % W64), idx := List.replicate ((n + 1) % W64) none }) }
  else m

/-- What `front(pointer, nread, nwrite)` and `back(…)` give, `src/detail/buffer.cpp:220-250`: the bytes of the block with the read ones,
`nread`, `nwrite`.  A byte of the area that holds no user data is `none`. -/
structure View where
  bytes : List (Option Byte)
  nread : Nat
  nwrite : Nat
deriving DecidableEq, Repr

/-- A cell as the user sees it. -/
def Cell.seen : Cell → Option Byte
  | .byte b => some b
  | _ => none

/-- The block at an address of the static area. -/
def SBuf.viewAt (st : SBuf) (p : Nat) : Option View :=
  match readHdr st.size st.mem p with
  | none => none
  | some h => some ⟨(List.range h.size).map fun j => (st.mem (h.ptr + j)).seen, h.size - h.left, h.left⟩

/-- A block of the heap. -/
def DBlk.view (b : DBlk) : View := ⟨b.cells, b.cells.length - b.left, b.left⟩

/-- `front`, `src/detail/buffer.cpp:218-233,336-342,773-779`.  Outer `none`: undefined behaviour; inner `none`: NO_DATA. -/
def Mgr.front (m : Mgr) : Option (Option View) :=
  match m.area with
  | none =>
    match m.dyn with
    | [] => some none
    | (_, b) :: _ => some (some b.view)
  | some (_, st) =>
    if st.head = st.tail then some none
    else match st.idx[st.head]? with
      | some (some p) => (st.viewAt p).map some
      | _ => none

/-- `back`, `src/detail/buffer.cpp:235-250,344-351,781-787`. -/
def Mgr.back (m : Mgr) : Option (Option View) :=
  match m.area with
  | none =>
    match m.dyn.getLast? with
    | none => some none
    | some (_, b) => some (some b.view)
  | some (_, st) =>
    if st.head = st.tail then some none
    else if st.idx.length = 0 then none
    else match st.idx[(st.tail + st.idx.length - 1) % st.idx.length]? with
      | some (some p) => (st.viewAt p).map some
      | _ => none

end Verif.Buffer
