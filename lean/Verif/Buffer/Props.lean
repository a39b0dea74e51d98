import Verif.Buffer.Refine

/-! Property theorems C04 – C10 (buffer manager). -/
namespace Verif.Buffer

/-! ### C04 dynamic mode -/

/-- C04: in every state a dynamic-mode manager can reach, its blocks, bytes and
consumed counts are those of the plain double-ended queue, and every legal call
returns what the queue demands. -/
theorem C04_dynamic_deque {limSize limNum : Nat} {d : DBuf} {q : Deque}
    (h : DReach limSize limNum d q) :
    d.blocks.map (fun b => (b.cells, b.used)) = q.map (fun b => (b.data, b.consumed)) ∧
    ∀ op, q.Legal op → ∃ d', d.step op = some (d', q.verdict limNum limSize op) := by
  have hg := dreach_good h
  refine ⟨?_, ?_⟩
  · rw [← hg.abs, List.map_map]; rfl
  · intro op hl
    obtain ⟨d', e, _⟩ := dgood_step op hg hl
    exact ⟨d', e⟩

/-- A dynamic history with a merge into a partly consumed block. -/
example : ∃ d, DReach 100 3 d [⟨[some 7, some 8, none], 1⟩, ⟨[none], 0⟩] := by
  have h0 : DReach 100 3 _ _ := .init
  have h1 := DReach.step (op := .pushBack 2) h0 trivial rfl
  have h2 := DReach.step (op := .pushBack 1) h1 trivial rfl
  have h3 := DReach.step (op := .write 0 0 [7, 8]) h2 ⟨⟨[none, none], 0⟩, rfl, by decide⟩ rfl
  have h4 := DReach.step (op := .popFront 1 true) h3 trivial rfl
  have h5 := DReach.step (op := .mergeFront 1) h4 trivial rfl
  exact ⟨_, h5⟩

/-! ### C05 placement in static mode -/

/-- C05: no call on a reachable static-mode manager ever touches memory outside
its area, dereferences a bad header or copies between overlapping ranges (those
are the undefined outcomes `none` of the model). -/
theorem C05_static_no_ub {maxSize maxNum : Nat} (hS : 0 < maxSize) (hN : 0 < maxNum) {st : SBuf}
    {q : Deque} (h : SReach maxSize maxNum st q) (op : Op) (hl : q.Legal op) :
    st.step op ≠ none := by
  obtain ⟨bs, hg⟩ := sreach_good hS hN h
  obtain ⟨st', r, ptr, bs', e, _⟩ := good_step hS hN op hg hl
  rw [e]; simp

/-- C05: every live block lies inside the area with its header, and two
different live blocks share no byte. -/
theorem C05_static_layout {maxSize maxNum : Nat} (hS : 0 < maxSize) (hN : 0 < maxNum) {st : SBuf}
    {q : Deque} (h : SReach maxSize maxNum st q) :
    (∀ i, i < st.count → ∃ p hd cells, st.block i = some (p, hd, cells) ∧
      hd.ptr = p + 32 ∧ hd.ptr + hd.size ≤ st.size) ∧
    ∀ i j p hd cells p' hd' cells', i < st.count → j < st.count → i ≠ j →
      st.block i = some (p, hd, cells) → st.block j = some (p', hd', cells') →
      hd.ptr + hd.size ≤ p' ∨ hd'.ptr + hd'.size ≤ p := by
  obtain ⟨bs, hg⟩ := sreach_good hS hN h
  have hcnt := count_of hg.inv
  rcases hg.inv with ⟨hb, t, hc⟩ | ⟨rfl, _⟩
  · refine ⟨?_, ?_⟩
    · intro i hi
      rw [hcnt] at hi
      have hbi : bs[i]? = some bs[i] := List.getElem?_eq_getElem hi
      refine ⟨_, _, _, block_of hg.inv hbi, rfl, ?_⟩
      have h1 := hc.lay.bound (List.mem_of_getElem? hbi)
      have h2 := full_ge (bs[i]).cells.length
      simp only [PB.hdr, PB.fin] at *
      omega
    · intro i j p hd cells p' hd' cells' hi hj hij e1 e2
      rw [hcnt] at hi hj
      have hbi : bs[i]? = some bs[i] := List.getElem?_eq_getElem hi
      have hbj : bs[j]? = some bs[j] := List.getElem?_eq_getElem hj
      rw [block_of hg.inv hbi] at e1
      rw [block_of hg.inv hbj] at e2
      simp only [Option.some.injEq, Prod.mk.injEq] at e1 e2
      obtain ⟨rfl, rfl, rfl⟩ := e1
      obtain ⟨rfl, rfl, rfl⟩ := e2
      have hpw := List.pairwise_iff_getElem.1 hc.lay.pairwise
      have g1 := full_ge (bs[i]).cells.length
      have g2 := full_ge (bs[j]).cells.length
      rcases Nat.lt_or_ge i j with hlt | hge
      · have := hpw i j hi hj hlt
        simp only [PB.hdr, PB.fin] at *
        omega
      · have := hpw j i hj hi (by omega)
        simp only [PB.hdr, PB.fin] at *
        omega
  · simp at hcnt
    refine ⟨fun i hi => by omega, fun i j _ _ _ _ _ _ hi => by omega⟩

/-- A reachable static state whose ring has wrapped around: the third block
sits at address 0, below the other two. -/
example : ∃ st q, SReach 200 4 st q ∧ q.length = 3 ∧
    (List.range 3).map (fun i => (st.block i).map (·.1)) = [some 96, some 144, some 0] := by
  refine ⟨_, _, .step (op := .pushBack 16) (.step (op := .popFront 16 true)
    (.step (op := .popFront 99 true) (.step (op := .pushBack 16) (.step (op := .pushBack 16)
    (.step (op := .pushBack 16) (.step (op := .pushBack 16) .init trivial rfl) trivial rfl)
    trivial rfl) trivial rfl) trivial rfl) trivial rfl) trivial rfl, by decide, by decide⟩

/-! ### C06 static mode is the same queue -/

/-- C06: through the index ring and the block headers a user of a static-mode
manager sees exactly the queue driven by the successful calls: number and order
of blocks, sizes, consumed counts and every byte ever stored. -/
theorem C06_static_deque {maxSize maxNum : Nat} (hS : 0 < maxSize) (hN : 0 < maxNum) {st : SBuf}
    {q : Deque} (h : SReach maxSize maxNum st q) :
    st.count = q.length ∧
    ∀ (i : Nat) b, q[i]? = some b → ∃ p hd cells, st.block i = some (p, hd, cells) ∧
      hd.size = b.data.length ∧ hd.used = b.consumed ∧ cells.length = b.data.length ∧
      ∀ (j : Nat) x, b.data[j]? = some (some x) → cells[j]? = some (Cell.byte x) := by
  obtain ⟨bs, hg⟩ := sreach_good hS hN h
  refine ⟨by rw [count_of hg.inv, ← hg.abs]; simp, ?_⟩
  intro i b hb
  rw [← hg.abs, List.getElem?_map, Option.map_eq_some_iff] at hb
  obtain ⟨c, hc1, rfl⟩ := hb
  refine ⟨_, _, _, block_of hg.inv hc1, rfl, rfl, by simp [PB.toBlk], ?_⟩
  intro j x hj
  have hjl : j < c.cells.length := lt_of_getElem? hj
  have hok : BlkOK st.mem c := by
    rcases hg.inv with ⟨_, t, hc⟩ | ⟨rfl, _⟩
    · exact hc.mem c (List.mem_of_getElem? hc1)
    · simp at hc1
  rw [List.getElem?_map, List.getElem?_range hjl]
  simp [hok.2.2 j x hj]

/-- C06: return values. Only pushes and merges report a limit error, a pop
reports "no data" exactly on an empty manager, everything else succeeds. -/
theorem C06_static_results {maxSize maxNum : Nat} (hS : 0 < maxSize) (hN : 0 < maxNum) {st : SBuf}
    {q : Deque} (h : SReach maxSize maxNum st q) (op : Op) (hl : q.Legal op) :
    ∃ st' r ptr, st.step op = some (st', r, ptr) ∧
      match op with
      | .pushBack _ | .pushFront _ | .mergeBack _ | .mergeFront _ =>
        r = Err.SUCCESS ∨ r = Err.BUFF_LIMIT
      | .popBack _ _ | .popFront _ _ => r = if q = [] then Err.NO_DATA else Err.SUCCESS
      | .write _ _ _ => r = Err.SUCCESS := by
  obtain ⟨bs, hg⟩ := sreach_good hS hN h
  obtain ⟨st', r, ptr, bs', e, _, _, hr, hnd, hlim⟩ := good_step hS hN op hg hl
  refine ⟨st', r, ptr, e, ?_⟩
  cases op with
  | pushBack s =>
    rcases hr with hr | hr | hr
    · exact Or.inl hr
    · exact Or.inr hr
    · obtain ⟨_, s', fu, hh⟩ := hnd.1 hr; simp at hh
  | pushFront s =>
    rcases hr with hr | hr | hr
    · exact Or.inl hr
    · exact Or.inr hr
    · obtain ⟨_, s', fu, hh⟩ := hnd.1 hr; simp at hh
  | mergeBack s =>
    rcases hr with hr | hr | hr
    · exact Or.inl hr
    · exact Or.inr hr
    · obtain ⟨_, s', fu, hh⟩ := hnd.1 hr; simp at hh
  | mergeFront s =>
    rcases hr with hr | hr | hr
    · exact Or.inl hr
    · exact Or.inr hr
    · obtain ⟨_, s', fu, hh⟩ := hnd.1 hr; simp at hh
  | popBack s fu =>
    by_cases hq : q = []
    · rw [if_pos hq]; exact hnd.2 ⟨hq, s, fu, Or.inl rfl⟩
    · rw [if_neg hq]
      rcases hr with hr | hr | hr
      · exact hr
      · exact absurd rfl ((hlim hr).1 s fu)
      · exact absurd (hnd.1 hr).1 hq
  | popFront s fu =>
    by_cases hq : q = []
    · rw [if_pos hq]; exact hnd.2 ⟨hq, s, fu, Or.inr rfl⟩
    · rw [if_neg hq]
      rcases hr with hr | hr | hr
      · exact hr
      · exact absurd rfl ((hlim hr).2.1 s fu)
      · exact absurd (hnd.1 hr).1 hq
  | write i off d =>
    rcases hr with hr | hr | hr
    · exact hr
    · exact absurd rfl ((hlim hr).2.2 i off d)
    · obtain ⟨_, s', fu, hh⟩ := hnd.1 hr; simp at hh

/-- C06: the address a successful push hands out is the payload address of the
new block, at the right end of the queue. -/
theorem C06_static_push_pointer {maxSize maxNum : Nat} (hS : 0 < maxSize) (hN : 0 < maxNum)
    {st st' : SBuf} {q : Deque} {s : Nat} {ptr : Option Nat} (h : SReach maxSize maxNum st q) :
    (st.step (.pushBack s) = some (st', Err.SUCCESS, ptr) →
      ∃ p hd cells, st'.block q.length = some (p, hd, cells) ∧ hd.size = s ∧ ptr = some hd.ptr) ∧
    (st.step (.pushFront s) = some (st', Err.SUCCESS, ptr) →
      ∃ p hd cells, st'.block 0 = some (p, hd, cells) ∧ hd.size = s ∧ ptr = some hd.ptr) := by
  obtain ⟨bs, hg⟩ := sreach_good hS hN h
  have hql : bs.length = q.length := by rw [← hg.abs]; simp
  refine ⟨fun e => ?_, fun e => ?_⟩
  · obtain ⟨st2, r2, ptr2, bs2, e2, hg2, hp, _⟩ := good_step hS hN (.pushBack s) hg trivial
    rw [e] at e2
    simp only [Option.some.injEq, Prod.mk.injEq] at e2
    obtain ⟨rfl, rfl, rfl⟩ := e2
    obtain ⟨b, hb, hptr⟩ := hp rfl
    refine ⟨_, _, _, block_of hg2.inv (by rw [← hql]; exact hb), ?_, hptr⟩
    have := hg2.abs
    simp only [if_true, Deque.apply] at this
    have h2 : (bs2.map PB.toBlk)[bs.length]? = some (.fresh s) := by rw [this, hql]; simp
    rw [List.getElem?_map, hb] at h2
    simp only [Option.map_some, Option.some.injEq] at h2
    have := congrArg (fun b => b.data.length) h2
    simpa [Blk.fresh, PB.toBlk, PB.hdr] using this
  · obtain ⟨st2, r2, ptr2, bs2, e2, hg2, hp, _⟩ := good_step hS hN (.pushFront s) hg trivial
    rw [e] at e2
    simp only [Option.some.injEq, Prod.mk.injEq] at e2
    obtain ⟨rfl, rfl, rfl⟩ := e2
    obtain ⟨b, hb, hptr⟩ := hp rfl
    refine ⟨_, _, _, block_of hg2.inv hb, ?_, hptr⟩
    have := hg2.abs
    simp only [if_true, Deque.apply] at this
    have h2 : (bs2.map PB.toBlk)[0]? = some (.fresh s) := by rw [this]; simp
    rw [List.getElem?_map, hb] at h2
    simp only [Option.map_some, Option.some.injEq] at h2
    have := congrArg (fun b => b.data.length) h2
    simpa [Blk.fresh, PB.toBlk, PB.hdr] using this

/-- Bytes stored before a wrap-around relocation are still there: the last
block is moved to the start of the area by `merge_back` and keeps bytes `1, 2`
and its consumed count. -/
example : ∃ st q, SReach 200 4 st q ∧ q[1]? = some ⟨[some 1, some 2, none], 1⟩ ∧
    (st.block 1).map (fun x => (x.1, x.2.1.used)) = some (0, 1) := by
  refine ⟨_, _, .step (op := .mergeBack 1) (.step (op := .popFront 32 true)
    (.step (op := .popBack 1 true) (.step (op := .write 2 0 [1, 2])
    (.step (op := .pushBack 2) (.step (op := .pushBack 80) (.step (op := .pushBack 32) .init
      trivial rfl) trivial rfl) trivial rfl)
    ⟨⟨[none, none], 0⟩, rfl, by decide⟩ rfl) trivial rfl) trivial rfl) trivial rfl, rfl, ?_⟩
  decide +kernel

/-! ### C07 counters and limits -/

/-- C07 (dynamic mode): the reported counters are the number of blocks and of
unconsumed bytes, and neither exceeds a configured non-zero limit. -/
theorem C07_dynamic_counters {limSize limNum : Nat} {d : DBuf} {q : Deque}
    (h : DReach limSize limNum d q) :
    d.costNum = q.length ∧ d.costSize = (q.map fun b => b.data.length - b.consumed).sum ∧
    (0 < limNum → d.costNum ≤ limNum) ∧ (0 < limSize → d.costSize ≤ limSize) := by
  have hg := dreach_good h
  refine ⟨hg.cn, hg.cs, ?_⟩
  rw [hg.cn, hg.cs]
  exact dreach_bound h

/-- C07 (dynamic mode): a push or merge is refused exactly when it would exceed
a configured non-zero limit. -/
theorem C07_dynamic_refusal {limSize limNum : Nat} {d d' : DBuf} {q : Deque} {r : Int} (s : Nat)
    (h : DReach limSize limNum d q) :
    (∀ op ∈ [Op.pushBack s, Op.pushFront s], d.step op = some (d', r) →
      (r = Err.BUFF_LIMIT ↔ (0 < limNum ∧ d.costNum + 1 > limNum) ∨
        (0 < limSize ∧ d.costSize + s > limSize))) ∧
    (q ≠ [] → ∀ op ∈ [Op.mergeBack s, Op.mergeFront s], d.step op = some (d', r) →
      (r = Err.BUFF_LIMIT ↔ 0 < limSize ∧ d.costSize + s > limSize)) := by
  have hg := dreach_good h
  rw [hg.cn, hg.cs]
  have key : ∀ op, q.Legal op → d.step op = some (d', r) → r = q.verdict limNum limSize op := by
    intro op hl e
    obtain ⟨d2, e2, _⟩ := dgood_step op hg hl
    rw [e] at e2
    simpa using congrArg (fun x => x.map Prod.snd) e2
  refine ⟨?_, ?_⟩
  · intro op hop e
    simp only [List.mem_cons, List.not_mem_nil, or_false] at hop
    rcases hop with rfl | rfl
    all_goals
      rw [key _ (by trivial) e]
      simp only [Deque.verdict]
      split <;> rename_i hh
      · simp only [true_iff]; omega
      · simp only [show ¬ (Err.SUCCESS = Err.BUFF_LIMIT) by decide, false_iff]; omega
  · intro hq op hop e
    simp only [List.mem_cons, List.not_mem_nil, or_false] at hop
    rcases hop with rfl | rfl
    all_goals
      rw [key _ (by trivial) e]
      simp only [Deque.verdict, hq, false_and, false_or]
      split <;> rename_i hh
      · simp only [true_iff]; omega
      · simp only [show ¬ (Err.SUCCESS = Err.BUFF_LIMIT) by decide, false_iff]; omega

/-- C07 (static mode): as in dynamic mode, the counters are exact and bounded. -/
theorem C07_static_counters {maxSize maxNum : Nat} (hS : 0 < maxSize) (hN : 0 < maxNum) {st : SBuf}
    {q : Deque} (h : SReach maxSize maxNum st q) :
    st.costNum = q.length ∧ st.costSize = (q.map fun b => b.data.length - b.consumed).sum ∧
    st.costNum ≤ maxNum ∧ st.costSize ≤ maxSize := by
  obtain ⟨bs, hg⟩ := sreach_good hS hN h
  have hc := counted_abs hg.cnt
  rw [hg.abs] at hc
  exact ⟨hc.1, hc.2, hg.nb, hg.sb⟩

/-- C07 (static mode): a call that would exceed a limit is refused. -/
theorem C07_static_limit_refused {maxSize maxNum : Nat} (hS : 0 < maxSize) (hN : 0 < maxNum)
    {st st' : SBuf} {q : Deque} {r : Int} {ptr : Option Nat} {s : Nat} {op : Op}
    (h : SReach maxSize maxNum st q)
    (hop : op = .pushBack s ∨ op = .pushFront s)
    (hover : st.costNum + 1 > maxNum ∨ st.costSize + s > maxSize)
    (e : st.step op = some (st', r, ptr)) : r = Err.BUFF_LIMIT := by
  obtain ⟨bs, hg⟩ := sreach_good hS hN h
  have e1 := hg.ln
  have e2 := hg.ls
  rcases hop with rfl | rfl
  all_goals
    simp only [SBuf.step, SBuf.pushBack, SBuf.pushFront, e1, e2] at e
    split at e
    · simp only [Option.some.injEq, Prod.mk.injEq] at e; exact e.2.1.symm
    · rw [if_pos (by omega)] at e
      simp only [Option.some.injEq, Prod.mk.injEq] at e; exact e.2.1.symm

/-- C07 is false in static mode in one respect: the limit error is also
reported for a push within both limits.  A fresh manager configured for one
block and 16 bytes refuses a block of 16 bytes (header and padding do not fit
the area). -/
theorem C07_static_refusal_false :
    ∃ st', (setMode 16 1).step (.pushBack 16) = some (st', Err.BUFF_LIMIT, none) ∧
      (setMode 16 1).costNum + 1 ≤ 1 ∧ (setMode 16 1).costSize + 16 ≤ 16 :=
  ⟨_, rfl, by decide, by decide⟩

/-! ### C08 merge -/

/-- C08 (dynamic mode): a successful merge appends `s` new bytes to the last
(first) block, keeps its bytes and consumed count and leaves the others alone;
on an empty manager it pushes. -/
theorem C08_dynamic_merge {limSize limNum : Nat} {d d' : DBuf} {q : Deque} {s : Nat}
    (h : DReach limSize limNum d q) :
    (d.step (.mergeBack s) = some (d', Err.SUCCESS) →
      (q = [] ∧ d'.blocks = [⟨List.replicate s none, 0⟩]) ∨
      ∃ rest b, d.blocks = rest ++ [b] ∧
        d'.blocks = rest ++ [⟨b.cells ++ List.replicate s none, b.used⟩]) ∧
    (d.step (.mergeFront s) = some (d', Err.SUCCESS) →
      (q = [] ∧ d'.blocks = [⟨List.replicate s none, 0⟩]) ∨
      ∃ rest b, d.blocks = b :: rest ∧
        d'.blocks = ⟨b.cells ++ List.replicate s none, b.used⟩ :: rest) := by
  have hg := dreach_good h
  have inj : ∀ x y : List DBlk, x.map DBlk.toBlk = y.map DBlk.toBlk → x = y := by
    intro x y hxy
    refine (List.map_inj_right ?_).1 hxy
    rintro ⟨a, b⟩ ⟨c, e⟩ hh
    simpa [DBlk.toBlk] using hh
  refine ⟨fun e => ?_, fun e => ?_⟩
  · have hg' := dreach_good (DReach.step h (by trivial) e)
    rw [if_pos rfl] at hg'
    rcases List.eq_nil_or_concat q with rfl | ⟨rest, b, rfl⟩
    · left
      refine ⟨rfl, inj _ _ ?_⟩
      rw [hg'.abs]; rfl
    · right
      rw [List.concat_eq_append] at *
      refine ⟨rest.map fun b => ⟨b.data, b.consumed⟩, ⟨b.data, b.consumed⟩, inj _ _ ?_, inj _ _ ?_⟩
      · rw [hg.abs]; simp [DBlk.toBlk, Function.comp_def]
      · rw [hg'.abs]; simp [Deque.apply, DBlk.toBlk, Function.comp_def, Blk.append]
  · have hg' := dreach_good (DReach.step h (by trivial) e)
    rw [if_pos rfl] at hg'
    rcases q with _ | ⟨b, rest⟩
    · left
      refine ⟨rfl, inj _ _ ?_⟩
      rw [hg'.abs]; rfl
    · right
      refine ⟨rest.map fun b => ⟨b.data, b.consumed⟩, ⟨b.data, b.consumed⟩, inj _ _ ?_, inj _ _ ?_⟩
      · rw [hg.abs]; simp [DBlk.toBlk, Function.comp_def]
      · rw [hg'.abs]; simp [Deque.apply, DBlk.toBlk, Function.comp_def, Blk.append]

/-- What a user can rely on about block `i` of a static manager: its size,
consumed count and the bytes known to be stored. -/
def SBuf.Shows (st : SBuf) (i : Nat) (data : List (Option Byte)) (consumed : Nat) : Prop :=
  ∃ p hd cells, st.block i = some (p, hd, cells) ∧ hd.size = data.length ∧ hd.used = consumed ∧
    cells.length = data.length ∧ ∀ (j : Nat) x, data[j]? = some (some x) → cells[j]? = some (Cell.byte x)

/-- C08 (static mode), `merge_back`. -/
theorem C08_static_merge_back {maxSize maxNum : Nat} (hS : 0 < maxSize) (hN : 0 < maxNum)
    {st st' : SBuf} {q : Deque} {s : Nat} {ptr : Option Nat} (h : SReach maxSize maxNum st q)
    (hq : q ≠ []) (e : st.step (.mergeBack s) = some (st', Err.SUCCESS, ptr)) :
    st'.count = q.length ∧
    (∀ (i : Nat) b, q[i]? = some b → i + 1 < q.length → st'.Shows i b.data b.consumed) ∧
    (∀ b, q.getLast? = some b →
      st'.Shows (q.length - 1) (b.data ++ List.replicate s none) b.consumed) := by
  have h' := SReach.step h (by trivial) e
  rw [if_pos rfl] at h'
  obtain ⟨hc, hb⟩ := C06_static_deque hS hN h'
  rcases List.eq_nil_or_concat q with rfl | ⟨rest, b, rfl⟩
  · exact absurd rfl hq
  rw [List.concat_eq_append] at *
  have ha : (Deque.apply (rest ++ [b]) (.mergeBack s)) = rest ++ [b.append s] := by
    simp [Deque.apply]
  rw [ha] at hc hb
  refine ⟨by simpa using hc, ?_, ?_⟩
  · intro i c hi hlt
    simp only [List.length_append, List.length_singleton] at hlt
    rw [List.getElem?_append_left (by omega)] at hi
    exact hb i c (by rw [List.getElem?_append_left (by omega)]; exact hi)
  · intro c hcl
    simp only [List.getLast?_append, List.getLast?_singleton, Option.some_or, Option.some.injEq] at hcl
    subst hcl
    simp only [List.length_append, List.length_singleton, Nat.add_sub_cancel]
    exact hb rest.length (b.append s) (by simp)

/-- C08 (static mode), `merge_front`. -/
theorem C08_static_merge_front {maxSize maxNum : Nat} (hS : 0 < maxSize) (hN : 0 < maxNum)
    {st st' : SBuf} {b : Blk} {q : Deque} {s : Nat} {ptr : Option Nat}
    (h : SReach maxSize maxNum st (b :: q))
    (e : st.step (.mergeFront s) = some (st', Err.SUCCESS, ptr)) :
    st'.count = q.length + 1 ∧
    (∀ (i : Nat) c, q[i]? = some c → st'.Shows (i + 1) c.data c.consumed) ∧
    st'.Shows 0 (b.data ++ List.replicate s none) b.consumed := by
  have h' := SReach.step h (by trivial) e
  rw [if_pos rfl] at h'
  obtain ⟨hc, hb⟩ := C06_static_deque hS hN h'
  refine ⟨by simpa [Deque.apply] using hc, ?_, hb 0 (b.append s) (by simp [Deque.apply])⟩
  intro i c hi
  exact hb (i + 1) c (by simpa [Deque.apply] using hi)

/-- C08 (static mode): the address handed out by a successful merge of `s > 0`
bytes into a non-empty manager is the first byte behind the old payload. -/
theorem C08_static_merge_pointer {maxSize maxNum : Nat} (hS : 0 < maxSize) (hN : 0 < maxNum)
    {st st' : SBuf} {q : Deque} {s : Nat} {ptr : Option Nat} (h : SReach maxSize maxNum st q)
    (hs : 0 < s) (hq : q ≠ []) :
    (st.step (.mergeBack s) = some (st', Err.SUCCESS, ptr) →
      ∃ p hd cells, st'.block (q.length - 1) = some (p, hd, cells) ∧
        ptr = some (hd.ptr + (hd.size - s))) ∧
    (st.step (.mergeFront s) = some (st', Err.SUCCESS, ptr) →
      ∃ p hd cells, st'.block 0 = some (p, hd, cells) ∧ ptr = some (hd.ptr + (hd.size - s))) := by
  obtain ⟨bs, hg⟩ := sreach_good hS hN h
  have hql : bs.length = q.length := by rw [← hg.abs]; simp
  have hbs : bs ≠ [] := by rintro rfl; exact hq (by rw [← hg.abs]; rfl)
  refine ⟨fun e => ?_, fun e => ?_⟩
  · obtain ⟨st2, r2, ptr2, bs2, e2, hg2, hp, _⟩ := good_step hS hN (.mergeBack s) hg trivial
    rw [e] at e2
    simp only [Option.some.injEq, Prod.mk.injEq] at e2
    obtain ⟨rfl, rfl, rfl⟩ := e2
    obtain ⟨o, b, ho, hb, hptr⟩ := hp rfl hbs hs
    refine ⟨_, _, _, block_of hg2.inv (by rw [← hql]; exact hb), ?_⟩
    have h2 := hg2.abs
    rcases List.eq_nil_or_concat bs with rfl | ⟨rest, o', rfl⟩
    · exact absurd rfl hbs
    rw [List.concat_eq_append] at *
    simp only [List.getLast?_append, List.getLast?_singleton, Option.some_or, Option.some.injEq] at ho
    subst ho
    rw [if_pos rfl, ← hg.abs] at h2
    have h3 : (bs2.map PB.toBlk)[rest.length]? = some (o'.toBlk.append s) := by
      rw [h2]; simp [Deque.apply]
    simp only [List.length_append, List.length_singleton, Nat.add_sub_cancel] at hb
    rw [List.getElem?_map, hb] at h3
    simp only [Option.map_some, Option.some.injEq] at h3
    have h4 := congrArg (fun b => b.data.length) h3
    simp only [PB.toBlk, Blk.append, List.length_append, List.length_replicate] at h4
    rw [hptr]
    simp only [PB.hdr, h4]
    congr 1; omega
  · obtain ⟨st2, r2, ptr2, bs2, e2, hg2, hp, _⟩ := good_step hS hN (.mergeFront s) hg trivial
    rw [e] at e2
    simp only [Option.some.injEq, Prod.mk.injEq] at e2
    obtain ⟨rfl, rfl, rfl⟩ := e2
    obtain ⟨o, b, ho, hb, hptr⟩ := hp rfl hbs hs
    refine ⟨_, _, _, block_of hg2.inv hb, ?_⟩
    have h2 := hg2.abs
    rcases bs with _ | ⟨o', rest⟩
    · exact absurd rfl hbs
    simp only [List.getElem?_cons_zero, Option.some.injEq] at ho
    subst ho
    rw [if_pos rfl, ← hg.abs] at h2
    have h3 : (bs2.map PB.toBlk)[0]? = some (o'.toBlk.append s) := by
      rw [h2]; simp [Deque.apply]
    rw [List.getElem?_map, hb] at h3
    simp only [Option.map_some, Option.some.injEq] at h3
    have h4 := congrArg (fun b => b.data.length) h3
    simp only [PB.toBlk, Blk.append, List.length_append, List.length_replicate] at h4
    rw [hptr]
    simp only [PB.hdr, h4]
    congr 1; omega

/-! ### C09 drained ring -/

/-- C09: whatever happened before, once everything has been popped a push is
accepted or refused exactly as by a freshly configured manager. -/
theorem C09_drained_like_fresh {maxSize maxNum : Nat} (hS : 0 < maxSize) (hN : 0 < maxNum)
    {st : SBuf} (h : SReach maxSize maxNum st []) (op : Op)
    (hop : ∃ s, op = .pushBack s ∨ op = .pushFront s ∨ op = .mergeBack s ∨ op = .mergeFront s) :
    (st.step op).map (fun x => x.2) = ((setMode maxSize maxNum).step op).map (fun x => x.2) := by
  obtain ⟨bs, hg⟩ := sreach_good hS hN h
  have hbs : bs = [] := by simpa using hg.abs
  subst hbs
  have hc := hg.cnt
  obtain ⟨hc1, hc2⟩ := counted_abs hc
  have hc1 : st.costNum = 0 := by simpa using hc1
  have hc2 : st.costSize = 0 := by simpa [Deque.unread] using hc2
  rcases hg.inv with ⟨hb, _⟩ | ⟨-, hh, ht, hn, h0⟩
  · exact absurd rfl hb
  have fb' : ∀ (st : SBuf) (s : Nat), st.head = 0 → st.tail = 0 → 2 ≤ st.idx.length →
      (st.idx[0]? = some none ∨ st.idx[0]? = some (some 0)) → st.limNum = maxNum →
      st.limSize = maxSize → st.size = padding (maxSize + 16) → st.costNum = 0 → st.costSize = 0 →
      (st.pushBack s).map (fun x => x.2) =
        if maxSize < s then some (Err.BUFF_LIMIT, none)
        else if full s ≤ padding (maxSize + 16) then some (Err.SUCCESS, some (32))
        else some (Err.BUFF_LIMIT, none) := by
    intro st s a1 a2 a3 a4 a5 a6 a7 a8 a9
    simp only [SBuf.pushBack, a5, a6, a8, a9]
    rw [if_neg (by omega)]
    by_cases c : maxSize < s
    · rw [if_pos (by omega), if_pos c]; rfl
    · rw [if_neg (by omega), if_neg c, addCost_snd, empty_pushBack a1 a2 a3 a4, a7]
  have ff' : ∀ (st : SBuf) (s : Nat), st.head = 0 → st.tail = 0 → 2 ≤ st.idx.length →
      (st.idx[0]? = some none ∨ st.idx[0]? = some (some 0)) → st.limNum = maxNum →
      st.limSize = maxSize → st.size = padding (maxSize + 16) → st.costNum = 0 → st.costSize = 0 →
      (st.pushFront s).map (fun x => x.2) =
        if maxSize < s then some (Err.BUFF_LIMIT, none)
        else if full s < padding (maxSize + 16) then some (Err.SUCCESS, some (padding (maxSize + 16) - full s + 32))
        else some (Err.BUFF_LIMIT, none) := by
    intro st s a1 a2 a3 a4 a5 a6 a7 a8 a9
    simp only [SBuf.pushFront, a5, a6, a8, a9]
    rw [if_neg (by omega)]
    by_cases c : maxSize < s
    · rw [if_pos (by omega), if_pos c]; rfl
    · rw [if_neg (by omega), if_neg c, addCost_snd, empty_pushFront a1 a2 a3 a4, a7]
  have fb : ∀ s, (st.pushBack s).map (fun x => x.2) =
      ((setMode maxSize maxNum).pushBack s).map (fun x => x.2) := fun s => by
    rw [fb' st s hh ht hn h0 hg.ln hg.ls hg.size hc1 hc2,
      fb' _ s rfl rfl (by simp [setMode]; omega) (Or.inl (by simp [setMode])) rfl rfl rfl rfl rfl]
  have ff : ∀ s, (st.pushFront s).map (fun x => x.2) =
      ((setMode maxSize maxNum).pushFront s).map (fun x => x.2) := fun s => by
    rw [ff' st s hh ht hn h0 hg.ln hg.ls hg.size hc1 hc2,
      ff' _ s rfl rfl (by simp [setMode]; omega) (Or.inl (by simp [setMode])) rfl rfl rfl rfl rfl]
  obtain ⟨s, rfl | rfl | rfl | rfl⟩ := hop
  · exact fb s
  · exact ff s
  · simp only [SBuf.step, SBuf.mergeBack, hh, ht, if_true, show (setMode maxSize maxNum).head = (setMode maxSize maxNum).tail from rfl]
    exact fb s
  · simp only [SBuf.step, SBuf.mergeFront, hh, ht, if_true, show (setMode maxSize maxNum).head = (setMode maxSize maxNum).tail from rfl]
    exact ff s

/-- A used and drained ring. -/
example : ∃ st, SReach 64 2 st [] ∧ st.idx[0]? = some (some 0) := by
  have h0 : SReach 64 2 _ _ := .init
  have h1 := SReach.step (op := .pushBack 3) h0 trivial rfl
  have h2 := SReach.step (op := .popFront 3 true) h1 trivial rfl
  exact ⟨_, h2, rfl⟩

/-! ### C10 sizes near 2^64 -/

/-- C10 is false as stated: a dynamic-mode push of 2^64 - 1 bytes on a manager
without limits reports success after allocating 32 bytes (the size computation
wraps around). -/
theorem C10_huge_push_false : Size64.push 0 0 0 0 (2 ^ 64 - 1) = some 32 := by decide

/-- C10, what holds: a successful push of at most 2^64 - 48 bytes allocates room
for header and payload.  Missing: larger sizes. -/
theorem C10_push_allocates_partial {costNum costSize limNum limSize s n : Nat}
    (hs : s + 48 ≤ 2 ^ 64) (h : Size64.push costNum costSize limNum limSize s = some n) :
    s + headSize ≤ n := by
  simp only [Size64.push] at h
  split at h
  · simp only [Nat.lt_irrefl, gt_iff_lt, if_false, Option.some.injEq] at h
    subst h
    simp only [Size64.full, Size64.padding, headSize, W64]
    split <;> omega
  · simp at h

/-- C10 with limits: on an empty manager with a size limit of at most
2^64 - 48 every successful push is sound. -/
theorem C10_limited_push_partial {limNum limSize s n : Nat} (hs : s < 2 ^ 64)
    (h0 : 0 < limSize) (hl : limSize + 48 ≤ 2 ^ 64)
    (h : Size64.push 0 0 limNum limSize s = some n) : s + headSize ≤ n := by
  refine C10_push_allocates_partial ?_ h
  unfold Size64.push at h
  split at h
  · rename_i hh
    simp only [Size64.limitOk, Bool.and_eq_true, Bool.not_eq_true', Bool.and_eq_false_iff, decide_eq_false_iff_not,
      Nat.zero_add, W64, Nat.mod_eq_of_lt hs] at hh
    omega
  · simp at h

example : Size64.push 3 100 10 5000 77 = some 112 := by decide

end Verif.Buffer
