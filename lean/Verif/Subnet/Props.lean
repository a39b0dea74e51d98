import Verif.Subnet.Table

/-! Property theorems C28 – C33. -/
namespace Verif.Subnet

theorem Rng.Valid.block {r : Rng} (h : r.Valid) : r.Block := by
  obtain ⟨p, m, hp, e⟩ := h; exact mk_block hp e

/-! ### C28 -/

/-- Mask widths up to 30: all ways to ask agree and describe the ids that share
the bits above the mask with the prefix.  Missing: widths 31..63, see
`C28_wide_mask_false`. -/
theorem C28_range_partial (p m : Nat) (hp : p < 2 ^ 64) (hm : m ≤ 30) :
    ∃ r, Rng.mk? p m = some r ∧ r.mask = m ∧
      (∀ id, r.contain id = true ↔ id ≠ 0 ∧ id >>> m = p >>> m) ∧
      (∀ id, r.min ≤ id ∧ id ≤ r.max ↔ id >>> m = p >>> m) ∧ r.min ≤ r.max ∧ r.max < 2 ^ 64 ∧
      (∀ id, containConf p m id = some (r.contain id)) ∧
      childrenMin p m = some r.min ∧ childrenMax p m = some r.max ∧
      (∀ parent id, parent ≠ id → id ≠ 0 → (p ≠ 0 ∨ parent = 0) →
        isChildStatic parent p m id = some (r.contain id)) := by
  have hmk := mk_eq (p := p) hm
  have hb := mk_block hp hmk
  refine ⟨_, hmk, rfl, ?_⟩
  generalize hr : (Rng.mk (p / 2 ^ m * 2 ^ m) (p / 2 ^ m * 2 ^ m + (2 ^ m - 1)) m) = r at hb
  have hmask : r.mask = m := by rw [← hr]
  have hmin : r.min = p / 2 ^ m * 2 ^ m := by rw [← hr]
  have hmax : r.max = p / 2 ^ m * 2 ^ m + (2 ^ m - 1) := by rw [← hr]
  have hpos : 0 < 2 ^ m := Nat.two_pow_pos m
  have hhas : ∀ id, r.Has id ↔ id >>> m = p >>> m := by
    intro id
    rw [hb.has_iff, hmask, hmin, Nat.mul_div_cancel _ hpos, Nat.shiftRight_eq_div_pow,
      Nat.shiftRight_eq_div_pow]
  have hlo : childrenMin p m = some r.min := by
    simp only [childrenMin, if_pos (show m < 64 by omega), and_mask hp (show m < 64 by omega), hmin]
  have hhi : childrenMax p m = some r.max := by
    simp only [childrenMax, if_pos (show m < 64 by omega), or_mask, hmax]
  refine ⟨fun id => ?_, hhas, hb.le, hb.lt, fun id => ?_, hlo, hhi, fun parent id h1 h2 h3 => ?_⟩
  · rw [contain_iff, hhas]
  · unfold containConf
    split
    · rename_i h; simp [Rng.contain, h]
    · rename_i h
      simp only [intMask, if_pos hm, or_mask]
      congr 1
      rw [Bool.eq_iff_iff, contain_iff, hhas, decide_eq_true_eq, Nat.shiftRight_eq_div_pow,
        Nat.shiftRight_eq_div_pow]
      constructor
      · intro e
        refine ⟨h, (Nat.eq_of_mul_eq_mul_right hpos ?_).symm⟩
        omega
      · rintro ⟨_, e⟩; rw [e]
  · have hpp : (if p = 0 then parent else p) = p := by
      split
      · rename_i h; omega
      · rfl
    simp only [isChildStatic, hpp, hlo, hhi]
    congr 1
    rw [Bool.eq_iff_iff, contain_iff]
    simp only [Bool.and_eq_true, decide_eq_true_eq, Rng.Has]
    constructor
    · rintro ⟨⟨_, a⟩, b⟩; exact ⟨h2, a, b⟩
    · rintro ⟨_, a, b⟩; exact ⟨⟨h1, a⟩, b⟩

example : ∃ r, Rng.mk? 0x12345678 16 = some r ∧ r.min = 0x12340000 ∧ r.max = 0x1234FFFF :=
  ⟨_, rfl, by decide, by decide⟩

/-- The reported child id bounds are right for every mask width 0..63. -/
theorem C28_children_bounds (p m : Nat) (hp : p < 2 ^ 64) (hm : m < 64) :
    ∃ lo hi, childrenMin p m = some lo ∧ childrenMax p m = some hi ∧
      ∀ id, lo ≤ id ∧ id ≤ hi ↔ id >>> m = p >>> m := by
  have hpos : 0 < 2 ^ m := Nat.two_pow_pos m
  refine ⟨_, _, if_pos hm, if_pos hm, fun id => ?_⟩
  rw [and_mask hp hm, or_mask, Nat.shiftRight_eq_div_pow, Nat.shiftRight_eq_div_pow]
  have h1 := Nat.div_add_mod id (2 ^ m)
  have h2 := Nat.mod_lt id hpos
  rw [Nat.mul_comm] at h1
  constructor
  · rintro ⟨a, b⟩
    exact Nat.div_eq_of_lt_le a (by rw [Nat.add_mul]; omega)
  · intro e
    rw [e] at h1
    omega

example : ∃ lo hi, childrenMin 0xF000000000000001 40 = some lo ∧
    childrenMax 0xF000000000000001 40 = some hi ∧ lo = 0xF000000000000000 ∧ hi = 0xF00000FFFFFFFFFF :=
  ⟨_, _, rfl, rfl, by decide, by decide⟩

/-- A range contains another exactly when it has all its ids. -/
theorem C28_contain_range (a b : Rng) (hb : b.min ≤ b.max) :
    a.containRng b = true ↔ ∀ id, b.min ≤ id ∧ id ≤ b.max → a.min ≤ id ∧ id ≤ a.max := by
  simp only [Rng.containRng, Bool.and_eq_true, decide_eq_true_eq]
  constructor
  · rintro ⟨h1, h2⟩ id ⟨h3, h4⟩; omega
  · intro h
    have h1 := h b.min ⟨Nat.le_refl _, hb⟩
    have h2 := h b.max ⟨hb, Nat.le_refl _⟩
    exact ⟨h2.2, h1.1⟩

example : Rng.containRng ⟨8, 15, 3⟩ ⟨12, 15, 2⟩ = true ∧ Rng.containRng ⟨12, 15, 2⟩ ⟨8, 15, 3⟩ = false ∧
    Rng.containRng ⟨8, 15, 3⟩ ⟨16, 19, 2⟩ = false := by decide

/-- For every mask width from 31 on, constructing the range and the static
membership test leave the defined `int` arithmetic, whatever the prefix. -/
theorem C28_wide_mask_false (p m id : Nat) (hm : 31 ≤ m) (hid : id ≠ 0) :
    Rng.mk? p m = none ∧ containConf p m id = none := by
  refine ⟨mk_none (by omega), ?_⟩
  simp [containConf, hid, intMask, show ¬ m ≤ 30 by omega]

example : Rng.mk? 0x1000000000 36 = none := rfl

/-! ### C29 -/

/-- Normalising preserves the covered id set, orders by largest id, and yields
ranges again; for lists without overlap the result has no overlap and no two
entries that could still be joined.  Missing: absence of overlap for lists
that contain nested entries, see `C29_no_overlap_false`; lists of more than
2^31 ids in total, see `C29_defined_false`. -/
theorem C29_merge_partial (l l' : List Rng) (hv : ∀ r ∈ l, r.Valid) (e : mergeSubnets l = some l') :
    (∀ id, Covers l' id ↔ Covers l id) ∧
    l'.Pairwise (fun a b => a.max ≤ b.max) ∧
    (l.Pairwise Rng.Disj → l'.Pairwise (fun a b => a.max < b.min) ∧
      ∀ a ∈ l', ∀ b ∈ l', ¬ ∃ k, b.min = 2 * k * 2 ^ b.mask ∧ a.mask = b.mask ∧ a.min = b.max + 1) := by
  obtain ⟨_, h2, h3, _, h5⟩ := mergeSubnets_ok (fun r hr => (hv r hr).block) e
  refine ⟨h2, h3, fun hd => ⟨(h5 hd).1, ?_⟩⟩
  rintro a ha b hb ⟨k, h6, h7, h8⟩
  refine (h5 hd).2 a ha b hb ⟨h7, h8, ?_⟩
  rw [h6, Nat.pow_succ, Nat.mul_comm 2 k, Nat.mul_assoc, Nat.mul_comm 2, Nat.mul_mod_left]

/-- The order of the input does not matter for the covered set, and no range is
lost: every input range lies inside the union of the output. -/
theorem C29_merge_perm (l₁ l₂ o₁ o₂ : List Rng) (hv : ∀ r ∈ l₁, r.Valid) (hp : l₁.Perm l₂)
    (e₁ : mergeSubnets l₁ = some o₁) (e₂ : mergeSubnets l₂ = some o₂) :
    ∀ id, Covers o₁ id ↔ Covers o₂ id := by
  intro id
  rw [(C29_merge_partial l₁ o₁ hv e₁).1,
    (C29_merge_partial l₂ o₂ (fun r hr => hv r (hp.mem_iff.2 hr)) e₂).1]
  exact covers_congr (fun r => hp.mem_iff) id

/-- The result is defined when the ids listed (with repetition) number less
than 2^31. -/
theorem C29_merge_defined_partial (l : List Rng) (hv : ∀ r ∈ l, r.Valid)
    (ht : (l.map fun r => 2 ^ r.mask).sum < 2 ^ 31) : ∃ l', mergeSubnets l = some l' :=
  mergeSubnets_def (fun r hr => (hv r hr).block) ht

example : mergeSubnets [⟨2, 2, 0⟩, ⟨0, 1, 1⟩, ⟨3, 3, 0⟩, ⟨8, 15, 3⟩] = some [⟨0, 3, 2⟩, ⟨8, 15, 3⟩] := by
  simp [mergeSubnets, sortRng, insertRng, Rng.lt, mergeLoop, pushRng, collapse, Rng.mk?, intMask, W64]

example : Rng.Valid ⟨8, 15, 3⟩ := ⟨8, 3, by decide, rfl⟩

/-- Two adjacent subnets of 30 bits: joining them runs into the undefined shift. -/
theorem C29_defined_false :
    Rng.Valid ⟨0, 1073741823, 30⟩ ∧ Rng.Valid ⟨1073741824, 2147483647, 30⟩ ∧
    mergeSubnets [⟨0, 1073741823, 30⟩, ⟨1073741824, 2147483647, 30⟩] = none := by
  refine ⟨⟨0, 30, by decide, rfl⟩, ⟨1073741824, 30, by decide, rfl⟩, ?_⟩
  simp [mergeSubnets, sortRng, insertRng, Rng.lt, mergeLoop, pushRng, collapse, Rng.mk?, intMask, W64]

/-- Nested input: the result still has overlapping entries. -/
theorem C29_no_overlap_false :
    mergeSubnets [⟨1, 1, 0⟩, ⟨3, 3, 0⟩, ⟨0, 3, 2⟩] = some [⟨1, 1, 0⟩, ⟨0, 3, 2⟩] ∧
    Overlap ⟨1, 1, 0⟩ ⟨0, 3, 2⟩ ∧ Rng.Valid ⟨1, 1, 0⟩ ∧ Rng.Valid ⟨3, 3, 0⟩ ∧ Rng.Valid ⟨0, 3, 2⟩ := by
  refine ⟨?_, ⟨1, ⟨by decide, by decide⟩, ⟨by decide, by decide⟩⟩, ⟨1, 0, by decide, rfl⟩, ⟨3, 0, by decide, rfl⟩, ⟨0, 2, by decide, rfl⟩⟩
  simp [mergeSubnets, sortRng, insertRng, Rng.lt, mergeLoop, pushRng, collapse, W64]

/-- Duplicated ids can leave a nested entry after the larger one, so the output
is not in the order of `operator<`. -/
theorem C29_order_false :
    mergeSubnets [⟨0, 0, 0⟩, ⟨1, 1, 0⟩, ⟨2, 2, 0⟩, ⟨3, 3, 0⟩, ⟨2, 3, 1⟩] = some [⟨0, 3, 2⟩, ⟨2, 3, 1⟩] ∧
    Rng.lt ⟨2, 3, 1⟩ ⟨0, 3, 2⟩ = true := by
  refine ⟨?_, by decide⟩
  simp [mergeSubnets, sortRng, insertRng, Rng.lt, mergeLoop, pushRng, collapse, Rng.mk?, intMask, W64]

/-- The subnet list an endpoint gets at creation covers its own id and exactly
the configured subnets (prefix 0 stands for its own id). -/
theorem C29_create_covers (id : Nat) (confs : List (Nat × Nat)) (l : List Rng) (hid : id < 2 ^ 64)
    (hc : ∀ c ∈ confs, c.1 < 2 ^ 64) (e : createSubnets id confs = some l) :
    ∀ x, Covers l x ↔ x = id ∨
      ∃ c ∈ confs, x >>> c.2 = (if c.1 = 0 then id else c.1) >>> c.2 := by
  intro x
  simp only [Nat.shiftRight_eq_div_pow]
  exact (createSubnets_ok hid hc e).2.2 x

example : createSubnets 0x101 [(0, 4), (0x200, 8)] = some [⟨0x100, 0x10f, 4⟩, ⟨0x200, 0x2ff, 8⟩] := by
  decide +kernel

/-! ### C30 -/

/-- Soundness, for all lists: a positive answer means that every id of the
second list is an id of the first. -/
theorem C30_contain_sound (parent child : List Rng) (h : containList parent child = true) :
    ∀ id, Covers child id → Covers parent id := by
  rintro id ⟨c, hc, h1, h2⟩
  obtain ⟨p, hp, h3, h4⟩ := containList_iff.1 h c hc
  rw [contain_iff] at h3 h4
  obtain ⟨_, h3, _⟩ := h3
  obtain ⟨_, _, h4⟩ := h4
  exact ⟨p, hp, by omega, by omega⟩

/-- Soundness of the variant that takes configurations. -/
theorem C30_contain_confs_sound (parent : List Rng) (child : List (Nat × Nat))
    (hv : ∀ r ∈ parent, r.Valid) (h : containConfs parent child = true) :
    ∀ id, (∃ c ∈ child, id >>> c.2 = c.1 >>> c.2) → Covers parent id := by
  rintro id ⟨c, hc, he⟩
  rw [Nat.shiftRight_eq_div_pow, Nat.shiftRight_eq_div_pow] at he
  unfold containConfs at h
  split at h
  · simp at h
  · rw [List.all_eq_true] at h
    have := h c hc
    rw [List.any_eq_true] at this
    obtain ⟨p, hp, hh⟩ := this
    simp only [Bool.and_eq_true, decide_eq_true_eq, contain_iff] at hh
    exact ⟨p, hp, (hv p hp).block.has_of_div hh.2 he.symm hh.1.2⟩

/-- Completeness for parents normalised from a list without overlap and
children that do not start at id 0.  Missing: parents normalised from nested
lists and children that start at 0, see the two `_false` theorems. -/
theorem C30_contain_complete_partial (l parent child : List Rng) (hl : ∀ r ∈ l, r.Valid)
    (hd : l.Pairwise Rng.Disj) (hm : mergeSubnets l = some parent) (hc : ∀ r ∈ child, r.Valid)
    (h0 : ∀ r ∈ child, r.min ≠ 0) :
    containList parent child = true ↔ ∀ id, Covers child id → Covers parent id := by
  refine ⟨C30_contain_sound parent child, fun hcov => ?_⟩
  obtain ⟨hb, _, _, _, h5⟩ := mergeSubnets_ok (fun r hr => (hl r hr).block) hm
  obtain ⟨h6, h7⟩ := h5 hd
  rw [containList_iff]
  intro c hcm
  have hcb := (hc c hcm).block
  obtain ⟨p, hp, h8, h9⟩ := covered_inside hb h6 h7 hcb (fun id hid => hcov id ⟨c, hcm, hid⟩)
  have h10 := h0 c hcm
  have h11 := hcb.le
  exact ⟨p, hp, contain_iff.2 ⟨h10, h8, by omega⟩, contain_iff.2 ⟨by omega, by omega, h9⟩⟩

example : (∃ p, mergeSubnets [⟨8, 11, 2⟩, ⟨12, 15, 2⟩] = some p ∧ containList p [⟨10, 11, 1⟩, ⟨8, 15, 3⟩] = true) :=
  ⟨[⟨8, 15, 3⟩], by
    simp [mergeSubnets, sortRng, insertRng, Rng.lt, mergeLoop, pushRng, collapse, Rng.mk?, intMask, W64],
    by decide⟩

/-- A child range that starts at id 0 is never contained, not even in itself. -/
theorem C30_zero_start_false :
    Rng.Valid ⟨0, 3, 2⟩ ∧ containList [⟨0, 3, 2⟩] [⟨0, 3, 2⟩] = false :=
  ⟨⟨0, 2, by decide, rfl⟩, by decide⟩

/-- A parent normalised from a nested list: all ids of the child belong to the
parent, the answer is no. -/
theorem C30_nested_false :
    ∃ parent, mergeSubnets [⟨8, 11, 2⟩, ⟨13, 13, 0⟩, ⟨15, 15, 0⟩, ⟨12, 15, 2⟩] = some parent ∧
      (∀ id, Covers [⟨8, 15, 3⟩] id → Covers parent id) ∧ containList parent [⟨8, 15, 3⟩] = false := by
  refine ⟨[⟨8, 11, 2⟩, ⟨13, 13, 0⟩, ⟨12, 15, 2⟩], ?_, ?_, by decide⟩
  · simp [mergeSubnets, sortRng, insertRng, Rng.lt, mergeLoop, pushRng, collapse, W64]
  · rintro id ⟨r, hr, h1, h2⟩
    simp only [List.mem_singleton] at hr
    subst hr
    simp only at h1 h2
    by_cases h : id ≤ 11
    · exact ⟨⟨8, 11, 2⟩, by simp, h1, h⟩
    · exact ⟨⟨12, 15, 2⟩, by simp, by simp only; omega, h2⟩

/-- Membership of one id in a list, as the API asks it. -/
theorem C30_contain_id (l : List Rng) (id : Nat) : containIn l id = true ↔ id ≠ 0 ∧ Covers l id := by
  unfold containIn
  split
  · rename_i h
    rcases h with h | h
    · subst h; simp [Covers]
    · simp [h]
  · rename_i h
    rw [List.any_eq_true]
    simp only [contain_iff]
    constructor
    · rintro ⟨r, h1, h2, h3⟩; exact ⟨h2, r, h1, h3⟩
    · rintro ⟨h1, r, h2, h3⟩; exact ⟨r, h2, h1, h3⟩

example : containIn [⟨8, 11, 2⟩, ⟨16, 31, 4⟩] 20 = true ∧ containIn [⟨8, 11, 2⟩, ⟨16, 31, 4⟩] 12 = false := by
  decide

/-! ### Route table: C31, C32, C33 -/

theorem hist_step {t : Table} {reg : List Ep} (h : Sim t reg) {op : Op} (hl : Legal reg op)
    {reg' : List Ep} {b : Bool} (hs : SpecStep reg op (reg', b)) :
    Sim (step t op).1 reg' ∧ (step t op).2 = b := by
  cases op with
  | add ep =>
    obtain ⟨hw, h0⟩ := hl
    have hci := checkConflict_iff h hw h0
    unfold step insertChild
    simp only
    rcases hs with ⟨hs, e⟩ | ⟨hs, e⟩
    · simp only [Prod.mk.injEq] at e
      obtain ⟨rfl, rfl⟩ := e
      rw [if_pos (hci.2 hs)]
      exact ⟨h, rfl⟩
    · simp only [Prod.mk.injEq] at e
      obtain ⟨rfl, rfl⟩ := e
      rw [if_neg (fun hh => hs (hci.1 hh))]
      exact ⟨sim_add h hw hs, rfl⟩
  | remove id x =>
    unfold step removeChild
    simp only
    have hlb : ∀ y, lowerBound t id = some y → y.2 ∈ reg := by
      intro y hy
      exact ((h.mem y).1 (lowerBound_some h.proper hy).1).1
    have hself : ∀ e ∈ reg, e.id = id → ∃ r, lowerBound t id = some (r, e) := by
      intro e he hid
      obtain ⟨r, h1, _⟩ := lowerBound_of_covers h he (hid ▸ (h.wf e he).self)
      exact ⟨r, h1⟩
    rcases hs with ⟨e, he, hid, hx, e1⟩ | ⟨hno, e1⟩
    · simp only [Prod.mk.injEq] at e1
      obtain ⟨rfl, rfl⟩ := e1
      obtain ⟨r, hr⟩ := hself e he hid
      rw [hr]
      simp only
      rw [if_neg (by simp [hid]), if_neg (by rcases hx with hx | hx <;> simp [hx])]
      exact ⟨sim_remove h he, rfl⟩
    · simp only [Prod.mk.injEq] at e1
      obtain ⟨rfl, rfl⟩ := e1
      split
      · exact ⟨h, rfl⟩
      · rename_i y hy
        have hym := hlb y hy
        split
        · exact ⟨h, rfl⟩
        · rename_i hyid
          split
          · exact ⟨h, rfl⟩
          · rename_i hyx
            exfalso
            refine hno ⟨y.2, hym, by omega, ?_⟩
            cases x with
            | none => exact Or.inl rfl
            | some v =>
              right
              simp only [Option.any_some, ne_eq, decide_not, Bool.not_eq_eq_eq_not, Bool.not_true,
                decide_eq_false_iff_not, Decidable.not_not] at hyx
              rw [hyx]

theorem hist_sim {t : Table} {reg : List Ep} (h : Hist t reg) : Sim t reg := by
  induction h with
  | init => exact ⟨by simp [Sorted], by simp [Proper], by simp, by simp, by simp⟩
  | step _ hl hs ih => exact (hist_step ih hl hs).1

/-- After any legal history, looking up a non-zero id returns the registered
endpoint that covers it and nothing if there is none. -/
theorem C31_route_partial (t : Table) (reg : List Ep) (h : Hist t reg) (id : Nat) (hid : id ≠ 0) :
    (∀ e, findRoute t id = some e ↔ e ∈ reg ∧ Covers e.subnets id) ∧
    (findRoute t id = none ↔ ¬ ∃ e ∈ reg, Covers e.subnets id) := by
  have hs := hist_sim h
  refine ⟨fun e => findRoute_iff hs hid, ?_⟩
  cases hf : findRoute t id with
  | none =>
    simp only [true_iff]
    rintro ⟨e, h1, h2⟩
    rw [(findRoute_iff hs hid).2 ⟨h1, h2⟩] at hf
    simp at hf
  | some e =>
    simp only [reduceCtorEq, false_iff, Classical.not_not]
    exact ⟨e, (findRoute_iff hs hid).1 hf⟩

/-- Id 0 is found only if an endpoint has it as its own id. -/
theorem C31_route_zero_partial (t : Table) (reg : List Ep) (h : Hist t reg) (e : Ep) :
    findRoute t 0 = some e ↔ e ∈ reg ∧ e.id = 0 := findRoute_zero (hist_sim h)

/-- Without any assumption on the history: whatever lookup returns is in the
table, and owns a range of the table that covers the id or has the id itself. -/
theorem C31_route_sound (t : Table) (id : Nat) (e : Ep) (h : findRoute t id = some e) :
    ∃ r, (r, e) ∈ t ∧ (e.id = id ∨ r.Has id) := by
  unfold findRoute at h
  split at h
  · simp at h
  · rename_i x hx
    have hm := List.mem_of_find?_eq_some hx
    split at h
    · rename_i hxi
      simp only [Option.some.injEq] at h
      subst h; exact ⟨x.1, hm, Or.inl hxi⟩
    · split at h
      · rename_i hc
        simp only [Option.some.injEq] at h
        subst h; exact ⟨x.1, hm, Or.inr (contain_iff.1 hc).2⟩
      · simp at h

/-- An endpoint created with nested subnets: it owns id 12, lookup finds
nothing. -/
theorem C31_route_false :
    ∃ l, createSubnets 13 [(13, 0), (15, 0), (8, 3)] = some l ∧ Covers l 12 ∧
      (step [] (.add ⟨0, 13, l⟩)).2 = true ∧ findRoute (step [] (.add ⟨0, 13, l⟩)).1 12 = none := by
  refine ⟨[⟨13, 13, 0⟩, ⟨8, 15, 3⟩], by decide +kernel, ⟨⟨8, 15, 3⟩, by simp, by decide, by decide⟩, ?_, ?_⟩
  · decide
  · decide

/-- After any legal history an endpoint is accepted exactly when it shares no
id with a registered one; a refused call leaves the table unchanged. -/
theorem C32_conflict_partial (t : Table) (reg : List Ep) (h : Hist t reg) (ep : Ep)
    (hl : Legal reg (.add ep)) :
    ((step t (.add ep)).2 = true ↔ ¬ ∃ e ∈ reg, ∃ id, Covers e.subnets id ∧ Covers ep.subnets id) ∧
    ((step t (.add ep)).2 = false → (step t (.add ep)).1 = t) := by
  have hs := hist_sim h
  have hci := checkConflict_iff hs hl.1 hl.2
  unfold step insertChild
  simp only
  split
  · rename_i hc
    exact ⟨⟨by simp, fun hn => absurd (hci.1 hc) hn⟩, fun _ => rfl⟩
  · rename_i hc
    exact ⟨⟨fun _ hn => hc (hci.2 hn), fun _ => rfl⟩, by simp⟩

/-- For any table at all, refusal changes nothing, and is justified by a real
overlap whenever the ranges are non-empty. -/
theorem C32_refusal_justified (t : Table) (ep : Ep) (ht : ∀ x ∈ t, x.1.min ≤ x.1.max)
    (he : ∀ r ∈ ep.subnets, r.min ≤ r.max) (h : (step t (.add ep)).2 = false) :
    (step t (.add ep)).1 = t ∧ ∃ x ∈ t, ∃ r ∈ ep.subnets, Overlap x.1 r := by
  unfold step insertChild at *
  simp only at *
  split at h
  · rename_i hc
    rw [if_pos hc]
    refine ⟨rfl, ?_⟩
    unfold checkConflict at hc
    rw [List.any_eq_true] at hc
    obtain ⟨r, hr, hc⟩ := hc
    obtain ⟨x, hx, hov⟩ := conflict1_sound ht (he r hr) hc
    exact ⟨x, hx, r, hr, hov⟩
  · simp at h

example : (step (step [] (.add ⟨0, 9, [⟨8, 15, 3⟩]⟩)).1 (.add ⟨1, 4, [⟨0, 31, 5⟩]⟩)).2 = false := by decide

/-- Two endpoints whose subnets both start at id 0: both are accepted, and the
second takes over the first one's entry. -/
theorem C32_zero_start_false :
    let a : Ep := ⟨0, 1, [⟨0, 3, 2⟩]⟩
    let b : Ep := ⟨1, 2, [⟨0, 3, 2⟩]⟩
    let t1 := (step [] (.add a)).1
    EpOverlap a b ∧ (step [] (.add a)).2 = true ∧ (step t1 (.add b)).2 = true ∧
      findRoute (step t1 (.add b)).1 1 = some b ∧ Rng.Valid ⟨0, 3, 2⟩ := by
  refine ⟨⟨1, ⟨⟨0, 3, 2⟩, by simp, by decide, by decide⟩, ⟨⟨0, 3, 2⟩, by simp, by decide, by decide⟩⟩,
    by decide, by decide, by decide, ⟨0, 2, by decide, rfl⟩⟩

/-- An endpoint with nested subnets in the table: an overlapping endpoint is
accepted. -/
theorem C32_nested_false :
    ∃ l, createSubnets 13 [(13, 0), (15, 0), (8, 3)] = some l ∧
      Overlap ⟨8, 15, 3⟩ ⟨12, 12, 0⟩ ∧ (⟨8, 15, 3⟩ : Rng) ∈ l ∧
      (step (step [] (.add ⟨0, 13, l⟩)).1 (.add ⟨1, 12, [⟨12, 12, 0⟩]⟩)).2 = true := by
  refine ⟨[⟨13, 13, 0⟩, ⟨8, 15, 3⟩], by decide +kernel,
    ⟨12, ⟨by decide, by decide⟩, ⟨by decide, by decide⟩⟩, by simp, by decide⟩

/-- After any legal history the table lists exactly the subnets of the
registered endpoints, in order and without overlap, and no two registered
endpoints share an id. -/
theorem C33_table_partial (t : Table) (reg : List Ep) (h : Hist t reg) :
    (∀ r e, (r, e) ∈ t ↔ e ∈ reg ∧ r ∈ e.subnets) ∧
    t.Pairwise (fun a b => a.1.max < b.1.min) ∧
    (∀ a ∈ reg, ∀ b ∈ reg, ∀ id, Covers a.subnets id → Covers b.subnets id → a = b) := by
  have hs := hist_sim h
  exact ⟨fun r e => hs.mem (r, e), hs.sorted, fun a ha b hb id h1 h2 => hs.sep a ha b hb ⟨id, h1, h2⟩⟩

/-- Ranges that start at 0: two accepted endpoints, one of which has lost its
subnet from the table. -/
theorem C33_table_false :
    let a : Ep := ⟨0, 1, [⟨0, 3, 2⟩]⟩
    let b : Ep := ⟨1, 2, [⟨0, 3, 2⟩]⟩
    let t1 := step [] (.add a)
    let t2 := step t1.1 (.add b)
    t1.2 = true ∧ t2.2 = true ∧ (⟨0, 3, 2⟩, a) ∉ t2.1 := by
  refine ⟨by decide, by decide, by decide⟩

/-- Every legal call returns what the registry specification says: additions
are answered by overlap, removals by the presence of an endpoint with that id
(and that identity, if one is given). -/
theorem C33_results_partial (t : Table) (reg reg' : List Ep) (op : Op) (b : Bool) (h : Hist t reg)
    (hl : Legal reg op) (hs : SpecStep reg op (reg', b)) :
    (step t op).2 = b ∧ Hist (step t op).1 reg' :=
  ⟨(hist_step (hist_sim h) hl hs).2, .step h hl hs⟩

/-- The specification always has a next state, so `Hist` follows every legal
sequence of calls. -/
theorem specStep_total (reg : List Ep) (op : Op) : ∃ res, SpecStep reg op res := by
  cases op with
  | add ep =>
    rcases Classical.em (∃ e ∈ reg, EpOverlap e ep) with h | h
    · exact ⟨_, Or.inl ⟨h, rfl⟩⟩
    · exact ⟨_, Or.inr ⟨h, rfl⟩⟩
  | remove id x =>
    rcases Classical.em (∃ e ∈ reg, e.id = id ∧ (x = none ∨ x = some e.ref)) with h | h
    · obtain ⟨e, h1, h2, h3⟩ := h
      exact ⟨_, Or.inl ⟨e, h1, h2, h3, rfl⟩⟩
    · exact ⟨_, Or.inr ⟨h, rfl⟩⟩

/-- Two endpoints (one with two subnets) registered, one removed again. -/
example :
    let a : Ep := ⟨0, 9, [⟨8, 15, 3⟩, ⟨32, 35, 2⟩]⟩
    let b : Ep := ⟨1, 20, [⟨20, 20, 0⟩]⟩
    ∃ t, Hist t [b] ∧ t = [(⟨20, 20, 0⟩, b)] := by
  intro a b
  have wa : WFEp a := by
    refine ⟨by simp [a], by simp [a, Rng.Disj], ⟨⟨8, 15, 3⟩, by simp [a], by decide, by decide⟩⟩
  have wb : WFEp b := by
    refine ⟨by simp [b], by simp [b], ⟨⟨20, 20, 0⟩, by simp [b], by decide, by decide⟩⟩
  have h0 : Hist [] [] := .init
  have h1 := Hist.step (op := .add a) (reg' := [a]) (b := true) h0 ⟨wa, by simp⟩ (Or.inr ⟨by simp, rfl⟩)
  have h2 := Hist.step (op := .add b) (reg' := [b, a]) (b := true) h1 ⟨wb, by simp [b]⟩ (Or.inr ⟨by
    rintro ⟨e, he, id, ⟨r, hr, h3⟩, ⟨r2, hr2, h4⟩⟩
    simp only [List.mem_singleton] at he
    subst he
    simp only [b, List.mem_singleton] at hr2
    subst hr2
    simp only [a, List.mem_cons, List.not_mem_nil, or_false] at hr
    rcases hr with hr | hr <;> subst hr <;> simp only [Rng.Has] at h3 h4 <;> omega, rfl⟩)
  have h3 := Hist.step (op := .remove 9 none) (reg' := [b]) (b := true) h2 trivial
    (Or.inl ⟨a, by simp, rfl, Or.inl rfl, by simp [a, b]⟩)
  refine ⟨_, h3, ?_⟩
  decide

end Verif.Subnet
