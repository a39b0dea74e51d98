import Verif.Subnet.Spec

namespace Verif.Subnet

/-! ### Masks -/

theorem or_mask (p m : Nat) : p ||| (2 ^ m - 1) = p / 2 ^ m * 2 ^ m + (2 ^ m - 1) := by
  apply Nat.eq_of_testBit_eq
  intro i
  have hpos : 0 < 2 ^ m := Nat.two_pow_pos m
  rw [Nat.mul_comm (p / 2 ^ m), Nat.testBit_two_pow_mul_add _ (by omega : 2 ^ m - 1 < 2 ^ m)]
  rw [Nat.testBit_or, Nat.testBit_two_pow_sub_one]
  split
  · rename_i h; simp [h]
  · rename_i h
    rw [Nat.testBit_div_two_pow]
    simp [h, show i - m + m = i by omega]

theorem and_mask {p m : Nat} (hp : p < 2 ^ 64) (hm : m < 64) :
    p &&& (2 ^ 64 - 1 - (2 ^ m - 1)) = p / 2 ^ m * 2 ^ m := by
  apply Nat.eq_of_testBit_eq
  intro i
  have hpos : 0 < 2 ^ m := Nat.two_pow_pos m
  have hlt : 2 ^ m - 1 < 2 ^ 64 := by
    have := Nat.pow_lt_pow_right (a := 2) (by omega) hm; omega
  have e : 2 ^ 64 - 1 - (2 ^ m - 1) = 2 ^ 64 - ((2 ^ m - 1) + 1) := by omega
  rw [e, Nat.testBit_and, Nat.testBit_two_pow_sub_succ hlt, Nat.testBit_two_pow_sub_one]
  have := Nat.testBit_two_pow_mul_add (p / 2 ^ m) hpos i
  rw [Nat.add_zero] at this
  rw [Nat.mul_comm, this, Nat.testBit_div_two_pow]
  by_cases h : i < m
  · simp [h]
  · simp only [h, if_false, decide_false, Bool.not_false, Bool.and_true,
      show i - m + m = i by omega]
    by_cases h64 : i < 64
    · simp [h64]
    · have : p.testBit i = false := Nat.testBit_lt_two_pow
        (Nat.lt_of_lt_of_le hp (Nat.pow_le_pow_right (by omega) (by omega)))
      simp [this]

/-- An aligned block of `2^mask` ids. -/
structure Rng.Block (r : Rng) : Prop where
  mask : r.mask ≤ 30
  al : ∃ k, r.min = k * 2 ^ r.mask ∧ r.max + 1 = (k + 1) * 2 ^ r.mask
  lt : r.max < 2 ^ 64

theorem mk_eq {p m : Nat} (hm : m ≤ 30) :
    Rng.mk? p m = some ⟨p / 2 ^ m * 2 ^ m, p / 2 ^ m * 2 ^ m + (2 ^ m - 1), m⟩ := by
  simp only [Rng.mk?, intMask, if_pos hm, or_mask]
  simp

theorem mk_none {p m : Nat} (hm : 30 < m) : Rng.mk? p m = none := by
  simp [Rng.mk?, intMask, Nat.not_le.2 hm]

theorem blk_lt {p m : Nat} (hp : p < 2 ^ 64) (hm : m ≤ 30) :
    p / 2 ^ m * 2 ^ m + (2 ^ m - 1) < 2 ^ 64 := by
  have hpos : 0 < 2 ^ m := Nat.two_pow_pos m
  have e : 2 ^ 64 = 2 ^ (64 - m) * 2 ^ m := by rw [← Nat.pow_add]; congr 1; omega
  rw [e] at hp ⊢
  have h1 : p / 2 ^ m < 2 ^ (64 - m) := Nat.div_lt_of_lt_mul (by rw [Nat.mul_comm]; exact hp)
  have h2 : (p / 2 ^ m + 1) * 2 ^ m ≤ 2 ^ (64 - m) * 2 ^ m := Nat.mul_le_mul_right _ h1
  rw [Nat.add_mul] at h2
  omega

theorem mk_block {p m : Nat} {r : Rng} (hp : p < 2 ^ 64) (h : Rng.mk? p m = some r) : r.Block := by
  by_cases hm : m ≤ 30
  · rw [mk_eq hm] at h
    simp only [Option.some.injEq] at h
    subst h
    have hpos : 0 < 2 ^ m := Nat.two_pow_pos m
    refine ⟨hm, ⟨p / 2 ^ m, rfl, ?_⟩, blk_lt hp hm⟩
    simp only [Nat.add_mul, Nat.one_mul]
    omega
  · rw [mk_none (by omega)] at h; simp at h

theorem Rng.Block.le {r : Rng} (h : r.Block) : r.min ≤ r.max := by
  obtain ⟨k, h1, h2⟩ := h.al
  have hpos : 0 < 2 ^ r.mask := Nat.two_pow_pos _
  rw [Nat.add_mul] at h2
  omega

theorem Rng.Block.size {r : Rng} (h : r.Block) : r.max + 1 = r.min + 2 ^ r.mask := by
  obtain ⟨k, h1, h2⟩ := h.al
  rw [Nat.add_mul] at h2
  omega

theorem Rng.Block.minmod {r : Rng} (h : r.Block) : r.min % 2 ^ r.mask = 0 := by
  obtain ⟨k, h1, _⟩ := h.al
  rw [h1, Nat.mul_mod_left]

theorem Rng.Block.has_iff {r : Rng} (h : r.Block) {id : Nat} :
    r.Has id ↔ id / 2 ^ r.mask = r.min / 2 ^ r.mask := by
  obtain ⟨k, h1, h2⟩ := h.al
  have hpos : 0 < 2 ^ r.mask := Nat.two_pow_pos _
  rw [h1, Nat.mul_div_cancel _ hpos]
  unfold Rng.Has
  rw [Nat.add_mul] at h2
  rw [h1]
  constructor
  · rintro ⟨a, b⟩
    exact Nat.div_eq_of_lt_le a (by rw [Nat.add_mul]; omega)
  · intro e
    have h3 := Nat.div_add_mod id (2 ^ r.mask)
    have h4 := Nat.mod_lt id hpos
    rw [e, Nat.mul_comm] at h3
    omega

/-- Two aligned blocks are nested or disjoint. -/
theorem nested {a b : Rng} (ha : a.Block) (hb : b.Block) (hm : a.mask ≤ b.mask) :
    (b.min ≤ a.min ∧ a.max ≤ b.max) ∨ a.Disj b := by
  by_cases h : b.Has a.min
  · left
    refine ⟨h.1, ?_⟩
    rw [hb.has_iff] at h
    have hx : b.Has a.max := by
      rw [hb.has_iff, ← h]
      have e : b.mask = a.mask + (b.mask - a.mask) := by omega
      rw [e, Nat.pow_add, ← Nat.div_div_eq_div_mul, ← Nat.div_div_eq_div_mul]
      congr 1
      exact ha.has_iff.1 ⟨ha.le, Nat.le_refl _⟩
    exact hx.2
  · right
    unfold Rng.Has at h
    unfold Rng.Disj
    by_cases h1 : b.max < a.min
    · exact Or.inr h1
    · left
      -- a.min < b.min; a.max cannot reach b.min
      have hlt : a.min < b.min := by omega
      by_cases h2 : a.max < b.min
      · exact h2
      · exfalso
        have hin : a.Has b.min := ⟨by omega, by omega⟩
        rw [ha.has_iff] at hin
        obtain ⟨k, hk, _⟩ := hb.al
        obtain ⟨j, hj, _⟩ := ha.al
        have hpos : 0 < 2 ^ a.mask := Nat.two_pow_pos _
        have e : 2 ^ b.mask = 2 ^ (b.mask - a.mask) * 2 ^ a.mask := by
          rw [← Nat.pow_add]; congr 1; omega
        rw [hk, hj, e, ← Nat.mul_assoc, Nat.mul_div_cancel _ hpos, Nat.mul_div_cancel _ hpos] at hin
        rw [hk, hj, e, ← Nat.mul_assoc, hin] at hlt
        omega

/-! ### Sorting -/

theorem lt_iff {a b : Rng} : a.lt b = true ↔ a.max < b.max ∨ (a.max = b.max ∧ a.min > b.min) := by
  unfold Rng.lt
  split <;> simp <;> omega

theorem mem_insertRng {x y : Rng} {l : List Rng} : y ∈ insertRng x l ↔ y = x ∨ y ∈ l := by
  induction l with
  | nil => simp [insertRng]
  | cons z zs ih =>
    simp only [insertRng]
    split
    · simp only [List.mem_cons, ih]
      constructor
      · rintro (h | h | h) <;> simp [h]
      · rintro (h | h | h) <;> simp [h]
    · simp

theorem mem_sortRng {y : Rng} {l : List Rng} : y ∈ sortRng l ↔ y ∈ l := by
  induction l with
  | nil => simp [sortRng]
  | cons x xs ih => simp [sortRng, mem_insertRng, ih]

theorem insertRng_perm (x : Rng) (l : List Rng) : (insertRng x l).Perm (x :: l) := by
  induction l with
  | nil => simp [insertRng]
  | cons z zs ih =>
    simp only [insertRng]
    split
    · exact (List.Perm.cons z ih).trans (List.Perm.swap x z zs)
    · exact List.Perm.refl _

theorem sortRng_perm (l : List Rng) : (sortRng l).Perm l := by
  induction l with
  | nil => exact List.Perm.refl _
  | cons x xs ih => exact (insertRng_perm x _).trans (List.Perm.cons x ih)

/-- sorted: not greater. -/
def Le (a b : Rng) : Prop := b.lt a = false

theorem le_iff {a b : Rng} : Le a b ↔ a.max < b.max ∨ (a.max = b.max ∧ b.min ≤ a.min) := by
  unfold Le
  rw [← Bool.not_eq_true, lt_iff]
  omega

theorem insertRng_sorted {x : Rng} {l : List Rng} (h : l.Pairwise Le) : (insertRng x l).Pairwise Le := by
  induction l with
  | nil => simp [insertRng]
  | cons z zs ih =>
    rw [List.pairwise_cons] at h
    simp only [insertRng]
    split
    · rename_i hlt
      rw [List.pairwise_cons]
      refine ⟨fun a ha => ?_, ih h.2⟩
      rw [mem_insertRng] at ha
      rcases ha with rfl | ha
      · rw [lt_iff] at hlt; rw [le_iff]; omega
      · exact h.1 a ha
    · rename_i hlt
      rw [lt_iff] at hlt
      rw [List.pairwise_cons]
      refine ⟨fun a ha => ?_, List.pairwise_cons.2 h⟩
      rcases List.mem_cons.1 ha with rfl | ha
      · rw [le_iff]; omega
      · have := le_iff.1 (h.1 a ha)
        rw [le_iff]; omega

theorem sortRng_sorted (l : List Rng) : (sortRng l).Pairwise Le := by
  induction l with
  | nil => simp [sortRng]
  | cons x xs ih => exact insertRng_sorted ih

/-! ### Merging -/

/-- Neighbours that form a larger aligned block. -/
def Sib (a b : Rng) : Prop :=
  a.mask = b.mask ∧ a.min = b.max + 1 ∧ b.min % 2 ^ (b.mask + 1) = 0

theorem up_of {a b : Rng} (ha : a.Block) (hb : b.Block) (hm : a.mask = b.mask)
    (hadj : a.min = (b.max + 1) % W64) (h30 : b.mask + 1 ≤ 30) :
    ∃ up, Rng.mk? b.min (b.mask + 1) = some up ∧
      ((up.max = a.max ∧ up.min = b.min) ↔ Sib a b) ∧
      ((up.max = a.max ∧ up.min = b.min) → up.Block ∧ up.mask = b.mask + 1 ∧ a.min = b.max + 1) := by
  have hbl := hb.lt
  have hpos : 0 < 2 ^ b.mask := Nat.two_pow_pos _
  have hsa := ha.size
  have hsb := hb.size
  have hal := ha.lt
  rw [hm] at hsa
  have hadj' : a.min = b.max + 1 ∨ (b.max + 1 = W64 ∧ a.min = 0) := by
    unfold W64 at *
    omega
  have hnowrap : ∀ x : Nat, x / 2 ^ (b.mask + 1) * 2 ^ (b.mask + 1) = x → 
      x + 2 * 2 ^ b.mask ≤ 2 ^ 64 ∨ 2 ^ 64 ≤ x := by
    intro x hx
    have e : 2 ^ 64 = 2 ^ (64 - (b.mask + 1)) * 2 ^ (b.mask + 1) := by
      rw [← Nat.pow_add]; congr 1; omega
    rw [Nat.pow_succ 2 b.mask] at e hx
    by_cases hlt : x / (2 ^ b.mask * 2) < 2 ^ (64 - (b.mask + 1))
    · left
      have := Nat.mul_le_mul_right (2 ^ b.mask * 2) hlt
      rw [Nat.succ_eq_add_one, Nat.add_mul, hx, ← e] at this
      omega
    · right
      have := Nat.mul_le_mul_right (2 ^ b.mask * 2) (Nat.not_lt.1 hlt)
      rw [hx, ← e] at this
      exact this
  refine ⟨_, mk_eq h30, ?_, ?_⟩
  · simp only [Sib]
    have hdm := Nat.div_add_mod b.min (2 ^ (b.mask + 1))
    rw [Nat.mul_comm] at hdm
    constructor
    · rintro ⟨h1, h2⟩
      have h3 := hnowrap b.min h2
      refine ⟨hm, ?_, by omega⟩
      rcases hadj' with h | ⟨h4, h5⟩
      · exact h
      · exfalso
        unfold W64 at h4
        omega
    · rintro ⟨-, h1, h2⟩
      rw [h2, Nat.add_zero] at hdm
      rw [hdm]
      refine ⟨?_, rfl⟩
      rw [Nat.pow_succ]
      omega
  · rintro ⟨h1, h2⟩
    simp only at h1 h2
    have h3 := hnowrap b.min h2
    refine ⟨mk_block (by omega) (mk_eq h30), rfl, ?_⟩
    rcases hadj' with h | ⟨h4, h5⟩
    · exact h
    · exfalso
      unfold W64 at h4
      omega

theorem collapse_nil : collapse [] = some [] := by unfold collapse; rfl
theorem collapse_one (a : Rng) : collapse [a] = some [a] := by unfold collapse; rfl

/-- Total number of ids listed. -/
def total (l : List Rng) : Nat := (l.map fun r => 2 ^ r.mask).sum

theorem pow_le30 {m : Nat} (h : 2 ^ m * 2 < 2 ^ 31) : m + 1 ≤ 30 := by
  rcases Nat.lt_or_ge 30 (m + 1) with h1 | h1
  · exfalso
    have := Nat.pow_le_pow_right (n := 2) (by omega) (show 30 ≤ m by omega)
    omega
  · exact h1

/-- Sorted by descending maximum. -/
def MaxDesc (l : List Rng) : Prop := l.Pairwise fun a b => b.max ≤ a.max
/-- Sorted and disjoint. -/
def DisjDesc (l : List Rng) : Prop := l.Pairwise fun a b => b.max < a.min
/-- No two neighbours could be merged. -/
def NoSib : List Rng → Prop
  | a :: b :: s => ¬ Sib a b ∧ NoSib (b :: s)
  | _ => True

theorem NoSib.tail {a : Rng} {s : List Rng} (h : NoSib (a :: s)) : NoSib s := by
  cases s with
  | nil => trivial
  | cons b s => exact h.2

/-- Everything about one run of the inner loop. -/
structure CollapseOK (s s' : List Rng) : Prop where
  blk : ∀ r ∈ s', r.Block
  cov : ∀ id, Covers s' id ↔ Covers s id
  top : ∀ a t, s = a :: t → ∃ a' t', s' = a' :: t' ∧ a'.max = a.max
  desc : MaxDesc s → MaxDesc s'
  disj : DisjDesc s → DisjDesc s'
  tot : total s' = total s
  nosib : (∀ a t, s = a :: t → NoSib t) → NoSib s'

theorem collapse_ok (s : List Rng) (h : ∀ r ∈ s, r.Block) {s' : List Rng}
    (e : collapse s = some s') : CollapseOK s s' := by
  induction s using collapse.induct generalizing s' with
  | case1 a b s hc hn =>
    rw [collapse, if_pos hc, hn] at e; simp at e
  | case2 a b s hc up hup hcond ih =>
    rw [collapse, if_pos hc, hup] at e
    simp only [if_pos hcond] at e
    have ha := h a (by simp)
    have hb := h b (by simp)
    have h30 : b.mask + 1 ≤ 30 := by
      rcases Nat.lt_or_ge 30 (b.mask + 1) with h1 | h1
      · rw [mk_none h1] at hup; simp at hup
      · exact h1
    obtain ⟨up', hup', -, hblk⟩ := up_of ha hb hc.1 hc.2 h30
    rw [hup] at hup'
    simp only [Option.some.injEq] at hup'
    subst hup'
    obtain ⟨ub, um, hadj⟩ := hblk hcond
    have hs : ∀ r ∈ up :: s, r.Block := by
      intro r hr
      rcases List.mem_cons.1 hr with rfl | hr
      · exact ub
      · exact h r (by simp [hr])
    have ok := ih hs e
    refine ⟨ok.blk, fun id => ?_, ?_, ?_, ?_, ?_, ?_⟩
    · rw [ok.cov]
      have hle := ha.le
      have hle2 := hb.le
      constructor
      · rintro ⟨r, hr, hh⟩
        rcases List.mem_cons.1 hr with rfl | hr
        · obtain ⟨h1, h2⟩ := hh
          by_cases hid : id ≤ b.max
          · exact ⟨b, by simp, by omega, hid⟩
          · exact ⟨a, by simp, by omega, by omega⟩
        · exact ⟨r, by simp [hr], hh⟩
      · rintro ⟨r, hr, h1, h2⟩
        simp only [List.mem_cons] at hr
        rcases hr with rfl | rfl | hr
        · exact ⟨up, by simp, by omega, by omega⟩
        · exact ⟨up, by simp, by omega, by omega⟩
        · exact ⟨r, by simp [hr], h1, h2⟩
    · intro a0 t ht
      simp only [List.cons.injEq] at ht
      obtain ⟨a', t', e1, e2⟩ := ok.top up s rfl
      exact ⟨a', t', e1, by rw [e2, hcond.1, ht.1]⟩
    · intro hd
      apply ok.desc
      unfold MaxDesc at *
      rw [List.pairwise_cons, List.pairwise_cons] at hd
      rw [List.pairwise_cons]
      refine ⟨fun c hc => ?_, hd.2.2⟩
      have := hd.1 c (by simp [hc])
      omega
    · intro hd
      apply ok.disj
      unfold DisjDesc at *
      rw [List.pairwise_cons, List.pairwise_cons] at hd
      rw [List.pairwise_cons]
      refine ⟨fun c hc => ?_, hd.2.2⟩
      have := hd.2.1 c hc
      omega
    · rw [ok.tot]
      simp only [total, List.map_cons, List.sum_cons, um, hc.1, Nat.pow_succ]
      omega
    · intro hno
      apply ok.nosib
      intro a0 t ht
      simp only [List.cons.injEq] at ht
      have := hno a (b :: s) rfl
      rw [← ht.2]
      exact this.tail
  | case3 a b s hc up hup hcond =>
    rw [collapse, if_pos hc, hup] at e
    simp only [if_neg hcond, Option.some.injEq] at e
    subst e
    have ha := h a (by simp)
    have hb := h b (by simp)
    have h30 : b.mask + 1 ≤ 30 := by
      rcases Nat.lt_or_ge 30 (b.mask + 1) with h1 | h1
      · rw [mk_none h1] at hup; simp at hup
      · exact h1
    obtain ⟨up', hup', hsib, -⟩ := up_of ha hb hc.1 hc.2 h30
    rw [hup] at hup'
    simp only [Option.some.injEq] at hup'
    subst hup'
    refine ⟨h, fun _ => Iff.rfl, fun a0 t ht => ⟨a0, t, ht, rfl⟩, id, id, rfl, fun hno => ?_⟩
    exact ⟨fun hh => hcond (hsib.2 hh), hno a _ rfl⟩
  | case4 a b s hc =>
    rw [collapse, if_neg hc] at e
    simp only [Option.some.injEq] at e
    subst e
    have hb := h b (by simp)
    have ha := h a (by simp)
    refine ⟨h, fun _ => Iff.rfl, fun a0 t ht => ⟨a0, t, ht, rfl⟩, id, id, rfl, fun hno => ?_⟩
    refine ⟨fun hh => hc ⟨hh.1, ?_⟩, hno a _ rfl⟩
    have := hh.2.1
    have := ha.lt
    have := ha.le
    rw [hh.2.1, Nat.mod_eq_of_lt]
    unfold W64; omega
  | case5 l hl =>
    have e' : l = s' := by
      unfold collapse at e
      split at e
      · exact absurd rfl (hl _ _ _)
      · simpa using e
    subst e'
    refine ⟨h, fun _ => Iff.rfl, fun a0 t ht => ⟨a0, t, ht, rfl⟩, id, id, rfl, fun hno => ?_⟩
    match l, hl with
    | [], _ => trivial
    | [_], _ => trivial
    | a :: b :: s, hl => exact absurd rfl (hl a b s)

theorem collapse_def (s : List Rng) (h : ∀ r ∈ s, r.Block) (ht : total s < 2 ^ 31) :
    ∃ s', collapse s = some s' := by
  induction s using collapse.induct with
  | case1 a b s hc hn =>
    exfalso
    have h30 : b.mask + 1 ≤ 30 := by
      apply pow_le30
      simp only [total, List.map_cons, List.sum_cons, hc.1] at ht
      omega
    rw [mk_eq h30] at hn; simp at hn
  | case2 a b s hc up hup hcond ih =>
    rw [collapse, if_pos hc, hup]
    simp only [if_pos hcond]
    have h30 : b.mask + 1 ≤ 30 := by
      rcases Nat.lt_or_ge 30 (b.mask + 1) with h1 | h1
      · rw [mk_none h1] at hup; simp at hup
      · exact h1
    obtain ⟨up', hup', -, hblk⟩ := up_of (h a (by simp)) (h b (by simp)) hc.1 hc.2 h30
    rw [hup] at hup'
    simp only [Option.some.injEq] at hup'
    subst hup'
    obtain ⟨ub, um, hadj⟩ := hblk hcond
    apply ih
    · intro r hr
      rcases List.mem_cons.1 hr with rfl | hr
      · exact ub
      · exact h r (by simp [hr])
    · simp only [total, List.map_cons, List.sum_cons, um, hc.1, Nat.pow_succ] at *
      omega
  | case3 a b s hc up hup hcond =>
    rw [collapse, if_pos hc, hup]
    simp [if_neg hcond]
  | case4 a b s hc =>
    rw [collapse, if_neg hc]; simp
  | case5 l hl =>
    unfold collapse
    split
    · exact absurd rfl (hl _ _ _)
    · simp

theorem Covers.cons {r : Rng} {l : List Rng} {id : Nat} : Covers (r :: l) id ↔ r.Has id ∨ Covers l id := by
  simp [Covers]

/-- Invariant of the outer loop. -/
theorem mergeLoop_ok : ∀ (xs s s' : List Rng), s ≠ [] → (∀ r ∈ s, r.Block) → (∀ r ∈ xs, r.Block) →
    MaxDesc s → xs.Pairwise Le → (∀ a ∈ s, ∀ x ∈ xs, a.max ≤ x.max) →
    mergeLoop s xs = some s' →
    (∀ r ∈ s', r.Block) ∧ (∀ id, Covers s' id ↔ Covers s id ∨ Covers xs id) ∧ MaxDesc s' ∧ s' ≠ [] ∧
    (DisjDesc s → xs.Pairwise (fun a b => a.max < b.min) → (∀ a ∈ s, ∀ x ∈ xs, a.max < x.min) →
      NoSib s → DisjDesc s' ∧ NoSib s') := by
  intro xs
  induction xs with
  | nil =>
    intro s s' hne hb _ hd _ _ e
    simp only [mergeLoop, Option.some.injEq] at e
    subst e
    refine ⟨hb, fun id => ?_, hd, hne, fun h1 _ _ h2 => ⟨h1, h2⟩⟩
    simp [Covers]
  | cons x xs ih =>
    intro s s' hne hb hxb hd hsort hle e
    have hx := hxb x (by simp)
    rw [List.pairwise_cons] at hsort
    simp only [mergeLoop] at e
    obtain ⟨p, r, rfl⟩ := List.exists_cons_of_ne_nil hne
    have hpx : p.max ≤ x.max := hle p (by simp) x (by simp)
    have hp := hb p (by simp)
    -- the pushed stack
    have hpush : (∀ y ∈ pushRng (p :: r) x, y.Block) ∧
        (∀ id, Covers (pushRng (p :: r) x) id ↔ Covers (p :: r) id ∨ x.Has id) ∧
        MaxDesc (pushRng (p :: r) x) ∧ (∃ t, pushRng (p :: r) x = x :: t) ∧
        (∀ y ∈ pushRng (p :: r) x, y.max ≤ x.max) := by
      unfold MaxDesc at hd
      rw [List.pairwise_cons] at hd
      unfold pushRng
      by_cases hc : x.min ≤ p.min
      · simp only [if_pos hc]
        refine ⟨?_, fun id => ?_, ?_, ⟨_, rfl⟩, ?_⟩
        · intro y hy
          rcases List.mem_cons.1 hy with rfl | hy
          · exact hx
          · exact hb y (by simp [hy])
        · rw [Covers.cons, Covers.cons]
          constructor
          · rintro (h | h)
            · exact Or.inr h
            · exact Or.inl (Or.inr h)
          · rintro ((h | h) | h)
            · exact Or.inl ⟨by have := h.1; omega, by have := h.2; omega⟩
            · exact Or.inr h
            · exact Or.inl h
        · unfold MaxDesc
          rw [List.pairwise_cons]
          refine ⟨fun c hc => ?_, hd.2⟩
          have := hd.1 c hc; omega
        · intro y hy
          rcases List.mem_cons.1 hy with rfl | hy
          · exact Nat.le_refl _
          · have := hd.1 y hy; omega
      · simp only [if_neg hc]
        refine ⟨?_, fun id => ?_, ?_, ⟨_, rfl⟩, ?_⟩
        · intro y hy
          rcases List.mem_cons.1 hy with rfl | hy
          · exact hx
          · exact hb y hy
        · rw [Covers.cons]; exact Or.comm
        · unfold MaxDesc
          rw [List.pairwise_cons, List.pairwise_cons]
          refine ⟨fun c hc => ?_, hd⟩
          rcases List.mem_cons.1 hc with rfl | hc
          · exact hpx
          · have := hd.1 c hc; omega
        · intro y hy
          rcases List.mem_cons.1 hy with rfl | hy
          · exact Nat.le_refl _
          · exact hle y hy x (by simp)
    obtain ⟨hpb, hpc, hpd, ⟨t0, hpt⟩, hpm⟩ := hpush
    cases hcol : collapse (pushRng (p :: r) x) with
    | none => rw [hcol] at e; simp at e
    | some s1 =>
      rw [hcol] at e
      simp only at e
      have ok := collapse_ok _ hpb hcol
      obtain ⟨a', t', hs1, hmax⟩ := ok.top x t0 hpt
      have hd1 := ok.desc hpd
      have hmax1 : ∀ a ∈ s1, a.max ≤ x.max := by
        intro a ha
        rw [hs1] at ha hd1
        unfold MaxDesc at hd1
        rw [List.pairwise_cons] at hd1
        rcases List.mem_cons.1 ha with rfl | ha
        · omega
        · have := hd1.1 a ha; omega
      have hxle : ∀ y ∈ xs, x.max ≤ y.max := by
        intro y hy
        have := le_iff.1 (hsort.1 y hy); omega
      obtain ⟨r1, r2, r3, r4, r5⟩ := ih s1 s' (by rw [hs1]; simp) ok.blk
        (fun y hy => hxb y (by simp [hy])) hd1 hsort.2
        (fun a ha y hy => Nat.le_trans (hmax1 a ha) (hxle y hy)) e
      refine ⟨r1, fun id => ?_, r3, r4, ?_⟩
      · rw [r2, ok.cov, hpc, Covers.cons (r := x), or_assoc]
      · intro hdj hxs hsx hno
        rw [List.pairwise_cons] at hxs
        have hpx' := hsx p (by simp) x (by simp)
        have hpe : pushRng (p :: r) x = x :: p :: r := by
          unfold pushRng
          have := hp.le
          simp only [if_neg (show ¬ x.min ≤ p.min by omega)]
        have hdj1 : DisjDesc (pushRng (p :: r) x) := by
          rw [hpe]
          unfold DisjDesc
          rw [List.pairwise_cons]
          exact ⟨fun a ha => hsx a ha x (by simp), hdj⟩
        refine r5 (ok.disj hdj1) hxs.2 ?_ (ok.nosib ?_)
        · intro a ha y hy
          have := hmax1 a ha
          have := hxs.1 y hy
          omega
        · intro a t hat
          rw [hpe] at hat
          simp only [List.cons.injEq] at hat
          rw [← hat.2]; exact hno

theorem mergeLoop_def : ∀ (xs s : List Rng), s ≠ [] → (∀ r ∈ s, r.Block) → (∀ r ∈ xs, r.Block) →
    total s + total xs < 2 ^ 31 → ∃ s', mergeLoop s xs = some s' := by
  intro xs
  induction xs with
  | nil => intro s _ _ _ _; exact ⟨s, rfl⟩
  | cons x xs ih =>
    intro s hne hb hxb ht
    obtain ⟨p, r, rfl⟩ := List.exists_cons_of_ne_nil hne
    have hpp : 0 < 2 ^ p.mask := Nat.two_pow_pos _
    have hpb : ∀ y ∈ pushRng (p :: r) x, y.Block := by
      intro y hy
      unfold pushRng at hy
      simp only at hy
      split at hy
      · rcases List.mem_cons.1 hy with rfl | hy
        · exact hxb _ (by simp)
        · exact hb y (by simp [hy])
      · rcases List.mem_cons.1 hy with rfl | hy
        · exact hxb _ (by simp)
        · exact hb y hy
    have htp : total (pushRng (p :: r) x) + total xs < 2 ^ 31 := by
      unfold pushRng
      simp only
      split <;> simp only [total, List.map_cons, List.sum_cons] at * <;> omega
    obtain ⟨s1, e1⟩ := collapse_def _ hpb (by omega)
    have ok := collapse_ok _ hpb e1
    have hne1 : s1 ≠ [] := by
      have : ∃ t, pushRng (p :: r) x = x :: t := by
        unfold pushRng; simp only; split <;> exact ⟨_, rfl⟩
      obtain ⟨t, ht⟩ := this
      obtain ⟨a', t', h1, _⟩ := ok.top x t ht
      rw [h1]; simp
    obtain ⟨s2, e2⟩ := ih s1 hne1 ok.blk (fun y hy => hxb y (by simp [hy])) (by rw [ok.tot]; exact htp)
    exact ⟨s2, by simp [mergeLoop, e1, e2]⟩

theorem total_perm {l l' : List Rng} (h : l.Perm l') : total l = total l' :=
  (h.map _).sum_nat

theorem sortRng_ne {l : List Rng} (h : l ≠ []) : sortRng l ≠ [] := by
  intro e
  have := (sortRng_perm l).length_eq
  rw [e] at this
  simp at this
  exact h (List.eq_nil_of_length_eq_zero this.symm)

theorem covers_congr {l l' : List Rng} (h : ∀ r, r ∈ l ↔ r ∈ l') (id : Nat) :
    Covers l id ↔ Covers l' id := by
  unfold Covers
  constructor
  · rintro ⟨r, h1, h2⟩; exact ⟨r, (h r).1 h1, h2⟩
  · rintro ⟨r, h1, h2⟩; exact ⟨r, (h r).2 h1, h2⟩

/-- No sibling blocks anywhere in the list. -/
def Reduced (l : List Rng) : Prop := ∀ a ∈ l, ∀ b ∈ l, ¬ Sib a b

theorem noSib_reduced : ∀ {s : List Rng}, (∀ r ∈ s, r.Block) → DisjDesc s → NoSib s → Reduced s := by
  intro s
  induction s with
  | nil => intro _ _ _ a ha; simp at ha
  | cons a s ih =>
    intro hb hd hn x hx y hy hs
    unfold DisjDesc at hd
    rw [List.pairwise_cons] at hd
    have ihs := ih (fun r hr => hb r (by simp [hr])) hd.2 hn.tail
    rcases List.mem_cons.1 hx with hxe | hxs
    · subst hxe
      rcases List.mem_cons.1 hy with hye | hy
      · have := (hb x (by simp)).le; have := hs.2.1; rw [hye] at this; omega
      · cases s with
        | nil => simp at hy
        | cons b s =>
          rcases List.mem_cons.1 hy with rfl | hy
          · exact hn.1 hs
          · have h1 := (List.pairwise_cons.1 hd.2).1 y hy
            have h2 := hd.1 b (by simp)
            have h3 := (hb b (by simp)).le
            have := hs.2.1
            omega
    · rcases List.mem_cons.1 hy with hye | hy
      · subst hye
        have h1 := hd.1 x hxs
        have h2 := (hb x (by simp [hxs])).le
        have h3 := (hb y (by simp)).le
        have := hs.2.1
        omega
      · exact ihs x hxs y hy hs

theorem mergeSubnets_ok {l l' : List Rng} (hb : ∀ r ∈ l, r.Block) (e : mergeSubnets l = some l') :
    (∀ r ∈ l', r.Block) ∧ (∀ id, Covers l' id ↔ Covers l id) ∧
    l'.Pairwise (fun a b => a.max ≤ b.max) ∧ (l ≠ [] → l' ≠ []) ∧
    (l.Pairwise Rng.Disj → l'.Pairwise (fun a b => a.max < b.min) ∧ Reduced l') := by
  unfold mergeSubnets at e
  have hmem := fun r => @mem_sortRng r l
  have hsorted := sortRng_sorted l
  have hperm := sortRng_perm l
  cases hs : sortRng l with
  | nil =>
    rw [hs] at e hperm
    have hl : l = [] := by
      have := hperm.length_eq; simp at this
      exact List.eq_nil_of_length_eq_zero this.symm
    simp only [Option.some.injEq] at e
    subst e; subst hl
    exact ⟨by simp, by simp, by simp, by simp, fun _ => ⟨by simp, by intro a ha; simp at ha⟩⟩
  | cons x xs =>
    rw [hs] at e hperm hsorted
    simp only at e
    by_cases hlen : l.length ≤ 1
    · rw [if_pos hlen] at e
      simp only [Option.some.injEq] at e
      subst e
      have : ∃ a, l = [a] := by
        have h1 := hperm.length_eq
        simp only [List.length_cons] at h1
        cases l with
        | nil => simp at h1
        | cons a t =>
          cases t with
          | nil => exact ⟨a, rfl⟩
          | cons b t => simp at hlen
      obtain ⟨a, rfl⟩ := this
      refine ⟨hb, fun _ => Iff.rfl, by simp, by simp, fun _ => ⟨by simp, ?_⟩⟩
      intro c hc d hd hsib
      simp only [List.mem_singleton] at hc hd
      rw [hc, hd] at hsib
      have := (hb a (by simp)).le; have := hsib.2.1; omega
    · rw [if_neg hlen] at e
      cases hm : mergeLoop [x] xs with
      | none => rw [hm] at e; simp at e
      | some s' =>
        rw [hm] at e
        simp only [Option.map_some, Option.some.injEq] at e
        subst e
        rw [hs] at hmem
        have hbx : ∀ r ∈ x :: xs, r.Block := fun r hr => hb r ((hmem r).1 hr)
        rw [List.pairwise_cons] at hsorted
        obtain ⟨r1, r2, r3, r4, r5⟩ := mergeLoop_ok xs [x] s' (by simp)
          (fun r hr => hbx r (by simp at hr; simp [hr])) (fun r hr => hbx r (by simp [hr]))
          (by simp [MaxDesc]) hsorted.2
          (fun a ha y hy => by
            simp only [List.mem_singleton] at ha
            subst ha
            have := le_iff.1 (hsorted.1 y hy); omega) hm
        refine ⟨by simpa using r1, fun id => ?_, ?_, fun _ => by simpa using r4, fun hdj => ?_⟩
        · rw [covers_congr (l' := s') (by simp) id, r2, ← covers_congr hmem id]
          simp [Covers]
        · rw [List.pairwise_reverse]; exact r3
        · have hd2 : (x :: xs).Pairwise Rng.Disj := by
            refine (hperm.pairwise_iff ?_).2 hdj
            intro a b hab; exact Or.symm hab
          have hasc : (x :: xs).Pairwise (fun a b => a.max < b.min) := by
            have hso := sortRng_sorted l
            rw [hs] at hso
            have hboth := List.Pairwise.and hd2 hso
            refine List.Pairwise.imp_of_mem ?_ hboth
            intro a b ha hbm hh
            obtain ⟨h1, h2⟩ := hh
            have h2 := le_iff.1 h2
            have := (hbx a ha).le
            have := (hbx b hbm).le
            rcases h1 with h1 | h1
            · exact h1
            · omega
          rw [List.pairwise_cons] at hasc
          obtain ⟨h1, h2⟩ := r5 (by simp [DisjDesc]) hasc.2
            (fun a ha y hy => by
              simp only [List.mem_singleton] at ha
              subst ha; exact hasc.1 y hy) (by trivial)
          refine ⟨by rw [List.pairwise_reverse]; exact h1, ?_⟩
          have := noSib_reduced r1 h1 h2
          intro a ha b hb2
          exact this a (by simpa using ha) b (by simpa using hb2)

theorem mergeSubnets_def {l : List Rng} (hb : ∀ r ∈ l, r.Block) (ht : total l < 2 ^ 31) :
    ∃ l', mergeSubnets l = some l' := by
  unfold mergeSubnets
  have hperm := sortRng_perm l
  cases hs : sortRng l with
  | nil => exact ⟨_, rfl⟩
  | cons x xs =>
    simp only
    split
    · exact ⟨_, rfl⟩
    · have hbx : ∀ r ∈ x :: xs, r.Block := fun r hr => hb r (mem_sortRng.1 (by rw [hs]; exact hr))
      have htt := total_perm hperm
      rw [hs] at htt
      obtain ⟨s', e⟩ := mergeLoop_def xs [x] (by simp)
        (fun r hr => hbx r (by simp at hr; simp [hr])) (fun r hr => hbx r (by simp [hr])) (by
          simp only [total, List.map_cons, List.sum_cons, List.map_nil, List.sum_nil] at *; omega)
      exact ⟨_, by rw [e]; rfl⟩

end Verif.Subnet
