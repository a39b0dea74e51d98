import Verif.Subnet.Route

/-! Route table histories: helper lemmas. -/
namespace Verif.Subnet

theorem mem_mapSet {k : Rng} {v : Ep} {t : Table} (hp : Proper t) (hk : k.min ≤ k.max)
    (hno : ∀ x ∈ t, ¬ Overlap x.1 k) {x : Rng × Ep} : x ∈ mapSet k v t ↔ x = (k, v) ∨ x ∈ t := by
  induction t with
  | nil => simp [mapSet]
  | cons y t ih =>
    obtain ⟨k', v'⟩ := y
    have hy := hno (k', v') (by simp)
    have hyp := hp (k', v') (by simp)
    rw [overlap_iff hyp hk] at hy
    have ih' := ih hp.tail (fun z hz => hno z (by simp [hz]))
    simp only [mapSet]
    split
    · simp only [List.mem_cons, ih']
      constructor
      · rintro (h | h | h) <;> simp [h]
      · rintro (h | h | h) <;> simp [h]
    · rename_i h1
      split
      · simp
      · rename_i h2
        exfalso
        rw [lt_iff] at h1 h2
        simp only at hy hyp
        omega

theorem mapSet_sorted {k : Rng} {v : Ep} {t : Table} (hs : Sorted t) (hp : Proper t) (hk : k.min ≤ k.max)
    (hno : ∀ x ∈ t, ¬ Overlap x.1 k) : Sorted (mapSet k v t) := by
  induction t with
  | nil => simp [mapSet, Sorted]
  | cons y t ih =>
    obtain ⟨k', v'⟩ := y
    have hy := hno (k', v') (by simp)
    have hyp := hp (k', v') (by simp)
    rw [overlap_iff hyp hk] at hy
    simp only at hy hyp
    have hno' : ∀ x ∈ t, ¬ Overlap x.1 k := fun z hz => hno z (by simp [hz])
    have ih' := ih hs.tail hp.tail hno'
    have hs' := List.pairwise_cons.1 hs
    simp only [mapSet]
    split
    · rename_i h1
      rw [lt_iff] at h1
      refine List.pairwise_cons.2 ⟨fun z hz => ?_, ih'⟩
      rcases (mem_mapSet hp.tail hk hno').1 hz with h | h
      · rw [h]; simp only; omega
      · exact hs'.1 z h
    · rename_i h1
      rw [lt_iff] at h1
      split
      · rename_i h2
        rw [lt_iff] at h2
        refine List.pairwise_cons.2 ⟨fun z hz => ?_, hs⟩
        rcases List.mem_cons.1 hz with h | h
        · rw [h]; simp only; omega
        · have := hs'.1 z h; simp only at this ⊢; omega
      · rename_i h2
        exfalso
        rw [lt_iff] at h2
        omega

theorem foldl_mapSet {v : Ep} : ∀ {l : List Rng} {t : Table}, Sorted t → Proper t → (∀ r ∈ l, r.min ≤ r.max) →
    l.Pairwise Rng.Disj → (∀ r ∈ l, ∀ x ∈ t, ¬ Overlap x.1 r) →
    let t' := l.foldl (fun t r => mapSet r v t) t
    Sorted t' ∧ Proper t' ∧ ∀ x, x ∈ t' ↔ x ∈ t ∨ (x.1 ∈ l ∧ x.2 = v) := by
  intro l
  induction l with
  | nil => intro t hs hp _ _ _; simp [hs, hp]
  | cons r l ih =>
    intro t hs hp hl hd hno
    rw [List.pairwise_cons] at hd
    have hr := hl r (by simp)
    have hno0 := hno r (by simp)
    have hmem := fun x => @mem_mapSet r v t hp hr hno0 x
    have hp' : Proper (mapSet r v t) := by
      intro x hx
      rcases (hmem x).1 hx with h | h
      · rw [h]; exact hr
      · exact hp x h
    obtain ⟨h1, h2, h3⟩ := ih (mapSet_sorted hs hp hr hno0) hp' (fun q hq => hl q (by simp [hq])) hd.2 (by
      intro q hq x hx hov
      rcases (hmem x).1 hx with h | h
      · subst h
        have := (overlap_iff hr (hl q (by simp [hq]))).1 hov
        have := hd.1 q hq
        unfold Rng.Disj at this
        omega
      · exact hno q (by simp [hq]) x h hov)
    refine ⟨h1, h2, fun x => ?_⟩
    rw [List.foldl_cons, h3, hmem]
    obtain ⟨x1, x2⟩ := x
    simp only [Prod.mk.injEq, List.mem_cons]
    constructor
    · rintro ((⟨h, h'⟩ | h) | h)
      · exact Or.inr ⟨Or.inl h, h'⟩
      · exact Or.inl h
      · exact Or.inr ⟨Or.inr h.1, h.2⟩
    · rintro (h | ⟨h | h, h'⟩)
      · exact Or.inl (Or.inr h)
      · exact Or.inl (Or.inl ⟨h, h'⟩)
      · exact Or.inr ⟨h, h'⟩

theorem mem_mapErase {k : Rng} {t : Table} {x : Rng × Ep} :
    x ∈ mapErase k t ↔ x ∈ t ∧ ¬ (x.1.max = k.max ∧ x.1.min = k.min) := by
  unfold mapErase
  rw [List.mem_filter, Bool.or_eq_true, lt_iff, lt_iff]
  constructor
  · rintro ⟨h, h2⟩; exact ⟨h, by omega⟩
  · rintro ⟨h, h2⟩; exact ⟨h, by omega⟩

theorem foldl_mapErase : ∀ {l : List Rng} {t : Table}, Sorted t → Proper t →
    let t' := l.foldl (fun t r => mapErase r t) t
    Sorted t' ∧ Proper t' ∧ ∀ x, x ∈ t' ↔ x ∈ t ∧ ∀ k ∈ l, ¬ (x.1.max = k.max ∧ x.1.min = k.min) := by
  intro l
  induction l with
  | nil => intro t hs hp; simp [hs, hp]
  | cons r l ih =>
    intro t hs hp
    obtain ⟨h1, h2, h3⟩ := @ih (mapErase r t) (List.Pairwise.filter _ hs)
      (fun x hx => hp x (mem_mapErase.1 hx).1)
    refine ⟨h1, h2, fun x => ?_⟩
    rw [List.foldl_cons, h3, mem_mapErase]
    simp only [List.mem_cons, forall_eq_or_imp]
    exact and_assoc

/-- The table holds the subnets of exactly the registered endpoints. -/
structure Sim (t : Table) (reg : List Ep) : Prop where
  sorted : Sorted t
  proper : Proper t
  mem : ∀ x, x ∈ t ↔ x.2 ∈ reg ∧ x.1 ∈ x.2.subnets
  wf : ∀ e ∈ reg, WFEp e
  sep : ∀ a ∈ reg, ∀ b ∈ reg, EpOverlap a b → a = b

theorem lowerBound_of_covers {t : Table} {reg : List Ep} (h : Sim t reg) {e : Ep} {id : Nat}
    (he : e ∈ reg) (hc : Covers e.subnets id) :
    ∃ r, lowerBound t id = some (r, e) ∧ r ∈ e.subnets ∧ r.Has id := by
  obtain ⟨r, hr, hh⟩ := hc
  refine ⟨r, ?_, hr, hh⟩
  exact lowerBound_covered h.sorted h.proper ((h.mem (r, e)).2 ⟨he, hr⟩) hh

theorem findRoute_iff {t : Table} {reg : List Ep} (h : Sim t reg) {e : Ep} {id : Nat} (hid : id ≠ 0) :
    findRoute t id = some e ↔ e ∈ reg ∧ Covers e.subnets id := by
  constructor
  · intro hf
    unfold findRoute at hf
    split at hf
    · simp at hf
    · rename_i x hx
      obtain ⟨h1, _⟩ := lowerBound_some h.proper hx
      obtain ⟨h2, h3⟩ := (h.mem x).1 h1
      split at hf
      · rename_i hxid
        simp only [Option.some.injEq] at hf
        subst hf
        exact ⟨h2, hxid ▸ (h.wf _ h2).self⟩
      · split at hf
        · rename_i hc
          simp only [Option.some.injEq] at hf
          subst hf
          exact ⟨h2, x.1, h3, (contain_iff.1 hc).2⟩
        · simp at hf
  · rintro ⟨h1, h2⟩
    obtain ⟨r, hl, hr, hh⟩ := lowerBound_of_covers h h1 h2
    unfold findRoute
    rw [hl]
    simp only
    split
    · rfl
    · rw [if_pos (contain_iff.2 ⟨hid, hh⟩)]

theorem findRoute_zero {t : Table} {reg : List Ep} (h : Sim t reg) {e : Ep} :
    findRoute t 0 = some e ↔ e ∈ reg ∧ e.id = 0 := by
  constructor
  · intro hf
    unfold findRoute at hf
    split at hf
    · simp at hf
    · rename_i x hx
      obtain ⟨h1, _⟩ := lowerBound_some h.proper hx
      split at hf
      · rename_i hxid
        simp only [Option.some.injEq] at hf
        subst hf
        exact ⟨((h.mem x).1 h1).1, hxid⟩
      · simp [Rng.contain] at hf
  · rintro ⟨h1, h2⟩
    obtain ⟨r, hl, hr, hh⟩ := lowerBound_of_covers h h1 (h.wf e h1).self
    rw [h2] at hl
    unfold findRoute
    rw [hl]
    simp [h2]

theorem checkConflict_iff {t : Table} {reg : List Ep} (h : Sim t reg) {ep : Ep} (hw : WFEp ep)
    (h0 : (∃ r ∈ ep.subnets, r.min = 0) → ∀ e ∈ reg, ∀ r ∈ e.subnets, r.min ≠ 0) :
    checkConflict t ep.subnets = true ↔ ∃ e ∈ reg, EpOverlap e ep := by
  unfold checkConflict
  rw [List.any_eq_true]
  constructor
  · rintro ⟨r, hr, hc⟩
    obtain ⟨x, hx, id, h1, h2⟩ := conflict1_sound h.proper (hw.proper r hr) hc
    obtain ⟨h3, h4⟩ := (h.mem x).1 hx
    exact ⟨x.2, h3, id, ⟨x.1, h4, h1⟩, ⟨r, hr, h2⟩⟩
  · rintro ⟨e, he, id, ⟨r1, hr1, h1⟩, ⟨r, hr, h2⟩⟩
    refine ⟨r, hr, conflict1_complete h.sorted h.proper (hw.proper r hr) (x := (r1, e))
      ((h.mem (r1, e)).2 ⟨he, hr1⟩) ⟨id, h1, h2⟩ ?_⟩
    by_cases hz : r.min = 0
    · right
      intro y hy
      obtain ⟨h3, h4⟩ := (h.mem y).1 hy
      exact h0 ⟨r, hr, hz⟩ _ h3 _ h4
    · exact Or.inl hz

theorem sim_add {t : Table} {reg : List Ep} (h : Sim t reg) {ep : Ep} (hw : WFEp ep)
    (hno : ¬ ∃ e ∈ reg, EpOverlap e ep) :
    Sim (ep.subnets.foldl (fun t r => mapSet r ep t) t) (ep :: reg) := by
  obtain ⟨h1, h2, h3⟩ := foldl_mapSet (v := ep) (l := ep.subnets) h.sorted h.proper hw.proper hw.disj (by
    rintro r hr x hx ⟨id, h1, h2⟩
    obtain ⟨h3, h4⟩ := (h.mem x).1 hx
    exact hno ⟨x.2, h3, id, ⟨x.1, h4, h1⟩, ⟨r, hr, h2⟩⟩)
  refine ⟨h1, h2, fun x => ?_, ?_, ?_⟩
  · rw [h3, h.mem]
    constructor
    · rintro (⟨h4, h5⟩ | ⟨h4, h5⟩)
      · exact ⟨by simp [h4], h5⟩
      · exact ⟨by simp [h5], by rw [h5]; exact h4⟩
    · rintro ⟨h4, h5⟩
      rcases List.mem_cons.1 h4 with h6 | h6
      · exact Or.inr ⟨by rw [← h6]; exact h5, h6⟩
      · exact Or.inl ⟨h6, h5⟩
  · intro e he
    rcases List.mem_cons.1 he with h4 | h4
    · rw [h4]; exact hw
    · exact h.wf e h4
  · intro a ha b hb hov
    rcases List.mem_cons.1 ha with h4 | h4 <;> rcases List.mem_cons.1 hb with h5 | h5
    · rw [h4, h5]
    · exfalso
      obtain ⟨id, h6, h7⟩ := hov
      exact hno ⟨b, h5, id, h7, h4 ▸ h6⟩
    · exfalso
      exact hno ⟨a, h4, h5 ▸ hov⟩
    · exact h.sep a h4 b h5 hov

theorem sim_remove {t : Table} {reg : List Ep} (h : Sim t reg) {e : Ep} (he : e ∈ reg) :
    Sim (e.subnets.foldl (fun t r => mapErase r t) t) (reg.filter fun x => decide (x ≠ e)) := by
  obtain ⟨h1, h2, h3⟩ := foldl_mapErase (l := e.subnets) h.sorted h.proper
  refine ⟨h1, h2, fun x => ?_, ?_, ?_⟩
  · rw [h3, h.mem, List.mem_filter]
    simp only [decide_eq_true_eq]
    constructor
    · rintro ⟨⟨h4, h5⟩, h6⟩
      refine ⟨⟨h4, fun hh => ?_⟩, h5⟩
      exact h6 x.1 (by rw [← hh]; exact h5) ⟨rfl, rfl⟩
    · rintro ⟨⟨h4, h5⟩, h6⟩
      refine ⟨⟨h4, h6⟩, fun k hk hh => ?_⟩
      have hkp := (h.wf e he).proper k hk
      apply h5
      refine h.sep _ h4 _ he ⟨k.min, ⟨x.1, h6, ?_⟩, ⟨k, hk, Nat.le_refl _, hkp⟩⟩
      exact ⟨by omega, by omega⟩
  · intro a ha
    exact h.wf a (List.mem_filter.1 ha).1
  · intro a ha b hb
    exact h.sep a (List.mem_filter.1 ha).1 b (List.mem_filter.1 hb).1

end Verif.Subnet
