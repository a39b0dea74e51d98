import Verif.Node.Owner

/-!
C103: no connection or endpoint uses its node after the node's end, if the application has given back every pointer before and makes no
connection inside the callbacks of `reset`; both conditions are needed.
-/
namespace Verif.Node.Owner

/-! ## Objects are destroyed once, when the last pointer goes -/

/-- What is destroyed and what is not. -/
structure LogInv (s : S) : Prop where
  nodup : s.log.Nodup
  mem : ∀ o, o ∈ s.log ↔ o < s.next ∧ s.alive o = false
  lt : ∀ o, s.alive o = true → o < s.next

/-- Where the holders are. -/
structure Shape (s : S) : Prop where
  idle : s.st = .created → s.wait = []
  gone : s.st = .gone → s.own = [] ∧ s.tab = [] ∧ s.gc = [] ∧ s.wait = [] ∧ s.self = none

theorem mem_dead {s t : S} {o : Nat} : o ∈ dead s t ↔ o < s.next ∧ s.alive o = true ∧ t.alive o = false := by
  simp [dead, List.mem_filter]

theorem log_sweep {s t u : S} (h : LogInv s) (hs : sweep s t = .ok u) (hn : s.next ≤ t.next) (hl : t.log = s.log)
    (ha : ∀ o, t.alive o = true → s.alive o = true ∨ (s.next ≤ o ∧ o < t.next))
    (hb : ∀ o, s.next ≤ o → o < t.next → t.alive o = true) : LogInv u ∧ u = { t with log := s.log ++ dead s t } := by
  unfold sweep at hs
  split at hs
  · cases hs
  · cases hs
    have hal : ∀ o, S.alive { t with log := t.log ++ dead s t } o = t.alive o := fun _ => rfl
    refine ⟨⟨?_, ?_, ?_⟩, by rw [hl]⟩
    · show (t.log ++ dead s t).Nodup
      rw [hl, List.nodup_append]
      refine ⟨h.nodup, List.Pairwise.filter _ List.nodup_range, ?_⟩
      intro a ha' b hb' hab
      have h1 := (h.mem a).1 ha'
      have h2 := mem_dead.1 hb'
      subst hab
      rw [h1.2] at h2
      exact absurd h2.2.1 (by simp)
    · intro o
      rw [hal]
      show o ∈ t.log ++ dead s t ↔ o < t.next ∧ _
      rw [hl, List.mem_append, h.mem, mem_dead]
      constructor
      · rintro (⟨h1, h2⟩ | ⟨h1, -, h3⟩)
        · refine ⟨by omega, ?_⟩
          cases hq : t.alive o with
          | false => rfl
          | true => rcases ha o hq with h4 | h4
                    · rw [h4] at h2; cases h2
                    · omega
        · exact ⟨by omega, h3⟩
      · rintro ⟨h1, h2⟩
        by_cases h3 : o < s.next
        · cases hq : s.alive o with
          | false => exact Or.inl ⟨h3, rfl⟩
          | true => exact Or.inr ⟨h3, rfl, h2⟩
        · have := hb o (by omega) h1
          rw [this] at h2; cases h2
    · intro o ho
      rw [hal] at ho
      rcases ha o ho with h1 | h1
      · have := h.lt o h1
        show o < t.next
        omega
      · exact h1.2

/-- Nothing new is made. -/
theorem log_less {s t u : S} (h : LogInv s) (hs : sweep s t = .ok u) (hn : t.next = s.next) (hl : t.log = s.log)
    (ha : ∀ o, t.alive o = true → s.alive o = true) :
    LogInv u ∧ u = { t with log := s.log ++ dead s t } :=
  log_sweep h hs (by omega) hl (fun o ho => Or.inl (ha o ho)) (fun o h1 h2 => by omega)

theorem alive_iff {s : S} {o : Nat} : s.alive o = true ↔
    o ∈ s.own ∨ o ∈ s.tab ∨ o ∈ s.gc ∨ o ∈ s.wait ∨ s.self = some o ∨ 0 < s.refs o := by
  simp [S.alive, or_assoc]

/-- What `~node` does when it goes well. -/
theorem destroy_ok {s u : S} (h : LogInv s) (hs : destroyNode s = .ok u) :
    LogInv u ∧ u.st = .gone ∧ u.own = [] ∧ u.tab = [] ∧ u.gc = [] ∧ u.wait = s.wait ∧ u.self = none ∧ u.refs = s.refs ∧
      u.next = s.next := by
  unfold destroyNode at hs
  split at hs
  · cases hs
  next t ht =>
    split at hs
    · cases hs
    next hd =>
      split at hs
      · cases hs
      next v hv =>
        cases hs
        obtain ⟨h1, e1⟩ := log_less h ht rfl rfl (fun o ho => by rw [alive_iff] at ho ⊢; simp at ho; grind)
        obtain ⟨h2, e2⟩ := log_less h1 hv rfl rfl (fun o ho => by rw [alive_iff] at ho ⊢; simp at ho; grind)
        have hq : LogInv { v with st := .gone } := ⟨h2.nodup, h2.mem, h2.lt⟩
        refine ⟨hq, rfl, ?_⟩
        subst e2
        subst e1
        exact ⟨rfl, rfl, rfl, rfl, rfl, rfl, rfl⟩

theorem inv_step {s u : S} {e : Ev} (h : LogInv s) (hsh : Shape s) (hs : step s e = some (.ok u)) : LogInv u ∧ Shape u := by
  have hid := hsh.idle
  have hgo := hsh.gone
  cases e with
  | init =>
    simp only [step] at hs
    split at hs
    · obtain ⟨h1, e1⟩ := log_sweep h (Option.some.inj hs) (by show s.next ≤ s.next + 1; omega) rfl
        (fun o ho => by
          rw [alive_iff] at ho ⊢
          show _ ∨ (s.next ≤ o ∧ o < s.next + 1)
          simp only [Option.some.injEq] at ho
          grind)
        (fun o h1 h2 => by
          have h2' : o < s.next + 1 := h2
          rw [alive_iff]
          have : s.next = o := by omega
          simp [this])
      refine ⟨h1, ?_⟩
      subst e1
      exact ⟨fun hc => (by cases hc), fun hc => (by cases hc)⟩
    · cases hs
  | create app =>
    simp only [step] at hs
    split at hs
    · cases hs
    next hg =>
      obtain ⟨h1, e1⟩ := log_sweep h (Option.some.inj hs) (by show s.next ≤ s.next + 1; omega) rfl
        (fun o ho => by
          rw [alive_iff] at ho ⊢
          show _ ∨ (s.next ≤ o ∧ o < s.next + 1)
          simp only at ho
          by_cases ho' : o = s.next
          · exact Or.inr (by omega)
          · refine Or.inl ?_
            rcases ho with ho | ho | ho | ho | ho | ho
            · split at ho <;> simp_all
            · simp [ho]
            · simp [ho]
            · simp [ho]
            · simp [ho]
            · split at ho <;> simp_all [upd])
        (fun o h1 h2 => by
          have h2' : o < s.next + 1 := h2
          have h3 : o = s.next := by omega
          rw [alive_iff]
          subst h3
          by_cases hc : s.st = .created
          · have : app = true := by grind
            simp [this, upd]
          · simp [hc])
      refine ⟨h1, ?_⟩
      subst e1
      exact ⟨hid, fun hc => absurd (Or.inl hc) hg⟩
  | settle o keep =>
    simp only [step] at hs
    split at hs
    next hm =>
      have hm' : o ∈ s.own := by simpa using hm
      obtain ⟨h1, e1⟩ := log_less h (Option.some.inj hs) rfl rfl (fun x hx => by
        rw [alive_iff] at hx ⊢
        simp only at hx
        rcases hx with hx | hx
        · split at hx
          · exact Or.inl hx
          · exact Or.inl (List.mem_filter.1 hx).1
        · rcases hx with hx | hx
          · rcases List.mem_cons.1 hx with rfl | hx
            · exact Or.inl hm'
            · exact Or.inr (Or.inl hx)
          · exact Or.inr (Or.inr hx))
      refine ⟨h1, ?_⟩
      subst e1
      exact ⟨hid, fun hc => (by rw [(hgo hc).1] at hm'; cases hm')⟩
    · cases hs
  | kill o =>
    simp only [step] at hs
    split at hs
    next hal =>
      split at hs
      · cases hs
      next hg =>
        obtain ⟨h1, e1⟩ := log_less h (Option.some.inj hs) rfl rfl (fun x hx => by
          by_cases hxo : x = o
          · rw [hxo]; exact hal
          · rw [alive_iff] at hx ⊢
            simp only at hx
            rcases hx with hx | hx | hx | hx
            · exact Or.inl (List.mem_filter.1 hx).1
            · exact Or.inr (Or.inl (List.mem_filter.1 hx).1)
            · split at hx
              · exact Or.inr (Or.inr (Or.inl hx))
              · rcases List.mem_cons.1 hx with hx | hx
                · exact absurd hx hxo
                · exact Or.inr (Or.inr (Or.inl hx))
            · exact Or.inr (Or.inr (Or.inr hx)))
        refine ⟨h1, ?_⟩
        subst e1
        exact ⟨hid, fun hc => absurd hc hg⟩
    · cases hs
  | collect =>
    simp only [step] at hs
    split at hs
    next hl =>
      obtain ⟨h1, e1⟩ := log_less h (Option.some.inj hs) rfl rfl (fun x hx => by rw [alive_iff] at hx ⊢; simp at hx; grind)
      refine ⟨h1, ?_⟩
      subst e1
      exact ⟨hid, fun hc => by have hc' : s.st = .gone := hc; rw [hl] at hc'; cases hc'⟩
    · cases hs
  | startOp o =>
    simp only [step] at hs
    split at hs
    next hl =>
      obtain ⟨h1, e1⟩ := log_less h (Option.some.inj hs) rfl rfl (fun x hx => by
        by_cases hxo : x = o
        · rw [hxo]; exact hl.2
        · rw [alive_iff] at hx ⊢
          simp [hxo] at hx
          grind)
      refine ⟨h1, ?_⟩
      subst e1
      refine ⟨fun hc => ?_, fun hc => ?_⟩
      · have hc' : s.st = .created := hc
        rw [hc'] at hl; simp at hl
      · have hc' : s.st = .gone := hc
        rw [hc'] at hl; simp at hl
    · cases hs
  | endOp o =>
    simp only [step] at hs
    split at hs
    next hm =>
      have hm' : o ∈ s.wait := by simpa using hm
      obtain ⟨h1, e1⟩ := log_less h (Option.some.inj hs) rfl rfl (fun x hx => by
        rw [alive_iff] at hx ⊢
        simp only at hx
        rcases hx with hx | hx | hx | hx | hx
        · exact Or.inl hx
        · exact Or.inr (Or.inl hx)
        · exact Or.inr (Or.inr (Or.inl hx))
        · exact Or.inr (Or.inr (Or.inr (Or.inl (List.mem_of_mem_erase hx))))
        · exact Or.inr (Or.inr (Or.inr (Or.inr hx))))
      refine ⟨h1, ?_⟩
      subst e1
      refine ⟨fun hc => ?_, fun hc => ?_⟩
      · rw [hid hc] at hm'; cases hm'
      · rw [(hgo hc).2.2.2.1] at hm'; cases hm'
    · cases hs
  | take o =>
    simp only [step] at hs
    split at hs
    next hal =>
      obtain ⟨h1, e1⟩ := log_less h (Option.some.inj hs) rfl rfl (fun x hx => by
        by_cases hxo : x = o
        · rw [hxo]; exact hal
        · rw [alive_iff] at hx ⊢
          simpa [upd, hxo] using hx)
      refine ⟨h1, ?_⟩
      subst e1
      exact ⟨hid, hgo⟩
    · cases hs
  | drop o =>
    simp only [step] at hs
    split at hs
    next hr =>
      obtain ⟨h1, e1⟩ := log_less h (Option.some.inj hs) rfl rfl (fun x hx => by
        by_cases hxo : x = o
        · rw [hxo, alive_iff]; simp [hr]
        · rw [alive_iff] at hx ⊢
          simpa [upd, hxo] using hx)
      refine ⟨h1, ?_⟩
      subst e1
      exact ⟨hid, hgo⟩
    · cases hs
  | resetBegin =>
    simp only [step] at hs
    split at hs
    next hl =>
      obtain ⟨h1, e1⟩ := log_less h (Option.some.inj hs) rfl rfl (fun x hx => by rw [alive_iff] at hx ⊢; simp at hx; grind)
      refine ⟨h1, ?_⟩
      subst e1
      exact ⟨fun hc => (by cases hc), fun hc => (by cases hc)⟩
    · cases hs
  | resetEnd =>
    simp only [step] at hs
    split at hs
    next hl =>
      obtain ⟨h1, e1⟩ := log_less h (Option.some.inj hs) rfl rfl (fun x hx => by rw [alive_iff] at hx ⊢; exact hx)
      refine ⟨h1, ?_⟩
      subst e1
      exact ⟨fun _ => hl.2, fun hc => (by cases hc)⟩
    · cases hs
  | destroy =>
    simp only [step] at hs
    split at hs
    next hc =>
      obtain ⟨h1, h2, h3, h4, h5, h6, h7, -, -⟩ := destroy_ok h (Option.some.inj hs)
      refine ⟨h1, ⟨fun hq => ?_, fun _ => ⟨h3, h4, h5, h6.trans (hid hc), h7⟩⟩⟩
      rw [h2] at hq; cases hq
    · cases hs

theorem inv_start : LogInv S.init ∧ Shape S.init :=
  ⟨⟨List.nodup_nil, fun o => by simp [S.init], fun o ho => by simp [S.init, S.alive] at ho⟩,
   ⟨fun _ => rfl, fun h => (by cases h)⟩⟩

theorem inv_run {s u : S} {es : List Ev} (h : LogInv s) (hsh : Shape s) (hr : run s es = some (.ok u)) : LogInv u ∧ Shape u := by
  induction es generalizing s with
  | nil => cases hr; exact ⟨h, hsh⟩
  | cons e es ih =>
    simp only [run] at hr
    split at hr
    · cases hr
    · cases hr
    next t ht =>
      obtain ⟨h1, h2⟩ := inv_step h hsh ht
      exact ih h1 h2 hr

/-! ## Careful applications -/

/-- The application makes no connection inside the callbacks of `reset`, and has given back all pointers when the node is destroyed. -/
def Careful (s : S) : List Ev → Prop
  | [] => True
  | e :: es =>
    (s.st = .resetting → ∀ app, e ≠ .create app) ∧ (e = .destroy → ∀ o, s.refs o = 0) ∧
      ∀ t, step s e = some (.ok t) → Careful t es

/-- What holds then. -/
structure Calm (s : S) : Prop where
  own : s.st = .created ∨ s.st = .resetting → s.own = []
  clear : s.st = .resetting → s.tab = [] ∧ s.gc = []
  free : s.st = .gone → ∀ o, s.refs o = 0

theorem sweep_eq {s t u : S} (hs : sweep s t = .ok u) : u = { t with log := t.log ++ dead s t } := by
  unfold sweep at hs
  split at hs <;> cases hs
  rfl

theorem sweep_ok {s t : S} (h : t.st ≠ .gone) : ∃ u, sweep s t = .ok u := by
  unfold sweep
  rw [if_neg (fun hq => h hq.1)]
  exact ⟨_, rfl⟩

theorem calm_step {s u : S} {e : Ev} (h : LogInv s) (hsh : Shape s) (hc : Calm s)
    (h1 : s.st = .resetting → ∀ app, e ≠ .create app) (h2 : e = .destroy → ∀ o, s.refs o = 0)
    (hs : step s e = some (.ok u)) : Calm u := by
  have hown := hc.own
  have hcl := hc.clear
  have hfr := hc.free
  cases e with
  | destroy =>
    simp only [step] at hs
    split at hs
    next hq =>
      obtain ⟨-, g2, -, -, -, -, -, g8, -⟩ := destroy_ok h (Option.some.inj hs)
      exact ⟨fun hx => (by rw [g2] at hx; simp at hx), fun hx => (by rw [g2] at hx; cases hx),
        fun _ o => by rw [g8]; exact h2 rfl o⟩
    · cases hs
  | init =>
    simp only [step] at hs
    split at hs
    · have := sweep_eq (Option.some.inj hs)
      subst this
      exact ⟨fun hx => (by simp at hx), fun hx => (by cases hx), fun hx => (by cases hx)⟩
    · cases hs
  | create app =>
    simp only [step] at hs
    split at hs
    · cases hs
    next hg =>
      have := sweep_eq (Option.some.inj hs)
      subst this
      refine ⟨fun hx => ?_, fun hx => absurd rfl (h1 hx app), fun hx => absurd (Or.inl hx) hg⟩
      rcases hx with hx | hx
      · have hx' : s.st = .created := hx
        show (if s.st = .created then s.own else s.next :: s.own) = []
        rw [if_pos hx']
        exact hown (Or.inl hx')
      · exact absurd rfl (h1 hx app)
  | settle o keep =>
    simp only [step] at hs
    split at hs
    next hm =>
      have hm' : o ∈ s.own := by simpa using hm
      have := sweep_eq (Option.some.inj hs)
      subst this
      exact ⟨fun hx => (by rw [hown hx] at hm'; cases hm'), fun hx => (by rw [hown (Or.inr hx)] at hm'; cases hm'), hfr⟩
    · cases hs
  | kill o =>
    simp only [step] at hs
    split at hs
    · split at hs
      · cases hs
      next hg =>
        have := sweep_eq (Option.some.inj hs)
        subst this
        refine ⟨fun hx => ?_, fun hx => ?_, hfr⟩
        · show s.own.filter (· != o) = []
          rw [hown hx]; rfl
        · have hx' : s.st = .resetting := hx
          show s.tab.filter (· != o) = [] ∧ (if s.st = .resetting then s.gc else o :: s.gc) = []
          rw [if_pos hx', (hcl hx').1, (hcl hx').2]
          exact ⟨rfl, rfl⟩
    · cases hs
  | collect =>
    simp only [step] at hs
    split at hs
    · have := sweep_eq (Option.some.inj hs)
      subst this
      exact ⟨hown, fun hx => ⟨(hcl hx).1, rfl⟩, hfr⟩
    · cases hs
  | startOp o =>
    simp only [step] at hs
    split at hs
    · have := sweep_eq (Option.some.inj hs)
      subst this
      exact ⟨hown, hcl, hfr⟩
    · cases hs
  | endOp o =>
    simp only [step] at hs
    split at hs
    · have := sweep_eq (Option.some.inj hs)
      subst this
      exact ⟨hown, hcl, hfr⟩
    · cases hs
  | take o =>
    simp only [step] at hs
    split at hs
    next hal =>
      have := sweep_eq (Option.some.inj hs)
      subst this
      refine ⟨hown, hcl, fun hx => ?_⟩
      have hx' : s.st = .gone := hx
      obtain ⟨g1, g2, g3, g4, g5⟩ := hsh.gone hx'
      rw [alive_iff, g1, g2, g3, g4, g5, hfr hx' o] at hal
      simp at hal
    · cases hs
  | drop o =>
    simp only [step] at hs
    split at hs
    next hr =>
      have := sweep_eq (Option.some.inj hs)
      subst this
      refine ⟨hown, hcl, fun hx => ?_⟩
      rw [hfr hx o] at hr
      cases hr
    · cases hs
  | resetBegin =>
    simp only [step] at hs
    split at hs
    · have := sweep_eq (Option.some.inj hs)
      subst this
      exact ⟨fun _ => rfl, fun _ => ⟨rfl, rfl⟩, fun hx => (by cases hx)⟩
    · cases hs
  | resetEnd =>
    simp only [step] at hs
    split at hs
    next hl =>
      have := sweep_eq (Option.some.inj hs)
      subst this
      exact ⟨fun _ => hown (Or.inr hl.1), fun hx => (by cases hx), fun hx => (by cases hx)⟩
    · cases hs

theorem dead_self (s : S) (f : List Nat) (h : s.own = f) : dead s { s with own := f } = [] := by
  subst h
  simp only [dead, List.filter_eq_nil_iff]
  intro o _
  have : S.alive { s with own := s.own } o = s.alive o := rfl
  rw [this]
  cases s.alive o <;> simp

/-- Nothing goes wrong in one step. -/
theorem step_good {s : S} {e : Ev} {o : Out} (hsh : Shape s) (hc : Calm s) (hs : step s e = some o) : ∃ t, o = .ok t := by
  have dead_gone : s.st = .gone → ∀ o, s.alive o = false := fun hg o => by
    obtain ⟨g1, g2, g3, g4, g5⟩ := hsh.gone hg
    cases hq : s.alive o with
    | false => rfl
    | true => rw [alive_iff, g1, g2, g3, g4, g5, hc.free hg o] at hq; simp at hq
  have low : ∀ t, sweep s t = o → t.st = s.st → ∃ t, o = .ok t := fun t hq ht => by
    unfold sweep at hq
    split at hq
    next hb =>
      refine absurd ?_ hb.2
      simp only [dead, List.filter_eq_nil_iff]
      intro x _
      rw [dead_gone (ht.symm.trans hb.1)]
      simp
    · exact ⟨_, hq.symm⟩
  have high : ∀ t, t.st ≠ .gone → sweep s t = o → ∃ t, o = .ok t := fun t ht hq => by
    obtain ⟨u, hu⟩ := sweep_ok (s := s) ht
    exact ⟨u, hq.symm.trans hu⟩
  cases e with
  | destroy =>
    simp only [step] at hs
    split at hs
    next hq =>
      have hs' := Option.some.inj hs
      unfold destroyNode at hs'
      obtain ⟨t, ht⟩ := sweep_ok (s := s) (t := { s with self := none }) (by show s.st ≠ _; rw [hq]; simp)
      have et := sweep_eq ht
      have ho : t.own = [] := by rw [et]; exact hc.own (Or.inl hq)
      have hst : t.st = .created := by rw [et]; exact hq
      rw [ht] at hs'
      simp only [dead_self t [] ho] at hs'
      obtain ⟨v, hv⟩ := sweep_ok (s := t) (t := { t with own := [], tab := [], gc := [] }) (by show t.st ≠ _; rw [hst]; simp)
      rw [hv] at hs'
      simp at hs'
      exact ⟨_, hs'.symm⟩
    · cases hs
  | init =>
    simp only [step] at hs
    split at hs
    · exact high _ (by simp) (Option.some.inj hs)
    · cases hs
  | create app =>
    simp only [step] at hs
    split at hs
    · cases hs
    · exact low _ (Option.some.inj hs) rfl
  | settle o keep =>
    simp only [step] at hs
    split at hs
    · exact low _ (Option.some.inj hs) rfl
    · cases hs
  | kill o =>
    simp only [step] at hs
    split at hs
    next hal =>
      split at hs
      next hg => rw [dead_gone hg] at hal; cases hal
      · exact low _ (Option.some.inj hs) rfl
    · cases hs
  | collect =>
    simp only [step] at hs
    split at hs
    · exact low _ (Option.some.inj hs) rfl
    · cases hs
  | startOp o =>
    simp only [step] at hs
    split at hs
    · exact low _ (Option.some.inj hs) rfl
    · cases hs
  | endOp o =>
    simp only [step] at hs
    split at hs
    · exact low _ (Option.some.inj hs) rfl
    · cases hs
  | take o =>
    simp only [step] at hs
    split at hs
    · exact low _ (Option.some.inj hs) rfl
    · cases hs
  | drop o =>
    simp only [step] at hs
    split at hs
    · exact low _ (Option.some.inj hs) rfl
    · cases hs
  | resetBegin =>
    simp only [step] at hs
    split at hs
    · exact high _ (by simp) (Option.some.inj hs)
    · cases hs
  | resetEnd =>
    simp only [step] at hs
    split at hs
    · exact high _ (by simp) (Option.some.inj hs)
    · cases hs

theorem good_run {s : S} {es : List Ev} {o : Out} (h : LogInv s) (hsh : Shape s) (hc : Calm s) (hq : Careful s es)
    (hr : run s es = some o) : ∃ t, o = .ok t ∧ LogInv t ∧ Shape t ∧ Calm t := by
  induction es generalizing s with
  | nil => cases hr; exact ⟨s, rfl, h, hsh, hc⟩
  | cons e es ih =>
    simp only [run] at hr
    obtain ⟨q1, q2, q3⟩ := hq
    split at hr
    · cases hr
    next b hb =>
      obtain ⟨t, ht⟩ := step_good hsh hc hb
      cases ht
    next t ht =>
      obtain ⟨g1, g2⟩ := inv_step h hsh ht
      exact ih g1 g2 (calm_step h hsh hc q1 q2 ht) (q3 t ht) hr

theorem calm_start : Calm S.init :=
  ⟨fun _ => rfl, fun h => (by cases h), fun h => (by cases h)⟩

/-! ## The property -/

/-- C103: whatever happens, an object is destroyed exactly when the last pointer to it is gone, and only once. -/
theorem C103_once {es : List Ev} {s : S} (hr : run S.init es = some (.ok s)) :
    s.log.Nodup ∧ ∀ o, o ∈ s.log ↔ o < s.next ∧
      ¬ (o ∈ s.own ∨ o ∈ s.tab ∨ o ∈ s.gc ∨ o ∈ s.wait ∨ s.self = some o ∨ 0 < s.refs o) := by
  obtain ⟨h, -⟩ := inv_run inv_start.1 inv_start.2 hr
  refine ⟨h.nodup, fun o => ?_⟩
  rw [h.mem, ← alive_iff]
  simp

/-- C103: with a careful application no object uses the node after its end, and none is taken out of a list that is being destroyed. -/
theorem C103_safe_partial {es : List Ev} {o : Out} (hq : Careful S.init es) (hr : run S.init es = some o) : ∃ s, o = .ok s :=
  let ⟨t, ht, _⟩ := good_run inv_start.1 inv_start.2 calm_start hq hr
  ⟨t, ht⟩

/-- C103: then every object that was ever made has been destroyed when the node has been. -/
theorem C103_freed_partial {es : List Ev} {s : S} (hq : Careful S.init es) (hr : run S.init es = some (.ok s)) (hg : s.st = .gone) :
    s.log.Perm (List.range s.next) := by
  obtain ⟨t, ht, h, hsh, hc⟩ := good_run inv_start.1 inv_start.2 calm_start hq hr
  cases ht
  rw [List.perm_ext_iff_of_nodup h.nodup List.nodup_range]
  intro o
  rw [h.mem, List.mem_range]
  obtain ⟨g1, g2, g3, g4, g5⟩ := hsh.gone hg
  refine ⟨fun hx => hx.1, fun hx => ⟨hx, ?_⟩⟩
  cases hal : s.alive o with
  | false => rfl
  | true => rw [alive_iff, g1, g2, g3, g4, g5, hc.free hg o] at hal; simp at hal

/-- C103: when `reset` has ended only the node's own endpoint and what the application holds are left. -/
theorem C103_reset_partial {es : List Ev} {t s : S} (hq : Careful S.init es) (hr : run S.init es = some (.ok t))
    (hs : step t .resetEnd = some (.ok s)) {o : Nat} (ho : o < s.next) (hl : o ∉ s.log) : s.self = some o ∨ 0 < s.refs o := by
  obtain ⟨t', ht, h, hsh, hc⟩ := good_run inv_start.1 inv_start.2 calm_start hq hr
  cases ht
  obtain ⟨h1, -⟩ := inv_step h hsh hs
  have hal : s.alive o = true := by
    cases hal : s.alive o with
    | true => rfl
    | false => exact absurd ((h1.mem o).2 ⟨ho, hal⟩) hl
  simp only [step] at hs
  split at hs
  next hw =>
    have := sweep_eq (Option.some.inj hs)
    subst this
    rw [alive_iff] at hal
    simp only [hc.own (Or.inr hw.1), (hc.clear hw.1).1, (hc.clear hw.1).2, hw.2] at hal
    simpa using hal
  · cases hs

/-- C103 is false of the code without the condition on pointers: whatever the application still holds when the node is gone uses freed memory
as soon as it is given back. -/
theorem C103_kept_false {es : List Ev} {s : S} (hr : run S.init es = some (.ok s)) (hg : s.st = .gone) {o : Nat} (hk : 0 < s.refs o) :
    run s (List.replicate (s.refs o) (.drop o)) = some (.bad .useAfterFree) := by
  obtain ⟨h, hsh⟩ := inv_run inv_start.1 inv_start.2 hr
  clear hr
  generalize hn : s.refs o = n
  induction n generalizing s with
  | zero => omega
  | succ n ih =>
    obtain ⟨g1, g2, g3, g4, g5⟩ := hsh.gone hg
    have hso : s.alive o = true := by rw [alive_iff]; simp [hk]
    rw [List.replicate_succ]
    by_cases h0 : n = 0
    · have hd : sweep s { s with refs := upd s.refs o (s.refs o - 1) } = .bad .useAfterFree := by
        unfold sweep
        have hm : o ∈ dead s { s with refs := upd s.refs o (s.refs o - 1) } := by
          rw [mem_dead]
          refine ⟨h.lt o hso, hso, ?_⟩
          cases hq : S.alive { s with refs := upd s.refs o (s.refs o - 1) } o with
          | false => rfl
          | true => rw [alive_iff] at hq; simp [g1, g2, g3, g4, g5, upd, hn, h0] at hq
        exact if_pos ⟨hg, fun hx => by rw [hx] at hm; cases hm⟩
      simp only [run, step]
      rw [if_pos hk, hd]
    · have hd : dead s { s with refs := upd s.refs o (s.refs o - 1) } = [] := by
        simp only [dead, List.filter_eq_nil_iff]
        intro x _
        by_cases hxo : x = o
        · have : S.alive { s with refs := upd s.refs o (s.refs o - 1) } x = true := by
            rw [alive_iff]; simp [hxo, upd]; omega
          rw [this]; simp
        · have : S.alive { s with refs := upd s.refs o (s.refs o - 1) } x = s.alive x := by
            simp [S.alive, upd, hxo]
          rw [this]; cases s.alive x <;> simp
      have hsw : step s (.drop o) = some (.ok { s with refs := upd s.refs o (s.refs o - 1), log := s.log ++ [] }) := by
        simp only [step]
        rw [if_pos hk]
        unfold sweep
        rw [hd, if_neg (by simp)]
      simp only [run]
      rw [hsw]
      obtain ⟨i1, i2⟩ := inv_step h hsh hsw
      exact ih hg (by simp [upd]; omega) i1 i2 (by simp [upd]; omega)

/-- An application that keeps a pointer to a connection: the node is reset and destroyed, then the pointer is given back. -/
def keeps : List Ev := [.init, .create false, .take 1, .settle 1 false, .resetBegin, .resetEnd, .destroy, .drop 1]

/-- An application that connects again inside `reset` (here: when a connection fails): the new connection is still in the list of those that
have not finished the handshake when the node is destroyed. -/
def reconnects : List Ev :=
  [.init, .create false, .startOp 1, .resetBegin, .create false, .startOp 2, .endOp 1, .endOp 2, .resetEnd, .destroy]

/-- C103 is false of the code for an application that keeps a pointer. -/
theorem C103_pointer_false : ¬ ∀ es o, run S.init es = some o → o ≠ .bad .useAfterFree := fun h =>
  h keeps _ rfl rfl

/-- C103 is false of the code for an application that connects inside the callbacks of `reset`, even if it never holds a pointer. -/
theorem C103_late_false : ¬ ∀ es o, (∀ e ∈ es, e ≠ .create true ∧ ∀ x, e ≠ .take x) → run S.init es = some o →
    o ≠ .bad .eraseInDestructor := fun h =>
  h reconnects _ (by simp [reconnects]) rfl rfl

/-- A boolean form of `Careful`, where the objects below `n` are looked at. -/
def carefulB (n : Nat) (s : S) : List Ev → Bool
  | [] => true
  | e :: es =>
    (s.st != .resetting || (e != .create true && e != .create false)) && (e != .destroy || (List.range n).all (fun o => s.refs o == 0)) &&
      match step s e with
      | some (.ok t) => decide (t.next ≤ n) && carefulB n t es
      | _ => true

theorem carefulB_iff {n : Nat} {s : S} {es : List Ev} (h : LogInv s) (hsh : Shape s) (hn : s.next ≤ n)
    (hb : carefulB n s es = true) : Careful s es := by
  induction es generalizing s with
  | nil => trivial
  | cons e es ih =>
    simp only [carefulB, Bool.and_eq_true] at hb
    obtain ⟨⟨b1, b2⟩, b3⟩ := hb
    refine ⟨fun hr app he => ?_, fun he o => ?_, fun t ht => ?_⟩
    · rw [hr, he] at b1
      cases app <;> simp at b1
    · rw [he] at b2
      by_cases ho : o < n
      · simp at b2
        exact b2 o ho
      · by_cases h0 : s.refs o = 0
        · exact h0
        · have := h.lt o (by rw [alive_iff]; exact Or.inr (Or.inr (Or.inr (Or.inr (Or.inr (by omega))))))
          omega
    · rw [ht] at b3
      simp only [Bool.and_eq_true, decide_eq_true_eq] at b3
      obtain ⟨i1, i2⟩ := inv_step h hsh ht
      exact ih i1 i2 b3.1 b3.2

/-- A node with an accepted and a connected peer, one of them reset and collected, and a connection that the application keeps over a `reset`
and gives back later. -/
def good : List Ev :=
  [.init, .create false, .create false, .startOp 1, .settle 2 true, .take 2, .endOp 1, .settle 1 false, .kill 1, .collect, .create true,
   .startOp 3, .resetBegin, .kill 2, .endOp 3, .drop 3, .resetEnd, .kill 2, .init, .resetBegin, .drop 2, .resetEnd, .create true,
   .drop 5, .destroy]

example : Careful S.init good := carefulB_iff (n := 6) inv_start.1 inv_start.2 (by decide) (by decide +kernel)

example : (match run S.init good with | some (.ok s) => some (s.st, s.next, s.log) | _ => none) = some (.gone, 6, [1, 3, 0, 2, 5, 4]) := by
  decide +kernel

end Verif.Node.Owner
