import Verif.Mem.ConcRun

/-! Operation numbers: while the 32-bit counter has not wrapped, every number that is taken is new. -/
namespace Verif.Mem.Conc

set_option maxRecDepth 10000

/-- The operation number that a sender holds. -/
def held : SPC → Option Nat
  | .loadW _ _ seq => some seq
  | .loadR _ _ seq _ _ => some seq
  | .cas _ _ seq _ _ _ => some seq
  | .work _ _ seq _ _ _ _ => some seq
  | _ => none

/-- No number above the counter is in use, and no number is used by two senders or written before its message has nodes. -/
structure Nums (s : St) : Prop where
  heads : ∀ i, (s.heads i).seq ≤ s.oseq
  held : ∀ t v, held (s.thr t) = some v → v ≤ s.oseq
  todo : ∀ t m left q w id todo reg, s.thr t = .work m left q w id todo reg → ∀ i v, .seq i v ∈ todo → v = q
  apart : ∀ t u v, t ≠ u → Conc.held (s.thr t) = some v → Conc.held (s.thr u) ≠ some v
  fresh : ∀ t v i, Conc.held (s.thr t) = some v → (s.thr t).number = none → (s.heads i).seq ≠ v

theorem nums_init (conf : Conf) : Nums (St.init conf) where
  heads := fun _ => Nat.le_refl 0
  held := by intro t v h; cases h
  todo := by intro t m left q w id todo reg h; cases h
  apart := by intro t u v _ h; cases h
  fresh := by intro t v i h; cases h

/-- A sender goes on with the number it has, or with none. -/
theorem Nums.to {s s' : St} (h : Nums s) {t : Nat} {p : SPC}
    (hh : ∀ i, (s'.heads i).seq = (s.heads i).seq ∨ (s.thr t).number = some (s'.heads i).seq) (hs : s'.thr = setThr s.thr t p)
    (ho : s'.oseq = s.oseq) (hp : ∀ v, Conc.held p = some v → Conc.held (s.thr t) = some v)
    (hf : p.number = none → (s.thr t).number = none ∨ Conc.held p = none)
    (ht : ∀ m left q w id todo reg, p = .work m left q w id todo reg → ∀ i v, .seq i v ∈ todo → v = q) : Nums s' := by
  have hnum : ∀ v, (s.thr t).number = some v → Conc.held (s.thr t) = some v := by
    intro v
    cases s.thr t <;> simp [SPC.number, Conc.held]
  have key : ∀ u v, Conc.held (s'.thr u) = some v → Conc.held (s.thr u) = some v := by
    intro u v hv
    simp only [hs, setThr] at hv
    split at hv
    · rename_i e; rw [e]; exact hp v hv
    · exact hv
  exact {
    heads := fun i => by
      rw [ho]
      rcases hh i with e | e
      · rw [e]; exact h.heads i
      · exact h.held t _ (hnum _ e)
    held := fun u v hv => by rw [ho]; exact h.held u v (key u v hv)
    todo := by
      intro u m left q w id todo reg hu
      simp only [hs, setThr] at hu
      split at hu
      · exact ht m left q w id todo reg hu
      · exact h.todo u m left q w id todo reg hu
    apart := fun a b v hab ha hb => h.apart a b v hab (key a v ha) (key b v hb)
    fresh := by
      intro u v i hu hn e
      have hk := key u v hu
      by_cases hut : u = t
      · subst hut
        simp only [hs, setThr, if_true] at hu hn
        rcases hf hn with h1 | h1
        · rcases hh i with e2 | e2
          · exact h.fresh u v i hk h1 (e2 ▸ e)
          · rw [h1] at e2; cases e2
        · rw [h1] at hu; cases hu
      · rw [hs] at hn
        simp only [setThr, if_neg hut] at hn
        rcases hh i with e2 | e2
        · exact h.fresh u v i hk hn (e2 ▸ e)
        · exact h.apart u t v hut hk (by rw [hnum _ e2, e]) }

theorem Nums.mem {s s' : St} (h : Nums s) (h1 : ∀ i, (s'.heads i).seq = (s.heads i).seq) (h2 : s'.thr = s.thr) (h3 : s'.oseq = s.oseq) : Nums s' where
  heads := fun i => by rw [h3, h1]; exact h.heads i
  held := fun t v hv => by rw [h2] at hv; rw [h3]; exact h.held t v hv
  todo := fun t m left q w id todo reg hv => by rw [h2] at hv; exact h.todo t m left q w id todo reg hv
  apart := fun t u v => by rw [h2]; exact h.apart t u v
  fresh := fun t v i => by rw [h2, h1]; exact h.fresh t v i

theorem nums_call {s : St} (h : Nums s) (t : Nat) (m : Msg) : Nums (callSend s t m) := by
  have hr : ∀ c, Nums (s.returns t m c) := fun c => h.to (fun _ => Or.inl rfl) rfl rfl (by intro v hv; cases hv) (fun _ => Or.inr rfl) (by intro _ _ _ _ _ _ _ e; cases e)
  unfold callSend
  split
  · exact hr _
  · split
    · exact hr _
    · split
      · exact hr _
      · exact h.to (fun _ => Or.inl rfl) rfl rfl (by intro v hv; cases hv) (fun _ => Or.inr rfl) (by intro _ _ _ _ _ _ _ e; cases e)

theorem nums_send {hash : List Byte → Nat} {s s1 : St} {t : Nat} {weak : Bool} (h : Nums s) (hl : CountOK s (.send t weak))
    (hs : stepSend hash s t weak = some s1) : Nums s1 := by
  unfold stepSend at hs
  simp only [CountOK] at hl
  have hr : ∀ m c, Nums (s.returns t m c) := fun m c => h.to (fun _ => Or.inl rfl) rfl rfl (by intro v hv; cases hv) (fun _ => Or.inr rfl) (by intro _ _ _ _ _ _ _ e; cases e)
  have hh := h.held t
  split at hs
  · cases hs
  · cases hs
  · rename_i m left ht
    rw [ht] at hl
    simp only at hl
    have hv : (s.oseq + 1) % 2 ^ 32 = s.oseq + 1 := Nat.mod_eq_of_lt hl
    simp only [hv, Option.some.injEq] at hs
    rw [if_neg (by omega)] at hs
    subst hs
    exact {
      heads := fun i => Nat.le_succ_of_le (h.heads i)
      held := by
        intro u v hv
        simp only [St.pc, setThr] at hv
        split at hv
        · simp only [held, Option.some.injEq] at hv
          subst hv
          exact Nat.le_refl _
        · exact Nat.le_succ_of_le (h.held u v hv)
      todo := by
        intro u m left q w id todo reg hu
        simp only [St.pc, setThr] at hu
        split at hu
        · cases hu
        · exact h.todo u m left q w id todo reg hu
      apart := by
        intro a b v hab ha hb
        simp only [St.pc, setThr] at ha hb
        split at ha
        · rename_i ea
          simp only [held, Option.some.injEq] at ha
          rw [if_neg (fun e => hab (ea.trans e.symm))] at hb
          have := h.held b v hb
          omega
        · split at hb
          · simp only [held, Option.some.injEq] at hb
            have := h.held a v ha
            omega
          · exact h.apart a b v hab ha hb
      fresh := by
        intro u v i hu hn
        show (s.heads i).seq ≠ v
        simp only [St.pc, setThr] at hu hn
        split at hu
        · simp only [held, Option.some.injEq] at hu
          have := h.heads i
          omega
        · rename_i hut
          rw [if_neg hut] at hn
          exact h.fresh u v i hu hn }
  · rename_i m left seq ht
    simp only [Option.some.injEq] at hs
    subst hs
    rw [ht] at hh
    exact h.to (fun _ => Or.inl rfl) rfl rfl (fun v hv => by rw [ht]; exact hv) (fun _ => Or.inl (by rw [ht]; rfl)) (by intro _ _ _ _ _ _ _ e; cases e)
  · rename_i m left seq w wT ht
    simp only at hs
    rw [ht] at hh
    split at hs
    · simp only [Option.some.injEq] at hs
      subst hs
      exact hr _ _
    · simp only [Option.some.injEq] at hs
      subst hs
      exact h.to (fun _ => Or.inl rfl) rfl rfl (fun v hv => by rw [ht]; exact hv) (fun _ => Or.inl (by rw [ht]; rfl)) (by intro _ _ _ _ _ _ _ e; cases e)
  · rename_i m left seq w wT k ht
    rw [ht] at hh
    split at hs
    · simp only [Option.some.injEq] at hs
      subst hs
      exact h.to (fun _ => Or.inl rfl) rfl rfl (fun v hv => by rw [ht]; exact hv) (fun _ => Or.inl (by rw [ht]; rfl)) (by intro _ _ _ _ _ _ _ e; cases e)
    · simp only at hs
      split at hs
      · simp only [Option.some.injEq] at hs
        subst hs
        exact h.to (fun _ => Or.inl rfl) rfl rfl (by intro v hv; cases hv) (fun _ => Or.inr rfl) (by intro _ _ _ _ _ _ _ e; cases e)
      · rename_i acts hp
        simp only [Option.some.injEq] at hs
        subst hs
        refine h.to (fun _ => Or.inl rfl) rfl rfl (fun v hv => by rw [ht]; exact hv) (fun _ => Or.inl (by rw [ht]; rfl)) ?_
        intro _ _ _ _ _ _ _ e i v hv
        cases e
        exact prog_seq hp hv
  · rename_i m left seq w id todo reg ht
    rw [ht] at hh
    have htd := h.todo t _ _ _ _ _ _ _ ht
    cases todo with
    | nil => cases hs
    | cons a rest =>
      simp only at hs
      have hb : ∀ i, ((act s.heads s.data reg a).1 i).seq = (s.heads i).seq ∨
          (s.thr t).number = some ((act s.heads s.data reg a).1 i).seq := by
        intro i
        rcases act_seq (h := s.heads) (d := s.data) (r := reg) (a := a) (q := seq)
          (fun i v e => htd i v (by rw [e]; exact List.mem_cons_self)) i with e | e
        · exact Or.inl e
        · rw [ht, e]; exact Or.inr rfl
      split at hs
      · simp only [Option.some.injEq] at hs
        subst hs
        exact h.to hb rfl rfl (by intro v hv; cases hv) (fun _ => Or.inr rfl) (by intro _ _ _ _ _ _ _ e; cases e)
      · simp only [Option.some.injEq] at hs
        subst hs
        refine h.to hb rfl rfl (fun v hv => by rw [ht]; exact hv) (fun e => by cases e) ?_
        intro _ _ _ _ _ _ _ e i v hv
        cases e
        exact htd i v (List.mem_cons_of_mem _ hv)
  · rename_i m left seq w id ht
    split at hs
    · simp only [Option.some.injEq] at hs
      subst hs
      exact hr _ _
    · split at hs
      · simp only [Option.some.injEq] at hs
        subst hs
        exact hr _ _
      · simp only [Option.some.injEq] at hs
        subst hs
        exact h.to (fun _ => Or.inl rfl) rfl rfl (by intro v hv; cases hv) (fun _ => Or.inr rfl) (by intro _ _ _ _ _ _ _ e; cases e)

theorem stepRecv_seq {hash : List Byte → Nat} {s s1 : St} {now : Nat} (hs : stepRecv hash s now = some s1) :
    (∀ i, (s1.heads i).seq = (s.heads i).seq) ∧ s1.thr = s.thr ∧ s1.oseq = s.oseq := by
  have hc : ∀ (r : RPC) (f : Nat) (i : Nat), (∀ x, ((({ s with heads := clr s.heads i, fft := f } : St).to r).heads x).seq = (s.heads x).seq) :=
    fun r f i x => clr_seq _ _ _
  unfold stepRecv at hs
  simp only at hs
  cases hp : s.rpc <;> simp only [hp] at hs <;> (repeat' split at hs) <;> first | (cases hs; done) | skip
  all_goals (simp only [Option.some.injEq] at hs; subst hs)
  all_goals first
    | exact ⟨fun _ => rfl, rfl, rfl⟩
    | exact ⟨hc _ _ _, rfl, rfl⟩

theorem nums_step {hash : List Byte → Nat} {s s1 : St} {e : Ev} (h : Nums s) (hl : CountOK s e)
    (hs : step hash s e = some s1) : Nums s1 := by
  cases e with
  | call t m =>
    simp only [step] at hs
    split at hs
    · simp only [Option.some.injEq] at hs
      subst hs
      exact nums_call h t m
    · cases hs
  | send t weak =>
    simp only [step] at hs
    split at hs
    · exact nums_send h hl hs
    · cases hs
  | crash t =>
    simp only [step, Option.some.injEq] at hs
    subst hs
    exact h.mem (fun _ => rfl) rfl rfl
  | recv len =>
    simp only [step] at hs
    split at hs
    · simp only [Option.some.injEq] at hs
      subst hs
      exact h.mem (fun _ => rfl) rfl rfl
    · cases hs
  | rstep now =>
    obtain ⟨h1, h2, h3⟩ := stepRecv_seq hs
    exact h.mem h1 h2 h3

theorem number_of_count {s : St} (e : Ev) (h : Nums s) : NumberOK s e := by
  cases e with
  | send t weak =>
    simp only [NumberOK]
    split
    · rename_i m left seq w wT k ht
      intro _
      have h1 : held (s.thr t) = some seq := by rw [ht]; rfl
      have h2 : (s.thr t).number = none := by rw [ht]; rfl
      refine ⟨fun i _ => h.fresh t seq i h1 h2, fun u _ e => ?_⟩
      have hne : t ≠ u := fun e' => by rw [← e', h2] at e; cases e
      refine h.apart t u seq hne h1 ?_
      revert e
      cases s.thr u <;> simp [SPC.number, held]
    · trivial
  | _ => trivial

theorem numbers_of {hash : List Byte → Nat} : ∀ {es : List Ev} {s : St}, Nums s → Along CountOK hash s es → Along NumberOK hash s es := by
  intro es
  induction es with
  | nil => intro s _ _; trivial
  | cons e es ih => intro s h hl; exact ⟨number_of_count e h, fun s1 hs => ih (nums_step h hl.1 hs) (hl.2 s1 hs)⟩

theorem legal_of {hash : List Byte → Nat} : ∀ {es : List Ev} {s : St}, Nums s → Along Counted hash s es → Along Legal hash s es := by
  intro es
  induction es with
  | nil => intro s _ _; trivial
  | cons e es ih =>
    intro s h hl
    obtain ⟨⟨a, b, c⟩, hl⟩ := hl
    exact ⟨⟨a, number_of_count e h, c⟩, fun s1 hs => ih (nums_step h b hs) (hl s1 hs)⟩

end Verif.Mem.Conc
