import Verif.Mem.ConcRecv

/-! Runs of the interleaved model. -/
namespace Verif.Mem.Conc

set_option maxRecDepth 10000

/-! ### The invariant along a run -/

theorem inv_step {hash : List Byte → Nat} {s s1 : St} {g : G} (h : CInv hash s g) {e : Ev} (hl : Legal s e)
    (hs : step hash s e = some s1) : ∃ g1, CInv hash s1 g1 ∧
      ((∀ ori re ret sz bytes, s.rpc ≠ .fin ori re ret sz bytes) → g1.d = g.d) ∧ ((∀ now, e ≠ .rstep now) → g1.d = g.d) := by
  cases e with
  | call t m =>
    simp only [step] at hs
    split at hs
    · rename_i hc
      simp only [Option.some.injEq] at hs
      subst hs
      exact ⟨g, inv_call h hc.1 hl.1, fun _ => rfl, fun _ => rfl⟩
    · cases hs
  | send t weak =>
    simp only [step] at hs
    split at hs
    · rename_i hc
      obtain ⟨g1, h1, h2⟩ := inv_send h hc hl hs
      exact ⟨g1, h1, fun _ => h2, fun _ => h2⟩
    · cases hs
  | crash t =>
    simp only [step, Option.some.injEq] at hs
    subst hs
    exact ⟨g, inv_crash h hl, fun _ => rfl, fun _ => rfl⟩
  | recv len =>
    simp only [step] at hs
    split at hs
    · rename_i hc
      simp only [Option.some.injEq] at hs
      subst hs
      refine ⟨g, h.rTo ?_, fun _ => rfl, fun _ => rfl⟩
      have := h.rpc
      rw [hc] at this
      exact this
    · cases hs
  | rstep now =>
    obtain ⟨g1, h1, h2⟩ := inv_rstep h hl hs
    exact ⟨g1, h1, h2, fun hne => absurd rfl (hne now)⟩

theorem inv_run {hash : List Byte → Nat} : ∀ {es : List Ev} {s s1 : St} {g : G}, CInv hash s g → Along Legal hash s es →
    run hash s es = some s1 → ∃ g1, CInv hash s1 g1 := by
  intro es
  induction es with
  | nil =>
    intro s s1 g h _ hs
    simp only [run, Option.some.injEq] at hs
    subst hs
    exact ⟨g, h⟩
  | cons e es ih =>
    intro s s1 g h hl hs
    simp only [run] at hs
    split at hs
    · cases hs
    · rename_i s2 h2
      obtain ⟨g1, h1, -⟩ := inv_step h hl.1 h2
      exact ih h1 (hl.2 s2 h2) hs

theorem run_append {hash : List Byte → Nat} : ∀ {a b : List Ev} {s : St}, run hash s (a ++ b) = (run hash s a).bind (run hash · b) := by
  intro a
  induction a with
  | nil => intro b s; rfl
  | cons e a ih =>
    intro b s
    simp only [List.cons_append, run]
    split
    · rfl
    · exact ih

theorem along_append {P : St → Ev → Prop} {hash : List Byte → Nat} : ∀ {a b : List Ev} {s : St}, Along P hash s (a ++ b) ↔
    (Along P hash s a ∧ ∀ s1, run hash s a = some s1 → Along P hash s1 b) := by
  intro a
  induction a with
  | nil =>
    intro b s
    refine ⟨fun h => ⟨trivial, fun s1 h1 => ?_⟩, fun h => h.2 s rfl⟩
    simp only [run, Option.some.injEq] at h1
    subst h1
    exact h
  | cons e a ih =>
    intro b s
    constructor
    · intro h
      refine ⟨⟨h.1, fun s1 h1 => (ih.1 (h.2 s1 h1)).1⟩, fun s1 h1 => ?_⟩
      simp only [run] at h1
      split at h1
      · cases h1
      · rename_i s2 h2
        exact (ih.1 (h.2 s2 h2)).2 s1 h1
    · intro h
      refine ⟨h.1.1, fun s1 h1 => ih.2 ⟨h.1.2 s1 h1, fun s2 h2 => h.2 s2 ?_⟩⟩
      simp only [run, h1]
      exact h2

/-! ### Facts about single steps -/

theorem callSend_frame (s : St) (t : Nat) (m : Msg) : (callSend s t m).rpc = s.rpc ∧ (callSend s t m).codes = s.codes ∧
    (callSend s t m).got = s.got ∧ (callSend s t m).crashed = s.crashed ∧ (callSend s t m).fin = s.fin ∧
    (callSend s t m).fft = s.fft ∧ (callSend s t m).conf = s.conf ∧ (callSend s t m).who = s.who ∧
    (callSend s t m).resv = s.resv := by
  unfold callSend
  split
  · exact ⟨rfl, rfl, rfl, rfl, rfl, rfl, rfl, rfl, rfl⟩
  · split
    · exact ⟨rfl, rfl, rfl, rfl, rfl, rfl, rfl, rfl, rfl⟩
    · split <;> exact ⟨rfl, rfl, rfl, rfl, rfl, rfl, rfl, rfl, rfl⟩

/-- What a sender's step leaves alone. -/
theorem stepSend_frame {hash : List Byte → Nat} {s s1 : St} {t : Nat} {weak : Bool} (hs : stepSend hash s t weak = some s1) :
    s1.rpc = s.rpc ∧ s1.codes = s.codes ∧ s1.got = s.got ∧ s1.crashed = s.crashed ∧ s1.fft = s.fft ∧ s1.conf = s.conf ∧
    s1.rcur = s.rcur ∧ (∃ l, s1.fin = s.fin ++ l) ∧ (∃ l, s1.resv = s.resv ++ l) := by
  have hnil : ∀ {α : Type} (l : List α), ∃ l', l = l ++ l' := fun l => ⟨[], (List.append_nil l).symm⟩
  unfold stepSend at hs
  split at hs
  · cases hs
  · cases hs
  · simp only [Option.some.injEq] at hs
    subst hs
    split <;> exact ⟨rfl, rfl, rfl, rfl, rfl, rfl, rfl, hnil _, hnil _⟩
  · simp only [Option.some.injEq] at hs
    subst hs
    exact ⟨rfl, rfl, rfl, rfl, rfl, rfl, rfl, hnil _, hnil _⟩
  · simp only at hs
    split at hs <;> (simp only [Option.some.injEq] at hs; subst hs; exact ⟨rfl, rfl, rfl, rfl, rfl, rfl, rfl, hnil _, hnil _⟩)
  · split at hs
    · simp only [Option.some.injEq] at hs; subst hs; exact ⟨rfl, rfl, rfl, rfl, rfl, rfl, rfl, hnil _, hnil _⟩
    · simp only at hs
      split at hs <;> (simp only [Option.some.injEq] at hs; subst hs; exact ⟨rfl, rfl, rfl, rfl, rfl, rfl, rfl, hnil _, _, rfl⟩)
  · split at hs
    · cases hs
    · simp only at hs
      split at hs
      · simp only [Option.some.injEq] at hs; subst hs; exact ⟨rfl, rfl, rfl, rfl, rfl, rfl, rfl, ⟨_, rfl⟩, hnil _⟩
      · simp only [Option.some.injEq] at hs; subst hs; exact ⟨rfl, rfl, rfl, rfl, rfl, rfl, rfl, hnil _, hnil _⟩
  · split at hs
    · simp only [Option.some.injEq] at hs; subst hs; exact ⟨rfl, rfl, rfl, rfl, rfl, rfl, rfl, hnil _, hnil _⟩
    · split at hs <;> (simp only [Option.some.injEq] at hs; subst hs; exact ⟨rfl, rfl, rfl, rfl, rfl, rfl, rfl, hnil _, hnil _⟩)

/-- What the receiver's step leaves alone. -/
theorem stepRecv_frame {hash : List Byte → Nat} {s s1 : St} {now : Nat} (hs : stepRecv hash s now = some s1) :
    s1.crashed = s.crashed ∧ s1.fin = s.fin ∧ s1.resv = s.resv ∧ s1.who = s.who ∧ s1.conf = s.conf ∧ s1.thr = s.thr ∧
    s1.sent = s.sent ∧ s1.tot = s.tot ∧
    ((∀ ori re ret sz bytes, s.rpc ≠ .fin ori re ret sz bytes) → s1.codes = s.codes ∧ s1.got = s.got ∧ s1.rcur = s.rcur) := by
  unfold stepRecv at hs
  simp only at hs
  split at hs
  case h_1 => cases hs
  case h_21 =>
    rename_i hpc
    simp only [Option.some.injEq] at hs
    subst hs
    exact ⟨rfl, rfl, rfl, rfl, rfl, rfl, rfl, rfl, fun hne => absurd hpc (hne _ _ _ _ _)⟩
  all_goals (repeat' split at hs)
  all_goals (simp only [Option.some.injEq] at hs; subst hs; exact ⟨rfl, rfl, rfl, rfl, rfl, rfl, rfl, rfl, fun _ => ⟨rfl, rfl, rfl⟩⟩)

end Verif.Mem.Conc
