import Verif.Mem.Safe

/-! When the receiver gives up on an unfinished message: helper lemmas. -/
namespace Verif.Mem

set_option maxRecDepth 10000

/-- The message at the receiver's position is not finished yet. -/
def frontOpen (c : Chan) : Prop := c.rcur ≠ c.wcur ∧ (c.heads c.rcur).written = false

theorem ite_done {P Q R : Prop} [Decidable P] [Decidable Q] [Decidable R] {a b c' : Chan} {x x' code : Int}
    {y y' size : Option Nat} {z z' bytes : List Byte} {K : Chan → Prop} (ha : K a) (hb : K b)
    (h : (if P then (if Q then RecvOut.done a x y z else .oob) else (if R then .done b x' y' z' else .oob)) =
      .done c' code size bytes) : K c' := by
  split at h <;> split at h
  · injection h with h1; exact h1 ▸ ha
  · cases h
  · injection h with h1; exact h1 ▸ hb
  · cases h

theorem recvLoop_fft0 (now len : Nat) : ∀ (fuel : Nat) (c : Chan) (cur : Nat) (ret : Int) (tseq : Nat),
    c.fft = 0 → ∀ c' e r s, recvLoop now len fuel c cur ret tseq = .stop c' e r s →
    c'.fft = 0 ∨ (c'.fft = now ∧ e ≠ c'.wcur ∧ (c'.heads e).written = false) := by
  intro fuel
  induction fuel with
  | zero => intro c cur ret tseq _ c' e r s h; simp [recvLoop] at h
  | succ fuel ih =>
    intro c cur ret tseq hf c' e r s h
    unfold recvLoop at h
    simp only at h
    by_cases hne : cur = c.wcur
    · rw [if_pos hne] at h
      injection h with h1 h2 h3 h4
      subst h1; exact Or.inl hf
    rw [if_neg hne] at h
    by_cases hn : c.conf.n ≤ cur
    · rw [if_pos hn] at h; cases h
    rw [if_neg hn] at h
    by_cases hw : (c.heads cur).written = true
    · rw [if_pos hw] at h
      by_cases hst : ¬ (c.heads cur).start = true
      · rw [if_pos hst] at h; exact ih (clearFlag c cur) _ _ _ hf _ _ _ _ h
      rw [if_neg hst] at h
      by_cases hr : ret ≠ 0
      · rw [if_pos hr] at h
        injection h with h1 h2 h3 h4
        subst h1; exact Or.inl hf
      rw [if_neg hr] at h
      generalize hbs : bsize c.data cur = sz at h
      generalize hlm : sub64 (c.conf.n * nodeSize) c.conf.protMem = lim at h
      by_cases hsz : sz = 0 ∨ sz ≥ lim
      · rw [if_pos hsz] at h; exact ih (clearFlag c cur) _ _ _ hf _ _ _ _ h
      rw [if_neg hsz] at h
      by_cases hlen : sz > len
      · rw [if_pos hlen] at h
        injection h with h1 h2 h3 h4
        subst h1; exact Or.inl hf
      rw [if_neg hlen] at h
      cases hcl : clearNodes c.conf.n (c.heads cur).seq cur c.wcur (c.conf.n + 1) cur c.heads with
      | none => rw [hcl] at h; cases h
      | some p =>
        rw [hcl] at h
        simp only at h
        by_cases hcn : calcNodes sz ≠ rangeCount c.conf.n cur p.2
        · rw [if_pos hcn] at h; exact ih { c with heads := p.1 } _ _ _ hf _ _ _ _ h
        · rw [if_neg hcn] at h; cases h
    · rw [if_neg hw] at h
      by_cases hts : tseq ≠ 0 ∧ tseq = (c.heads cur).seq ∧ ¬ (c.heads cur).start = true
      · rw [if_pos hts] at h; exact ih (clearFlag c cur) _ _ _ hf _ _ _ _ h
      rw [if_neg hts, if_pos hf] at h
      injection h with h1 h2 h3 h4
      subst h1 h2
      exact Or.inr ⟨rfl, hne, by simpa using hw⟩

/-- A call whose front message is unfinished. -/
theorem recv_open {hash : List Byte → Nat} {c c' : Chan} {now len : Nat} {code : Int} {size : Option Nat}
    {bytes : List Byte} (ho : frontOpen c) (h : recv hash c now len = .done c' code size bytes) :
    (c'.rcur = c.rcur ∧ c'.wcur = c.wcur ∧ c'.heads = c.heads ∧ (c'.fft = c.fft ∨ (c.fft = 0 ∧ c'.fft = now))) ∨
    (c.fft ≠ 0 ∧ absDiff now c.fft > c.conf.timeout ∧ (c'.fft = 0 ∨ (c'.fft = now ∧ frontOpen c'))) := by
  unfold recv at h
  simp only at h
  unfold recvLoop at h
  simp only at h
  rw [if_neg ho.1] at h
  by_cases hn : c.conf.n ≤ c.rcur
  · rw [if_pos hn] at h; cases h
  rw [if_neg hn, if_neg (by simp [ho.2] : ¬ (c.heads c.rcur).written = true),
    if_neg (by simp : ¬ ((0:Nat) ≠ 0 ∧ 0 = (c.heads c.rcur).seq ∧ ¬ (c.heads c.rcur).start = true))] at h
  by_cases hf : c.fft = 0
  · rw [if_pos hf] at h
    simp only at h
    injection h with h1 h2 h3 h4
    subst h1
    exact Or.inl ⟨rfl, rfl, rfl, Or.inr ⟨hf, rfl⟩⟩
  rw [if_neg hf] at h
  by_cases ht : absDiff now c.fft > c.conf.timeout
  · rw [if_pos ht] at h
    right
    refine ⟨hf, ht, ?_⟩
    cases hl : recvLoop now len c.conf.n { clearFlag c c.rcur with fft := 0 } (next c.conf.n c.rcur 1) 0
      (c.heads c.rcur).seq with
    | oob => rw [hl] at h; cases h
    | spin => rw [hl] at h; cases h
    | stop c1 e r s =>
      have := recvLoop_fft0 now len _ _ _ _ _ (show ({ clearFlag c c.rcur with fft := 0 } : Chan).fft = 0 from rfl) _ _ _ _ hl
      rw [hl] at h
      simp only at h
      injection h with h1 h2 h3 h4
      subst h1
      exact this
    | got c1 b e =>
      rw [hl] at h
      simp only at h
      left
      exact ite_done (K := fun c => c.fft = 0) rfl rfl h
  · rw [if_neg ht] at h
    simp only at h
    injection h with h1 h2 h3 h4
    subst h1
    exact Or.inl ⟨rfl, rfl, rfl, Or.inl rfl⟩

/-- A call entered with no pending watch. -/
theorem recv_fft0 {hash : List Byte → Nat} {c c' : Chan} {now len : Nat} {code : Int} {size : Option Nat}
    {bytes : List Byte} (hf : c.fft = 0) (h : recv hash c now len = .done c' code size bytes) :
    c'.fft = 0 ∨ (c'.fft = now ∧ frontOpen c') := by
  unfold recv at h
  simp only at h
  cases hl : recvLoop now len (c.conf.n + 1) c c.rcur 0 0 with
  | oob => rw [hl] at h; cases h
  | spin => rw [hl] at h; cases h
  | stop c1 e r s =>
    have := recvLoop_fft0 now len _ _ _ _ _ hf _ _ _ _ hl
    rw [hl] at h
    simp only at h
    injection h with h1 h2 h3 h4
    subst h1
    exact this
  | got c1 b e =>
    rw [hl] at h
    simp only at h
    left
    exact ite_done (K := fun c => c.fft = 0) rfl rfl h

/-- A call that finds a finished message (or nothing) at the front. -/
theorem recv_closed {hash : List Byte → Nat} {c c' : Chan} {now len : Nat} {code : Int} {size : Option Nat}
    {bytes : List Byte} (h : recv hash c now len = .done c' code size bytes)
    (hc : c.rcur = c.wcur ∨ ((c.heads c.rcur).written = true ∧ (c.heads c.rcur).start = true ∧
      (code = Err.SUCCESS ∨ code = Err.BAD_DATA ∨ code = Err.BUFF_LIMIT))) :
    c'.fft = 0 ∨ (c'.fft = c.fft ∧ c'.rcur = c.rcur ∧ c'.wcur = c.wcur ∧ c'.heads = c.heads) := by
  unfold recv at h
  simp only at h
  unfold recvLoop at h
  simp only at h
  by_cases hne : c.rcur = c.wcur
  · rw [if_pos hne] at h
    simp only at h
    injection h with h1 h2 h3 h4
    subst h1; exact Or.inr ⟨rfl, rfl, rfl, rfl⟩
  obtain ⟨hw, hst, hcode⟩ := hc.resolve_left hne
  rw [if_neg hne] at h
  by_cases hn : c.conf.n ≤ c.rcur
  · rw [if_pos hn] at h; cases h
  rw [if_neg hn, if_pos hw, if_neg (by simp [hst] : ¬ ¬ (c.heads c.rcur).start = true), if_neg (by simp : ¬ (0:Int) ≠ 0)] at h
  generalize hbs : bsize c.data c.rcur = sz at h
  generalize hlm : sub64 (c.conf.n * nodeSize) c.conf.protMem = lim at h
  -- a non-zero error recorded by the loop is what the call returns, or it stops before delivering
  have key : ∀ (fuel : Nat) (c1 : Chan) (cur : Nat) (r0 : Int) (ts : Nat), r0 ≠ 0 →
      (∀ c2 b e, recvLoop now len fuel c1 cur r0 ts ≠ .got c2 b e) ∧
      (∀ c2 e r s, recvLoop now len fuel c1 cur r0 ts = .stop c2 e r s → r = r0) := by
    intro fuel
    induction fuel with
    | zero => intro c1 cur r0 ts _; simp [recvLoop]
    | succ fuel ih =>
      intro c1 cur r0 ts hr
      have horr : ∀ x, orElse r0 x = r0 := by intro x; unfold orElse; rw [if_pos hr]
      unfold recvLoop
      simp only [horr]
      have hst : ∀ (c3 : Chan) (e3 : Nat) (s3 : Option Nat), (∀ c2 b e, LoopOut.stop c3 e3 r0 s3 ≠ .got c2 b e) ∧
          (∀ c2 e r s, LoopOut.stop c3 e3 r0 s3 = .stop c2 e r s → r = r0) := by
        intro c3 e3 s3
        refine ⟨fun _ _ _ hh => (by cases hh), fun _ _ _ _ hh => by injection hh with _ _ h3 _; exact h3.symm⟩
      by_cases h1 : cur = c1.wcur
      · rw [if_pos h1]; exact hst _ _ _
      rw [if_neg h1]
      by_cases h2 : c1.conf.n ≤ cur
      · rw [if_pos h2]; exact ⟨fun _ _ _ hh => (by cases hh), fun _ _ _ _ hh => by cases hh⟩
      rw [if_neg h2]
      by_cases h3 : (c1.heads cur).written = true
      · rw [if_pos h3]
        by_cases h4 : ¬ (c1.heads cur).start = true
        · rw [if_pos h4]; exact ih _ _ _ _ hr
        rw [if_neg h4, if_pos hr]; exact hst _ _ _
      rw [if_neg h3]
      by_cases h5 : ts ≠ 0 ∧ ts = (c1.heads cur).seq ∧ ¬ (c1.heads cur).start = true
      · rw [if_pos h5]; exact ih _ _ _ _ hr
      rw [if_neg h5]
      by_cases h6 : c1.fft = 0
      · rw [if_pos h6]; exact hst _ _ _
      rw [if_neg h6]
      by_cases h7 : absDiff now c1.fft > c1.conf.timeout
      · rw [if_pos h7]; exact ih _ _ _ _ hr
      rw [if_neg h7]; exact hst _ _ _
  have bad : ∀ (fuel : Nat) (c1 : Chan) (cur : Nat) (r0 : Int) (ts : Nat), r0 ≠ 0 →
      r0 ≠ Err.SUCCESS → r0 ≠ Err.BAD_DATA → r0 ≠ Err.BUFF_LIMIT →
      (match recvLoop now len fuel c1 cur r0 ts with
        | .oob => RecvOut.oob
        | .spin => .spin
        | .stop c' e ret sz => .done { c' with rcur := e } ret sz []
        | .got _ _ _ => .oob) ≠ .done c' code size bytes := by
    intro fuel c1 cur r0 ts hr n1 n2 n3 hh
    obtain ⟨k1, k2⟩ := key fuel c1 cur r0 ts hr
    cases hl : recvLoop now len fuel c1 cur r0 ts with
    | oob => rw [hl] at hh; cases hh
    | spin => rw [hl] at hh; cases hh
    | got a b c => exact k1 _ _ _ hl
    | stop a b c d =>
      rw [hl] at hh
      simp only at hh
      injection hh with _ h2 _ _
      rw [k2 _ _ _ _ hl] at h2
      rcases hcode with e | e | e <;> rw [e] at h2
      · exact n1 h2
      · exact n2 h2
      · exact n3 h2
  by_cases hsz : sz = 0 ∨ sz ≥ lim
  · rw [if_pos hsz] at h
    exfalso
    refine bad c.conf.n (clearFlag c c.rcur) (next c.conf.n c.rcur 1) (orElse 0 Err.NODE_BAD_BLOCK_BUFF_SIZE) 0
      (by decide) (by decide) (by decide) (by decide) ?_
    cases hl : recvLoop now len c.conf.n (clearFlag c c.rcur) (next c.conf.n c.rcur 1)
      (orElse 0 Err.NODE_BAD_BLOCK_BUFF_SIZE) 0 with
    | oob => rw [hl] at h; cases h
    | spin => rw [hl] at h; cases h
    | got a b e => exact absurd hl ((key _ _ _ _ _ (by decide)).1 _ _ _)
    | stop a b e d => rw [hl] at h; exact h
  rw [if_neg hsz] at h
  by_cases hlen : sz > len
  · rw [if_pos hlen] at h
    simp only at h
    injection h with h1 h2 h3 h4
    subst h1; exact Or.inr ⟨rfl, rfl, rfl, rfl⟩
  rw [if_neg hlen] at h
  cases hcl : clearNodes c.conf.n (c.heads c.rcur).seq c.rcur c.wcur (c.conf.n + 1) c.rcur c.heads with
  | none => rw [hcl] at h; cases h
  | some p =>
    rw [hcl] at h
    simp only at h
    by_cases hcn : calcNodes sz ≠ rangeCount c.conf.n c.rcur p.2
    · rw [if_pos hcn] at h
      exfalso
      refine bad c.conf.n { c with heads := p.1 } (next c.conf.n c.rcur 1) (orElse 0 Err.NODE_BAD_BLOCK_NODE_NUM) 0
        (by decide) (by decide) (by decide) (by decide) ?_
      cases hl : recvLoop now len c.conf.n { c with heads := p.1 } (next c.conf.n c.rcur 1)
        (orElse 0 Err.NODE_BAD_BLOCK_NODE_NUM) 0 with
      | oob => rw [hl] at h; cases h
      | spin => rw [hl] at h; cases h
      | got a b e => exact absurd hl ((key _ _ _ _ _ (by decide)).1 _ _ _)
      | stop a b e d => rw [hl] at h; exact h
    · rw [if_neg hcn] at h
      simp only at h
      left
      exact ite_done (K := fun c => c.fft = 0) rfl rfl h

end Verif.Mem
