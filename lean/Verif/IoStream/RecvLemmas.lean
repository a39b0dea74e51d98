import Verif.IoStream.RecvSpec

/-! Lemmas on the receiving half. -/
namespace Verif.IoStream
set_option maxRecDepth 10000
open Vint

theorem readLoop_append (bs t : List Byte) : ∀ (o u : Nat), bs ≠ [] → (readLoop bs o u).2 ≠ 0 →
    readLoop (bs ++ t) o u = readLoop bs o u := by
  induction bs with
  | nil => intro o u h; exact absurd rfl h
  | cons b rest ih =>
    intro o u _ h
    simp only [List.cons_append, readLoop] at h ⊢
    by_cases hb : b.val < 128
    · simp [hb]
    · simp only [hb, if_false] at h ⊢
      cases rest with
      | nil => simp at h
      | cons c r =>
        simp only [List.isEmpty_cons, List.cons_append, Bool.false_eq_true, if_false] at h ⊢
        exact ih _ _ (by simp) h

theorem readLoop_len (bs : List Byte) : ∀ (o u : Nat), (readLoop bs o u).2 ≤ u + bs.length ∧
    (bs ≠ [] → (readLoop bs o u).2 = 0 ∨ u < (readLoop bs o u).2) := by
  induction bs with
  | nil => intro o u; simp [readLoop]
  | cons b rest ih =>
    intro o u
    simp only [readLoop]
    by_cases hb : b.val < 128
    · simp [hb]
    · simp only [hb, if_false]
      cases rest with
      | nil => simp
      | cons c r =>
        simp only [List.isEmpty_cons, Bool.false_eq_true, if_false]
        have := ih ((o * 128) % W64 + b.val % 128) (u+1)
        have h2 := this.2 (by simp)
        simp only [List.length_cons] at this ⊢
        omega

theorem readVint_append (bs t : List Byte) (h : (readVint bs).2 ≠ 0) : readVint (bs ++ t) = readVint bs := by
  cases bs with
  | nil => simp [readVint] at h
  | cons b r =>
    simp only [readVint, List.cons_append, List.isEmpty_cons, Bool.false_eq_true, if_false] at h ⊢
    exact readLoop_append (b :: r) t 0 0 (by simp) h

theorem readVint_len (bs : List Byte) : (readVint bs).2 ≤ bs.length := by
  unfold readVint
  split
  · simp
  · have := (readLoop_len bs 0 0).1; omega

theorem header_some {s : List Byte} {v l : Nat} (h : header s = some (v, l)) :
    4 < s.length ∧ readVint (s.drop 4) = (v, l) ∧ l ≠ 0 ∧ 4 + l ≤ s.length := by
  unfold header at h
  by_cases h1 : s.length ≤ 4
  · simp [h1] at h
  · by_cases h2 : (readVint (s.drop 4)).2 = 0
    · simp [h1, h2] at h
    · simp only [h1, h2, if_false, Option.some.injEq] at h
      have := readVint_len (s.drop 4)
      rw [h] at this h2
      simp only [List.length_drop] at this
      exact ⟨by omega, h, h2, by omega⟩

theorem header_append {s : List Byte} {v l : Nat} (t : List Byte) (h : header s = some (v, l)) :
    header (s ++ t) = some (v, l) := by
  obtain ⟨h1, h2, h3, h4⟩ := header_some h
  unfold header
  have hd : (s ++ t).drop 4 = s.drop 4 ++ t := List.drop_append_of_le_length (by omega)
  have hr : readVint (s.drop 4 ++ t) = (v, l) := by rw [readVint_append _ _ (by rw [h2]; exact h3), h2]
  rw [hd, hr, if_neg (by simp; omega), if_neg h3]

theorem decode1_some {s : List Byte} {f : Fr} {s' : List Byte} (h : decode1 s = some (f, s')) :
    ∃ v l, header s = some (v, l) ∧ 4 + l + v ≤ s.length ∧ 4 + l + v < W64 ∧
      f = (s.take 4, (s.drop (4 + l)).take v) ∧ s' = s.drop (4 + l + v) := by
  unfold decode1 at h
  cases hh : header s with
  | none => rw [hh] at h; cases h
  | some p =>
    obtain ⟨v, l⟩ := p
    rw [hh] at h
    simp only at h
    by_cases hc : s.length < 4 + l + v ∨ W64 ≤ 4 + l + v
    · rw [if_pos hc] at h; cases h
    · rw [if_neg hc] at h
      cases h
      exact ⟨v, l, rfl, by omega, by omega, rfl, rfl⟩

theorem decode1_none {s : List Byte} (h : decode1 s = none) :
    header s = none ∨ ∃ v l, header s = some (v, l) ∧ (s.length < 4 + l + v ∨ W64 ≤ 4 + l + v) := by
  unfold decode1 at h
  cases hh : header s with
  | none => exact Or.inl rfl
  | some p =>
    obtain ⟨v, l⟩ := p
    rw [hh] at h
    simp only at h
    by_cases hc : s.length < 4 + l + v ∨ W64 ≤ 4 + l + v
    · exact Or.inr ⟨v, l, rfl, hc⟩
    · rw [if_neg hc] at h; cases h

theorem decode1_of {s : List Byte} {v l : Nat} (hh : header s = some (v, l)) (h1 : 4 + l + v ≤ s.length)
    (h2 : 4 + l + v < W64) :
    decode1 s = some ((s.take 4, (s.drop (4 + l)).take v), s.drop (4 + l + v)) := by
  unfold decode1
  rw [hh]
  simp only
  rw [if_neg (by omega)]

theorem decode1_append {s : List Byte} {f : Fr} {s' : List Byte} (t : List Byte)
    (h : decode1 s = some (f, s')) : decode1 (s ++ t) = some (f, s' ++ t) := by
  obtain ⟨v, l, hh, h1, h2, hf, hs⟩ := decode1_some h
  rw [decode1_of (header_append t hh) (by simp; omega) h2, hf, hs]
  have e1 : (s ++ t).take 4 = s.take 4 := List.take_append_of_le_length (by omega)
  have e2 : (s ++ t).drop (4 + l) = s.drop (4 + l) ++ t := List.drop_append_of_le_length (by omega)
  have e3 : (s ++ t).drop (4 + l + v) = s.drop (4 + l + v) ++ t := List.drop_append_of_le_length (by omega)
  rw [e1, e2, e3, List.take_append_of_le_length (by simp; omega)]

theorem decode1_shorter {s : List Byte} {f : Fr} {s' : List Byte} (h : decode1 s = some (f, s')) :
    s'.length + 5 ≤ s.length ∧ f.2.length + s'.length + 5 ≤ s.length := by
  obtain ⟨v, l, hh, h1, h2, hf, hs⟩ := decode1_some h
  obtain ⟨g1, g2, g3, g4⟩ := header_some hh
  subst hf hs
  simp only [List.length_drop, List.length_take]
  omega

theorem Dec.det {s : List Byte} {fs fs' : List Fr} {r r' : List Byte} (h : Dec s fs r) (h' : Dec s fs' r') :
    fs = fs' ∧ r = r' := by
  induction h generalizing fs' r' with
  | stop h =>
    cases h' with
    | stop _ => exact ⟨rfl, rfl⟩
    | more h2 _ => rw [h] at h2; cases h2
  | more h hd ih =>
    cases h' with
    | stop h2 => rw [h] at h2; cases h2
    | more h2 hd2 =>
      rw [h] at h2; cases h2
      obtain ⟨e1, e2⟩ := ih hd2
      exact ⟨by rw [e1], e2⟩

theorem Dec.total (s : List Byte) : ∃ fs r, Dec s fs r := by
  generalize hn : s.length = n
  induction n using Nat.strongRecOn generalizing s with
  | ind n ih =>
    cases hd : decode1 s with
    | none => exact ⟨[], s, .stop hd⟩
    | some p =>
      obtain ⟨f, s'⟩ := p
      have := decode1_shorter hd
      obtain ⟨fs, r, hr⟩ := ih s'.length (by omega) s' rfl
      exact ⟨f :: fs, r, .more hd hr⟩

theorem Dec.rest {s : List Byte} {fs : List Fr} {r : List Byte} (h : Dec s fs r) : decode1 r = none := by
  induction h with
  | stop h => exact h
  | more _ _ ih => exact ih

theorem Dec.append {a : List Byte} {fs : List Fr} {r : List Byte} (h : Dec a fs r) {b : List Byte} {gs : List Fr}
    {r' : List Byte} (h2 : Dec (r ++ b) gs r') : Dec (a ++ b) (fs ++ gs) r' := by
  induction h with
  | stop _ => exact h2
  | more hd _ ih => exact .more (decode1_append b hd) (ih h2)

theorem Dec.length {s : List Byte} {fs : List Fr} {r : List Byte} (h : Dec s fs r) :
    r.length ≤ s.length ∧ ∀ f ∈ fs, f.2.length + 5 ≤ s.length := by
  induction h with
  | stop _ => simp
  | more hd _ ih =>
    have := decode1_shorter hd
    refine ⟨by omega, ?_⟩
    intro f hf
    rcases List.mem_cons.mp hf with rfl | hf
    · omega
    · have := ih.2 f hf; omega

/-- The specification of a stretch of frames composes. -/
theorem process_append (cf : RConf) (h : Hash) (fs gs : List Fr) : ∀ hf bf,
    process cf h hf bf (fs ++ gs) =
      if (process cf h hf bf fs).2.2.2 then process cf h hf bf fs
      else ((process cf h hf bf fs).1 ++ (process cf h (process cf h hf bf fs).2.1 (process cf h hf bf fs).2.2.1 gs).1,
        (process cf h (process cf h hf bf fs).2.1 (process cf h hf bf fs).2.2.1 gs).2) := by
  induction fs with
  | nil => intro hf bf; simp [process]
  | cons f fs ih =>
    intro hf bf
    simp only [List.cons_append, process]
    by_cases h1 : cf.accept (4 + f.2.length) = false
    · simp [h1]
    · simp only [if_neg h1]
      generalize (if verdict cf h f = Err.BAD_DATA then hf + 1 else hf) = hf'
      generalize (if verdict cf h f = Err.INVALID_SIZE then bf + 1 else bf) = bf'
      by_cases h2 : (verdict cf h f = Err.BAD_DATA ∧ hf' > cf.maxHash) ∨ (verdict cf h f = Err.INVALID_SIZE ∧ bf' > cf.maxBlock)
      · simp only [if_pos h2, if_true]
      · simp only [if_neg h2]
        rw [ih]
        cases (process cf h hf' bf' fs).2.2.2 <;> simp

/-- All frames, whether or not the connection is dropped in between: what the loop over the head
buffer does. -/
def judgeAll (cf : RConf) (h : Hash) : Nat → Nat → List Fr → List Cb × Nat × Nat × Bool
  | hf, bf, [] => ([], hf, bf, false)
  | hf, bf, f :: fs =>
    let hf' := if verdict cf h f = Err.BAD_DATA then hf + 1 else hf
    let bf' := if verdict cf h f = Err.INVALID_SIZE then bf + 1 else bf
    let bad := decide ((verdict cf h f = Err.BAD_DATA ∧ hf' > cf.maxHash) ∨ (verdict cf h f = Err.INVALID_SIZE ∧ bf' > cf.maxBlock))
    let r := judgeAll cf h hf' bf' fs
    (⟨verdict cf h f, f.2⟩ :: r.1, r.2.1, r.2.2.1, bad || r.2.2.2)

/-- As long as no frame is fatal both agree; otherwise the specification's callbacks come first. -/
theorem judgeAll_process (cf : RConf) (h : Hash) (fs : List Fr) : ∀ hf bf,
    (∀ f ∈ fs, cf.accept (4 + f.2.length) = true) →
    (process cf h hf bf fs).2.2.2 = (judgeAll cf h hf bf fs).2.2.2 ∧
    ((process cf h hf bf fs).2.2.2 = false → process cf h hf bf fs = judgeAll cf h hf bf fs) ∧
    ∃ e, (judgeAll cf h hf bf fs).1 = (process cf h hf bf fs).1 ++ e := by
  induction fs with
  | nil => intro hf bf _; simp [process, judgeAll]
  | cons f fs ih =>
    intro hf bf hacc
    simp only [process, judgeAll]
    have ha : ¬ cf.accept (4 + f.2.length) = false := by simp [hacc f (List.mem_cons_self ..)]
    simp only [if_neg ha]
    generalize (if verdict cf h f = Err.BAD_DATA then hf + 1 else hf) = hf'
    generalize (if verdict cf h f = Err.INVALID_SIZE then bf + 1 else bf) = bf'
    obtain ⟨i1, i2, e, i3⟩ := ih hf' bf' (fun f hf => hacc f (List.mem_cons_of_mem _ hf))
    by_cases h2 : (verdict cf h f = Err.BAD_DATA ∧ hf' > cf.maxHash) ∨ (verdict cf h f = Err.INVALID_SIZE ∧ bf' > cf.maxBlock)
    · simp only [if_pos h2, decide_eq_true h2, Bool.true_or]
      exact ⟨trivial, by simp, _, rfl⟩
    · simp only [if_neg h2, decide_eq_false h2, Bool.false_or]
      refine ⟨i1, ?_, e, by simp [i3]⟩
      intro hh
      have := i2 hh
      rw [this]

theorem judgeAll_mem (cf : RConf) (h : Hash) (fs : List Fr) : ∀ hf bf,
    (judgeAll cf h hf bf fs).1 = fs.map fun f => ⟨verdict cf h f, f.2⟩ := by
  induction fs with
  | nil => intros; rfl
  | cons f fs ih => intro hf bf; simp [judgeAll, ih]

end Verif.IoStream
