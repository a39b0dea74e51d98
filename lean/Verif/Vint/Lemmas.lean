import Verif.Vint.Model

namespace Verif.Vint

/-- The flagged groups of a value, most significant first. -/
def encHi (n : Nat) : List Byte :=
  if n = 0 then [] else encHi (n / 128) ++ [⟨128 + n % 128, by omega⟩]
termination_by n
decreasing_by omega

/-- The whole encoding of a value. -/
def enc (v : Nat) : List Byte := encHi (v / 128) ++ [⟨v % 128, by omega⟩]

theorem encHi_zero : encHi 0 = [] := by unfold encHi; simp

theorem encHi_pos {n : Nat} (h : n ≠ 0) :
    encHi n = encHi (n / 128) ++ [⟨128 + n % 128, by omega⟩] := by
  conv => lhs; unfold encHi
  simp [h]

theorem encHi_high (n : Nat) : ∀ b ∈ encHi n, 128 ≤ b.val := by
  induction n using Nat.strongRecOn with
  | _ n ih =>
    by_cases h : n = 0
    · subst h; simp [encHi_zero]
    · rw [encHi_pos h]
      intro b hb
      rcases List.mem_append.1 hb with hb | hb
      · exact ih _ (by omega) b hb
      · simp at hb; subst hb; simp

theorem encHi_length_lt (n k : Nat) : (encHi n).length ≤ k ↔ n < 128 ^ k := by
  induction k generalizing n with
  | zero =>
    by_cases h : n = 0
    · subst h; simp [encHi_zero]
    · rw [encHi_pos h]; simp; omega
  | succ k ih =>
    by_cases h : n = 0
    · subst h; simp only [encHi_zero, List.length_nil, Nat.zero_le, true_iff]
      exact Nat.pow_pos (by omega)
    · rw [encHi_pos h]; simp only [List.length_append, List.length_cons, List.length_nil]
      have := ih (n / 128)
      rw [Nat.pow_succ]
      have h2 := Nat.div_lt_iff_lt_mul (x := n) (k := 128) (y := 128 ^ k) (by omega)
      constructor
      · intro hl; exact h2.1 (this.1 (by omega))
      · intro hl; have := this.2 (h2.2 hl); omega

theorem writeLoop_eq (inp used s : Nat) (acc : List Byte) (hu : used ≤ s) :
    ((writeLoop inp used s acc).1 = 0 ∧ (encHi inp).length ≤ s - used ∧
      (writeLoop inp used s acc).2.1 = used + (encHi inp).length ∧
      (writeLoop inp used s acc).2.2 = encHi inp ++ acc) ∨
    ((writeLoop inp used s acc).1 ≠ 0 ∧ s - used < (encHi inp).length ∧
      (writeLoop inp used s acc).2.2.length = acc.length + (s - used)) := by
  fun_induction writeLoop inp used s acc with
  | case1 inp used acc h ih =>
    have := ih (by omega)
    rw [encHi_pos h.1]
    simp only [List.length_append, List.length_cons, List.length_nil]
    rcases this with ⟨a, b, c, d⟩ | ⟨a, b, c⟩
    · left; refine ⟨a, by omega, by omega, ?_⟩
      rw [d]; simp
    · right; refine ⟨a, by omega, ?_⟩
      rw [c]; simp; omega
  | case2 inp used acc h =>
    by_cases hi : inp = 0
    · subst hi; left; simp [encHi_zero]
    · right
      have : s = used := by omega
      subst this
      refine ⟨hi, ?_, by simp⟩
      rw [encHi_pos hi]; simp

theorem writeVint_eq (v s : Nat) :
    ((enc v).length ≤ s ∧ writeVint v s = ((enc v).length, enc v)) ∨
    (s < (enc v).length ∧ (writeVint v s).1 = 0 ∧ (writeVint v s).2.length = s) := by
  unfold writeVint
  by_cases hs : s = 0
  · right; simp [hs, enc]
  · simp only [hs, if_false]
    have := writeLoop_eq (v / 128) 1 s [⟨v % 128, by omega⟩] (by omega)
    generalize hw : writeLoop (v / 128) 1 s [⟨v % 128, by omega⟩] = w at this
    obtain ⟨r, u, acc⟩ := w
    simp only at this ⊢
    rcases this with ⟨a, b, c, d⟩ | ⟨a, b, c⟩
    · left; simp only [enc, a]; subst d; subst c
      simp only [List.length_append, List.length_cons, List.length_nil]
      refine ⟨by omega, ?_⟩
      simp [Nat.add_comm]
    · right
      simp only [enc, List.length_append, List.length_cons, List.length_nil]
      refine ⟨by omega, ?_⟩
      simp [a, c]; omega

theorem readLoop_high (hi rest : List Byte) (out used : Nat) (hr : rest ≠ [])
    (hh : ∀ b ∈ hi, 128 ≤ b.val) :
    readLoop (hi ++ rest) out used =
      readLoop rest (hi.foldl (fun o b => (o * 128) % W64 + b.val % 128) out) (used + hi.length) := by
  induction hi generalizing out used with
  | nil => simp
  | cons b hi ih =>
    have hb : ¬ b.val < 128 := by have := hh b (by simp); omega
    have hne : (hi ++ rest).isEmpty = false := by
      cases hi <;> simp_all
    simp only [List.cons_append, readLoop, hb, if_false, hne, List.foldl_cons, Bool.false_eq_true]
    rw [ih _ _ (fun b hb => hh b (by simp [hb]))]
    congr 1
    simp only [List.length_cons]; omega

theorem encHi_fold (n : Nat) (hn : n < W64) :
    (encHi n).foldl (fun o b => (o * 128) % W64 + b.val % 128) 0 = n := by
  induction n using Nat.strongRecOn with
  | _ n ih =>
    by_cases h : n = 0
    · subst h; simp [encHi_zero]
    · rw [encHi_pos h, List.foldl_append, ih _ (by omega) (by omega)]
      simp only [List.foldl_cons, List.foldl_nil]
      rw [Nat.mod_eq_of_lt (by omega)]
      omega

/-- A list whose bytes all carry the continuation bit is incomplete. -/
theorem readLoop_all_high (bs : List Byte) (out used : Nat) (hne : bs ≠ [])
    (hh : ∀ b ∈ bs, 128 ≤ b.val) : (readLoop bs out used).2 = 0 := by
  induction bs generalizing out used with
  | nil => exact absurd rfl hne
  | cons b bs ih =>
    have hb : ¬ b.val < 128 := by have := hh b (by simp); omega
    simp only [readLoop, hb, if_false]
    by_cases he : bs = []
    · subst he; simp
    · have : bs.isEmpty = false := by simpa using he
      simp only [this, Bool.false_eq_true, if_false]
      exact ih _ _ he (fun b hb => hh b (by simp [hb]))

theorem readVint_split (hi : List Byte) (t : Byte) (rest : List Byte)
    (hh : ∀ b ∈ hi, 128 ≤ b.val) (ht : t.val < 128) :
    readVint (hi ++ t :: rest) =
      ((hi.foldl (fun o b => (o * 128) % W64 + b.val % 128) 0 * 128) % W64 + t.val,
       hi.length + 1) := by
  unfold readVint
  rw [if_neg (by cases hi <;> simp)]
  rw [readLoop_high hi (t :: rest) 0 0 (by simp) hh]
  simp only [readLoop, ht, if_true, Nat.mod_eq_of_lt ht]
  congr 1; omega

theorem split_high (bs : List Byte) :
    (∀ b ∈ bs, 128 ≤ b.val) ∨
      ∃ hi t rest, bs = hi ++ t :: rest ∧ (∀ b ∈ hi, 128 ≤ b.val) ∧ t.val < 128 := by
  induction bs with
  | nil => left; simp
  | cons b bs ih =>
    by_cases hb : b.val < 128
    · right; exact ⟨[], b, bs, by simp, by simp, hb⟩
    · rcases ih with h | ⟨hi, t, rest, e, hh, ht⟩
      · left; intro x hx
        rcases List.mem_cons.1 hx with rfl | hx
        · omega
        · exact h x hx
      · right
        refine ⟨b :: hi, t, rest, by simp [e], ?_, ht⟩
        intro x hx
        rcases List.mem_cons.1 hx with rfl | hx
        · omega
        · exact hh x hx

end Verif.Vint
