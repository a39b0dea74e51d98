import Verif.Vint.Lemmas

/-!
Properties C01, C02, C03: the variable-length integer codec.
-/
namespace Verif.Vint

/-- C01: whatever value is written successfully is read back, with its exact
length, whatever bytes follow. -/
theorem C01_vint_round_trip (v s : Nat) (hv : v < W64) (rest : List Byte)
    (hok : (writeVint v s).1 ≠ 0) :
    readVint ((writeVint v s).2 ++ rest) = (v, (writeVint v s).1) ∧
      (writeVint v s).2.length = (writeVint v s).1 := by
  rcases writeVint_eq v s with ⟨hl, h⟩ | ⟨_, h, _⟩
  · rw [h]; simp only [and_true]
    unfold enc
    rw [List.append_assoc]
    simp only [List.cons_append, List.nil_append]
    rw [readVint_split _ _ _ (encHi_high _) (by simp; omega), encHi_fold _ (by omega)]
    simp only [List.length_append, List.length_cons, List.length_nil]
    congr 1
    rw [Nat.mod_eq_of_lt (by omega)]; omega
  · exact absurd h hok

/-- C01, existence: a buffer of ten bytes is enough for every 64-bit value. -/
theorem C01_vint_ten_bytes_suffice (v s : Nat) (hv : v < W64) (hs : 10 ≤ s) :
    (writeVint v s).1 ≠ 0 := by
  have hl : (encHi (v / 128)).length ≤ 9 := by
    rw [encHi_length_lt]
    have : (128 : Nat) ^ 9 = 2 ^ 63 := by decide
    rw [this]; simp only [W64] at hv; omega
  rcases writeVint_eq v s with ⟨_, h⟩ | ⟨h, _, _⟩
  · rw [h]; simp [enc]
  · simp [enc] at h; omega

example : (writeVint 300 3).1 ≠ 0 ∧ (300 : Nat) < W64 := by decide +kernel
example : writeVint 300 3 = (2, [130, 44]) ∧ readVint [130, 44, 9, 9] = (300, 2) := by
  decide +kernel
example : (writeVint (W64 - 1) 16).1 = 10 := by decide +kernel

/-- C02: the encoder fails exactly when the value does not fit into `s` groups
of seven bits, it never stores more than `s` bytes, and on success the number
of bytes is the number of groups of the value. -/
theorem C02_vint_write_bounds (v s : Nat) :
    (writeVint v s).2.length ≤ s ∧
    ((writeVint v s).1 = 0 ↔ s = 0 ∨ 128 ^ s ≤ v) ∧
    ((writeVint v s).1 ≠ 0 →
      v < 128 ^ (writeVint v s).1 ∧
      ((writeVint v s).1 = 1 ∨ 128 ^ ((writeVint v s).1 - 1) ≤ v)) := by
  have key : ∀ k, (enc v).length ≤ k ↔ (k ≠ 0 ∧ v < 128 ^ k) := by
    intro k
    simp only [enc, List.length_append, List.length_cons, List.length_nil]
    cases k with
    | zero => simp
    | succ k =>
      have := encHi_length_lt (v / 128) k
      have h2 := Nat.div_lt_iff_lt_mul (x := v) (k := 128) (y := 128 ^ k) (by omega)
      rw [Nat.pow_succ, ← h2, ← this]
      omega
  have hpos : (enc v).length ≠ 0 := by simp [enc]
  rcases writeVint_eq v s with ⟨hl, h⟩ | ⟨hl, h, h'⟩
  · rw [h]
    refine ⟨hl, ?_, ?_⟩
    · have := (key s).1 hl
      constructor
      · intro h0; exact absurd h0 hpos
      · rintro (h0 | h0)
        · exact absurd h0 this.1
        · omega
    · intro _
      refine ⟨((key _).1 (Nat.le_refl _)).2, ?_⟩
      by_cases h1 : (enc v).length = 1
      · left; exact h1
      · right
        have := mt (key ((enc v).length - 1)).2 (by omega)
        rw [not_and] at this
        have := this (by omega)
        exact Nat.le_of_not_lt this
  · refine ⟨by omega, ?_, ?_⟩
    · simp only [h, true_iff]
      have := mt (key s).2 (by omega)
      rw [not_and] at this
      by_cases h0 : s = 0
      · left; exact h0
      · right; have := this h0; omega
    · intro hc; exact absurd h hc

/-- C02: at most ten bytes for a 64-bit value, independent of the room given. -/
theorem C02_vint_length_independent (v s s' : Nat) (hv : v < W64)
    (h : (writeVint v s).1 ≠ 0) (h' : (writeVint v s').1 ≠ 0) :
    writeVint v s = writeVint v s' ∧ (writeVint v s).1 ≤ 10 := by
  rcases writeVint_eq v s with ⟨hl, e⟩ | ⟨_, e, _⟩
  · rcases writeVint_eq v s' with ⟨_, e'⟩ | ⟨_, e', _⟩
    · rw [e, e']
      refine ⟨rfl, ?_⟩
      have : (encHi (v / 128)).length ≤ 9 := by
        rw [encHi_length_lt]
        have : (128 : Nat) ^ 9 = 2 ^ 63 := by decide
        rw [this]; simp only [W64] at hv; omega
      simp [enc]; omega
    · exact absurd e' h'
  · exact absurd e h

example : (writeVint 16384 2).1 = 0 ∧ (writeVint 16384 3).1 = 3 ∧ (writeVint 16383 2).1 = 2 := by
  decide +kernel

/-- Specification used by C03: `k` is the position of the first byte without
continuation bit. -/
def FirstStop (bs : List Byte) (k : Nat) : Prop :=
  ∃ b, bs[k]? = some b ∧ b.val < 128 ∧ ∀ j c, j < k → bs[j]? = some c → 128 ≤ c.val

/-- C03: the reader consumes exactly the bytes up to the first one without
continuation bit. -/
theorem C03_vint_read_consumes (bs : List Byte) (k : Nat) (h : FirstStop bs k) :
    (readVint bs).2 = k + 1 := by
  obtain ⟨b, hb, hlt, hall⟩ := h
  have hk : k < bs.length := by
    have := List.getElem?_eq_some_iff.1 hb; exact this.1
  have hsplit : bs = bs.take k ++ b :: bs.drop (k + 1) := by
    have hbk : bs[k] = b := by
      have := List.getElem?_eq_some_iff.1 hb; exact this.2
    rw [← hbk, List.getElem_cons_drop hk, List.take_append_drop]
  have hhi : ∀ c ∈ bs.take k, 128 ≤ c.val := by
    intro c hc
    obtain ⟨j, hj, e⟩ := List.getElem_of_mem hc
    rw [List.getElem_take] at e
    simp at hj
    exact hall j c (by omega) (by rw [List.getElem?_eq_getElem (by omega), e])
  rw [hsplit, readVint_split _ _ _ hhi hlt]
  simp; omega

/-- C03: with no such byte among the given ones the reader reports failure. -/
theorem C03_vint_read_incomplete (bs : List Byte) (h : ∀ k, ¬ FirstStop bs k) :
    (readVint bs).2 = 0 := by
  rcases split_high bs with hh | ⟨hi, t, rest, e, hh, ht⟩
  · unfold readVint
    by_cases hb : bs = []
    · subst hb; simp
    · rw [if_neg (by simpa using hb)]
      exact readLoop_all_high bs 0 0 hb hh
  · exfalso
    apply h hi.length
    refine ⟨t, by simp [e], ht, ?_⟩
    intro j c hj hc
    subst e
    rw [List.getElem?_append_left hj] at hc
    exact hh c (List.mem_of_getElem? hc)

/-- C03: the answer does not depend on anything behind the stop byte. -/
theorem C03_vint_read_prefix_only (bs tail tail' : List Byte) (k : Nat) (h : FirstStop bs k) :
    readVint (bs ++ tail) = readVint (bs.take (k + 1) ++ tail') := by
  obtain ⟨b, hb, hlt, hall⟩ := h
  have hk : k < bs.length := (List.getElem?_eq_some_iff.1 hb).1
  have hbk : bs[k] = b := (List.getElem?_eq_some_iff.1 hb).2
  have hsplit : bs = bs.take k ++ b :: bs.drop (k + 1) := by
    rw [← hbk, List.getElem_cons_drop hk, List.take_append_drop]
  have htake : bs.take (k + 1) = bs.take k ++ [b] := by
    rw [List.take_add_one, hb]; rfl
  have hhi : ∀ c ∈ bs.take k, 128 ≤ c.val := by
    intro c hc
    obtain ⟨j, hj, e⟩ := List.getElem_of_mem hc
    rw [List.getElem_take] at e
    simp at hj
    exact hall j c (by omega) (by rw [List.getElem?_eq_getElem (by omega), e])
  have e1 : bs ++ tail = bs.take k ++ b :: (bs.drop (k + 1) ++ tail) := by
    conv => lhs; rw [hsplit]
    simp
  rw [e1, htake, List.append_assoc]
  simp only [List.cons_append, List.nil_append]
  rw [readVint_split _ _ _ hhi hlt, readVint_split _ _ _ hhi hlt]

/-- C03: every proper prefix of a written integer is reported as incomplete. -/
theorem C03_vint_truncated_fails (v s n : Nat) (hok : (writeVint v s).1 ≠ 0)
    (hn : n < (writeVint v s).1) : (readVint ((writeVint v s).2.take n)).2 = 0 := by
  rcases writeVint_eq v s with ⟨hl, h⟩ | ⟨_, h, _⟩
  · rw [h] at hn ⊢
    simp only [enc, List.length_append, List.length_cons, List.length_nil] at hn ⊢
    rw [List.take_append_of_le_length (by omega)]
    by_cases hz : (encHi (v / 128)).take n = []
    · simp [hz, readVint]
    · unfold readVint
      rw [if_neg (by simpa using hz)]
      exact readLoop_all_high _ 0 0 hz (fun b hb => encHi_high _ b (List.mem_of_mem_take hb))
  · exact absurd h hok

/-- C03: no written integer is a proper prefix of another written integer. -/
theorem C03_vint_prefix_free (v w s s' : Nat) (hv : v < W64) (hw : w < W64)
    (hok : (writeVint v s).1 ≠ 0) (hok' : (writeVint w s').1 ≠ 0)
    (hp : (writeVint v s).2 <+: (writeVint w s').2) : v = w := by
  obtain ⟨t, ht⟩ := hp
  have h1 := (C01_vint_round_trip v s hv t hok).1
  have h2 := (C01_vint_round_trip w s' hw [] hok').1
  rw [ht] at h1
  rw [List.append_nil, h1] at h2
  exact (Prod.mk.inj h2).1

example : FirstStop [200, 129, 5, 7] 2 :=
  ⟨5, rfl, by decide, by
    intro j c hj hc
    match j, hj with
    | 0, _ => simp at hc; subst hc; decide
    | 1, _ => simp at hc; subst hc; decide⟩
example : (readVint [200, 129]).2 = 0 ∧ (readVint [200, 129, 5, 7]).2 = 3 := by decide +kernel

end Verif.Vint
