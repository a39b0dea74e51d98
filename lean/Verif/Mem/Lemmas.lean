import Verif.Mem.Model

namespace Verif.Mem

/-! ### Ring arithmetic -/

theorem mod_node {a j n : Nat} (hn : 0 < n) (hj : j < 256) : (a * 256 + j) % (n * 256) = (a % n) * 256 + j := by
  have h1 := Nat.div_add_mod a n
  have h2 := Nat.mod_lt a hn
  have e : a * 256 + j = (n * 256) * (a / n) + ((a % n) * 256 + j) := by
    have h3 : a * 256 = n * (a / n) * 256 + (a % n) * 256 := by rw [← Nat.add_mul, h1]
    have h4 : n * 256 * (a / n) = n * (a / n) * 256 := by
      rw [Nat.mul_assoc, Nat.mul_assoc, Nat.mul_comm 256]
    rw [h4, h3, Nat.add_assoc]
  rw [e, Nat.mul_add_mod, Nat.mod_eq_of_lt]
  omega

theorem mod_shift {a j n : Nat} (hn : 0 < n) : (a * 256 + j) % (n * 256) = ((a % n) * 256 + j) % (n * 256) := by
  have h1 := mod_node (a := a) (j := 0) hn (by omega)
  rw [Nat.add_mod, Nat.add_mod (a % n * 256)]
  simp only [Nat.add_zero] at h1
  rw [h1]
  congr 1
  have : a % n * 256 < n * 256 := by have := Nat.mod_lt a hn; omega
  rw [Nat.mod_eq_of_lt this]

theorem ring_inj {L x y : Nat} (h1 : x < y + L) (h2 : y < x + L) (h : x % L = y % L) : x = y := by
  have hx := Nat.div_add_mod x L
  have hy := Nat.div_add_mod y L
  rw [h] at hx
  rcases Nat.lt_trichotomy (x / L) (y / L) with hlt | heq | hgt
  · have := Nat.mul_le_mul_left L hlt
    rw [Nat.succ_eq_add_one, Nat.mul_add] at this
    omega
  · rw [heq] at hx; omega
  · have := Nat.mul_le_mul_left L hgt
    rw [Nat.succ_eq_add_one, Nat.mul_add] at this
    omega

theorem next_mod (n a k : Nat) : next n (a % n) k = (a + k) % n := by
  unfold next; rw [Nat.mod_add_mod]

theorem rangeCount_abs {n a k : Nat} (hk : k < n) : rangeCount n (a % n) ((a + k) % n) = k := by
  unfold rangeCount
  have hn : 0 < n := by omega
  have h1 := Nat.mod_lt a hn
  have e : (a + k) % n = (a % n + k) % n := by rw [Nat.mod_add_mod]
  rw [e]
  by_cases h : a % n + k < n
  · rw [Nat.mod_eq_of_lt h]
    have : a % n + k + n - a % n = n + k := by omega
    rw [this, Nat.add_mod_left, Nat.mod_eq_of_lt hk]
  · have h2 : (a % n + k) % n = a % n + k - n := by
      rw [Nat.mod_eq_sub_mod (by omega), Nat.mod_eq_of_lt (by omega)]
    rw [h2]
    have : a % n + k - n + n - a % n = k := by omega
    rw [this, Nat.mod_eq_of_lt hk]

/-- Free nodes when `u = W - R` nodes are used. -/
theorem avail_abs {cf : Conf} {R u : Nat} (hu : u < cf.n) :
    avail cf (R % cf.n) ((R + u) % cf.n) = if cf.n - 1 - u ≥ cf.prot then cf.n - 1 - u - cf.prot else 0 := by
  have hn : 0 < cf.n := by omega
  have h1 := Nat.mod_lt R hn
  have key : (R % cf.n + cf.n - (R + u) % cf.n - 1) % cf.n = cf.n - 1 - u := by
    have e : (R + u) % cf.n = (R % cf.n + u) % cf.n := by rw [Nat.mod_add_mod]
    rw [e]
    by_cases h : R % cf.n + u < cf.n
    · rw [Nat.mod_eq_of_lt h]
      have : R % cf.n + cf.n - (R % cf.n + u) - 1 = cf.n - 1 - u := by omega
      rw [this, Nat.mod_eq_of_lt (by omega)]
    · have h2 : (R % cf.n + u) % cf.n = R % cf.n + u - cf.n := by
        rw [Nat.mod_eq_sub_mod (by omega), Nat.mod_eq_of_lt (by omega)]
      rw [h2]
      have : R % cf.n + cf.n - (R % cf.n + u - cf.n) - 1 = cf.n + (cf.n - 1 - u) := by omega
      rw [this, Nat.add_mod_left, Nat.mod_eq_of_lt (by omega)]
  unfold avail
  simp only [key]

/-- Number of nodes of a message. -/
def nodes (len : Nat) : Nat := (len + 271) / 256

theorem calcNodes_eq {len : Nat} (h : len + 271 < W64) : calcNodes len = nodes len := by
  unfold calcNodes nodes blockHead nodeSize
  rw [Nat.mod_eq_of_lt (by omega)]
  rfl

theorem nodes_pos (len : Nat) : 1 ≤ nodes len := by unfold nodes; omega
theorem nodes_fit (len : Nat) : len + 16 ≤ nodes len * 256 := by unfold nodes; omega

/-! ### Bytes -/

theorem toLE_length : ∀ (k v : Nat), (toLE k v).length = k := by
  intro k
  induction k with
  | zero => intro v; rfl
  | succ k ih => intro v; simp [toLE, ih]

theorem fromLE_toLE : ∀ (k v : Nat), v < 256 ^ k → fromLE (toLE k v) = v := by
  intro k
  induction k with
  | zero => intro v h; simp at h; simp [toLE, fromLE, h]
  | succ k ih =>
    intro v h
    simp only [toLE, fromLE]
    rw [Nat.pow_succ] at h
    rw [ih (v / 256) (Nat.div_lt_of_lt_mul (by rw [Nat.mul_comm]; exact h))]
    omega

theorem fromLE_toLE64 {v : Nat} (h : v < W64) : fromLE (toLE 8 v) = v := by
  apply fromLE_toLE
  have : (256 : Nat) ^ 8 = 2 ^ 64 := by decide
  rw [this]; exact h

theorem fromLE_lt : ∀ (l : List Byte), fromLE l < 256 ^ l.length := by
  intro l
  induction l with
  | nil => simp [fromLE]
  | cons b l ih =>
    simp only [fromLE, List.length_cons, Nat.pow_succ]
    have := b.isLt
    omega

theorem rd_length (d : Nat → Byte) (o l : Nat) : (rd d o l).length = l := by simp [rd]

theorem rd_congr {d d' : Nat → Byte} {o l : Nat} (h : ∀ i, i < l → d (o + i) = d' (o + i)) :
    rd d o l = rd d' o l := by
  unfold rd
  apply List.map_congr_left
  intro i hi
  exact h i (by simpa using hi)

theorem rd_eq_list {d : Nat → Byte} {o : Nat} {l : List Byte}
    (h : ∀ i (hi : i < l.length), d (o + i) = l[i]) : rd d o l.length = l := by
  apply List.ext_getElem
  · simp [rd]
  · intro i h1 h2
    simp only [rd, List.getElem_map, List.getElem_range]
    exact h i h2

theorem wr_in {d : Nat → Byte} {o a : Nat} {bs : List Byte} (h : o ≤ a ∧ a < o + bs.length) :
    wr d o bs a = bs[a - o]'(by omega) := by simp only [wr]; rw [dif_pos h]
theorem wr_out {d : Nat → Byte} {o a : Nat} {bs : List Byte} (h : ¬ (o ≤ a ∧ a < o + bs.length)) :
    wr d o bs a = d a := by simp only [wr]; rw [dif_neg h]
theorem wr_at {d : Nat → Byte} {o i : Nat} {bs : List Byte} (h : i < bs.length) :
    wr d o bs (o + i) = bs[i] := by
  rw [wr_in ⟨by omega, by omega⟩]
  congr 1; omega

theorem rd_wr (d : Nat → Byte) (o : Nat) (bs : List Byte) : rd (wr d o bs) o bs.length = bs :=
  rd_eq_list fun i hi => wr_at hi

theorem setHead_eq (hs : Nat → Head) (i : Nat) (h : Head) : setHead hs i h i = h := by simp [setHead]
theorem setHead_ne (hs : Nat → Head) {i j : Nat} (h : Head) (hne : j ≠ i) : setHead hs i h j = hs j := by
  simp [setHead, hne]

/-! ### Loops -/

theorem markNodes_spec {n seq W k : Nat} (hk : k < n) : ∀ (j fuel : Nat) (hs : Nat → Head), 1 ≤ j → j ≤ k →
    k - j < fuel → ∃ hs', markNodes n seq ((W + k) % n) fuel ((W + j) % n) hs = some hs' ∧
      (∀ i, j ≤ i → i < k → hs' ((W + i) % n) = ⟨false, true, seq⟩) ∧
      (∀ x, (∀ i, j ≤ i → i < k → x ≠ (W + i) % n) → hs' x = hs x) := by
  intro j fuel
  induction fuel generalizing j with
  | zero => intro hs _ _ h; omega
  | succ fuel ih =>
    intro hs h1 h2 h3
    unfold markNodes
    by_cases he : j = k
    · subst he
      rw [if_pos rfl]
      exact ⟨hs, rfl, fun i a b => by omega, fun _ _ => rfl⟩
    · have hne : ¬ (W + j) % n = (W + k) % n := by
        intro e
        have := ring_inj (L := n) (x := W + j) (y := W + k) (by omega) (by omega) e
        omega
      rw [if_neg hne, next_mod]
      obtain ⟨hs', e1, e2, e3⟩ := ih (j + 1) (setHead hs ((W + j) % n) ⟨false, true, seq⟩) (by omega) (by omega) (by omega)
      refine ⟨hs', by rw [← e1]; rfl, ?_, ?_⟩
      · intro i a b
        by_cases hi : i = j
        · subst hi
          rw [e3 _ (fun i' a' b' e => by
            have := ring_inj (L := n) (x := W + i) (y := W + i') (by omega) (by omega) e
            omega), setHead_eq]
        · exact e2 i (by omega) b
      · intro x hx
        rw [e3 x (fun i a b => hx i (by omega) b), setHead_ne _ _ (hx j (by omega) (by omega))]

theorem clearNodes_spec {n seq R k stop : Nat} (hk : k < n) (hstop : ∀ j, j < k → (R + j) % n ≠ stop) :
    ∀ (j fuel : Nat) (hs : Nat → Head), j ≤ k → k - j < fuel →
    (∀ i, j ≤ i → i < k → (hs ((R + i) % n)).seq = seq ∧ (i ≠ 0 → (hs ((R + i) % n)).start = false)) →
    ((R + k) % n = stop ∨ (hs ((R + k) % n)).seq ≠ seq ∨ (0 < k ∧ (hs ((R + k) % n)).start = true)) →
    ∃ hs', clearNodes n seq (R % n) stop fuel ((R + j) % n) hs = some (hs', (R + k) % n) ∧
      (∀ x, (∀ i, j ≤ i → i < k → x ≠ (R + i) % n) → hs' x = hs x) ∧
      (∀ i, j ≤ i → i < k → (hs' ((R + i) % n)).start = false ∧ (hs' ((R + i) % n)).written = false) := by
  intro j fuel
  induction fuel generalizing j with
  | zero => intro hs _ h; omega
  | succ fuel ih =>
    intro hs h1 h2 h3 h4
    unfold clearNodes
    by_cases he : j = k
    · subst he
      refine ⟨hs, ?_, fun _ _ => rfl, fun i a b => by omega⟩
      by_cases c1 : (R + j) % n = stop
      · rw [if_pos c1]
      · rw [if_neg c1]
        by_cases c2 : (hs ((R + j) % n)).seq ≠ seq
        · rw [if_pos c2]
        · rw [if_neg c2]
          rcases h4 with h | h | ⟨h, h'⟩
          · exact absurd h c1
          · exact absurd h c2
          · rw [if_pos]
            refine ⟨fun e => ?_, h'⟩
            have := ring_inj (L := n) (x := R + j) (y := R) (by omega) (by omega) e
            omega
    · obtain ⟨h5, h6⟩ := h3 j (Nat.le_refl _) (by omega)
      rw [if_neg (hstop j (by omega)), if_neg (by simp [h5]), if_neg, next_mod]
      · obtain ⟨hs', e1, e2, e3⟩ := ih (j + 1)
          (setHead hs ((R + j) % n) { (hs ((R + j) % n)) with start := false, written := false })
          (by omega) (by omega) (by
            intro i a b
            have hne : (R + i) % n ≠ (R + j) % n := fun e => by
              have := ring_inj (L := n) (x := R + i) (y := R + j) (by omega) (by omega) e
              omega
            rw [setHead_ne _ _ hne]
            exact h3 i (by omega) b) (by
            have hne : (R + k) % n ≠ (R + j) % n := fun e => by
              have := ring_inj (L := n) (x := R + k) (y := R + j) (by omega) (by omega) e
              omega
            rw [setHead_ne _ _ hne]
            exact h4)
        refine ⟨hs', e1, ?_, ?_⟩
        · intro x hx
          rw [e2 x (fun i a b => hx i (by omega) b), setHead_ne _ _ (hx j (Nat.le_refl _) (by omega))]
        · intro i a b
          by_cases hi : i = j
          · subst hi
            rw [e2 _ (fun i' a' b' e => by
              have := ring_inj (L := n) (x := R + i) (y := R + i') (by omega) (by omega) e
              omega), setHead_eq]
            exact ⟨rfl, rfl⟩
          · exact e3 i (by omega) b
      · rintro ⟨hne, hst⟩
        by_cases hj : j = 0
        · subst hj; exact hne rfl
        · rw [h6 hj] at hst; simp at hst

theorem copyIn_spec {n W k : Nat} {d : Nat → Byte} {msg : List Byte} (h1 : 1 ≤ k) (hk : k < n)
    (hl : msg.length + 16 ≤ k * 256) :
    ∃ d', copyIn n d (W % n) ((W + k) % n) msg = some d' ∧
      (∀ i (hi : i < msg.length), d' ((W * 256 + 16 + i) % (n * 256)) = msg[i]) ∧
      (∀ x, (∀ i, i < msg.length → x ≠ (W * 256 + 16 + i) % (n * 256)) → d' x = d x) := by
  have hn : 0 < n := by omega
  have hw := Nat.mod_lt W hn
  have hwk : (W + k) % n = if W % n + k < n then W % n + k else W % n + k - n := by
    rw [← Nat.mod_add_mod]
    split
    · rename_i h; exact Nat.mod_eq_of_lt h
    · rename_i h; rw [Nat.mod_eq_sub_mod (by omega), Nat.mod_eq_of_lt (by omega)]
  have haddr : ∀ i, i < msg.length → (W * 256 + 16 + i) % (n * 256) =
      if W % n * 256 + 16 + i < n * 256 then W % n * 256 + 16 + i else W % n * 256 + 16 + i - n * 256 := by
    intro i hi
    rw [Nat.add_assoc, mod_shift hn, ← Nat.add_assoc]
    split
    · rename_i h; exact Nat.mod_eq_of_lt h
    · rename_i h; rw [Nat.mod_eq_sub_mod (by omega), Nat.mod_eq_of_lt (by omega)]
  generalize hwe : W % n = w at *
  unfold copyIn
  simp only [blockHead, nodeSize]
  by_cases hc : w + k ≤ n
  · -- no wrap
    have hnw : ¬ ((W + k) % n ≠ 0 ∧ (W + k) % n < w) := by
      rw [hwk]; split <;> omega
    rw [if_neg hnw, if_pos (by omega)]
    refine ⟨_, rfl, ?_, ?_⟩
    · intro i hi
      rw [haddr i hi, if_pos (by omega)]
      exact wr_at hi
    · intro x hx
      apply wr_out
      rintro ⟨a, b⟩
      have := hx (x - (w * 256 + 16)) (by omega)
      rw [haddr _ (by omega), if_pos (by omega)] at this
      omega
  · have hwr : (W + k) % n ≠ 0 ∧ (W + k) % n < w := by
      rw [hwk, if_neg (by omega)]; omega
    rw [if_pos hwr]
    generalize hcl : (if msg.length > n * 256 - w * 256 - 16 then n * 256 - w * 256 - 16 else msg.length) = cl
    have hcl1 : cl ≤ msg.length ∧ w * 256 + 16 + cl ≤ n * 256 ∧
        (cl < msg.length → cl = n * 256 - w * 256 - 16) := by
      rw [← hcl]; split <;> omega
    rw [if_pos (by omega)]
    refine ⟨_, rfl, ?_, ?_⟩
    · intro i hi
      rw [haddr i hi]
      by_cases hi2 : i < cl
      · rw [if_pos (by omega), wr_out (by simp only [List.length_drop]; omega)]
        rw [wr_at (by simp only [List.length_take]; omega), List.getElem_take]
      · have := hcl1.2.2 (by omega)
        rw [if_neg (by omega)]
        have e : w * 256 + 16 + i - n * 256 = 0 + (i - cl) := by omega
        rw [e, wr_at (by simp only [List.length_drop]; omega), List.getElem_drop]
        congr 1; omega
    · intro x hx
      rw [wr_out, wr_out]
      · rintro ⟨a, b⟩
        rw [List.length_take] at b
        have := hx (x - (w * 256 + 16)) (by omega)
        rw [haddr _ (by omega), if_pos (by omega)] at this
        omega
      · rintro ⟨a, b⟩
        rw [List.length_drop] at b
        have := hcl1.2.2 (by omega)
        have := hx (cl + x) (by omega)
        rw [haddr _ (by omega), if_neg (by omega)] at this
        omega

/-- What the copy out of the ring returns. -/
theorem copyOut_spec {n R k : Nat} {d : Nat → Byte} {msg : List Byte} (h1 : 1 ≤ k) (hk : k < n)
    (hl : msg.length + 16 ≤ k * 256)
    (hd : ∀ i (hi : i < msg.length), d ((R * 256 + 16 + i) % (n * 256)) = msg[i]) :
    let b := R % n
    let bufLen := n * nodeSize - b * nodeSize - blockHead
    let start := b * nodeSize + blockHead
    (msg.length ≤ bufLen → start + msg.length ≤ n * nodeSize ∧ rd d start msg.length = msg) ∧
    (¬ msg.length ≤ bufLen → (start + bufLen ≤ n * nodeSize ∧ msg.length - bufLen ≤ n * nodeSize) ∧
      rd d start bufLen ++ rd d 0 (msg.length - bufLen) = msg) := by
  have hn : 0 < n := by omega
  have hw := Nat.mod_lt R hn
  have haddr : ∀ i, i < msg.length → (R * 256 + 16 + i) % (n * 256) =
      if R % n * 256 + 16 + i < n * 256 then R % n * 256 + 16 + i else R % n * 256 + 16 + i - n * 256 := by
    intro i hi
    rw [Nat.add_assoc, mod_shift hn, ← Nat.add_assoc]
    split
    · rename_i h; exact Nat.mod_eq_of_lt h
    · rename_i h; rw [Nat.mod_eq_sub_mod (by omega), Nat.mod_eq_of_lt (by omega)]
  simp only [nodeSize, blockHead]
  generalize R % n = w at *
  refine ⟨fun hc => ⟨by omega, ?_⟩, fun hc => ⟨by omega, ?_⟩⟩
  · apply rd_eq_list
    intro i hi
    have := hd i hi
    rw [haddr i hi, if_pos (by omega)] at this
    exact this
  · generalize hb : n * 256 - w * 256 - 16 = bl at *
    have e1 : rd d (w * 256 + 16) bl = msg.take bl := by
      have hlen : (msg.take bl).length = bl := by rw [List.length_take]; omega
      have := rd_eq_list (d := d) (o := w * 256 + 16) (l := msg.take bl) (by
        intro i hi
        rw [hlen] at hi
        have := hd i (by omega)
        rw [haddr i (by omega), if_pos (by omega)] at this
        rw [this, List.getElem_take])
      rw [hlen] at this
      exact this
    have e2 : rd d 0 (msg.length - bl) = msg.drop bl := by
      have hlen : (msg.drop bl).length = msg.length - bl := by rw [List.length_drop]
      have := rd_eq_list (d := d) (o := 0) (l := msg.drop bl) (by
        intro i hi
        rw [hlen] at hi
        have := hd (bl + i) (by omega)
        rw [haddr (bl + i) (by omega), if_neg (by omega)] at this
        rw [List.getElem_drop, ← this]
        congr 1; omega)
      rw [hlen] at this
      exact this
    rw [e1, e2, List.take_append_drop]

end Verif.Mem
