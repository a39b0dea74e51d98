import Verif.Mem.Seq

/-! Receiving from arbitrary ring contents: helper lemmas. -/
namespace Verif.Mem

set_option maxRecDepth 10000

/-- Steps from `x` to the write cursor. -/
def dist (n w x : Nat) : Nat := if x ≤ w then w - x else w + n - x

theorem next_lt {n i : Nat} (h : i < n) : next n i 1 < n := Nat.mod_lt _ (by omega)

theorem dist_next {n w x : Nat} (hx : x < n) (hw : w < n) (hne : x ≠ w) : dist n w (next n x 1) + 1 = dist n w x := by
  have : next n x 1 = if x + 1 = n then 0 else x + 1 := by
    unfold next
    split
    · rename_i h; rw [h, Nat.mod_self]
    · exact Nat.mod_eq_of_lt (by omega)
  rw [this]
  unfold dist
  split <;> split <;> split <;> omega

theorem dist_lt {n w x : Nat} (hx : x < n) (hw : w < n) : dist n w x < n := by
  unfold dist; split <;> omega

theorem clearNodes_safe {n seq b w : Nat} (hw : w < n) : ∀ (fuel i : Nat) (hs : Nat → Head), i < n →
    dist n w i < fuel → ∃ hs' e, clearNodes n seq b w fuel i hs = some (hs', e) ∧ e < n ∧
      (∀ x, n ≤ x → hs' x = hs x) := by
  intro fuel
  induction fuel with
  | zero => intro i hs _ h; omega
  | succ fuel ih =>
    intro i hs hi hd
    unfold clearNodes
    split
    · exact ⟨hs, i, rfl, hi, fun _ _ => rfl⟩
    · rename_i hne
      split
      · exact ⟨hs, i, rfl, hi, fun _ _ => rfl⟩
      · split
        · exact ⟨hs, i, rfl, hi, fun _ _ => rfl⟩
        · obtain ⟨hs', e, h1, h2, h3⟩ := ih (next n i 1)
            (setHead hs i { (hs i) with start := false, written := false }) (next_lt hi)
            (by have := dist_next hi hw hne; omega)
          refine ⟨hs', e, h1, h2, fun x hx => ?_⟩
          rw [h3 x hx, setHead_ne _ _ (by omega)]

/-- What the search loop guarantees on any contents. -/
def LoopSafe (c : Chan) (len : Nat) : LoopOut → Prop
  | .oob => False
  | .spin => False
  | .stop c' e ret _ => ret ≠ 0 ∧ e < c.conf.n ∧ c'.conf = c.conf ∧ c'.wcur = c.wcur ∧ c'.data = c.data ∧
      c'.oseq = c.oseq ∧ (∀ x, c.conf.n ≤ x → c'.heads x = c.heads x)
  | .got c' b e => b < c.conf.n ∧ e < c.conf.n ∧ c'.conf = c.conf ∧ c'.wcur = c.wcur ∧ c'.data = c.data ∧
      c'.oseq = c.oseq ∧
      (∀ x, c.conf.n ≤ x → c'.heads x = c.heads x) ∧ bsize c.data b ≤ len ∧ bsize c.data b ≠ 0 ∧
      bsize c.data b < sub64 (c.conf.n * nodeSize) c.conf.protMem ∧
      calcNodes (bsize c.data b) = rangeCount c.conf.n b e

theorem orElse_ne {ret code : Int} (h : code ≠ 0) : orElse ret code ≠ 0 := by
  unfold orElse; split <;> assumption

theorem LoopSafe.trans {c c1 : Chan} {len : Nat} {o : LoopOut} (h : LoopSafe c1 len o)
    (e1 : c1.conf = c.conf) (e2 : c1.wcur = c.wcur) (e3 : c1.data = c.data) (e5 : c1.oseq = c.oseq)
    (e4 : ∀ x, c.conf.n ≤ x → c1.heads x = c.heads x) : LoopSafe c len o := by
  cases o with
  | oob => exact h
  | spin => exact h
  | stop c' e ret sz =>
    obtain ⟨h1, h2, h3, h4, h5, h7, h6⟩ := h
    rw [e1] at h2 h3 h6
    exact ⟨h1, h2, h3, h4.trans e2, h5.trans e3, h7.trans e5, fun x hx => (h6 x hx).trans (e4 x hx)⟩
  | got c' b e =>
    obtain ⟨h1, h2, h3, h4, h5, h7, h6, r⟩ := h
    rw [e1] at h1 h2 h3 h6
    rw [e3, e1] at r
    exact ⟨h1, h2, h3, h4.trans e2, h5.trans e3, h7.trans e5, fun x hx => (h6 x hx).trans (e4 x hx), r⟩

theorem clearFlag_heads {c : Chan} {i x : Nat} (h : x ≠ i) : (clearFlag c i).heads x = c.heads x :=
  setHead_ne _ _ h

theorem recvLoop_safe (now len : Nat) : ∀ (fuel : Nat) (c : Chan) (cur : Nat) (ret : Int) (tseq : Nat),
    cur < c.conf.n → c.wcur < c.conf.n → dist c.conf.n c.wcur cur < fuel →
    LoopSafe c len (recvLoop now len fuel c cur ret tseq) := by
  intro fuel
  induction fuel with
  | zero => intro c cur ret tseq _ _ h; omega
  | succ fuel ih =>
    intro c cur ret tseq hc hw hd
    unfold recvLoop
    simp only
    have nd : Err.NO_DATA ≠ 0 := by decide
    split
    · exact ⟨orElse_ne nd, hc, rfl, rfl, rfl, rfl, fun _ _ => rfl⟩
    · rename_i hne
      have hdn := dist_next hc hw hne
      have hclr : ∀ ret tseq f, LoopSafe c len (recvLoop now len fuel { clearFlag c cur with fft := f } (next c.conf.n cur 1) ret tseq) := by
        intro ret tseq f
        refine (ih { clearFlag c cur with fft := f } (next c.conf.n cur 1) ret tseq (next_lt hc) hw (by
          show dist c.conf.n c.wcur (next c.conf.n cur 1) < fuel; omega)).trans rfl rfl rfl rfl ?_
        intro x hx
        exact clearFlag_heads (by omega)
      have hclr' : ∀ ret tseq, LoopSafe c len (recvLoop now len fuel (clearFlag c cur) (next c.conf.n cur 1) ret tseq) :=
        fun ret tseq => hclr ret tseq c.fft
      rw [if_neg (show ¬ c.conf.n ≤ cur by omega)]
      by_cases hwr : (c.heads cur).written = true
      · rw [if_pos hwr]
        by_cases hst : ¬ (c.heads cur).start = true
        · rw [if_pos hst]; exact hclr' _ _
        · rw [if_neg hst]
          by_cases hr : ret ≠ 0
          · rw [if_pos hr]
            exact ⟨hr, hc, rfl, rfl, rfl, rfl, fun _ _ => rfl⟩
          · rw [if_neg hr]
            generalize hbs : bsize c.data cur = sz
            generalize hlm : sub64 (c.conf.n * nodeSize) c.conf.protMem = lim
            by_cases hsz : sz = 0 ∨ sz ≥ lim
            · rw [if_pos hsz]; exact hclr' _ _
            · rw [if_neg hsz]
              rcases Nat.lt_or_ge len sz with hlen | hlen
              · rw [if_pos hlen]
                exact ⟨orElse_ne (by decide), hc, rfl, rfl, rfl, rfl, fun _ _ => rfl⟩
              · rw [if_neg (Nat.not_lt.2 hlen)]
                obtain ⟨hs', e, h1, h2, h3⟩ := clearNodes_safe (n := c.conf.n) (seq := (c.heads cur).seq)
                  (b := cur) (w := c.wcur) hw (c.conf.n + 1) cur c.heads hc
                  (by have := dist_lt hc hw; omega)
                rw [h1]
                simp only
                by_cases hcn : calcNodes sz ≠ rangeCount c.conf.n cur e
                · rw [if_pos hcn]
                  exact (ih { c with heads := hs' } (next c.conf.n cur 1) _ tseq (next_lt hc) hw (by
                    show dist c.conf.n c.wcur (next c.conf.n cur 1) < fuel; omega)).trans rfl rfl rfl rfl h3
                · rw [if_neg hcn]
                  rw [not_or] at hsz
                  subst hbs hlm
                  exact ⟨hc, h2, rfl, rfl, rfl, rfl, h3, hlen, hsz.1,
                    Nat.lt_of_not_le hsz.2, Decidable.not_not.1 hcn⟩
      · rw [if_neg hwr]
        by_cases hts : tseq ≠ 0 ∧ tseq = (c.heads cur).seq ∧ ¬ (c.heads cur).start = true
        · rw [if_pos hts]; exact hclr' _ _
        · rw [if_neg hts]
          by_cases hf : c.fft = 0
          · rw [if_pos hf]
            exact ⟨orElse_ne nd, hc, rfl, rfl, rfl, rfl, fun _ _ => rfl⟩
          · rw [if_neg hf]
            by_cases ht : absDiff now c.fft > c.conf.timeout
            · rw [if_pos ht]; exact hclr _ _ 0
            · rw [if_neg ht]
              exact ⟨orElse_ne nd, hc, rfl, rfl, rfl, rfl, fun _ _ => rfl⟩

theorem recv_safe {hash : List Byte → Nat} {c : Chan} (now len : Nat) (hr : c.rcur < c.conf.n)
    (hw : c.wcur < c.conf.n) (hp : c.conf.protMem ≤ c.conf.n * 256) (hn : c.conf.n * 256 < W64) :
    ∃ c' code size bytes, recv hash c now len = .done c' code size bytes ∧
      c'.rcur < c.conf.n ∧ c'.wcur = c.wcur ∧ c'.conf = c.conf ∧ c'.data = c.data ∧ c'.oseq = c.oseq ∧
      (∀ x, c.conf.n ≤ x → c'.heads x = c.heads x) ∧ bytes.length ≤ len ∧
      (code = Err.SUCCESS → ∃ b, b < c.conf.n ∧ bytes.length = bsize c.data b ∧ size = some bytes.length ∧
        bytes ≠ [] ∧ hash bytes % W64 = bcheck c.data b ∧
        ∀ i (hi : i < bytes.length), bytes[i] = c.data ((b * 256 + 16 + i) % (c.conf.n * 256))) := by
  have h := recvLoop_safe now len (c.conf.n + 1) c c.rcur 0 0 hr hw (by have := dist_lt hr hw; omega)
  unfold recv
  simp only
  cases hl : recvLoop now len (c.conf.n + 1) c c.rcur 0 0 with
  | oob => rw [hl] at h; exact h.elim
  | spin => rw [hl] at h; exact h.elim
  | stop c' e ret sz =>
    rw [hl] at h
    obtain ⟨h1, h2, h3, h4, h5, h7, h6⟩ := h
    exact ⟨_, _, _, _, rfl, h2, h4, h3, h5, h7, h6, by simp, fun hh => absurd hh h1⟩
  | got c' b e =>
    rw [hl] at h
    obtain ⟨h1, h2, h3, h4, h5, h7, h6, h8, h9, h10, h11⟩ := h
    simp only [h5]
    rw [sub64_le hp hn] at h10
    have h10' : bsize c.data b < c.conf.n * 256 - c.conf.protMem := h10
    simp only [nodeSize, blockHead]
    by_cases hb : bsize c.data b ≤ c.conf.n * 256 - b * 256 - 16
    · rw [if_pos hb, if_pos (by omega)]
      refine ⟨_, _, _, _, rfl, h2, h4, h3, by simp, h7, h6, by rw [rd_length]; exact h8, fun hh => ?_⟩
      refine ⟨b, h1, rd_length _ _ _, by rw [rd_length], ?_, ?_, ?_⟩
      · intro e
        have := congrArg List.length e
        rw [rd_length] at this
        exact h9 this
      · apply Classical.byContradiction
        intro hc
        rw [if_pos hc] at hh
        exact absurd hh (by decide)
      · intro i hi
        rw [rd_length] at hi
        simp only [rd, List.getElem_map, List.getElem_range]
        rw [Nat.mod_eq_of_lt (by omega)]
    · rw [if_neg hb, if_pos (by omega)]
      have hlen : (rd c.data (b * 256 + 16) (c.conf.n * 256 - b * 256 - 16) ++
          rd c.data 0 (bsize c.data b - (c.conf.n * 256 - b * 256 - 16))).length = bsize c.data b := by
        rw [List.length_append, rd_length, rd_length]; omega
      refine ⟨_, _, _, _, rfl, h2, h4, h3, by simp, h7, h6, by rw [hlen]; exact h8, fun hh => ?_⟩
      refine ⟨b, h1, hlen, by rw [hlen], ?_, ?_, ?_⟩
      · intro e
        have := congrArg List.length e
        rw [hlen] at this
        exact h9 this
      · apply Classical.byContradiction
        intro hc
        rw [if_pos hc] at hh
        exact absurd hh (by decide)
      · intro i hi
        rw [hlen] at hi
        by_cases h12 : i < c.conf.n * 256 - b * 256 - 16
        · rw [List.getElem_append_left (by rw [rd_length]; exact h12)]
          simp only [rd, List.getElem_map, List.getElem_range]
          rw [Nat.mod_eq_of_lt (by omega)]
        · rw [List.getElem_append_right (by rw [rd_length]; omega)]
          simp only [rd, List.getElem_map, List.getElem_range, List.length_map, List.length_range]
          congr 1
          rw [Nat.mod_eq_sub_mod (by omega), Nat.mod_eq_of_lt (by omega)]
          omega

end Verif.Mem
