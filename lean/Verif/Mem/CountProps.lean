import Verif.Mem.Count
import Verif.Mem.Props
import Verif.Mem.Safe

/-!
C78: the counters of a memory channel account for every node.

The specification counts nodes: those that a successful send fills, those that a receive takes as a message, and those in use between the
cursors.
-/
namespace Verif.Mem

set_option maxRecDepth 10000

section
attribute [local irreducible] sub64 calcNodes bsize bcheck

/-! ### The functions with counters do what those without do -/

theorem recvLoopC_out (now len : Nat) : ∀ (fuel : Nat) (c : Chan) (k : Cnt) (cur : Nat) (ret : Int) (tseq : Nat),
    (recvLoopC now len fuel c k cur ret tseq).1 = recvLoop now len fuel c cur ret tseq := by
  intro fuel
  induction fuel with
  | zero => intros; rfl
  | succ fuel ih =>
    intro c k cur ret tseq
    unfold recvLoopC recvLoop
    simp only
    generalize sub64 (c.conf.n * nodeSize) c.conf.protMem = lim
    by_cases h1 : cur = c.wcur
    · simp only [if_pos h1]
    simp only [if_neg h1]
    by_cases h2 : c.conf.n ≤ cur
    · simp only [if_pos h2]
    simp only [if_neg h2]
    by_cases h3 : (c.heads cur).written = true
    · simp only [if_pos h3]
      by_cases h4 : ¬ (c.heads cur).start = true
      · simp only [if_pos h4, ih]
      simp only [if_neg h4]
      by_cases h5 : ret ≠ 0
      · simp only [if_pos h5]
      simp only [if_neg h5]
      by_cases h6 : bsize c.data cur = 0 ∨ bsize c.data cur ≥ lim
      · simp only [if_pos h6, ih]
      simp only [if_neg h6]
      by_cases h7 : bsize c.data cur > len
      · simp only [if_pos h7]
      simp only [if_neg h7]
      cases clearNodes c.conf.n (c.heads cur).seq cur c.wcur (c.conf.n + 1) cur c.heads with
      | none => rfl
      | some r =>
        obtain ⟨hs, e⟩ := r
        simp only
        by_cases h8 : calcNodes (bsize c.data cur) ≠ rangeCount c.conf.n cur e
        · simp only [if_pos h8, ih]
        · simp only [if_neg h8]
    · simp only [if_neg h3]
      by_cases h4 : tseq ≠ 0 ∧ tseq = (c.heads cur).seq ∧ ¬ (c.heads cur).start = true
      · simp only [if_pos h4, ih]
      simp only [if_neg h4]
      by_cases h5 : c.fft = 0
      · simp only [if_pos h5]
      simp only [if_neg h5]
      by_cases h6 : absDiff now c.fft > c.conf.timeout
      · simp only [if_pos h6, ih]
      · simp only [if_neg h6]

theorem recvC_out (hash : List Byte → Nat) (c : Chan) (k : Cnt) (now len : Nat) : (recvC hash c k now len).1 = recv hash c now len := by
  unfold recvC recv
  simp only
  rw [← recvLoopC_out now len (c.conf.n + 1) c k c.rcur 0 0]
  cases h : recvLoopC now len (c.conf.n + 1) c k c.rcur 0 0 with
  | mk o k' => cases o <;> rfl

theorem sendLoopC_out (hash : List Byte → Nat) : ∀ (t : Nat) (c : Chan) (k : Cnt) (msg : List Byte) (ret : Int),
    (sendLoopC hash t c k msg ret).1 = sendLoop hash t c msg ret := by
  intro t
  induction t with
  | zero => intros; rfl
  | succ t ih =>
    intro c k msg ret
    unfold sendLoopC sendLoop
    simp only
    cases sendReal hash c msg with
    | done c' code =>
      simp only
      split
      · exact ih ..
      · rfl
    | oob => rfl
    | spin => rfl

theorem sendC_out (hash : List Byte → Nat) (c : Chan) (k : Cnt) (msg : List Byte) : (sendC hash c k msg).1 = send hash c msg :=
  sendLoopC_out ..

end

/-! ### The search loop -/

theorem clearNodes_dist {n seq b w : Nat} (hw : w < n) : ∀ (fuel i : Nat) (hs hs' : Nat → Head) (e : Nat), i < n →
    clearNodes n seq b w fuel i hs = some (hs', e) → e < n ∧ dist n w e ≤ dist n w i := by
  intro fuel
  induction fuel with
  | zero => intro i hs hs' e _ h; cases h
  | succ fuel ih =>
    intro i hs hs' e hi h
    unfold clearNodes at h
    have hstop : some (hs, i) = some (hs', e) → e < n ∧ dist n w e ≤ dist n w i := by
      intro h; cases h; exact ⟨hi, Nat.le_refl _⟩
    split at h
    · exact hstop h
    · rename_i hne
      split at h
      · exact hstop h
      · split at h
        · exact hstop h
        · obtain ⟨h1, h2⟩ := ih _ _ _ _ (next_lt hi) h
          have := dist_next hi hw hne
          exact ⟨h1, by omega⟩

theorem dist_range {n w b e : Nat} (hb : b < n) (hw : w < n) (he : e < n) (h : dist n w e ≤ dist n w b) :
    dist n w e + rangeCount n b e = dist n w b := by
  unfold rangeCount
  by_cases hbe : b ≤ e
  · rw [show e + n - b = e - b + n by omega, Nat.add_mod_right, Nat.mod_eq_of_lt (by omega)]
    unfold dist at *
    by_cases h1 : e ≤ w <;> by_cases h2 : b ≤ w <;> simp only [h1, h2, if_true, if_false] at h ⊢ <;> omega
  · rw [Nat.mod_eq_of_lt (by omega)]
    unfold dist at *
    by_cases h1 : e ≤ w <;> by_cases h2 : b ≤ w <;> simp only [h1, h2, if_true, if_false] at h ⊢ <;> omega

/-- The code of a receive that found no message tells which check failed. -/
def Told (k k' : Cnt) (code : Int) : Prop :=
  ((code = Err.NO_DATA ∨ code = Err.BUFF_LIMIT) ∧ k'.blockSize = k.blockSize ∧ k'.nodeNum = k.nodeNum) ∨
  (code = Err.NODE_BAD_BLOCK_BUFF_SIZE ∧ k'.blockSize = k.blockSize + 1 ∧ k'.nodeNum = k.nodeNum) ∨
  (code = Err.NODE_BAD_BLOCK_NODE_NUM ∧ k'.blockSize = k.blockSize ∧ k'.nodeNum = k.nodeNum + 1)

/-- What the loop does to the counters besides the two checks; `b` is the node at which it ended. -/
structure Moved (c : Chan) (k k' : Cnt) (cur b : Nat) : Prop where
  lt : b < c.conf.n
  nodes : dist c.conf.n c.wcur b + k'.badNode = dist c.conf.n c.wcur cur + k.badNode
  more : k.badNode ≤ k'.badNode
  parts : k'.timeout + k'.blockSize + k'.nodeNum + k.badNode ≤ k.timeout + k.blockSize + k.nodeNum + k'.badNode
  block : k'.badBlock + k.timeout = k.badBlock + k'.timeout
  once : k'.timeout ≤ k.timeout + if c.fft = 0 then 0 else 1
  grow : k.timeout ≤ k'.timeout
  hash : k'.hash = k.hash
  seqFail : k'.seqFail = k.seqFail
  retry : k'.retry = k.retry

/-- What the loop does to the counters. -/
def LoopCnt (c : Chan) (k : Cnt) (cur : Nat) (ret : Int) : LoopOut × Cnt → Prop
  | (.oob, _) => True
  | (.spin, _) => True
  | (.stop c' e code _, k') => Moved c k k' cur e ∧ c'.wcur = c.wcur ∧ c'.conf = c.conf ∧
      (if ret = 0 then Told k k' code else code = ret ∧ k'.blockSize = k.blockSize ∧ k'.nodeNum = k.nodeNum)
  | (.got c' b e, k') => Moved c k k' cur b ∧ c'.wcur = c.wcur ∧ c'.conf = c.conf ∧ ret = 0 ∧
      k'.blockSize = k.blockSize ∧ k'.nodeNum = k.nodeNum ∧
      c'.data = c.data ∧ e < c.conf.n ∧ dist c.conf.n c.wcur e ≤ dist c.conf.n c.wcur b ∧
      calcNodes (bsize c.data b) = rangeCount c.conf.n b e ∧ bsize c.data b < sub64 (c.conf.n * nodeSize) c.conf.protMem

theorem Moved.refl {c : Chan} {k : Cnt} {cur : Nat} (h : cur < c.conf.n) : Moved c k k cur cur :=
  ⟨h, rfl, Nat.le_refl _, Nat.le_refl _, rfl, Nat.le_add_right .., Nat.le_refl _, rfl, rfl, rfl⟩

theorem told_stop {k : Cnt} {ret code : Int} (h : code = Err.NO_DATA ∨ code = Err.BUFF_LIMIT) :
    if ret = 0 then Told k k (orElse ret code) else orElse ret code = ret ∧ k.blockSize = k.blockSize ∧ k.nodeNum = k.nodeNum := by
  unfold orElse
  split
  · rename_i hr; simp only [hr, ne_eq, not_true_eq_false, if_false]; exact Or.inl ⟨h, rfl, rfl⟩
  · rename_i hr; simp only [ne_eq, hr, not_false_eq_true, if_true]; exact ⟨trivial, trivial, trivial⟩

/-- One node further: how the counters of the rest are composed with those of the node. -/
theorem LoopCnt.cons {c c1 : Chan} {k k1 : Cnt} {cur cur1 : Nat} {ret ret1 : Int} {o : LoopOut × Cnt} (h : LoopCnt c1 k1 cur1 ret1 o)
    (hw : c1.wcur = c.wcur) (hcf : c1.conf = c.conf) (hdat : c1.data = c.data)
    (hd : dist c.conf.n c.wcur cur1 + 1 = dist c.conf.n c.wcur cur)
    (h1 : k1.badNode = k.badNode + 1) (h2 : k1.hash = k.hash) (h3 : k1.seqFail = k.seqFail) (h4 : k1.retry = k.retry)
    (hcase : (c1.fft = c.fft ∧ k1.timeout = k.timeout ∧ k1.badBlock = k.badBlock ∧
        ((ret1 = ret ∧ k1.blockSize = k.blockSize ∧ k1.nodeNum = k.nodeNum) ∨
          (ret = 0 ∧ ret1 = Err.NODE_BAD_BLOCK_BUFF_SIZE ∧ k1.blockSize = k.blockSize + 1 ∧ k1.nodeNum = k.nodeNum) ∨
          (ret = 0 ∧ ret1 = Err.NODE_BAD_BLOCK_NODE_NUM ∧ k1.blockSize = k.blockSize ∧ k1.nodeNum = k.nodeNum + 1))) ∨
      (c.fft ≠ 0 ∧ c1.fft = 0 ∧ k1.timeout = k.timeout + 1 ∧ k1.badBlock = k.badBlock + 1 ∧ ret1 = ret ∧
        k1.blockSize = k.blockSize ∧ k1.nodeNum = k.nodeNum)) :
    LoopCnt c k cur ret o := by
  have hmv : ∀ {k' b}, Moved c1 k1 k' cur1 b → Moved c k k' cur b := by
    intro k' b m
    obtain ⟨a1, a2, a3, a4, a5, a6, a7, a8, a9, a10⟩ := m
    rw [hcf] at a1
    rw [hcf, hw] at a2
    refine ⟨a1, by omega, by omega, ?_, ?_, ?_, ?_, by rw [a8, h2], by rw [a9, h3], by rw [a10, h4]⟩
    · rcases hcase with ⟨-, e1, -, ⟨-, e2, e3⟩ | ⟨-, -, e2, e3⟩ | ⟨-, -, e2, e3⟩⟩ | ⟨-, -, e1, -, -, e2, e3⟩ <;> omega
    · rcases hcase with ⟨-, e1, e2, -⟩ | ⟨-, -, e1, e2, -⟩ <;> omega
    · rcases hcase with ⟨e0, e1, -⟩ | ⟨e0, e1, e2, -⟩
      · rw [e0, e1] at a6; exact a6
      · rw [if_pos e1] at a6; rw [if_neg e0]; omega
    · rcases hcase with ⟨-, e1, -⟩ | ⟨-, -, e1, -⟩ <;> omega
  obtain ⟨o, k'⟩ := o
  cases o with
  | oob => trivial
  | spin => trivial
  | stop c' e code sz =>
    obtain ⟨m, b1, b2, b3⟩ := h
    refine ⟨hmv m, b1.trans hw, b2.trans hcf, ?_⟩
    have same : ret1 = ret ∧ k1.blockSize = k.blockSize ∧ k1.nodeNum = k.nodeNum →
        (if ret = 0 then Told k k' code else code = ret ∧ k'.blockSize = k.blockSize ∧ k'.nodeNum = k.nodeNum) := by
      rintro ⟨e1, e2, e3⟩
      rw [e1] at b3
      unfold Told at b3 ⊢
      rw [e2, e3] at b3
      exact b3
    rcases hcase with ⟨-, -, -, hs | ⟨e1, e2, e3, e4⟩ | ⟨e1, e2, e3, e4⟩⟩ | ⟨-, -, -, -, hs⟩
    · exact same hs
    · rw [if_pos e1]
      rw [if_neg (by rw [e2]; decide)] at b3
      exact Or.inr (Or.inl ⟨b3.1.trans e2, by rw [b3.2.1, e3], by rw [b3.2.2, e4]⟩)
    · rw [if_pos e1]
      rw [if_neg (by rw [e2]; decide)] at b3
      exact Or.inr (Or.inr ⟨b3.1.trans e2, by rw [b3.2.1, e3], by rw [b3.2.2, e4]⟩)
    · exact same hs
  | got c' b e =>
    obtain ⟨m, b1, b2, b3, b4, b5, b6, b7, b8, b9, b10⟩ := h
    rw [hcf] at b7
    rw [hcf, hw] at b8
    rw [hcf, hdat] at b9 b10
    refine ⟨hmv m, b1.trans hw, b2.trans hcf, ?_⟩
    have fin : ret1 = ret → k1.blockSize = k.blockSize → k1.nodeNum = k.nodeNum → ret = 0 ∧
      k'.blockSize = k.blockSize ∧ k'.nodeNum = k.nodeNum ∧
      c'.data = c.data ∧ e < c.conf.n ∧ dist c.conf.n c.wcur e ≤ dist c.conf.n c.wcur b ∧
      calcNodes (bsize c.data b) = rangeCount c.conf.n b e ∧ bsize c.data b < sub64 (c.conf.n * nodeSize) c.conf.protMem :=
      fun e1 e2 e3 => ⟨by rw [← e1]; exact b3, by rw [b4, e2], by rw [b5, e3], b6.trans hdat, b7, b8, b9, b10⟩
    rcases hcase with ⟨-, -, -, ⟨e1, e2, e3⟩ | ⟨-, e2, -⟩ | ⟨-, e2, -⟩⟩ | ⟨-, -, -, -, e1, e2, e3⟩
    · exact fin e1 e2 e3
    · rw [e2] at b3; exact absurd b3 (by decide)
    · rw [e2] at b3; exact absurd b3 (by decide)
    · exact fin e1 e2 e3

section
attribute [local irreducible] sub64 calcNodes bsize bcheck

theorem recvLoopC_cnt (now len : Nat) : ∀ (fuel : Nat) (c : Chan) (k : Cnt) (cur : Nat) (ret : Int) (tseq : Nat),
    cur < c.conf.n → c.wcur < c.conf.n → LoopCnt c k cur ret (recvLoopC now len fuel c k cur ret tseq) := by
  intro fuel
  induction fuel with
  | zero => intros; trivial
  | succ fuel ih =>
    intro c k cur ret tseq hc hw
    have stop : ∀ f code, code = Err.NO_DATA ∨ code = Err.BUFF_LIMIT → ∀ sz,
        LoopCnt c k cur ret (.stop { c with fft := f } cur (orElse ret code) sz, k) :=
      fun f code h sz => ⟨Moved.refl hc, rfl, rfl, told_stop h⟩
    unfold recvLoopC
    simp only
    split
    · exact stop c.fft _ (Or.inl rfl) _
    · rename_i hne
      have hd := dist_next hc hw hne
      split
      · trivial
      · split
        · split
          · refine (ih _ _ _ ret tseq ?_ ?_).cons rfl rfl rfl hd rfl rfl rfl rfl (Or.inl ⟨rfl, rfl, rfl, Or.inl ⟨rfl, rfl, rfl⟩⟩)
            · exact next_lt hc
            · exact hw
          · split
            · rename_i hr
              refine ⟨Moved.refl hc, rfl, rfl, ?_⟩
              rw [if_neg hr]; exact ⟨rfl, rfl, rfl⟩
            · rename_i hr
              have hr0 : ret = 0 := Decidable.not_not.1 hr
              subst hr0
              split
              · refine (ih _ _ _ _ tseq ?_ ?_).cons rfl rfl rfl hd rfl rfl rfl rfl
                  (Or.inl ⟨rfl, rfl, rfl, Or.inr (Or.inl ⟨rfl, rfl, rfl, rfl⟩)⟩)
                · exact next_lt hc
                · exact hw
              · rename_i hsz
                split
                · exact stop c.fft _ (Or.inr rfl) _
                · split
                  · trivial
                  · rename_i hs e hcl
                    obtain ⟨he, hde⟩ := clearNodes_dist hw _ _ _ _ _ hc hcl
                    split
                    · refine (ih _ _ _ _ tseq ?_ ?_).cons rfl rfl rfl hd rfl rfl rfl rfl
                        (Or.inl ⟨rfl, rfl, rfl, Or.inr (Or.inr ⟨rfl, rfl, rfl, rfl⟩)⟩)
                      · exact next_lt hc
                      · exact hw
                    · rename_i hcn
                      rw [not_or] at hsz
                      exact ⟨Moved.refl hc, rfl, rfl, rfl, rfl, rfl, rfl, he, hde, Decidable.not_not.1 hcn, Nat.lt_of_not_le hsz.2⟩
        · split
          · refine (ih _ _ _ ret tseq ?_ ?_).cons rfl rfl rfl hd rfl rfl rfl rfl (Or.inl ⟨rfl, rfl, rfl, Or.inl ⟨rfl, rfl, rfl⟩⟩)
            · exact next_lt hc
            · exact hw
          · split
            · exact stop now _ (Or.inl rfl) _
            · rename_i hf
              split
              · refine (ih _ _ _ ret _ ?_ ?_).cons rfl rfl rfl hd rfl rfl rfl rfl (Or.inr ⟨hf, rfl, rfl, rfl, rfl, rfl, rfl⟩)
                · exact next_lt hc
                · exact hw
              · exact stop c.fft _ (Or.inl rfl) _

end

/-! ### Specification -/

/-- Nodes between the cursors. -/
def inUse (c : Chan) : Nat := (c.wcur + c.conf.n - c.rcur) % c.conf.n

/-- Cursors and sizes are sane; nothing is said of node heads, data, sequence number and clock. -/
structure Sane (c : Chan) : Prop where
  r : c.rcur < c.conf.n
  w : c.wcur < c.conf.n
  protMem : c.conf.protMem ≤ c.conf.n * 256
  size : c.conf.n * 256 + 512 ≤ 2 ^ 64

/-- Nodes taken by a receive: those of the message it gives out, also if the hash is wrong. -/
def taken (code : Int) (len : Nat) : Nat := if code = Err.SUCCESS ∨ code = Err.BAD_DATA then need len else 0

/-- What one receive may do to the counters, by its result. -/
structure Reads (code : Int) (k k' : Cnt) : Prop where
  seqFail : k'.seqFail = k.seqFail
  retry : k'.retry = k.retry
  blockSize : k'.blockSize = k.blockSize + if code = Err.NODE_BAD_BLOCK_BUFF_SIZE then 1 else 0
  nodeNum : k'.nodeNum = k.nodeNum + if code = Err.NODE_BAD_BLOCK_NODE_NUM then 1 else 0
  hash : k'.hash = k.hash + if code = Err.BAD_DATA then 1 else 0
  timeout : ∃ t, t ≤ 1 ∧ k'.timeout = k.timeout + t ∧ k'.badBlock = k.badBlock + t
  badNode : ∃ x, k'.badNode = k.badNode + (k'.timeout - k.timeout) + (k'.blockSize - k.blockSize) + (k'.nodeNum - k.nodeNum) + x

theorem inUse_dist {c : Chan} (hr : c.rcur < c.conf.n) (hw : c.wcur < c.conf.n) : inUse c = dist c.conf.n c.wcur c.rcur := by
  unfold inUse dist
  split
  · rw [show c.wcur + c.conf.n - c.rcur = c.wcur - c.rcur + c.conf.n by omega, Nat.add_mod_right, Nat.mod_eq_of_lt (by omega)]
  · exact Nat.mod_eq_of_lt (by omega)

/-- C78 for one receive, whatever the nodes contain: the nodes in use before are those in use afterwards, those counted as bad, and
those of the message given out; and the other counters change as the result says. -/
theorem C78_receive (hash : List Byte → Nat) (c : Chan) (k : Cnt) (now len : Nat) (h : Sane c) :
    ∃ c' code size bytes k', recvC hash c k now len = (.done c' code size bytes, k') ∧ Sane c' ∧ c'.conf = c.conf ∧ c'.wcur = c.wcur ∧
      inUse c' + (k'.badNode - k.badNode) + taken code bytes.length = inUse c ∧ Reads code k k' := by
  have hsz := h.size
  have h19 := recv_safe (hash := hash) now len h.r h.w h.protMem (show c.conf.n * 256 < 2 ^ 64 by omega)
  have hout := recvC_out hash c k now len
  have hl := recvLoopC_cnt now len (c.conf.n + 1) c k c.rcur 0 0 h.r h.w
  obtain ⟨c', code, size, bytes, e1, e2, e3, e4, -, -, -, -, -⟩ := h19
  rw [e1] at hout
  refine ⟨c', code, size, bytes, (recvC hash c k now len).2, by rw [← hout], ⟨by rw [e4]; exact e2, by rw [e3, e4]; exact h.w,
    by rw [e4]; exact h.protMem, by rw [e4]; exact h.size⟩, e4, e3, ?_⟩
  rw [inUse_dist (c := c') (by rw [e4]; exact e2) (by rw [e3, e4]; exact h.w), inUse_dist h.r h.w, e4, e3]
  unfold recvC at hout ⊢
  simp only at hout ⊢
  revert hl hout
  generalize recvLoopC now len (c.conf.n + 1) c k c.rcur 0 0 = o
  intro hl hout
  obtain ⟨o, k'⟩ := o
  cases o with
  | oob => simp only at hout; cases hout
  | spin => simp only at hout; cases hout
  | stop d e ret sz =>
    obtain ⟨m, -, -, b3⟩ := hl
    simp only [RecvOut.done.injEq] at hout ⊢
    obtain ⟨f1, f2, -, f4⟩ := hout
    subst f2
    subst f1
    have := m.nodes; have := m.more; have := m.parts; have := m.block; have := m.once; have := m.grow
    have hon : k'.timeout ≤ k.timeout + 1 := by
      have := m.once; split at this <;> omega
    simp only [if_true, Told] at b3
    have ht : taken ret bytes.length = 0 := by
      unfold taken
      rw [if_neg]
      rcases b3 with ⟨e | e, -⟩ | ⟨e, -⟩ | ⟨e, -⟩ <;> rw [e] <;> decide
    rw [ht]
    refine ⟨by show dist c.conf.n c.wcur e + _ + 0 = _; omega, m.seqFail, m.retry, ?_, ?_, ?_,
      ⟨k'.timeout - k.timeout, by omega, by omega, by omega⟩, ?_⟩
    · rcases b3 with ⟨e | e, g, -⟩ | ⟨e, g, -⟩ | ⟨e, g, -⟩ <;> rw [e, g] <;> simp (decide := true)
    · rcases b3 with ⟨e | e, -, g⟩ | ⟨e, -, g⟩ | ⟨e, -, g⟩ <;> rw [e, g] <;> simp (decide := true)
    · rcases b3 with ⟨e | e, -⟩ | ⟨e, -⟩ | ⟨e, -⟩ <;> rw [e, m.hash] <;> simp (decide := true)
    · refine ⟨k'.badNode - k.badNode - (k'.timeout - k.timeout) - (k'.blockSize - k.blockSize) - (k'.nodeNum - k.nodeNum), ?_⟩
      rcases b3 with ⟨-, g1, g2⟩ | ⟨-, g1, g2⟩ | ⟨-, g1, g2⟩ <;> omega
  | got d b e =>
    obtain ⟨m, b1, b2, -, b4, b5, b6, b7, b8, b9, b10⟩ := hl
    simp only [b6] at hout ⊢
    have hlim : bsize c.data b < c.conf.n * 256 := by
      rw [sub64_le h.protMem (show c.conf.n * 256 < 2 ^ 64 by omega)] at b10
      have : c.conf.n * nodeSize = c.conf.n * 256 := rfl
      omega
    have hneed : calcNodes (bsize c.data b) = need (bsize c.data b) := by
      rw [need_eq]; exact calcNodes_eq (show _ < 2 ^ 64 by omega)
    have hdr := dist_range m.lt h.w b7 b8
    rw [← b9, hneed] at hdr
    have := m.nodes; have := m.more; have := m.parts; have := m.block; have := m.grow
    have hon : k'.timeout ≤ k.timeout + 1 := by
      have := m.once; split at this <;> omega
    have fin : ∀ (c' : Chan) (good : Prop) [Decidable good] (code : Int) (bytes : List Byte), c'.rcur = e → bytes.length = bsize c.data b →
        code = (if good then Err.BAD_DATA else Err.SUCCESS) → ∀ k'', k'' = hashCount k' (.done c' code (some (bsize c.data b)) bytes) →
        dist c.conf.n c.wcur c'.rcur + (k''.badNode - k.badNode) + taken code bytes.length = dist c.conf.n c.wcur c.rcur ∧ Reads code k k'' := by
      intro c' good _ code bytes hr hb hcode k'' hk
      have hk' : k'' = { k' with hash := k.hash + if code = Err.BAD_DATA then 1 else 0 } := by
        rw [hk]
        unfold hashCount
        simp only
        split
        · rw [m.hash]
        · cases k'; simp only [Cnt.mk.injEq, true_and, and_true]; exact m.hash
      have hc2 : code = Err.SUCCESS ∨ code = Err.BAD_DATA := by
        rw [hcode]; split
        · exact Or.inr rfl
        · exact Or.inl rfl
      have ht : taken code bytes.length = need (bsize c.data b) := by
        unfold taken; rw [if_pos hc2, hb]
      have n1 : ¬ code = Err.NODE_BAD_BLOCK_BUFF_SIZE := by rcases hc2 with e | e <;> rw [e] <;> decide
      have n2 : ¬ code = Err.NODE_BAD_BLOCK_NODE_NUM := by rcases hc2 with e | e <;> rw [e] <;> decide
      rw [ht, hr, hk']
      refine ⟨by simp only; omega, m.seqFail, m.retry, by rw [if_neg n1]; exact b4, by rw [if_neg n2]; exact b5, rfl,
        ⟨k'.timeout - k.timeout, by omega, by simp only; omega, by simp only; omega⟩,
        ⟨k'.badNode - k.badNode - (k'.timeout - k.timeout), by simp only; omega⟩⟩
    have hrd : ∀ d o l, (rd d o l).length = l := rd_length
    split at hout
    · rename_i hle
      split at hout
      · rename_i hle2
        rw [if_pos hle, if_pos hle2]
        simp only [RecvOut.done.injEq] at hout
        obtain ⟨f1, f2, f3, f4⟩ := hout
        refine fin c' _ code bytes (by rw [← f1]) (by rw [← f4, hrd]) f2.symm _ ?_
        rw [f1, f2, f4]
      · cases hout
    · rename_i hle
      split at hout
      · rename_i hle2
        rw [if_neg hle, if_pos hle2]
        simp only [RecvOut.done.injEq] at hout
        obtain ⟨f1, f2, f3, f4⟩ := hout
        refine fin c' _ code bytes (by rw [← f1]) (by rw [← f4, List.length_append, hrd, hrd]; omega) f2.symm _ ?_
        rw [f1, f2, f4]
      · cases hout

/-- Nodes filled by a send. -/
def filled (code : Int) (m : Msg) : Nat := if code = Err.SUCCESS ∧ m ≠ [] then need m.length else 0

/-- A send by itself never has to be repeated. -/
theorem sendC_done {hash : List Byte → Nat} {c c' : Chan} {k : Cnt} {m : Msg} {code : Int} (hr : 1 ≤ c.conf.retry)
    (h : sendReal hash c m = .done c' code) (h1 : code ≠ Err.NODE_BAD_BLOCK_CSEQ_ID) (h2 : code ≠ Err.NODE_BAD_BLOCK_WSEQ_ID) :
    sendC hash c k m = (.done c' code, k) := by
  obtain ⟨t, ht⟩ : ∃ t, c.conf.retry = t + 1 := ⟨c.conf.retry - 1, by omega⟩
  unfold sendC
  rw [ht]
  unfold sendLoopC
  rw [h]
  simp only [if_neg h1, h1, h2, or_self, if_false]

/-- C78 for one send, whatever the nodes contain: a successful one fills the nodes of its message, any other changes no cursor, and no
counter changes. -/
theorem C78_send (hash : List Byte → Nat) (c : Chan) (k : Cnt) (m : Msg) (h : Sane c) (hp : c.conf.prot < 2 ^ 64) (hr : 1 ≤ c.conf.retry)
    (hm : m.length + 512 ≤ 2 ^ 64) :
    ∃ c' code, sendC hash c k m = (.done c' code, k) ∧ Sane c' ∧ c'.conf = c.conf ∧ c'.rcur = c.rcur ∧
      inUse c' = inUse c + filled code m := by
  have hn := h.r
  have hsz := h.size
  have hok : Err.SUCCESS ≠ Err.NODE_BAD_BLOCK_CSEQ_ID ∧ Err.SUCCESS ≠ Err.NODE_BAD_BLOCK_WSEQ_ID := by decide
  have hlim : Err.BUFF_LIMIT ≠ Err.NODE_BAD_BLOCK_CSEQ_ID ∧ Err.BUFF_LIMIT ≠ Err.NODE_BAD_BLOCK_WSEQ_ID := by decide
  have hf0 : filled Err.BUFF_LIMIT m = 0 := by unfold filled; rw [if_neg]; rintro ⟨e, -⟩; revert e; decide
  by_cases h0 : m.length = 0
  · refine ⟨c, Err.SUCCESS, sendC_done hr ?_ hok.1 hok.2, h, rfl, rfl, ?_⟩
    · unfold sendReal; rw [if_pos h0]
    · have : m = [] := List.length_eq_zero_iff.1 h0
      unfold filled; rw [if_neg (fun hh => hh.2 this)]; rfl
  have hcn : calcNodes m.length = nodes m.length := calcNodes_eq (show _ < 2 ^ 64 by omega)
  by_cases h1 : nodes m.length ≥ sub64 c.conf.n c.conf.prot
  · refine ⟨c, Err.BUFF_LIMIT, sendC_done hr ?_ hlim.1 hlim.2, h, rfl, rfl, by rw [hf0]; rfl⟩
    unfold sendReal
    simp only
    rw [if_neg h0, hcn, if_pos h1]
  by_cases h2 : nodes m.length > avail c.conf c.rcur c.wcur
  · refine ⟨{ c with oseq := fetchSeq c.oseq }, Err.BUFF_LIMIT, sendC_done hr ?_ hlim.1 hlim.2, ⟨h.r, h.w, h.protMem, h.size⟩, rfl, rfl,
      by rw [hf0]; rfl⟩
    unfold sendReal
    simp only
    rw [if_neg h0, hcn, if_neg h1, if_pos h2]
  · have hu : inUse c < c.conf.n := Nat.mod_lt _ (by omega)
    have hwm : (c.rcur + inUse c) % c.conf.n = c.wcur := by
      rw [inUse_dist h.r h.w]
      unfold dist
      split
      · rw [show c.rcur + (c.wcur - c.rcur) = c.wcur by omega]; exact Nat.mod_eq_of_lt h.w
      · rw [show c.rcur + (c.wcur + c.conf.n - c.rcur) = c.wcur + c.conf.n by omega, Nat.add_mod_right]; exact Nat.mod_eq_of_lt h.w
    have hrm : c.rcur % c.conf.n = c.rcur := Nat.mod_eq_of_lt h.r
    have hav := avail_iff (cf := c.conf) (R := c.rcur) (u := inUse c) (k := nodes m.length) hu (nodes_pos _)
    rw [hrm, hwm] at hav
    have hroom := hav.1 h2
    obtain ⟨hs, d2, e1, e2, e3, -⟩ := send_writes (hash := hash) (c := c) (W := c.rcur + inUse c) (msg := m)
      (k := nodes m.length) (seq := fetchSeq c.oseq) rfl (by omega) (show _ < 2 ^ 64 by omega)
    rw [hwm] at e1 e2 e3
    have hnx : next c.conf.n c.wcur (nodes m.length) = (c.rcur + inUse c + nodes m.length) % c.conf.n := by
      rw [← hwm, next_mod]
    have hw' : (c.rcur + inUse c + nodes m.length) % c.conf.n < c.conf.n := Nat.mod_lt _ (by omega)
    refine ⟨{ c with
        oseq := fetchSeq c.oseq, wcur := (c.rcur + inUse c + nodes m.length) % c.conf.n
        heads := setHead hs c.wcur { hs c.wcur with written := true }
        data := wr d2 (c.wcur * nodeSize + 8) (toLE 8 (hash m % W64)) }, Err.SUCCESS, sendC_done hr ?_ hok.1 hok.2,
        ⟨h.r, hw', h.protMem, h.size⟩, rfl, rfl, ?_⟩
    · unfold sendReal
      simp only
      rw [if_neg h0, hcn, if_neg h1, if_neg h2, if_neg (Nat.not_le.2 h.w), hnx, e1]
      simp only
      rw [e2]
      simp only [setHead_eq, e3]
      simp
    · have hf : filled Err.SUCCESS m = nodes m.length := by
        unfold filled; rw [if_pos ⟨rfl, fun e => h0 (by rw [e]; rfl)⟩, need_eq]
      rw [hf]
      show rangeCount c.conf.n c.rcur ((c.rcur + inUse c + nodes m.length) % c.conf.n) = _
      have := rangeCount_abs (n := c.conf.n) (a := c.rcur) (k := inUse c + nodes m.length) (by omega)
      rw [hrm] at this
      rw [Nat.add_assoc]; exact this

/-! ### Histories -/

/-- A call, or damage to anything but the cursors and the configuration. -/
inductive Act where
  | call (o : Op)
  | damage (heads : Nat → Head) (data : Nat → Byte) (fft oseq : Nat)

/-- Runs calls and damage in order; also gives nodes filled and nodes given out. -/
def account (hash : List Byte → Nat) (c : Chan) (k : Cnt) : List Act → Option (Chan × Cnt × Nat × Nat)
  | [] => some (c, k, 0, 0)
  | .damage hs d f q :: l => account hash { c with heads := hs, data := d, fft := f, oseq := q } k l
  | .call o :: l =>
    match stepC hash c k o with
    | none => none
    | some (c', k', e) =>
      match account hash c' k' l with
      | none => none
      | some (c'', k'', f, g) =>
        match o with
        | .send m => some (c'', k'', f + filled e.code m, g)
        | .recv _ _ => some (c'', k'', f, g + taken e.code e.bytes.length)

/-- Message lengths a real buffer can have. -/
def Act.ok : Act → Prop
  | .call o => o.ok
  | .damage .. => True

/-- C78 over histories: whatever happens to heads and data, every call returns, and each node filled by a send is still in use, was given
out with a message, or was counted as bad. -/
theorem C78_nodes (hash : List Byte → Nat) (l : List Act) (hl : ∀ a ∈ l, a.ok) : ∀ (c : Chan) (k : Cnt), Sane c → c.conf.prot < 2 ^ 64 →
    1 ≤ c.conf.retry → ∃ c' k' f g, account hash c k l = some (c', k', f, g) ∧ Sane c' ∧ k.badNode ≤ k'.badNode ∧
      inUse c + f = inUse c' + g + (k'.badNode - k.badNode) := by
  induction l with
  | nil => intro c k h _ _; exact ⟨c, k, 0, 0, rfl, h, Nat.le_refl _, by omega⟩
  | cons a l ih =>
    intro c k h hp hr
    have ih := ih fun a ha => hl a (List.mem_cons_of_mem _ ha)
    have ha := hl a List.mem_cons_self
    cases a with
    | damage hs d f q => exact ih { c with heads := hs, data := d, fft := f, oseq := q } k ⟨h.r, h.w, h.protMem, h.size⟩ hp hr
    | call o =>
      cases o with
      | send m =>
        obtain ⟨c1, code, e1, e2, e3, -, e5⟩ := C78_send hash c k m h hp hr ha
        obtain ⟨c', k', f, g, f1, f2, f3, f4⟩ := ih c1 k e2 (by rw [e3]; exact hp) (by rw [e3]; exact hr)
        refine ⟨c', k', f + filled code m, g, ?_, f2, f3, by omega⟩
        simp only [account, stepC, e1, f1]
      | recv now len =>
        obtain ⟨c1, code, size, bytes, k1, e1, e2, e3, -, e5, e6⟩ := C78_receive hash c k now len h
        obtain ⟨c', k', f, g, f1, f2, f3, f4⟩ := ih c1 k1 e2 (by rw [e3]; exact hp) (by rw [e3]; exact hr)
        obtain ⟨x, hx⟩ := e6.badNode
        refine ⟨c', k', f, g + taken code bytes.length, ?_, f2, by omega, by omega⟩
        simp only [account, stepC, e1, f1]

/-! ### Undisturbed use -/

theorem stepC_impl (hash : List Byte → Nat) (c : Chan) (k : Cnt) (o : Op) :
    (stepC hash c k o).map (fun r => (r.1, r.2.2)) = implStep hash c o := by
  cases o with
  | send m =>
    unfold stepC implStep
    simp only
    rw [← sendC_out hash c k m]
    rcases sendC hash c k m with ⟨r, k'⟩
    cases r <;> rfl
  | recv now len =>
    unfold stepC implStep
    simp only
    rw [← recvC_out hash c k now len]
    rcases recvC hash c k now len with ⟨r, k'⟩
    cases r <;> rfl

theorem inv_inUse {hash : List Byte → Nat} {c : Chan} {q : List Msg} (h : Inv hash c q) : inUse c = load q := by
  obtain ⟨ok, ⟨R, hR, hW, -⟩, room, -⟩ := h
  show rangeCount c.conf.n c.rcur c.wcur = _
  rw [← hR, ← hW, rangeCount_abs room, load_eq]

theorem inv_sane {hash : List Byte → Nat} {c : Chan} {q : List Msg} (h : Inv hash c q) (hs : c.conf.n * 256 + 512 ≤ 2 ^ 64)
    (hp : c.conf.protMem ≤ c.conf.n * 256) : Sane c := by
  obtain ⟨ok, ⟨R, hR, hW, -⟩, room, -⟩ := h
  exact ⟨by rw [← hR]; exact Nat.mod_lt _ (by omega), by rw [← hW]; exact Nat.mod_lt _ (by omega), hp, hs⟩

theorem step_clean {hash : List Byte → Nat} {c : Chan} {q : List Msg} (h : Inv hash c q) (hs : c.conf.n * 256 + 512 ≤ 2 ^ 64)
    (hp : c.conf.protMem ≤ c.conf.n * 256) (k : Cnt) (o : Op) (ho : o.ok) :
    ∃ c' e q', stepC hash c k o = some (c', k, e) ∧ Inv hash c' q' ∧ c'.conf = c.conf := by
  have hsane := inv_sane h hs hp
  have hst := stepC_impl hash c k o
  obtain ⟨c', h1, h2, h3⟩ := step_refines h ho
  rw [h1] at hst
  cases o with
  | send m =>
    obtain ⟨c1, code, e1, -, -, -, -⟩ := C78_send hash c k m hsane h.ok.plt h.ok.retry ho
    refine ⟨c', (specStep c.conf.n c.conf.prot q (.send m)).2, _, ?_, h2, h3⟩
    simp only [stepC, e1, Option.map_some, Option.some.injEq, Prod.mk.injEq] at hst ⊢
    exact ⟨hst.1, trivial, hst.2⟩
  | recv now len =>
    obtain ⟨c1, code, size, bytes, k1, e1, -, -, -, e5, e6⟩ := C78_receive hash c k now len hsane
    simp only [stepC, e1, Option.map_some, Option.some.injEq, Prod.mk.injEq] at hst
    obtain ⟨g1, g2⟩ := hst
    subst g1
    rw [inv_inUse h, inv_inUse h2] at e5
    have key : k1 = k := by
      obtain ⟨a1, a2, a3, a4, a5, ⟨x, -, a6, a7⟩, ⟨y, a8⟩⟩ := e6
      have hspec : (code ≠ Err.NODE_BAD_BLOCK_BUFF_SIZE ∧ code ≠ Err.NODE_BAD_BLOCK_NODE_NUM ∧ code ≠ Err.BAD_DATA) ∧
          load (specStep c.conf.n c.conf.prot q (.recv now len)).1 + taken code bytes.length = load q := by
        unfold specStep at g2 ⊢
        cases q with
        | nil =>
          simp only [Ev.mk.injEq] at g2 ⊢
          obtain ⟨f1, -, f3⟩ := g2
          rw [f1, f3]
          decide
        | cons m r =>
          simp only at g2 ⊢
          split at g2
          · rename_i hlt
            simp only [Ev.mk.injEq] at g2
            obtain ⟨f1, -, f3⟩ := g2
            rw [f1, f3, if_pos hlt]
            exact ⟨by decide, rfl⟩
          · rename_i hlt
            simp only [Ev.mk.injEq] at g2
            obtain ⟨f1, -, f3⟩ := g2
            rw [f1, f3, if_neg hlt]
            refine ⟨by decide, ?_⟩
            unfold taken load
            rw [if_pos (Or.inl rfl), List.map_cons, List.sum_cons, Nat.add_comm]
      obtain ⟨⟨n1, n2, n3⟩, hload⟩ := hspec
      rw [if_neg n1] at a3
      rw [if_neg n2] at a4
      rw [if_neg n3] at a5
      have b1 : k1.badNode = k.badNode := by omega
      have b2 : k1.timeout = k.timeout := by omega
      have b3 : k1.badBlock = k.badBlock := by omega
      cases k; cases k1
      simp only [Cnt.mk.injEq] at *
      exact ⟨a1, a2, b1, b3, b2, a3, a4, a5⟩
    subst key
    exact ⟨c1, ⟨code, size, bytes⟩, _, by simp only [stepC, e1], h2, h3⟩

/-- C78 in undisturbed use: no counter ever changes, so a counter that is not zero always means that something is wrong. -/
theorem C78_clean (hash : List Byte → Nat) (cf : Conf) (hcf : GoodConf cf) (hprot : cf.prot ≤ cf.n) (hs : cf.n * 256 + 512 ≤ 2 ^ 64)
    (ops : List Op) (hops : ∀ o ∈ ops, o.ok) :
    ∃ c, runC hash (initChan cf) {} ops = some (c, {}) := by
  have main : ∀ (ops : List Op), (∀ o ∈ ops, o.ok) → ∀ (c : Chan) (q : List Msg), Inv hash c q → c.conf = cf →
      ∃ c', runC hash c {} ops = some (c', {}) := by
    intro ops
    induction ops with
    | nil => intro _ c q _ _; exact ⟨c, rfl⟩
    | cons o l ih =>
      intro ho c q h hc
      have hpm := hcf.protMem
      obtain ⟨c', e, q', e1, e2, e3⟩ := step_clean h (by rw [hc]; exact hs) (by rw [hc]; omega) {} o (ho o List.mem_cons_self)
      obtain ⟨c'', f1⟩ := ih (fun o h => ho o (List.mem_cons_of_mem _ h)) c' q' e2 (e3.trans hc)
      refine ⟨c'', ?_⟩
      simp only [runC, e1, Option.bind_eq_bind, Option.bind_some, f1]
  exact main ops hops _ [] (inv_init hcf.ok) rfl

/-- The default configuration of every memory block is one. -/
example (len : Nat) (h : minLen ≤ len) (h2 : len < 2 ^ 64) : GoodConf (defaultConf (nodesFor len)) ∧
    (defaultConf (nodesFor len)).prot ≤ (defaultConf (nodesFor len)).n ∧ (defaultConf (nodesFor len)).n * 256 + 512 ≤ 2 ^ 64 := by
  refine ⟨defaultConf_good len h h2, ?_, ?_⟩
  · simp only [defaultConf]; (repeat' split) <;> omega
  · have hm : 4368 ≤ len := h
    have hn : nodesFor len = (len - 4096) / 272 := rfl
    show nodesFor len * 256 + 512 ≤ _
    omega

/-! ### Examples -/

/-- A channel of 8 nodes; the first block claims no bytes, the next node belongs to no block, then comes a write that was never finished. -/
def wreck (fft : Nat) : Chan :=
  { initChan ⟨8, 0, 0, 4, 4⟩ with
    wcur := 3, fft := fft
    heads := fun i => if i = 0 then ⟨true, true, 1⟩ else if i = 1 then ⟨false, true, 1⟩ else ⟨true, false, 2⟩ }

example (fft : Nat) : Sane (wreck fft) :=
  ⟨(by decide : 0 < 8), (by decide : 3 < 8), (by decide : 0 ≤ 8 * 256), (by decide : 8 * 256 + 512 ≤ 2 ^ 64)⟩

/-- Result, cursor and counters of a receive, for comparison. -/
def seen (r : RecvOut × Cnt) : List Int :=
  match r.1 with
  | .done c code _ _ => [code, c.rcur, r.2.badNode, r.2.badBlock, r.2.timeout, r.2.blockSize, r.2.nodeNum, r.2.hash]
  | _ => []

example : seen (recvC (fun _ => 0) (wreck 0) {} 100 4096) = [Err.NODE_BAD_BLOCK_BUFF_SIZE, 2, 2, 0, 0, 1, 0, 0] := by decide +kernel
example : seen (recvC (fun _ => 0) (wreck 50) {} 100 4096) = [Err.NODE_BAD_BLOCK_BUFF_SIZE, 3, 3, 1, 1, 1, 0, 0] := by decide +kernel

/-- Two sends, damage to the head of the second, three receives: one message given out, one node counted as bad, nothing left. -/
def tale : List Act := [.call (.send [1, 2, 3]), .call (.send [4]),
  .damage (fun i => if i = 0 then ⟨true, true, 1⟩ else ⟨false, true, 2⟩) (wr (wr (fun _ => 0) 0 [3]) 16 [1, 2, 3]) 0 2,
  .call (.recv 9 100), .call (.recv 9 100), .call (.recv 9 100)]

example : (account (fun _ => 0) (initChan ⟨8, 0, 0, 4, 4⟩) {} tale).map (fun r => [inUse r.1, r.2.1.badNode, r.2.2.1, r.2.2.2]) =
    some [0, 1, 2, 1] := by decide +kernel

/-- `read_bad_block_count` is described as the number of bad blocks read (`include/detail/libatbus_channel_types.h:69`), but a block
dropped because its size is wrong is not counted: only timeouts are. -/
theorem C78_bad_block_false : ∃ (c c' : Chan) (k' : Cnt), Sane c ∧
    recvC (fun _ => 0) c {} 100 4096 = (.done c' Err.NODE_BAD_BLOCK_BUFF_SIZE none [], k') ∧ c'.rcur ≠ c.rcur ∧ k'.badBlock = 0 := by
  have h : (match recvC (fun _ => 0) (wreck 0) {} 100 4096 with
      | (.done c code none [], k) => code == Err.NODE_BAD_BLOCK_BUFF_SIZE && c.rcur == 2 && k.badBlock == 0
      | _ => false) = true := by decide +kernel
  split at h
  · rename_i c code k hc
    simp only [Bool.and_eq_true, beq_iff_eq] at h
    obtain ⟨⟨h1, h2⟩, h3⟩ := h
    subst h1
    exact ⟨wreck 0, c, k, ⟨by decide, by decide, by decide, by decide⟩, hc, by rw [h2]; decide, h3⟩
  · cases h

/-- The printed free size (below 2^32 nodes) is that of the available nodes only for a channel of 256 nodes or one without available
nodes, because the code multiplies by the number of nodes instead of their size. -/
theorem C78_shown_partial (c : Chan) (hn : 0 < c.conf.n) (hlt : c.conf.n < 2 ^ 32) :
    (shown c).2.2.2 = (shown c).1 * 256 ↔ c.conf.n = 256 ∨ (shown c).1 = 0 := by
  have ha : avail c.conf c.rcur c.wcur < c.conf.n := by
    have := Nat.mod_lt (c.rcur + c.conf.n - c.wcur - 1) hn
    unfold avail
    simp only
    split <;> omega
  have hm : avail c.conf c.rcur c.wcur * c.conf.n < W64 := by
    have : avail c.conf c.rcur c.wcur * c.conf.n < 2 ^ 32 * 2 ^ 32 := Nat.mul_lt_mul'' (by omega) hlt
    exact this
  show avail c.conf c.rcur c.wcur * c.conf.n % W64 = avail c.conf c.rcur c.wcur * 256 ↔ _ ∨ avail c.conf c.rcur c.wcur = 0
  rw [Nat.mod_eq_of_lt hm]
  constructor
  · intro h
    rcases Nat.eq_zero_or_pos (avail c.conf c.rcur c.wcur) with h0 | h0
    · exact Or.inr h0
    · exact Or.inl (Nat.eq_of_mul_eq_mul_left h0 h)
  · rintro (h | h) <;> rw [h]
    omega

/-- So the printed sizes are wrong: of a fresh channel of 1000 nodes the code prints that 992 nodes are available, that the used size is
2^64 - 736000, and that 992000 bytes are free instead of 253952. -/
theorem C78_shown_false : shown (initChan (defaultConf (nodesFor 276096))) = (992, 256000, 2 ^ 64 - 736000, 992000) ∧
    992 * nodeSize = 253952 := by decide +kernel

end Verif.Mem
