import Verif.Buffer.Pop

/-! Static-mode merges preserve the layout invariant. -/
namespace Verif.Buffer

/-- A block after a merge of `s` bytes, placed at `p`. -/
def PB.grow (b : PB) (p s : Nat) : PB := ⟨p, b.cells ++ List.replicate s none, b.used⟩

theorem grow_len (b : PB) (p s : Nat) : (b.grow p s).cells.length = b.cells.length + s := by
  simp [PB.grow]

/-- Replacing the last block. -/
theorem Core.replaceLast {st : SBuf} {rest : List PB} {b nb : PB} {t t' : Nat} {m : Mem}
    (h : Core st (rest ++ [b]) t) (hm : ∀ c ∈ rest ++ [nb], BlkOK m c)
    (hlay : Layout st.size (rest ++ [nb]) t') (idx' : List (Option Nat))
    (hi : idx' = (st.idx.set st.tail (some t')).set
      ((st.tail + st.idx.length - 1) % st.idx.length) (some nb.p)) :
    Core { st with mem := m, idx := idx' } (rest ++ [nb]) t' := by
  have hlen : idx'.length = st.idx.length := by rw [hi]; simp
  have hroom : rest.length + 1 < st.idx.length := by simpa using h.len
  have hti : (st.tail + st.idx.length - 1) % st.idx.length = (st.head + rest.length) % st.idx.length := by
    rw [h.teq]; simp only [List.length_append, List.length_cons, List.length_nil]
    exact ring_pred h.hlt
  have hteq : st.tail = (st.head + (rest.length + 1)) % st.idx.length := by
    simpa using h.teq
  refine ⟨?_, hm, hlay, by simp, ?_, ?_, ?_, ?_, ?_⟩
  · simpa [hlen] using h.n2
  · simpa [hlen] using h.hlt
  · simpa [hlen] using hroom
  · simpa [hlen] using hteq
  · intro i c hic
    have hil : i < rest.length + 1 := by simpa using lt_of_getElem? hic
    show idx'[(st.head + i) % idx'.length]? = _
    rw [hlen, hi, hti]
    rcases getElem?_snoc _ _ _ _ hic with hc | ⟨rfl, rfl⟩
    · have hil := lt_of_getElem? hc
      rw [sub_set, sub_set, h.slots i c (by rw [List.getElem?_append_left hil]; exact hc)]
      · rw [hteq]; intro he
        have := ring_inj h.hlt hroom (by omega) he
        omega
      · intro he
        have := ring_inj h.hlt (by omega) (by omega) he
        omega
    · exact set_self (by simp; exact ring_lt h.hlt)
  · show idx'[st.tail]? = _
    rw [hi, hti, sub_set]
    · exact set_self h.tlt
    · rw [hteq]; intro he
      have := ring_inj h.hlt (by omega) hroom he
      omega

theorem grow_ok {m m' : Mem} {b : PB} {p s : Nat} (h : BlkOK m b)
    (hh : HdrAt m' p ⟨b.cells.length + s, b.used, p + 32⟩)
    (hc : ∀ j, j < b.cells.length → m' (p + 32 + j) = m (b.p + 32 + j)) :
    BlkOK m' (b.grow p s) := by
  refine ⟨by simpa [PB.grow] using hh, ?_, ?_⟩
  · have := h.2.1; simp [PB.grow]; omega
  · intro j x hj
    have hj' : (b.cells ++ List.replicate s none)[j]? = some (some x) := hj
    rcases Nat.lt_or_ge j b.cells.length with hl | hl
    · rw [List.getElem?_append_left hl] at hj'
      show m' (p + 32 + j) = _
      rw [hc j hl]; exact h.2.2 j x hj'
    · rw [List.getElem?_append_right hl, List.getElem?_replicate] at hj'
      split at hj' <;> simp at hj'

theorem extendLast_core {st : SBuf} {rest : List PB} {b : PB} {t s : Nat}
    (h : Core st (rest ++ [b]) t)
    (hlay : Layout st.size (rest ++ [b.grow b.p s]) (b.p + full (b.cells.length + s))) :
    ∃ st', extendLast st b.p b.hdr s = some (st', Err.SUCCESS, some (b.p + 32 + b.cells.length)) ∧
      Core st' (rest ++ [b.grow b.p s]) (b.p + full (b.cells.length + s)) ∧ SameMeta st st' := by
  have hfin := h.lay.bound (b := b) (by simp)
  have hg := full_ge b.cells.length
  have hlt : b.p + 32 ≤ b.fin := by unfold PB.fin; omega
  have hdis := h.lay.disj (as := rest) (cs := [])
  have hti : (st.tail + st.idx.length - 1) % st.idx.length = (st.head + rest.length) % st.idx.length := by
    rw [h.teq]; simp only [List.length_append, List.length_cons, List.length_nil]
    exact ring_pred h.hlt
  refine ⟨_, ?_, h.replaceLast (m := putHdr st.mem b.p { b.hdr with size := b.hdr.size + s })
    ?_ hlay _ rfl, ⟨rfl, by simp, rfl, rfl, rfl, rfl⟩⟩
  · unfold extendLast
    rw [writeHdr_of (by omega)]
    have hs : ((st.idx.set st.tail (some (b.p + full (b.cells.length + s)))).set
        ((st.tail + st.idx.length - 1) % st.idx.length) (some b.p)) =
        st.idx.set st.tail (some (b.p + full (b.cells.length + s))) := by
      apply set_eq_self
      rw [hti, sub_set, h.slots rest.length b (by simp)]
      rw [h.teq]; intro he
      have hl := h.len
      simp only [List.length_append, List.length_cons, List.length_nil] at he hl
      have := ring_inj h.hlt (by omega) (by omega) he
      omega
    simp only [PB.hdr, PB.grow, hs]
  · intro c hc
    rcases List.mem_append.1 hc with hc | hc
    · refine (h.mem c (by simp [hc])).frame ?_
      intro a h1 h2
      apply putHdr_frame
      have := hdis c (Or.inl hc)
      omega
    · simp at hc; subst hc
      refine grow_ok (h.mem b (by simp)) ?_ ?_
      · exact putHdr_at _ _ _
      · intro j hj; apply putHdr_frame; omega

/-- Memory after `create` at `d`, moving `n` cells from `src` behind the new
header and storing the final header. -/
def relMem (m : Mem) (d src n : Nat) (h1 h2 : Hdr) : Mem :=
  putHdr (fun x => if d + 32 ≤ x ∧ x < d + 32 + n then putHdr m d h1 (src + (x - (d + 32)))
    else putHdr m d h1 x) d h2

theorem relMem_frame {m : Mem} {d src n : Nat} {h1 h2 : Hdr} {a : Nat}
    (ha : a < d ∨ d + 32 + n ≤ a) : relMem m d src n h1 h2 a = m a := by
  unfold relMem
  rw [putHdr_frame (by omega)]
  rw [if_neg (by omega), putHdr_frame (by omega)]

theorem relMem_data {m : Mem} {d src n : Nat} {h1 h2 : Hdr} {j : Nat} (hj : j < n)
    (hs : d + 24 ≤ src ∨ src + n ≤ d) : relMem m d src n h1 h2 (d + 32 + j) = m (src + j) := by
  unfold relMem
  rw [putHdr_frame (by omega)]
  rw [if_pos (by omega), putHdr_frame (by omega)]
  congr 1; omega

theorem pop_used_eq {b : PB} {p s : Nat} (hu : b.used ≤ b.cells.length) :
    (Hdr.mk (s + b.cells.length) 0 (p + 32)).pop (b.hdr.size - b.hdr.left) =
      ⟨b.cells.length + s, b.used, p + 32⟩ := by
  unfold Hdr.pop Hdr.left PB.hdr
  have : b.cells.length - (b.cells.length - b.used) = b.used := by omega
  simp only [this]
  rw [if_neg (by omega)]
  simp [Nat.add_comm]

theorem relocateLast_core {st : SBuf} {rest : List PB} {b : PB} {t s h : Nat}
    (hc : Core st (rest ++ [b]) t) (hh : full (s + b.cells.length) < h) (hhz : h ≤ st.size)
    (hge : ∀ c ∈ rest ++ [b], h ≤ c.p)
    (hlay : Layout st.size (rest ++ [b.grow 0 s]) (full (s + b.cells.length))) :
    ∃ st', relocateLast st h b.hdr ((st.tail + st.idx.length - 1) % st.idx.length) s =
        some (st', Err.SUCCESS, some (32 + b.cells.length)) ∧
      Core st' (rest ++ [b.grow 0 s]) (full (s + b.cells.length)) ∧ SameMeta st st' := by
  have hfin := hc.lay.bound (b := b) (by simp)
  have hg := full_ge b.cells.length
  have hg2 := full_ge (s + b.cells.length)
  have hbp := hge b (by simp)
  have hu := (hc.mem b (by simp)).2.1
  have hfe : b.fin = b.p + full b.cells.length := rfl
  refine ⟨_, ?_, hc.replaceLast (nb := b.grow 0 s)
    (m := relMem st.mem 0 (b.p + 32) b.cells.length ⟨s + b.cells.length, 0, 0 + 32⟩
      ⟨b.cells.length + s, b.used, 0 + 32⟩) ?_ hlay _ rfl, ⟨rfl, by simp, rfl, rfl, rfl, rfl⟩⟩
  · unfold relocateLast
    rw [offset_le (Nat.zero_le _)]
    have hsz : b.hdr.size = b.cells.length := rfl
    have hptr : b.hdr.ptr = b.p + 32 := rfl
    rw [if_neg (by rw [hsz]; omega), create_of (by rw [hsz]; omega) (by rw [hsz]; omega)]
    simp only [hsz]
    rw [readHdr_of (putHdr_at _ _ _) (by omega)]
    simp only [Nat.add_zero, hptr]
    unfold copyCells moveCells
    rw [if_pos (by omega), if_pos (by omega)]
    simp only
    rw [writeHdr_of (by omega)]
    have hpu := pop_used_eq (b := b) (p := 0) (s := s) hu
    rw [hsz] at hpu
    rw [hpu]
    simp only [PB.grow, relMem, Nat.zero_add]
  · intro c hcm
    rcases List.mem_append.1 hcm with hcm | hcm
    · have := hge c (by simp [hcm])
      refine (hc.mem c (by simp [hcm])).frame ?_
      intro a h1 h2
      apply relMem_frame; omega
    · simp at hcm; subst hcm
      refine grow_ok (hc.mem b (by simp)) ?_ ?_
      · exact putHdr_at _ _ _
      · intro j hj
        apply relMem_data hj; omega

/-- Blocks after a successful `merge_back(s)` on a non-empty list. -/
theorem staticMergeBack_spec {st : SBuf} {rest : List PB} {b : PB} {t : Nat} (s : Nat)
    (hc : Core st (rest ++ [b]) t) (hs : 0 < s) :
    ∃ st' r ptr, staticMergeBack st s = some (st', r, ptr) ∧ SameMeta st st' ∧
      ((r = Err.BUFF_LIMIT ∧ ptr = none ∧ st' = st) ∨
       (r = Err.SUCCESS ∧ ∃ p, ptr = some (p + 32 + b.cells.length) ∧ Inv st' (rest ++ [b.grow p s]))) := by
  have hn2 := hc.n2
  have hti : (st.tail + st.idx.length - 1) % st.idx.length = (st.head + rest.length) % st.idx.length := by
    rw [hc.teq]; simp only [List.length_append, List.length_cons, List.length_nil]
    exact ring_pred hc.hlt
  have hslot : st.idx[(st.tail + st.idx.length - 1) % st.idx.length]? = some (some b.p) := by
    rw [hti]; exact hc.slots rest.length b (by simp)
  have hrd := hc.read (b := b) (by simp)
  have hg := full_ge b.cells.length
  have hpad := padding_add b.cells.length s
  have hfb : b.fin = b.p + full b.cells.length := rfl
  have hfe := full_eq b.cells.length
  have hfe2 := full_eq (b.cells.length + s)
  have hcomm : s + b.cells.length = b.cells.length + s := Nat.add_comm _ _
  have htz := hc.lay.t_le
  have hhz := hc.lay.hp_le
  have hbz := hc.lay.bound (b := b) (by simp)
  have hgf : ∀ p, (b.grow p s).fin = p + full (b.cells.length + s) := by
    intro p; simp [PB.fin, PB.grow]
  have same : SameMeta st st := ⟨rfl, rfl, rfl, rfl, rfl, rfl⟩
  -- relocation
  have reloc : ∀ h, h = hp (rest ++ [b]) t → (∀ c ∈ rest ++ [b], h ≤ c.p) →
      (∀ lo : List PB, lo = [b.grow 0 s] → full (s + b.cells.length) < h →
        Layout st.size (rest ++ lo) (full (s + b.cells.length))) →
      ∃ st' r ptr, relocateLast st h b.hdr ((st.tail + st.idx.length - 1) % st.idx.length) s =
          some (st', r, ptr) ∧ SameMeta st st' ∧
      ((r = Err.BUFF_LIMIT ∧ ptr = none ∧ st' = st) ∨
       (r = Err.SUCCESS ∧ ∃ p, ptr = some (p + 32 + b.cells.length) ∧ Inv st' (rest ++ [b.grow p s]))) := by
    intro h hh hge hlay
    by_cases hlim : h ≤ full (s + b.cells.length)
    · refine ⟨st, _, _, ?_, same, Or.inl ⟨rfl, rfl, rfl⟩⟩
      unfold relocateLast
      rw [offset_le (Nat.zero_le _), if_pos (by simpa [PB.hdr] using hlim)]
    · obtain ⟨st', e1, e2, e3⟩ := relocateLast_core hc (h := h) (s := s) (by omega) (by omega) hge
        (hlay _ rfl (by omega))
      exact ⟨st', _, _, e1, e3, Or.inr ⟨rfl, 0, by simp, e2.inv (by simp)⟩⟩
  unfold staticMergeBack
  rw [if_neg (by omega), if_neg (by omega)]
  simp only [hc.hslot, hc.tslot, hslot, hrd]
  by_cases hcase : t ≥ hp (rest ++ [b]) t
  · rw [if_pos (Or.inl hcase)]
    obtain ⟨hch, _⟩ := hc.lay.unwrapped hcase
    obtain ⟨hch1, hch2⟩ := chain_snoc.1 hch
    rw [offset_le htz]
    by_cases hA : st.size - t ≥ padding s ∧ t ≥ hp (rest ++ [b]) t
    · rw [if_pos hA]
      obtain ⟨st', e1, e2, e3⟩ := extendLast_core (s := s) hc
        (Or.inl ⟨chain_snoc.2 ⟨hch1, by rw [hgf]; exact Nat.le_refl _⟩, by omega⟩)
      exact ⟨st', _, _, e1, e3, Or.inr ⟨rfl, b.p, rfl, e2.inv (by simp)⟩⟩
    · rw [if_neg hA]
      have hch' : Chain (hp (rest ++ [b]) t) (rest ++ [b]) t := by
        cases rest with
        | nil => exact ⟨Nat.le_refl _, hch.2⟩
        | cons c cs => exact ⟨Nat.le_refl _, hch.2⟩
      refine reloc _ rfl (fun c hcm => (hch'.mem hcm).1) ?_
      intro lo hlo hlt
      subst hlo
      cases rest with
      | nil =>
        refine Or.inl ⟨⟨Nat.zero_le _, ?_⟩, by omega⟩
        show (b.grow 0 s).fin ≤ _
        rw [hgf, hcomm]; omega
      | cons c cs =>
        refine Or.inr ⟨c, cs, [b.grow 0 s], rfl, ?_, ⟨Nat.zero_le _, ?_⟩, ?_⟩
        · have : Chain c.p ((c :: cs) ++ [b]) t := hch'
          exact (chain_snoc.1 this).1.mono (Nat.le_refl _) (by omega)
        · show (b.grow 0 s).fin ≤ _
          rw [hgf, hcomm]; omega
        · simpa [hp] using hlt
  · obtain ⟨b0, hi, lo, e, c1, c2, c3⟩ := hc.lay.wrapped (by omega)
    have hhp : hp (rest ++ [b]) t = b0.p := by rw [e]; rfl
    rcases List.eq_nil_or_concat lo with rfl | ⟨lo', l, rfl⟩
    · rw [List.append_nil] at e
      have hbm : b ∈ b0 :: hi := by rw [← e]; simp
      have hble := (c1.mem hbm).1
      rw [if_pos (Or.inr (by rw [hhp]; exact hble)), if_neg (by omega)]
      rw [← e] at c1
      refine reloc _ rfl (fun c hcm => by rw [hhp]; exact (c1.mem hcm).1) ?_
      intro lo hlo hlt
      subst hlo
      rw [hhp] at hlt
      cases rest with
      | nil =>
        refine Or.inl ⟨⟨Nat.zero_le _, ?_⟩, by omega⟩
        show (b.grow 0 s).fin ≤ _
        rw [hgf, hcomm]; omega
      | cons c cs =>
        simp only [List.cons_append, List.cons.injEq] at e
        obtain ⟨rfl, e⟩ := e
        refine Or.inr ⟨c, cs, [b.grow 0 s], rfl, ?_, ⟨Nat.zero_le _, ?_⟩, hlt⟩
        · have h6 := (chain_snoc.1 c1).1
          exact h6.mono (Nat.le_refl _) (by omega)
        · show (b.grow 0 s).fin ≤ _
          rw [hgf, hcomm]; omega
    · rw [List.concat_eq_append] at *
      rw [← List.append_assoc] at e
      obtain ⟨e1, e2⟩ := List.append_inj' e rfl
      simp only [List.cons.injEq, and_true] at e2
      subst e2
      obtain ⟨h4, h5⟩ := chain_snoc.1 c2
      rw [if_neg (by rw [hhp]; omega), offset_le (by omega)]
      by_cases hB : hp (rest ++ [b]) t - t ≤ padding s
      · rw [if_pos hB]
        exact ⟨st, _, _, rfl, same, Or.inl ⟨rfl, rfl, rfl⟩⟩
      · rw [if_neg hB]
        rw [hhp] at hB
        obtain ⟨st', e1', e2, e3⟩ := extendLast_core (s := s) hc
          (Or.inr ⟨b0, hi, lo' ++ [b.grow b.p s], by rw [e1]; simp, c1,
            chain_snoc.2 ⟨h4, by rw [hgf]; exact Nat.le_refl _⟩, by omega⟩)
        exact ⟨st', _, _, e1', e3, Or.inr ⟨rfl, b.p, rfl, e2.inv (by simp)⟩⟩

theorem moveHead_core {st : SBuf} {rest : List PB} {b : PB} {t s d : Nat}
    (hc : Core st (b :: rest) t) (hd : d + full (s + b.cells.length) ≤ st.size)
    (hsrc : d + 16 ≤ b.p ∨ b.fin ≤ d)
    (hdis : ∀ c ∈ rest, c.fin ≤ d ∨ d + 32 + b.cells.length ≤ c.p)
    (hlay : Layout st.size (b.grow d s :: rest) t) :
    ∃ st', moveHead st d b.hdr s = some (st', Err.SUCCESS, some (d + 32 + b.cells.length)) ∧
      Core st' (b.grow d s :: rest) t ∧ SameMeta st st' := by
  have hfin := hc.lay.bound (b := b) (by simp)
  have hg := full_ge b.cells.length
  have hg2 := full_ge (s + b.cells.length)
  have hu := (hc.mem b (by simp)).2.1
  have hfe : b.fin = b.p + full b.cells.length := rfl
  have hn : 0 < st.idx.length := by have := hc.n2; omega
  refine ⟨{ st with mem := (relMem st.mem d (b.p + 32) b.cells.length ⟨s + b.cells.length, 0, d + 32⟩
                              ⟨b.cells.length + s, b.used, d + 32⟩), idx := st.idx.set st.head (some d) }, ?_, ?_,
      ⟨rfl, by simp, rfl, rfl, rfl, rfl⟩⟩
  · unfold moveHead
    have hsz : b.hdr.size = b.cells.length := rfl
    have hptr : b.hdr.ptr = b.p + 32 := rfl
    rw [create_of (by rw [hsz]; exact Nat.le_refl _) (by rw [hsz]; omega)]
    simp only [hsz]
    rw [readHdr_of (putHdr_at _ _ _) (by omega)]
    simp only [Nat.add_zero, hptr]
    unfold moveCells
    rw [if_pos (by omega)]
    simp only
    rw [writeHdr_of (by omega)]
    have hpu := pop_used_eq (b := b) (p := d) (s := s) hu
    rw [hsz] at hpu
    rw [hpu]
    simp only [relMem]
  · refine ⟨by simpa using hc.n2, ?_, hlay, by simp, by simpa using hc.hlt, by simpa using hc.len,
      by simpa using hc.teq, ?_, ?_⟩
    · intro c hcm
      rcases List.mem_cons.1 hcm with rfl | hcm
      · refine grow_ok (hc.mem b (by simp)) ?_ ?_
        · exact putHdr_at _ _ _
        · intro j hj
          apply relMem_data hj; omega
      · refine (hc.mem c (by simp [hcm])).frame ?_
        intro a h1 h2
        apply relMem_frame
        have := hdis c hcm
        omega
    · intro i c hic
      simp only [List.length_set]
      cases i with
      | zero =>
        simp at hic; subst hic
        simp only [Nat.add_zero, Nat.mod_eq_of_lt hc.hlt]
        exact set_self hc.hlt
      | succ i =>
        rw [sub_set, hc.slots (i + 1) c (by simpa using hic)]
        intro he
        have h0 : st.head = (st.head + 0) % st.idx.length := by simp [Nat.mod_eq_of_lt hc.hlt]
        have hl := lt_of_getElem? hic
        have hl2 := hc.len
        simp at hl hl2
        have := ring_inj hc.hlt hn (by omega) (h0.symm.trans he)
        omega
    · show (st.idx.set _ _)[st.tail]? = _
      rw [sub_set, hc.tslot]
      exact hc.ht_ne (by simp)

theorem staticMergeFront_spec {st : SBuf} {rest : List PB} {b : PB} {t : Nat} (s : Nat)
    (hc : Core st (b :: rest) t) (hs : 0 < s) :
    ∃ st' r ptr, staticMergeFront st s = some (st', r, ptr) ∧ SameMeta st st' ∧
      ((r = Err.BUFF_LIMIT ∧ ptr = none ∧ st' = st) ∨
       (r = Err.SUCCESS ∧ ∃ p, ptr = some (p + 32 + b.cells.length) ∧ Inv st' (b.grow p s :: rest))) := by
  have hn2 := hc.n2
  have hrd := hc.read (b := b) (by simp)
  have hg := full_ge b.cells.length
  have hg2 := full_ge (s + b.cells.length)
  have hpad := padding_add b.cells.length s
  have hpp := padding_pos hs
  have hfb : b.fin = b.p + full b.cells.length := rfl
  have hfe := full_eq b.cells.length
  have hfe2 := full_eq (s + b.cells.length)
  have hcomm : s + b.cells.length = b.cells.length + s := Nat.add_comm _ _
  have htz := hc.lay.t_le
  have hbz := hc.lay.bound (b := b) (by simp)
  have hgf : ∀ p, (b.grow p s).fin = p + full (s + b.cells.length) := by
    intro p; simp [PB.fin, PB.grow, hcomm]
  have same : SameMeta st st := ⟨rfl, rfl, rfl, rfl, rfl, rfl⟩
  rw [hcomm] at hfe2 hg2
  have hhp : hp (b :: rest) t = b.p := rfl
  have hsz : b.hdr.size = b.cells.length := rfl
  unfold staticMergeFront
  rw [if_neg (by omega)]
  simp only [hc.hslot, hc.tslot, hhp, hrd, hsz]
  by_cases hcase : t ≥ b.p
  · rw [if_pos hcase]
    obtain ⟨hch, _⟩ := hc.lay.unwrapped (by rw [hhp]; exact hcase)
    rw [offset_ge (Nat.zero_le _)]
    by_cases hA : b.p - 0 ≥ padding s
    · rw [if_pos hA]
      obtain ⟨st', e1, e2, e3⟩ := moveHead_core (s := s) (d := b.p - 0 - padding s) hc
        (by rw [hcomm]; omega) (by omega)
        (fun c hcm => by have := (hch.2.mem hcm).1; omega)
        (Or.inl ⟨⟨Nat.zero_le _, hch.2.mono (by rw [hgf, hcomm]; show b.p - 0 - padding s + _ ≤ _; omega) (Nat.le_refl _)⟩, htz⟩)
      exact ⟨st', _, _, e1, e3, Or.inr ⟨rfl, _, rfl, e2.inv (by simp)⟩⟩
    · rw [if_neg hA, offset_le htz]
      by_cases hB : st.size - t ≤ full (s + b.cells.length)
      · rw [if_pos hB]
        exact ⟨st, _, _, rfl, same, Or.inl ⟨rfl, rfl, rfl⟩⟩
      · rw [if_neg hB]
        have hft := hch.2.le
        rw [hcomm] at hB
        obtain ⟨st', e1, e2, e3⟩ := moveHead_core (s := s)
          (d := t + (st.size - t - full (s + b.cells.length))) hc
          (by rw [hcomm]; omega) (by omega)
          (fun c hcm => by have := (hch.2.mem hcm).2; omega)
          (Or.inr ⟨_, [], rest, rfl,
            ⟨Nat.le_refl _, by
              show (b.grow _ s).fin ≤ _
              rw [hgf, hcomm]; omega⟩, hch.2.mono (Nat.zero_le _) (Nat.le_refl _),
            by show t < t + _; rw [hcomm]; omega⟩)
        exact ⟨st', _, _, e1, e3, Or.inr ⟨rfl, _, rfl, e2.inv (by simp)⟩⟩
  · rw [if_neg hcase, offset_le (by omega)]
    by_cases hB : b.p - t ≤ padding s
    · rw [if_pos hB]
      exact ⟨st, _, _, rfl, same, Or.inl ⟨rfl, rfl, rfl⟩⟩
    · rw [if_neg hB]
      obtain ⟨b0, hi, lo, e, c1, c2, c3⟩ := hc.lay.wrapped (by rw [hhp]; omega)
      simp only [List.cons_append, List.cons.injEq] at e
      obtain ⟨rfl, rfl⟩ := e
      obtain ⟨st', e1, e2, e3⟩ := moveHead_core (s := s) (d := t + (b.p - t - padding s)) hc
        (by rw [hcomm]; omega) (by omega)
        (fun c hcm => by
          rcases List.mem_append.1 hcm with hcm | hcm
          · have := (c1.2.mem hcm).1; omega
          · have := (c2.mem hcm).2; omega)
        (Or.inr ⟨_, hi, lo, rfl,
          ⟨Nat.le_refl _, c1.2.mono (by rw [hgf, hcomm]; show t + _ + _ ≤ _; omega) (Nat.le_refl _)⟩,
          c2, by show t < t + _; omega⟩)
      exact ⟨st', _, _, e1, e3, Or.inr ⟨rfl, _, rfl, e2.inv (by simp)⟩⟩

end Verif.Buffer
