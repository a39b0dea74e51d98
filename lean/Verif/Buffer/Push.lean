import Verif.Buffer.Lemmas

/-! Static-mode `push_back` and `push_front` preserve the layout invariant. -/
namespace Verif.Buffer

theorem getElem?_snoc {α} (l : List α) (a : α) (i : Nat) (b : α) :
    (l ++ [a])[i]? = some b → l[i]? = some b ∨ (i = l.length ∧ b = a) := by
  intro h
  rcases Nat.lt_trichotomy i l.length with h1 | h1 | h1
  · left; rwa [List.getElem?_append_left h1] at h
  · right; subst h1; simp at h; exact ⟨rfl, h.symm⟩
  · rw [List.getElem?_eq_none (by simp; omega)] at h; cases h

theorem lt_of_getElem? {α} {l : List α} {i : Nat} {b : α} (h : l[i]? = some b) : i < l.length := by
  rcases Nat.lt_or_ge i l.length with h1 | h1
  · exact h1
  · rw [List.getElem?_eq_none h1] at h; cases h

/-- Appending a placed block at the tail slot. -/
theorem addTail_core {st : SBuf} {bs : List PB} {t t' : Nat} {nb : PB} {m : Mem}
    (h : Core st bs t) (hroom : bs.length + 1 < st.idx.length)
    (hm : ∀ b ∈ bs ++ [nb], BlkOK m b) (hlay : Layout st.size (bs ++ [nb]) t')
    (idx1 : List (Option Nat)) (hi1 : idx1 = st.idx.set st.tail (some nb.p)) :
    ∃ st', addTail { st with mem := m, idx := idx1 } t' =
        some (st', Err.SUCCESS, some (nb.p + 32 + nb.used)) ∧
      Core st' (bs ++ [nb]) t' ∧ SameMeta st st' ∧ st'.mem = m := by
  have hlen : idx1.length = st.idx.length := by rw [hi1]; simp
  have htl : st.tail < st.idx.length := h.tlt
  have hts : idx1[st.tail]? = some (some nb.p) := by rw [hi1]; exact set_self htl
  have hnb := hm nb (by simp)
  have hfin := hlay.bound (b := nb) (by simp)
  have hg := full_ge nb.cells.length
  have hz : nb.p + 24 ≤ st.size := by unfold PB.fin at hfin; omega
  refine ⟨{ st with mem := m, tail := (st.tail + 1) % idx1.length,
                    idx := idx1.set ((st.tail + 1) % idx1.length) (some t') }, ?_, ?_, ?_, rfl⟩
  · unfold addTail
    simp only [hts, readHdr_of hnb.1 hz]
  · have ht1 : (st.tail + 1) % idx1.length = (st.head + (bs.length + 1)) % st.idx.length := by
      rw [hlen, h.teq, ring_succ]
    refine ⟨?_, hm, hlay, by simp, ?_, ?_, ?_, ?_, ?_⟩
    · simpa [hlen] using h.n2
    · simpa [hlen] using h.hlt
    · simpa [hlen] using hroom
    · rw [hlen] at ht1; simpa [hlen] using ht1
    · intro i b hib
      have hil : i < bs.length + 1 := by simpa using lt_of_getElem? hib
      simp only [List.length_set, hlen]
      rw [hlen] at ht1
      rw [ht1, sub_set]
      · rcases getElem?_snoc _ _ _ _ hib with hb | ⟨rfl, rfl⟩
        · rw [hi1, sub_set, h.slots i b hb]
          intro he; rw [h.teq] at he
          have := ring_inj h.hlt h.len (by omega) he
          have := lt_of_getElem? hb
          omega
        · rw [← h.teq]; exact hts
      · intro he
        have := ring_inj h.hlt hroom (by omega) he
        omega
    · apply set_self
      rw [ht1, hlen]; exact ring_lt h.hlt
  · exact ⟨rfl, by simp [hlen], rfl, rfl, rfl, rfl⟩

theorem set_eq_self {l : List (Option Nat)} {i : Nat} {v : Option Nat} (h : l[i]? = some v) :
    l.set i v = l := by
  apply List.ext_getElem?
  intro j
  rw [List.getElem?_set]
  split
  · rename_i e; subst e
    rw [if_pos (lt_of_getElem? h), h]
  · rfl

theorem offset_le {a b : Nat} (h : a ≤ b) : offset a b = b - a := by unfold offset; split <;> omega
theorem offset_ge {a b : Nat} (h : b ≤ a) : offset a b = a - b := by unfold offset; split <;> omega

/-- The normalised state still satisfies the invariant. -/
theorem norm_inv {st st1 : SBuf} {bs : List PB} {t : Nat} {h0 t0 : Option Nat} (h : Inv st bs)
    (e1 : st.idx[st.head]? = some h0) (e2 : st.idx[st.tail]? = some t0)
    (e3 : emptyInit st h0 t0 = (st1, hp bs t, t)) (hc : Core st1 bs t) : Inv st1 bs := by
  by_cases hb : bs = []
  · right
    subst hb
    have := hc.emp rfl
    subst this
    have hst1 : st1.head = 0 ∧ st1.tail = 0 := by
      rcases h with ⟨hb, _⟩ | ⟨_, q1, q2, q3, q4⟩
      · exact absurd rfl hb
      · rw [q1] at e1; rw [q2] at e2
        rcases q4 with q4 | q4
        · rw [q4] at e1 e2; cases e1; cases e2
          simp [emptyInit] at e3; rw [← e3.1]; simp
        · rw [q4] at e1 e2; cases e1; cases e2
          simp [emptyInit] at e3; rw [← e3.1]; exact ⟨q1, q2⟩
    refine ⟨rfl, hst1.1, hst1.2, hc.n2, Or.inr ?_⟩
    have := hc.tslot
    rwa [hst1.2] at this
  · exact hc.inv hb

/-- `static_push_back`: refused with nothing changed, or a fresh block behind
all others. -/
theorem staticPushBack_spec {st : SBuf} {bs : List PB} (s : Nat) (h : Inv st bs) :
    ∃ st' r ptr, staticPushBack st s = some (st', r, ptr) ∧ SameMeta st st' ∧
      ((r = Err.BUFF_LIMIT ∧ ptr = none ∧ Inv st' bs) ∨
       (r = Err.SUCCESS ∧ ∃ p, ptr = some (p + 32) ∧ Inv st' (bs ++ [⟨p, List.replicate s none, 0⟩]))) := by
  have hn2 : 2 ≤ st.idx.length := by
    rcases h with ⟨_, t, h⟩ | h
    · exact h.n2
    · exact h.2.2.2.1
  by_cases hfull : bs.length + 1 = st.idx.length
  · refine ⟨st, Err.BUFF_LIMIT, none, ?_, ⟨rfl, rfl, rfl, rfl, rfl, rfl⟩, Or.inl ⟨rfl, rfl, h⟩⟩
    unfold staticPushBack
    rw [if_neg (by omega), if_pos (h.full_iff.2 hfull)]
  · have hneq : ¬ (st.tail + 1) % st.idx.length = st.head := fun e => hfull (h.full_iff.1 e)
    obtain ⟨h0, t0, st1, t, e1, e2, e3, hc, hsm, hmem⟩ := h.norm
    have hroom : bs.length + 1 < st1.idx.length := by
      rw [hsm.len]; have := hc.len; rw [hsm.len] at this; omega
    have hg := full_ge s
    have htz := hc.lay.t_le
    -- common continuation
    have fin : ∀ p t', p + full s = t' → (∀ b ∈ bs, b.fin ≤ p ∨ t' ≤ b.p) →
        Layout st1.size (bs ++ [⟨p, List.replicate s none, 0⟩]) t' →
        ∀ idx1, idx1 = st1.idx.set st1.tail (some p) →
        ∃ st' ptr, addTail { st1 with mem := putHdr st1.mem p ⟨s, 0, p + 32⟩, idx := idx1 } t' =
            some (st', Err.SUCCESS, ptr) ∧ SameMeta st st' ∧ ∃ q, ptr = some (q + 32) ∧
            Inv st' (bs ++ [⟨q, List.replicate s none, 0⟩]) := by
      intro p t' hpt hdis hlay idx1 hidx
      have hm : ∀ b ∈ bs ++ [⟨p, List.replicate s none, 0⟩], BlkOK (putHdr st1.mem p ⟨s, 0, p + 32⟩) b := by
        intro b hb
        rcases List.mem_append.1 hb with hb | hb
        · refine frame_all (x := p) (y := t') hc.mem hdis ?_ b hb
          intro a ha
          apply putHdr_frame; omega
        · simp at hb; subst hb; exact newBlk_ok
      obtain ⟨st', ha, hc', hs', _⟩ := addTail_core hc hroom hm hlay idx1 hidx
      refine ⟨st', _, ha, ?_, p, rfl, hc'.inv (by simp)⟩
      exact ⟨hs'.size.trans hsm.size, hs'.len.trans hsm.len, hs'.cn.trans hsm.cn,
        hs'.cs.trans hsm.cs, hs'.ln.trans hsm.ln, hs'.ls.trans hsm.ls⟩
    have hlim : Inv st1 bs := norm_inv h e1 e2 e3 hc
    unfold staticPushBack
    rw [if_neg (by omega), if_neg hneq]
    simp only [e1, e2, e3]
    by_cases hcase : t ≥ hp bs t
    · rw [if_pos hcase]
      obtain ⟨hch, htz⟩ := hc.lay.unwrapped hcase
      by_cases hA : offset t st1.size ≥ full s
      · rw [if_pos hA]
        rw [offset_le htz] at hA ⊢
        rw [create_of hA (by omega)]
        obtain ⟨st', ptr, ha, hs, hI⟩ := fin t (t + full s) rfl
          (fun b hb => Or.inl (hch.mem hb).2)
          (Or.inl ⟨chain_snoc.2 ⟨hch, by simp [PB.fin]⟩, by omega⟩) st1.idx
          (set_eq_self hc.tslot).symm
        exact ⟨st', _, ptr, ha, hs, Or.inr ⟨rfl, hI⟩⟩
      · rw [if_neg hA]
        rw [offset_le (Nat.zero_le _)]
        by_cases hB : hp bs t - 0 ≤ full s
        · rw [if_pos hB]
          exact ⟨st1, _, _, rfl, hsm, Or.inl ⟨rfl, rfl, hlim⟩⟩
        · rw [if_neg hB]
          have hhz := hc.lay.hp_le
          rw [create_of (by omega) (by omega)]
          have hbs : ∃ b bs', bs = b :: bs' := by
            cases bs with
            | nil => have := hc.emp rfl; simp [hp] at hB; omega
            | cons b bs' => exact ⟨b, bs', rfl⟩
          obtain ⟨b0, bs', rfl⟩ := hbs
          simp only [hp] at hB hcase hhz
          have hch2 : Chain b0.p (b0 :: bs') t := ⟨Nat.le_refl _, hch.2⟩
          obtain ⟨st', ptr, ha, hs, hI⟩ := fin 0 (0 + full s) rfl
            (fun b hb => Or.inr (by have := (hch2.mem hb).1; omega))
            (Or.inr ⟨b0, bs', [⟨0, List.replicate s none, 0⟩], rfl,
              hch2.mono (Nat.le_refl _) htz, ⟨Nat.le_refl _, by simp [PB.fin, Chain]⟩, by omega⟩)
            _ rfl
          exact ⟨st', _, ptr, ha, hs, Or.inr ⟨rfl, hI⟩⟩
    · rw [if_neg hcase]
      rw [offset_le (by omega)]
      by_cases hB : hp bs t - t ≤ full s
      · rw [if_pos hB]
        exact ⟨st1, _, _, rfl, hsm, Or.inl ⟨rfl, rfl, hlim⟩⟩
      · rw [if_neg hB]
        have hhz := hc.lay.hp_le
        rw [create_of (by omega) (by omega)]
        obtain ⟨b0, hi, lo, rfl, c1, c2, c3⟩ := hc.lay.wrapped (by omega)
        simp only [hp, List.cons_append] at hB hcase hhz
        obtain ⟨st', ptr, ha, hs, hI⟩ := fin t (t + full s) rfl
          (fun b hb => by
            rcases List.mem_append.1 hb with hb | hb
            · right; have := (c1.mem hb).1; omega
            · left; exact (c2.mem hb).2)
          (Or.inr ⟨b0, hi, lo ++ [⟨t, List.replicate s none, 0⟩], by simp,
            c1, chain_snoc.2 ⟨c2, by simp [PB.fin]⟩, by omega⟩) st1.idx
          (set_eq_self hc.tslot).symm
        exact ⟨st', _, ptr, ha, hs, Or.inr ⟨rfl, hI⟩⟩

/-- Prepending a placed block. -/
theorem subHead_core {st : SBuf} {bs : List PB} {t : Nat} {nb : PB} {m : Mem}
    (h : Core st bs t) (hroom : bs.length + 1 < st.idx.length)
    (hm : ∀ b ∈ nb :: bs, BlkOK m b) (hlay : Layout st.size (nb :: bs) t) :
    ∃ st', subHead { st with mem := m } nb.p =
        some (st', Err.SUCCESS, some (nb.p + 32 + nb.used)) ∧
      Core st' (nb :: bs) t ∧ SameMeta st st' ∧ st'.mem = m := by
  have hnb := hm nb (by simp)
  have hfin := hlay.bound (b := nb) (by simp)
  have hg := full_ge nb.cells.length
  have hz : nb.p + 24 ≤ st.size := by unfold PB.fin at hfin; omega
  have hn : 0 < st.idx.length := by have := h.n2; omega
  have hlt : (st.head + st.idx.length - 1) % st.idx.length < st.idx.length := Nat.mod_lt _ hn
  refine ⟨{ st with mem := m, head := (st.head + st.idx.length - 1) % st.idx.length,
                    idx := st.idx.set ((st.head + st.idx.length - 1) % st.idx.length) (some nb.p) },
    ?_, ?_, ?_, rfl⟩
  · unfold subHead
    simp only [readHdr_of hnb.1 hz]
  · have hpre : ∀ i, ((st.head + st.idx.length - 1) % st.idx.length + (i + 1)) % st.idx.length =
        (st.head + i) % st.idx.length := fun i => ring_pre h.hlt
    have hne : ∀ i, i + 1 < st.idx.length →
        (st.head + st.idx.length - 1) % st.idx.length ≠ (st.head + i) % st.idx.length := by
      intro i hi he
      rw [← hpre i] at he
      have h0 : (st.head + st.idx.length - 1) % st.idx.length =
          ((st.head + st.idx.length - 1) % st.idx.length + 0) % st.idx.length := by
        simp
      have := ring_inj hlt hn hi (h0.symm.trans he)
      omega
    refine ⟨?_, hm, hlay, by simp, ?_, ?_, ?_, ?_, ?_⟩
    · simpa using h.n2
    · simpa using hlt
    · simpa using hroom
    · simp only [List.length_cons, List.length_set]
      rw [hpre]; exact h.teq
    · intro i b hib
      simp only [List.length_set]
      cases i with
      | zero =>
        simp at hib; subst hib
        simp only [Nat.add_zero, Nat.mod_mod]
        exact set_self hlt
      | succ i =>
        simp at hib
        rw [hpre, sub_set, h.slots i b hib]
        exact hne i (by have := lt_of_getElem? hib; omega)
    · show (st.idx.set _ _)[st.tail]? = _
      rw [sub_set, h.tslot]
      rw [h.teq]; exact hne _ hroom
  · exact ⟨rfl, by simp, rfl, rfl, rfl, rfl⟩

/-- `static_push_front`: refused with nothing changed, or a fresh block before
all others. -/
theorem staticPushFront_spec {st : SBuf} {bs : List PB} (s : Nat) (h : Inv st bs) :
    ∃ st' r ptr, staticPushFront st s = some (st', r, ptr) ∧ SameMeta st st' ∧
      ((r = Err.BUFF_LIMIT ∧ ptr = none ∧ Inv st' bs) ∨
       (r = Err.SUCCESS ∧ ∃ p, ptr = some (p + 32) ∧ Inv st' (⟨p, List.replicate s none, 0⟩ :: bs))) := by
  have hn2 : 2 ≤ st.idx.length := by
    rcases h with ⟨_, t, h⟩ | h
    · exact h.n2
    · exact h.2.2.2.1
  by_cases hfull : bs.length + 1 = st.idx.length
  · refine ⟨st, Err.BUFF_LIMIT, none, ?_, ⟨rfl, rfl, rfl, rfl, rfl, rfl⟩, Or.inl ⟨rfl, rfl, h⟩⟩
    unfold staticPushFront
    rw [if_neg (by omega), if_pos (h.full_iff.2 hfull)]
  · have hneq : ¬ (st.tail + 1) % st.idx.length = st.head := fun e => hfull (h.full_iff.1 e)
    obtain ⟨h0, t0, st1, t, e1, e2, e3, hc, hsm, hmem⟩ := h.norm
    have hroom : bs.length + 1 < st1.idx.length := by
      rw [hsm.len]; have := hc.len; rw [hsm.len] at this; omega
    have hg := full_ge s
    have htz := hc.lay.t_le
    have hhz := hc.lay.hp_le
    have fin : ∀ p, (∀ b ∈ bs, b.fin ≤ p ∨ p + full s ≤ b.p) →
        Layout st1.size (⟨p, List.replicate s none, 0⟩ :: bs) t →
        ∃ st' ptr, subHead { st1 with mem := putHdr st1.mem p ⟨s, 0, p + 32⟩ } p =
            some (st', Err.SUCCESS, ptr) ∧ SameMeta st st' ∧ ∃ q, ptr = some (q + 32) ∧
            Inv st' (⟨q, List.replicate s none, 0⟩ :: bs) := by
      intro p hdis hlay
      have hm : ∀ b ∈ ⟨p, List.replicate s none, 0⟩ :: bs, BlkOK (putHdr st1.mem p ⟨s, 0, p + 32⟩) b := by
        intro b hb
        rcases List.mem_cons.1 hb with rfl | hb
        · exact newBlk_ok
        · refine frame_all (x := p) (y := p + full s) hc.mem hdis ?_ b hb
          intro a ha
          apply putHdr_frame; omega
      obtain ⟨st', ha, hc', hs', _⟩ := subHead_core hc hroom hm hlay
      refine ⟨st', _, ha, ?_, p, rfl, hc'.inv (by simp)⟩
      exact ⟨hs'.size.trans hsm.size, hs'.len.trans hsm.len, hs'.cn.trans hsm.cn,
        hs'.cs.trans hsm.cs, hs'.ln.trans hsm.ln, hs'.ls.trans hsm.ls⟩
    have hlim : Inv st1 bs := norm_inv h e1 e2 e3 hc
    unfold staticPushFront
    rw [if_neg (by omega), if_neg hneq]
    simp only [e1, e2, e3]
    by_cases hcase : t ≥ hp bs t
    · rw [if_pos hcase]
      obtain ⟨hch, htz⟩ := hc.lay.unwrapped hcase
      rw [offset_ge (Nat.zero_le _)]
      by_cases hA : hp bs t - 0 ≥ full s
      · rw [if_pos hA]
        rw [create_of (Nat.le_refl _) (by omega)]
        have hbs : ∃ b bs', bs = b :: bs' := by
          cases bs with
          | nil => have := hc.emp rfl; simp [hp] at hA; omega
          | cons b bs' => exact ⟨b, bs', rfl⟩
        obtain ⟨b0, bs', rfl⟩ := hbs
        simp only [hp] at hA hcase hhz ⊢
        have hch2 : Chain b0.p (b0 :: bs') t := ⟨Nat.le_refl _, hch.2⟩
        obtain ⟨st', ptr, ha, hs, hI⟩ := fin (b0.p - 0 - full s)
          (fun b hb => Or.inr (by have := (hch2.mem hb).1; omega))
          (Or.inl ⟨⟨Nat.zero_le _, hch2.mono (by simp [PB.fin]; omega) (Nat.le_refl _)⟩, htz⟩)
        exact ⟨st', _, ptr, ha, hs, Or.inr ⟨rfl, hI⟩⟩
      · rw [if_neg hA, offset_le htz]
        by_cases hB : st1.size - t ≤ full s
        · rw [if_pos hB]
          exact ⟨st1, _, _, rfl, hsm, Or.inl ⟨rfl, rfl, hlim⟩⟩
        · rw [if_neg hB]
          rw [create_of (Nat.le_refl _) (by omega)]
          obtain ⟨st', ptr, ha, hs, hI⟩ := fin (t + (st1.size - t - full s))
            (fun b hb => Or.inl (by have := (hch.mem hb).2; omega))
            (Or.inr ⟨_, [], bs, rfl, ⟨Nat.le_refl _, by simp [PB.fin, Chain]; omega⟩, hch,
              by simp; omega⟩)
          exact ⟨st', _, ptr, ha, hs, Or.inr ⟨rfl, hI⟩⟩
    · rw [if_neg hcase]
      rw [offset_le (by omega)]
      by_cases hB : hp bs t - t ≤ full s
      · rw [if_pos hB]
        exact ⟨st1, _, _, rfl, hsm, Or.inl ⟨rfl, rfl, hlim⟩⟩
      · rw [if_neg hB]
        rw [create_of (Nat.le_refl _) (by omega)]
        obtain ⟨b0, hi, lo, rfl, c1, c2, c3⟩ := hc.lay.wrapped (by omega)
        simp only [hp, List.cons_append] at hB hcase hhz ⊢
        obtain ⟨st', ptr, ha, hs, hI⟩ := fin (t + (b0.p - t - full s))
          (fun b hb => by
            rcases List.mem_append.1 hb with hb | hb
            · right; have := (c1.mem hb).1; omega
            · left; have := (c2.mem hb).2; omega)
          (Or.inr ⟨_, b0 :: hi, lo, rfl,
            ⟨Nat.le_refl _, c1.mono (by simp [PB.fin]; omega) (Nat.le_refl _)⟩, c2,
            by simp; omega⟩)
        exact ⟨st', _, ptr, ha, hs, Or.inr ⟨rfl, hI⟩⟩

end Verif.Buffer
