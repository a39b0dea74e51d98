import Verif.Buffer.Merge
import Verif.Buffer.Spec

/-! Refinement of both buffer modes to the double-ended queue. -/
namespace Verif.Buffer

/-- The block of the specification. -/
def PB.toBlk (b : PB) : Blk := ⟨b.cells, b.used⟩
/-- The block of the specification. -/
def DBlk.toBlk (b : DBlk) : Blk := ⟨b.cells, b.used⟩

/-! ### user writes in static mode -/

theorem over_len {l : List (Option Byte)} {off : Nat} {d : List Byte} (h : off + d.length ≤ l.length) :
    (l.take off ++ d.map some ++ l.drop (off + d.length)).length = l.length := by
  simp; omega

theorem over_get {l : List (Option Byte)} {off : Nat} {d : List Byte} (h : off + d.length ≤ l.length)
    (j : Nat) :
    (l.take off ++ d.map some ++ l.drop (off + d.length))[j]? =
      if j < off then l[j]? else if j < off + d.length then (d[j - off]?).map some else l[j]? := by
  have h1 : (l.take off).length = off := by simp; omega
  have h2 : (l.take off ++ d.map some).length = off + d.length := by simp; omega
  by_cases a : j < off
  · rw [if_pos a, List.getElem?_append_left (by omega), List.getElem?_append_left (by omega),
      List.getElem?_take_of_lt a]
  · rw [if_neg a]
    by_cases b : j < off + d.length
    · rw [if_pos b, List.getElem?_append_left (by omega), List.getElem?_append_right (by omega), h1]
      simp
    · rw [if_neg b, List.getElem?_append_right (by omega), h2, List.getElem?_drop]
      congr 1; omega

theorem getElem?_split {α} {l : List α} {i : Nat} {b : α} (h : l[i]? = some b) :
    ∃ as cs, l = as ++ b :: cs ∧ as.length = i := by
  have hi := lt_of_getElem? h
  refine ⟨l.take i, l.drop (i + 1), ?_, by simp; omega⟩
  rw [List.getElem?_eq_getElem hi] at h
  cases h
  rw [List.getElem_cons_drop]; simp

theorem write_spec {st : SBuf} {bs : List PB} {i off : Nat} {d : List Byte} {b : PB}
    (h : Inv st bs) (hb : bs[i]? = some b) (hl : off + d.length ≤ b.cells.length) :
    ∃ st', st.write i off d = some (st', Err.SUCCESS) ∧ SameMeta st st' ∧
      Inv st' (bs.set i { b with cells := b.cells.take off ++ d.map some ++ b.cells.drop (off + d.length) }) := by
  have hne : bs ≠ [] := by rintro rfl; simp at hb
  rcases h with ⟨_, t, hc⟩ | ⟨h, _⟩
  · obtain ⟨as, cs, rfl, rfl⟩ := getElem?_split hb
    have hmem : b ∈ as ++ b :: cs := by simp
    have hfin := hc.lay.bound hmem
    have hg := full_ge b.cells.length
    have hfb : b.fin = b.p + full b.cells.length := rfl
    have hn2 := hc.n2
    unfold SBuf.write
    rw [if_neg (by omega)]
    simp only [hc.slots _ _ hb, hc.read hmem]
    have hptr : b.hdr.ptr = b.p + 32 := rfl
    unfold writeBytes
    rw [if_pos (by rw [hptr]; omega)]
    refine ⟨_, rfl, ⟨rfl, rfl, rfl, rfl, rfl, rfl⟩, Or.inl ⟨by simp, t, ?_⟩⟩
    have hset : (as ++ b :: cs).set as.length { b with cells := b.cells.take off ++ d.map some ++ b.cells.drop (off + d.length) } = as ++ { b with cells := b.cells.take off ++ d.map some ++ b.cells.drop (off + d.length) } :: cs := by
      simp
    rw [hset]
    obtain ⟨⟨k1, k2⟩, k3, k4⟩ := hc.mem b hmem
    refine hc.update rfl ?_ ⟨⟨?_, ?_⟩, ?_, ?_⟩ ?_
    · unfold PB.fin; simp only [over_len hl]
    · simp only [over_len hl]
      rw [if_neg (by rw [hptr]; omega)]; exact k1
    · intro a h1 h2
      have h1' : b.p < a := h1
      have h2' : a < b.p + 24 := h2
      show (if b.hdr.ptr + off ≤ a then _ else _) = _
      rw [if_neg (by rw [hptr]; omega)]; exact k2 a h1' h2'
    · simp only [over_len hl]; exact k3
    · intro j x hj
      rw [over_get hl] at hj
      simp only [hptr]
      by_cases a : j < off
      · rw [if_pos a] at hj
        rw [if_neg (by omega)]; exact k4 j x hj
      · rw [if_neg a] at hj
        rw [if_pos (by omega)]
        have e : b.p + 32 + j - (b.p + 32 + off) = j - off := by omega
        rw [e]
        by_cases c : j < off + d.length
        · rw [if_pos c] at hj
          rw [List.getElem?_eq_getElem (by omega)] at hj ⊢
          simp at hj ⊢; exact hj
        · rw [if_neg c] at hj
          rw [List.getElem?_eq_none (by omega)]
          exact k4 j x hj
    · intro a ha
      simp only [hptr]
      by_cases c : b.p + 32 + off ≤ a
      · rw [if_pos c, List.getElem?_eq_none (by omega)]
      · rw [if_neg c]
  · exact absurd h hne

/-! ### one step of the static mode -/

theorem addCost_ok {st' : SBuf} {s : Nat} {p : Option Nat} :
    addCost s (some (st', Err.SUCCESS, p)) =
      some ({ st' with costNum := st'.costNum + 1, costSize := st'.costSize + s }, Err.SUCCESS, p) := rfl
theorem addCost_no {st' : SBuf} {s : Nat} {p : Option Nat} :
    addCost s (some (st', Err.BUFF_LIMIT, p)) = some (st', Err.BUFF_LIMIT, p) := rfl
theorem addCostSize_ok {st' : SBuf} {s : Nat} {p : Option Nat} :
    addCostSize s (some (st', Err.SUCCESS, p)) =
      some ({ st' with costSize := st'.costSize + s }, Err.SUCCESS, p) := rfl
theorem addCostSize_no {st' : SBuf} {s : Nat} {p : Option Nat} :
    addCostSize s (some (st', Err.BUFF_LIMIT, p)) = some (st', Err.BUFF_LIMIT, p) := rfl

theorem Core.anyCost {st : SBuf} {bs t} (h : Core st bs t) (a b : Nat) :
    Core { st with costNum := a, costSize := b } bs t :=
  ⟨h.n2, h.mem, h.lay, h.emp, h.hlt, h.len, h.teq, h.slots, h.tslot⟩

theorem Inv.anyCost {st : SBuf} {bs} (h : Inv st bs) (a b : Nat) :
    Inv { st with costNum := a, costSize := b } bs := by
  rcases h with ⟨hb, t, hc⟩ | h
  · exact Or.inl ⟨hb, t, hc.anyCost a b⟩
  · exact Or.inr h

/-- Where the pointer of a successful call points. -/
def PtrOK (bs bs' : List PB) : Op → Option Nat → Prop
  | .pushBack _, ptr => ∃ b, bs'[bs.length]? = some b ∧ ptr = some (b.p + 32)
  | .pushFront _, ptr => ∃ b, bs'[0]? = some b ∧ ptr = some (b.p + 32)
  | .mergeBack s, ptr => bs ≠ [] → 0 < s → ∃ o b, bs.getLast? = some o ∧ bs'[bs.length - 1]? = some b ∧
      ptr = some (b.p + 32 + o.cells.length)
  | .mergeFront s, ptr => bs ≠ [] → 0 < s → ∃ o b, bs[0]? = some o ∧ bs'[0]? = some b ∧
      ptr = some (b.p + 32 + o.cells.length)
  | _, _ => True

theorem SameMeta.geom {a b} (h : SameMeta a b) : SameGeom a b := ⟨h.size, h.len, h.ln, h.ls⟩

/-- Result of one static-mode call. -/
def StepOK (st : SBuf) (bs : List PB) (op : Op) : Prop :=
  ∃ st' r ptr bs', st.step op = some (st', r, ptr) ∧ SameGeom st st' ∧ Inv st' bs' ∧
    Counted st' bs' ∧
    ((r = Err.SUCCESS ∧ bs'.map PB.toBlk = Deque.apply (bs.map PB.toBlk) op ∧ PtrOK bs bs' op ptr ∧
        (∀ s, op = .pushBack s ∨ op = .pushFront s →
          ¬ (st.limNum > 0 ∧ st.costNum ≥ st.limNum) ∧ ¬ (st.limSize > 0 ∧ st.costSize + s > st.limSize)) ∧
        (∀ s, op = .mergeBack s ∨ op = .mergeFront s →
          ¬ (bs = [] ∧ st.limNum > 0 ∧ st.costNum ≥ st.limNum) ∧
          ¬ (st.limSize > 0 ∧ st.costSize + s > st.limSize))) ∨
     (r = Err.BUFF_LIMIT ∧ bs' = bs ∧ (∀ s fu, op ≠ .popBack s fu) ∧ (∀ s fu, op ≠ .popFront s fu)
        ∧ ∀ i off d, op ≠ .write i off d) ∨
     (r = Err.NO_DATA ∧ bs' = bs ∧ bs = [] ∧ ∃ s fu, op = .popBack s fu ∨ op = .popFront s fu))

theorem counted_push {st st' : SBuf} {bs bs' : List PB} {s : Nat} (h : Counted st bs)
    (hsm : SameMeta st st') (hl : bs'.length = bs.length + 1)
    (hu : (bs'.map PB.left).sum = (bs.map PB.left).sum + s) :
    Counted { st' with costNum := st'.costNum + 1, costSize := st'.costSize + s } bs' := by
  refine ⟨?_, ?_⟩
  · show st'.costNum + 1 = _
    rw [hsm.cn, h.1, hl]
  · show st'.costSize + s = _
    rw [hsm.cs, h.2, hu]

theorem stepOK_lim {st st' : SBuf} {bs : List PB} {op : Op} {ptr : Option Nat} (hc : Counted st bs)
    (h1 : ∀ s fu, op ≠ .popBack s fu) (h2 : ∀ s fu, op ≠ .popFront s fu)
    (h3 : ∀ i off d, op ≠ .write i off d) (hsm : SameMeta st st') (hi : Inv st' bs)
    (e : st.step op = some (st', Err.BUFF_LIMIT, ptr)) : StepOK st bs op :=
  ⟨st', _, _, bs, e, hsm.geom, hi, ⟨hsm.cn.trans hc.1, hsm.cs.trans hc.2⟩,
    Or.inr (Or.inl ⟨rfl, rfl, h1, h2, h3⟩)⟩

theorem SameMeta.rfl' {st : SBuf} : SameMeta st st := ⟨rfl, rfl, rfl, rfl, rfl, rfl⟩

theorem step_pushBack {st : SBuf} {bs : List PB} (s : Nat) (h : Inv st bs) (hc : Counted st bs) :
    StepOK st bs (.pushBack s) := by
  have e0 : st.step (.pushBack s) = st.pushBack s := rfl
  unfold SBuf.pushBack at e0
  by_cases h1 : st.limNum > 0 ∧ st.costNum ≥ st.limNum
  · rw [if_pos h1] at e0
    exact stepOK_lim hc (by simp) (by simp) (by simp) SameMeta.rfl' h e0
  · rw [if_neg h1] at e0
    by_cases h2 : st.limSize > 0 ∧ st.costSize + s > st.limSize
    · rw [if_pos h2] at e0
      exact stepOK_lim hc (by simp) (by simp) (by simp) SameMeta.rfl' h e0
    · rw [if_neg h2] at e0
      obtain ⟨st', r, ptr, e, hsm, ⟨rfl, rfl, hi⟩ | ⟨rfl, p, rfl, hi⟩⟩ := staticPushBack_spec s h
      · rw [e, addCost_no] at e0
        exact stepOK_lim hc (by simp) (by simp) (by simp) hsm hi e0
      · rw [e, addCost_ok] at e0
        refine ⟨_, _, _, _, e0, ⟨hsm.size, hsm.len, hsm.ln, hsm.ls⟩, hi.anyCost _ _, counted_push hc hsm (by simp) ?_,
          Or.inl ⟨rfl, ?_, ?_, ?_, ?_⟩⟩
        · simp [PB.left]
        · simp [Deque.apply, PB.toBlk, Blk.fresh]
        · exact ⟨⟨p, List.replicate s none, 0⟩, by simp, rfl⟩
        · intro s' hs'; simp at hs'; subst hs'; exact ⟨h1, h2⟩
        · intro s' hs'; simp at hs'

theorem step_pushFront {st : SBuf} {bs : List PB} (s : Nat) (h : Inv st bs) (hc : Counted st bs) :
    StepOK st bs (.pushFront s) := by
  have e0 : st.step (.pushFront s) = st.pushFront s := rfl
  unfold SBuf.pushFront at e0
  by_cases h1 : st.limNum > 0 ∧ st.costNum ≥ st.limNum
  · rw [if_pos h1] at e0
    exact stepOK_lim hc (by simp) (by simp) (by simp) SameMeta.rfl' h e0
  · rw [if_neg h1] at e0
    by_cases h2 : st.limSize > 0 ∧ st.costSize + s > st.limSize
    · rw [if_pos h2] at e0
      exact stepOK_lim hc (by simp) (by simp) (by simp) SameMeta.rfl' h e0
    · rw [if_neg h2] at e0
      obtain ⟨st', r, ptr, e, hsm, ⟨rfl, rfl, hi⟩ | ⟨rfl, p, rfl, hi⟩⟩ := staticPushFront_spec s h
      · rw [e, addCost_no] at e0
        exact stepOK_lim hc (by simp) (by simp) (by simp) hsm hi e0
      · rw [e, addCost_ok] at e0
        refine ⟨_, _, _, _, e0, ⟨hsm.size, hsm.len, hsm.ln, hsm.ls⟩, hi.anyCost _ _, counted_push hc hsm (by simp) ?_,
          Or.inl ⟨rfl, ?_, ?_, ?_, ?_⟩⟩
        · simp [PB.left]; omega
        · simp [Deque.apply, PB.toBlk, Blk.fresh]
        · exact ⟨⟨p, List.replicate s none, 0⟩, by simp, rfl⟩
        · intro s' hs'; simp at hs'; subst hs'; exact ⟨h1, h2⟩
        · intro s' hs'; simp at hs'

theorem step_mergeBack {st : SBuf} {bs : List PB} (s : Nat) (h : Inv st bs) (hc : Counted st bs) :
    StepOK st bs (.mergeBack s) := by
  by_cases hb : bs = []
  · have hp := step_pushBack s h hc
    unfold StepOK at *
    have e : st.step (.mergeBack s) = st.step (.pushBack s) := by
      show st.mergeBack s = st.pushBack s
      unfold SBuf.mergeBack
      rw [if_pos]
      have := h.nonempty
      simp [hb] at this
      exact this
    rw [e]
    obtain ⟨st', r, ptr, bs', a1, a2, a3, a4, a5⟩ := hp
    refine ⟨st', r, ptr, bs', a1, a2, a3, a4, ?_⟩
    rcases a5 with ⟨b1, b2, b3, b4, b5⟩ | ⟨b1, b2, b3⟩ | ⟨b1, b2, b3, b4⟩
    · refine Or.inl ⟨b1, ?_, fun hn => absurd hb hn, by simp, ?_⟩
      · subst hb; simpa [Deque.apply] using b2
      · intro s' hs'; simp at hs'; subst hs'
        have := b4 s (Or.inl rfl)
        exact ⟨fun hh => this.1 hh.2, this.2⟩
    · exact Or.inr (Or.inl ⟨b1, b2, by simp, by simp, by simp⟩)
    · obtain ⟨s1, fu, hh⟩ := b4
      simp at hh
  · have e0 : st.step (.mergeBack s) = st.mergeBack s := rfl
    unfold SBuf.mergeBack at e0
    rw [if_neg (h.nonempty.2 hb)] at e0
    by_cases h2 : st.limSize > 0 ∧ st.costSize + s > st.limSize
    · rw [if_pos h2] at e0; exact stepOK_lim hc (by simp) (by simp) (by simp) SameMeta.rfl' h e0
    · rw [if_neg h2] at e0
      rcases List.eq_nil_or_concat bs with rfl | ⟨rest, b, rfl⟩
      · exact absurd rfl hb
      rw [List.concat_eq_append] at *
      by_cases hs : s = 0
      · subst hs
        have e : staticMergeBack st 0 = some (st, Err.SUCCESS, none) := by
          unfold staticMergeBack; rw [if_pos rfl]
        rw [e, addCostSize_ok] at e0
        refine ⟨_, _, _, rest ++ [b], e0, ⟨rfl, rfl, rfl, rfl⟩, h.anyCost _ _,
          ⟨hc.1, by simpa using hc.2⟩, Or.inl ⟨rfl, ?_, fun _ hn => absurd hn (by simp), by simp, ?_⟩⟩
        · simp [Deque.apply, Blk.append]
        · intro s' hs'; simp at hs'; subst hs'
          exact ⟨fun hh => hb hh.1, h2⟩
      · obtain ⟨_, t, hcore⟩ | ⟨hh, _⟩ := h
        · obtain ⟨st', r, ptr, e, hsm, ⟨rfl, rfl, rfl⟩ | ⟨rfl, p, rfl, hi⟩⟩ :=
            staticMergeBack_spec s hcore (by omega)
          · rw [e, addCostSize_no] at e0; exact stepOK_lim hc (by simp) (by simp) (by simp) hsm (hcore.inv hb) e0
          · rw [e, addCostSize_ok] at e0
            have hu := (hcore.mem b (by simp)).2.1
            refine ⟨_, _, _, _, e0, ⟨hsm.size, hsm.len, hsm.ln, hsm.ls⟩, hi.anyCost _ _, ⟨?_, ?_⟩, Or.inl ⟨rfl, ?_, ?_, by simp, ?_⟩⟩
            · show st'.costNum = _
              rw [hsm.cn, hc.1]; simp
            · show st'.costSize + s = _
              rw [hsm.cs, hc.2]; simp [PB.left, PB.grow]; omega
            · simp [Deque.apply, PB.toBlk, PB.grow, Blk.append]
            · intro _ _
              exact ⟨b, b.grow p s, by simp, by simp, rfl⟩
            · intro s' hs'; simp at hs'; subst hs'
              exact ⟨fun hh => hb hh.1, h2⟩
        · exact absurd hh hb

theorem step_mergeFront {st : SBuf} {bs : List PB} (s : Nat) (h : Inv st bs) (hc : Counted st bs) :
    StepOK st bs (.mergeFront s) := by
  by_cases hb : bs = []
  · have hp := step_pushFront s h hc
    unfold StepOK at *
    have e : st.step (.mergeFront s) = st.step (.pushFront s) := by
      show st.mergeFront s = st.pushFront s
      unfold SBuf.mergeFront
      rw [if_pos]
      have := h.nonempty
      simp [hb] at this
      exact this
    rw [e]
    obtain ⟨st', r, ptr, bs', a1, a2, a3, a4, a5⟩ := hp
    refine ⟨st', r, ptr, bs', a1, a2, a3, a4, ?_⟩
    rcases a5 with ⟨b1, b2, b3, b4, b5⟩ | ⟨b1, b2, b3⟩ | ⟨b1, b2, b3, b4⟩
    · refine Or.inl ⟨b1, ?_, fun hn => absurd hb hn, by simp, ?_⟩
      · subst hb; simpa [Deque.apply] using b2
      · intro s' hs'; simp at hs'; subst hs'
        have := b4 s (Or.inr rfl)
        exact ⟨fun hh => this.1 hh.2, this.2⟩
    · exact Or.inr (Or.inl ⟨b1, b2, by simp, by simp, by simp⟩)
    · obtain ⟨s1, fu, hh⟩ := b4
      simp at hh
  · have e0 : st.step (.mergeFront s) = st.mergeFront s := rfl
    unfold SBuf.mergeFront at e0
    rw [if_neg (h.nonempty.2 hb)] at e0
    by_cases h2 : st.limSize > 0 ∧ st.costSize + s > st.limSize
    · rw [if_pos h2] at e0; exact stepOK_lim hc (by simp) (by simp) (by simp) SameMeta.rfl' h e0
    · rw [if_neg h2] at e0
      cases bs with
      | nil => exact absurd rfl hb
      | cons b rest =>
      by_cases hs : s = 0
      · subst hs
        have e : staticMergeFront st 0 = some (st, Err.SUCCESS, none) := by
          unfold staticMergeFront; rw [if_pos rfl]
        rw [e, addCostSize_ok] at e0
        refine ⟨_, _, _, b :: rest, e0, ⟨rfl, rfl, rfl, rfl⟩, h.anyCost _ _,
          ⟨hc.1, by simpa using hc.2⟩, Or.inl ⟨rfl, ?_, fun _ hn => absurd hn (by simp), by simp, ?_⟩⟩
        · simp [Deque.apply, Blk.append]
        · intro s' hs'; simp at hs'; subst hs'
          exact ⟨fun hh => hb hh.1, h2⟩
      · obtain ⟨_, t, hcore⟩ | ⟨hh, _⟩ := h
        · obtain ⟨st', r, ptr, e, hsm, ⟨rfl, rfl, rfl⟩ | ⟨rfl, p, rfl, hi⟩⟩ :=
            staticMergeFront_spec s hcore (by omega)
          · rw [e, addCostSize_no] at e0; exact stepOK_lim hc (by simp) (by simp) (by simp) hsm (hcore.inv hb) e0
          · rw [e, addCostSize_ok] at e0
            have hu := (hcore.mem b (by simp)).2.1
            refine ⟨_, _, _, _, e0, ⟨hsm.size, hsm.len, hsm.ln, hsm.ls⟩, hi.anyCost _ _, ⟨?_, ?_⟩, Or.inl ⟨rfl, ?_, ?_, by simp, ?_⟩⟩
            · show st'.costNum = _
              rw [hsm.cn, hc.1]; simp
            · show st'.costSize + s = _
              rw [hsm.cs, hc.2]; simp [PB.left, PB.grow]; omega
            · simp [Deque.apply, PB.toBlk, PB.grow, Blk.append]
            · intro _ _
              exact ⟨b, b.grow p s, by simp, by simp, rfl⟩
            · intro s' hs'; simp at hs'; subst hs'
              exact ⟨fun hh => hb hh.1, h2⟩
        · exact absurd hh hb

theorem toBlk_pop (b : PB) (s : Nat) (h : b.used ≤ b.cells.length) :
    (b.pop s).toBlk = b.toBlk.consume s := by
  simp only [PB.toBlk, Blk.consume, PB.pop_cells, PB.pop_used b s h]

theorem Inv.used {st bs} (h : Inv st bs) {b : PB} (hb : b ∈ bs) : b.used ≤ b.cells.length := by
  rcases h with ⟨_, t, hc⟩ | ⟨rfl, _⟩
  · exact (hc.mem b hb).2.1
  · cases hb

theorem step_popFront {st : SBuf} {bs : List PB} (s : Nat) (fu : Bool) (h : Inv st bs)
    (hc : Counted st bs) : StepOK st bs (.popFront s fu) := by
  obtain ⟨st', r, e, hg, hi, hcn, hr⟩ := staticPopFront_spec s fu h hc
  refine ⟨st', r, none, popFrontB bs s fu, by simp [SBuf.step, e], hg, hi, hcn, ?_⟩
  rcases hr with ⟨rfl, rfl⟩ | ⟨hb, rfl⟩
  · exact Or.inr (Or.inr ⟨rfl, rfl, rfl, s, fu, Or.inr rfl⟩)
  · refine Or.inl ⟨rfl, ?_, trivial, by simp, by simp⟩
    cases bs with
    | nil => exact absurd rfl hb
    | cons b rest =>
      have hu := h.used (b := b) (by simp)
      have hl : (b.toBlk.consume s).unread = (b.pop s).left := by
        rw [← toBlk_pop b s hu]; rfl
      simp only [Deque.apply, popFrontB, List.map_cons, hl]
      by_cases hf : (fu && (b.pop s).left == 0) = true
      · have hf' : fu = true ∧ (b.pop s).left = 0 := by simpa using hf
        rw [if_pos hf, if_pos hf']
      · have hf' : ¬ (fu = true ∧ (b.pop s).left = 0) := by simpa using hf
        rw [if_neg hf, if_neg hf', List.map_cons, toBlk_pop b s hu]

theorem step_popBack {st : SBuf} {bs : List PB} (s : Nat) (fu : Bool) (h : Inv st bs)
    (hc : Counted st bs) : StepOK st bs (.popBack s fu) := by
  obtain ⟨st', r, e, hg, hi, hcn, hr⟩ := staticPopBack_spec s fu h hc
  refine ⟨st', r, none, popBackB bs s fu, by simp [SBuf.step, e], hg, hi, hcn, ?_⟩
  rcases hr with ⟨rfl, rfl⟩ | ⟨hb, rfl⟩
  · exact Or.inr (Or.inr ⟨rfl, rfl, rfl, s, fu, Or.inl rfl⟩)
  · refine Or.inl ⟨rfl, ?_, trivial, by simp, by simp⟩
    rcases List.eq_nil_or_concat bs with rfl | ⟨rest, b, rfl⟩
    · exact absurd rfl hb
    rw [List.concat_eq_append] at *
    have hu := h.used (b := b) (by simp)
    have hl : (b.toBlk.consume s).unread = (b.pop s).left := by
      rw [← toBlk_pop b s hu]; rfl
    simp only [Deque.apply, popBackB, List.map_append, List.map_cons, List.map_nil,
      List.getLast?_append, List.getLast?_singleton, Option.some_or, List.dropLast_concat, hl]
    by_cases hf : (fu && (b.pop s).left == 0) = true
    · have hf' : fu = true ∧ (b.pop s).left = 0 := by simpa using hf
      rw [if_pos hf, if_pos hf']
    · have hf' : ¬ (fu = true ∧ (b.pop s).left = 0) := by simpa using hf
      rw [if_neg hf, if_neg hf', List.map_append, List.map_cons, List.map_nil, toBlk_pop b s hu]

theorem step_write {st : SBuf} {bs : List PB} (i off : Nat) (d : List Byte) (h : Inv st bs)
    (hc : Counted st bs) (hl : Deque.Legal (bs.map PB.toBlk) (.write i off d)) :
    StepOK st bs (.write i off d) := by
  obtain ⟨q, hq1, hq2⟩ := hl
  simp only [List.getElem?_map, Option.map_eq_some_iff] at hq1
  obtain ⟨b, hb1, rfl⟩ := hq1
  obtain ⟨st', e, hsm, hi⟩ := write_spec h hb1 hq2
  have hil := lt_of_getElem? hb1
  refine ⟨st', _, none, _, by simp [SBuf.step, e], hsm.geom, hi, ⟨?_, ?_⟩,
    Or.inl ⟨rfl, ?_, trivial, by simp, by simp⟩⟩
  · rw [hsm.cn, hc.1]; simp
  · rw [hsm.cs, hc.2]
    obtain ⟨as, cs, rfl, rfl⟩ := getElem?_split hb1
    simp only [List.set_append_right _ _ (Nat.le_refl _), Nat.sub_self, List.set_cons_zero,
      List.map_append, List.map_cons]
    congr 2
    have hq3 : off + d.length ≤ b.cells.length := hq2
    simp only [PB.left, over_len hq3]
  · simp [Deque.apply, List.getElem?_map, hb1, PB.toBlk, Blk.store, List.map_set]

/-- Every legal call on a state satisfying the invariant. -/
theorem step_ok {st : SBuf} {bs : List PB} (op : Op) (h : Inv st bs) (hc : Counted st bs)
    (hl : Deque.Legal (bs.map PB.toBlk) op) : StepOK st bs op := by
  cases op with
  | pushBack s => exact step_pushBack s h hc
  | pushFront s => exact step_pushFront s h hc
  | mergeBack s => exact step_mergeBack s h hc
  | mergeFront s => exact step_mergeFront s h hc
  | popBack s fu => exact step_popBack s fu h hc
  | popFront s fu => exact step_popFront s fu h hc
  | write i off d => exact step_write i off d h hc hl

/-- What is known about every reachable static-mode state. -/
structure Good (maxSize maxNum : Nat) (st : SBuf) (q : Deque) (bs : List PB) : Prop where
  inv : Inv st bs
  cnt : Counted st bs
  abs : bs.map PB.toBlk = q
  size : st.size = padding (maxSize + 16)
  len : st.idx.length = maxNum + 1
  ln : st.limNum = maxNum
  ls : st.limSize = maxSize
  nb : st.costNum ≤ maxNum
  sb : st.costSize ≤ maxSize

theorem apply_unread_le {q : Deque} {op : Op} (h1 : ∀ s, op ≠ .pushBack s) (h2 : ∀ s, op ≠ .pushFront s)
    (h3 : ∀ s, op ≠ .mergeBack s) (h4 : ∀ s, op ≠ .mergeFront s) (hl : q.Legal op) :
    Deque.unread (q.apply op) ≤ q.unread ∧ (q.apply op).length ≤ q.length := by
  cases op with
  | pushBack s => exact absurd rfl (h1 s)
  | pushFront s => exact absurd rfl (h2 s)
  | mergeBack s => exact absurd rfl (h3 s)
  | mergeFront s => exact absurd rfl (h4 s)
  | popBack s fu =>
    rcases List.eq_nil_or_concat q with rfl | ⟨rest, b, rfl⟩
    · simp [Deque.apply]
    · rw [List.concat_eq_append]
      simp only [Deque.apply, List.getLast?_append, List.getLast?_singleton, Option.some_or,
        List.dropLast_concat]
      split
      · simp [Deque.unread]
      · simp [Deque.unread, Blk.unread, Blk.consume]; omega
  | popFront s fu =>
    cases q with
    | nil => simp [Deque.apply]
    | cons b rest =>
      simp only [Deque.apply]
      split
      · simp [Deque.unread]
      · simp [Deque.unread, Blk.unread, Blk.consume]; omega
  | write i off d =>
    obtain ⟨b, hb, hd⟩ := hl
    simp only [Deque.apply, hb]
    obtain ⟨as, cs, rfl, rfl⟩ := getElem?_split hb
    refine ⟨?_, by simp⟩
    unfold Deque.unread
    simp only [List.set_append_right _ _ (Nat.le_refl _), Nat.sub_self, List.set_cons_zero,
      List.map_append, List.map_cons, List.sum_append, List.sum_cons]
    simp only [Blk.unread, Blk.store, over_len hd]
    omega

theorem counted_abs {st : SBuf} {bs : List PB} (h : Counted st bs) :
    st.costNum = (bs.map PB.toBlk).length ∧ st.costSize = Deque.unread (bs.map PB.toBlk) := by
  refine ⟨by simpa using h.1, ?_⟩
  rw [h.2]; unfold Deque.unread
  rw [List.map_map]; rfl

theorem good_step {maxSize maxNum : Nat} (hS : 0 < maxSize) (hN : 0 < maxNum) {st : SBuf} {q : Deque}
    {bs : List PB} (op : Op) (h : Good maxSize maxNum st q bs) (hl : q.Legal op) :
    ∃ st' r ptr bs', st.step op = some (st', r, ptr) ∧
      Good maxSize maxNum st' (if r = Err.SUCCESS then q.apply op else q) bs' ∧
      (r = Err.SUCCESS → PtrOK bs bs' op ptr) ∧
      (r = Err.SUCCESS ∨ r = Err.BUFF_LIMIT ∨ r = Err.NO_DATA) ∧
      (r = Err.NO_DATA ↔ q = [] ∧ ∃ s fu, op = .popBack s fu ∨ op = .popFront s fu) ∧
      (r = Err.BUFF_LIMIT → (∀ s fu, op ≠ .popBack s fu) ∧ (∀ s fu, op ≠ .popFront s fu)
        ∧ ∀ i off d, op ≠ .write i off d) := by
  have hl' : Deque.Legal (bs.map PB.toBlk) op := by rw [h.abs]; exact hl
  obtain ⟨st', r, ptr, bs', e, hg, hi, hc, hr⟩ := step_ok op h.inv h.cnt hl'
  refine ⟨st', r, ptr, bs', e, ?_⟩
  have hcn := counted_abs hc
  have hc0 := counted_abs h.cnt
  rcases hr with ⟨rfl, ha, hp, hlim, hlim2⟩ | ⟨rfl, rfl, hx⟩ | ⟨rfl, rfl, hb, hx⟩
  · refine ⟨?_, fun _ => hp, Or.inl rfl, ⟨fun hh => absurd hh (by decide), ?_⟩, fun hh => absurd hh (by decide)⟩
    · rw [h.abs] at ha
      rw [if_pos rfl]
      rw [ha] at hcn
      rw [h.abs] at hc0
      have hbnd : st'.costNum ≤ maxNum ∧ st'.costSize ≤ maxSize := by
        have hnb := h.nb
        have hsb := h.sb
        cases op with
        | pushBack s =>
          have := hlim s (Or.inl rfl)
          rw [h.ln, h.ls] at this
          simp only [Deque.apply, Deque.unread, List.length_append, List.map_append, List.sum_append] at hcn hc0
          simp [Blk.fresh, Blk.unread] at hcn
          omega
        | pushFront s =>
          have := hlim s (Or.inr rfl)
          rw [h.ln, h.ls] at this
          simp only [Deque.apply, Deque.unread] at hcn hc0
          simp [Blk.fresh, Blk.unread] at hcn
          omega
        | mergeBack s =>
          have := hlim2 s (Or.inl rfl)
          rw [h.ln, h.ls] at this
          rcases List.eq_nil_or_concat q with rfl | ⟨rest, b, rfl⟩
          · have hbs : bs = [] := by simpa using h.abs
            simp only [Deque.apply, Deque.unread] at hcn hc0
            simp [Blk.fresh, Blk.unread] at hcn
            simp [hbs] at this hc0
            omega
          · rw [List.concat_eq_append] at *
            simp only [Deque.apply, Deque.unread, List.getLast?_append, List.getLast?_singleton,
              Option.some_or, List.dropLast_concat] at hcn hc0
            simp [Blk.append, Blk.unread] at hcn hc0
            omega
        | mergeFront s =>
          have := hlim2 s (Or.inr rfl)
          rw [h.ln, h.ls] at this
          cases q with
          | nil =>
            have hbs : bs = [] := by simpa using h.abs
            simp only [Deque.apply, Deque.unread] at hcn hc0
            simp [Blk.fresh, Blk.unread] at hcn
            simp [hbs] at this hc0
            omega
          | cons b rest =>
            simp only [Deque.apply, Deque.unread] at hcn hc0
            simp [Blk.append, Blk.unread] at hcn hc0
            omega
        | _ =>
          have := apply_unread_le (q := q) (by simp) (by simp) (by simp) (by simp) hl
          omega
      exact ⟨hi, hc, ha, hg.size.trans h.size, hg.len.trans h.len, hg.ln.trans h.ln,
        hg.ls.trans h.ls, hbnd.1, hbnd.2⟩
    · rintro ⟨rfl, s, fu, hh⟩
      exfalso
      have hb : bs = [] := by simpa using h.abs
      subst hb
      have hne : st.head = st.tail := by
        have := h.inv.nonempty; simpa using this
      rcases hh with rfl | rfl
      · simp [SBuf.step, staticPopBack, hne] at e
        exact absurd e.2.1 (by decide)
      · simp [SBuf.step, staticPopFront, hne] at e
        exact absurd e.2.1 (by decide)
  · rw [if_neg (by decide)]
    refine ⟨⟨hi, hc, h.abs, hg.size.trans h.size, hg.len.trans h.len, hg.ln.trans h.ln,
      hg.ls.trans h.ls, ?_, ?_⟩, fun hh => absurd hh (by decide), Or.inr (Or.inl rfl),
      ⟨fun hh => absurd hh (by decide), ?_⟩, fun _ => hx⟩
    · rw [hcn.1, ← hc0.1]; exact h.nb
    · rw [hcn.2, ← hc0.2]; exact h.sb
    · rintro ⟨_, s, fu, rfl | rfl⟩
      · exact absurd rfl (hx.1 s fu)
      · exact absurd rfl (hx.2.1 s fu)
  · rw [if_neg (by decide)]
    refine ⟨⟨hi, hc, h.abs, hg.size.trans h.size, hg.len.trans h.len, hg.ln.trans h.ln,
      hg.ls.trans h.ls, ?_, ?_⟩, fun hh => absurd hh (by decide), Or.inr (Or.inr rfl),
      ⟨fun _ => ⟨?_, hx⟩, fun _ => rfl⟩, fun hh => absurd hh (by decide)⟩
    · rw [hcn.1, ← hc0.1]; exact h.nb
    · rw [hcn.2, ← hc0.2]; exact h.sb
    · rw [← h.abs, hb]; rfl

theorem good_init {maxSize maxNum : Nat} (hN : 0 < maxNum) :
    Good maxSize maxNum (setMode maxSize maxNum) [] [] := by
  refine ⟨Or.inr ⟨rfl, rfl, rfl, by simp [setMode]; omega, Or.inl ?_⟩, ⟨rfl, rfl⟩, rfl, rfl,
    by simp [setMode], rfl, rfl, Nat.zero_le _, Nat.zero_le _⟩
  simp [setMode, List.getElem?_replicate]

theorem sreach_good {maxSize maxNum : Nat} (hS : 0 < maxSize) (hN : 0 < maxNum) {st : SBuf}
    {q : Deque} (h : SReach maxSize maxNum st q) : ∃ bs, Good maxSize maxNum st q bs := by
  induction h with
  | init => exact ⟨[], good_init hN⟩
  | step _ hl e ih =>
    obtain ⟨bs, hg⟩ := ih
    obtain ⟨st2, r2, ptr2, bs2, e2, hg2, _⟩ := good_step hS hN _ hg hl
    rw [e] at e2
    simp only [Option.some.injEq, Prod.mk.injEq] at e2
    obtain ⟨rfl, rfl, rfl⟩ := e2
    exact ⟨bs2, hg2⟩

/-- Reading block `i` back. -/
theorem block_of {st : SBuf} {bs : List PB} (h : Inv st bs) {i : Nat} {b : PB} (hb : bs[i]? = some b) :
    st.block i = some (b.p, b.hdr, (List.range b.cells.length).map fun j => st.mem (b.p + 32 + j)) := by
  rcases h with ⟨_, t, hc⟩ | ⟨rfl, _⟩
  · have hn2 := hc.n2
    unfold SBuf.block
    rw [if_neg (by omega)]
    simp only [hc.slots i b hb, hc.read (List.mem_of_getElem? hb)]
    rfl
  · simp at hb

theorem count_of {st : SBuf} {bs : List PB} (h : Inv st bs) : st.count = bs.length := by
  rcases h with ⟨_, t, hc⟩ | ⟨rfl, h1, h2, _⟩
  · unfold SBuf.count
    have := hc.teq
    rw [ring_eq hc.hlt (by have := hc.len; omega)] at this
    have := hc.hlt
    have := hc.len
    split at * <;> split <;> omega
  · simp [SBuf.count, h1, h2]

/-! ### dynamic mode -/

/-- Refinement relation of the dynamic mode. -/
structure DGood (limSize limNum : Nat) (d : DBuf) (q : Deque) : Prop where
  abs : d.blocks.map DBlk.toBlk = q
  used : ∀ b ∈ q, b.consumed ≤ b.data.length
  cn : d.costNum = q.length
  cs : d.costSize = q.unread
  ln : d.limNum = limNum
  ls : d.limSize = limSize

theorem dtoBlk_pop (b : DBlk) (s : Nat) : (b.pop s).toBlk = b.toBlk.consume s := by
  unfold DBlk.pop Blk.consume DBlk.toBlk
  split <;> simp <;> omega

theorem dpop_min (b : DBlk) (s : Nat) : b.pop (if s > b.left then b.left else s) = b.pop s := by
  unfold DBlk.pop DBlk.left
  by_cases h : s > b.cells.length - b.used
  · rw [if_pos h]
    by_cases h2 : b.used + (b.cells.length - b.used) > b.cells.length
    · rw [if_pos h2, if_pos (by omega)]
    · rw [if_neg h2, if_pos (by omega)]; congr 1; omega
  · rw [if_neg h]

theorem dgrow (b : DBlk) (s : Nat) (h : b.used ≤ b.cells.length) :
    (b.grow s).toBlk = b.toBlk.append s := by
  unfold DBlk.grow DBlk.toBlk Blk.append DBlk.pop DBlk.left DBlk.malloc
  simp only [List.drop_replicate]
  have h1 : b.cells.length - (b.cells.length - b.used) = b.used := by omega
  have h2 : s + b.cells.length - b.cells.length = s := by omega
  simp only [h1, h2]
  rw [if_neg (by simp; omega)]
  simp

theorem dleft (b : DBlk) : b.left = b.toBlk.unread := rfl

theorem consume_unread (b : Blk) (s : Nat) : (b.consume s).unread = b.unread - s := by
  unfold Blk.consume Blk.unread; simp; omega

theorem dgood_step {limSize limNum : Nat} {d : DBuf} {q : Deque} (op : Op)
    (h : DGood limSize limNum d q) (hl : q.Legal op) :
    ∃ d', d.step op = some (d', q.verdict limNum limSize op) ∧
      DGood limSize limNum d' (if q.verdict limNum limSize op = Err.SUCCESS then q.apply op else q) := by
  suffices hh : ∃ d' r, d.step op = some (d', r) ∧ r = q.verdict limNum limSize op ∧
      DGood limSize limNum d' (if r = Err.SUCCESS then q.apply op else q) by
    obtain ⟨d', r, e1, rfl, e3⟩ := hh
    exact ⟨d', e1, e3⟩
  obtain ⟨rfl, hu, hcn, hcs, rfl, rfl⟩ := h
  have hsame : DGood d.limSize d.limNum d (d.blocks.map DBlk.toBlk) := ⟨rfl, hu, hcn, hcs, rfl, rfl⟩
  have hpush : ∀ s, (d.limNum > 0 ∧ d.costNum ≥ d.limNum) ∨ (d.limSize > 0 ∧ d.costSize + s > d.limSize) ↔
      (d.limNum > 0 ∧ (d.blocks.map DBlk.toBlk).length ≥ d.limNum) ∨
      (d.limSize > 0 ∧ Deque.unread (d.blocks.map DBlk.toBlk) + s > d.limSize) := by
    intro s; rw [hcn, hcs]
  have hpb : ∀ s, ∃ d' r, d.pushBack s = (d', r) ∧
      r = Deque.verdict d.limNum d.limSize (d.blocks.map DBlk.toBlk) (.pushBack s) ∧
      DGood d.limSize d.limNum d' (if r = Err.SUCCESS
        then Deque.apply (d.blocks.map DBlk.toBlk) (.pushBack s) else d.blocks.map DBlk.toBlk) := by
    intro s
    unfold DBuf.pushBack Deque.verdict
    by_cases h1 : (d.limNum > 0 ∧ d.costNum ≥ d.limNum) ∨ (d.limSize > 0 ∧ d.costSize + s > d.limSize)
    · simp only [if_pos ((hpush s).1 h1)]
      refine ⟨d, Err.BUFF_LIMIT, ?_, rfl, by rw [if_neg (by decide)]; exact hsame⟩
      rcases h1 with h1 | h1
      · rw [if_pos h1]
      · by_cases h2 : d.limNum > 0 ∧ d.costNum ≥ d.limNum
        · rw [if_pos h2]
        · rw [if_neg h2, if_pos h1]
    · simp only [if_neg (fun hh => h1 ((hpush s).2 hh))]
      rw [if_neg (fun hh => h1 (Or.inl hh)), if_neg (fun hh => h1 (Or.inr hh))]
      refine ⟨_, _, rfl, rfl, ?_⟩
      rw [if_pos rfl]
      refine ⟨by simp [Deque.apply, DBlk.toBlk, DBlk.malloc, Blk.fresh], ?_, ?_, ?_, rfl, rfl⟩
      · intro b hb
        simp only [Deque.apply, List.mem_append, List.mem_singleton] at hb
        rcases hb with hb | rfl
        · exact hu b hb
        · exact Nat.zero_le _
      · simp [Deque.apply, hcn]
      · simp only [Deque.apply, Deque.unread] at *
        simp only [hcs]
        simp [Blk.fresh, Blk.unread]
  have hpf : ∀ s, ∃ d' r, d.pushFront s = (d', r) ∧
      r = Deque.verdict d.limNum d.limSize (d.blocks.map DBlk.toBlk) (.pushFront s) ∧
      DGood d.limSize d.limNum d' (if r = Err.SUCCESS
        then Deque.apply (d.blocks.map DBlk.toBlk) (.pushFront s) else d.blocks.map DBlk.toBlk) := by
    intro s
    unfold DBuf.pushFront Deque.verdict
    by_cases h1 : (d.limNum > 0 ∧ d.costNum ≥ d.limNum) ∨ (d.limSize > 0 ∧ d.costSize + s > d.limSize)
    · simp only [if_pos ((hpush s).1 h1)]
      refine ⟨d, Err.BUFF_LIMIT, ?_, rfl, by rw [if_neg (by decide)]; exact hsame⟩
      rcases h1 with h1 | h1
      · rw [if_pos h1]
      · by_cases h2 : d.limNum > 0 ∧ d.costNum ≥ d.limNum
        · rw [if_pos h2]
        · rw [if_neg h2, if_pos h1]
    · simp only [if_neg (fun hh => h1 ((hpush s).2 hh))]
      rw [if_neg (fun hh => h1 (Or.inl hh)), if_neg (fun hh => h1 (Or.inr hh))]
      refine ⟨_, _, rfl, rfl, ?_⟩
      rw [if_pos rfl]
      refine ⟨by simp [Deque.apply, DBlk.toBlk, DBlk.malloc, Blk.fresh], ?_, ?_, ?_, rfl, rfl⟩
      · intro b hb
        simp only [Deque.apply, List.mem_cons] at hb
        rcases hb with rfl | hb
        · exact Nat.zero_le _
        · exact hu b hb
      · simp [Deque.apply, hcn]
      · simp only [Deque.apply, Deque.unread] at *
        simp only [hcs]
        simp [Blk.fresh, Blk.unread]; omega
  cases op with
  | pushBack s =>
    obtain ⟨d', r, e, hr, hg⟩ := hpb s
    exact ⟨d', r, by simp only [DBuf.step, e], hr, hg⟩
  | pushFront s =>
    obtain ⟨d', r, e, hr, hg⟩ := hpf s
    exact ⟨d', r, by simp only [DBuf.step, e], hr, hg⟩
  | mergeBack s =>
    rcases List.eq_nil_or_concat d.blocks with hb | ⟨rest, b, hb⟩
    · obtain ⟨d', r, e, hr, hg⟩ := hpb s
      refine ⟨d', r, ?_, ?_, ?_⟩
      · simp only [DBuf.step, DBuf.mergeBack, hb, List.getLast?_nil, e]
      · rw [hr, hb]; simp [Deque.verdict]
      · rw [hb] at hg ⊢
        simpa [Deque.apply] using hg
    · rw [List.concat_eq_append] at hb
      have hub : b.used ≤ b.cells.length := hu b.toBlk (by simp [hb])
      simp only [DBuf.step, DBuf.mergeBack, hb, List.getLast?_append, List.getLast?_singleton,
        Option.some_or, List.dropLast_concat, Deque.verdict]
      have hne : ¬ (List.map DBlk.toBlk (rest ++ [b]) = []) := by simp
      rw [hb] at hcs hcn hu
      by_cases h2 : d.limSize > 0 ∧ d.costSize + s > d.limSize
      · rw [if_pos h2, if_pos (Or.inr (by rw [← hcs]; exact h2))]
        refine ⟨d, _, rfl, rfl, ?_⟩
        rw [if_neg (by decide)]
        rw [hb] at hsame; exact hsame
      · have hn : ¬ ((List.map DBlk.toBlk (rest ++ [b]) = [] ∧ d.limNum > 0 ∧
            (List.map DBlk.toBlk (rest ++ [b])).length ≥ d.limNum) ∨
            (d.limSize > 0 ∧ Deque.unread (List.map DBlk.toBlk (rest ++ [b])) + s > d.limSize)) := by
          rintro (⟨hh, _⟩ | hh)
          · exact hne hh
          · rw [← hcs] at hh; exact h2 hh
        rw [if_neg h2, if_neg hn]
        by_cases hs : s = 0
        · subst hs
          simp only [if_true]
          refine ⟨d, _, rfl, rfl, ?_⟩
          rw [if_pos rfl]
          have : Deque.apply (List.map DBlk.toBlk (rest ++ [b])) (Op.mergeBack 0) = List.map DBlk.toBlk (rest ++ [b]) := by
            simp [Deque.apply, Blk.append]
          rw [this, ← hb]; exact hsame
        · simp only [if_neg hs]
          refine ⟨_, _, rfl, rfl, ?_⟩
          rw [if_pos rfl]
          have hap : Deque.apply (List.map DBlk.toBlk (rest ++ [b])) (Op.mergeBack s) =
              List.map DBlk.toBlk rest ++ [b.toBlk.append s] := by
            simp [Deque.apply]
          rw [hap]
          refine ⟨by simp [dgrow b s hub], ?_, ?_, ?_, rfl, rfl⟩
          · intro c hc
            simp only [List.mem_append, List.mem_singleton] at hc
            rcases hc with hc | rfl
            · exact hu c (by simp at hc ⊢; exact Or.inl hc)
            · simp [Blk.append, DBlk.toBlk]; omega
          · simpa using hcn
          · simp only [hcs]
            simp [Deque.unread, Blk.append, Blk.unread, DBlk.toBlk]; omega
  | mergeFront s =>
    cases hb : d.blocks with
    | nil =>
      obtain ⟨d', r, e, hr, hg⟩ := hpf s
      refine ⟨d', r, ?_, ?_, ?_⟩
      · simp only [DBuf.step, DBuf.mergeFront, hb, e]
      · rw [hr, hb]; simp [Deque.verdict]
      · rw [hb] at hg
        simpa [Deque.apply] using hg
    | cons b rest =>
      have hub : b.used ≤ b.cells.length := hu b.toBlk (by simp [hb])
      simp only [DBuf.step, DBuf.mergeFront, hb, Deque.verdict]
      have hne : ¬ (List.map DBlk.toBlk (b :: rest) = []) := by simp
      rw [hb] at hcs hcn hu
      by_cases h2 : d.limSize > 0 ∧ d.costSize + s > d.limSize
      · rw [if_pos h2, if_pos (Or.inr (by rw [← hcs]; exact h2))]
        refine ⟨d, _, rfl, rfl, ?_⟩
        rw [if_neg (by decide)]
        rw [hb] at hsame; exact hsame
      · have hn : ¬ ((List.map DBlk.toBlk (b :: rest) = [] ∧ d.limNum > 0 ∧
            (List.map DBlk.toBlk (b :: rest)).length ≥ d.limNum) ∨
            (d.limSize > 0 ∧ Deque.unread (List.map DBlk.toBlk (b :: rest)) + s > d.limSize)) := by
          rintro (⟨hh, _⟩ | hh)
          · exact hne hh
          · rw [← hcs] at hh; exact h2 hh
        rw [if_neg h2, if_neg hn]
        by_cases hs : s = 0
        · subst hs
          simp only [if_true]
          refine ⟨d, _, rfl, rfl, ?_⟩
          rw [if_pos rfl]
          have : Deque.apply (List.map DBlk.toBlk (b :: rest)) (Op.mergeFront 0) = List.map DBlk.toBlk (b :: rest) := by
            simp [Deque.apply, Blk.append]
          rw [this, ← hb]; exact hsame
        · simp only [if_neg hs]
          refine ⟨_, _, rfl, rfl, ?_⟩
          rw [if_pos rfl]
          have hap : Deque.apply (List.map DBlk.toBlk (b :: rest)) (Op.mergeFront s) =
              b.toBlk.append s :: List.map DBlk.toBlk rest := by
            simp [Deque.apply]
          rw [hap]
          refine ⟨by simp [dgrow b s hub], ?_, ?_, ?_, rfl, rfl⟩
          · intro c hc
            simp only [List.mem_cons] at hc
            rcases hc with rfl | hc
            · simp [Blk.append, DBlk.toBlk]; omega
            · exact hu c (by simp at hc ⊢; exact Or.inr hc)
          · simpa using hcn
          · simp only [hcs]
            simp [Deque.unread, Blk.append, Blk.unread, DBlk.toBlk]; omega
  | popBack s fu =>
    rcases List.eq_nil_or_concat d.blocks with hb | ⟨rest, b, hb⟩
    · refine ⟨d, Err.NO_DATA, ?_, ?_, ?_⟩
      · simp [DBuf.step, DBuf.popBack, hb]
      · simp [hb, Deque.verdict]
      · simp only [hb, List.map_nil]
        rw [if_neg (by decide)]
        rw [hb] at hsame; exact hsame
    · rw [List.concat_eq_append] at hb
      rw [hb] at hcs hcn hu
      have hne : ¬ (List.map DBlk.toBlk (rest ++ [b]) = []) := by simp
      simp only [DBuf.step, DBuf.popBack, hb, List.getLast?_append, List.getLast?_singleton,
        Option.some_or, List.dropLast_concat, Deque.verdict, if_neg hne, dpop_min]
      have hl : (b.toBlk.consume s).unread = (b.pop s).left := by
        rw [← dtoBlk_pop]; rfl
      have hcu := consume_unread b.toBlk s
      have hapd : Deque.apply (List.map DBlk.toBlk (rest ++ [b])) (Op.popBack s fu) =
          if fu = true ∧ (b.pop s).left = 0 then List.map DBlk.toBlk rest
          else List.map DBlk.toBlk rest ++ [b.toBlk.consume s] := by
        simp only [Deque.apply, List.map_append, List.map_cons, List.map_nil, List.getLast?_append,
          List.getLast?_singleton, Option.some_or, List.dropLast_concat, hl]
      have hbl : b.left = b.toBlk.unread := rfl
      simp only [Deque.unread, List.map_append, List.map_cons, List.map_nil, List.sum_append,
        List.sum_cons, List.sum_nil, List.length_append, List.length_map, List.length_cons, List.length_nil] at hcs hcn
      by_cases hf : (fu && (b.pop s).left == 0) = true
      · have hf' : fu = true ∧ (b.pop s).left = 0 := by simpa using hf
        rw [if_pos hf]; rw [if_pos hf'] at hapd
        refine ⟨_, _, rfl, rfl, ?_⟩
        rw [if_pos rfl, hapd]
        unfold DBuf.popFinish
        by_cases hr : rest.isEmpty = true
        · have hr' : rest = [] := by simpa using hr
          subst hr'
          rw [if_pos (by simp)]
          exact ⟨rfl, by simp, rfl, rfl, rfl, rfl⟩
        · rw [if_neg hr]
          refine ⟨rfl, fun c hc => hu c (by simp at hc ⊢; exact Or.inl hc), ?_, ?_, rfl, rfl⟩
          · simp [hcn]
          · simp only [hcs, Deque.unread]
            rw [hl] at hcu
            split <;> split <;> omega
      · have hf' : ¬ (fu = true ∧ (b.pop s).left = 0) := by simpa using hf
        rw [if_neg hf]; rw [if_neg hf'] at hapd
        refine ⟨_, _, rfl, rfl, ?_⟩
        rw [if_pos rfl, hapd]
        unfold DBuf.popFinish
        rw [if_neg (by simp)]
        refine ⟨by simp [dtoBlk_pop], ?_, ?_, ?_, rfl, rfl⟩
        · intro c hc
          simp only [List.mem_append, List.mem_singleton] at hc
          rcases hc with hc | rfl
          · exact hu c (by simp at hc ⊢; exact Or.inl hc)
          · simp [Blk.consume]; omega
        · simp [hcn]
        · simp only [hcs, Deque.unread, List.map_append, List.map_cons, List.map_nil, List.sum_append,
            List.sum_cons, List.sum_nil, hcu]
          split <;> split <;> omega
  | popFront s fu =>
    cases hb : d.blocks with
    | nil =>
      refine ⟨d, Err.NO_DATA, ?_, ?_, ?_⟩
      · simp [DBuf.step, DBuf.popFront, hb]
      · simp [Deque.verdict]
      · simp only [List.map_nil]
        rw [if_neg (by decide)]
        rw [hb] at hsame; exact hsame
    | cons b rest =>
      rw [hb] at hcs hcn hu
      have hne : ¬ (List.map DBlk.toBlk (b :: rest) = []) := by simp
      simp only [DBuf.step, DBuf.popFront, hb, Deque.verdict, if_neg hne, dpop_min]
      have hl : (b.toBlk.consume s).unread = (b.pop s).left := by
        rw [← dtoBlk_pop]; rfl
      have hcu := consume_unread b.toBlk s
      have hapd : Deque.apply (List.map DBlk.toBlk (b :: rest)) (Op.popFront s fu) =
          if fu = true ∧ (b.pop s).left = 0 then List.map DBlk.toBlk rest
          else b.toBlk.consume s :: List.map DBlk.toBlk rest := by
        simp only [Deque.apply, List.map_cons, hl]
      have hbl : b.left = b.toBlk.unread := rfl
      simp only [Deque.unread, List.map_cons,
        List.sum_cons, List.length_map, List.length_cons] at hcs hcn
      by_cases hf : (fu && (b.pop s).left == 0) = true
      · have hf' : fu = true ∧ (b.pop s).left = 0 := by simpa using hf
        rw [if_pos hf]; rw [if_pos hf'] at hapd
        refine ⟨_, _, rfl, rfl, ?_⟩
        rw [if_pos rfl, hapd]
        unfold DBuf.popFinish
        by_cases hr : rest.isEmpty = true
        · have hr' : rest = [] := by simpa using hr
          subst hr'
          rw [if_pos (by simp)]
          exact ⟨rfl, by simp, rfl, rfl, rfl, rfl⟩
        · rw [if_neg hr]
          refine ⟨rfl, fun c hc => hu c (by simp at hc ⊢; exact Or.inr hc), ?_, ?_, rfl, rfl⟩
          · simp [hcn]
          · simp only [hcs, Deque.unread]
            rw [hl] at hcu
            split <;> split <;> omega
      · have hf' : ¬ (fu = true ∧ (b.pop s).left = 0) := by simpa using hf
        rw [if_neg hf]; rw [if_neg hf'] at hapd
        refine ⟨_, _, rfl, rfl, ?_⟩
        rw [if_pos rfl, hapd]
        unfold DBuf.popFinish
        rw [if_neg (by simp)]
        refine ⟨by simp [dtoBlk_pop], ?_, ?_, ?_, rfl, rfl⟩
        · intro c hc
          simp only [List.mem_cons] at hc
          rcases hc with rfl | hc
          · simp [Blk.consume]; omega
          · exact hu c (by simp at hc ⊢; exact Or.inr hc)
        · simp [hcn]
        · simp only [hcs, Deque.unread, List.map_cons, List.sum_cons, hcu]
          split <;> split <;> omega
  | write i off dd =>
    have hl0 := hl
    obtain ⟨q, hq1, hq2⟩ := hl
    simp only [List.getElem?_map, Option.map_eq_some_iff] at hq1
    obtain ⟨b, hb1, rfl⟩ := hq1
    have hq2' : off + dd.length ≤ b.cells.length := hq2
    simp only [Deque.verdict]
    simp only [DBuf.step, hb1, DBlk.write, if_pos hq2', Option.map_some]
    refine ⟨_, _, rfl, rfl, ?_⟩
    rw [if_pos rfl]
    obtain ⟨as, cs, hsp, rfl⟩ := getElem?_split hb1
    rw [hsp] at hcn hcs hu ⊢
    refine ⟨?_, ?_, ?_, ?_, rfl, rfl⟩
    · simp [Deque.apply, List.getElem?_map, DBlk.toBlk, Blk.store]
    · intro c hc
      simp [Deque.apply] at hc
      rcases hc with ⟨a, ha, rfl⟩ | rfl | ⟨a, ha, rfl⟩
      · exact hu _ (by simp; exact Or.inl ⟨a, ha, rfl⟩)
      · have := hu b.toBlk (by simp)
        simp only [Blk.store, over_len hq2]; exact this
      · exact hu _ (by simp; exact Or.inr (Or.inr ⟨a, ha, rfl⟩))
    · simp [Deque.apply, hcn]
    · simp only [hcs]
      simp [Deque.apply, Deque.unread, Blk.unread]
      simp only [Blk.store, ← List.append_assoc, over_len hq2]

theorem dreach_good {limSize limNum : Nat} {d : DBuf} {q : Deque} (h : DReach limSize limNum d q) :
    DGood limSize limNum d q := by
  induction h with
  | init => exact ⟨rfl, by simp, rfl, rfl, rfl, rfl⟩
  | step _ hl e ih =>
    obtain ⟨d2, e2, hg2⟩ := dgood_step _ ih hl
    rw [e] at e2
    simp only [Option.some.injEq, Prod.mk.injEq] at e2
    obtain ⟨rfl, rfl⟩ := e2
    exact hg2

theorem dreach_bound {limSize limNum : Nat} {d : DBuf} {q : Deque} (h : DReach limSize limNum d q) :
    (0 < limNum → q.length ≤ limNum) ∧ (0 < limSize → q.unread ≤ limSize) := by
  induction h with
  | init => simp [Deque.unread]
  | @step d d' q op r hd hl e ih =>
    obtain ⟨d2, e2, -⟩ := dgood_step op (dreach_good hd) hl
    rw [e] at e2
    simp only [Option.some.injEq, Prod.mk.injEq] at e2
    obtain ⟨-, rfl⟩ := e2
    split
    · rename_i hv
      have other : (∀ s, op ≠ .pushBack s) → (∀ s, op ≠ .pushFront s) → (∀ s, op ≠ .mergeBack s) →
          (∀ s, op ≠ .mergeFront s) →
          (0 < limNum → (q.apply op).length ≤ limNum) ∧
          (0 < limSize → (Deque.unread (q.apply op)) ≤ limSize) := by
        intro h1 h2 h3 h4
        have := apply_unread_le h1 h2 h3 h4 hl
        exact ⟨fun h => Nat.le_trans this.2 (ih.1 h), fun h => Nat.le_trans this.1 (ih.2 h)⟩
      cases op with
      | pushBack s =>
        simp only [Deque.verdict] at hv
        split at hv
        · simp [Err.BUFF_LIMIT, Err.SUCCESS] at hv
        · rename_i hn
          simp [Deque.apply, Deque.unread, Blk.unread, Blk.fresh] at hn ⊢
          omega
      | pushFront s =>
        simp only [Deque.verdict] at hv
        split at hv
        · simp [Err.BUFF_LIMIT, Err.SUCCESS] at hv
        · rename_i hn
          simp [Deque.apply, Deque.unread, Blk.unread, Blk.fresh] at hn ⊢
          omega
      | mergeBack s =>
        simp only [Deque.verdict] at hv
        split at hv
        · simp [Err.BUFF_LIMIT, Err.SUCCESS] at hv
        · rename_i hn
          rcases List.eq_nil_or_concat q with rfl | ⟨rest, b, rfl⟩
          · simp [Deque.apply, Deque.unread, Blk.unread, Blk.fresh] at hn ⊢
            omega
          · have hu := (dreach_good hd).used b (by simp)
            simp [Deque.apply, Deque.unread, Blk.unread, Blk.append] at hn ih ⊢
            omega
      | mergeFront s =>
        simp only [Deque.verdict] at hv
        split at hv
        · simp [Err.BUFF_LIMIT, Err.SUCCESS] at hv
        · rename_i hn
          rcases q with _ | ⟨b, rest⟩
          · simp [Deque.apply, Deque.unread, Blk.unread, Blk.fresh] at hn ⊢
            omega
          · have hu := (dreach_good hd).used b (by simp)
            simp [Deque.apply, Deque.unread, Blk.unread, Blk.append] at hn ih ⊢
            omega
      | popBack s fu => exact other (by simp) (by simp) (by simp) (by simp)
      | popFront s fu => exact other (by simp) (by simp) (by simp) (by simp)
      | write i off b => exact other (by simp) (by simp) (by simp) (by simp)
    · exact ih

/-! ### Pushes on an empty static manager -/

theorem empty_pushBack {st : SBuf} (hh : st.head = 0) (ht : st.tail = 0) (hn : 2 ≤ st.idx.length)
    (h0 : st.idx[0]? = some none ∨ st.idx[0]? = some (some 0)) (s : Nat) :
    (staticPushBack st s).map (fun x => x.2) =
      if full s ≤ st.size then some (Err.SUCCESS, some 32) else some (Err.BUFF_LIMIT, none) := by
  obtain ⟨Z, idx, head, tail, mem, cn, cs, ln, ls⟩ := st
  simp only at hh ht hn h0 ⊢
  subst hh ht
  have hl : 0 < idx.length := by omega
  have key : ∀ st1 : SBuf, st1.head = 0 → st1.tail = 0 → st1.size = Z →
      st1.idx[0]? = some (some 0) →
      (if offset 0 st1.size ≥ full s then
        match create st1.size st1.mem 0 (offset 0 st1.size) s with
        | none => none
        | some none => some (st1, Err.MALLOC, none)
        | some (some (m, nf)) => addTail { st1 with mem := m } nf
      else if offset 0 0 ≤ full s then some (st1, Err.BUFF_LIMIT, none)
      else
        match create st1.size st1.mem 0 (offset 0 0) s with
        | none => none
        | some none => some (st1, Err.MALLOC, none)
        | some (some (m, nf)) =>
          addTail { st1 with mem := m, idx := st1.idx.set st1.tail (some 0) } nf).map (fun x => x.2) =
      if full s ≤ Z then some (Err.SUCCESS, some 32) else some (Err.BUFF_LIMIT, none) := by
    intro st1 e1 e2 e3 e4
    have ho : offset 0 st1.size = st1.size := by rw [offset_le (Nat.zero_le _)]; omega
    rw [ho, e3]
    have hf := full_ge s
    by_cases hs : full s ≤ Z
    · rw [if_pos hs, if_pos hs, create_of hs (by omega)]
      simp only [addTail, e2, e4]
      rw [readHdr_of (putHdr_at _ _ _) (by omega)]
      rfl
    · rw [if_neg hs, if_neg hs, if_pos (by simp [offset])]
      rfl
  simp only [staticPushBack]
  rw [if_neg (by omega), if_neg (by rw [Nat.mod_eq_of_lt (by omega)]; omega)]
  rcases h0 with h0 | h0
  · simp only [h0, emptyInit, ge_iff_le, Nat.le_refl, if_true]
    exact key ⟨Z, idx.set 0 (some 0), 0, 0, mem, cn, cs, ln, ls⟩ rfl rfl rfl (by simp [hl])
  · simp only [h0, emptyInit, ge_iff_le, Nat.le_refl, if_true]
    exact key ⟨Z, idx, 0, 0, mem, cn, cs, ln, ls⟩ rfl rfl rfl h0

theorem empty_pushFront {st : SBuf} (hh : st.head = 0) (ht : st.tail = 0) (hn : 2 ≤ st.idx.length)
    (h0 : st.idx[0]? = some none ∨ st.idx[0]? = some (some 0)) (s : Nat) :
    (staticPushFront st s).map (fun x => x.2) =
      if full s < st.size then some (Err.SUCCESS, some (st.size - full s + 32))
      else some (Err.BUFF_LIMIT, none) := by
  obtain ⟨Z, idx, head, tail, mem, cn, cs, ln, ls⟩ := st
  simp only at hh ht hn h0 ⊢
  subst hh ht
  have hl : 0 < idx.length := by omega
  have hf := full_ge s
  have key : ∀ st1 : SBuf, st1.size = Z →
      (if offset 0 0 ≥ full s then
            match create st1.size st1.mem (offset 0 0 - full s) (full s) s with
            | none => none
            | some none => some (st1, Err.MALLOC, none)
            | some (some (m, _)) => subHead { st1 with mem := m } (offset 0 0 - full s)
          else if offset 0 st1.size ≤ full s then some (st1, Err.BUFF_LIMIT, none)
          else
            match create st1.size st1.mem (0 + (offset 0 st1.size - full s)) (full s) s with
            | none => none
            | some none => some (st1, Err.MALLOC, none)
            | some (some (m, _)) => subHead { st1 with mem := m } (0 + (offset 0 st1.size - full s))).map
              (fun x => x.2) =
      if full s < Z then some (Err.SUCCESS, some (Z - full s + 32))
      else some (Err.BUFF_LIMIT, none) := by
    intro st1 e3
    have ho : offset 0 st1.size = st1.size := by rw [offset_le (Nat.zero_le _)]; omega
    have h00 : offset 0 0 = 0 := by decide
    rw [ho, e3, h00, if_neg (by omega)]
    by_cases hs : full s < Z
    · rw [if_pos hs, if_neg (by omega), create_of (Nat.le_refl _) (by omega)]
      simp only [subHead]
      rw [readHdr_of (putHdr_at _ _ _) (by omega)]
      simp [headSize]
    · rw [if_neg hs, if_pos (by omega)]
      rfl
  simp only [staticPushFront]
  rw [if_neg (by omega), if_neg (by rw [Nat.mod_eq_of_lt (by omega)]; omega)]
  rcases h0 with h0 | h0
  · simp only [h0, emptyInit, ge_iff_le, Nat.le_refl, if_true]
    exact key ⟨Z, idx.set 0 (some 0), 0, 0, mem, cn, cs, ln, ls⟩ rfl
  · simp only [h0, emptyInit, ge_iff_le, Nat.le_refl, if_true]
    exact key ⟨Z, idx, 0, 0, mem, cn, cs, ln, ls⟩ rfl

theorem addCost_snd (s : Nat) (x : Option (SBuf × Int × Option Nat)) :
    (addCost s x).map (fun x => x.2) = x.map (fun x => x.2) := by
  rcases x with _ | ⟨a, b, c⟩
  · rfl
  · simp only [addCost]; split <;> rfl

end Verif.Buffer
