import Verif.Buffer.Push

/-! Static-mode pops and user writes preserve the layout invariant. -/
namespace Verif.Buffer

/-- Placement data of a block list: addresses and ends. -/
def sig (bs : List PB) : List (Nat × Nat) := bs.map fun b => (b.p, b.fin)

theorem Chain.congr {lo hi : Nat} {bs bs' : List PB} (h : Chain lo bs hi) (e : sig bs' = sig bs) :
    Chain lo bs' hi := by
  induction bs generalizing lo bs' with
  | nil =>
    cases bs' with
    | nil => exact h
    | cons b bs' => simp [sig] at e
  | cons b bs ih =>
    cases bs' with
    | nil => simp [sig] at e
    | cons b' bs' =>
      simp only [sig, List.map_cons, List.cons.injEq, Prod.mk.injEq] at e
      obtain ⟨⟨e1, e2⟩, e3⟩ := e
      refine ⟨by rw [e1]; exact h.1, ?_⟩
      rw [e2]; exact ih h.2 e3

theorem Layout.congr {Z t : Nat} {bs bs' : List PB} (h : Layout Z bs t) (e : sig bs' = sig bs) :
    Layout Z bs' t := by
  rcases h with ⟨h, h'⟩ | ⟨b, hi, lo, rfl, h1, h2, h3⟩
  · exact Or.inl ⟨h.congr e, h'⟩
  · right
    unfold sig at e
    rw [List.map_append] at e
    obtain ⟨l1, l2, rfl, e1, e2⟩ := List.map_eq_append_iff.1 e
    cases l1 with
    | nil => simp at e1
    | cons b' hi' =>
      have e1' := e1
      simp only [List.map_cons, List.cons.injEq, Prod.mk.injEq] at e1'
      refine ⟨b', hi', l2, rfl, ?_, h2.congr e2, by rw [e1'.1.1]; exact h3⟩
      rw [e1'.1.1]; exact h1.congr e1

theorem Core.congr {st : SBuf} {bs bs' : List PB} {t : Nat} {m : Mem} (h : Core st bs t)
    (e : sig bs' = sig bs) (hm : ∀ b ∈ bs', BlkOK m b) : Core { st with mem := m } bs' t := by
  have hl : bs'.length = bs.length := by
    have := congrArg List.length e; simpa [sig] using this
  refine ⟨h.n2, hm, h.lay.congr e, ?_, h.hlt, by rw [hl]; exact h.len, by rw [hl]; exact h.teq,
    ?_, h.tslot⟩
  · intro he; subst he
    exact h.emp (List.eq_nil_of_length_eq_zero (by simpa using hl.symm))
  · intro i b hib
    have h1 : (sig bs')[i]? = some (b.p, b.fin) := by simp [sig, hib]
    rw [e] at h1
    simp only [sig, List.getElem?_map, Option.map_eq_some_iff] at h1
    obtain ⟨c, hc1, hc2⟩ := h1
    have := h.slots i c hc1
    simp only [Prod.mk.injEq] at hc2
    rw [hc2.1] at this
    exact this

/-- Disjointness of live blocks. -/
theorem Chain.pairwise {lo hi : Nat} {bs : List PB} (h : Chain lo bs hi) :
    bs.Pairwise fun x y => x.fin ≤ y.p := by
  induction bs generalizing lo with
  | nil => exact List.Pairwise.nil
  | cons b bs ih =>
    exact List.Pairwise.cons (fun y hy => (h.2.mem hy).1) (ih h.2)

theorem Layout.pairwise {Z t : Nat} {bs : List PB} (h : Layout Z bs t) :
    bs.Pairwise fun x y => x.fin ≤ y.p ∨ y.fin ≤ x.p := by
  rcases h with ⟨h, _⟩ | ⟨b, hi, lo, rfl, h1, h2, h3⟩
  · exact h.pairwise.imp fun h => Or.inl h
  · rw [List.pairwise_append]
    refine ⟨h1.pairwise.imp fun h => Or.inl h, h2.pairwise.imp fun h => Or.inl h, ?_⟩
    intro x hx y hy
    right
    have := (h1.mem hx).1
    have := (h2.mem hy).2
    omega

theorem Layout.disj {Z t : Nat} {as cs : List PB} {b : PB} (h : Layout Z (as ++ b :: cs) t) :
    ∀ c, c ∈ as ∨ c ∈ cs → c.fin ≤ b.p ∨ b.fin ≤ c.p := by
  have hp := h.pairwise
  rw [List.pairwise_append] at hp
  obtain ⟨_, h2, h3⟩ := hp
  intro c hc
  rcases hc with hc | hc
  · exact h3 c hc b (by simp)
  · have := (List.pairwise_cons.1 h2).1 c hc
    omega

/-- Changing one block inside its own extent. -/
theorem Core.update {st : SBuf} {as cs : List PB} {b b' : PB} {t : Nat} {m : Mem}
    (h : Core st (as ++ b :: cs) t) (hp : b'.p = b.p) (hf : b'.fin = b.fin)
    (hm : BlkOK m b') (hframe : ∀ a, a < b.p ∨ b.fin ≤ a → m a = st.mem a) :
    Core { st with mem := m } (as ++ b' :: cs) t := by
  refine h.congr ?_ ?_
  · simp [sig, hp, hf]
  · have hd := h.lay.disj
    have key : ∀ c, c ∈ as ∨ c ∈ cs → BlkOK m c := by
      intro c hc
      have hok : BlkOK st.mem c := h.mem c (by
        rcases hc with hc | hc <;> simp [hc])
      refine hok.frame ?_
      intro a h1 h2
      apply hframe
      have := hd c hc
      omega
    intro c hc
    rcases List.mem_append.1 hc with hc | hc
    · exact key c (Or.inl hc)
    · rcases List.mem_cons.1 hc with rfl | hc
      · exact hm
      · exact key c (Or.inr hc)

/-- `pop` on a placed block. -/
def PB.pop (b : PB) (s : Nat) : PB :=
  if b.used + s > b.cells.length then { b with used := b.cells.length }
  else { b with used := b.used + s }

@[simp] theorem PB.pop_p (b : PB) (s : Nat) : (b.pop s).p = b.p := by unfold PB.pop; split <;> rfl
@[simp] theorem PB.pop_cells (b : PB) (s : Nat) : (b.pop s).cells = b.cells := by
  unfold PB.pop; split <;> rfl
@[simp] theorem PB.pop_fin (b : PB) (s : Nat) : (b.pop s).fin = b.fin := by simp [PB.fin]
theorem PB.pop_used (b : PB) (s : Nat) (_h : b.used ≤ b.cells.length) :
    (b.pop s).used = min (b.used + s) b.cells.length := by
  unfold PB.pop; split <;> simp <;> omega

/-- The block head of `b`, members of `buffer_block`, `include/detail/buffer.h`. -/
def PB.hdr (b : PB) : Hdr := ⟨b.cells.length, b.used, b.p + 32⟩

theorem PB.pop_hdr (b : PB) (s : Nat) : (b.pop s).hdr = b.hdr.pop s := by
  unfold PB.pop Hdr.pop PB.hdr
  by_cases h : b.used + s > b.cells.length
  · simp [h]
  · simp [h]

theorem put_pop_ok {m : Mem} {b : PB} (h : BlkOK m b) (s : Nat) :
    BlkOK (putHdr m b.p (b.hdr.pop s)) (b.pop s) := by
  obtain ⟨h1, h2, h3⟩ := h
  refine ⟨?_, ?_, ?_⟩
  · have := putHdr_at m b.p (b.hdr.pop s)
    rw [← PB.pop_hdr] at this ⊢
    simp only [PB.hdr, PB.pop_p, PB.pop_cells] at this ⊢
    exact this
  · rw [PB.pop_used _ _ h2]; simp; omega
  · intro j x hj
    simp only [PB.pop_cells, PB.pop_p] at hj ⊢
    rw [putHdr_frame (by omega)]
    exact h3 j x hj

/-- Remaining bytes of a block. -/
def PB.left (b : PB) : Nat := b.cells.length - b.used

/-- Memory and index part of `pop_front`: keep the block. -/
theorem Core.popKeep {st : SBuf} {as cs : List PB} {b : PB} {t : Nat} (s : Nat)
    (h : Core st (as ++ b :: cs) t) :
    writeHdr st.size st.mem b.p (b.hdr.pop s) = some (putHdr st.mem b.p (b.hdr.pop s)) ∧
    Core { st with mem := putHdr st.mem b.p (b.hdr.pop s) } (as ++ b.pop s :: cs) t := by
  have hb : b ∈ as ++ b :: cs := by simp
  have hfin := h.lay.bound hb
  have hg := full_ge b.cells.length
  have hlt : b.p + 32 ≤ b.fin := by unfold PB.fin; omega
  refine ⟨writeHdr_of (by omega), ?_⟩
  refine h.update (by simp) (by simp) (put_pop_ok (h.mem b hb) s) ?_
  intro a ha
  apply putHdr_frame
  omega

theorem Core.read {st : SBuf} {bs : List PB} {b : PB} {t : Nat} (h : Core st bs t) (hb : b ∈ bs) :
    readHdr st.size st.mem b.p = some b.hdr := by
  have hfin := h.lay.bound hb
  have hg := full_ge b.cells.length
  refine readHdr_of (h.mem b hb).1 ?_
  unfold PB.fin at hfin; omega

/-- Dropping the first block. -/
theorem Core.dropFront {st : SBuf} {b : PB} {bs : List PB} {t : Nat} (h : Core st (b :: bs) t)
    (hbs : bs ≠ []) :
    Core { st with idx := st.idx.set st.head none, head := (st.head + 1) % st.idx.length } bs t := by
  have hn : 0 < st.idx.length := by have := h.n2; omega
  have hlen : bs.length + 1 < st.idx.length := by simpa using h.len
  have hstep : ∀ i, ((st.head + 1) % st.idx.length + i) % st.idx.length =
      (st.head + (i + 1)) % st.idx.length := by
    intro i; rw [Nat.mod_add_mod]; congr 1; omega
  have hne : ∀ i, i + 1 < st.idx.length → st.head ≠ (st.head + (i + 1)) % st.idx.length := by
    intro i hi he
    have h0 : st.head = (st.head + 0) % st.idx.length := by simp [Nat.mod_eq_of_lt h.hlt]
    have := ring_inj h.hlt hn hi (h0.symm.trans he)
    omega
  refine ⟨by simpa using h.n2, fun c hc => h.mem c (by simp [hc]), ?_, fun e => absurd e hbs, ?_, ?_,
    ?_, ?_, ?_⟩
  · rcases h.lay with ⟨h1, h2⟩ | ⟨b0, hi, lo, e, h1, h2, h3⟩
    · exact Or.inl ⟨h1.2.mono (Nat.zero_le _) (Nat.le_refl _), h2⟩
    · simp only [List.cons_append, List.cons.injEq] at e
      obtain ⟨rfl, rfl⟩ := e
      cases hi with
      | nil =>
        have := h1.le
        exact Or.inl ⟨h2, by show t ≤ st.size; omega⟩
      | cons c hi =>
        refine Or.inr ⟨c, hi, lo, rfl, ⟨Nat.le_refl _, h1.2.2⟩, h2, ?_⟩
        have := h1.2.1
        have := full_ge b.cells.length
        unfold PB.fin at *; omega
  · simpa using Nat.mod_lt _ hn
  · simp; omega
  · simp only [List.length_set]
    rw [hstep, h.teq]; rfl
  · intro i c hic
    simp only [List.length_set]
    rw [hstep, sub_set, h.slots (i + 1) c (by simpa using hic)]
    exact hne i (by have := lt_of_getElem? hic; omega)
  · show (st.idx.set _ _)[st.tail]? = _
    rw [sub_set, h.tslot]
    rw [h.teq]; exact hne _ h.len

/-- Dropping the last block. -/
theorem Core.dropBack {st : SBuf} {b : PB} {bs : List PB} {t : Nat} (h : Core st (bs ++ [b]) t)
    (hbs : bs ≠ []) :
    Core { st with idx := st.idx.set st.tail none,
                   tail := (st.tail + st.idx.length - 1) % st.idx.length } bs b.p := by
  have hn : 0 < st.idx.length := by have := h.n2; omega
  have hlen : bs.length + 1 < st.idx.length := by simpa using h.len
  have hti : (st.tail + st.idx.length - 1) % st.idx.length = (st.head + bs.length) % st.idx.length := by
    rw [h.teq]; simp only [List.length_append, List.length_cons, List.length_nil]
    exact ring_pred h.hlt
  have hne : ∀ i, i ≤ bs.length → st.tail ≠ (st.head + i) % st.idx.length := by
    intro i hi he
    rw [h.teq] at he
    simp only [List.length_append, List.length_cons, List.length_nil] at he
    have := ring_inj h.hlt (by omega) (by omega) he
    omega
  refine ⟨by simpa using h.n2, fun c hc => h.mem c (by simp [hc]), ?_, fun e => absurd e hbs, ?_, ?_,
    ?_, ?_, ?_⟩
  · have hg := full_ge b.cells.length
    rcases h.lay with ⟨h1, h2⟩ | ⟨b0, hi, lo, e, h1, h2, h3⟩
    · obtain ⟨h4, h5⟩ := chain_snoc.1 h1
      exact Or.inl ⟨h4, by simp only [PB.fin] at h5; show b.p ≤ st.size; omega⟩
    · rcases List.eq_nil_or_concat lo with rfl | ⟨lo', l, rfl⟩
      · rw [List.append_nil] at e
        rw [← e] at h1
        obtain ⟨h4, h5⟩ := chain_snoc.1 h1
        exact Or.inl ⟨h4.mono (Nat.zero_le _) (Nat.le_refl _), by
          simp only [PB.fin] at h5; show b.p ≤ st.size; omega⟩
      · rw [List.concat_eq_append, ← List.append_assoc] at e
        obtain ⟨e1, e2⟩ := List.append_inj' e rfl
        simp only [List.cons.injEq, and_true] at e2
        subst e2
        rw [List.concat_eq_append] at h2
        obtain ⟨h4, h5⟩ := chain_snoc.1 h2
        exact Or.inr ⟨b0, hi, lo', e1, h1, h4, by simp only [PB.fin] at h5; omega⟩
  · simpa using h.hlt
  · simp; omega
  · simpa using hti
  · intro i c hic
    simp only [List.length_set]
    have hil := lt_of_getElem? hic
    rw [sub_set, h.slots i c (by rw [List.getElem?_append_left hil]; exact hic)]
    exact hne i (by omega)
  · show (st.idx.set _ _)[(st.tail + st.idx.length - 1) % st.idx.length]? = _
    rw [hti, sub_set, h.slots bs.length b (by simp)]
    exact hne _ (Nat.le_refl _)

theorem Inv.nonempty {st bs} (h : Inv st bs) : st.head ≠ st.tail ↔ bs ≠ [] := by
  rcases h with ⟨hb, t, hc⟩ | ⟨rfl, h1, h2, _⟩
  · simp [hb, hc.ht_ne hb]
  · simp [h1, h2]

/-- State parts untouched by a pop. -/
structure SameGeom (a b : SBuf) : Prop where
  size : b.size = a.size
  len : b.idx.length = a.idx.length
  ln : b.limNum = a.limNum
  ls : b.limSize = a.limSize

theorem popFinish_inv {st : SBuf} {bs : List PB} {t s : Nat} (h : Core st bs t) (hb : bs ≠ []) :
    Inv (popFinish st s) bs ∧ SameGeom st (popFinish st s) ∧
    (popFinish st s).costNum = st.costNum ∧
    (popFinish st s).costSize = st.costSize - s := by
  have : popFinish st s = { st with costSize := st.costSize - (if st.costSize ≥ s then s else st.costSize) } := by
    unfold popFinish; rw [if_neg (h.ht_ne hb)]
  rw [this]
  refine ⟨Or.inl ⟨hb, t, ?_⟩, ⟨rfl, rfl, rfl, rfl⟩, rfl, ?_⟩
  · exact ⟨h.n2, h.mem, h.lay, h.emp, h.hlt, h.len, h.teq, h.slots, h.tslot⟩
  · show st.costSize - _ = _
    split <;> omega

theorem popFinish_empty {st : SBuf} {s : Nat} (h : st.head = st.tail) (h2 : 2 ≤ st.idx.length) :
    Inv (popFinish st s) [] ∧ SameGeom st (popFinish st s) ∧
    (popFinish st s).costNum = 0 ∧ (popFinish st s).costSize = 0 := by
  have : popFinish st s = { st with head := 0, tail := 0, idx := st.idx.set 0 (some 0), costSize := 0, costNum := 0 } := by
    unfold popFinish; rw [if_pos h]
  rw [this]
  refine ⟨Or.inr ⟨rfl, rfl, rfl, by simpa using h2, Or.inr ?_⟩, ⟨rfl, by simp, rfl, rfl⟩, rfl, rfl⟩
  exact set_self (by omega)

/-- Counters as the user can compute them from the blocks. -/
def Counted (st : SBuf) (bs : List PB) : Prop :=
  st.costNum = bs.length ∧ st.costSize = (bs.map PB.left).sum

/-- Blocks after `pop_front(s, fu)`. -/
def popFrontB (bs : List PB) (s : Nat) (fu : Bool) : List PB :=
  match bs with
  | [] => []
  | b :: rest => if fu && (b.pop s).left == 0 then rest else b.pop s :: rest

theorem pop_min (b : PB) (s : Nat) : b.pop (if s > b.left then b.left else s) = b.pop s := by
  unfold PB.pop PB.left
  by_cases h : s > b.cells.length - b.used
  · rw [if_pos h]
    by_cases h2 : b.used + (b.cells.length - b.used) > b.cells.length
    · rw [if_pos h2, if_pos (by omega)]
    · rw [if_neg h2, if_pos (by omega)]; congr 1; omega
  · rw [if_neg h]

theorem left_pop (b : PB) (s : Nat) (h : b.used ≤ b.cells.length) :
    (b.pop s).left = b.left - s := by
  unfold PB.left
  rw [PB.pop_used _ _ h]; simp; omega

theorem staticPopFront_spec {st : SBuf} {bs : List PB} (s : Nat) (fu : Bool) (h : Inv st bs)
    (hcnt : Counted st bs) :
    ∃ st' r, staticPopFront st s fu = some (st', r) ∧ SameGeom st st' ∧
      Inv st' (popFrontB bs s fu) ∧ Counted st' (popFrontB bs s fu) ∧
      ((bs = [] ∧ r = Err.NO_DATA) ∨ (bs ≠ [] ∧ r = Err.SUCCESS)) := by
  unfold staticPopFront
  rcases h with ⟨hb, t, hc⟩ | hh
  · have hne := hc.ht_ne hb
    have hn2 := hc.n2
    rw [if_neg hne, if_neg (by omega)]
    cases bs with
    | nil => exact absurd rfl hb
    | cons b rest =>
      have hrd := hc.read (b := b) (by simp)
      have hslot : st.idx[st.head]? = some (some b.p) := by simpa [hp] using hc.hslot
      have hleft : b.hdr.left = b.left := rfl
      have hb3 := (hc.mem b (by simp)).2.1
      simp only [hslot, hrd, hleft]
      obtain ⟨hw, hcore⟩ := hc.popKeep (as := []) (cs := rest) (if s > b.left then b.left else s)
      simp only [hw]
      simp only [List.nil_append, pop_min] at hcore
      have hhl : (b.hdr.pop (if s > b.left then b.left else s)).left = (b.pop s).left := by
        rw [← PB.pop_hdr, pop_min]; rfl
      rw [hhl]
      obtain ⟨c1, c2⟩ := hcnt
      simp only [List.length_cons, List.map_cons, List.sum_cons] at c1 c2
      have hlp := left_pop b s hb3
      by_cases hfree : (fu && (b.pop s).left == 0) = true
      · rw [if_pos hfree]
        have hpf : popFrontB (b :: rest) s fu = rest := by simp only [popFrontB, hfree, if_true]
        rw [hpf]
        have hl0 : b.left ≤ s := by
          simp only [Bool.and_eq_true, beq_iff_eq] at hfree
          omega
        by_cases hr : rest = []
        · subst hr
          have ht : (st.head + 1) % st.idx.length = st.tail := by
            have := hc.teq; simp at this; exact this.symm
          obtain ⟨f1, f2, f3, f4⟩ := popFinish_empty (s := if s > b.left then b.left else s)
            (st := { st with mem := putHdr st.mem b.p (b.hdr.pop (if s > b.left then b.left else s)), idx := st.idx.set st.head none, head := (st.head + 1) % st.idx.length, costNum := st.costNum - 1 }) ht (by simpa using hn2)
          refine ⟨_, _, rfl, ⟨f2.size, f2.len.trans (by simp), f2.ln, f2.ls⟩, f1, ⟨by rw [f3]; rfl, by rw [f4]; rfl⟩,
            Or.inr ⟨by simp, rfl⟩⟩
        · have hd := hcore.dropFront hr
          have hd' : Core { st with mem := putHdr st.mem b.p (b.hdr.pop (if s > b.left then b.left else s)), idx := st.idx.set st.head none, head := (st.head + 1) % st.idx.length, costNum := st.costNum - 1 } rest t :=
            ⟨hd.n2, hd.mem, hd.lay, hd.emp, hd.hlt, hd.len, hd.teq, hd.slots, hd.tslot⟩
          obtain ⟨f1, f2, f3, f4⟩ := popFinish_inv (s := if s > b.left then b.left else s) hd' hr
          refine ⟨_, _, rfl, ⟨f2.size, f2.len.trans (by simp), f2.ln, f2.ls⟩, f1, ⟨?_, ?_⟩,
            Or.inr ⟨by simp, rfl⟩⟩
          · rw [f3]; simp [c1]
          · rw [f4]; simp only [c2]; split <;> omega
      · rw [if_neg hfree]
        have hpf : popFrontB (b :: rest) s fu = b.pop s :: rest := by
          simp only [popFrontB, hfree]; rfl
        rw [hpf]
        obtain ⟨f1, f2, f3, f4⟩ := popFinish_inv (s := if s > b.left then b.left else s) hcore (by simp)
        refine ⟨_, _, rfl, ⟨f2.size, f2.len, f2.ln, f2.ls⟩, f1, ⟨?_, ?_⟩, Or.inr ⟨by simp, rfl⟩⟩
        · rw [f3]; simp [c1]
        · rw [f4]; simp only [c2, List.map_cons, List.sum_cons, hlp]; split <;> omega
  · obtain ⟨rfl, h1, h2, _⟩ := hh
    rw [if_pos (by rw [h1, h2])]
    exact ⟨st, _, rfl, ⟨rfl, rfl, rfl, rfl⟩, Or.inr ⟨rfl, h1, h2, ‹_›⟩, hcnt, Or.inl ⟨rfl, rfl⟩⟩

/-- Blocks after `pop_back(s, fu)`. -/
def popBackB (bs : List PB) (s : Nat) (fu : Bool) : List PB :=
  match bs.getLast? with
  | none => []
  | some b => if fu && (b.pop s).left == 0 then bs.dropLast else bs.dropLast ++ [b.pop s]

theorem staticPopBack_spec {st : SBuf} {bs : List PB} (s : Nat) (fu : Bool) (h : Inv st bs)
    (hcnt : Counted st bs) :
    ∃ st' r, staticPopBack st s fu = some (st', r) ∧ SameGeom st st' ∧
      Inv st' (popBackB bs s fu) ∧ Counted st' (popBackB bs s fu) ∧
      ((bs = [] ∧ r = Err.NO_DATA) ∨ (bs ≠ [] ∧ r = Err.SUCCESS)) := by
  unfold staticPopBack
  rcases h with ⟨hb, t, hc⟩ | hh
  · have hne := hc.ht_ne hb
    have hn2 := hc.n2
    rw [if_neg hne, if_neg (by omega)]
    rcases List.eq_nil_or_concat bs with rfl | ⟨rest, b, rfl⟩
    · exact absurd rfl hb
    · rw [List.concat_eq_append] at *
      have hrd := hc.read (b := b) (by simp)
      have hti : (st.tail + st.idx.length - 1) % st.idx.length = (st.head + rest.length) % st.idx.length := by
        rw [hc.teq]; simp only [List.length_append, List.length_cons, List.length_nil]
        exact ring_pred hc.hlt
      have hslot : st.idx[(st.tail + st.idx.length - 1) % st.idx.length]? = some (some b.p) := by
        rw [hti]; exact hc.slots rest.length b (by simp)
      have hleft : b.hdr.left = b.left := rfl
      have hb3 := (hc.mem b (by simp)).2.1
      simp only [hslot, hrd, hleft]
      obtain ⟨hw, hcore⟩ := hc.popKeep (as := rest) (cs := []) (if s > b.left then b.left else s)
      simp only [hw]
      simp only [pop_min] at hcore
      have hhl : (b.hdr.pop (if s > b.left then b.left else s)).left = (b.pop s).left := by
        rw [← PB.pop_hdr, pop_min]; rfl
      rw [hhl]
      obtain ⟨c1, c2⟩ := hcnt
      simp only [List.length_append, List.length_cons, List.length_nil, List.map_append, List.map_cons,
        List.map_nil, List.sum_append, List.sum_cons, List.sum_nil] at c1 c2
      have hlp := left_pop b s hb3
      by_cases hfree : (fu && (b.pop s).left == 0) = true
      · rw [if_pos hfree]
        have hpf : popBackB (rest ++ [b]) s fu = rest := by
          unfold popBackB
          simp only [List.getLast?_append, List.getLast?_singleton, Option.some_or, List.dropLast_concat, hfree, if_true]
        rw [hpf]
        have hl0 : b.left ≤ s := by
          simp only [Bool.and_eq_true, beq_iff_eq] at hfree
          omega
        by_cases hr : rest = []
        · subst hr
          have ht : st.head = (st.tail + st.idx.length - 1) % st.idx.length := by
            rw [hti]; simp [Nat.mod_eq_of_lt hc.hlt]
          obtain ⟨f1, f2, f3, f4⟩ := popFinish_empty (s := if s > b.left then b.left else s)
            (st := { st with mem := putHdr st.mem b.p (b.hdr.pop (if s > b.left then b.left else s)), idx := st.idx.set st.tail none, tail := (st.tail + st.idx.length - 1) % st.idx.length, costNum := st.costNum - 1 }) ht (by simpa using hn2)
          refine ⟨_, _, rfl, ⟨f2.size, f2.len.trans (by simp), f2.ln, f2.ls⟩, f1, ⟨by rw [f3]; rfl, by rw [f4]; rfl⟩,
            Or.inr ⟨by simp, rfl⟩⟩
        · have hd := hcore.dropBack hr
          have hd' : Core { st with mem := putHdr st.mem b.p (b.hdr.pop (if s > b.left then b.left else s)), idx := st.idx.set st.tail none, tail := (st.tail + st.idx.length - 1) % st.idx.length, costNum := st.costNum - 1 } rest (b.pop s).p :=
            ⟨hd.n2, hd.mem, hd.lay, hd.emp, hd.hlt, hd.len, hd.teq, hd.slots, hd.tslot⟩
          obtain ⟨f1, f2, f3, f4⟩ := popFinish_inv (s := if s > b.left then b.left else s) hd' hr
          refine ⟨_, _, rfl, ⟨f2.size, f2.len.trans (by simp), f2.ln, f2.ls⟩, f1, ⟨?_, ?_⟩,
            Or.inr ⟨by simp, rfl⟩⟩
          · rw [f3]; simp [c1]
          · rw [f4]; simp only [c2]; split <;> omega
      · rw [if_neg hfree]
        have hpf : popBackB (rest ++ [b]) s fu = rest ++ [b.pop s] := by
          unfold popBackB
          simp only [List.getLast?_append, List.getLast?_singleton, Option.some_or, List.dropLast_concat, hfree]
          rfl
        rw [hpf]
        obtain ⟨f1, f2, f3, f4⟩ := popFinish_inv (s := if s > b.left then b.left else s) hcore (by simp)
        refine ⟨_, _, rfl, ⟨f2.size, f2.len, f2.ln, f2.ls⟩, f1, ⟨?_, ?_⟩, Or.inr ⟨by simp, rfl⟩⟩
        · rw [f3]; simp [c1]
        · rw [f4]; simp only [c2, List.map_append, List.map_cons, List.map_nil, List.sum_append, List.sum_cons, List.sum_nil, hlp]; split <;> omega
  · obtain ⟨rfl, h1, h2, _⟩ := hh
    rw [if_pos (by rw [h1, h2])]
    exact ⟨st, _, rfl, ⟨rfl, rfl, rfl, rfl⟩, Or.inr ⟨rfl, h1, h2, ‹_›⟩, hcnt, Or.inl ⟨rfl, rfl⟩⟩

end Verif.Buffer
