import Verif.IoStream.RecvLemmas

/-! The receiving half follows the specification of the stream. -/
namespace Verif.IoStream
set_option maxRecDepth 10000
open Vint

theorem judge_eq (cf : RConf) (h : Hash) (st : RConn) (f : Fr) :
    judge cf h st f.1 f.2 =
      ({ st with
          hashFail := if verdict cf h f = Err.BAD_DATA then st.hashFail + 1 else st.hashFail
          blockFail := if verdict cf h f = Err.INVALID_SIZE then st.blockFail + 1 else st.blockFail },
        verdict cf h f,
        decide ((verdict cf h f = Err.BAD_DATA ∧ (if verdict cf h f = Err.BAD_DATA then st.hashFail + 1 else st.hashFail) > cf.maxHash) ∨
          (verdict cf h f = Err.INVALID_SIZE ∧ (if verdict cf h f = Err.INVALID_SIZE then st.blockFail + 1 else st.blockFail) > cf.maxBlock))) := by
  have n1 : Err.BAD_DATA ≠ Err.INVALID_SIZE := by decide
  have n2 : Err.SUCCESS ≠ Err.BAD_DATA := by decide
  have n3 : Err.SUCCESS ≠ Err.INVALID_SIZE := by decide
  unfold judge verdict
  by_cases h1 : h.bytes f.2 ≠ f.1
  · simp [h1, n1]
  · simp only [if_neg h1]
    by_cases h2 : cf.limit > 0 ∧ f.2.length > cf.limit
    · simp [h2, n1.symm]
    · simp [if_neg h2, n2, n3]

theorem slice_some (l : List Byte) (off n : Nat) (h : off + n ≤ l.length) :
    slice l off n = some ((l.drop off).take n) := by
  unfold slice; rw [if_pos h]

/-- Result of the head loop. -/
def headResult (cf : RConf) (h : Hash) (st : RConn) (fs : List Fr) (r : List Byte) (free : Bool) :
    RConn × List Cb × Bool × List Byte :=
  let J := judgeAll cf h st.hashFail st.blockFail fs
  let st1 := { st with hashFail := J.2.1, blockFail := J.2.2.1 }
  match header r with
  | none => (st1, J.1, free || J.2.2.2, r)
  | some (v, l) =>
    if cf.accept (4 + v) then
      ({ st1 with bufs := st.bufs ++ [(r.take 4 ++ r.drop (4 + l), 4 + v)] }, J.1, free || J.2.2.2, [])
    else ({ st1 with blockFail := J.2.2.1 + 1 }, J.1, true, r.drop (4 + l))

theorem headLoop_eq (cf : RConf) (h : Hash) {b : List Byte} {fs : List Fr} {r : List Byte} (hd : Dec b fs r) :
    ∀ (fuel : Nat) (st : RConn) (free : Bool), b.length < fuel → wraps r = false →
      headLoop cf h fuel st b free = some (headResult cf h st fs r free) := by
  induction hd with
  | @stop s hs =>
    intro fuel st free hf hw
    cases fuel with
    | zero => omega
    | succ fuel =>
      unfold headLoop headResult
      rcases decode1_none hs with hn | ⟨v, l, hh, hlt⟩
      · rw [hn]
        simp only [judgeAll, Bool.or_false]
        unfold header at hn
        by_cases h1 : s.length ≤ 4
        · simp [h1]
        · by_cases h2 : (readVint (s.drop 4)).2 = 0
          · simp [h1, h2]
          · simp [h1, h2] at hn
      · obtain ⟨h1, h2, h3, h4⟩ := header_some hh
        have hnw : ¬ (4 + l + v ≥ W64) := by
          intro hge
          have hc : wraps s = true := by
            unfold wraps; rw [hh]; exact decide_eq_true hge
          rw [hc] at hw; cases hw
        have hlt' : ¬ (s.length ≥ 4 + l + v) := by omega
        have e1 : slice s 0 4 = some (s.take 4) := by
          rw [slice_some _ _ _ (by omega)]; simp
        have e2 : slice s (4 + l) (s.length - 4 - l) = some (s.drop (4 + l)) := by
          rw [slice_some _ _ _ (by omega)]
          rw [List.take_of_length_le (by simp; omega)]
        have e3 : 4 + (s.drop (4 + l)).length ≤ 4 + v := by simp; omega
        rw [hh]
        simp only [judgeAll, Bool.or_false]
        rw [if_neg (by omega : ¬ s.length ≤ 4), h2]
        simp only [if_neg h3, if_neg hnw, if_neg hlt', e1, e2, if_pos e3]
        by_cases ha : cf.accept (4 + v) = true
        · simp [ha]
        · simp [ha]
  | @more s s' r f fs hs hd ih =>
    intro fuel st free hf hw
    cases fuel with
    | zero => omega
    | succ fuel =>
      obtain ⟨v, l, hh, hle, hnw, hf', hs'⟩ := decode1_some hs
      obtain ⟨h1, h2, h3, h4⟩ := header_some hh
      have hnw' : ¬ (4 + l + v ≥ W64) := by omega
      have e1 : slice s 0 4 = some f.1 := by
        rw [slice_some _ _ _ (by omega), hf']; simp
      have e2 : slice s (4 + l) v = some f.2 := by
        rw [slice_some _ _ _ (by omega), hf']
      have hsh := decode1_shorter hs
      unfold headLoop
      rw [if_neg (by omega : ¬ s.length ≤ 4), h2]
      simp only [if_neg h3, if_neg hnw', if_pos (show s.length ≥ 4 + l + v from hle), e1, e2]
      rw [judge_eq]
      simp only
      rw [← hs', ih fuel _ _ (by omega) hw]
      unfold headResult
      simp only [judgeAll]
      cases hhr : header r with
      | none => simp [Bool.or_assoc]
      | some p =>
        obtain ⟨v', l'⟩ := p
        simp only
        by_cases ha : cf.accept (4 + v') = true
        · simp [ha, Bool.or_assoc]
        · simp [ha]

/-- State of an open connection that has received `s`: `fs` are the complete frames, `r` the bytes
behind them. -/
def Rest (cf : RConf) (st : RConn) (r : List Byte) : Prop :=
  (st.bufs = [] ∧ st.head = r ∧ r.length ≤ headCap ∧ header r = none) ∨
  (st.head = [] ∧ ∃ v l, header r = some (v, l) ∧ 4 + l + v < W64 ∧ r.length < 4 + l + v ∧ cf.accept (4 + v) = true ∧
    st.bufs = [(r.take 4 ++ r.drop (4 + l), 4 + v)])

structure Opened (cf : RConf) (h : Hash) (hf0 bf0 : Nat) (st : RConn) (s : List Byte) (cbs : List Cb) : Prop where
  opened : st.closed = false
  frames : ∃ fs r, Dec s fs r ∧ process cf h hf0 bf0 fs = (cbs, st.hashFail, st.blockFail, false) ∧ Rest cf st r ∧
    ∀ cb ∈ cbs, ∃ f ∈ fs, cb = ⟨verdict cf h f, f.2⟩

/-- The stream makes the receiver drop the connection. -/
def Fatal (cf : RConf) (h : Hash) (hf0 bf0 : Nat) (fs : List Fr) (r : List Byte) : Prop :=
  (process cf h hf0 bf0 fs).2.2.2 = true ∨ tooLarge cf r = true

structure Dropped (cf : RConf) (h : Hash) (hf0 bf0 : Nat) (st : RConn) (s : List Byte) (cbs : List Cb) : Prop where
  closed : st.closed = true
  frames : ∃ fs r more left, Dec s fs r ∧ Fatal cf h hf0 bf0 fs r ∧
    cbs = (process cf h hf0 bf0 fs).1 ++ more ++ left ∧
    (∀ cb ∈ (process cf h hf0 bf0 fs).1 ++ more, ∃ f ∈ fs, cb = ⟨verdict cf h f, f.2⟩) ∧
    (left = [] ∨ ∃ d, left = [⟨Err.INVALID_SIZE, d⟩])

/-- A fatal stream stays fatal, with the same callbacks. -/
theorem Fatal.mono {cf : RConf} {h : Hash} {hf0 bf0 : Nat} {s t : List Byte} {fs fs' : List Fr} {r r' : List Byte}
    (hd : Dec s fs r) (hf : Fatal cf h hf0 bf0 fs r) (hd' : Dec (s ++ t) fs' r') :
    Fatal cf h hf0 bf0 fs' r' ∧ (process cf h hf0 bf0 fs').1 = (process cf h hf0 bf0 fs).1 ∧ ∃ gs, fs' = fs ++ gs := by
  obtain ⟨gs, r2, hg⟩ := Dec.total (r ++ t)
  obtain ⟨e1, e2⟩ := hd'.det (hd.append hg)
  subst e1 e2
  unfold Fatal
  rw [process_append]
  by_cases hp : (process cf h hf0 bf0 fs).2.2.2 = true
  · rw [if_pos hp]
    exact ⟨Or.inl hp, rfl, gs, rfl⟩
  · rcases hf with hf | hf
    · exact absurd hf hp
    rw [if_neg hp]
    unfold tooLarge at hf
    cases hh : header r with
    | none => rw [hh] at hf; cases hf
    | some p =>
      obtain ⟨v, l⟩ := p
      rw [hh] at hf
      simp only [Bool.not_eq_true'] at hf
      cases hg with
      | stop hn =>
        refine ⟨Or.inr ?_, by simp [process], [], by simp⟩
        unfold tooLarge
        rw [header_append t hh]
        simp [hf]
      | more hs hrest =>
        rename_i s' f gs'
        obtain ⟨v', l', hh', hle, hnw, hf', hs'⟩ := decode1_some hs
        rw [header_append t hh] at hh'
        cases hh'
        have hl : f.2.length = v := by
          subst hf'
          simp only [List.length_take, List.length_drop]
          omega
        have hp2 : process cf h (process cf h hf0 bf0 fs).2.1 (process cf h hf0 bf0 fs).2.2.1 (f :: gs') =
            ([], (process cf h hf0 bf0 fs).2.1, (process cf h hf0 bf0 fs).2.2.1, true) := by
          simp only [process, hl, hf, if_true]
        rw [hp2]
        exact ⟨Or.inl rfl, by simp, f :: gs', rfl⟩

/-- The read buffer can hold every frame of the stream that also fits the head buffer. -/
def SmallOk (cf : RConf) (s : List Byte) : Prop :=
  ∀ fs r, Dec s fs r → ∀ f ∈ fs, 4 + f.2.length ≤ headCap → cf.accept (4 + f.2.length) = true

theorem SmallOk.mono {cf : RConf} {s t : List Byte} (h : SmallOk cf (s ++ t)) : SmallOk cf s := by
  intro fs r hd f hf hl
  obtain ⟨gs, r2, hg⟩ := Dec.total (r ++ t)
  exact h _ _ (hd.append hg) f (List.mem_append_left _ hf) hl

/-- No header of the stream announces a length that overflows. -/
def NoWrap (s : List Byte) : Prop := ∀ fs r, Dec s fs r → wraps r = false

theorem NoWrap.mono {s t : List Byte} (h : NoWrap (s ++ t)) : NoWrap s := by
  intro fs r hd
  cases hw : wraps r with
  | false => rfl
  | true =>
    unfold wraps at hw
    cases hh : header r with
    | none => rw [hh] at hw; cases hw
    | some p =>
      obtain ⟨v, l⟩ := p
      rw [hh] at hw
      have hge := of_decide_eq_true hw
      have hn : decode1 (r ++ t) = none := by
        unfold decode1; rw [header_append t hh]; simp only; rw [if_pos (Or.inr hge)]
      have := h _ _ (hd.append (.stop hn))
      unfold wraps at this
      rw [header_append t hh] at this
      simp only [decide_eq_false_iff_not] at this
      exact absurd hge this

theorem process_one (cf : RConf) (h : Hash) (hf bf : Nat) (f : Fr) (ha : cf.accept (4 + f.2.length) = true) :
    process cf h hf bf [f] =
      if (verdict cf h f = Err.BAD_DATA ∧ (if verdict cf h f = Err.BAD_DATA then hf + 1 else hf) > cf.maxHash) ∨
          (verdict cf h f = Err.INVALID_SIZE ∧ (if verdict cf h f = Err.INVALID_SIZE then bf + 1 else bf) > cf.maxBlock) then
        ([⟨verdict cf h f, f.2⟩], (if verdict cf h f = Err.BAD_DATA then hf + 1 else hf),
          (if verdict cf h f = Err.INVALID_SIZE then bf + 1 else bf), true)
      else ([⟨verdict cf h f, f.2⟩], (if verdict cf h f = Err.BAD_DATA then hf + 1 else hf),
          (if verdict cf h f = Err.INVALID_SIZE then bf + 1 else bf), false) := by
  simp only [process]
  rw [if_neg (by simp [ha])]

/-- One stretch of received bytes on an open connection. -/
theorem onData_ok (cf : RConf) (h : Hash) (hf0 bf0 : Nat)
    (st : RConn) (s : List Byte) (cbs0 : List Cb) (ho : Opened cf h hf0 bf0 st s cbs0) (c : List Byte)
    (hacc : SmallOk cf (s ++ c))
    (hc : c.length ≤ st.offered) (hw : ∀ fs r, Dec (s ++ c) fs r → wraps r = false) :
    ∃ st' cbs, onData cf h st c = some (st', cbs) ∧ st'.again = st.again ∧
      (Opened cf h hf0 bf0 st' (s ++ c) (cbs0 ++ cbs) ∨ Dropped cf h hf0 bf0 st' (s ++ c) (cbs0 ++ cbs)) := by
  obtain ⟨hcl, fs, r, hd, hp, hrest, hmem⟩ := ho
  have hp1 : (process cf h hf0 bf0 fs).2.2.2 = false := by rw [hp]
  rcases hrest with ⟨hb, hhead, hlen, hhn⟩ | ⟨hhead, v, l, hh, hnw, hlt, ha, hb⟩
  · -- the head buffer is in use
    have hph : st.headPhase = true := by unfold RConn.headPhase; rw [hb]; rfl
    have hoff : st.offered = headCap - r.length := by
      unfold RConn.offered; rw [hcl, hb, hhead]; simp
    rw [hoff] at hc
    obtain ⟨gs, r2, hg⟩ := Dec.total (r ++ c)
    have hdall := hd.append hg
    have hw2 := hw _ _ hdall
    have hlenb : (r ++ c).length ≤ headCap := by simp; omega
    have hgl := hg.length
    have hga : ∀ f ∈ gs, cf.accept (4 + f.2.length) = true := fun f hf =>
      hacc _ _ hdall f (List.mem_append_right _ hf) (by have := hgl.2 f hf; omega)
    unfold onData
    rw [hph]
    simp only [if_true]
    rw [hhead, headLoop_eq cf h hg _ st false (by simp) hw2]
    unfold headResult
    simp only [Bool.false_or]
    obtain ⟨j1, j2, e, j3⟩ := judgeAll_process cf h gs st.hashFail st.blockFail hga
    have jm := judgeAll_mem cf h gs st.hashFail st.blockFail
    generalize hJ : judgeAll cf h st.hashFail st.blockFail gs = J at j1 j2 j3 jm
    have hpa : process cf h hf0 bf0 (fs ++ gs) =
        (cbs0 ++ (process cf h st.hashFail st.blockFail gs).1, (process cf h st.hashFail st.blockFail gs).2) := by
      rw [process_append, if_neg (by rw [hp1]; simp), hp]
    have hmemJ : ∀ cb ∈ cbs0 ++ J.1, ∃ f ∈ fs ++ gs, cb = ⟨verdict cf h f, f.2⟩ := by
      intro cb hcb
      rcases List.mem_append.mp hcb with hcb | hcb
      · obtain ⟨f, hf, e⟩ := hmem cb hcb
        exact ⟨f, List.mem_append_left _ hf, e⟩
      · rw [jm] at hcb
        obtain ⟨f, hf, e⟩ := List.mem_map.mp hcb
        exact ⟨f, List.mem_append_right _ hf, e.symm⟩
    have hmemP : ∀ cb ∈ (process cf h hf0 bf0 (fs ++ gs)).1 ++ e, ∃ f ∈ fs ++ gs, cb = ⟨verdict cf h f, f.2⟩ := by
      intro cb hcb
      apply hmemJ
      rw [hpa] at hcb
      rw [j3]
      simpa [List.append_assoc] using hcb
    cases hhr : header r2 with
    | none =>
      simp only [deliverBlock, hb, Bool.or_false]
      cases hfat : J.2.2.2 with
      | false =>
        refine ⟨_, _, rfl, rfl, Or.inl ⟨hcl, fs ++ gs, r2, hdall, ?_, ?_, ?_⟩⟩
        · rw [hpa, j2 (by rw [j1, hfat])]
          simp [← hfat]
        · left
          exact ⟨rfl, rfl, by omega, hhr⟩
        · simpa using hmemJ
      | true =>
        refine ⟨_, _, rfl, rfl, Or.inr ⟨rfl, fs ++ gs, r2, e, if r2.length > 0 then [⟨Err.INVALID_SIZE, r2⟩] else [], hdall, Or.inl ?_, ?_, hmemP, ?_⟩⟩
        · rw [hpa]; simp [j1, hfat]
        · rw [hpa, j3]; simp [List.append_assoc]
        · by_cases h0 : r2.length > 0
          · rw [if_pos h0]; exact Or.inr ⟨_, rfl⟩
          · rw [if_neg h0]; exact Or.inl rfl
    | some p =>
      obtain ⟨v, l⟩ := p
      simp only
      obtain ⟨g1, g2, g3, g4⟩ := header_some hhr
      have hnw : ¬ W64 ≤ 4 + l + v := by
        intro hge
        have : wraps r2 = true := by unfold wraps; rw [hhr]; exact decide_eq_true hge
        rw [this] at hw2; cases hw2
      have hlt : r2.length < 4 + l + v := by
        rcases decode1_none hg.rest with hn | ⟨v', l', hh', hlt⟩
        · rw [hhr] at hn; cases hn
        · rw [hhr] at hh'; cases hh'; omega
      by_cases ha : cf.accept (4 + v) = true
      · simp only [ha, if_true]
        have hdb : ∀ (x : RConn), x.bufs = [(r2.take 4 ++ r2.drop (4 + l), 4 + v)] → deliverBlock cf h x = some (x, [], false) := by
          intro x hx
          unfold deliverBlock
          rw [hx]
          simp only
          rw [if_neg (by simp; omega)]
        rw [hdb _ (by simp [hb])]
        simp only [Bool.or_false]
        cases hfat : J.2.2.2 with
        | false =>
          refine ⟨_, _, rfl, rfl, Or.inl ⟨hcl, fs ++ gs, r2, hdall, ?_, ?_, ?_⟩⟩
          · rw [hpa, j2 (by rw [j1, hfat])]
            simp [← hfat]
          · right
            exact ⟨rfl, v, l, hhr, by omega, hlt, ha, by simp [hb]⟩
          · simpa using hmemJ
        | true =>
          refine ⟨_, _, rfl, rfl, Or.inr ⟨rfl, fs ++ gs, r2, e, [], hdall, Or.inl ?_, ?_, hmemP, Or.inl rfl⟩⟩
          · rw [hpa]; simp [j1, hfat]
          · rw [hpa, j3]; simp [List.append_assoc]
      · simp only [ha, Bool.false_eq_true, if_false, deliverBlock, hb, Bool.or_false, if_true]
        refine ⟨_, _, rfl, rfl, Or.inr ⟨rfl, fs ++ gs, r2, e, if (r2.drop (4 + l)).length > 0 then [⟨Err.INVALID_SIZE, r2.drop (4 + l)⟩] else [], hdall, Or.inr ?_, ?_, hmemP, ?_⟩⟩
        · unfold tooLarge; rw [hhr]; simp [ha]
        · rw [hpa, j3]; simp [List.append_assoc]
        · by_cases h0 : (r2.drop (4 + l)).length > 0
          · rw [if_pos h0]; exact Or.inr ⟨_, rfl⟩
          · rw [if_neg h0]; exact Or.inl rfl
  · -- a block is being filled
    obtain ⟨g1, g2, g3, g4⟩ := header_some hh
    have hlb : (r.take 4 ++ r.drop (4 + l)).length = r.length - l := by simp; omega
    have hne : ((r.take 4 ++ r.drop (4 + l)).length == 4 + v) = false := by
      rw [hlb]; simp; omega
    have hph : st.headPhase = false := by unfold RConn.headPhase; rw [hb]; exact hne
    have hoff : st.offered = 4 + v - (r.length - l) := by
      unfold RConn.offered
      rw [hcl, hb]
      simp only [Bool.false_eq_true, if_false, List.getLast?_singleton, hlb]
      rw [if_neg (by omega)]
    rw [hoff] at hc
    unfold onData
    rw [hph, hb]
    simp only [Bool.false_eq_true, if_false, List.getLast?_singleton, hlb]
    rw [if_pos (by omega)]
    simp only [List.dropLast_singleton, List.nil_append]
    have hh2 := header_append c hh
    have et : (r ++ c).take 4 = r.take 4 := List.take_append_of_le_length (by omega)
    have edr : (r ++ c).drop (4 + l) = r.drop (4 + l) ++ c := List.drop_append_of_le_length (by omega)
    by_cases hfull : r.length + c.length = 4 + l + v
    · have hd1 : decode1 (r ++ c) = some ((r.take 4, r.drop (4 + l) ++ c), []) := by
        rw [decode1_of hh2 (by simp; omega) hnw, et, edr, List.take_of_length_le (l := r.drop (4 + l) ++ c) (by simp; omega),
          List.drop_of_length_le (l := r ++ c) (by simp; omega)]
      have hdn : decode1 ([] : List Byte) = none := by simp [decode1, header]
      have hg : Dec (r ++ c) [(r.take 4, r.drop (4 + l) ++ c)] [] := .more hd1 (.stop hdn)
      have hdall := hd.append hg
      have hdb : ∀ (x : RConn), x.bufs = [(r.take 4 ++ r.drop (4 + l) ++ c, 4 + v)] →
          deliverBlock cf h x = some ({ x with
              bufs := []
              hashFail := if verdict cf h (r.take 4, r.drop (4 + l) ++ c) = Err.BAD_DATA then x.hashFail + 1 else x.hashFail
              blockFail := if verdict cf h (r.take 4, r.drop (4 + l) ++ c) = Err.INVALID_SIZE then x.blockFail + 1 else x.blockFail },
            [⟨verdict cf h (r.take 4, r.drop (4 + l) ++ c), r.drop (4 + l) ++ c⟩],
            (judge cf h x (r.take 4) (r.drop (4 + l) ++ c)).2.2) := by
        intro x hx
        unfold deliverBlock
        rw [hx]
        simp only
        rw [if_pos (by simp only [List.length_append, List.length_take, List.length_drop]; omega)]
        rw [slice_some _ _ _ (by simp only [List.length_append, List.length_take, List.length_drop]; omega),
          slice_some _ _ _ (by simp only [List.length_append, List.length_take, List.length_drop]; omega)]
        have q1 : ((r.take 4 ++ r.drop (4 + l) ++ c).drop 0).take 4 = r.take 4 := by
          rw [List.drop_zero, List.append_assoc, List.take_append_of_le_length (by simp; omega), List.take_take, Nat.min_self]
        have q2 : ((r.take 4 ++ r.drop (4 + l) ++ c).drop 4).take (4 + v - 4) = r.drop (4 + l) ++ c := by
          rw [List.append_assoc, List.drop_append, List.drop_of_length_le (l := r.take 4) (by simp; omega)]
          have : 4 - (r.take 4).length = 0 := by simp; omega
          rw [this, List.nil_append, List.drop_zero, List.take_of_length_le (l := r.drop (4 + l) ++ c) (by simp; omega)]
        simp only [q1, q2]
        have := judge_eq cf h x (r.take 4, r.drop (4 + l) ++ c)
        simp only at this
        rw [this]
      rw [hdb _ rfl]
      simp only [Bool.false_or, List.nil_append]
      have hlenp : (r.drop (4 + l) ++ c).length = v := by simp; omega
      have hj := judge_eq cf h st (r.take 4, r.drop (4 + l) ++ c)
      have hj2 : ∀ b, judge cf h { st with bufs := b } (r.take 4) (r.drop (4 + l) ++ c) =
          ({ (judge cf h st (r.take 4) (r.drop (4 + l) ++ c)).1 with bufs := b },
            (judge cf h st (r.take 4) (r.drop (4 + l) ++ c)).2) := by
        intro b
        unfold judge
        split
        · rfl
        · split <;> rfl
      rw [hj2]
      simp only at hj
      simp only [hj]
      have hpa : process cf h hf0 bf0 (fs ++ [(r.take 4, r.drop (4 + l) ++ c)]) =
          (cbs0 ++ (process cf h st.hashFail st.blockFail [(r.take 4, r.drop (4 + l) ++ c)]).1,
            (process cf h st.hashFail st.blockFail [(r.take 4, r.drop (4 + l) ++ c)]).2) := by
        rw [process_append, if_neg (by rw [hp1]; simp), hp]
      have hp3 := process_one cf h st.hashFail st.blockFail (r.take 4, r.drop (4 + l) ++ c) (by rw [hlenp]; exact ha)
      generalize hV : verdict cf h (r.take 4, r.drop (4 + l) ++ c) = V at *
      have hmem' : ∀ cb ∈ cbs0 ++ [⟨V, r.drop (4 + l) ++ c⟩],
          ∃ f ∈ fs ++ [(r.take 4, r.drop (4 + l) ++ c)], cb = ⟨verdict cf h f, f.2⟩ := by
        intro cb hcb
        rcases List.mem_append.mp hcb with hcb | hcb
        · obtain ⟨f, hf, e⟩ := hmem cb hcb
          exact ⟨f, List.mem_append_left _ hf, e⟩
        · refine ⟨(r.take 4, r.drop (4 + l) ++ c), by simp, ?_⟩
          rw [hV]; simpa using hcb
      generalize (if V = Err.BAD_DATA then st.hashFail + 1 else st.hashFail) = hf' at *
      generalize (if V = Err.INVALID_SIZE then st.blockFail + 1 else st.blockFail) = bf' at *
      by_cases hfat : (V = Err.BAD_DATA ∧ hf' > cf.maxHash) ∨ (V = Err.INVALID_SIZE ∧ bf' > cf.maxBlock)
      · rw [if_pos hfat] at hp3
        simp only [hfat, decide_true, if_true, hhead]
        refine ⟨_, _, rfl, rfl, Or.inr ⟨rfl, _, [], [], [], hdall, Or.inl ?_, ?_, ?_, Or.inl rfl⟩⟩
        · rw [hpa, hp3]
        · rw [hpa, hp3]; simp
        · rw [hpa, hp3]; simpa using hmem'
      · rw [if_neg hfat] at hp3
        simp only [hfat, decide_false, Bool.false_eq_true, if_false]
        refine ⟨_, _, rfl, rfl, Or.inl ⟨hcl, _, [], hdall, ?_, Or.inl ⟨rfl, hhead, by simp, by simp [header]⟩, by simpa using hmem'⟩⟩
        rw [hpa, hp3]
    · have hd1 : decode1 (r ++ c) = none := by
        unfold decode1; rw [hh2]; simp only; rw [if_pos (by simp; omega)]
      have hdall := hd.append (.stop hd1)
      have hdb : ∀ (x : RConn), x.bufs = [(r.take 4 ++ r.drop (4 + l) ++ c, 4 + v)] → deliverBlock cf h x = some (x, [], false) := by
        intro x hx
        unfold deliverBlock
        rw [hx]
        simp only
        rw [if_neg (by simp only [List.length_append, List.length_take, List.length_drop]; omega)]
      rw [hdb _ rfl]
      simp only [Bool.false_or, Bool.false_eq_true, if_false, List.append_nil]
      refine ⟨_, _, rfl, rfl, Or.inl ⟨hcl, _, _, hdall, by simpa using hp, Or.inr ⟨hhead, v, l, hh2, hnw, by simp; omega, ha, ?_⟩, by simpa using hmem⟩⟩
      rw [et, edr, List.append_assoc]

end Verif.IoStream
