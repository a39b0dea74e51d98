import Verif.IoStream.RecvInv

/-! Whole runs of the receiving half. -/
namespace Verif.IoStream
set_option maxRecDepth 10000
open Vint

/-- Number of "nothing to read" events. -/
def agains : List REv → Nat
  | [] => 0
  | .again :: es => agains es + 1
  | _ :: es => agains es

theorem Dropped.extend {cf : RConf} {h : Hash} {hf0 bf0 : Nat} {st : RConn} {s : List Byte} {cbs : List Cb}
    (hd : Dropped cf h hf0 bf0 st s cbs) (t : List Byte) : Dropped cf h hf0 bf0 st (s ++ t) cbs := by
  obtain ⟨hc, fs, r, more, left, hdec, hf, he, hm, hl⟩ := hd
  obtain ⟨fs', r', hd'⟩ := Dec.total (s ++ t)
  obtain ⟨m1, m2, gs, m3⟩ := hf.mono hdec hd'
  refine ⟨hc, fs', r', more, left, hd', m1, by rw [m2]; exact he, ?_, hl⟩
  rw [m2]
  intro cb hcb
  obtain ⟨f, hf, e⟩ := hm cb hcb
  exact ⟨f, by rw [m3]; exact List.mem_append_left _ hf, e⟩

theorem Opened.again {cf : RConf} {h : Hash} {hf0 bf0 : Nat} {st : RConn} {s : List Byte} {cbs : List Cb}
    (ho : Opened cf h hf0 bf0 st s cbs) (n : Nat) :
    Opened cf h hf0 bf0 { st with again := n, closed := false } s cbs := by
  obtain ⟨_, fs, r, hd, hp, hr, hm⟩ := ho
  exact ⟨rfl, fs, r, hd, hp, hr, hm⟩

theorem rrun_ok (cf : RConf) (h : Hash) (hf0 bf0 : Nat) (es : List REv) : ∀ (st : RConn) (s : List Byte) (c0 : List Cb),
    Opened cf h hf0 bf0 st s c0 ∨ Dropped cf h hf0 bf0 st s c0 → Legal cf h st es → REv.fail ∉ es →
    (st.closed = true ∨ st.again + agains es ≤ cf.maxAgain) → NoWrap (s ++ received es) → SmallOk cf (s ++ received es) →
    ∃ st' cbs, rrun cf h st es = some (st', cbs) ∧
      (Opened cf h hf0 bf0 st' (s ++ received es) (c0 ++ cbs) ∨ Dropped cf h hf0 bf0 st' (s ++ received es) (c0 ++ cbs)) := by
  induction es with
  | nil =>
    intro st s c0 hi _ _ _ _ _
    exact ⟨st, [], rfl, by simpa [received] using hi⟩
  | cons e es ih =>
    intro st s c0 hi hl hnf hag hw hsm
    have hnf' : REv.fail ∉ es := fun hh => hnf (List.mem_cons_of_mem _ hh)
    simp only [rrun]
    rcases hi with ho | hdr
    · have hcl := ho.opened
      cases e with
      | fail => exact absurd (List.mem_cons_self ..) hnf
      | again =>
        have hag' : st.again + 1 + agains es ≤ cf.maxAgain := by
          rcases hag with hag | hag
          · rw [hcl] at hag; cases hag
          · simp only [agains] at hag; omega
        have hs : rstep cf h st .again = some ({ st with again := st.again + 1, closed := false }, []) := by
          simp only [rstep, hcl, Bool.false_eq_true, if_false]
          rw [decide_eq_false (by omega)]
        obtain ⟨st', cbs, hr, hfin⟩ := ih _ s c0 (Or.inl (ho.again (st.again + 1))) (hl.2 _ hs) hnf'
          (Or.inr (by simpa using hag')) hw hsm
        refine ⟨st', cbs, ?_, hfin⟩
        rw [hs]
        simp only [Option.bind_eq_bind, Option.bind_some, hr, List.nil_append]
      | data c =>
        have hlc := hl.1
        simp only [hcl, Bool.false_eq_true, false_or] at hlc
        simp only [received, ← List.append_assoc] at hw hsm ⊢
        obtain ⟨st1, cbs1, he, hagn, hinv⟩ := onData_ok cf h hf0 bf0 st s c0 ho c hsm.mono hlc.2 hw.mono
        have hs : rstep cf h st (.data c) = some (st1, cbs1) := by
          simp only [rstep, hcl, Bool.false_eq_true, if_false]
          rw [if_neg (by simpa using hlc.1), he]
        have hag' : st1.closed = true ∨ st1.again + agains es ≤ cf.maxAgain := by
          right
          rcases hag with hag | hag
          · rw [hcl] at hag; cases hag
          · rw [hagn]; exact hag
        obtain ⟨st', cbs, hr, hfin⟩ := ih st1 (s ++ c) (c0 ++ cbs1) hinv (hl.2 _ hs) hnf' hag' hw hsm
        refine ⟨st', cbs1 ++ cbs, ?_, by simpa [List.append_assoc] using hfin⟩
        rw [hs]
        simp only [Option.bind_eq_bind, Option.bind_some, hr]
    · have hcl := hdr.closed
      have hs : rstep cf h st e = some (st, []) := by simp [rstep, hcl]
      have hrec : received (e :: es) = received [e] ++ received es := by
        cases e <;> simp [received]
      rw [hrec, ← List.append_assoc] at hw hsm ⊢
      obtain ⟨st', cbs, hr, hfin⟩ := ih st (s ++ received [e]) c0 (Or.inr (hdr.extend _)) (hl.2 _ hs) hnf' (Or.inl hcl) hw hsm
      refine ⟨st', cbs, ?_, hfin⟩
      rw [hs]
      simp only [Option.bind_eq_bind, Option.bind_some, hr, List.nil_append]

theorem opened_init (cf : RConf) (h : Hash) (hf0 bf0 ag : Nat) : Opened cf h hf0 bf0 (rinit hf0 bf0 ag) [] [] := by
  refine ⟨rfl, [], [], .stop (by simp [decode1, header]), rfl, Or.inl ⟨rfl, rfl, by simp, by simp [header]⟩, by simp⟩

/-! ### Safety on any stream -/

/-- What holds of a connection whatever is received. -/
structure SafeI (cf : RConf) (h : Hash) (hf0 bf0 : Nat) (st : RConn) (s : List Byte) (cbs : List Cb) : Prop where
  good : ∃ fs r, Dec s fs r ∧
    (∀ cb ∈ cbs, cb.code = Err.SUCCESS → ∃ f ∈ fs, cb.data = f.2 ∧ verdict cf h f = Err.SUCCESS) ∧
    (st.closed = false → Rest cf st r ∧
      st.hashFail = hf0 + cbs.countP (fun c => c.code == Err.BAD_DATA) ∧
      st.blockFail = bf0 + cbs.countP (fun c => c.code == Err.INVALID_SIZE) ∧
      (st.hashFail = hf0 ∨ st.hashFail ≤ cf.maxHash) ∧ (st.blockFail = bf0 ∨ st.blockFail ≤ cf.maxBlock))

theorem judgeAll_counts (cf : RConf) (h : Hash) (fs : List Fr) : ∀ hf bf,
    (judgeAll cf h hf bf fs).2.1 = hf + (judgeAll cf h hf bf fs).1.countP (fun c => c.code == Err.BAD_DATA) ∧
    (judgeAll cf h hf bf fs).2.2.1 = bf + (judgeAll cf h hf bf fs).1.countP (fun c => c.code == Err.INVALID_SIZE) ∧
    ((judgeAll cf h hf bf fs).2.2.2 = false →
      ((judgeAll cf h hf bf fs).2.1 = hf ∨ (judgeAll cf h hf bf fs).2.1 ≤ cf.maxHash) ∧
      ((judgeAll cf h hf bf fs).2.2.1 = bf ∨ (judgeAll cf h hf bf fs).2.2.1 ≤ cf.maxBlock)) := by
  have n1 : Err.BAD_DATA ≠ Err.INVALID_SIZE := by decide
  induction fs with
  | nil => intro hf bf; simp [judgeAll]
  | cons f fs ih =>
    intro hf bf
    simp only [judgeAll, List.countP_cons]
    by_cases h1 : verdict cf h f = Err.BAD_DATA
    · have h2 : ¬ verdict cf h f = Err.INVALID_SIZE := by rw [h1]; exact n1
      simp only [h1, n1, if_true, if_false, true_and, false_and, or_false, beq_self_eq_true]
      obtain ⟨i1, i2, i3⟩ := ih (hf + 1) bf
      have hn : (Err.BAD_DATA == Err.INVALID_SIZE) = false := by decide
      simp only [hn, Bool.false_eq_true, if_false]
      refine ⟨by omega, by omega, ?_⟩
      intro hb
      simp only [Bool.or_eq_false_iff, decide_eq_false_iff_not] at hb
      have := i3 hb.2
      omega
    · have hb1 : (verdict cf h f == Err.BAD_DATA) = false := by simpa using h1
      by_cases h2 : verdict cf h f = Err.INVALID_SIZE
      · simp only [h2, n1.symm, if_true, if_false, true_and, false_and, false_or, beq_self_eq_true]
        have hn : (Err.INVALID_SIZE == Err.BAD_DATA) = false := by decide
        simp only [hn, Bool.false_eq_true, if_false]
        obtain ⟨i1, i2, i3⟩ := ih hf (bf + 1)
        refine ⟨by omega, by omega, ?_⟩
        intro hb
        simp only [Bool.or_eq_false_iff, decide_eq_false_iff_not] at hb
        have := i3 hb.2
        omega
      · have hb2 : (verdict cf h f == Err.INVALID_SIZE) = false := by simpa using h2
        simp only [h1, h2, hb1, hb2, if_false, false_and, or_self, decide_false, Bool.false_or,
          Bool.false_eq_true, Nat.add_zero]
        exact ih hf bf

/-- The verdict of a single frame, in terms of `judgeAll`. -/
theorem judge_all (cf : RConf) (h : Hash) (st : RConn) (f : Fr) :
    judge cf h st f.1 f.2 =
      ({ st with
          hashFail := (judgeAll cf h st.hashFail st.blockFail [f]).2.1
          blockFail := (judgeAll cf h st.hashFail st.blockFail [f]).2.2.1 },
        verdict cf h f, (judgeAll cf h st.hashFail st.blockFail [f]).2.2.2) := by
  rw [judge_eq]
  simp [judgeAll]

theorem onData_safe (cf : RConf) (h : Hash) (hf0 bf0 : Nat)
    (st : RConn) (s : List Byte) (cbs0 : List Cb) (hi : SafeI cf h hf0 bf0 st s cbs0) (hcl : st.closed = false) (c : List Byte)
    (hc : c.length ≤ st.offered) (hw : NoWrap (s ++ c)) :
    ∃ st' cbs, onData cf h st c = some (st', cbs) ∧ SafeI cf h hf0 bf0 st' (s ++ c) (cbs0 ++ cbs) := by
  obtain ⟨fs, r, hd, hmem, hop⟩ := hi
  obtain ⟨hrest, k1, k2, k3, k4⟩ := hop hcl
  rcases hrest with ⟨hb, hhead, hlen, hhn⟩ | ⟨hhead, v, l, hh, hnw, hlt, ha, hb⟩
  · have hph : st.headPhase = true := by unfold RConn.headPhase; rw [hb]; rfl
    have hoff : st.offered = headCap - r.length := by
      unfold RConn.offered; rw [hcl, hb, hhead]; simp
    rw [hoff] at hc
    obtain ⟨gs, r2, hg⟩ := Dec.total (r ++ c)
    have hdall := hd.append hg
    have hw2 := hw _ _ hdall
    have hlenb : (r ++ c).length ≤ headCap := by simp; omega
    have hgl := hg.length
    unfold onData
    rw [hph]
    simp only [if_true]
    rw [hhead, headLoop_eq cf h hg _ st false (by simp) hw2]
    unfold headResult
    simp only [Bool.false_or]
    have jm := judgeAll_mem cf h gs st.hashFail st.blockFail
    obtain ⟨c1, c2, c3⟩ := judgeAll_counts cf h gs st.hashFail st.blockFail
    generalize hJ : judgeAll cf h st.hashFail st.blockFail gs = J at jm c1 c2 c3
    have hmemJ : ∀ cb ∈ cbs0 ++ J.1, cb.code = Err.SUCCESS → ∃ f ∈ fs ++ gs, cb.data = f.2 ∧ verdict cf h f = Err.SUCCESS := by
      intro cb hcb hco
      rcases List.mem_append.mp hcb with hcb | hcb
      · obtain ⟨f, hf, e⟩ := hmem cb hcb hco
        exact ⟨f, List.mem_append_left _ hf, e⟩
      · rw [jm] at hcb
        obtain ⟨f, hf, e⟩ := List.mem_map.mp hcb
        subst e
        exact ⟨f, List.mem_append_right _ hf, rfl, hco⟩
    have hmemL : ∀ d cb, cb ∈ (cbs0 ++ J.1) ++ [(⟨Err.INVALID_SIZE, d⟩ : Cb)] → cb.code = Err.SUCCESS →
        ∃ f ∈ fs ++ gs, cb.data = f.2 ∧ verdict cf h f = Err.SUCCESS := by
      intro d cb hcb hco
      rcases List.mem_append.mp hcb with hcb | hcb
      · exact hmemJ cb hcb hco
      · simp only [List.mem_singleton] at hcb
        subst hcb
        exact absurd (show Err.INVALID_SIZE = Err.SUCCESS from hco) (by decide)
    have hcnt : J.2.2.2 = false →
        J.2.1 = hf0 + (cbs0 ++ J.1).countP (fun c => c.code == Err.BAD_DATA) ∧
        J.2.2.1 = bf0 + (cbs0 ++ J.1).countP (fun c => c.code == Err.INVALID_SIZE) ∧
        (J.2.1 = hf0 ∨ J.2.1 ≤ cf.maxHash) ∧ (J.2.2.1 = bf0 ∨ J.2.2.1 ≤ cf.maxBlock) := by
      intro hf
      have := c3 hf
      simp only [List.countP_append]
      omega
    cases hhr : header r2 with
    | none =>
      simp only [deliverBlock, hb, Bool.or_false]
      cases hfat : J.2.2.2 with
      | false =>
        refine ⟨_, _, rfl, fs ++ gs, r2, hdall, by simpa using hmemJ, fun _ => ⟨Or.inl ⟨rfl, rfl, by omega, hhr⟩, ?_⟩⟩
        simpa using hcnt hfat
      | true =>
        refine ⟨_, _, rfl, fs ++ gs, r2, hdall, ?_, fun hh => by cases hh⟩
        simp only [List.append_nil]
        rw [← List.append_assoc]
        by_cases h0 : r2.length > 0
        · rw [if_pos h0]; exact hmemL _
        · rw [if_neg h0]; simpa using hmemJ
    | some p =>
      obtain ⟨v, l⟩ := p
      simp only
      obtain ⟨g1, g2, g3, g4⟩ := header_some hhr
      have hnw : ¬ W64 ≤ 4 + l + v := by
        intro hge
        have : wraps r2 = true := by unfold wraps; rw [hhr]; exact decide_eq_true hge
        rw [this] at hw2; cases hw2
      have hlt : r2.length < 4 + l + v := by
        rcases decode1_none hg.rest with hn | ⟨v', l', hh', hlt⟩
        · rw [hhr] at hn; cases hn
        · rw [hhr] at hh'; cases hh'; omega
      by_cases ha : cf.accept (4 + v) = true
      · simp only [ha, if_true]
        have hdb : ∀ (x : RConn), x.bufs = [(r2.take 4 ++ r2.drop (4 + l), 4 + v)] → deliverBlock cf h x = some (x, [], false) := by
          intro x hx
          unfold deliverBlock
          rw [hx]
          simp only
          rw [if_neg (by simp; omega)]
        rw [hdb _ (by simp [hb])]
        simp only [Bool.or_false]
        cases hfat : J.2.2.2 with
        | false =>
          refine ⟨_, _, rfl, fs ++ gs, r2, hdall, by simpa using hmemJ, fun _ => ⟨Or.inr ⟨rfl, v, l, hhr, by omega, hlt, ha, by simp [hb]⟩, ?_⟩⟩
          simpa using hcnt hfat
        | true =>
          refine ⟨_, _, rfl, fs ++ gs, r2, hdall, by simpa using hmemJ, fun hh => by cases hh⟩
      · simp only [ha, Bool.false_eq_true, if_false, deliverBlock, hb, Bool.or_false, if_true]
        refine ⟨_, _, rfl, fs ++ gs, r2, hdall, ?_, fun hh => by cases hh⟩
        simp only [List.append_nil]
        rw [← List.append_assoc]
        by_cases h0 : (r2.drop (4 + l)).length > 0
        · rw [if_pos h0]; exact hmemL _
        · rw [if_neg h0]; simpa using hmemJ
  · obtain ⟨g1, g2, g3, g4⟩ := header_some hh
    have hlb : (r.take 4 ++ r.drop (4 + l)).length = r.length - l := by simp; omega
    have hne : ((r.take 4 ++ r.drop (4 + l)).length == 4 + v) = false := by
      rw [hlb]; simp; omega
    have hph : st.headPhase = false := by unfold RConn.headPhase; rw [hb]; exact hne
    have hoff : st.offered = 4 + v - (r.length - l) := by
      unfold RConn.offered
      rw [hcl, hb]
      simp only [Bool.false_eq_true, if_false, List.getLast?_singleton, hlb]
      rw [if_neg (by omega)]
    rw [hoff] at hc
    unfold onData
    rw [hph, hb]
    simp only [Bool.false_eq_true, if_false, List.getLast?_singleton, hlb]
    rw [if_pos (by omega)]
    simp only [List.dropLast_singleton, List.nil_append]
    have hh2 := header_append c hh
    have et : (r ++ c).take 4 = r.take 4 := List.take_append_of_le_length (by omega)
    have edr : (r ++ c).drop (4 + l) = r.drop (4 + l) ++ c := List.drop_append_of_le_length (by omega)
    by_cases hfull : r.length + c.length = 4 + l + v
    · have hd1 : decode1 (r ++ c) = some ((r.take 4, r.drop (4 + l) ++ c), []) := by
        rw [decode1_of hh2 (by simp; omega) hnw, et, edr, List.take_of_length_le (l := r.drop (4 + l) ++ c) (by simp; omega),
          List.drop_of_length_le (l := r ++ c) (by simp; omega)]
      have hdn : decode1 ([] : List Byte) = none := by simp [decode1, header]
      have hg : Dec (r ++ c) [(r.take 4, r.drop (4 + l) ++ c)] [] := .more hd1 (.stop hdn)
      have hdall := hd.append hg
      have q1 : slice (r.take 4 ++ r.drop (4 + l) ++ c) 0 4 = some (r.take 4) := by
        rw [slice_some _ _ _ (by simp only [List.length_append, List.length_take, List.length_drop]; omega),
          List.drop_zero, List.append_assoc, List.take_append_of_le_length (by simp; omega), List.take_take, Nat.min_self]
      have q2 : slice (r.take 4 ++ r.drop (4 + l) ++ c) 4 (4 + v - 4) = some (r.drop (4 + l) ++ c) := by
        rw [slice_some _ _ _ (by simp only [List.length_append, List.length_take, List.length_drop]; omega),
          List.append_assoc, List.drop_append, List.drop_of_length_le (l := r.take 4) (by simp; omega)]
        have : 4 - (r.take 4).length = 0 := by simp; omega
        rw [this, List.nil_append, List.drop_zero, List.take_of_length_le (l := r.drop (4 + l) ++ c) (by simp; omega)]
      have hj := judge_all cf h { st with bufs := [(r.take 4 ++ r.drop (4 + l) ++ c, 4 + v)] } (r.take 4, r.drop (4 + l) ++ c)
      have jm := judgeAll_mem cf h [(r.take 4, r.drop (4 + l) ++ c)] st.hashFail st.blockFail
      obtain ⟨c1, c2, c3⟩ := judgeAll_counts cf h [(r.take 4, r.drop (4 + l) ++ c)] st.hashFail st.blockFail
      simp only at hj
      unfold deliverBlock
      simp only
      rw [if_pos (by simp only [List.length_append, List.length_take, List.length_drop]; omega), q1, q2]
      simp only [hj, Bool.false_or, List.nil_append]
      generalize judgeAll cf h st.hashFail st.blockFail [(r.take 4, r.drop (4 + l) ++ c)] = J at jm c1 c2 c3
      simp only [List.map_cons, List.map_nil] at jm
      have hmem' : ∀ cb ∈ cbs0 ++ [(⟨verdict cf h (r.take 4, r.drop (4 + l) ++ c), r.drop (4 + l) ++ c⟩ : Cb)], cb.code = Err.SUCCESS →
          ∃ f ∈ fs ++ [(r.take 4, r.drop (4 + l) ++ c)], cb.data = f.2 ∧ verdict cf h f = Err.SUCCESS := by
        intro cb hcb hco
        rcases List.mem_append.mp hcb with hcb | hcb
        · obtain ⟨f, hf, e⟩ := hmem cb hcb hco
          exact ⟨f, List.mem_append_left _ hf, e⟩
        · simp only [List.mem_singleton] at hcb
          subst hcb
          exact ⟨(r.take 4, r.drop (4 + l) ++ c), by simp, rfl, hco⟩
      cases hfat : J.2.2.2 with
      | true =>
        simp only [if_true, hhead, List.length_nil, gt_iff_lt, Nat.lt_irrefl, if_false, List.append_nil]
        exact ⟨_, _, rfl, _, [], hdall, hmem', fun hh => by cases hh⟩
      | false =>
        simp only [Bool.false_eq_true, if_false]
        refine ⟨_, _, rfl, _, [], hdall, hmem', fun _ => ⟨Or.inl ⟨rfl, hhead, by simp, by simp [header]⟩, ?_⟩⟩
        have := c3 hfat
        rw [← jm]
        simp only [List.countP_append]
        omega
    · have hd1 : decode1 (r ++ c) = none := by
        unfold decode1; rw [hh2]; simp only; rw [if_pos (by simp; omega)]
      have hdall := hd.append (.stop hd1)
      have hdb : ∀ (x : RConn), x.bufs = [(r.take 4 ++ r.drop (4 + l) ++ c, 4 + v)] → deliverBlock cf h x = some (x, [], false) := by
        intro x hx
        unfold deliverBlock
        rw [hx]
        simp only
        rw [if_neg (by simp only [List.length_append, List.length_take, List.length_drop]; omega)]
      rw [hdb _ rfl]
      simp only [Bool.false_or, Bool.false_eq_true, if_false, List.append_nil]
      refine ⟨_, _, rfl, _, _, hdall, by simpa using hmem, fun _ => ⟨Or.inr ⟨hhead, v, l, hh2, hnw, by simp; omega, ha, ?_⟩, by simpa using ⟨k1, k2, k3, k4⟩⟩⟩
      rw [et, edr, List.append_assoc]

theorem SafeI.extend {cf : RConf} {h : Hash} {hf0 bf0 : Nat} {st : RConn} {s : List Byte} {cbs : List Cb}
    (hi : SafeI cf h hf0 bf0 st s cbs) (hc : st.closed = true) (t : List Byte) : SafeI cf h hf0 bf0 st (s ++ t) cbs := by
  obtain ⟨fs, r, hd, hm, _⟩ := hi
  obtain ⟨gs, r2, hg⟩ := Dec.total (r ++ t)
  refine ⟨fs ++ gs, r2, hd.append hg, ?_, fun hh => by rw [hc] at hh; cases hh⟩
  intro cb hcb hco
  obtain ⟨f, hf, e⟩ := hm cb hcb hco
  exact ⟨f, List.mem_append_left _ hf, e⟩

theorem rstep_safe (cf : RConf) (h : Hash) (hf0 bf0 : Nat) (st : RConn) (s : List Byte) (c0 : List Cb)
    (hi : SafeI cf h hf0 bf0 st s c0) (e : REv)
    (hl : match e with
      | .data c => st.closed = true ∨ (c ≠ [] ∧ c.length ≤ st.offered)
      | _ => True)
    (hw : NoWrap (s ++ received [e])) :
    ∃ st' cbs, rstep cf h st e = some (st', cbs) ∧ SafeI cf h hf0 bf0 st' (s ++ received [e]) (c0 ++ cbs) := by
  cases hcl : st.closed with
  | true => exact ⟨st, [], by simp [rstep, hcl], by simpa using hi.extend hcl _⟩
  | false =>
    cases e with
    | fail =>
      refine ⟨_, _, by simp only [rstep, hcl, Bool.false_eq_true, if_false]; rfl, ?_⟩
      obtain ⟨fs, r, hd, hm, _⟩ := hi
      refine ⟨fs, r, by simpa [received] using hd, ?_, fun hh => by cases hh⟩
      intro cb hcb hco
      rcases List.mem_append.mp hcb with hcb | hcb
      · exact hm cb hcb hco
      · simp only [List.mem_singleton] at hcb
        subst hcb
        exact absurd (show Err.READ_FAILED = Err.SUCCESS from hco) (by decide)
    | again =>
      refine ⟨_, _, by simp only [rstep, hcl, Bool.false_eq_true, if_false]; rfl, ?_⟩
      obtain ⟨fs, r, hd, hm, ho⟩ := hi
      refine ⟨fs, r, by simpa [received] using hd, by simpa using hm, fun _ => ?_⟩
      simp only [List.append_nil]
      exact ho hcl
    | data c =>
      simp only [hcl, Bool.false_eq_true, false_or] at hl
      have hw' : NoWrap (s ++ c) := by simpa [received] using hw
      obtain ⟨st1, cbs1, he, hinv⟩ := onData_safe cf h hf0 bf0 st s c0 hi hcl c hl.2 hw'
      refine ⟨st1, cbs1, ?_, by simpa [received] using hinv⟩
      simp only [rstep, hcl, Bool.false_eq_true, if_false]
      rw [if_neg (by simpa using hl.1), he]

theorem rrun_safe (cf : RConf) (h : Hash) (hf0 bf0 : Nat) (es : List REv) : ∀ (st : RConn) (s : List Byte) (c0 : List Cb),
    SafeI cf h hf0 bf0 st s c0 → Legal cf h st es → NoWrap (s ++ received es) →
    ∃ st' cbs, rrun cf h st es = some (st', cbs) ∧ SafeI cf h hf0 bf0 st' (s ++ received es) (c0 ++ cbs) := by
  induction es with
  | nil =>
    intro st s c0 hi _ _
    exact ⟨st, [], rfl, by simpa [received] using hi⟩
  | cons e es ih =>
    intro st s c0 hi hl hw
    have hrec : received (e :: es) = received [e] ++ received es := by
      cases e <;> simp [received]
    rw [hrec, ← List.append_assoc] at hw ⊢
    obtain ⟨st1, cbs1, hs, hinv⟩ := rstep_safe cf h hf0 bf0 st s c0 hi e hl.1 hw.mono
    obtain ⟨st', cbs, hr, hfin⟩ := ih st1 _ _ hinv (hl.2 _ hs) hw
    refine ⟨st', cbs1 ++ cbs, ?_, by simpa [List.append_assoc] using hfin⟩
    simp only [rrun]
    rw [hs]
    simp only [Option.bind_eq_bind, Option.bind_some, hr]

theorem safe_init (cf : RConf) (h : Hash) (hf0 bf0 ag : Nat) : SafeI cf h hf0 bf0 (rinit hf0 bf0 ag) [] [] := by
  refine ⟨[], [], .stop (by simp [decode1, header]), by simp, fun _ => ⟨Or.inl ⟨rfl, rfl, by simp, by simp [header]⟩, ?_⟩⟩
  simp [rinit]

end Verif.IoStream
