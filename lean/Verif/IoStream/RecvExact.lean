import Verif.IoStream.RecvRun

/-!
A run of the receiver is defined exactly as long as no length that overflows 64 bits has arrived on the open connection.
-/
namespace Verif.IoStream
open Vint

theorem headLoop_wrap (cf : RConf) (h : Hash) {b : List Byte} {fs : List Fr} {r : List Byte} (hd : Dec b fs r) :
    ∀ (fuel : Nat) (st : RConn) (free : Bool), wraps r = true → headLoop cf h fuel st b free = none := by
  induction hd with
  | @stop s hs =>
    intro fuel st free hw
    cases fuel with
    | zero => rfl
    | succ fuel =>
      unfold wraps at hw
      cases hh : header s with
      | none => rw [hh] at hw; cases hw
      | some p =>
        obtain ⟨v, l⟩ := p
        rw [hh] at hw
        have hge : 4 + l + v ≥ W64 := by simpa using hw
        obtain ⟨h1, h2, h3, h4⟩ := header_some hh
        unfold headLoop
        rw [if_neg (by omega : ¬ s.length ≤ 4), h2]
        simp only [if_neg h3, if_pos hge]
  | @more s s' r f fs hs hd ih =>
    intro fuel st free hw
    cases fuel with
    | zero => rfl
    | succ fuel =>
      obtain ⟨v, l, hh, hle, hnw, hf', hs'⟩ := decode1_some hs
      obtain ⟨h1, h2, h3, h4⟩ := header_some hh
      have hnw' : ¬ (4 + l + v ≥ W64) := by omega
      have e1 : slice s 0 4 = some f.1 := by
        rw [slice_some _ _ _ (by omega), hf']; simp
      have e2 : slice s (4 + l) v = some f.2 := by
        rw [slice_some _ _ _ (by omega), hf']
      unfold headLoop
      rw [if_neg (by omega : ¬ s.length ≤ 4), h2]
      simp only [if_neg h3, if_neg hnw', if_pos (show s.length ≥ 4 + l + v from hle), e1, e2]
      rw [judge_eq]
      simp only
      rw [← hs', ih fuel _ _ hw]

/-- If a read does not run into undefined behaviour, no length in the bytes so far overflows. -/
theorem onData_noWrap (cf : RConf) (h : Hash) (hf0 bf0 : Nat)
    (st : RConn) (s : List Byte) (cbs0 : List Cb) (hi : SafeI cf h hf0 bf0 st s cbs0) (hcl : st.closed = false) (c : List Byte)
    (hc : c.length ≤ st.offered) {x : RConn × List Cb} (hx : onData cf h st c = some x) : NoWrap (s ++ c) := by
  obtain ⟨fs, r, hd, hmem, hop⟩ := hi
  obtain ⟨hrest, -⟩ := hop hcl
  obtain ⟨gs, r2, hg⟩ := Dec.total (r ++ c)
  have hdall := hd.append hg
  intro fs' r' hd'
  obtain ⟨rfl, rfl⟩ := hdall.det hd'
  cases hw : wraps r2 with
  | false => rfl
  | true =>
    exfalso
    rcases hrest with ⟨hb, hhead, hlen, hhn⟩ | ⟨hhead, v, l, hh, hnw, hlt, ha, hb⟩
    · have hph : st.headPhase = true := by unfold RConn.headPhase; rw [hb]; rfl
      unfold onData at hx
      rw [hph] at hx
      simp only [if_true] at hx
      rw [hhead, headLoop_wrap cf h hg _ st false hw] at hx
      cases hx
    · obtain ⟨g1, g2, g3, g4⟩ := header_some hh
      have hlb : (r.take 4 ++ r.drop (4 + l)).length = r.length - l := by simp; omega
      have hoff : st.offered = 4 + v - (r.length - l) := by
        unfold RConn.offered
        rw [hcl, hb]
        simp only [Bool.false_eq_true, if_false, List.getLast?_singleton, hlb]
        rw [if_neg (by omega)]
      rw [hoff] at hc
      have hh2 := header_append c hh
      by_cases hfull : r.length + c.length = 4 + l + v
      · have hd1 := decode1_of hh2 (by simp; omega) hnw
        have hz : (r ++ c).drop (4 + l + v) = [] := List.drop_of_length_le (by simp; omega)
        rw [hz] at hd1
        have hdn : decode1 ([] : List Byte) = none := by simp [decode1, header]
        obtain ⟨-, hr⟩ := hg.det (.more hd1 (.stop hdn))
        rw [hr] at hw
        simp [wraps, header] at hw
      · have hd1 : decode1 (r ++ c) = none := by
          unfold decode1; rw [hh2]; simp only; rw [if_pos (by simp; omega)]
        obtain ⟨-, hr⟩ := hg.det (.stop hd1)
        rw [hr] at hw
        unfold wraps at hw
        rw [hh2] at hw
        have : W64 ≤ 4 + l + v := by simpa using hw
        omega

/-- The same for one event on any connection. -/
theorem rstep_some (cf : RConf) (h : Hash) (hf0 bf0 : Nat) (st : RConn) (s : List Byte) (c0 : List Cb)
    (hi : SafeI cf h hf0 bf0 st s c0) (e : REv)
    (hl : match e with
      | .data c => st.closed = true ∨ (c ≠ [] ∧ c.length ≤ st.offered)
      | _ => True)
    {x : RConn × List Cb} (hx : rstep cf h st e = some x) :
    SafeI cf h hf0 bf0 x.1 (s ++ received [e]) (c0 ++ x.2) := by
  cases hcl : st.closed with
  | true =>
    have : x = (st, []) := by simpa [rstep, hcl] using hx.symm
    subst this
    simpa using hi.extend hcl _
  | false =>
    have key : NoWrap (s ++ received [e]) → SafeI cf h hf0 bf0 x.1 (s ++ received [e]) (c0 ++ x.2) := by
      intro hw
      obtain ⟨st', cbs, h1, h2⟩ := rstep_safe cf h hf0 bf0 st s c0 hi e hl hw
      rw [hx] at h1; cases h1; exact h2
    cases e with
    | data c =>
      simp only [hcl, Bool.false_eq_true, false_or] at hl
      apply key
      have hx' : onData cf h st c = some x := by
        simp only [rstep, hcl, Bool.false_eq_true, if_false] at hx
        rw [if_neg (by simpa using hl.1)] at hx
        exact hx
      simpa [received] using onData_noWrap cf h hf0 bf0 st s c0 hi hcl c hl.2 hx'
    | again =>
      simp only [rstep, hcl, Bool.false_eq_true, if_false, Option.some.injEq] at hx
      subst hx
      obtain ⟨fs, r, hd, hm, ho⟩ := hi
      refine ⟨fs, r, by simpa [received] using hd, by simpa using hm, fun _ => ?_⟩
      simp only [List.append_nil]
      exact ho hcl
    | fail =>
      simp only [rstep, hcl, Bool.false_eq_true, if_false, Option.some.injEq] at hx
      subst hx
      obtain ⟨fs, r, hd, hm, _⟩ := hi
      refine ⟨fs, r, by simpa [received] using hd, ?_, fun hh => by cases hh⟩
      intro cb hcb hco
      rcases List.mem_append.mp hcb with hcb | hcb
      · exact hm cb hcb hco
      · simp only [List.mem_singleton] at hcb
        subst hcb
        exact absurd (show Err.READ_FAILED = Err.SUCCESS from hco) (by decide)

theorem rrun_some (cf : RConf) (h : Hash) (hf0 bf0 : Nat) (es : List REv) : ∀ (st : RConn) (s : List Byte) (c0 : List Cb),
    SafeI cf h hf0 bf0 st s c0 → Legal cf h st es → ∀ {st' cbs}, rrun cf h st es = some (st', cbs) →
    SafeI cf h hf0 bf0 st' (s ++ received es) (c0 ++ cbs) := by
  induction es with
  | nil =>
    intro st s c0 hi _ st' cbs hr
    cases hr
    simpa [received] using hi
  | cons e es ih =>
    intro st s c0 hi hl st' cbs hr
    have hrec : received (e :: es) = received [e] ++ received es := by
      cases e <;> simp [received]
    simp only [rrun, Option.bind_eq_bind] at hr
    cases hs : rstep cf h st e with
    | none => rw [hs] at hr; cases hr
    | some x =>
      rw [hs, Option.bind_some] at hr
      cases hr2 : rrun cf h x.1 es with
      | none => rw [hr2] at hr; cases hr
      | some y =>
        rw [hr2] at hr
        cases hr
        have h1 := rstep_some cf h hf0 bf0 st s c0 hi e hl.1 hs
        have h2 := ih x.1 _ _ h1 (hl.2 _ hs) hr2
        rw [hrec, ← List.append_assoc, ← List.append_assoc]
        exact h2

/-- Where a run becomes undefined. -/
theorem rrun_none (cf : RConf) (h : Hash) (hf0 bf0 : Nat) (es : List REv) : ∀ (st : RConn) (s : List Byte) (c0 : List Cb),
    SafeI cf h hf0 bf0 st s c0 → Legal cf h st es →
    (rrun cf h st es = none ↔ ∃ es1 c es2 st1 cbs1, es = es1 ++ .data c :: es2 ∧ rrun cf h st es1 = some (st1, cbs1) ∧
      st1.closed = false ∧ ¬ NoWrap (s ++ (received es1 ++ c))) := by
  induction es with
  | nil =>
    intro st s c0 _ _
    constructor
    · intro hr; cases hr
    · rintro ⟨es1, c, es2, st1, cbs1, he, -⟩
      cases es1 <;> cases he
  | cons e es ih =>
    intro st s c0 hi hl
    have hrec : ∀ l, received (e :: l) = received [e] ++ received l := by
      intro l; cases e <;> simp [received]
    cases hs : rstep cf h st e with
    | none =>
      have hnone : rrun cf h st (e :: es) = none := by simp only [rrun, Option.bind_eq_bind, hs]; rfl
      refine ⟨fun _ => ?_, fun _ => hnone⟩
      have hcl : st.closed = false := by
        cases hcl : st.closed with
        | false => rfl
        | true => simp [rstep, hcl] at hs
      cases e with
      | again => simp [rstep, hcl] at hs
      | fail => simp [rstep, hcl] at hs
      | data c =>
        refine ⟨[], c, es, st, [], rfl, rfl, hcl, ?_⟩
        intro hw
        obtain ⟨st', cbs, h1, -⟩ := rstep_safe cf h hf0 bf0 st s c0 hi (.data c) hl.1 (by simpa [received] using hw)
        rw [hs] at h1; cases h1
    | some x =>
      have h1 := rstep_some cf h hf0 bf0 st s c0 hi e hl.1 hs
      have key := ih x.1 _ _ h1 (hl.2 _ hs)
      have hstep : ∀ l, rrun cf h st (e :: l) = (rrun cf h x.1 l).bind fun y => some (y.1, x.2 ++ y.2) := by
        intro l; simp only [rrun, Option.bind_eq_bind, hs, Option.bind_some]
      have hb : rrun cf h st (e :: es) = none ↔ rrun cf h x.1 es = none := by
        rw [hstep]
        cases rrun cf h x.1 es <;> simp
      rw [hb, key]
      constructor
      · rintro ⟨es1, c, es2, st1, cbs1, he, hr, hc, hw⟩
        refine ⟨e :: es1, c, es2, st1, x.2 ++ cbs1, by rw [he]; rfl, by rw [hstep, hr]; rfl, hc, ?_⟩
        rw [hrec]
        simpa [List.append_assoc] using hw
      · rintro ⟨es1, c, es2, st1, cbs1, he, hr, hc, hw⟩
        cases es1 with
        | nil =>
          simp only [List.nil_append, List.cons.injEq] at he
          obtain ⟨rfl, rfl⟩ := he
          exfalso
          cases hr
          obtain ⟨fs, r, hd, -⟩ := h1.good
          apply hw
          have hl1 := hl.1
          simp only [hc, Bool.false_eq_true, false_or] at hl1
          have hx' : onData cf h st c = some x := by
            simp only [rstep, hc, Bool.false_eq_true, if_false] at hs
            rw [if_neg (by simpa using hl1.1)] at hs
            exact hs
          simpa [received] using onData_noWrap cf h hf0 bf0 st s c0 hi hc c hl1.2 hx'
        | cons e' es1 =>
          simp only [List.cons_append, List.cons.injEq] at he
          obtain ⟨rfl, rfl⟩ := he
          rw [hstep] at hr
          cases hr2 : rrun cf h x.1 es1 with
          | none => rw [hr2] at hr; cases hr
          | some y =>
            rw [hr2] at hr
            cases hr
            refine ⟨es1, c, es2, y.1, y.2, rfl, hr2, hc, ?_⟩
            rw [hrec] at hw
            simpa [List.append_assoc] using hw

end Verif.IoStream
