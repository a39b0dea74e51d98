import Verif.Mem.TsoRun

/-! Each step with buffers is a number of steps of the interleaved model. -/
namespace Verif.Mem.Tso

open Conc

set_option maxRecDepth 10000

/-! ### The receiver -/

/-- The same state with other senders. -/
def withSenders (s : St) (f : Nat → SPC) (c : Nat → Bool) (n : List (Nat × Msg × Int)) : St :=
  { s with thr := f, crashed := c, sent := n }

section
attribute [local irreducible] bsize bcheck calcNodes next loopHead clrHead copyHead byteAddr rangeCount absDiff orElse sub64 clr

theorem recv_senders {hash : List Byte → Nat} (f : Nat → SPC) (c : Nat → Bool) (n : List (Nat × Msg × Int)) (s : St) (now : Nat) :
    Conc.stepRecv hash (withSenders s f c n) now = (Conc.stepRecv hash s now).map fun s1 => withSenders s1 f c n := by
  unfold Conc.stepRecv
  have e1 : (withSenders s f c n).rpc = s.rpc := rfl
  rw [e1]
  cases s.rpc with
  | idle => rfl
  | loadR len => rfl
  | loadW len ori => rfl
  | flag p =>
    show (if (s.heads p.rb).written = true then _ else _) = Option.map _ (if (s.heads p.rb).written = true then _ else _)
    split
    · rfl
    · split <;> rfl
  | flag2 p =>
    show (if ¬ (s.heads p.rb).start = true then _ else _) = Option.map _ (if ¬ (s.heads p.rb).start = true then _ else _)
    split
    · rfl
    · split <;> rfl
  | skip p => rfl
  | seqT p n => rfl
  | flagT p n => rfl
  | fft p n =>
    show (if s.fft = 0 then _ else if absDiff n s.fft > s.conf.timeout then _ else _) =
      Option.map _ (if s.fft = 0 then _ else if absDiff n s.fft > s.conf.timeout then _ else _)
    split
    · rfl
    · split <;> rfl
  | seqTO p => rfl
  | skipTO p => rfl
  | size p =>
    show (if bsize s.data p.rb = 0 ∨ bsize s.data p.rb ≥ sub64 (s.conf.n * nodeSize) s.conf.protMem then _
        else if bsize s.data p.rb > p.len then _ else _) =
      Option.map _ (if bsize s.data p.rb = 0 ∨ bsize s.data p.rb ≥ sub64 (s.conf.n * nodeSize) s.conf.protMem then _
        else if bsize s.data p.rb > p.len then _ else _)
    split
    · rfl
    · split <;> rfl
  | skipBad p => rfl
  | seq0 p => rfl
  | clrSeq p cs re => rfl
  | clrFlag p cs re => rfl
  | clrSet p cs re => rfl
  | num p re =>
    show (if calcNodes (bsize s.data p.rb) ≠ rangeCount s.conf.n p.rb re then _ else _) =
      Option.map _ (if calcNodes (bsize s.data p.rb) ≠ rangeCount s.conf.n p.rb re then _ else _)
    split <;> rfl
  | copy p re sz acc => rfl
  | check p re acc => rfl
  | fin ori re ret sz bytes => rfl

/-- The stores of the receiver to node heads, and to its cursor. -/
theorem recv_heads {hash : List Byte → Nat} {s s1 : St} {now : Nat} (hs : Conc.stepRecv hash s now = some s1) :
    s1.heads = clrs (clears s.rpc) s.heads ∧ (storesCur s.rpc = false → s1.rcur = s.rcur) := by
  unfold Conc.stepRecv at hs
  have fin : ∀ {p : RPC} {s2 : St}, clears s.rpc = [] → s2.heads = s.heads → s2.rcur = s.rcur → some (s2.to p) = some s1 →
      s1.heads = clrs (clears s.rpc) s.heads ∧ (storesCur s.rpc = false → s1.rcur = s.rcur) := by
    intro p s2 h1 h2 h3 h4
    simp only [Option.some.injEq] at h4
    subst h4
    rw [h1]
    exact ⟨h2, fun _ => h3⟩
  cases hp : s.rpc with
  | idle => rw [hp] at hs; cases hs
  | loadR len => rw [hp] at hs fin; exact fin rfl rfl rfl hs
  | loadW len ori => rw [hp] at hs fin; exact fin rfl rfl rfl hs
  | flag p =>
    rw [hp] at hs fin
    simp only at hs
    split at hs
    · exact fin rfl (by rfl) (by rfl) hs
    · split at hs <;> exact fin rfl (by rfl) (by rfl) hs
  | flag2 p =>
    rw [hp] at hs fin
    simp only at hs
    split at hs
    · exact fin rfl (by rfl) (by rfl) hs
    · split at hs <;> exact fin rfl (by rfl) (by rfl) hs
  | skip p => rw [hp] at hs; simp only [Option.some.injEq] at hs; subst hs; exact ⟨rfl, fun _ => rfl⟩
  | seqT p n => rw [hp] at hs fin; exact fin rfl (by rfl) (by rfl) hs
  | flagT p n => rw [hp] at hs fin; exact fin rfl (by rfl) (by rfl) hs
  | fft p n =>
    rw [hp] at hs fin
    simp only at hs
    split at hs
    · exact fin rfl (by rfl) (by rfl) hs
    · split at hs <;> exact fin rfl (by rfl) (by rfl) hs
  | seqTO p => rw [hp] at hs fin; exact fin rfl rfl rfl hs
  | skipTO p => rw [hp] at hs; simp only [Option.some.injEq] at hs; subst hs; exact ⟨rfl, fun _ => rfl⟩
  | size p =>
    rw [hp] at hs fin
    simp only at hs
    split at hs
    · exact fin rfl (by rfl) (by rfl) hs
    · split at hs <;> exact fin rfl (by rfl) (by rfl) hs
  | skipBad p => rw [hp] at hs; simp only [Option.some.injEq] at hs; subst hs; exact ⟨rfl, fun _ => rfl⟩
  | seq0 p => rw [hp] at hs fin; exact fin rfl (by rfl) (by rfl) hs
  | clrSeq p cs re => rw [hp] at hs fin; exact fin rfl (by rfl) (by rfl) hs
  | clrFlag p cs re => rw [hp] at hs fin; exact fin rfl (by rfl) (by rfl) hs
  | clrSet p cs re => rw [hp] at hs; simp only [Option.some.injEq] at hs; subst hs; exact ⟨rfl, fun _ => rfl⟩
  | num p re =>
    rw [hp] at hs fin
    simp only at hs
    split at hs <;> exact fin rfl (by rfl) (by rfl) hs
  | copy p re sz acc => rw [hp] at hs fin; exact fin rfl (by rfl) (by rfl) hs
  | check p re acc =>
    rw [hp] at hs
    simp only [Option.some.injEq] at hs
    subst hs
    exact ⟨rfl, fun _ => rfl⟩
  | fin ori re ret sz bytes =>
    rw [hp] at hs
    simp only [Option.some.injEq] at hs
    subst hs
    refine ⟨rfl, fun hc => ?_⟩
    simp only [storesCur, decide_eq_false_iff_not] at hc
    exact if_neg hc

end

/-! ### Steps -/

/-- Result of a step. -/
def Reach (hash : List Byte → Nat) (S : St) (τ1 : T) (pr cq : Prop) : Prop := ∃ es f1 c1 n1, Conc.run hash S es = some (sc τ1 f1 c1 n1) ∧
  Conc.Along Conc.Legal hash S es ∧ (pr → Conc.Along Conc.Prompt hash S es) ∧ (cq → Conc.Along CountOK hash S es) ∧ Rel τ1 f1 c1 n1

section
variable {hash : List Byte → Nat} {τ τ1 : T} {f f1 : Nat → SPC} {c c1 : Nat → Bool} {n n1 : List (Nat × Msg × Int)} {g : G} {pr cq : Prop}

theorem reach_zero (hs : sc τ1 f1 c1 n1 = sc τ f c n) (hr : Rel τ1 f1 c1 n1) : Reach hash (sc τ f c n) τ1 pr cq :=
  ⟨[], f1, c1, n1, by rw [hs]; rfl, trivial, fun _ => trivial, fun _ => trivial, hr⟩

theorem reach_one {S : St} {e : Conc.Ev} (hs : Conc.step hash S e = some (sc τ1 f1 c1 n1)) (hl : Conc.Legal S e) (hp : pr → Conc.Prompt S e)
    (hq : cq → CountOK S e) (hr : Rel τ1 f1 c1 n1) : Reach hash S τ1 pr cq :=
  ⟨[e], f1, c1, n1, by simp only [Conc.run, hs], ⟨hl, fun _ _ => trivial⟩, fun h => ⟨hp h, fun _ _ => trivial⟩,
    fun h => ⟨hq h, fun _ _ => trivial⟩, hr⟩

theorem reach_cons {S S1 : St} {e : Conc.Ev} (hs : Conc.step hash S e = some S1) (hl : Conc.Legal S e)
    (hp : pr → Conc.Prompt S e) (hq : cq → CountOK S e) (hr : Reach hash S1 τ1 pr cq) : Reach hash S τ1 pr cq := by
  obtain ⟨es, f1, c1, n1, h1, h2, h3, h4, h5⟩ := hr
  have key : ∀ {P : St → Conc.Ev → Prop}, P S e → Conc.Along P hash S1 es → Conc.Along P hash S (e :: es) := by
    intro P a b
    refine ⟨a, fun s hs1 => ?_⟩
    rw [hs] at hs1
    simp only [Option.some.injEq] at hs1
    subst hs1
    exact b
  exact ⟨e :: es, f1, c1, n1, by simp only [Conc.run, hs]; exact h1, key hl h2, fun h => key (hp h) (h3 h), fun h => key (hq h) (h4 h), h5⟩

/-- Nodes passed stay passed. -/
theorem passed_one (h : CInv hash (sc τ f c n) g) (hr : Rel τ f c n) {e : Conc.Ev} {S1 : St} (hl : Conc.Legal (sc τ f c n) e)
    (hs : Conc.step hash (sc τ f c n) e = some S1) (hcur : S1.rcur = τ.s.rcur) : ∀ i ∈ τ.rbuf, Passed S1 i :=
  fun i hi => passed_step h hl hs hcur (hr.passed i hi)

theorem Rel.keep {τ' : T} {f' : Nat → SPC} (h : Rel τ f c n) {t : Nat} (hs : τ'.s.sent = τ.s.sent) (hb : τ'.buf t = τ.buf t)
    (ht : τ'.s.thr t = τ.s.thr t) (hf : f' t = f t) : callsOf t τ'.s.sent = callsOf t n ++ owed τ' f' t := by
  rw [hs, owed_congr hb ht hf]; exact h.sent t

theorem Rel.more {τ' : T} {f' : Nat → SPC} (h : Rel τ f c n) {t : Nat} {x : List (Nat × Msg × Int)} (hb : τ.buf t = []) (hb' : τ'.buf t = [])
    (hs : τ'.s.sent = τ.s.sent ++ x) : callsOf t τ'.s.sent = callsOf t (n ++ x) ++ owed τ' f' t := by
  have := h.sent t
  rw [owed_nil hb, List.append_nil] at this
  rw [hs, owed_nil hb', List.append_nil, callsOf_append, callsOf_append, this]

/-! Start of a call -/

theorem call_sc (s : St) (t : Nat) (m : Msg) : ∃ p x, (∀ e ∈ x, e.1 = t) ∧ ∀ s', s'.conf = s.conf →
    callSend s' t m = { s' with thr := setThr s'.thr t p, sent := s'.sent ++ x } := by
  have hpc : ∀ (s' : St) p, s'.pc t p = { s' with thr := setThr s'.thr t p, sent := s'.sent ++ [] } := by
    intro s' p
    rw [List.append_nil]
    rfl
  cases hre : s.conf.retry with
  | zero =>
    refine ⟨.idle, [(t, m, Err.SUCCESS)], by simp, fun s' hc => ?_⟩
    rw [← hc] at hre
    unfold callSend
    rw [hre]
    rfl
  | succ left =>
    by_cases h1 : m.length = 0
    · refine ⟨.idle, [(t, m, Err.SUCCESS)], by simp, fun s' hc => ?_⟩
      rw [← hc] at hre
      unfold callSend
      rw [hre]
      simp only
      rw [if_pos h1]
      rfl
    · by_cases h2 : calcNodes m.length ≥ sub64 s.conf.n s.conf.prot
      · refine ⟨.idle, [(t, m, Err.BUFF_LIMIT)], by simp, fun s' hc => ?_⟩
        rw [← hc] at hre h2
        unfold callSend
        rw [hre]
        simp only
        rw [if_neg h1, if_pos h2]
        rfl
      · refine ⟨.fetch m left, [], by simp, fun s' hc => ?_⟩
        rw [← hc] at hre h2
        unfold callSend
        rw [hre]
        simp only
        rw [if_neg h1, if_neg h2, hpc]

theorem sim_call (h : CInv hash (sc τ f c n) g) (hr : Rel τ f c n) {t : Nat} {m : Msg} (hl : Legal τ (.call t m))
    (hs : step hash τ (.call t m) = some τ1) : Reach hash (sc τ f c n) τ1 pr cq := by
  simp only [step] at hs
  split at hs
  case isFalse => cases hs
  rename_i hc
  obtain ⟨h1, h2, h3⟩ := hc
  simp only [Option.some.injEq] at hs
  obtain ⟨hf, hcr⟩ := same_of (hr.lag t) h3
  obtain ⟨p, x, hx, hcall⟩ := call_sc τ.s t m
  rw [hcall τ.s rfl] at hs
  subst hs
  have hstep : Conc.step hash (sc τ f c n) (.call t m) =
      some (sc { τ with s := { τ.s with thr := setThr τ.s.thr t p, sent := τ.s.sent ++ x } } (setThr f t p) c (n ++ x)) := by
    simp only [Conc.step]
    rw [if_pos ⟨by rw [← h1]; exact hf, by rw [← h2]; exact hcr⟩, hcall (sc τ f c n) rfl]
    rfl
  refine reach_one hstep (legal_call hl) (fun _ => trivial) (fun _ => trivial) ?_
  refine hr.upd t ?_ (.same h3 ?_ hcr) ?_ (passed_one h hr (legal_call hl) hstep rfl)
  · intro u hu
    refine ⟨rfl, setThr_ne _ _ hu, rfl, setThr_ne _ _ hu, rfl, ?_, ?_⟩
    · rw [callsOf_append, callsOf_ne hx hu, List.append_nil]
    · rw [callsOf_append, callsOf_ne hx hu, List.append_nil]
  · rw [setThr_self]; exact (setThr_self ..).symm
  · exact hr.more h3 h3 rfl

/-! Receiver -/

theorem sim_recv (h : CInv hash (sc τ f c n) g) (hr : Rel τ f c n) {len : Nat}
    (hs : step hash τ (.recv len) = some τ1) : Reach hash (sc τ f c n) τ1 pr cq := by
  simp only [step] at hs
  split at hs
  case isFalse => cases hs
  rename_i hc
  simp only [Option.some.injEq] at hs
  subst hs
  have hstep : Conc.step hash (sc τ f c n) (.recv len) = some (sc { τ with s := τ.s.to (.loadR len) } f c n) := by
    simp only [Conc.step]
    rw [if_pos (show (sc τ f c n).rpc = .idle from hc)]
    rfl
  refine reach_one hstep legal_recv (fun _ => trivial) (fun _ => trivial) ⟨fun t => (hr.lag t).congr rfl rfl rfl rfl rfl, fun t => ?_, ?_⟩
  · exact hr.keep rfl rfl rfl rfl
  · exact passed_one h hr legal_recv hstep rfl

theorem sim_rstep (h : CInv hash (sc τ f c n) g) (hr : Rel τ f c n) {now : Nat} (hl : Legal τ (.rstep now))
    (hs : step hash τ (.rstep now) = some τ1) : Reach hash (sc τ f c n) τ1 pr cq := by
  simp only [step, stepRecv] at hs
  split at hs
  case isTrue => cases hs
  rename_i hdry
  cases hq : Conc.stepRecv hash { τ.s with heads := clrs τ.rbuf τ.s.heads } now with
  | none => rw [hq] at hs; cases hs
  | some s1 =>
    rw [hq] at hs
    simp only [Option.map_some, Option.some.injEq] at hs
    obtain ⟨hh, hcur⟩ := recv_heads hq
    obtain ⟨k1, k2, k3, k4, k5, k6, k7, k8, k9⟩ := stepRecv_frame hq
    have hstep : Conc.step hash (sc τ f c n) (.rstep now) = some (sc τ1 f c n) := by
      show Conc.stepRecv hash (withSenders { τ.s with heads := clrs τ.rbuf τ.s.heads } f c n) now = _
      rw [recv_senders, hq, ← hs]
      simp only [Option.map_some, Option.some.injEq, sc, withSenders, clrs_append]
      rw [← hh]
    refine reach_one hstep (legal_rstep hr hl) (fun _ => trivial) (fun _ => trivial) ⟨fun t => ?_, fun t => ?_, ?_⟩
    · rw [← hs]; exact (hr.lag t).congr rfl (by show s1.thr t = _; rw [k6]) (by show s1.crashed t = _; rw [k1]) rfl rfl
    · rw [← hs]; exact hr.keep k7 rfl (by show s1.thr t = _; rw [k6]) rfl
    · by_cases hst : storesCur τ.s.rpc = true
      · have hb : τ.rbuf = [] := Classical.byContradiction fun e => hdry ⟨hst, e⟩
        have hcl : clears τ.s.rpc = [] := by
          cases hp : τ.s.rpc with
          | fin _ _ _ _ _ => rfl
          | _ => rw [hp] at hst; cases hst
        intro i hi
        rw [← hs, hb, hcl] at hi
        cases hi
      · have hcu : (sc τ1 f c n).rcur = τ.s.rcur := by
          rw [← hs]
          exact hcur (by simpa using hst)
        intro i hi
        rw [← hs] at hi
        rcases List.mem_append.1 hi with a | a
        · exact passed_one h hr (legal_rstep hr hl) hstep hcu i a
        · exact passed_step h (legal_rstep hr hl) hstep hcu (clears_passed h a)

theorem sim_rdrain (hr : Rel τ f c n) (hs : step hash τ .rdrain = some τ1) : Reach hash (sc τ f c n) τ1 pr cq := by
  simp only [step] at hs
  cases hb : τ.rbuf with
  | nil => rw [hb] at hs; cases hs
  | cons i l =>
    rw [hb] at hs
    simp only [Option.some.injEq] at hs
    have e : sc τ1 f c n = sc τ f c n := by
      rw [← hs]; unfold sc; rw [hb]; rfl
    refine reach_zero e ⟨fun t => ?_, fun t => ?_, ?_⟩
    · rw [← hs]; exact (hr.lag t).congr rfl rfl rfl rfl rfl
    · rw [← hs]; exact hr.keep rfl rfl rfl rfl
    · intro x hx
      rw [e]
      refine hr.passed x ?_
      rw [hb]
      rw [← hs] at hx
      exact List.mem_cons_of_mem _ hx

/-! Stop -/

theorem stop_of {s : St} {t : Nat} (h : StopLate s (.crash t)) : Stop (s.thr t) := by
  unfold StopLate at h
  unfold Stop
  simp only at h
  split
  · rename_i hp; rw [hp] at h; exact h
  · trivial

theorem legal_crash {s : St} {t : Nat} (h : Stop (s.thr t)) : Conc.Legal s (.crash t) := by
  refine ⟨trivial, trivial, trivial, ?_, trivial⟩
  show StopLate s (.crash t)
  unfold StopLate
  simp only
  unfold Stop at h
  split
  · rename_i hp; rw [hp] at h; exact h
  · trivial

theorem sim_crash (h : CInv hash (sc τ f c n) g) (hr : Rel τ f c n) {t : Nat} (hl : Legal τ (.crash t))
    (hs : step hash τ (.crash t) = some τ1) : Reach hash (sc τ f c n) τ1 pr cq := by
  simp only [step, Option.some.injEq] at hs
  have hstop : Stop (τ.s.thr t) := stop_of (hl.1 _ rfl).2.2.2.1
  by_cases hb : τ.buf t = []
  · obtain ⟨hf, hcr⟩ := same_of (hr.lag t) hb
    have hlc : Conc.Legal (sc τ f c n) (.crash t) := legal_crash (by rw [show (sc τ f c n).thr t = τ.s.thr t from hf]; exact hstop)
    have hstep : Conc.step hash (sc τ f c n) (.crash t) = some (sc τ1 f (fun u => if u = t then true else c u) n) := by
      rw [← hs]; rfl
    refine reach_one hstep hlc (fun _ => trivial) (fun _ => trivial) (hr.upd t ?_ (.same ?_ ?_ ?_) ?_ ?_)
    · intro u hu
      rw [← hs]
      exact ⟨rfl, rfl, if_neg hu, rfl, if_neg hu, rfl, rfl⟩
    · rw [← hs]; exact hb
    · rw [← hs]; exact hf
    · rw [← hs]; simp
    · rw [← hs]; exact hr.keep rfl rfl rfl rfl
    · have := passed_one h hr hlc hstep (by rw [← hs]; rfl)
      intro i hi
      exact this i (by rw [← hs] at hi; exact hi)
  · have e : sc τ1 f c n = sc τ f c n := by rw [← hs]; rfl
    refine reach_zero e (hr.upd t ?_ ?_ ?_ ?_)
    · intro u hu
      rw [← hs]
      exact ⟨rfl, rfl, if_neg hu, rfl, rfl, rfl, rfl⟩
    · rw [← hs]
      cases hr.lag t with
      | same h => exact absurd h hb
      | work h1 h2 h3 h4 h5 h6 h7 => exact .work h1 h2 (fun _ => hstop) h4 h5 h6 h7
      | verify h1 h2 h4 h5 h7 => exact .verify h1 h2 h4 h5 h7
      | done h1 h2 h4 h5 h7 => exact .done h1 h2 h4 h5 h7
    · rw [← hs]; exact hr.keep rfl rfl rfl rfl
    · intro i hi
      rw [e]
      refine hr.passed i ?_
      rw [← hs] at hi
      exact hi

end

end Verif.Mem.Tso
