import Verif.Node.PingIter

/-!
C104: the ping timer that an endpoint keeps an iterator to is in the list exactly as long as the endpoint says so; no other list node is ever
erased, and the protective code at the end of the ping loop is never reached, provided the application does not set the flag itself and does
not set the time back inside `proc`.
-/
namespace Verif.Node.PingIter

/-- List and endpoints agree. -/
structure Inv (s : S) : Prop where
  entry : ∀ e ∈ s.list, (s.ep e.ep).alive = true ∧ (s.ep e.ep).has = true ∧ (s.ep e.ep).it = some e.addr
  has : ∀ r, (s.ep r).has = true → ∃ e ∈ s.list, e.ep = r
  apart : s.list.Pairwise fun a b => a.addr ≠ b.addr
  low : ∀ e ∈ s.list, e.addr < s.fresh
  time : ∀ sec, s.proc = some sec → sec ≤ s.clock
  pops : s.pops = 0

theorem apart_inj {l : List Entry} (h : l.Pairwise fun a b => a.addr ≠ b.addr) {a b : Entry} (ha : a ∈ l) (hb : b ∈ l)
    (hab : a.addr = b.addr) : a = b := by
  induction l with
  | nil => cases ha
  | cons x l ih =>
    rw [List.pairwise_cons] at h
    rcases List.mem_cons.1 ha with ha' | ha' <;> rcases List.mem_cons.1 hb with hb' | hb'
    · exact ha'.trans hb'.symm
    · exact absurd (ha' ▸ hab) (h.1 _ hb')
    · exact absurd (hb' ▸ hab.symm) (h.1 _ ha')
    · exact ih h.2 ha' hb'

/-- What clearing a timer leaves as it is. -/
structure Kept (s t : S) (r : Nat) : Prop where
  other : ∀ x, x ≠ r → t.ep x = s.ep x
  alive : (t.ep r).alive = (s.ep r).alive
  resetting : (t.ep r).resetting = (s.ep r).resetting
  has : (t.ep r).has = false
  none : ∀ e ∈ t.list, e.ep ≠ r
  sub : ∀ e ∈ t.list, e ∈ s.list
  fresh : t.fresh = s.fresh
  clock : t.clock = s.clock
  proc : t.proc = s.proc
  gc : t.gc = s.gc
  interval : t.interval = s.interval

theorem inv_clear {s : S} (h : Inv s) (r : Nat) : ∃ t, clearTimer s r = some t ∧ Inv t ∧ Kept s t r := by
  unfold clearTimer
  split
  next hh =>
    obtain ⟨e, he, her⟩ := h.has r hh
    have hit : (s.ep r).it = some e.addr := by rw [← her]; exact (h.entry e he).2.2
    have hany : s.list.any (fun x => x.addr == e.addr) = true := List.any_eq_true.2 ⟨e, he, by simp⟩
    have hnr : nodeRemove s (s.ep r).it = some { s with list := s.list.filter fun x => x.addr != e.addr } := by
      rw [hit]
      simp only [nodeRemove, hany, if_true]
    rw [hnr]
    refine ⟨_, rfl, ?_, ?_⟩
    · refine ⟨?_, ?_, ?_, ?_, h.time, h.pops⟩
      · intro x hx
        obtain ⟨hx1, hx2⟩ := List.mem_filter.1 hx
        have hxr : x.ep ≠ r := fun hq => by
          have := (h.entry x hx1).2.2
          rw [hq, hit] at this
          simp [Option.some.inj this] at hx2
        show (if x.ep = r then _ else s.ep x.ep).alive = true ∧ _
        simp only [setEp, if_neg hxr]
        exact h.entry x hx1
      · intro x hx
        have hxr : x ≠ r := fun hq => by simp [setEp, hq] at hx
        simp only [setEp, if_neg hxr] at hx
        obtain ⟨y, hy, hyx⟩ := h.has x hx
        refine ⟨y, List.mem_filter.2 ⟨hy, ?_⟩, hyx⟩
        have : y.addr ≠ e.addr := fun hq => hxr (by rw [← hyx, apart_inj h.apart hy he hq, her])
        simpa using this
      · exact List.Pairwise.filter _ h.apart
      · exact fun x hx => h.low x (List.mem_filter.1 hx).1
    · refine ⟨fun x hx => by simp [setEp, hx], by simp [setEp], by simp [setEp], by simp [setEp], ?_, ?_, rfl, rfl, rfl, rfl, rfl⟩
      · intro x hx hq
        obtain ⟨hx1, hx2⟩ := List.mem_filter.1 hx
        have := (h.entry x hx1).2.2
        rw [hq, hit] at this
        simp [Option.some.inj this] at hx2
      · exact fun x hx => (List.mem_filter.1 hx).1
  next hh =>
    have hf : (s.ep r).has = false := by simpa using hh
    refine ⟨s, rfl, h, ⟨fun _ _ => rfl, rfl, rfl, hf, fun e he hq => ?_, fun _ h => h, rfl, rfl, rfl, rfl, rfl⟩⟩
    have := (h.entry e he).2.1
    rw [hq, hf] at this
    cases this

/-- An endpoint without timer may change in other ways. -/
theorem inv_set {s : S} (h : Inv s) {r : Nat} {e : Ep} (hn : ∀ x ∈ s.list, x.ep ≠ r) (he : e.has = false) : Inv (setEp s r e) := by
  refine ⟨?_, ?_, h.apart, h.low, h.time, h.pops⟩
  · intro x hx
    simp only [setEp, if_neg (hn x hx)]
    exact h.entry x hx
  · intro x hx
    have hxr : x ≠ r := fun hq => by simp [setEp, hq, he] at hx
    simp only [setEp, if_neg hxr] at hx
    exact h.has x hx

theorem inv_nodeAdd {s : S} (h : Inv s) {r : Nat} (same : Bool) (hn : ∀ x ∈ s.list, x.ep ≠ r) (hh : (s.ep r).has = false)
    (ha : (s.ep r).alive = true) : Inv (nodeAdd s r same) := by
  unfold nodeAdd
  split
  · exact inv_set h hn hh
  · refine ⟨?_, ?_, ?_, ?_, h.time, h.pops⟩
    · intro x hx
      rcases List.mem_append.1 hx with hx | hx
      · simp only [setEp, if_neg (hn x hx)]
        exact h.entry x hx
      · rw [List.mem_singleton.1 hx]
        simp [setEp, ha]
    · intro x hx
      by_cases hxr : x = r
      · exact ⟨_, List.mem_append_right _ (List.mem_singleton.2 rfl), hxr.symm⟩
      · simp only [setEp, if_neg hxr] at hx
        obtain ⟨y, hy, hyx⟩ := h.has x hx
        exact ⟨y, List.mem_append_left _ hy, hyx⟩
    · show (s.list ++ [_]).Pairwise _
      rw [List.pairwise_append]
      refine ⟨h.apart, List.pairwise_singleton _ _, ?_⟩
      intro a ha b hb
      rw [List.mem_singleton.1 hb]
      exact Nat.ne_of_lt (h.low a ha)
    · intro x hx
      show x.addr < s.fresh + 1
      rcases List.mem_append.1 hx with hx | hx
      · have := h.low x hx
        omega
      · rw [List.mem_singleton.1 hx]
        exact Nat.lt_succ_self _

/-- After setting the timer again: it is at a later time than now. -/
theorem inv_addTimer {s : S} (h : Inv s) {r : Nat} (same : Bool) (ha : (s.ep r).alive = true) :
    ∃ t, addTimer s r same = some t ∧ Inv t ∧ t.proc = s.proc ∧ ∀ e ∈ t.list, e.ep = r → s.clock < e.tick := by
  obtain ⟨t, ht, hi, hk⟩ := inv_clear h r
  unfold addTimer
  rw [ht]
  refine ⟨_, rfl, ?_⟩
  simp only
  split
  · exact ⟨hi, hk.proc, fun e he hq => absurd hq (hk.none e he)⟩
  · refine ⟨inv_nodeAdd hi same hk.none hk.has (hk.alive.trans ha), ?_, ?_⟩
    · unfold nodeAdd
      split <;> exact hk.proc
    · unfold nodeAdd
      split
      · exact fun e he hq => absurd hq (hk.none e he)
      next hb =>
        intro e he hq
        rcases List.mem_append.1 he with he | he
        · exact absurd hq (hk.none e he)
        · rw [List.mem_singleton.1 he]
          show s.clock < t.clock + t.interval
          have : ¬ t.interval ≤ 0 := fun hq => hb (Or.inr (Or.inl hq))
          have := hk.clock
          omega

theorem inv_finish {s : S} (h : Inv s) (r : Nat) :
    ∃ t, finish s r = some t ∧ Inv t ∧ (∀ e ∈ t.list, e.ep ≠ r) ∧ (∀ e ∈ t.list, e ∈ s.list) ∧ (t.ep r).has = false ∧
      (∀ x, x ≠ r → t.ep x = s.ep x) := by
  obtain ⟨t, ht, hi, hk⟩ := inv_clear h r
  unfold finish
  rw [ht]
  exact ⟨_, rfl, inv_set hi hk.none rfl, hk.none, hk.sub, by simp [setEp], fun x hx => by simp [setEp, hx, hk.other x hx]⟩

theorem inv_clearAll {s : S} (h : Inv s) (rs : List Nat) :
    ∃ t, clearAll s rs = some t ∧ Inv t ∧ (∀ e ∈ t.list, e ∈ s.list) ∧ ∀ r ∈ rs, ∀ e ∈ t.list, e.ep ≠ r := by
  induction rs generalizing s with
  | nil => exact ⟨s, rfl, h, fun _ h => h, fun _ h => by cases h⟩
  | cons r rs ih =>
    have : ∃ t, (if (s.ep r).resetting then clearTimer s r else finish s r) = some t ∧ Inv t ∧ (∀ e ∈ t.list, e ∈ s.list) ∧
        (∀ e ∈ t.list, e.ep ≠ r) := by
      split
      · obtain ⟨t, ht, hi, hk⟩ := inv_clear h r
        exact ⟨t, ht, hi, hk.sub, hk.none⟩
      · obtain ⟨t, ht, hi, h1, h2, -⟩ := inv_finish h r
        exact ⟨t, ht, hi, h2, h1⟩
    obtain ⟨t, ht, hi, h1, h2⟩ := this
    obtain ⟨u, hu, hui, h3, h4⟩ := ih hi
    refine ⟨u, ?_, hui, fun e he => h1 e (h3 e he), fun x hx e he => ?_⟩
    · simp only [clearAll, ht]
      exact hu
    · rcases List.mem_cons.1 hx with rfl | hx
      · exact h2 e (h3 e he)
      · exact h4 x hx e he

/-- The protective code does nothing if the endpoint that was looked at has its timer later. -/
theorem protect_id {s : S} (h : Inv s) {sec tick : Int} {next : Option Nat} (hn : ∀ r, next = some r → ∀ e ∈ s.list, e.ep = r → sec < e.tick) :
    protect s sec tick next = s := by
  unfold protect
  split
  · rfl
  next e rest hl =>
    have he : e ∈ s.list := by rw [hl]; exact List.mem_cons_self
    rw [if_neg]
    rintro ⟨h1, -, h3⟩
    simp only [lock, (h.entry e he).1, if_true] at h3
    have := hn e.ep h3.symm e he rfl
    omega

/-- The application leaves the flag alone and does not set the time inside `proc`. -/
def Tidy (s : S) : List Ev → Prop
  | [] => True
  | e :: es =>
    (∀ r v, e ≠ .setFlag r v) ∧ (∀ sec, e = .start sec → s.proc = none) ∧ ∀ t, step s e = some (.ok t) → Tidy t es

theorem inv_step {s : S} {e : Ev} {o : Out} (h : Inv s) (h1 : ∀ r v, e ≠ .setFlag r v) (h2 : ∀ sec, e = .start sec → s.proc = none)
    (hs : step s e = some o) : ∃ t, o = .ok t ∧ Inv t := by
  cases e with
  | setFlag r v => exact absurd rfl (h1 r v)
  | create r same =>
    simp only [step] at hs
    split at hs
    · cases hs
    next ha =>
      cases hs
      have hn : ∀ x ∈ s.list, x.ep ≠ r := fun x hx hq => ha (hq ▸ (h.entry x hx).1)
      exact ⟨_, rfl, inv_nodeAdd (inv_set h hn rfl) same hn (by simp [setEp]) (by simp [setEp])⟩
  | add r same =>
    simp only [step] at hs
    split at hs
    next ha =>
      obtain ⟨t, ht, hi, -⟩ := inv_addTimer h same ha
      rw [ht] at hs
      cases hs
      exact ⟨t, rfl, hi⟩
    · cases hs
  | clear r =>
    simp only [step] at hs
    split at hs
    · obtain ⟨t, ht, hi, -⟩ := inv_clear h r
      rw [ht] at hs
      cases hs
      exact ⟨t, rfl, hi⟩
    · cases hs
  | resetBegin r =>
    simp only [step] at hs
    split at hs
    · cases hs
      refine ⟨_, rfl, ?_, ?_, h.apart, h.low, h.time, h.pops⟩
      · intro x hx
        have := h.entry x hx
        by_cases hq : x.ep = r
        · rw [hq] at this
          simpa [setEp, hq] using this
        · simpa [setEp, hq] using this
      · intro x hx
        by_cases hq : x = r
        · simp [setEp, hq] at hx
          rw [hq]
          exact h.has r hx
        · simp [setEp, hq] at hx
          exact h.has x hx
    · cases hs
  | resetEnd r =>
    simp only [step] at hs
    split at hs
    · obtain ⟨t, ht, hi, -⟩ := inv_finish h r
      rw [ht] at hs
      cases hs
      exact ⟨t, rfl, hi⟩
    · cases hs
  | free r =>
    simp only [step] at hs
    split at hs
    · obtain ⟨t, ht, hi, hn, -, hh, -⟩ := inv_finish h r
      rw [ht] at hs
      cases hs
      exact ⟨_, rfl, inv_set hi hn hh⟩
    · cases hs
  | proc sec =>
    simp only [step] at hs
    split at hs
    · cases hs
      refine ⟨_, rfl, h.entry, h.has, h.apart, h.low, ?_, h.pops⟩
      intro x hx
      cases hx
      show sec ≤ if sec > s.clock then sec else s.clock
      split <;> omega
    · cases hs
  | round tick next same =>
    simp only [step] at hs
    split at hs
    · cases hs
    next sec hp =>
      cases hs
      rw [protect_id h (fun r hr => by cases hr)]
      exact ⟨s, rfl, h⟩
    next sec r hp =>
      split at hs
      next ha =>
        obtain ⟨t, ht, hi, h3, h4⟩ := inv_addTimer h same ha
        rw [ht] at hs
        cases hs
        refine ⟨t, ?_, hi⟩
        show Out.ok (protect t sec tick (some r)) = _
        rw [protect_id hi]
        intro x hx e he hq
        cases hx
        have := h4 e he hq
        have := h.time sec hp
        omega
      · cases hs
  | procEnd =>
    simp only [step] at hs
    split at hs
    · cases hs
    · cases hs
      exact ⟨_, rfl, h.entry, h.has, h.apart, h.low, fun x hx => (by cases hx), h.pops⟩
  | start sec =>
    cases hs
    refine ⟨_, rfl, h.entry, h.has, h.apart, h.low, fun x hx => ?_, h.pops⟩
    have hx' : s.proc = some x := hx
    rw [h2 sec rfl] at hx'
    cases hx'
  | resetGc =>
    simp only [step] at hs
    have hg : Inv { s with gc := true } := ⟨h.entry, h.has, h.apart, h.low, h.time, h.pops⟩
    obtain ⟨t, ht, hi, h3, h4⟩ := inv_clearAll hg ((s.list.map (·.ep)).filter fun r => (s.ep r).alive)
    rw [ht] at hs
    cases hs
    have hnil : t.list = [] := by
      cases hl : t.list with
      | nil => rfl
      | cons e l =>
        have he : e ∈ t.list := by rw [hl]; exact List.mem_cons_self
        have hes : e ∈ s.list := h3 e he
        exact absurd rfl (h4 e.ep (List.mem_filter.2 ⟨List.mem_map_of_mem hes, (h.entry e hes).1⟩) e he)
    refine ⟨_, rfl, ?_, ?_, List.Pairwise.nil, ?_, hi.time, hi.pops⟩
    · exact fun x hx => by cases hx
    · intro x hx
      obtain ⟨e, he, -⟩ := hi.has x hx
      rw [hnil] at he
      cases he
    · exact fun x hx => by cases hx
  | resetDone =>
    cases hs
    exact ⟨_, rfl, h.entry, h.has, h.apart, h.low, h.time, h.pops⟩

theorem inv_init (interval clock : Int) : Inv (init interval clock) :=
  ⟨fun _ h => (by cases h), fun _ h => (by cases h), List.Pairwise.nil, fun _ h => (by cases h), fun _ h => (by cases h), rfl⟩

theorem inv_run {s : S} {es : List Ev} {o : Out} (h : Inv s) (ht : Tidy s es) (hr : run s es = some o) : ∃ t, o = .ok t ∧ Inv t := by
  induction es generalizing s with
  | nil => cases hr; exact ⟨s, rfl, h⟩
  | cons e es ih =>
    simp only [run] at hr
    obtain ⟨t1, t2, t3⟩ := ht
    split at hr
    · cases hr
    next hb =>
      obtain ⟨t, ht, -⟩ := inv_step h t1 t2 hb
      cases ht
    next t hb =>
      obtain ⟨u, hu, hi⟩ := inv_step h t1 t2 hb
      cases hu
      exact ih hi (t3 t hb) hr

/-! ## The property -/

/-- C104: no list node is erased that is not in the list. -/
theorem C104_safe_partial {interval clock : Int} {es : List Ev} {o : Out} (ht : Tidy (init interval clock) es)
    (hr : run (init interval clock) es = some o) : o ≠ .ub := by
  obtain ⟨t, rfl, -⟩ := inv_run (inv_init interval clock) ht hr
  exact fun h => by cases h

theorem count_one {l : List Entry} {r : Nat} {a : Nat} (h : l.Pairwise fun a b => a.addr ≠ b.addr)
    (hr : ∀ e ∈ l, e.ep = r → e.addr = a) : l.countP (fun e => e.ep == r) ≤ 1 := by
  induction l with
  | nil => simp
  | cons x l ih =>
    rw [List.pairwise_cons] at h
    rw [List.countP_cons]
    have hl := ih h.2 (fun e he => hr e (List.mem_cons_of_mem _ he))
    by_cases hx : x.ep = r
    · have : l.countP (fun e => e.ep == r) = 0 := by
        rw [List.countP_eq_zero]
        intro e he hq
        exact h.1 e he ((hr x List.mem_cons_self hx).trans (hr e (List.mem_cons_of_mem _ he) (by simpa using hq)).symm)
      simp [this, hx]
    · simpa [hx] using hl

/-- C104: an endpoint has one timer if it says so and none otherwise, and timers are only of endpoints that exist. -/
theorem C104_exact_partial {interval clock : Int} {es : List Ev} {s : S} (ht : Tidy (init interval clock) es)
    (hr : run (init interval clock) es = some (.ok s)) :
    (∀ r, s.list.countP (fun e => e.ep == r) = if (s.ep r).has then 1 else 0) ∧ ∀ e ∈ s.list, (s.ep e.ep).alive = true := by
  obtain ⟨t, ht', hi⟩ := inv_run (inv_init interval clock) ht hr
  cases ht'
  refine ⟨fun r => ?_, fun e he => (hi.entry e he).1⟩
  split
  next hh =>
    obtain ⟨e, he, her⟩ := hi.has r hh
    have h1 : 0 < s.list.countP (fun e => e.ep == r) := List.countP_pos_iff.2 ⟨e, he, by simp [her]⟩
    have h2 := count_one (r := r) (a := e.addr) hi.apart (fun x hx hq => by
      have e1 := (hi.entry x hx).2.2
      have e2 := (hi.entry e he).2.2
      rw [hq] at e1
      rw [her, e1] at e2
      exact Option.some.inj e2)
    omega
  next hh =>
    rw [List.countP_eq_zero]
    intro e he hq
    have := (hi.entry e he).2.1
    rw [show e.ep = r by simpa using hq] at this
    exact hh this

/-- C104: the code that removes the first timer of the list as a protection is never reached. -/
theorem C104_protect_partial {interval clock : Int} {es : List Ev} {s : S} (ht : Tidy (init interval clock) es)
    (hr : run (init interval clock) es = some (.ok s)) : s.pops = 0 := by
  obtain ⟨t, ht', hi⟩ := inv_run (inv_init interval clock) ht hr
  cases ht'
  exact hi.pops

/-- An endpoint without the flag keeps no iterator. -/
def End (s : S) : Prop := ∀ r, (s.ep r).has = false → (s.ep r).it = none

theorem end_clear {s t : S} {r : Nat} (h : End s) (hc : clearTimer s r = some t) : End t ∧ (t.ep r).it = none ∧ (t.ep r).has = false := by
  unfold clearTimer nodeRemove at hc
  unfold End at *
  have := h r
  split at hc
  · split at hc
    · cases hc
      simp only [setEp]
      grind
    · split at hc
      · cases hc
        simp only [setEp]
        grind
      · cases hc
  · cases hc
    grind

theorem end_nodeAdd {s : S} {r : Nat} (same : Bool) (h : End s) : End (nodeAdd s r same) := by
  unfold nodeAdd
  unfold End at *
  split <;> simp only [setEp] <;> grind

theorem end_addTimer {s t : S} {r : Nat} {same : Bool} (h : End s) (hc : addTimer s r same = some t) : End t := by
  unfold addTimer at hc
  obtain ⟨u, hu, he⟩ := Option.map_eq_some_iff.mp hc
  have h1 := (end_clear h hu).1
  subst he
  split
  · exact h1
  · exact end_nodeAdd same h1

theorem end_finish {s t : S} {r : Nat} (h : End s) (hc : finish s r = some t) : End t := by
  unfold finish at hc
  obtain ⟨u, hu, he⟩ := Option.map_eq_some_iff.mp hc
  obtain ⟨h1, h2, -⟩ := end_clear h hu
  subst he
  unfold End at *
  simp only [setEp]
  grind

theorem end_clearAll (rs : List Nat) : ∀ {s t : S}, End s → clearAll s rs = some t → End t := by
  induction rs with
  | nil => intro s t h hc; cases hc; exact h
  | cons r rs ih =>
    intro s t h hc
    unfold clearAll at hc
    split at hc
    · cases hc
    · next u hu =>
      refine ih ?_ hc
      split at hu
      · exact (end_clear h hu).1
      · exact end_finish h hu

theorem end_protect {s : S} (sec tick : Int) (next : Option Nat) (h : End s) : End (protect s sec tick next) := by
  unfold protect
  split
  · exact h
  · split <;> exact h

theorem of_ok {o : Option S} {t : S} (h : ofOption o = .ok t) : o = some t := by
  cases o with
  | none => cases h
  | some s => cases h; rfl

theorem end_step {s t : S} {e : Ev} (h : End s) (h1 : ∀ r v, e ≠ .setFlag r v) (hs : step s e = some (.ok t)) : End t := by
  cases e with
  | setFlag r v => exact absurd rfl (h1 r v)
  | create r same =>
    simp only [step] at hs
    split at hs
    · cases hs
    · cases hs
      refine end_nodeAdd same ?_
      unfold End at *
      simp only [setEp]
      grind
  | add r same =>
    simp only [step] at hs
    split at hs
    · exact end_addTimer h (of_ok (Option.some.inj hs))
    · cases hs
  | clear r =>
    simp only [step] at hs
    split at hs
    · exact (end_clear h (of_ok (Option.some.inj hs))).1
    · cases hs
  | resetBegin r =>
    simp only [step] at hs
    split at hs
    · cases hs
      unfold End at *
      simp only [setEp]
      grind
    · cases hs
  | resetEnd r =>
    simp only [step] at hs
    split at hs
    · exact end_finish h (of_ok (Option.some.inj hs))
    · cases hs
  | free r =>
    simp only [step] at hs
    split at hs
    · obtain ⟨u, hu, he⟩ := Option.map_eq_some_iff.mp (of_ok (Option.some.inj hs))
      have h2 := end_finish h hu
      subst he
      unfold End at *
      simp only [setEp]
      grind
    · cases hs
  | proc sec =>
    simp only [step] at hs
    split at hs
    · cases hs; exact h
    · cases hs
  | round tick next same =>
    simp only [step] at hs
    split at hs
    · cases hs
    · cases hs; exact end_protect _ _ _ h
    · split at hs
      · obtain ⟨u, hu, he⟩ := Option.map_eq_some_iff.mp (of_ok (Option.some.inj hs))
        subst he
        exact end_protect _ _ _ (end_addTimer h hu)
      · cases hs
  | procEnd =>
    simp only [step] at hs
    split at hs
    · cases hs
    · cases hs; exact h
  | start sec => cases hs; exact h
  | resetGc =>
    simp only [step] at hs
    obtain ⟨u, hu, he⟩ := Option.map_eq_some_iff.mp (of_ok (Option.some.inj hs))
    subst he
    have h2 : End u := end_clearAll _ (s := { s with gc := true }) h hu
    exact h2
  | resetDone => cases hs; exact h

theorem end_run {es : List Ev} : ∀ {s t : S}, End s → Tidy s es → run s es = some (.ok t) → End t := by
  induction es with
  | nil => intro s t h _ hr; cases hr; exact h
  | cons e es ih =>
    intro s t h ht hr
    simp only [run] at hr
    obtain ⟨t1, t2, t3⟩ := ht
    split at hr
    · cases hr
    · cases hr
    · next u hu => exact ih (end_step h t1 hu) (t3 _ hu) hr

/-- C104: the iterator of an endpoint with `HAS_PING_TIMER` points to a timer of this endpoint that is in the list; an endpoint without it
keeps no iterator. -/
theorem C104_iterator_partial {interval clock : Int} {es : List Ev} {s : S} (ht : Tidy (init interval clock) es)
    (hr : run (init interval clock) es = some (.ok s)) (r : Nat) :
    match (s.ep r).it with
    | none => (s.ep r).has = false
    | some a => (s.ep r).has = true ∧ ∃ e ∈ s.list, e.addr = a ∧ e.ep = r := by
  obtain ⟨t, ht', hi⟩ := inv_run (inv_init interval clock) ht hr
  cases ht'
  have he := end_run (s := init interval clock) (fun _ _ => rfl) ht hr r
  cases hh : (s.ep r).has with
  | false => rw [he hh]
  | true =>
    obtain ⟨e, h1, h2⟩ := hi.has r hh
    have h3 := (hi.entry e h1).2.2
    rw [h2] at h3
    rw [h3]
    exact ⟨rfl, e, h1, rfl, h2⟩

/-- Two endpoints, the timer of the first one set again in a round and that of the second one cleared. -/
example : ∃ s, run (init 8 100) [.create 1 false, .create 2 false, .proc 108, .round 108 (some 1) false, .procEnd, .clear 2] = some (.ok s) ∧
    (s.ep 1).it = some 2 ∧ s.list.map (·.addr) = [2] ∧ (s.ep 2).it = none := ⟨_, rfl, by decide +kernel, by decide +kernel, by decide +kernel⟩

/-- C104: after the timers were cleared in `reset`, and as long as it lasts, none is there. -/
theorem C104_reset_partial {interval clock : Int} {es : List Ev} {s t : S} (ht : Tidy (init interval clock) es)
    (hr : run (init interval clock) es = some (.ok s)) (hs : step s .resetGc = some (.ok t)) (r : Nat) : (t.ep r).has = false := by
  obtain ⟨s', hs', hi⟩ := inv_run (inv_init interval clock) ht hr
  cases hs'
  obtain ⟨t', ht', hi'⟩ := inv_step hi (by simp) (by simp) hs
  cases ht'
  have hl : t.list = [] := by
    simp only [step, ofOption] at hs
    split at hs
    · cases hs
    next u hu =>
      cases hs
      obtain ⟨v, -, rfl⟩ := Option.map_eq_some_iff.1 hu
      rfl
  cases hq : (t.ep r).has with
  | false => rfl
  | true =>
    obtain ⟨e, he, -⟩ := hi'.has r hq
    rw [hl] at he
    cases he

/-- The application sets the time back in a callback of the ping of endpoint 1. -/
def back : List Ev := [.create 1 false, .proc 108, .start 100, .round 108 (some 1) false, .clear 1]

/-- C104 is false of the code if the time is set back inside `proc`: the protection removes a timer that is in use. -/
theorem C104_start_false : ¬ ∀ interval clock es o, (∀ e ∈ es, ∀ r v, e ≠ .setFlag r v) → run (init interval clock) es = some o → o ≠ .ub := fun h =>
  h 8 100 back _ (by simp [back]) rfl rfl

/-- C104 is false of the code if the application uses `set_flag`: a second timer is set, and the protection is reached. -/
theorem C104_flag_false :
    (¬ ∀ interval clock es s, (∀ e ∈ es, ∀ sec, e ≠ .start sec) → run (init interval clock) es = some (.ok s) →
      s.list.countP (fun e => e.ep == 1) ≤ 1) ∧
    ¬ ∀ interval clock es s, (∀ e ∈ es, ∀ sec, e ≠ .start sec) → run (init interval clock) es = some (.ok s) → s.pops = 0 :=
  ⟨fun h => absurd (h 8 100 [.create 1 false, .setFlag 1 false, .add 1 false] _ (by simp) rfl) (by decide +kernel),
   fun h => absurd (h 8 100 [.create 1 false, .setFlag 1 false, .add 1 false, .proc 108, .round 108 (some 1) false] _ (by simp) rfl)
     (by decide +kernel)⟩

/-- A boolean form of `Tidy`. -/
def tidyB (s : S) : List Ev → Bool
  | [] => true
  | e :: es =>
    (match e with
      | .setFlag _ _ => false
      | .start _ => s.proc == none
      | _ => true) &&
    match step s e with
    | some (.ok t) => tidyB t es
    | _ => true

theorem tidyB_iff {s : S} {es : List Ev} (h : tidyB s es = true) : Tidy s es := by
  induction es generalizing s with
  | nil => trivial
  | cons e es ih =>
    simp only [tidyB, Bool.and_eq_true] at h
    refine ⟨?_, ?_, fun t ht => ?_⟩
    · rintro r v rfl
      simp at h
    · rintro sec rfl
      simpa using h.1
    · rw [ht] at h
      exact ih h.2

/-- Three endpoints, of which one is pinged, one is reset while its timer is set again, and one is the node's own. -/
def some3 : List Ev :=
  [.start 100, .create 1 false, .create 2 false, .create 3 true, .proc 110, .round 108 (some 1) false, .resetBegin 2, .add 2 false,
   .resetEnd 2, .free 2, .procEnd, .create 2 false, .resetGc, .add 1 false, .resetDone, .add 1 false]

example : Tidy (init 8 0) some3 := tidyB_iff (by decide +kernel)

example : (match run (init 8 0) some3 with | some (.ok s) => some (s.list, s.fresh) | _ => none) = some ([⟨4, 118, 1⟩], 5) := by
  decide +kernel

end Verif.Node.PingIter
