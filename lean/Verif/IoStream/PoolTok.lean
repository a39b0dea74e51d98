import Verif.IoStream.PoolSpec

/-!
Every call of listen and connect is answered once.
-/
namespace Verif.IoStream.Pool

/-- The frame is the running call `t`. -/
def isL (t : Tok) : Frame → Bool
  | .listenRet u => u == t
  | _ => false

/-- Calls, answers and requests agree. -/
structure Tok1 (s : St) (t : Tok) : Prop where
  bal : answers t s.log + pend t s.reqs = okRets t s.log + s.stack.countP (isL t)
  one : rets t s.log + s.stack.countP (isL t) ≤ 1
  new : s.calls ≤ t → answers t s.log = 0 ∧ pend t s.reqs = 0 ∧ rets t s.log = 0 ∧ s.stack.countP (isL t) = 0

/-- Nothing about calls changes. -/
structure Same (s s' : St) : Prop where
  calls : s.calls ≤ s'.calls
  a : ∀ t, answers t s'.log = answers t s.log
  p : ∀ t, pend t s'.reqs = pend t s.reqs
  r : ∀ t, rets t s'.log = rets t s.log
  o : ∀ t, okRets t s'.log = okRets t s.log
  l : ∀ t, s'.stack.countP (isL t) = s.stack.countP (isL t)

theorem Same.refl (s : St) : Same s s := ⟨Nat.le_refl _, fun _ => rfl, fun _ => rfl, fun _ => rfl, fun _ => rfl, fun _ => rfl⟩

theorem Same.trans {a b c : St} (h : Same a b) (h' : Same b c) : Same a c :=
  ⟨Nat.le_trans h.calls h'.calls, fun t => (h'.a t).trans (h.a t), fun t => (h'.p t).trans (h.p t),
   fun t => (h'.r t).trans (h.r t), fun t => (h'.o t).trans (h.o t), fun t => (h'.l t).trans (h.l t)⟩

theorem Same.tok {s s' : St} (h : Same s s') {t : Tok} (ht : Tok1 s t) : Tok1 s' t := by
  constructor
  · rw [h.a, h.p, h.o, h.l]; exact ht.bal
  · rw [h.r, h.l]; exact ht.one
  · intro hc
    rw [h.a, h.p, h.r, h.l]; exact ht.new (Nat.le_trans h.calls hc)

/-- Events that have nothing to do with calls. -/
def Ev.other : Ev → Bool
  | .ret _ _ | .answer _ _ _ => false
  | _ => true

theorem other_count {l : List Ev} (h : ∀ e ∈ l, e.other = true) (t : Tok) :
    answers t l = 0 ∧ rets t l = 0 ∧ okRets t l = 0 := by
  refine ⟨List.countP_eq_zero.2 ?_, List.countP_eq_zero.2 ?_, List.countP_eq_zero.2 ?_⟩ <;>
  · intro e he
    have := h e he
    cases e <;> simp_all [Ev.other, isAnswer, isRet, isOkRet]

theorem same_of {s s' : St} (hc : s.calls ≤ s'.calls) (hl : ∃ es, s'.log = s.log ++ es ∧ ∀ e ∈ es, e.other = true)
    (hp : ∀ t, pend t s'.reqs = pend t s.reqs) (hs : ∀ t, s'.stack.countP (isL t) = s.stack.countP (isL t)) : Same s s' := by
  obtain ⟨es, e, ho⟩ := hl
  refine ⟨hc, ?_, hp, ?_, ?_, hs⟩ <;> intro t <;>
    simp only [e, answers, rets, okRets, List.countP_append] <;>
    have := other_count ho t <;> simp only [answers, rets, okRets] at this <;> omega

theorem same_set (s : St) (r : Ref) (c : Conn) : Same s (s.set r c) := same_of (Nat.le_refl _) ⟨[], by simp [St.set], by simp⟩
  (fun _ => rfl) (fun _ => rfl)

theorem countL_rehash (t : Tok) (l : List Frame) : (l.map Frame.rehash).countP (isL t) = l.countP (isL t) := by
  induction l with
  | nil => rfl
  | cons f l ih =>
    have : isL t f.rehash = isL t f := by cases f <;> rfl
    simp [List.countP_cons, ih, this]

theorem same_shutdown {ev : Env} {s s' : St} {r : Ref} (h : shutdownConn ev s r = .ok s') : Same s s' := by
  unfold shutdownConn at h
  split at h
  · cases h
  · cases h
    refine same_of (Nat.le_refl _) ⟨[], by simp, by simp⟩ (fun _ => rfl) ?_
    intro t
    simp only
    split
    · exact countL_rehash t _
    · rfl

theorem same_run {ev : Env} {s s' : St} {r : Ref} (h : disconnectRun ev s r = .ok s') : Same s s' := by
  unfold disconnectRun at h
  split at h
  · cases h; exact .refl _
  · exact (same_set _ _ _).trans (same_shutdown h)

theorem same_inner {ev : Env} {s s' : St} {r : Ref} {cb : Option Tok} {force : Bool}
    (h : disconnectInner ev s r cb force = .ok s') : Same s s' := by
  unfold disconnectInner at h
  simp only at h
  split at h
  · cases h; exact same_set _ _ _
  · split at h
    · cases h; exact (same_set _ _ _).trans (same_set _ _ _)
    · exact ((same_set _ _ _).trans (same_set _ _ _)).trans (same_run h)

theorem same_after {ev : Env} {s s' : St} {r : Ref} (h : afterTry ev s r = .ok s') : Same s s' := by
  unfold afterTry at h
  split at h
  · exact same_run h
  · cases h; exact .refl _

theorem same_after' {ev : Env} {s s' : St} {r : Ref} {b : Bool} (h : (if b then afterTry ev s r else .ok s) = Out.ok s') :
    Same s s' := by
  cases b with
  | false => cases h; exact .refl _
  | true => exact same_after h

theorem same_cancel {ev : Env} {s s' : St} {r : Ref} {after : Bool} (h : cancelNext ev s r after = .ok s') : Same s s' := by
  unfold cancelNext at h
  split at h
  · exact (same_set _ _ _).trans (same_after' h)
  · simp only at h
    split at h
    · cases h
    · cases h
      refine same_of (Nat.le_refl _) ⟨[_], rfl, by simp [Ev.other]⟩ (fun _ => rfl) ?_
      intro t
      simp [St.push, St.emit, St.set, List.countP_cons, isL]

theorem same_try {ev : Env} {s s' : St} {r : Ref} {after : Bool} (h : tryWrite ev s r after = .ok s') : Same s s' := by
  unfold tryWrite at h
  simp only at h
  split at h
  · exact same_after' h
  · split at h
    · exact same_after' h
    · split at h
      · exact same_cancel h
      · split at h
        · refine Same.trans ?_ (same_after' h)
          refine same_of (Nat.le_refl _) ⟨[], by simp [St.set], by simp⟩ ?_ (fun _ => rfl)
          intro t
          simp [St.set, pend, isPend]
        · exact (same_set _ _ _).trans (same_after' h)

theorem same_send {ev : Env} {s s' : St} {r : Ref} {m : Nat} (h : send ev s r m = .ok s') : Same s s' := by
  unfold send at h
  split at h
  · cases h; exact .refl _
  · refine Same.trans ?_ (same_try h)
    exact same_of (Nat.le_refl _) ⟨[_], rfl, by simp [Ev.other]⟩ (fun _ => rfl) (fun _ => rfl)

theorem same_all {ev : Env} (rs : List Ref) : ∀ {s s' : St}, disconnectAll ev s rs = .ok s' → Same s s' := by
  induction rs with
  | nil => intro s s' h; cases h; exact .refl _
  | cons r rs ih =>
    intro s s' h
    unfold disconnectAll at h
    match e : disconnectInner ev s r none false, h with
    | .ok c, h => exact (same_inner e).trans (ih h)

theorem same_swap {s : St} {f : Frame} {fs : List Frame} (hk : s.stack = f :: fs) (hf : ∀ t, isL t f = false) (e : Ev)
    (he : e.other = true) (g : Frame) (hg : ∀ t, isL t g = false) : Same s ((s.pop.emit e).push g) := by
  refine same_of (Nat.le_refl _) ⟨[e], rfl, by simpa using he⟩ (fun _ => rfl) ?_
  intro t
  simp [St.push, St.emit, St.pop, hk, List.countP_cons, hf, hg]

theorem same_pop {s : St} {f : Frame} {fs : List Frame} (hk : s.stack = f :: fs) (hf : ∀ t, isL t f = false) :
    Same s s.pop := by
  refine same_of (Nat.le_refl _) ⟨[], by simp [St.pop], by simp⟩ (fun _ => rfl) ?_
  intro t
  simp [St.pop, hk, List.countP_cons, hf]

theorem same_gc {s s' : St} {r : Ref} {v : Bool} (h : gcErase s r v = .ok s') : Same s s' := by
  unfold gcErase at h
  split at h
  · cases h
    exact same_of (Nat.le_refl _) ⟨[], by simp, by simp⟩ (fun _ => rfl) (fun _ => rfl)
  · cases h

theorem use_ok {s s' : St} {r : Ref} {k : Out} (h : use s r k = .ok s') : k = .ok s' := by
  unfold use at h
  split at h
  · exact h
  · cases h

theorem answers_snoc (t : Tok) (l : List Ev) (e : Ev) : answers t (l ++ [e]) = answers t l + if isAnswer t e then 1 else 0 := by
  simp [answers, List.countP_append, List.countP_cons]

theorem rets_snoc (t : Tok) (l : List Ev) (e : Ev) : rets t (l ++ [e]) = rets t l + if isRet t e then 1 else 0 := by
  simp [rets, List.countP_append, List.countP_cons]

theorem okRets_snoc (t : Tok) (l : List Ev) (e : Ev) : okRets t (l ++ [e]) = okRets t l + if isOkRet t e then 1 else 0 := by
  simp [okRets, List.countP_append, List.countP_cons]

theorem pend_snoc (t : Tok) (l : List Req) (q : Req) : pend t (l ++ [q]) = pend t l + if isPend t q then 1 else 0 := by
  simp [pend, List.countP_append, List.countP_cons]

theorem pend_erase (t : Tok) (l : List Req) (q : Req) (h : q ∈ l) : pend t (l.erase q) + (if isPend t q then 1 else 0) = pend t l := by
  unfold pend
  rw [(List.perm_cons_erase h).countP_eq (isPend t), List.countP_cons]

theorem tok_ret {ev : Env} {s s' : St} (ht : ∀ t, Tok1 s t) (h : ret ev s = .ok s') : ∀ t, Tok1 s' t := by
  unfold ret at h
  split at h
  · cases h
  · cases h
  · next u fs hk =>
    cases h
    intro t
    have := ht t
    have hb := this.bal
    have ho := this.one
    have hn := this.new
    rw [hk] at hb ho hn
    by_cases e : u = t
    · subst e
      simp [List.countP_cons, isL] at hb ho hn
      constructor <;>
        simp [St.emit, St.pop, hk, answers_snoc, rets_snoc, okRets_snoc, isAnswer, isRet, isOkRet] <;> omega
    · simp [List.countP_cons, isL, e] at hb ho hn
      constructor <;>
        simp [St.emit, St.pop, hk, answers_snoc, rets_snoc, okRets_snoc, isAnswer, isRet, isOkRet, e] <;> first | omega | exact hn
  · next fs hk => cases h; exact fun t => (same_pop hk (fun _ => rfl)).tok (ht t)
  · next fs hk =>
    cases h
    refine fun t => Same.tok ?_ (ht t)
    refine (same_pop hk (fun _ => rfl)).trans ?_
    exact same_of (Nat.le_refl _) ⟨[], by simp, by simp⟩ (fun _ => rfl) (fun _ => rfl)
  · next r v fs hk =>
    have h := use_ok h
    split at h
    · cases h; exact fun t => (same_swap hk (fun _ => rfl) _ rfl _ (fun _ => rfl)).tok (ht t)
    · exact fun t => ((same_pop hk (fun _ => rfl)).trans (same_gc h)).tok (ht t)
  · next r v fs hk => exact fun t => ((same_pop hk (fun _ => rfl)).trans (same_gc h)).tok (ht t)
  · next r todo ok fs hk =>
    have h := use_ok h
    split at h
    · cases h; exact fun t => (same_swap hk (fun _ => rfl) _ rfl _ (fun _ => rfl)).tok (ht t)
    · exact fun t => (((same_pop hk (fun _ => rfl)).trans (same_set _ _ _)).trans (same_try h)).tok (ht t)
  · next r todo after fs hk =>
    have h := use_ok h
    split at h
    · cases h; exact fun t => (same_swap hk (fun _ => rfl) _ rfl _ (fun _ => rfl)).tok (ht t)
    · exact fun t => (((same_pop hk (fun _ => rfl)).trans (same_set _ _ _)).trans (same_cancel h)).tok (ht t)
  · next r left free fs hk =>
    have h := use_ok h
    split at h
    · cases h; exact fun t => (same_swap hk (fun _ => rfl) _ rfl _ (fun _ => rfl)).tok (ht t)
    · split at h
      · exact fun t => ((same_pop hk (fun _ => rfl)).trans (same_inner h)).tok (ht t)
      · cases h; exact fun t => (same_pop hk (fun _ => rfl)).tok (ht t)
  · next r force fs hk =>
    exact fun t => ((same_pop hk (fun _ => rfl)).trans (same_inner (use_ok h))).tok (ht t)

/-- What a new call does to its own number `s.calls` and to no other: `code` is returned, `a` answers were made, `p`
requests and `l` frames are left. -/
theorem tok_new {s s' : St} (ht : ∀ t, Tok1 s t) (a p r o l : Nat) (hc : s'.calls = s.calls + 1)
    (ha : ∀ t, answers t s'.log = answers t s.log + if s.calls = t then a else 0)
    (hp : ∀ t, pend t s'.reqs = pend t s.reqs + if s.calls = t then p else 0)
    (hr : ∀ t, rets t s'.log = rets t s.log + if s.calls = t then r else 0)
    (ho : ∀ t, okRets t s'.log = okRets t s.log + if s.calls = t then o else 0)
    (hl : ∀ t, s'.stack.countP (isL t) = s.stack.countP (isL t) + if s.calls = t then l else 0)
    (hb : a + p = o + l) (h1 : r + l ≤ 1) : ∀ t, Tok1 s' t := by
  intro t
  have hb' := (ht t).bal
  have hn := (ht t).new
  have h1' := (ht t).one
  by_cases e : s.calls = t
  · obtain ⟨n1, n2, n3, n4⟩ := hn (by omega)
    constructor
    · rw [ha, hp, ho, hl]; simp only [e, if_true]; omega
    · rw [hr, hl]; simp only [e, if_true]; omega
    · intro hh; omega
  · constructor
    · rw [ha, hp, ho, hl]; simp only [e, if_false]; omega
    · rw [hr, hl]; simp only [e, if_false]; omega
    · intro hh
      rw [ha, hp, hr, hl]; simp only [e, if_false]
      exact hn (by omega)

theorem tok_init : ∀ t, Tok1 St.init t := by
  intro t; constructor <;> simp [St.init, answers, pend, rets, okRets]

theorem countL_push (t : Tok) (f : Frame) (hf : ∀ t, isL t f = false) (l : List Frame) :
    (f :: l).countP (isL t) = l.countP (isL t) := by simp [List.countP_cons, hf]

/-- A request of call `u` is reported and its answer is given: `a` answers, `p` new requests. -/
theorem tok_done {s s' : St} (ht : ∀ t, Tok1 s t) {q : Req} (hq : q ∈ s.reqs) {u : Tok} (hu : ∀ t, isPend t q = (u == t))
    (a p : Nat) (hap : a + p = 1) (hc : s'.calls = s.calls)
    (ha : ∀ t, answers t s'.log = answers t s.log + if u = t then a else 0)
    (hp : ∀ t, pend t s'.reqs = pend t (s.reqs.erase q) + if u = t then p else 0)
    (hr : ∀ t, rets t s'.log = rets t s.log) (ho : ∀ t, okRets t s'.log = okRets t s.log)
    (hl : ∀ t, s'.stack.countP (isL t) = s.stack.countP (isL t)) : ∀ t, Tok1 s' t := by
  intro t
  have hb' := (ht t).bal
  have hn := (ht t).new
  have h1' := (ht t).one
  have he := pend_erase t s.reqs q hq
  rw [hu] at he
  by_cases e : u = t
  · have e' : (u == t) = true := by simp [e]
    rw [e'] at he
    simp only [if_true] at he
    constructor
    · rw [ha, hp, ho, hl]; simp only [e, if_true]; omega
    · rw [hr, hl]; omega
    · intro hh
      obtain ⟨n1, n2, n3, n4⟩ := hn (by omega)
      omega
  · have e' : (u == t) = false := by simp [e]
    rw [e'] at he
    simp only [Bool.false_eq_true, if_false, Nat.add_zero] at he
    constructor
    · rw [ha, hp, ho, hl]; simp only [e, if_false]; omega
    · rw [hr, hl]; omega
    · intro hh
      rw [ha, hp, hr, hl]; simp only [e, if_false]
      rw [he]
      exact hn (by omega)

theorem same_note {s s1 : St} {e : Ev} {f : Frame} (hc : s1.calls = s.calls) (hl : s1.log = s.log) (hr : s1.reqs = s.reqs)
    (hk : s1.stack = s.stack) (he : e.other = true) (hf : ∀ t, isL t f = false) : Same s ((s1.emit e).push f) := by
  refine same_of (Nat.le_of_eq hc.symm) ⟨[e], by simp [St.push, St.emit, hl], by simpa using he⟩ ?_ ?_
  · intro t; simp [St.push, St.emit, hr]
  · intro t; simp [St.push, St.emit, hk, List.countP_cons, hf]

theorem tok_step {max : Nat} {s s' : St} {i : In} (ht : ∀ t, Tok1 s t) (h : step max s i = .ok s') : ∀ t, Tok1 s' t := by
  have same : ∀ {o : Out}, (∀ {x}, o = .ok x → Same s x) → o = .ok s' → ∀ t, Tok1 s' t := fun hs ho t => (hs ho).tok (ht t)
  have e1 : Err.CHANNEL_CLOSING ≠ Err.SUCCESS := by decide
  have e2 : SOCK_BIND_FAILED ≠ Err.SUCCESS := by decide
  have e3 : SOCK_CONNECT_FAILED ≠ Err.SUCCESS := by decide
  have e4 : DNS_GETADDR_FAILED ≠ Err.SUCCESS := by decide
  have e5 : Err.CHANNEL_NOT_SUPPORT ≠ Err.SUCCESS := by decide
  have hcall : Same s { s with calls := s.calls + 1 } :=
    same_of (Nat.le_succ _) ⟨[], by simp, by simp⟩ (fun _ => rfl) (fun _ => rfl)
  -- a call that returns an error
  have hbad : ∀ (s1 : St) (code : Int), code ≠ Err.SUCCESS → s1.calls = s.calls + 1 → s1.log = s.log → s1.reqs = s.reqs →
      s1.stack = s.stack → ∀ t, Tok1 (s1.emit (.ret s.calls code)) t := by
    intro s1 code hc h1 h2 h3 h4
    refine tok_new ht 0 0 1 0 0 h1 ?_ ?_ ?_ ?_ ?_ rfl (Nat.le_refl _) <;> intro t
    · simp [St.emit, h2, answers_snoc, isAnswer]
    · simp [St.emit, h3]
    · simp [St.emit, h2, rets_snoc, isRet]
    · simp [St.emit, h2, okRets_snoc, isOkRet, hc]
    · simp [St.emit, h4]
  -- a call that starts a request
  have hgood : ∀ (s1 : St) (q : Req), (∀ t, isPend t q = (s.calls == t)) → s1.calls = s.calls + 1 → s1.log = s.log →
      s1.reqs = s.reqs ++ [q] → s1.stack = s.stack → ∀ t, Tok1 (s1.emit (.ret s.calls Err.SUCCESS)) t := by
    intro s1 q hq h1 h2 h3 h4
    refine tok_new ht 0 1 1 1 0 h1 ?_ ?_ ?_ ?_ ?_ rfl (Nat.le_refl _) <;> intro t
    · simp [St.emit, h2, answers_snoc, isAnswer]
    · simp [St.emit, h3, pend_snoc, hq]
    · simp [St.emit, h2, rets_snoc, isRet]
    · simp [St.emit, h2, okRets_snoc, isOkRet]
    · simp [St.emit, h4]
  have hres : ∀ (q : Req) (ok : Bool), (∀ t, isPend t q = (s.calls == t)) →
      ∀ t, Tok1 (call s fun s _ => resolve s q ok) t := by
    intro q ok hq
    unfold call resolve
    simp only
    split
    · exact hbad _ _ (by first | exact e1 | exact e2 | exact e3 | exact e4 | exact e5) rfl rfl rfl rfl
    · split
      · exact hgood _ q hq rfl rfl rfl rfl
      · exact hbad _ _ (by first | exact e1 | exact e2 | exact e3 | exact e4 | exact e5) rfl rfl rfl rfl
  -- an answer to a request
  have hans : ∀ (s1 : St) (q : Req) (u : Tok) (code : Int) (c : Option Ref) (f : Frame), q ∈ s.reqs → (∀ t, isPend t q = (u == t)) →
      s1.calls = s.calls → s1.log = s.log → s1.reqs = s.reqs.erase q → s1.stack = s.stack → (∀ t, isL t f = false) →
      ∀ t, Tok1 ((s1.emit (.answer u code c)).push f) t := by
    intro s1 q u code c f hm hq h1 h2 h3 h4 hf
    refine tok_done ht hm hq 1 0 rfl h1 ?_ ?_ ?_ ?_ ?_ <;> intro t
    · simp [St.emit, St.push, h2, answers_snoc, isAnswer]
    · simp [St.emit, St.push, h3]
    · simp [St.emit, St.push, h2, rets_snoc, isRet]
    · simp [St.emit, St.push, h2, okRets_snoc, isOkRet]
    · simp [St.emit, St.push, h4, List.countP_cons, hf]
  cases i with
  | listen sys =>
    simp only [step] at h
    split at h
    · cases h
      unfold callListen listenAddr
      simp only
      by_cases hc : s.closing = true
      · simp only [hc, if_true]
        rw [if_neg e1]
        exact hbad _ _ (by first | exact e1 | exact e2 | exact e3 | exact e4 | exact e5) rfl rfl rfl rfl
      · have hc : s.closing = false := by simpa using hc
        simp only [hc, Bool.false_eq_true, if_false]
        match sys with
        | .fail =>
          simp only
          rw [if_neg e2]
          exact hbad _ _ (by first | exact e1 | exact e2 | exact e3 | exact e4 | exact e5) rfl rfl rfl rfl
        | .ok fd =>
          simp only [if_true]
          refine tok_new ht 1 0 0 0 1 rfl ?_ ?_ ?_ ?_ ?_ rfl (Nat.le_refl _) <;> intro t
          · simp [make, St.emit, St.push, answers_snoc, isAnswer]
          · simp [make, St.emit, St.push]
          · simp [make, St.emit, St.push, rets_snoc, isRet]
          · simp [make, St.emit, St.push, okRets_snoc, isOkRet]
          · simp [make, St.emit, St.push, List.countP_cons, isL]
    · cases h
  | listenName ok =>
    simp only [step] at h
    split at h
    · cases h; exact hres (.dnsListen s.calls) ok (fun _ => rfl)
    · cases h
  | connect sys =>
    simp only [step] at h
    split at h
    · cases h
      unfold call connectAddr
      simp only
      split
      · exact hbad _ _ (by first | exact e1 | exact e2 | exact e3 | exact e4 | exact e5) rfl rfl rfl rfl
      · match sys with
        | .fail => exact hbad _ _ (by first | exact e1 | exact e2 | exact e3 | exact e4 | exact e5) rfl rfl rfl rfl
        | .ok fd => exact hgood _ (.connect s.calls) (fun _ => rfl) rfl rfl rfl rfl
    · cases h
  | connectName ok =>
    simp only [step] at h
    split at h
    · cases h; exact hres (.dnsConnect s.calls) ok (fun _ => rfl)
    · cases h
  | badAddr =>
    simp only [step] at h
    split at h
    · cases h
      unfold call
      simp only
      split
      · exact hbad _ _ (by first | exact e1 | exact e2 | exact e3 | exact e4 | exact e5) rfl rfl rfl rfl
      · exact hbad _ _ (by first | exact e1 | exact e2 | exact e3 | exact e4 | exact e5) rfl rfl rfl rfl
    · cases h
  | disconnect r cb ev =>
    simp only [step] at h
    split at h
    · exact same (fun hx => hcall.trans (same_inner (use_ok hx))) h
    · cases h
  | disconnectFd fd cb ev =>
    simp only [step] at h
    split at h
    · split at h
      · cases h; exact ht
      · exact same (fun hx => hcall.trans (same_inner hx)) h
    · cases h
  | send r m ev =>
    simp only [step] at h
    split at h
    · exact same (fun hx => same_send (use_ok hx)) h
    · cases h
  | close ev =>
    simp only [step] at h
    split at h
    · split at h
      · cases h
      · cases e : disconnectAll ev { s with closing := true } (s.pool.map (·.2)) with
        | ub => rw [e] at h; cases h
        | abort => rw [e] at h; cases h
        | no => rw [e] at h; cases h
        | ok c =>
          rw [e] at h
          cases h
          have h1 : Same s { s with closing := true } :=
            same_of (Nat.le_refl _) ⟨[], by simp, by simp⟩ (fun _ => rfl) (fun _ => rfl)
          have h2 : Same c (c.push .closeWait) :=
            same_of (Nat.le_refl _) ⟨[], by simp [St.push], by simp⟩ (fun _ => rfl) (fun t => by simp [St.push, List.countP_cons, isL])
          exact fun t => ((h1.trans (same_all _ e)).trans h2).tok (ht t)
    · cases h
  | ret ev => exact tok_ret ht h
  | resolved req res =>
    simp only [step] at h
    split at h
    · next hl =>
      split at h
      · next t sys =>
        cases h
        unfold listenAddr
        simp only
        by_cases hc : s.closing = true
        · simp only [St.done, hc, if_true]
          rw [if_neg e1]
          exact hans _ (.dnsListen t) t _ _ .cbEnd hl.2 (fun _ => rfl) rfl rfl rfl rfl (fun _ => rfl)
        · have hc : s.closing = false := by simpa using hc
          simp only [St.done, hc, Bool.false_eq_true, if_false]
          match sys with
          | .fail =>
            simp only
            rw [if_neg e2]
            exact hans _ (.dnsListen t) t _ _ .cbEnd hl.2 (fun _ => rfl) rfl rfl rfl rfl (fun _ => rfl)
          | .ok fd =>
            simp only [if_true]
            exact hans _ (.dnsListen t) t _ _ .cbEnd hl.2 (fun _ => rfl) rfl rfl rfl rfl (fun _ => rfl)
      · next t sys =>
        cases h
        unfold connectAddr
        by_cases hc : s.closing = true
        · simp only [St.done, hc, if_true]
          rw [if_neg e1]
          exact hans _ (.dnsConnect t) t _ _ .cbEnd hl.2 (fun _ => rfl) rfl rfl rfl rfl (fun _ => rfl)
        · have hc : s.closing = false := by simpa using hc
          simp only [St.done, hc, Bool.false_eq_true, if_false]
          match sys with
          | .fail =>
            simp only
            rw [if_neg e3]
            exact hans _ (.dnsConnect t) t _ _ .cbEnd hl.2 (fun _ => rfl) rfl rfl rfl rfl (fun _ => rfl)
          | .ok fd =>
            simp only [if_true]
            refine tok_done ht hl.2 (u := t) (fun _ => rfl) 0 1 rfl rfl ?_ ?_ ?_ ?_ ?_ <;> intro u
            · simp
            · simp [pend_snoc, isPend]
            · rfl
            · rfl
            · rfl
      · next t =>
        cases h
        exact hans _ (.dnsListen t) t _ _ .cbEnd hl.2 (fun _ => rfl) rfl rfl rfl rfl (fun _ => rfl)
      · next t =>
        cases h
        exact hans _ (.dnsConnect t) t _ _ .cbEnd hl.2 (fun _ => rfl) rfl rfl rfl rfl (fun _ => rfl)
      · cases h
    · cases h
  | connected t fd =>
    simp only [step] at h
    split at h
    · next hl =>
      match fd, h with
      | none, h =>
        cases h
        exact hans _ (.connect t) t _ _ .loose hl.2 (fun _ => rfl) rfl rfl rfl rfl (fun _ => rfl)
      | some fd, h =>
        simp only at h
        split at h
        · cases h
          exact hans _ (.connect t) t _ _ .loose hl.2 (fun _ => rfl) rfl rfl rfl rfl (fun _ => rfl)
        · cases h
          exact hans _ (.connect t) t _ _ .cbEnd hl.2 (fun _ => rfl) rfl rfl rfl rfl (fun _ => rfl)
    · cases h
  | incoming l fd acc =>
    simp only [step] at h
    split at h
    · match fd, h with
      | none, h =>
        cases h
        exact fun t => Same.tok (s := s) (by exact same_note rfl rfl rfl rfl rfl (fun t => by cases acc <;> rfl)) (ht t)
      | some fd, h =>
        simp only at h
        split at h
        · cases h
          exact fun t => Same.tok (s := s) (by exact same_note rfl rfl rfl rfl rfl (fun _ => rfl)) (ht t)
        · cases h
          exact fun t => Same.tok (s := s) (by exact same_note rfl rfl rfl rfl rfl (fun _ => rfl)) (ht t)
    · cases h
  | closed hd =>
    simp only [step] at h
    split at h
    · match hd, h with
      | .loose, h =>
        cases h
        exact fun t => Same.tok (s := s) (by exact same_of (Nat.le_refl _) ⟨[], by simp, by simp⟩ (fun _ => rfl) (fun _ => rfl)) (ht t)
      | .conn r, h =>
        simp only at h
        split at h
        · cases h
        · split at h
          · cases h
          · cases h
            exact fun t => Same.tok (s := s) (by exact same_note rfl rfl rfl rfl rfl (fun _ => rfl)) (ht t)
    · cases h
  | written r ok ev =>
    simp only [step] at h
    split at h
    · next hl =>
      have hd : Same s (s.done (.write r)) := by
        refine same_of (Nat.le_refl _) ⟨[], by simp [St.done], by simp⟩ ?_ (fun _ => rfl)
        intro t
        have := pend_erase t s.reqs _ hl.2
        simpa [isPend, St.done] using this
      have h := use_ok h
      split at h
      · cases h
        refine fun t => (hd.trans (same_note rfl rfl rfl rfl rfl (fun _ => rfl))).tok (ht t)
      · exact fun t => ((hd.trans (same_set _ _ _)).trans (same_try h)).tok (ht t)
    · cases h
  | again r ev =>
    simp only [step] at h
    split at h
    · split at h
      · cases h; exact ht
      · have h1 : Same s { s with again := s.again + 1 } :=
          same_of (Nat.le_refl _) ⟨[], by simp, by simp⟩ (fun _ => rfl) (fun _ => rfl)
        split at h
        · exact fun t => (h1.trans (same_inner h)).tok (ht t)
        · cases h; exact fun t => h1.tok (ht t)
    · cases h
  | readErr r force =>
    simp only [step] at h
    split at h
    · split at h
      · cases h; exact ht
      · cases h
        exact fun t => Same.tok (s := s) (by exact same_note rfl rfl rfl rfl rfl (fun _ => rfl)) (ht t)
    · cases h
  | data r n free ev =>
    simp only [step] at h
    split at h
    · split at h
      · cases h; exact ht
      · split at h
        · cases h
          exact fun t => Same.tok (s := s) (by exact same_note rfl rfl rfl rfl rfl (fun _ => rfl)) (ht t)
        · split at h
          · exact same same_inner h
          · cases h; exact ht
    · cases h
  | closeDone =>
    simp only [step] at h
    split at h
    · next fs hk =>
      split at h
      · cases h
        have h1 : Same s.pop { s.pop with closing := false } :=
          same_of (Nat.le_refl _) ⟨[], by simp, by simp⟩ (fun _ => rfl) (fun _ => rfl)
        exact fun t => ((same_pop hk (fun _ => rfl)).trans h1).tok (ht t)
      · cases h
    · cases h

theorem tok_run {max : Nat} (is : List In) : ∀ {s s' : St}, (∀ t, Tok1 s t) → run max s is = .ok s' → ∀ t, Tok1 s' t := by
  induction is with
  | nil => intro s s' ht h; cases h; exact ht
  | cons i is ih =>
    intro s s' ht h
    unfold run at h
    match e : step max s i, h with
    | .ok u, h => exact ih (tok_step ht e) h

end Verif.IoStream.Pool
