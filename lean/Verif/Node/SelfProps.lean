import Verif.Node.SelfQueue

/-! Properties C39 (sequence numbers) and C40 (messages to oneself). -/
namespace Verif.Node

/-! ### C39 -/

theorem allocSeq_lt (c : Nat) (h : c < W64) : allocSeq c < W64 ∧ allocSeq c ≠ 0 ∧ allocSeq c = c % (W64 - 1) + 1 := by
  unfold allocSeq
  have hW : W64 = 18446744073709551616 := rfl
  rw [hW] at h ⊢
  split <;> omega

theorem seqAfter_eq (c : Nat) (h : c < W64) (k : Nat) : seqAfter c (k + 1) = (c + k) % (W64 - 1) + 1 ∧ seqAfter c (k + 1) < W64 := by
  have hW : W64 = 18446744073709551616 := rfl
  induction k with
  | zero => have := allocSeq_lt c h; exact ⟨this.2.2, this.1⟩
  | succ k ih =>
    have := allocSeq_lt _ ih.2
    refine ⟨?_, this.1⟩
    show allocSeq (seqAfter c (k + 1)) = _
    rw [this.2.2, ih.1]
    rw [hW]
    omega

/-- C39: no sequence number is 0, and two of them are equal only if at least 2^64 - 1 allocations lie between them. -/
theorem C39_sequence (c : Nat) (h : c < W64) (i j : Nat) (hij : i < j) (hd : j - i < W64 - 1) :
    seqAfter c (i + 1) ≠ 0 ∧ seqAfter c (i + 1) < W64 ∧ seqAfter c (i + 1) ≠ seqAfter c (j + 1) := by
  have hi := seqAfter_eq c h i
  have hj := seqAfter_eq c h j
  have hW : W64 = 18446744073709551616 := rfl
  refine ⟨by rw [hi.1]; omega, hi.2, ?_⟩
  rw [hi.1, hj.1, hW]
  rw [hW] at hd
  omega

/-- Around the end of the range 0 is skipped. -/
example : seqAfter (W64 - 2) 1 = W64 - 1 ∧ seqAfter (W64 - 2) 2 = 1 ∧ seqAfter (W64 - 2) 3 = 2 := by decide

namespace Self

/-! ### C40 -/

/-- Data queued and data delivered, in order. -/
def queuedData (l : List Ev) : List SMsg :=
  l.filterMap fun e => match e with
    | .queued m => if m.kind = .cmd then none else some m
    | _ => none

def gotData (l : List Ev) : List SMsg :=
  l.filterMap fun e => match e with
    | .data m => some m
    | _ => none

def queuedCmd (l : List Ev) : List SMsg :=
  l.filterMap fun e => match e with
    | .queued m => if m.kind = .cmd then some m else none
    | _ => none

def gotCmd (l : List Ev) : List SMsg :=
  l.filterMap fun e => match e with
    | .cmd m => some m
    | _ => none

/-- The queues are what was queued and not delivered, in order, after the messages `hd` and `hc` that are being handled. -/
structure Bal (hd hc : List SMsg) (q : Q) : Prop where
  data : ∃ r, q.data = hd ++ r ∧ queuedData q.log = gotData q.log ++ r
  cmd : ∃ r, q.cmd = hc ++ r ∧ queuedCmd q.log = gotCmd q.log ++ r
  req : ∀ m ∈ q.data, m.kind = .req

/-- Application code that never resets the node inside a callback and sends requests and commands only (the public
sending functions build nothing else). -/
def Calm (cb : List Ev → List Act) : Prop := ∀ l, ∀ a ∈ cb l, ∃ m, a = .send m ∧ m.kind ≠ .rsp

theorem Bal.push {hd hc : List SMsg} {q : Q} (h : Bal hd hc q) (m : SMsg) (hm : m.kind ≠ .rsp) : Bal hd hc (push q m) := by
  obtain ⟨⟨rd, d1, d2⟩, ⟨rc, c1, c2⟩, hr⟩ := h
  unfold Self.push
  cases hk : m.kind with
  | cmd =>
    refine ⟨⟨rd, d1, ?_⟩, ⟨rc ++ [m], ?_, ?_⟩, hr⟩
    · simpa [queuedData, gotData, hk] using d2
    · simp [c1]
    · have : queuedCmd (q.log ++ [.queued m]) = queuedCmd q.log ++ [m] := by simp [queuedCmd, hk]
      have g : gotCmd (q.log ++ [.queued m]) = gotCmd q.log := by simp [gotCmd]
      rw [this, g, c2, List.append_assoc]
  | rsp => exact absurd hk hm
  | req =>
    refine ⟨⟨rd ++ [m], ?_, ?_⟩, ⟨rc, c1, ?_⟩, ?_⟩
    · simp [d1]
    · have : queuedData (q.log ++ [.queued m]) = queuedData q.log ++ [m] := by simp [queuedData, hk]
      have g : gotData (q.log ++ [.queued m]) = gotData q.log := by simp [gotData]
      rw [this, g, d2, List.append_assoc]
    · simpa [queuedCmd, gotCmd, hk] using c2
    · intro x hx
      rcases List.mem_append.mp hx with hx | hx
      · exact hr x hx
      · rw [List.mem_singleton] at hx; rw [hx]; exact hk

/-- What a calm callback leaves alone. -/
structure Same (q q' : Q) : Prop where
  got : gotData q'.log = gotData q.log
  gotc : gotCmd q'.log = gotCmd q.log
  flag : q'.recvSelf = q.recvSelf
  flag' : q'.inCb = q.inCb

theorem push_same (q : Q) (m : SMsg) : Same q (push q m) := by
  unfold push
  split <;> exact ⟨by simp [gotData], by simp [gotCmd], rfl, rfl⟩

theorem Same.trans {a b c : Q} (h : Same a b) (g : Same b c) : Same a c :=
  ⟨g.got.trans h.got, g.gotc.trans h.gotc, g.flag.trans h.flag, g.flag'.trans h.flag'⟩

theorem acts_ok {hd hc : List SMsg} (as : List Act) (ha : ∀ a ∈ as, ∃ m, a = .send m ∧ m.kind ≠ .rsp) (q : Q) (h : Bal hd hc q) :
    Bal hd hc (as.foldl act q) ∧ Same q (as.foldl act q) := by
  induction as generalizing q with
  | nil => exact ⟨h, rfl, rfl, rfl, rfl⟩
  | cons a as ih =>
    obtain ⟨m, rfl, hm⟩ := ha a (by simp)
    have := ih (fun x hx => ha x (by simp [hx])) (push q m) (h.push m hm)
    exact ⟨this.1, (push_same q m).trans this.2⟩

theorem callback_ok {cb : List Ev → List Act} (hcb : Calm cb) {hd hc : List SMsg} {q : Q} (h : Bal hd hc q) :
    Bal hd hc (callback cb q) ∧ Same q (callback cb q) := acts_ok _ (hcb _) q h

/-- The body of the first loop delivers the front message and removes it. -/
theorem stepData_ok {cb : List Ev → List Act} (hcb : Calm cb) {q : Q} (h : Bal [] [] q) {m : SMsg} {r : List SMsg}
    (hq : q.data = m :: r) :
    ∃ q', stepData cb m q = some (q', 1) ∧ Bal [] [] q' ∧ gotData q'.log = gotData q.log ++ [m] ∧ gotCmd q'.log = gotCmd q.log ∧
      q'.recvSelf = q.recvSelf ∧ q'.inCb = q.inCb ∧ r.length ≤ q'.data.length := by
  have hk : m.kind = .req := h.req m (by rw [hq]; simp)
  obtain ⟨⟨rd, d1, d2⟩, ⟨rc, c1, c2⟩, hr⟩ := h
  have hrd : rd = m :: r := by rw [hq] at d1; simpa using d1.symm
  let q0 : Q := { q with log := q.log ++ [.data m] }
  have hg0 : gotData q0.log = gotData q.log ++ [m] := by simp [q0, gotData]
  have b0 : Bal [m] [] q0 := by
    refine ⟨⟨r, by simp [q0, hq], ?_⟩, ⟨rc, c1, ?_⟩, hr⟩
    · have : queuedData q0.log = queuedData q.log := by simp [q0, queuedData]
      rw [this, hg0, d2, hrd]; simp
    · simpa [q0, queuedCmd, gotCmd] using c2
  have hgc0 : gotCmd q0.log = gotCmd q.log := by simp [q0, gotCmd]
  obtain ⟨b1, s1⟩ := callback_ok hcb b0
  -- the second callback
  have hfin : ∃ q2, (if m.needRsp then callback cb { callback cb q0 with log := (callback cb q0).log ++ [.fake m] }
      else callback cb q0) = q2 ∧ Bal [m] [] q2 ∧ Same q0 q2 := by
    cases m.needRsp with
    | false => exact ⟨_, rfl, b1, s1⟩
    | true =>
      let q1 : Q := { callback cb q0 with log := (callback cb q0).log ++ [.fake m] }
      have b1' : Bal [m] [] q1 := by
        obtain ⟨⟨rd, d1, d2⟩, ⟨rc, c1, c2⟩, hr⟩ := b1
        refine ⟨⟨rd, d1, ?_⟩, ⟨rc, c1, ?_⟩, hr⟩
        · simpa [q1, queuedData, gotData] using d2
        · simpa [q1, queuedCmd, gotCmd] using c2
      have s1' : Same (callback cb q0) q1 := ⟨by simp [q1, gotData], by simp [q1, gotCmd], rfl, rfl⟩
      obtain ⟨b2, s2⟩ := callback_ok hcb b1'
      exact ⟨_, rfl, b2, (s1.trans s1').trans s2⟩
  obtain ⟨q2, hq2, b2, s2⟩ := hfin
  -- the front is still m, and nothing behind it was lost
  have hlen : r.length ≤ q2.data.length - 1 := by
    obtain ⟨⟨rd2, e1, e2⟩, _, _⟩ := b2
    have hgot2 : gotData q2.log = gotData q.log ++ [m] := by rw [s2.got, hg0]
    have hmono : ∃ x, queuedData q2.log = queuedData q.log ++ x := by
      have app : ∀ (as : List Act) (q : Q), ∃ x, (as.foldl act q).log = q.log ++ x := by
        intro as
        induction as with
        | nil => intro q; exact ⟨[], by simp⟩
        | cons a as ih =>
          intro q
          obtain ⟨x, hx⟩ := ih (act q a)
          have : ∃ y, (act q a).log = q.log ++ y := by
            cases a with
            | send m => exact ⟨[.queued m], by show (push q m).log = _; unfold push; split <;> rfl⟩
            | reset => exact ⟨[], by simp [act]⟩
          obtain ⟨y, hy⟩ := this
          exact ⟨y ++ x, by rw [List.foldl_cons, hx, hy, List.append_assoc]⟩
      have hc : ∀ q, ∃ x, (callback cb q).log = q.log ++ x := fun q => app _ q
      have : ∃ x, q2.log = q.log ++ x := by
        rw [← hq2]
        obtain ⟨x1, hx1⟩ := hc q0
        cases m.needRsp with
        | false => exact ⟨_, by rw [if_neg (by simp), hx1, List.append_assoc]⟩
        | true =>
          obtain ⟨x2, hx2⟩ := hc { callback cb q0 with log := (callback cb q0).log ++ [.fake m] }
          exact ⟨_, by rw [if_pos rfl, hx2, hx1, List.append_assoc, List.append_assoc, List.append_assoc]⟩
      obtain ⟨x, hx⟩ := this
      exact ⟨queuedData x, by rw [hx]; simp [queuedData]⟩
    obtain ⟨x, hx⟩ := hmono
    rw [e2, hgot2, d2, hrd] at hx
    have := congrArg List.length hx
    simp only [List.length_append, List.length_cons, List.length_nil] at this
    rw [e1]
    simp only [List.cons_append, List.nil_append, List.length_cons]
    omega
  obtain ⟨⟨rd2, e1, e2⟩, ⟨rc2, f1, f2⟩, hr2⟩ := b2
  refine ⟨{ q2 with data := rd2 }, ?_, ⟨⟨rd2, rfl, e2⟩, ⟨rc2, f1, f2⟩, ?_⟩, by rw [s2.got, hg0], by rw [s2.gotc, hgc0], s2.flag, s2.flag', ?_⟩
  · unfold stepData
    simp only [hk, if_true]
    rw [hq2, e1]
    rfl
  · intro x hx; exact hr2 x (by rw [e1]; simp at hx ⊢; exact Or.inr hx)
  · rw [e1] at hlen; simpa using hlen

theorem stepCmd_ok {cb : List Ev → List Act} (hcb : Calm cb) {q : Q} (h : Bal [] [] q) {m : SMsg} {r : List SMsg}
    (hq : q.cmd = m :: r) :
    ∃ q', stepCmd cb m q = some (q', 1) ∧ Bal [] [] q' ∧ gotData q'.log = gotData q.log ∧ gotCmd q'.log = gotCmd q.log ++ [m] ∧
      q'.recvSelf = q.recvSelf ∧ q'.inCb = q.inCb := by
  obtain ⟨⟨rd, d1, d2⟩, ⟨rc, c1, c2⟩, hr⟩ := h
  have hrc : rc = m :: r := by rw [hq] at c1; simpa using c1.symm
  let q0 : Q := { q with log := q.log ++ [.cmd m] }
  have hg0 : gotCmd q0.log = gotCmd q.log ++ [m] := by simp [q0, gotCmd]
  have hd0 : gotData q0.log = gotData q.log := by simp [q0, gotData]
  have b0 : Bal [] [m] q0 := by
    refine ⟨⟨rd, d1, ?_⟩, ⟨r, by simp [q0, hq], ?_⟩, hr⟩
    · simpa [q0, queuedData, gotData] using d2
    · have : queuedCmd q0.log = queuedCmd q.log := by simp [q0, queuedCmd]
      rw [this, hg0, c2, hrc]; simp
  obtain ⟨⟨⟨rd1, e1, e2⟩, ⟨rc1, f1, f2⟩, hr1⟩, s1⟩ := callback_ok hcb b0
  refine ⟨{ callback cb q0 with cmd := rc1 }, ?_, ⟨⟨rd1, e1, e2⟩, ⟨rc1, rfl, f2⟩, hr1⟩, by rw [s1.got, hd0], by rw [s1.gotc, hg0],
    s1.flag, s1.flag'⟩
  unfold stepCmd
  simp only
  rw [show ({ q with log := q.log ++ [.cmd m] } : Q) = q0 from rfl, f1]
  rfl

theorem loopData_ok {cb : List Ev → List Act} (hcb : Calm cb) (k : Nat) (q : Q) (h : Bal [] [] q) :
    ∃ q' n l, loopData cb k q = some (q', n, l) ∧ Bal [] [] q' ∧ q'.recvSelf = q.recvSelf ∧ q'.inCb = q.inCb ∧
      (gotData q'.log).length = (gotData q.log).length + n ∧ (gotCmd q'.log).length = (gotCmd q.log).length ∧
      n + l ≤ k ∧ min k q.data.length ≤ n ∧ (n < k → q'.data = []) := by
  induction k generalizing q with
  | zero => exact ⟨q, 0, 0, rfl, h, rfl, rfl, rfl, rfl, Nat.le_refl _, by simp, by simp⟩
  | succ k ih =>
    unfold loopData
    cases hq : q.data with
    | nil => exact ⟨q, 0, k, rfl, h, rfl, rfl, rfl, rfl, by omega, by simp, fun _ => hq⟩
    | cons m r =>
      obtain ⟨q1, h1, b1, g1, c1, f1, f1', l1⟩ := stepData_ok hcb h hq
      obtain ⟨q2, n, l, h2, b2, f2, f2', g2, c2, n2, m2, e2⟩ := ih q1 b1
      refine ⟨q2, 1 + n, l, by simp [h1, h2], b2, f2.trans f1, f2'.trans f1', ?_, by rw [c2, c1], by omega, ?_, fun hlt => e2 (by omega)⟩
      · rw [g2, g1, List.length_append, List.length_singleton]; omega
      · simp only [List.length_cons]; omega

theorem loopCmd_ok {cb : List Ev → List Act} (hcb : Calm cb) (k : Nat) (q : Q) (h : Bal [] [] q) :
    ∃ q' n, loopCmd cb k q = some (q', n) ∧ Bal [] [] q' ∧ q'.recvSelf = q.recvSelf ∧ q'.inCb = q.inCb ∧
      gotData q'.log = gotData q.log ∧ (gotCmd q'.log).length = (gotCmd q.log).length + n ∧ n ≤ k := by
  induction k generalizing q with
  | zero => exact ⟨q, 0, rfl, h, rfl, rfl, rfl, rfl, Nat.le_refl _⟩
  | succ k ih =>
    unfold loopCmd
    cases hq : q.cmd with
    | nil => exact ⟨q, 0, rfl, h, rfl, rfl, rfl, rfl, by omega⟩
    | cons m r =>
      obtain ⟨q1, h1, b1, g1, c1, f1, f1'⟩ := stepCmd_ok hcb h hq
      obtain ⟨q2, n, h2, b2, f2, f2', g2, c2, n2⟩ := ih q1 b1
      refine ⟨q2, 1 + n, by simp [h1, h2], b2, f2.trans f1, f2'.trans f1', by rw [g2, g1], ?_, by omega⟩
      rw [c2, c1, List.length_append, List.length_singleton]; omega

/-- A call of `dispatch_all_self_msgs` outside callbacks. -/
theorem dispatch_ok {cb : List Ev → List Act} (hcb : Calm cb) (L : Int) (q : Q) (h : Bal [] [] q) (h1 : q.recvSelf = false)
    (h2 : q.inCb = false) :
    ∃ q' n, dispatch L cb q = some (q', n) ∧ Bal [] [] q' ∧ q'.recvSelf = false ∧ q'.inCb = false ∧
      (gotData q'.log).length + (gotCmd q'.log).length = (gotData q.log).length + (gotCmd q.log).length + n ∧
      n ≤ loopLimit L ∧ (gotData q.log).length + min (loopLimit L) q.data.length ≤ (gotData q'.log).length := by
  have h' : Bal [] [] { q with recvSelf := true } := ⟨h.data, h.cmd, h.req⟩
  obtain ⟨q1, n, l, e1, b1, f1, f1', g1, c1, n1, m1, _⟩ := loopData_ok hcb (loopLimit L) _ h'
  obtain ⟨q2, n', e2, b2, f2, f2', g2, c2, n2⟩ := loopCmd_ok hcb l q1 b1
  refine ⟨{ q2 with recvSelf := false }, n + n', ?_, ⟨b2.data, b2.cmd, b2.req⟩, rfl, ?_, ?_, by omega, ?_⟩
  · unfold dispatch
    rw [if_neg (by simp [h1, h2]), e1]
    simp only [e2]
  · show q2.inCb = false
    rw [f2', f1']; exact h2
  · show (gotData q2.log).length + (gotCmd q2.log).length = _
    rw [g2, g1, c2, c1]
    show (gotData q.log).length + n + ((gotCmd q.log).length + n') = _
    omega
  · show _ ≤ (gotData q2.log).length
    rw [g2, g1]
    exact Nat.add_le_add_left m1 _

/-- The sends of an operation are requests or commands. -/
def OpOk : Op → Prop
  | .send m => m.kind ≠ .rsp
  | .sendFromCallback m => m.kind ≠ .rsp
  | .dispatch => True

theorem step_ok {cb : List Ev → List Act} (hcb : Calm cb) (L : Int) (q : Q) (h : Bal [] [] q) (h1 : q.recvSelf = false)
    (h2 : q.inCb = false) (o : Op) (ho : OpOk o) :
    ∃ q', step L cb q o = some q' ∧ Bal [] [] q' ∧ q'.recvSelf = false ∧ q'.inCb = false := by
  cases o with
  | send m =>
    have hs := push_same q m
    obtain ⟨q', n, e, b, f, f', _⟩ := dispatch_ok hcb L (push q m) (h.push m ho) (by rw [hs.flag]; exact h1) (by rw [hs.flag']; exact h2)
    exact ⟨q', by simp [step, send, e], b, f, f'⟩
  | sendFromCallback m =>
    have hb : Bal [] [] { q with inCb := true } := ⟨h.data, h.cmd, h.req⟩
    have hp := hb.push m ho
    have hs := push_same { q with inCb := true } m
    refine ⟨{ push { q with inCb := true } m with inCb := false }, ?_, ⟨hp.data, hp.cmd, hp.req⟩, ?_, rfl⟩
    · have : (push { q with inCb := true } m).inCb = true := hs.flag'
      simp [step, send, dispatch, this]
    · show (push { q with inCb := true } m).recvSelf = false
      rw [hs.flag]; exact h1
  | dispatch =>
    obtain ⟨q', n, e, b, f, f', _⟩ := dispatch_ok hcb L q h h1 h2
    exact ⟨q', by simp [step, e], b, f, f'⟩

theorem run_ok {cb : List Ev → List Act} (hcb : Calm cb) (L : Int) (ops : List Op) (ho : ∀ o ∈ ops, OpOk o) (q : Q)
    (h : Bal [] [] q) (h1 : q.recvSelf = false) (h2 : q.inCb = false) :
    ∃ q', run L cb q ops = some q' ∧ Bal [] [] q' ∧ q'.recvSelf = false ∧ q'.inCb = false := by
  induction ops generalizing q with
  | nil => exact ⟨q, rfl, h, h1, h2⟩
  | cons o os ih =>
    obtain ⟨q1, e1, b1, f1, f1'⟩ := step_ok hcb L q h h1 h2 o (ho o (by simp))
    obtain ⟨q2, e2, r⟩ := ih (fun x hx => ho x (by simp [hx])) q1 b1 f1 f1'
    exact ⟨q2, by simp [run, e1, e2], r⟩

/-- C40 for application code that does not reset the node inside a callback: whatever is sent, at top level, inside
other callbacks or from within deliveries, the data queued so far is the data delivered so far followed by the data
still in the queue, in this order; the same for commands.  Missing: a reset inside a callback (`C40_reset_false`). -/
theorem C40_order_partial (L : Int) (cb : List Ev → List Act) (hcb : Calm cb) (ops : List Op) (ho : ∀ o ∈ ops, OpOk o) :
    ∃ q, run L cb {} ops = some q ∧ queuedData q.log = gotData q.log ++ q.data ∧ queuedCmd q.log = gotCmd q.log ++ q.cmd := by
  have h0 : Bal [] [] ({} : Q) := ⟨⟨[], rfl, rfl⟩, ⟨[], rfl, rfl⟩, by intro m hm; cases hm⟩
  obtain ⟨q, e, b, _⟩ := run_ok hcb L ops ho {} h0 rfl rfl
  obtain ⟨⟨rd, d1, d2⟩, ⟨rc, c1, c2⟩, _⟩ := b
  exact ⟨q, e, by rw [d1]; exact d2, by rw [c1]; exact c2⟩

/-- C40: after any such history, one dispatch handles at most the configured number of messages (10240 if none is configured) and
reports how many, and it delivers all queued data up to that number. -/
theorem C40_limit_partial (L : Int) (cb : List Ev → List Act) (hcb : Calm cb) (ops : List Op) (ho : ∀ o ∈ ops, OpOk o) (q : Q)
    (hq : run L cb {} ops = some q) :
    ∃ q' n, dispatch L cb q = some (q', n) ∧ n ≤ (if 0 < L then L.toNat else 10240) ∧
      (gotData q'.log).length + (gotCmd q'.log).length = (gotData q.log).length + (gotCmd q.log).length + n ∧
      (gotData q.log).length + min (if 0 < L then L.toNat else 10240) q.data.length ≤ (gotData q'.log).length := by
  have h0 : Bal [] [] ({} : Q) := ⟨⟨[], rfl, rfl⟩, ⟨[], rfl, rfl⟩, by intro m hm; cases hm⟩
  obtain ⟨q0, e, b, f, f'⟩ := run_ok hcb L ops ho {} h0 rfl rfl
  rw [hq] at e; cases e
  obtain ⟨q', n, e1, _, _, _, g, n1, m1⟩ := dispatch_ok hcb L q b f f'
  have hl : loopLimit L = if 0 < L then L.toNat else 10240 := by
    unfold loopLimit
    by_cases h : 0 < L
    · rw [if_neg (by omega), if_pos h]
    · rw [if_pos (by omega), if_neg h]
  rw [hl] at n1 m1
  exact ⟨q', n, e1, n1, g, m1⟩

/-- Application code that sends one more message, with the tag increased by ten, for every delivery with a tag below 20. -/
def echo (l : List Ev) : List Act :=
  match l.getLast? with
  | some (.data m) => if m.tag < 20 then [.send ⟨.req, false, m.tag + 10⟩] else []
  | _ => []

example : Calm echo := by
  intro l a ha
  unfold echo at ha
  split at ha
  · split at ha
    · rw [List.mem_singleton] at ha; exact ⟨_, ha, by simp⟩
    · cases ha
  · cases ha

/-- Limit 2: the third message, sent from within a delivery, stays queued and is delivered by the next dispatch. -/
example : ((run 2 echo {} [.sendFromCallback ⟨.req, false, 1⟩, .send ⟨.req, false, 2⟩]).map
      (fun q => ((gotData q.log).map SMsg.tag, q.data.map SMsg.tag)) = some ([1, 2], [11, 12])) ∧
    ((run 2 echo {} [.sendFromCallback ⟨.req, false, 1⟩, .send ⟨.req, false, 2⟩, .dispatch, .dispatch]).map
      (fun q => ((gotData q.log).map SMsg.tag, q.data.map SMsg.tag)) = some ([1, 2, 11, 12, 21, 22], [])) := by decide

/-- C40 is false if the application resets the node inside a delivery: the queue is emptied while its front message is
being handled, and `pop_front` is called on the empty list (undefined behaviour); the second message is lost. -/
theorem C40_reset_false : run 128 (fun _ => [.reset]) {} [.sendFromCallback ⟨.req, false, 1⟩, .send ⟨.req, false, 2⟩] = none := by decide

/-- C48: an answer a node sends to itself (the origin of the request is the node) is taken from the queue without any
callback: the sender never sees it. -/
theorem C48_self_answer_false (cb : List Ev → List Act) (tag : Nat) :
    ∃ q, run 128 cb {} [.send ⟨.rsp, true, tag⟩] = some q ∧ q.data = [] ∧ q.log = [.queued ⟨.rsp, true, tag⟩] := by
  exact ⟨{ log := [.queued ⟨.rsp, true, tag⟩] }, rfl, rfl, rfl⟩

end Self
end Verif.Node
