import Verif.Endpoint.Lemmas

/-! Properties C46 (binding of connections) and C47 (choice of the data connection). -/
namespace Verif.Endpoint

/-- All connections an endpoint lists, with repetitions. -/
def listing (s : S) (e : Nat) : List Nat := (s.ep e).ctrl.toList ++ (s.ep e).data

/-- What C46 asks of a state: every connection is listed exactly once by the endpoint it is bound to and by no other. -/
def BindingOk (s : S) : Prop :=
  ∀ c e, (listing s e).count c = if (s.conn c).binding = some e then 1 else 0

theorem Inv.ok {s : S} (h : Inv s) : BindingOk s := by
  intro c e
  have hb := h.bound c e
  unfold Listed at hb
  unfold listing
  rw [List.count_append]
  by_cases hbd : (s.conn c).binding = some e
  · rw [if_pos hbd]
    rcases hb.mp hbd with hc | hd
    · have hnd := h.apart e c hc
      rw [hc, List.count_eq_zero_of_not_mem hnd]; simp
    · have : (s.ep e).ctrl ≠ some c := fun hc => h.apart e c hc hd
      rw [(h.nodup e).count, if_pos hd, List.count_eq_zero_of_not_mem]
      simpa using this
  · rw [if_neg hbd]
    have hn : ¬ ((s.ep e).ctrl = some c ∨ c ∈ (s.ep e).data) := fun hh => hbd (hb.mpr hh)
    simp only [not_or] at hn
    rw [List.count_eq_zero_of_not_mem (by simpa using hn.1), List.count_eq_zero_of_not_mem hn.2]

/-- `add_connection` says whether the connection is bound to the endpoint afterwards; refused, nothing changes, and it never
touches another connection or endpoint. -/
theorem C46_add (s : S) (e c : Nat) (force : Bool) :
    ((s.ep e).resetting = false → ((addConnection e c force s).2 = true ↔ ((addConnection e c force s).1.conn c).binding = some e)) ∧
    ((addConnection e c force s).2 = false → (addConnection e c force s).1 = s) ∧
    (∀ x, x ≠ c → (addConnection e c force s).1.conn x = s.conn x) ∧ ∀ x, x ≠ e → (addConnection e c force s).1.ep x = s.ep x := by
  unfold addConnection
  split
  · next hr => exact ⟨fun h => by rw [hr] at h; simp at h, fun _ => rfl, fun _ _ => rfl, fun _ _ => rfl⟩
  · split
    · next hb => exact ⟨fun _ => ⟨fun _ => hb, fun _ => rfl⟩, fun h => by simp at h, fun _ _ => rfl, fun _ _ => rfl⟩
    · next hb =>
      split
      · exact ⟨fun _ => ⟨fun h => by simp at h, fun h => absurd h hb⟩, fun _ => rfl, fun _ _ => rfl, fun _ _ => rfl⟩
      · refine ⟨fun _ => ⟨fun _ => ?_, fun _ => rfl⟩, fun h => by simp at h, fun x hx => ?_, fun x hx => ?_⟩
        · simp only [S.setConn, S.setEp, upd, if_true]
          split <;> rfl
        · simp [S.setConn, S.setEp, upd, hx]
        · simp [S.setConn, S.setEp, upd, hx]

example : let t := (addConnection 3 1 false (initial (fun _ => 0) (fun _ => 0))).1
    (addConnection 3 1 false (initial (fun _ => 0) (fun _ => 0))).2 = true ∧ (addConnection 3 1 true t).2 = true ∧
    (addConnection 4 1 false t).2 = false ∧ (t.conn 1).binding = some 3 := by decide

/-- C46, for every history without application code inside a disconnect: the operations end (at most three nested
calls) and each connection is listed exactly once by the endpoint it is bound to, and by no other.
Missing: re-entrant calls, for which it is false (`C46_reentrant_false`). -/
theorem C46_binding_partial (host : Nat → Nat) (pid : Nat → Int) (d : Nat) (ops : List Op) :
    ∃ s, run quiet (d + 3) (initial host pid) ops = some s ∧ BindingOk s := by
  obtain ⟨s, h1, h2⟩ := run_inv d ops _ (initial_inv host pid)
  exact ⟨s, h1, h2.ok⟩

/-- C46: after any such history, losing the control connection or the only data connection leaves no connection
bound to that endpoint, and it lists none; losing another data connection unbinds only that one. -/
theorem C46_loss_partial (host : Nat → Nat) (pid : Nat → Int) (d : Nat) (ops : List Op) (s : S) (c e : Nat)
    (hrun : run quiet (d + 3) (initial host pid) ops = some s) (hb : (s.conn c).binding = some e) :
    ∃ s', connReset quiet (d + 3) c s = some s' ∧
      ((s.ep e).ctrl = some c ∨ (s.ep e).data = [c] → listing s' e = [] ∧ ∀ x, (s'.conn x).binding ≠ some e) ∧
      (¬ ((s.ep e).ctrl = some c ∨ (s.ep e).data = [c]) →
        ∀ x, (s'.conn x).binding = if x = c then none else (s.conn x).binding) := by
  obtain ⟨s1, h1, h2⟩ := run_inv d ops _ (initial_inv host pid)
  rw [hrun] at h1; cases h1
  refine ⟨_, connReset_ok h2 d c, ?_, ?_⟩
  · intro hl
    have he : (afterConn s c).ep e = cleared (s.ep e) := by
      simp only [afterConn, hb, if_pos hl]; simp [afterReset, upd]
    have hlist : listing (afterConn s c) e = [] := by simp [listing, he, cleared]
    refine ⟨hlist, ?_⟩
    intro x hx
    have := (afterConn_inv h2 c).ok x e
    rw [hlist, if_pos hx] at this
    cases this
  · intro hl x
    simp only [afterConn, hb, if_neg hl, setEp_conn, setConn_conn]
    by_cases hx : x = c
    · simp [hx, closed]
    · simp [hx]

/-- A connection counts as connected only while it is bound. -/
def ConnectedBound (s : S) : Prop := ∀ c, (s.conn c).st = .connected → (s.conn c).binding ≠ none

theorem step_connectedBound {s s' : S} (h : Inv s) (hk : ConnectedBound s) (d : Nat) (o : Op)
    (hs : step quiet (d + 3) s o = some s') : ConnectedBound s' := by
  have hcl : ∀ c : Conn, (closed c).st ≠ .connected := by
    intro c; simp only [closed, after]; split <;> simp
  have hreset : ∀ e, ConnectedBound (afterReset s e) := by
    intro e c hc
    have hcb : (afterReset s e).conn c =
        if (s.ep e).ctrl = some c ∨ c ∈ (s.ep e).data then closed (s.conn c) else s.conn c := by
      simp [afterReset, h.connQuiet]
    rw [hcb] at hc ⊢
    split at hc
    · exact absurd hc (hcl _)
    · rename_i hn; rw [if_neg hn]; exact hk c hc
  cases o with
  | add e c f =>
    cases hs
    unfold addConnection
    split
    · exact hk
    · split
      · exact hk
      · split
        · exact hk
        · intro x hx
          simp only [setConn_conn, setEp_conn] at hx ⊢
          by_cases hxc : x = c
          · subst hxc
            rw [if_pos rfl]
            split <;> simp
          · rw [if_neg hxc] at hx ⊢; exact hk x hx
  | resetConn c =>
    rw [step, connReset_ok h] at hs
    cases hs
    unfold afterConn
    split
    · intro x hx
      simp only [setConn_conn] at hx ⊢
      by_cases hxc : x = c
      · subst hxc; rw [if_pos rfl] at hx; exact absurd hx (hcl _)
      · rw [if_neg hxc] at hx ⊢; exact hk x hx
    · split
      · exact hreset _
      · intro x hx
        simp only [setEp_conn, setConn_conn] at hx ⊢
        by_cases hxc : x = c
        · subst hxc; rw [if_pos rfl] at hx; exact absurd hx (hcl _)
        · rw [if_neg hxc] at hx ⊢; exact hk x hx
  | resetEp e =>
    obtain ⟨t, h1, _, h3⟩ := epReset_inv h (d + 1) e
    rw [step, h1] at hs
    cases hs
    rw [h3]; exact hreset e
  | openConn c w a b =>
    simp only [step] at hs
    split at hs
    · cases hs
      intro x hx
      simp only [setConn_conn] at hx ⊢
      by_cases hxc : x = c
      · subst hxc
        rw [if_pos rfl] at hx ⊢
        cases w
        · simp only [Bool.false_eq_true, if_false] at hx
          split at hx
          · cases hx
          · assumption
        · simp at hx
      · rw [if_neg hxc] at hx ⊢; exact hk x hx
    · cases hs; exact hk
  | established c =>
    simp only [step] at hs
    split at hs
    · cases hs
      intro x hx
      simp only [setConn_conn] at hx ⊢
      by_cases hxc : x = c
      · subst hxc
        rw [if_pos rfl] at hx ⊢
        simp only at hx
        split at hx
        · cases hx
        · assumption
      · rw [if_neg hxc] at hx ⊢; exact hk x hx
    · cases hs; exact hk
  | select me e =>
    cases hs
    rcases dataConnection_state me e true s with hh | hh
    · rw [hh]; exact hk
    · rw [hh]; intro x hx; exact hk x hx
  | traffic c t =>
    cases hs
    intro x hx
    simp only [setConn_conn] at hx ⊢
    by_cases hxc : x = c
    · subst hxc; rw [if_pos rfl] at hx ⊢; exact hk x hx
    · rw [if_neg hxc] at hx ⊢; exact hk x hx

/-- C46: after any such history a connection is in the state CONNECTED only if it is bound to an endpoint; so an accepted
connection does not reach that state before its peer is registered. -/
theorem C46_connected_partial (host : Nat → Nat) (pid : Nat → Int) (d : Nat) (ops : List Op) (s : S) (c : Nat)
    (hrun : run quiet (d + 3) (initial host pid) ops = some s) (hc : (s.conn c).st = .connected) :
    ∃ e, (s.conn c).binding = some e := by
  have key : ∀ ops t, Inv t → ConnectedBound t → run quiet (d + 3) t ops = some s → ConnectedBound s := by
    intro ops
    induction ops with
    | nil => intro t _ hk h; cases h; exact hk
    | cons o os ih =>
      intro t hi hk h
      obtain ⟨t', h1, h2⟩ := step_inv hi d o
      simp only [run, h1] at h
      exact ih t' h2 (step_connectedBound hi hk d o h1) h
  have := key ops _ (initial_inv host pid) (by intro x hx; cases hx) hrun c hc
  exact Option.ne_none_iff_exists'.mp this

/-- Three connections of one endpoint; the second data connection is lost. -/
def demoOps : List Op := [.openConn 0 false false false, .openConn 1 false false true, .openConn 2 true false false,
  .add 5 0 false, .add 5 1 true, .add 5 2 true, .established 2, .select 7 5]

example : (run quiet 3 (initial (fun _ => 0) fun _ => 0) (demoOps ++ [.resetConn 2])).map
    (fun s => (listing s 5, (s.conn 0).binding, (s.conn 2).binding, (s.conn 2).st)) = some ([0, 1], some 5, none, .disconnected) := by
  decide +kernel

example : (run quiet 3 (initial (fun _ => 0) fun _ => 0) (demoOps ++ [.resetConn 0])).map
    (fun s => (listing s 5, (s.conn 0).binding, (s.conn 1).binding, (s.conn 2).binding)) = some ([], none, none, none) := by
  decide +kernel

/-- C46 is false with re-entrant calls: if a callback running inside the disconnect of a data connection resets its
endpoint (for example `node::disconnect` from an error callback), that connection stays bound to an endpoint that no
longer lists it. -/
theorem C46_reentrant_false : ∃ (hook : Nat → S → Option S) (ops : List Op) (s : S),
    (∀ c t, hook c t = epReset quiet 3 5 t) ∧
    run hook 4 (initial (fun _ => 0) fun _ => 0) ops = some s ∧ (s.conn 1).binding = some 5 ∧ listing s 5 = [] ∧ ¬ BindingOk s := by
  have h : (run (fun _ t => epReset quiet 3 5 t) 4 (initial (fun _ => 0) fun _ => 0) (demoOps ++ [.resetConn 1])).map
      (fun s => ((s.conn 1).binding, listing s 5)) = some (some 5, []) := by decide +kernel
  rw [Option.map_eq_some_iff] at h
  obtain ⟨s, h1, h2⟩ := h
  simp only [Prod.mk.injEq] at h2
  refine ⟨_, _, s, fun _ _ => rfl, h1, h2.1, h2.2, ?_⟩
  intro hok
  have := hok 1 5
  rw [h2.1, h2.2] at this
  cases this

/-! ### C47 -/

/-- The peer `e` runs on the same host as `me`; in the same process. -/
def SameHost (s : S) (me e : Nat) : Prop := (s.ep e).host = (s.ep me).host
def SameProc (s : S) (me e : Nat) : Prop := SameHost s me e ∧ (s.ep e).pid = (s.ep me).pid

/-- What C47 allows as data connection: connected, process-local only in the same process, host-local only on the
same host. -/
def Usable (s : S) (me e c : Nat) : Prop :=
  c ∈ (s.ep e).data ∧ (s.conn c).st = .connected ∧ ((s.conn c).shareAddr = true → SameProc s me e) ∧
    ((s.conn c).shareHost = true → SameHost s me e)

/-- Class of a connection: process-local, host-local, other. -/
def rank (c : Conn) : Nat := if c.shareAddr then 0 else if c.shareHost then 1 else 2

/-- The recorded order is the real one, and process-local connections are host-local (so set by `connect`/`listen`). -/
structure FlagsOk (s : S) : Prop where
  sorted : ∀ e, (s.ep e).sorted = true → Ordered s.conn (s.ep e).data
  addrHost : ∀ c, (s.conn c).shareAddr = true → (s.conn c).shareHost = true

theorem rank_score {a b : Conn} (ha : a.shareAddr = true → a.shareHost = true) (hb : b.shareAddr = true → b.shareHost = true)
    (h : score a ≤ score b) : rank a ≤ rank b := by
  revert ha hb h
  unfold rank score
  cases a.shareAddr <;> cases a.shareHost <;> cases b.shareAddr <;> cases b.shareHost <;> decide

theorem find_ordered {f : Nat → Conn} {p : Nat → Bool} {l : List Nat} (ho : Ordered f l) {c : Nat} (hf : l.find? p = some c) :
    ∀ d ∈ l, p d = true → score (f c) ≤ score (f d) := by
  induction l with
  | nil => cases hf
  | cons x l ih =>
    have ho' := List.pairwise_cons.mp ho
    intro d hd hp
    by_cases hx : p x = true
    · rw [List.find?_cons_of_pos hx] at hf
      cases hf
      rcases List.mem_cons.mp hd with rfl | hd
      · exact Nat.le_refl _
      · exact ho'.1 d hd
    · rw [List.find?_cons_of_neg hx] at hf
      rcases List.mem_cons.mp hd with rfl | hd
      · exact absurd hp hx
      · exact ih ho'.2 hf d hd hp

theorem ctrl_sorted (me e : Nat) (s : S) (l : List Nat) (b : Bool) :
    ctrlConnection me e (s.setEp e { s.ep e with data := l, sorted := b }) = ctrlConnection me e s := by
  unfold ctrlConnection
  simp only [setEp_ep, if_true, setEp_conn]
  cases (s.ep e).ctrl <;> rfl

/-- C47 under two conditions: the flags are as kept by the code (`FlagsOk`), and there is no process-local connection
to another process of the same host.  The chosen data connection is usable and of the best class among the usable
ones; the control connection is chosen only if no data connection is usable and only if it is connected; nothing is
chosen exactly when neither exists. -/
theorem C47_choice_partial (s : S) (me e : Nat) (fb : Bool) (hf : FlagsOk s) (hme : me ≠ e)
    (hproc : SameHost s me e → ¬ SameProc s me e → ∀ c ∈ (s.ep e).data, (s.conn c).st = .connected → (s.conn c).shareAddr = false) :
    match (dataConnection me e fb s).2 with
    | some c => (Usable s me e c ∧ ∀ d, Usable s me e d → rank (s.conn c) ≤ rank (s.conn d)) ∨
        (fb = true ∧ (∀ d, ¬ Usable s me e d) ∧ (s.ep e).ctrl = some c ∧ (s.conn c).st = .connected)
    | none => (∀ d, ¬ Usable s me e d) ∧ (fb = true → ∀ c, (s.ep e).ctrl = some c → (s.conn c).st ≠ .connected) := by
  -- the list searched
  let l := if (s.ep e).sorted then (s.ep e).data else sortC s.conn (s.ep e).data
  have hmem : ∀ c, c ∈ l ↔ c ∈ (s.ep e).data := by
    intro c; simp only [l]; split
    · exact Iff.rfl
    · exact (sortC_perm s.conn _).mem_iff
  have hord : Ordered s.conn l := by
    simp only [l]; split
    · rename_i hs; exact hf.sorted e hs
    · exact sortC_ordered _ _
  let p := fun c => eligible (decide ((s.ep e).host = (s.ep me).host) && decide ((s.ep e).pid = (s.ep me).pid))
    (decide ((s.ep e).host = (s.ep me).host)) (s.conn c)
  have hp : ∀ c ∈ l, p c = true ↔ Usable s me e c := by
    intro c hc
    have hcd := (hmem c).mp hc
    have hah := hf.addrHost c
    have hpr := fun a b => hproc a b c hcd
    simp only [p, eligible, Usable, SameProc, SameHost, hcd, true_and] at hpr ⊢
    revert hah hpr
    by_cases h1 : (s.ep e).host = (s.ep me).host <;> by_cases h2 : (s.ep e).pid = (s.ep me).pid <;>
      by_cases h3 : (s.conn c).st = .connected <;> cases (s.conn c).shareAddr <;> cases (s.conn c).shareHost <;>
      simp [h1, h2, h3]
  have hsel : (dataConnection me e fb s).2 = match l.find? p with
      | some c => some c
      | none => if fb then ctrlConnection me e s else none := by
    unfold dataConnection
    rw [if_neg hme]
    simp only [l, p]
    by_cases hs : (s.ep e).sorted = true
    · simp only [hs, if_true]; split <;> rename_i hx <;> rw [hx]
    · simp only [hs, Bool.false_eq_true, if_false, setEp_ep, if_true, setEp_conn]
      split <;> rename_i hx <;> rw [hx]
      rw [ctrl_sorted]
  rw [hsel]
  cases hfd : l.find? p with
  | some c =>
    left
    have hc := List.mem_of_find?_eq_some hfd
    have hpc := List.find?_some hfd
    refine ⟨(hp c hc).mp hpc, ?_⟩
    intro d hd
    have hdl := (hmem d).mpr hd.1
    exact rank_score (hf.addrHost c) (hf.addrHost d) (find_ordered hord hfd d hdl ((hp d hdl).mpr hd))
  | none =>
    have hno : ∀ d, ¬ Usable s me e d := by
      intro d hd
      have hdl := (hmem d).mpr hd.1
      have := List.find?_eq_none.mp hfd d hdl
      exact this ((hp d hdl).mpr hd)
    simp only
    cases fb
    · simp only [Bool.false_eq_true, if_false]
      exact ⟨hno, fun hh => by cases hh⟩
    · simp only [if_true]
      unfold ctrlConnection
      rw [if_neg hme]
      cases hct : (s.ep e).ctrl with
      | none => simp only; exact ⟨hno, fun _ c hc => by cases hc⟩
      | some c =>
        simp only
        by_cases hst : (s.conn c).st = .connected
        · rw [if_pos hst]; right; exact ⟨trivial, hno, rfl, hst⟩
        · rw [if_neg hst]
          refine ⟨hno, ?_⟩
          intro _ c' hc'
          cases hc'
          exact hst

theorem find_filter {p q : Nat → Bool} : ∀ {l : List Nat} {c : Nat}, l.find? p = some c → q c = true →
    ((l.filter q).filter p).head? = some c
  | [], _, h, _ => by cases h
  | x :: l, c, h, hq => by
    by_cases hx : p x = true
    · rw [List.find?_cons_of_pos hx] at h
      cases h
      simp [List.filter_cons, hq, hx]
    · rw [List.find?_cons_of_neg hx] at h
      have ih := find_filter (l := l) h hq
      rw [List.filter_cons]
      split
      · rw [List.filter_cons, if_neg hx]; exact ih
      · exact ih

theorem score_rank {a b : Conn} (ha : a.shareAddr = true → a.shareHost = true) (hb : b.shareAddr = true → b.shareHost = true) :
    score a = score b ↔ rank a = rank b := by
  revert ha hb
  unfold rank score
  cases a.shareAddr <;> cases a.shareHost <;> cases b.shareAddr <;> cases b.shareHost <;> decide

theorem head_filter {q : Nat → Bool} : ∀ {l : List Nat} {c : Nat}, (l.filter q).head? = some c →
    ∃ pre post, l = pre ++ c :: post ∧ ∀ d ∈ pre, q d = false
  | [], _, h => by cases h
  | x :: l, c, h => by
    rw [List.filter_cons] at h
    split at h
    · cases h; exact ⟨[], l, rfl, by simp⟩
    · rename_i hx
      obtain ⟨pre, post, h1, h2⟩ := head_filter h
      refine ⟨x :: pre, post, by rw [h1]; rfl, ?_⟩
      intro d hd
      rcases List.mem_cons.mp hd with rfl | hd
      · simpa using hx
      · exact h2 d hd

/-- C47: among usable connections of the same class the one that comes first in the endpoint's list is chosen. -/
theorem C47_first_partial (s : S) (me e c : Nat) (hf : FlagsOk s) (hc : (dataConnection me e false s).2 = some c) :
    ∃ pre post, (s.ep e).data = pre ++ c :: post ∧ ∀ d ∈ pre, Usable s me e d → rank (s.conn d) ≠ rank (s.conn c) := by
  unfold dataConnection at hc
  split at hc
  · cases hc
  simp only at hc
  generalize hp : (fun d => eligible (decide ((s.ep e).host = (s.ep me).host) && decide ((s.ep e).pid = (s.ep me).pid))
      (decide ((s.ep e).host = (s.ep me).host)) (s.conn d)) = p at hc
  have hu : ∀ d, Usable s me e d → p d = true := by
    rintro d ⟨_, h1, h2, h3⟩
    rw [← hp]
    simp only [eligible, h1, decide_true, Bool.true_and]
    unfold SameHost at h3
    cases hsh : (s.conn d).shareHost with
    | false => simp
    | true => simp [h3 hsh]
  have key : (((s.ep e).data.filter fun d => decide (score (s.conn d) = score (s.conn c))).filter p).head? = some c := by
    by_cases hs : (s.ep e).sorted = true
    · simp only [hs, if_true] at hc
      rw [hp] at hc
      split at hc
      · rename_i x hx
        cases hc
        exact find_filter hx (by simp)
      · cases hc
    · simp only [hs, Bool.false_eq_true, if_false, setEp_ep, if_true, setEp_conn] at hc
      rw [hp] at hc
      split at hc
      · rename_i x hx
        cases hc
        have := find_filter (q := fun d => decide (score (s.conn d) = score (s.conn c))) hx (by simp)
        rw [sortC_stable] at this
        exact this
      · cases hc
  rw [List.filter_filter] at key
  obtain ⟨pre, post, h1, h2⟩ := head_filter key
  refine ⟨pre, post, h1, ?_⟩
  intro d hd hus hr
  have := h2 d hd
  rw [hu d hus, (score_rank (hf.addrHost d) (hf.addrHost c)).mpr hr] at this
  simp at this

/-- Two network connections: the first one added is used. -/
example : (run quiet 3 (initial (fun e => e) fun _ => 0) [.openConn 1 false false false, .openConn 2 false false false,
    .openConn 3 false false true, .add 5 2 true, .add 5 3 true, .add 5 1 true]).map (fun s => (dataConnection 7 5 false s).2) =
    some (some 2) := by decide +kernel

/-- The opening of a connection as the node does it: before binding it, and with flags of an address class (mem, shm or
unix, other). -/
def openOk (s : S) : Op → Prop
  | .openConn c _ a h => (s.conn c).binding = none ∧ (a = true → h = true)
  | _ => True

/-- Every opening of the history is such. -/
def legal (d : Nat) : S → List Op → Prop
  | _, [] => True
  | s, o :: os => openOk s o ∧ ∀ s', step quiet d s o = some s' → legal d s' os

theorem ordered_congr {f g : Nat → Conn} {l : List Nat} (h : ∀ c ∈ l, score (f c) = score (g c)) (ho : Ordered f l) : Ordered g l := by
  unfold Ordered at *
  refine List.Pairwise.imp_of_mem ?_ ho
  intro a b ha hb hab
  rw [← h a ha, ← h b hb]; exact hab

theorem step_flags {s s' : S} (h : Inv s) (hf : FlagsOk s) (d : Nat) (o : Op) (ho : openOk s o)
    (hs : step quiet (d + 3) s o = some s') : FlagsOk s' := by
  have closedOk : ∀ c : Conn, (closed c).shareAddr = true → (closed c).shareHost = true := by intro c hc; cases hc
  have hreset : ∀ e, FlagsOk (afterReset s e) := by
    intro e
    have hcb : ∀ c, (afterReset s e).conn c =
        if (s.ep e).ctrl = some c ∨ c ∈ (s.ep e).data then closed (s.conn c) else s.conn c := by
      intro c; simp [afterReset, h.connQuiet]
    constructor
    · intro e' hs'
      simp only [afterReset, upd] at hs' ⊢
      by_cases he : e' = e
      · subst he; simp only [if_true, cleared]; exact List.Pairwise.nil
      · rw [if_neg he] at hs' ⊢
        refine ordered_congr ?_ (hf.sorted e' hs')
        intro c hc
        have := hcb c
        simp only [afterReset] at this
        rw [this, if_neg]
        intro hl
        have h1 := (h.bound c e).mpr hl
        have h2 := (h.bound c e').mpr (Or.inr hc)
        rw [h1] at h2; cases h2; exact he rfl
    · intro c; rw [hcb]; split
      · exact closedOk _
      · exact hf.addrHost c
  have hset : ∀ (c : Nat) (v : Conn), (∀ e, c ∈ (s.ep e).data → score v = score (s.conn c)) → (v.shareAddr = true → v.shareHost = true) →
      FlagsOk (s.setConn c v) := by
    intro c v h1 h2
    constructor
    · intro e hs'
      refine ordered_congr ?_ (hf.sorted e hs')
      intro x hx
      simp only [setConn_conn]
      by_cases hxc : x = c
      · subst hxc; rw [if_pos rfl]; exact (h1 e hx).symm
      · rw [if_neg hxc]
    · intro x; simp only [setConn_conn]; split
      · exact h2
      · exact hf.addrHost x
  cases o with
  | add e c f =>
    simp only [step, Option.some.injEq] at hs
    subst hs
    unfold addConnection
    rw [if_neg (by simp [h.epQuiet e])]
    by_cases h1 : (s.conn c).binding = some e
    · rw [if_pos h1]; exact hf
    rw [if_neg h1]
    by_cases h2 : (s.conn c).binding ≠ none
    · rw [if_pos h2]; exact hf
    rw [if_neg h2]
    simp only
    have hc : ∀ (p : Prop) [Decidable p] (a b : Conn) (F : Conn → Prop), F a → F b → F (if p then a else b) := by
      intro p _ a b F ha hb; split
      · exact ha
      · exact hb
    constructor
    · intro e' hs'
      have hnl : c ∉ (s.ep e').data := by
        intro hm; have := (h.bound c e').mpr (Or.inr hm); rw [this] at h2; exact h2 (by simp)
      have hcongr : Ordered s.conn (s.ep e').data → ∀ v, Ordered ((s.setEp e v).setConn c
          (if ({ s.conn c with binding := some e } : Conn).st = .handshaking then { { s.conn c with binding := some e } with st := .connected } else { s.conn c with binding := some e })).conn (s.ep e').data := by
        intro ho v
        refine ordered_congr ?_ ho
        intro x hx
        have hxc : x ≠ c := fun hh => hnl (hh ▸ hx)
        simp [hxc]
      simp only [setConn_ep, setEp_ep] at hs' ⊢
      by_cases he : e' = e
      · subst he
        simp only [if_true] at hs' ⊢
        by_cases hcond : (f || (s.ep e').ctrl.isSome) = true
        · rw [if_pos hcond] at hs'; cases hs'
        · rw [if_neg hcond] at hs' ⊢
          exact hcongr (hf.sorted e' hs') _
      · rw [if_neg he] at hs' ⊢
        exact hcongr (hf.sorted e' hs') _
    · intro x; simp only [setConn_conn, setEp_conn]; split
      · exact hc _ _ _ (fun q => q.shareAddr = true → q.shareHost = true) (hf.addrHost c) (hf.addrHost c)
      · exact hf.addrHost x
  | resetConn c =>
    simp only [step] at hs
    rw [connReset_ok h d c] at hs
    cases hs
    unfold afterConn
    cases hb : (s.conn c).binding with
    | none =>
      simp only
      refine hset c _ ?_ (closedOk _)
      intro e hm
      have := (h.bound c e).mpr (Or.inr hm)
      rw [hb] at this; cases this
    | some e =>
      simp only
      split
      · exact hreset e
      · constructor
        · intro e' hs'
          have key : ∀ l : List Nat, c ∉ l → Ordered s.conn l → Ordered ((s.setConn c (closed (s.conn c))).setEp e { s.ep e with data := (s.ep e).data.erase c }).conn l := by
            intro l hl ho
            refine ordered_congr ?_ ho
            intro x hx
            have hxc : x ≠ c := fun hh => hl (hh ▸ hx)
            simp [hxc]
          simp only [setEp_ep, setConn_ep] at hs' ⊢
          by_cases he : e' = e
          · subst he
            simp only [if_true] at hs' ⊢
            refine key _ ?_ ((hf.sorted e' hs').sublist List.erase_sublist)
            intro hm; exact ((h.nodup e').mem_erase_iff.mp hm).1 rfl
          · rw [if_neg he] at hs' ⊢
            refine key _ ?_ (hf.sorted e' hs')
            intro hm
            have := (h.bound c e').mpr (Or.inr hm)
            rw [hb] at this; cases this; exact he rfl
        · intro x; simp only [setEp_conn, setConn_conn]; split
          · exact closedOk _
          · exact hf.addrHost x
  | resetEp e =>
    simp only [step] at hs
    obtain ⟨s1, h1, _, h3⟩ := epReset_inv h (d + 1) e
    rw [h1] at hs; cases hs; rw [h3]; exact hreset e
  | openConn c w a b =>
    simp only [step] at hs
    split at hs
    · cases hs
      refine hset c _ ?_ ho.2
      intro e hm
      have := (h.bound c e).mpr (Or.inr hm)
      rw [ho.1] at this; cases this
    · cases hs; exact hf
  | established c =>
    simp only [step] at hs
    split at hs
    · cases hs
      exact hset c _ (fun _ _ => rfl) (hf.addrHost c)
    · cases hs; exact hf
  | select me e =>
    simp only [step, Option.some.injEq] at hs
    subst hs
    rcases dataConnection_state me e true s with hh | hh
    · rw [hh]; exact hf
    · rw [hh]
      constructor
      · intro e' hs'
        simp only [setEp_ep] at hs' ⊢
        by_cases he : e' = e
        · subst he; simp only [if_true]; exact sortC_ordered _ _
        · rw [if_neg he] at hs' ⊢; exact hf.sorted e' hs'
      · exact hf.addrHost
  | traffic c t =>
    cases hs
    exact hset c _ (fun _ _ => rfl) (hf.addrHost c)

/-- C47: the first condition of `C47_choice_partial` holds after every history in which connections are opened before
they are bound. -/
theorem C47_flags_partial (host : Nat → Nat) (pid : Nat → Int) (d : Nat) (ops : List Op) (s : S)
    (hl : legal (d + 3) (initial host pid) ops) (hrun : run quiet (d + 3) (initial host pid) ops = some s) : FlagsOk s := by
  have hinit : FlagsOk (initial host pid) := by
    constructor
    · intro e he; cases he
    · intro c hc; cases hc
  have : ∀ (os : List Op) (t : S), Inv t → FlagsOk t → legal (d + 3) t os → run quiet (d + 3) t os = some s → FlagsOk s := by
    intro os
    induction os with
    | nil => intro t _ hf _ hr; cases hr; exact hf
    | cons o os ih =>
      intro t hi hf hl hr
      obtain ⟨t', h1, h2⟩ := step_inv hi d o
      simp only [run, h1] at hr
      exact ih t' h2 (step_flags hi hf d o hl.1 h1) (hl.2 t' h1) hr
  exact this ops _ (initial_inv host pid) hinit hl hrun

/-- Host-local and other connections to a peer on the same host, in either order of binding. -/
def pickOps : List Op := [.openConn 0 false false false, .openConn 1 true false false, .openConn 2 false false true,
  .add 5 0 false, .add 5 1 true, .add 5 2 true, .established 1]

example : (run quiet 3 (initial (fun _ => 0) fun e => e) pickOps).map (fun s => (dataConnection 7 5 true s).2) = some (some 2) := by
  decide +kernel

example : (run quiet 3 (initial (fun e => e) fun e => e) pickOps).map (fun s => (dataConnection 7 5 true s).2) = some (some 1) := by
  decide +kernel

example : (run quiet 3 (initial (fun e => e) fun e => e) (pickOps ++ [.resetConn 1])).map (fun s => (dataConnection 7 5 true s).2) =
    some (some 0) := by decide +kernel

/-- C47 is false: a process-local (mem) connection is chosen for a peer in another process of the same host. -/
theorem C47_other_process_false :
    (run quiet 3 (initial (fun _ => 0) fun e => e) [.openConn 0 false false false, .openConn 1 false true true, .openConn 2 false false true,
      .add 5 0 false, .add 5 1 true, .add 5 2 true]).map
      (fun s => ((dataConnection 7 5 true s).2, (s.conn 1).shareAddr, decide ((s.ep 5).pid = (s.ep 7).pid))) =
      some (some 1, true, false) := by decide +kernel

end Verif.Endpoint
