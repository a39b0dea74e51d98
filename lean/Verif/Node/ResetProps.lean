import Verif.Node.Reset

/-!
Property C85: `node::reset` leaves nothing behind, and a node that was reset and is initialised and started again is like a new one.
-/
namespace Verif.Node.Reset

/-! ## Specification -/

/-- Every open connection is in one of the lists the node or an endpoint keeps, and every endpoint with connections has a ping timer. -/
structure Listed (s : S) : Prop where
  conn : ∀ c, s.up c = true → c ∈ s.procs ∨ c ∈ s.connecting ∨ c ∈ s.selfConns ∨ ∃ e, c ∈ s.conns e
  ping : ∀ e, s.conns e ≠ [] → e ∈ s.pings

/-- What an application does that, inside a callback, opens and adds nothing: lists only get shorter, connections are only closed. -/
structure Shrinks (s t : S) : Prop where
  listed : Listed s → Listed t
  procs : t.procs.Sublist s.procs
  connecting : t.connecting.Sublist s.connecting
  selfConns : t.selfConns.Sublist s.selfConns
  routes : t.routes.Sublist s.routes
  pings : t.pings.Sublist s.pings
  conns : ∀ e, (t.conns e).Sublist (s.conns e)
  parent : t.parent = s.parent ∨ t.parent = none
  gc : t.flags.gc = s.flags.gc
  /-- nothing is put on the lists of objects to release while the node releases them -/
  gcEp : s.flags.gc = true → t.gcEp.Sublist s.gcEp
  gcConn : s.flags.gc = true → t.gcConn.Sublist s.gcConn
  refs : t.refs.Sublist s.refs

/-- The node has no connection, endpoint, timer, message or buffer. -/
structure Blank (s : S) : Prop where
  st : s.st = .created
  flags : s.flags = {}
  confFlags : s.conf.flags = 0
  selfConns : s.selfConns = []
  data : s.data = []
  cmd : s.cmd = []
  procs : s.procs = []
  parent : s.parent = none
  routes : s.routes = []
  connecting : s.connecting = []
  pings : s.pings = []
  gcEp : s.gcEp = []
  gcConn : s.gcConn = []
  refs : s.refs = []
  chan : s.chan = false
  buf : s.buf = false
  conns : ∀ e, s.conns e = []
  up : ∀ c, s.up c = false

/-- Two nodes that cannot be told apart except by the numbers of their messages, the statistics and the time of the next parent operation. -/
structure Alike (s t : S) : Prop where
  st : s.st = t.st
  flags : s.flags = t.flags
  conf : s.conf = t.conf
  self : s.self = t.self
  selfConns : s.selfConns = t.selfConns
  data : s.data = t.data
  cmd : s.cmd = t.cmd
  procs : s.procs = t.procs
  parent : s.parent = t.parent
  routes : s.routes = t.routes
  connecting : s.connecting = t.connecting
  pings : s.pings = t.pings
  gcEp : s.gcEp = t.gcEp
  gcConn : s.gcConn = t.gcConn
  refs : s.refs = t.refs
  chan : s.chan = t.chan
  buf : s.buf = t.buf
  sec : s.sec = t.sec
  usec : s.usec = t.usec
  hash : s.hash = t.hash
  conns : ∀ e, s.conns e = t.conns e
  up : ∀ c, s.up c = t.up c

/-! ## Lemmas -/

theorem Shrinks.refl (s : S) : Shrinks s s :=
  ⟨id, .refl _, .refl _, .refl _, .refl _, .refl _, fun _ => .refl _, .inl rfl, rfl, fun _ => .refl _, fun _ => .refl _, .refl _⟩

theorem Shrinks.trans {a b c : S} (h : Shrinks a b) (g : Shrinks b c) : Shrinks a c where
  listed := fun x => g.listed (h.listed x)
  procs := g.procs.trans h.procs
  connecting := g.connecting.trans h.connecting
  selfConns := g.selfConns.trans h.selfConns
  routes := g.routes.trans h.routes
  pings := g.pings.trans h.pings
  conns := fun e => (g.conns e).trans (h.conns e)
  parent := by
    rcases g.parent with x | x
    · rw [x]; exact h.parent
    · exact .inr x
  gc := g.gc.trans h.gc
  gcEp := fun x => (g.gcEp (h.gc.trans x)).trans (h.gcEp x)
  gcConn := fun x => (g.gcConn (h.gc.trans x)).trans (h.gcConn x)
  refs := g.refs.trans h.refs

/-- The application opens nothing in a callback. -/
def Quiet (app : S → S) : Prop := ∀ s, Shrinks s (app s)

theorem cb_shrinks {app : S → S} (ha : Quiet app) (s : S) : Shrinks s (cb app s) := by
  refine Shrinks.trans ?_ (ha _)
  exact ⟨fun h => ⟨h.conn, h.ping⟩, .refl _, .refl _, .refl _, .refl _, .refl _, fun _ => .refl _, .inl rfl, rfl, fun _ => .refl _,
    fun _ => .refl _, .refl _⟩

theorem connReset_shrinks {app : S → S} (ha : Quiet app) (s : S) (c : Nat) : Shrinks s (connReset app s c) := by
  have h1 : Shrinks { s with connecting := s.connecting.filter (· ≠ c), up := fun x => if x = c then false else s.up x }
      (cb app { s with connecting := s.connecting.filter (· ≠ c), up := fun x => if x = c then false else s.up x }) := cb_shrinks ha _
  have h0 : Shrinks s { s with connecting := s.connecting.filter (· ≠ c), up := fun x => if x = c then false else s.up x } := by
    refine ⟨fun h => ⟨fun x hx => ?_, h.ping⟩, .refl _, List.filter_sublist, .refl _, .refl _, .refl _, fun _ => .refl _, .inl rfl, rfl,
      fun _ => .refl _, fun _ => .refl _, .refl _⟩
    simp only at hx ⊢
    by_cases hc : x = c
    · rw [if_pos hc] at hx; cases hx
    · rw [if_neg hc] at hx
      rcases h.conn x hx with h | h | h
      · exact .inl h
      · exact .inr (.inl (List.mem_filter.2 ⟨h, decide_eq_true hc⟩))
      · exact .inr (.inr h)
  refine (h0.trans h1).trans ?_
  unfold connReset
  generalize cb app { s with connecting := s.connecting.filter (· ≠ c), up := fun x => if x = c then false else s.up x } = t
  refine ⟨fun h => ⟨fun x hx => ?_, fun e he => h.ping e (fun h0 => he (by simp only [h0]; rfl))⟩, List.filter_sublist,
    List.filter_sublist, List.filter_sublist, .refl _, .refl _, fun _ => List.filter_sublist, .inl rfl, rfl, fun _ => .refl _,
    fun hg => by simp only [hg]; exact .refl _, .refl _⟩
  simp only at hx ⊢
  by_cases hc : x = c
  · rw [if_pos hc] at hx; cases hx
  · rw [if_neg hc] at hx
    have hd : decide (x ≠ c) = true := decide_eq_true hc
    rcases h.conn x hx with h | h | h | ⟨e, h⟩
    · exact .inl (List.mem_filter.2 ⟨h, hd⟩)
    · exact .inr (.inl (List.mem_filter.2 ⟨h, hd⟩))
    · exact .inr (.inr (.inl (List.mem_filter.2 ⟨h, hd⟩)))
    · exact .inr (.inr (.inr ⟨e, List.mem_filter.2 ⟨h, hd⟩⟩))

/-- A list of connections of the state, that shrinks when the state does and loses a connection that is reset. -/
structure Sel (app : S → S) (sel : S → List Nat) : Prop where
  mono : ∀ s t, Shrinks s t → (sel t).Sublist (sel s)
  drop : ∀ s c, c ∉ sel (connReset app s c)

theorem not_mem_filter (l : List Nat) (c : Nat) : c ∉ l.filter (· ≠ c) := fun h => by
  have := (List.mem_filter.1 h).2
  simp at this

theorem sel_connecting (app : S → S) : Sel app (fun s => s.connecting) :=
  ⟨fun _ _ h => h.connecting, fun _ c => not_mem_filter _ c⟩

theorem sel_self (app : S → S) : Sel app (fun s => s.selfConns) :=
  ⟨fun _ _ h => h.selfConns, fun _ c => not_mem_filter _ c⟩

theorem sel_conns (app : S → S) (e : Nat) : Sel app (fun s => s.conns e) :=
  ⟨fun _ _ h => h.conns e, fun _ c => not_mem_filter _ c⟩

theorem sublist_lt {l m : List Nat} {c : Nat} (h : l.Sublist m) (hm : c ∈ m) (hl : c ∉ l) : l.length < m.length := by
  rcases Nat.lt_or_ge l.length m.length with h1 | h1
  · exact h1
  · exact absurd (h.eq_of_length_le h1 ▸ hm) hl

/-- The loop ends and empties its list. -/
theorem drain_ends {app : S → S} (ha : Quiet app) {sel : S → List Nat} (hs : Sel app sel) :
    ∀ fuel s, (sel s).length ≤ fuel → ∃ t, drain app sel fuel s = some t ∧ Shrinks s t ∧ sel t = [] := by
  intro fuel
  induction fuel with
  | zero =>
    intro s h
    have h0 : sel s = [] := List.length_eq_zero_iff.1 (Nat.le_zero.1 h)
    exact ⟨s, by simp only [drain, h0]; rfl, .refl _, h0⟩
  | succ n ih =>
    intro s h
    unfold drain
    cases hq : sel s with
    | nil => exact ⟨s, rfl, .refl _, hq⟩
    | cons c l =>
      simp only
      have hr := connReset_shrinks ha s c
      have hlt := sublist_lt (c := c) (hs.mono _ _ hr) (by rw [hq]; exact List.mem_cons_self) (hs.drop s c)
      obtain ⟨t, h1, h2, h3⟩ := ih (connReset app s c) (by omega)
      exact ⟨t, h1, hr.trans h2, h3⟩

theorem epReset_ends {app : S → S} (ha : Quiet app) (fuel e : Nat) (s : S) (h : (s.conns e).length ≤ fuel) :
    ∃ t, epReset app fuel e s = some t ∧ Shrinks s t ∧ t.conns e = [] := by
  obtain ⟨t, h1, h2, h3⟩ := drain_ends ha (sel_conns app e) fuel s h
  refine ⟨{ t with pings := t.pings.filter (· ≠ e), gcEp := if t.flags.gc then t.gcEp else t.gcEp ++ [e] },
    by simp only [epReset, h1], h2.trans ?_, h3⟩
  refine ⟨fun h => ⟨h.conn, fun x hx => List.mem_filter.2 ⟨h.ping x hx, decide_eq_true fun hxe => hx ?_⟩⟩, .refl _, .refl _, .refl _,
    .refl _, List.filter_sublist, fun _ => .refl _, .inl rfl, rfl, fun hg => by simp only [hg]; exact .refl _, fun _ => .refl _, .refl _⟩
  subst hxe
  exact h3

theorem epResets_ends {app : S → S} (ha : Quiet app) (fuel : Nat) : ∀ (es : List Nat) (s : S), (∀ e, (s.conns e).length ≤ fuel) →
    ∃ t, epResets app fuel es s = some t ∧ Shrinks s t ∧ ∀ e ∈ es, t.conns e = [] := by
  intro es
  induction es with
  | nil => exact fun s _ => ⟨s, rfl, .refl _, fun e he => by cases he⟩
  | cons e es ih =>
    intro s h
    obtain ⟨t, h1, h2, h3⟩ := epReset_ends ha fuel e s (h e)
    obtain ⟨u, g1, g2, g3⟩ := ih t (fun x => Nat.le_trans (h2.conns x).length_le (h x))
    refine ⟨u, by simp only [epResets, h1, g1], h2.trans g2, fun x hx => ?_⟩
    rcases List.mem_cons.1 hx with rfl | hx
    · have := g2.conns x
      rw [h3] at this
      exact List.sublist_nil.1 this
    · exact g3 x hx

theorem fold_shrinks {f : S → Nat → S} (hf : ∀ s c, Shrinks s (f s c)) : ∀ (l : List Nat) (s : S), Shrinks s (l.foldl f s) := by
  intro l
  induction l with
  | nil => exact fun s => .refl _
  | cons c l ih => exact fun s => (hf s c).trans (ih _)

theorem fold_procs {app : S → S} (ha : Quiet app) : ∀ (l : List Nat) (s : S), ∀ c ∈ l, c ∉ (l.foldl (connReset app) s).procs := by
  intro l
  induction l with
  | nil => exact fun s c hc => by cases hc
  | cons d l ih =>
    intro s c hc h
    rcases List.mem_cons.1 hc with rfl | hc
    · exact not_mem_filter _ c ((fold_shrinks (connReset_shrinks ha) l (connReset app s c)).procs.mem h)
    · exact ih _ c hc h

theorem resetProcs_shrinks {app : S → S} (ha : Quiet app) (s : S) : Shrinks s (resetProcs app s) := by
  have h := fold_shrinks (connReset_shrinks ha) s.procs s
  have h0 : (s.procs.foldl (connReset app) s).procs = [] :=
    List.eq_nil_iff_forall_not_mem.2 fun c hc => fold_procs ha s.procs s c (h.procs.mem hc) hc
  have : resetProcs app s = s.procs.foldl (connReset app) s := by
    unfold resetProcs
    generalize s.procs.foldl (connReset app) s = t at h0
    rw [← h0]
  rw [this]
  exact h

theorem resetParent_shrinks {app : S → S} (ha : Quiet app) (s : S) : Shrinks s (resetParent app s) ∧ (resetParent app s).parent = none := by
  unfold resetParent
  cases hp : s.parent with
  | none => exact ⟨.refl _, hp⟩
  | some p =>
    have h0 : Shrinks s { s with parent := none, st := .lostParent, opr := s.sec + s.conf.retry } :=
      ⟨fun h => ⟨h.conn, h.ping⟩, .refl _, .refl _, .refl _, .refl _, .refl _, fun _ => .refl _, .inr rfl, rfl, fun _ => .refl _,
        fun _ => .refl _, .refl _⟩
    have h1 := cb_shrinks ha { s with parent := none, st := .lostParent, opr := s.sec + s.conf.retry }
    have n1 := h1.parent
    simp only at n1 ⊢
    generalize cb app { s with parent := none, st := .lostParent, opr := s.sec + s.conf.retry } = t at *
    have n2 : t.parent = none := by rcases n1 with h | h <;> exact h
    split
    · exact ⟨h0.trans h1, n2⟩
    · refine ⟨(h0.trans h1).trans (cb_shrinks ha t), ?_⟩
      rcases (cb_shrinks ha t).parent with h | h
      · rw [h]; exact n2
      · exact h

theorem resetRoutes_shrinks {app : S → S} (ha : Quiet app) (s : S) : Shrinks s (resetRoutes app s) ∧ (resetRoutes app s).routes = [] := by
  have h0 : Shrinks s { s with routes := [] } :=
    ⟨fun h => ⟨h.conn, h.ping⟩, .refl _, .refl _, .refl _, List.nil_sublist _, .refl _, fun _ => .refl _, .inl rfl, rfl, fun _ => .refl _,
      fun _ => .refl _, .refl _⟩
  have h1 : Shrinks { s with routes := [] } (resetRoutes app s) := fold_shrinks (fun s _ => cb_shrinks ha s) _ _
  exact ⟨h0.trans h1, List.sublist_nil.1 h1.routes⟩

/-- What holds of the node while it releases objects. -/
structure Bare (s : S) : Prop where
  listed : Listed s
  procs : s.procs = []
  connecting : s.connecting = []
  selfConns : s.selfConns = []
  routes : s.routes = []
  parent : s.parent = none
  gc : s.flags.gc = true
  gcEp : s.gcEp = []
  gcConn : s.gcConn = []

theorem nil_of {l m : List Nat} (h : l.Sublist m) (hm : m = []) : l = [] := List.sublist_nil.1 (hm ▸ h)

theorem Bare.mono {s t : S} (h : Bare s) (g : Shrinks s t) : Bare t where
  listed := g.listed h.listed
  procs := nil_of g.procs h.procs
  connecting := nil_of g.connecting h.connecting
  selfConns := nil_of g.selfConns h.selfConns
  routes := nil_of g.routes h.routes
  parent := by rcases g.parent with x | x; exact x.trans h.parent; exact x
  gc := g.gc.trans h.gc
  gcEp := nil_of (g.gcEp h.gc) h.gcEp
  gcConn := nil_of (g.gcConn h.gc) h.gcConn

theorem resetRest_blank {app : S → S} (ha : Quiet app) (fuel : Nat) (s : S) (hl : Listed s) (hf : ∀ e, (s.conns e).length ≤ fuel)
    (hp : s.procs = []) (hc : s.connecting = []) (hs : s.selfConns = []) (hr : s.routes = []) (hn : s.parent = none) :
    ∃ t, resetRest app fuel s = some t ∧ Blank t := by
  unfold resetRest
  have h0 : Bare { s with flags := { s.flags with gc := true }, gcEp := [], gcConn := [] } := ⟨⟨hl.conn, hl.ping⟩, hp, hc, hs, hr, hn, rfl, rfl, rfl⟩
  have h1 := cb_shrinks ha { s with flags := { s.flags with gc := true }, gcEp := [], gcConn := [] }
  have h2 : ∀ e, ((cb app { s with flags := { s.flags with gc := true }, gcEp := [], gcConn := [] }).conns e).length ≤ fuel :=
    fun e => Nat.le_trans (h1.conns e).length_le (hf e)
  have h3 := h0.mono h1
  simp only
  generalize cb app { s with flags := { s.flags with gc := true }, gcEp := [], gcConn := [] } = a at h2 h3
  obtain ⟨b, g1, g2, g3⟩ := epResets_ends ha fuel a.pings a h2
  have hb := h3.mono g2
  have hcn : ∀ e, b.conns e = [] := fun e => by
    by_cases he : e ∈ a.pings
    · exact g3 e he
    · have : a.conns e = [] := Decidable.byContradiction fun hne => he (h3.listed.ping e hne)
      exact nil_of (g2.conns e) this
  rw [g1]
  simp only
  have hb' : Bare { b with pings := [] } := { hb with listed := ⟨hb.listed.conn, fun e he => absurd (hcn e) he⟩ }
  have k1 := cb_shrinks ha { b with pings := [] }
  have b1 := hb'.mono k1
  have p1 := nil_of k1.pings rfl
  have q1 : ∀ e, (cb app { b with pings := [] }).conns e = [] := fun e => nil_of (k1.conns e) (hcn e)
  generalize cb app { b with pings := [] } = c at b1 p1 q1
  have b1' : Bare { c with refs := [] } := { b1 with listed := ⟨b1.listed.conn, b1.listed.ping⟩ }
  have k2 := cb_shrinks ha { c with refs := [] }
  have b2 := b1'.mono k2
  have p2 := nil_of k2.pings p1
  have r2 := nil_of k2.refs rfl
  have q2 : ∀ e, (cb app { c with refs := [] }).conns e = [] := fun e => nil_of (k2.conns e) (q1 e)
  generalize cb app { c with refs := [] } = d at b2 p2 q2 r2
  refine ⟨_, rfl, rfl, rfl, rfl, b2.selfConns, rfl, rfl, b2.procs, b2.parent, b2.routes, b2.connecting, p2, b2.gcEp, b2.gcConn, r2, rfl, rfl, q2, fun x => ?_⟩
  cases hx : d.up x with
  | false => rfl
  | true =>
    exfalso
    rcases b2.listed.conn x hx with h | h | h | ⟨e, h⟩
    · rw [b2.procs] at h; cases h
    · rw [b2.connecting] at h; cases h
    · rw [b2.selfConns] at h; cases h
    · rw [q2 e] at h; cases h

theorem resetProcs_nil {app : S → S} (s : S) : (resetProcs app s).procs = [] := rfl

/-! ## Property theorems -/

/-- **C85.**  However many connections, endpoints and timers the node has, if the application opens nothing in the callbacks, `reset` ends
after finitely many rounds of its loops, every connection is closed and nothing is left in any list of the node. -/
theorem C85_closed_partial (app : S → S) (ha : Quiet app) (s : S) (hs : s.flags.resetting = false) (hl : Listed s) (fuel : Nat)
    (h1 : s.connecting.length ≤ fuel) (h2 : s.selfConns.length ≤ fuel) (h3 : ∀ e, (s.conns e).length ≤ fuel) :
    ∃ t, reset app fuel s = some t ∧ Blank t := by
  unfold reset
  rw [hs]
  simp only [Bool.false_eq_true, if_false]
  have a0 : Shrinks s { s with flags := { s.flags with resetting := true } } :=
    ⟨fun h => ⟨h.conn, h.ping⟩, .refl _, .refl _, .refl _, .refl _, .refl _, fun _ => .refl _, .inl rfl, rfl, fun _ => .refl _,
      fun _ => .refl _, .refl _⟩
  have a1 := a0.trans (cb_shrinks ha _)
  generalize cb app { s with flags := { s.flags with resetting := true } } = a at a1
  have b1 := resetProcs_shrinks ha a
  have bn := resetProcs_nil (app := app) a
  generalize resetProcs app a = b at b1 bn
  obtain ⟨c1, cn⟩ := resetParent_shrinks ha b
  generalize resetParent app b = c at c1 cn
  obtain ⟨d1, dn⟩ := resetRoutes_shrinks ha c
  generalize resetRoutes app c = d at d1 dn
  have sd := ((a1.trans b1).trans c1).trans d1
  obtain ⟨e, e0, e1, e2⟩ := drain_ends ha (sel_connecting app) fuel d (Nat.le_trans sd.connecting.length_le h1)
  have se := sd.trans e1
  obtain ⟨f, f0, f1, f2⟩ := drain_ends ha (sel_self app) fuel e (Nat.le_trans se.selfConns.length_le h2)
  have sf := se.trans f1
  rw [e0]
  simp only
  rw [f0]
  simp only
  have ef := e1.trans f1
  refine resetRest_blank ha fuel f (sf.listed hl) (fun e => Nat.le_trans (sf.conns e).length_le (h3 e)) ?_ ?_ f2 ?_ ?_
  · exact nil_of ((c1.trans d1).trans ef).procs bn
  · exact nil_of f1.connecting e2
  · exact nil_of ef.routes dn
  · rcases (d1.trans ef).parent with x | x
    · exact x.trans cn
    · exact x

/-- **C85.**  A node that has been in use, is initialised again and started cannot be told apart from a new node that is initialised and
started with the same parameters; if it has a parent to connect to, neither by the time of the next parent operation. -/
theorem C85_again_partial (app : S → S) (ha : Quiet app) (s : S) (hc : s.st ≠ .created) (hs : s.flags.resetting = false) (hl : Listed s)
    (fuel : Nat) (h1 : s.connecting.length ≤ fuel) (h2 : s.selfConns.length ≤ fuel) (h3 : ∀ e, (s.conns e).length ≤ fuel)
    (id : Nat) (conf : Conf) (v : Env) :
    ∃ t n, init app fuel id conf s = some t ∧ init app fuel id conf {} = some n ∧ Alike (start v t) (start v n) ∧
      (id ≠ 0 → conf.parentAddr = true → (start v t).opr = (start v n).opr) ∧
      ∀ sec, connectsParent (start v t) sec = connectsParent (start v n) sec := by
  obtain ⟨t, ht, hb⟩ := C85_closed_partial app ha s hs hl fuel h1 h2 h3
  refine ⟨{ t with conf := conf, self := some id, selfConns := [], buf := true, data := [], cmd := [], st := .inited },
    { ({} : S) with conf := conf, self := some id, selfConns := [], buf := true, data := [], cmd := [], st := .inited }, ?_, ?_, ?_, ?_, ?_⟩
  · unfold init
    rw [if_neg hc, ht]
  · rfl
  · unfold start
    simp only [reduceCtorEq, if_false, hb.parent, if_true, Option.getD_some]
    split
    · split
      · exact ⟨rfl, hb.flags, rfl, rfl, rfl, rfl, rfl, hb.procs, rfl, hb.routes, by simp only [hb.connecting], hb.pings, hb.gcEp,
          hb.gcConn, hb.refs, rfl, rfl, rfl, rfl, rfl, hb.conns, fun c => by simp only [hb.up]⟩
      · exact ⟨rfl, hb.flags, rfl, rfl, rfl, rfl, rfl, hb.procs, rfl, hb.routes, hb.connecting, hb.pings, hb.gcEp,
          hb.gcConn, hb.refs, rfl, rfl, rfl, rfl, rfl, hb.conns, hb.up⟩
    · exact ⟨rfl, by simp only [hb.flags], rfl, rfl, rfl, rfl, rfl, hb.procs, rfl, hb.routes, hb.connecting, hb.pings, hb.gcEp,
          hb.gcConn, hb.refs, hb.chan, rfl, rfl, rfl, rfl, hb.conns, hb.up⟩
  · intro hi hp
    unfold start
    simp only [reduceCtorEq, if_false, hb.parent, if_true, Option.getD_some, ne_eq, hi, not_false_eq_true, hp, and_self]
    split <;> rfl
  · intro sec
    unfold start
    simp only [reduceCtorEq, if_false, hb.parent, if_true, Option.getD_some]
    split
    · split <;> rfl
    · next h =>
      unfold connectsParent
      simp only [Option.getD_some]
      by_cases h1 : id = 0
      · simp [h1]
      · have : conf.parentAddr = false := by
          cases hp : conf.parentAddr with
          | false => rfl
          | true => exact absurd ⟨h1, hp⟩ h
        simp [this]

/-- A node with a memory channel of its own (1), a parent (endpoint 7, connections 2 and 3), a child (endpoint 8, connection 4), a
connection that is being made (5) and a listening one (6). -/
def busy : S where
  st := .running
  flags := { actived := true }
  conf := { parentAddr := true, retry := 3, firstIdle := 30, flags := 1 }
  self := some 0x11
  selfConns := [6]
  data := [40]
  procs := [1]
  parent := some 7
  routes := [8]
  connecting := [5]
  pings := [7, 8]
  refs := [50]
  chan := true
  buf := true
  sec := 100
  opr := 105
  conns := fun e => if e = 7 then [2, 3] else if e = 8 then [4] else []
  up := fun c => decide (1 ≤ c ∧ c ≤ 6)

theorem busy_listed : Listed busy := by
  refine ⟨fun c hc => ?_, fun e he => ?_⟩
  · simp only [busy, decide_eq_true_eq] at hc
    obtain ⟨h1, h2⟩ := hc
    have : c = 1 ∨ c = 2 ∨ c = 3 ∨ c = 4 ∨ c = 5 ∨ c = 6 := by omega
    rcases this with rfl | rfl | rfl | rfl | rfl | rfl
    · exact .inl (by decide)
    · exact .inr (.inr (.inr ⟨7, by decide⟩))
    · exact .inr (.inr (.inr ⟨7, by decide⟩))
    · exact .inr (.inr (.inr ⟨8, by decide⟩))
    · exact .inr (.inl (by decide))
    · exact .inr (.inr (.inl (by decide)))
  · simp only [busy] at he ⊢
    by_cases h7 : e = 7
    · subst h7; decide
    · by_cases h8 : e = 8
      · subst h8; decide
      · simp [h7, h8] at he

/-- An application that does nothing in its callbacks. -/
theorem quiet_id : Quiet id := Shrinks.refl

/-- `busy` is reset in full: six open connections before, none after, twelve callbacks. -/
example : (∃ t, reset id 9 busy = some t ∧ Blank t) ∧ (List.range 9).filter busy.up = [1, 2, 3, 4, 5, 6] ∧
    ((reset id 9 busy).map fun t => (t.calls, (List.range 9).filter t.up, t.st, t.self)) = some (12, [], .created, some 0x11) :=
  ⟨C85_closed_partial id quiet_id busy rfl busy_listed 9 (by decide) (by decide) (fun e => by
    simp only [busy]; split; decide; split <;> decide), by decide, by decide +kernel⟩

/-- A node that was started again has its connection to the parent open, and a second reset closes it. -/
example : ((init id 9 0x12 { parentAddr := true } {}).map fun n =>
      let n := start { sec := 5, usec := 0, hash := 3, ok := true, conn := 2 } n
      (n.st, n.connecting, n.up 2, (reset id 9 n).map fun t => (t.connecting, t.up 2))) =
    some (.connectingParent, [2], true, some ([], false)) := by decide +kernel

/-- **C85, false part.**  `reset` forgets to clear the time of the next parent operation: a node that is reset and initialised again, but
not started, connects to the parent the next time `proc` is called; a new node does not. -/
theorem C85_early_false : ∃ t n, init id 9 0x12 { parentAddr := true } busy = some t ∧ init id 9 0x12 { parentAddr := true } {} = some n ∧
    Listed busy ∧ connectsParent t 200 = true ∧ ∀ sec, connectsParent n sec = false :=
  ⟨_, _, rfl, rfl, busy_listed, by decide +kernel, fun sec => by simp [connectsParent]⟩

/-- **C85, false part.**  The pings are switched off (`ping_interval` 0, no timer for an endpoint), and the application keeps a pointer
to the endpoint of the child: its connection is still open when `reset` has destroyed the channel it uses. -/
theorem C85_held_false : ∃ t, reset id 9 { busy with pings := [] } = some t ∧ t.chan = false ∧ t.up 4 = true ∧ t.conns 8 = [4] :=
  ⟨_, rfl, rfl, by decide +kernel, by decide +kernel⟩

/-- An application that connects again each time it is told about the end of a connection. -/
def reconnect (s : S) : S := { s with connecting := s.connecting ++ [100 + s.calls], up := fun x => if x = 100 + s.calls then true else s.up x }

theorem drain_endless : ∀ fuel s, s.connecting ≠ [] → (∀ c ∈ s.connecting, c ≤ 100 + s.calls) →
    drain reconnect (fun s => s.connecting) fuel s = none := by
  intro fuel
  induction fuel with
  | zero => intro s h _; simp only [drain, h, if_false]
  | succ n ih =>
    intro s h hb
    unfold drain
    cases hq : s.connecting with
    | nil => exact absurd hq h
    | cons c l =>
      simp only [hq]
      have hc : c ≤ 100 + s.calls := hb c (by rw [hq]; exact List.mem_cons_self)
      refine ih _ ?_ ?_
      · intro h0
        have : 100 + (s.calls + 1) ∈ (connReset reconnect s c).connecting := by
          simp only [connReset, cb, reconnect]
          exact List.mem_filter.2 ⟨List.mem_append_right _ List.mem_cons_self, decide_eq_true (by omega)⟩
        rw [h0] at this
        cases this
      · intro x hx
        simp only [connReset, cb, reconnect] at hx ⊢
        have hx := (List.mem_filter.1 hx).1
        rcases List.mem_append.1 hx with hx | hx
        · have := hb x (List.mem_filter.1 hx).1
          omega
        · simp only [List.mem_cons, List.not_mem_nil, or_false] at hx
          omega

/-- **C85, false part.**  If the application connects again whenever it is told that a connection ended, `reset` never returns: the loop
over the connections being made goes on as long as there is one. -/
theorem C85_reconnect_false (fuel : Nat) : reset reconnect fuel busy = none := by
  have : reset reconnect fuel busy = match drain reconnect (fun s => s.connecting) fuel
      (resetRoutes reconnect (resetParent reconnect (resetProcs reconnect (cb reconnect { busy with flags := { actived := true, resetting := true } })))) with
    | none => none
    | some s =>
      match drain reconnect (fun s => s.selfConns) fuel s with
      | none => none
      | some s => resetRest reconnect fuel s := rfl
  rw [this, drain_endless]
  · decide +kernel
  · decide +kernel

/-- An application that listens on a memory channel when the first endpoint is removed. -/
def listenMem (s : S) : S :=
  if s.calls = 3 then { s with procs := s.procs ++ [60], selfConns := s.selfConns ++ [60], up := fun x => if x = 60 then true else s.up x } else s

/-- **C85.**  A memory channel on which the application listens while the node is being reset is closed all the same, with the own
endpoint. -/
example : ((reset listenMem 9 busy).map fun t => (t.procs, t.up 60)) = some ([], false) := by decide +kernel

/-- An application that connects to a memory channel (no endpoint yet, on the list of those being made and of those to be polled) in the
last callback. -/
def lateMem (s : S) : S :=
  if s.calls = 12 then { s with procs := s.procs ++ [60], connecting := s.connecting ++ [60], up := fun x => if x = 60 then true else s.up x } else s

/-- **C85, false part.**  Opened in a late callback, a connection survives the reset: it is still polled and open when the node has
returned to its first state. -/
theorem C85_late_false : ((reset lateMem 9 busy).map fun t => (t.st, t.procs, t.connecting, t.up 60)) = some (.created, [60], [60], true) := by
  decide +kernel

/-- An application that initialises the node again when it is told about the removal of an endpoint; inside `reset` the call of `reset`
returns at once. -/
def initAgain (s : S) : S := if s.calls = 4 then (init id 9 0x22 { rest := 5 } s).getD s else s

/-- **C85, false part.**  `init` called from a callback of `reset` succeeds, and is undone by the rest of `reset`: the node ends with the
new id and configuration, but without buffer and in its first state. -/
theorem C85_init_false : ((reset initAgain 9 busy).map fun t => (t.self, t.conf.rest, t.buf, t.st)) = some (some 0x22, 5, false, .created) := by
  decide +kernel

end Verif.Node.Reset
