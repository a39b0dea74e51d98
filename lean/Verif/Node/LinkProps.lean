import Verif.Node.Link

/-!
Property C68: the pointers between node connections and stream connections.
-/
namespace Verif.Node.Link

/-! ### Invariant of the pointers -/

structure Core (s : S) : Prop where
  freshC : ∀ c, s.n ≤ c → s.conn c = {}
  freshS : ∀ i, s.ns ≤ i → s.str i = {}
  data : ∀ i c, (s.str i).data = some c → (s.str i).live = true ∧ (s.str i).closing = false ∧ (s.conn c).link = some i
  link : ∀ c i, (s.conn c).link = some i → (s.str i).data = some c ∧ (s.conn c).st ≠ .disconnected ∧ (s.conn c).alive = true
  orphan : ∀ i, (s.str i).live = true → (s.str i).data = none → (s.str i).closing = true
  held : ∀ c, (s.conn c).held = true → (s.conn c).alive = true

theorem set_conn (s : S) (c : Nat) (k : Conn) (x : Nat) : (s.set c k).conn x = if x = c then k else s.conn x := rfl
theorem set_same (s : S) (c : Nat) (k : Conn) : (s.set c k).conn c = k := by simp [set_conn]
theorem set_other (s : S) {c x : Nat} (k : Conn) (h : x ≠ c) : (s.set c k).conn x = s.conn x := by simp [set_conn, h]
theorem setStr_str (s : S) (i : Nat) (t : Str) (x : Nat) : (s.setStr i t).str x = if x = i then t else s.str x := rfl

theorem Core.lt {s : S} (h : Core s) {c : Nat} (ha : (s.conn c).alive = true) : c < s.n := by
  apply Nat.lt_of_not_le
  intro hl
  rw [h.freshC c hl] at ha
  cases ha

theorem Core.alive_of_async {s : S} (h : Core s) {c : Nat} (ha : (s.conn c).async ≠ 0) : (s.conn c).alive = true :=
  h.held c (by simp [Conn.held, ha])

theorem core_set {s : S} (h : Core s) {c : Nat} (hc : c < s.n) {k : Conn} (hl : k.link = (s.conn c).link)
    (hs : k.link.isSome = true → k.st ≠ .disconnected ∧ k.alive = true) (hh : k.held = true → k.alive = true) :
    Core (s.set c k) := by
  constructor
  · intro x hx
    have : x ≠ c := by have : s.n ≤ x := hx; omega
    rw [set_other s k this]
    exact h.freshC x hx
  · exact h.freshS
  · intro i x hx
    have := h.data i x hx
    refine ⟨this.1, this.2.1, ?_⟩
    by_cases e : x = c
    · subst e; rw [set_same, hl]; exact this.2.2
    · rw [set_other s k e]; exact this.2.2
  · intro x i hx
    by_cases e : x = c
    · subst e
      rw [set_same] at hx ⊢
      have h2 := hs (by rw [hx]; rfl)
      rw [hl] at hx
      exact ⟨(h.link x i hx).1, h2⟩
    · rw [set_other s k e] at hx ⊢; exact h.link x i hx
  · exact h.orphan
  · intro x hx
    by_cases e : x = c
    · subst e; rw [set_same] at hx ⊢; exact hh hx
    · rw [set_other s k e] at hx ⊢; exact h.held x hx

theorem core_flags {s t : S} (h : Core s) (h1 : t.conn = s.conn) (h2 : t.n = s.n) (h3 : t.str = s.str) (h4 : t.ns = s.ns) : Core t := by
  cases s; cases t
  simp only at h1 h2 h3 h4
  subst h1 h2 h3 h4
  exact ⟨h.freshC, h.freshS, h.data, h.link, h.orphan, h.held⟩

/-- What `disconnect` leaves of a connection. -/
def Conn.off (k : Conn) : Conn := { k with st := .disconnected, link := none }

theorem off_of {s : S} (h : Core s) {c : Nat} (hs : (s.conn c).st = .disconnected) : (s.conn c).off = s.conn c := by
  have : (s.conn c).link = none := by
    cases hl : (s.conn c).link with
    | none => rfl
    | some i => exact absurd hs (h.link c i hl).2.1
  unfold Conn.off
  rw [← hs, ← this]

theorem disconnect_eq {s : S} (h : Core s) (c : Nat) :
    (disconnect s c).conn = (s.set c (s.conn c).off).conn ∧ (disconnect s c).n = s.n ∧ (disconnect s c).ns = s.ns ∧
    (disconnect s c).ub = s.ub ∧ (disconnect s c).reused = s.reused ∧ (disconnect s c).refused = s.refused ∧
    (∀ i, (disconnect s c).str i = if (s.conn c).link = some i then { s.str i with closing := true, data := none } else s.str i) := by
  unfold disconnect
  by_cases hs : (s.conn c).st = .disconnected
  · dsimp only
    rw [if_pos hs]
    refine ⟨?_, rfl, rfl, rfl, rfl, rfl, ?_⟩
    · funext x
      by_cases e : x = c
      · subst e; rw [set_same, off_of h hs]
      · rw [set_other _ _ e]
    · intro i
      split
      · rename_i hl; exact absurd hs (h.link c i hl).2.1
      · rfl
  · simp only [hs, if_false]
    cases hl : (s.conn c).link with
    | none =>
      refine ⟨?_, rfl, rfl, rfl, rfl, rfl, ?_⟩
      · simp [Conn.off, S.set]
      · intro i; simp [S.set]
    | some i =>
      have h1 := h.link c i hl
      have h2 := h.data i c h1.1
      simp only [h2.1, if_true]
      refine ⟨?_, rfl, rfl, rfl, rfl, rfl, ?_⟩
      · simp [Conn.off, S.set, S.setStr]
      · intro j
        show (if j = i then _ else _) = _
        by_cases e : j = i
        · subst e; simp [h2.1]
        · have e' : ¬ some i = some j := fun x => e (Option.some.inj x).symm
          simp [e, e']

theorem core_disconnect {s : S} (h : Core s) {c : Nat} (hc : c < s.n) : Core (disconnect s c) := by
  obtain ⟨e1, e2, e3, -, -, -, e4⟩ := disconnect_eq h c
  have eo : (disconnect s c).conn c = (s.conn c).off := by rw [e1, set_same]
  have ex : ∀ x, x ≠ c → (disconnect s c).conn x = s.conn x := fun x e => by rw [e1, set_other _ _ e]
  constructor
  · intro x hx
    rw [e2] at hx
    rw [ex x (by omega)]
    exact h.freshC x hx
  · intro i hi
    rw [e3] at hi
    rw [e4]
    split
    · rename_i hl
      have := (h.data i c (h.link c i hl).1).1
      rw [h.freshS i hi] at this
      cases this
    · exact h.freshS i hi
  · intro i x hx
    rw [e4] at hx ⊢
    split at hx
    · cases hx
    · rename_i hn
      have := h.data i x hx
      refine ⟨by rw [if_neg hn]; exact this.1, by rw [if_neg hn]; exact this.2.1, ?_⟩
      have : x ≠ c := by rintro rfl; exact hn this.2.2
      rw [ex x this]
      exact (h.data i x hx).2.2
  · intro x i hx
    by_cases e : x = c
    · subst e; rw [eo] at hx; cases hx
    · rw [ex x e] at hx ⊢
      have := h.link x i hx
      refine ⟨?_, this.2⟩
      rw [e4, if_neg]
      · exact this.1
      · intro hl
        have := this.1
        rw [(h.link c i hl).1] at this
        exact e (Option.some.inj this).symm
  · intro i
    rw [e4]
    split
    · intro _ _; rfl
    · exact h.orphan i
  · intro x hx
    by_cases e : x = c
    · subst e; rw [eo] at hx ⊢; exact h.held x hx
    · rw [ex x e] at hx ⊢; exact h.held x hx

/-- What `reset` leaves of a connection. -/
def Conn.dropped (k : Conn) (nogc : Bool) : Conn := { k.off with listed := false, bound := false, gc := k.gc || !nogc }

theorem core_unlist {s : S} (h : Core s) {c : Nat} (hc : c < s.n) : Core (s.set c { s.conn c with listed := false }) := by
  refine core_set h hc rfl ?_ ?_
  · intro hl
    obtain ⟨i, hi⟩ := Option.isSome_iff_exists.1 hl
    exact (h.link c i hi).2
  · intro hh
    apply h.held c
    simp only [Conn.held, Bool.or_eq_true, bne_iff_ne, ne_eq] at hh ⊢
    rcases hh with (((h1 | h1) | h1) | h1) | h1
    · cases h1
    all_goals simp [h1]

theorem reset_eq {s : S} (h : Core s) {c : Nat} (hc : c < s.n) (nogc : Bool) :
    (reset s c nogc).conn = (s.set c ((s.conn c).dropped nogc)).conn ∧ (reset s c nogc).n = s.n ∧ (reset s c nogc).ns = s.ns ∧
    (reset s c nogc).ub = s.ub ∧ (reset s c nogc).reused = s.reused ∧ (reset s c nogc).refused = s.refused ∧
    (∀ i, (reset s c nogc).str i = if (s.conn c).link = some i then { s.str i with closing := true, data := none } else s.str i) := by
  obtain ⟨e1, e2, e3, e4, e5, e6, e7⟩ := disconnect_eq (core_unlist h hc) c
  unfold reset
  refine ⟨?_, e2, e3, e4, e5, e6, ?_⟩
  · funext x
    by_cases e : x = c
    · subst e
      rw [set_same, set_same, e1, set_same, set_same]
      rfl
    · rw [set_other _ _ e, set_other _ _ e, e1, set_other _ _ e, set_other _ _ e]
  · intro i
    have := e7 i
    rw [set_same] at this
    exact this

theorem core_reset {s : S} (h : Core s) {c : Nat} (ha : (s.conn c).alive = true) (nogc : Bool) : Core (reset s c nogc) := by
  have hc := h.lt ha
  unfold reset
  have h1 := core_unlist h hc
  have h2 := core_disconnect h1 (c := c) hc
  obtain ⟨e1, e2, -⟩ := disconnect_eq h1 c
  refine core_set h2 (by rw [e2]; exact hc) rfl ?_ ?_
  · intro hl
    rw [e1, set_same] at hl
    cases hl
  · intro _
    rw [e1, set_same, set_same]
    exact ha

/-- What resets inside a callback can change. -/
structure Calm (s t : S) : Prop where
  n : t.n = s.n
  ns : t.ns = s.ns
  ub : t.ub = s.ub
  reused : t.reused = s.reused
  refused : t.refused = s.refused
  async : ∀ x, (t.conn x).async = (s.conn x).async
  alive : ∀ x, (t.conn x).alive = (s.conn x).alive
  kept : ∀ x, (t.conn x).kept = (s.conn x).kept
  link : ∀ x i, (t.conn x).link = some i → (s.conn x).link = some i
  held : ∀ x, (s.conn x).held = true → (t.conn x).held = true
  listed : ∀ x, (t.conn x).listed = true → (s.conn x).listed = true

theorem Calm.refl (s : S) : Calm s s :=
  ⟨rfl, rfl, rfl, rfl, rfl, fun _ => rfl, fun _ => rfl, fun _ => rfl, fun _ _ h => h, fun _ h => h, fun _ h => h⟩

theorem Calm.trans {s t u : S} (h : Calm s t) (g : Calm t u) : Calm s u :=
  ⟨g.n.trans h.n, g.ns.trans h.ns, g.ub.trans h.ub, g.reused.trans h.reused, g.refused.trans h.refused,
    fun x => (g.async x).trans (h.async x), fun x => (g.alive x).trans (h.alive x), fun x => (g.kept x).trans (h.kept x),
    fun x i hx => h.link x i (g.link x i hx), fun x hx => g.held x (h.held x hx), fun x hx => h.listed x (g.listed x hx)⟩

theorem calm_reset {s : S} (h : Core s) {c : Nat} (ha : (s.conn c).alive = true) : Calm s (reset s c false) := by
  obtain ⟨e1, e2, e3, e4, e5, e6, -⟩ := reset_eq h (h.lt ha) false
  have eo : (reset s c false).conn c = (s.conn c).dropped false := by rw [e1, set_same]
  have ex : ∀ x, x ≠ c → (reset s c false).conn x = s.conn x := fun x e => by rw [e1, set_other _ _ e]
  refine ⟨e2, e3, e4, e5, e6, ?_, ?_, ?_, ?_, ?_, ?_⟩
  · intro x; by_cases e : x = c
    · subst e; rw [eo]; rfl
    · rw [ex x e]
  · intro x; by_cases e : x = c
    · subst e; rw [eo]; rfl
    · rw [ex x e]
  · intro x; by_cases e : x = c
    · subst e; rw [eo]; rfl
    · rw [ex x e]
  · intro x i hx; by_cases e : x = c
    · subst e; rw [eo] at hx; cases hx
    · rw [ex x e] at hx; exact hx
  · intro x hx; by_cases e : x = c
    · subst e; rw [eo]; simp [Conn.dropped, Conn.held]
    · rw [ex x e]; exact hx
  · intro x hx; by_cases e : x = c
    · subst e; rw [eo] at hx; cases hx
    · rw [ex x e] at hx; exact hx

theorem resets_ok (cs : List Nat) : ∀ {s : S}, Core s → Core (resets s cs) ∧ Calm s (resets s cs) := by
  induction cs with
  | nil => intro s h; exact ⟨h, Calm.refl s⟩
  | cons c cs ih =>
    intro s h
    show Core (resets (if (s.conn c).alive then reset s c false else s) cs) ∧ _
    by_cases ha : (s.conn c).alive = true
    · have e : resets s (c :: cs) = resets (reset s c false) cs := by
        show resets (if (s.conn c).alive then reset s c false else s) cs = _
        rw [if_pos ha]
      rw [if_pos ha, e]
      have := ih (core_reset h ha false)
      exact ⟨this.1, (calm_reset h ha).trans this.2⟩
    · have e : resets s (c :: cs) = resets s cs := by
        show resets (if (s.conn c).alive then reset s c false else s) cs = _
        rw [if_neg ha]
      rw [if_neg ha, e]
      exact ih h

theorem newConnection_ok {s : S} (h : Core s) (c : Nat) (cs : List Nat) (sent : Bool) :
    Core (newConnection s c cs sent) ∧ Calm s (newConnection s c cs sent) := by
  have h1 := resets_ok cs h
  unfold newConnection
  dsimp only
  split
  · rename_i hc
    rw [Bool.and_eq_true] at hc
    obtain ⟨i, hi⟩ := Option.isSome_iff_exists.1 hc.1
    have ha := (h1.1.link c i hi).2.2
    exact ⟨core_reset h1.1 ha false, h1.2.trans (calm_reset h1.1 ha)⟩
  · exact h1

theorem core_link {s : S} (h : Core s) {c : Nat} (ha : (s.conn c).alive = true) (hl : (s.conn c).link = none)
    (hs : (s.conn c).st ≠ .disconnected) : Core (link s c) := by
  have hc := h.lt ha
  have ec : ∀ x, (link s c).conn x = if x = c then { s.conn c with link := some s.ns } else s.conn x := fun _ => rfl
  have es : ∀ i, (link s c).str i = if i = s.ns then { live := true, data := some c } else s.str i := fun _ => rfl
  have f := h.freshS s.ns (Nat.le_refl _)
  constructor
  · intro x hx
    have hx : s.n ≤ x := hx
    rw [ec, if_neg (by omega)]
    exact h.freshC x hx
  · intro i hi
    have hi : s.ns + 1 ≤ i := hi
    rw [es, if_neg (by omega)]
    exact h.freshS i (by omega)
  · intro i x hx
    rw [es] at hx ⊢
    rw [ec]
    by_cases e : i = s.ns
    · subst e
      simp only [if_true, Option.some.injEq] at hx ⊢
      subst hx
      simp
    · rw [if_neg e] at hx ⊢
      have := h.data i x hx
      have e' : x ≠ c := by rintro rfl; rw [hl] at this; cases this.2.2
      rw [if_neg e']
      exact this
  · intro x i hx
    rw [ec] at hx ⊢
    rw [es]
    by_cases e : x = c
    · subst e
      simp only [if_true, Option.some.injEq] at hx ⊢
      subst hx
      simp [hs, ha]
    · rw [if_neg e] at hx ⊢
      have := h.link x i hx
      have e' : i ≠ s.ns := by rintro rfl; rw [f] at this; cases this.1
      rw [if_neg e']
      exact this
  · intro i
    rw [es]
    split
    · intro _ h2; cases h2
    · exact h.orphan i
  · intro x hx
    rw [ec] at hx ⊢
    split
    · exact ha
    · rename_i e; rw [if_neg e] at hx; exact h.held x hx

structure Inv (s : S) : Prop where
  core : Core s
  async : ∀ c, (s.conn c).async ≠ 0 → (s.conn c).link = none
  one : ∀ c, (s.conn c).async ≤ 1
  leak : ∀ c, (s.conn c).alive = true → (s.conn c).held = true
  ub : s.ub = true → s.refused = true

/-- Inside the callback of a request of `c`. -/
structure Mid (c : Nat) (s : S) : Prop where
  core : Core s
  async : ∀ x, x ≠ c → (s.conn x).async ≠ 0 → (s.conn x).link = none
  one : ∀ x, (s.conn x).async ≤ 1
  mine : (s.conn c).async = 1
  leak : ∀ c, (s.conn c).alive = true → (s.conn c).held = true
  ub : s.ub = true → s.refused = true

theorem Inv.calm {s t : S} (h : Inv s) (ht : Core t) (g : Calm s t) : Inv t := by
  refine ⟨ht, ?_, ?_, ?_, ?_⟩
  · intro c hc
    rw [g.async] at hc
    cases hl : (t.conn c).link with
    | none => rfl
    | some i => exact absurd (g.link c i hl) (by rw [h.async c hc]; simp)
  · intro c; rw [g.async]; exact h.one c
  · intro c hc; rw [g.alive] at hc; exact g.held c (h.leak c hc)
  · intro hu; rw [g.ub] at hu; rw [g.refused]; exact h.ub hu

theorem Mid.calm {c : Nat} {s t : S} (h : Mid c s) (ht : Core t) (g : Calm s t) : Mid c t := by
  refine ⟨ht, ?_, ?_, ?_, ?_, ?_⟩
  · intro x hx hc
    rw [g.async] at hc
    cases hl : (t.conn x).link with
    | none => rfl
    | some i => exact absurd (g.link x i hl) (by rw [h.async x hx hc]; simp)
  · intro c; rw [g.async]; exact h.one c
  · rw [g.async]; exact h.mine
  · intro c hc; rw [g.alive] at hc; exact g.held c (h.leak c hc)
  · intro hu; rw [g.ub] at hu; rw [g.refused]; exact h.ub hu

theorem Core.linked {s : S} (h : Core s) {c : Nat} (hl : (s.conn c).link.isSome = true) :
    (s.conn c).st ≠ .disconnected ∧ (s.conn c).alive = true := by
  obtain ⟨i, hi⟩ := Option.isSome_iff_exists.1 hl
  exact (h.link c i hi).2

theorem off_held (k : Conn) : k.off.held = k.held := rfl

/-- After a reference of `c` went away. -/
theorem inv_collect {s : S} {c : Nat} (h : Core s) (ha : ∀ c, (s.conn c).async ≠ 0 → (s.conn c).link = none)
    (ho : ∀ c, (s.conn c).async ≤ 1) (hl : ∀ x, x ≠ c → (s.conn x).alive = true → (s.conn x).held = true)
    (hu : s.ub = true → s.refused = true) : Inv (collect s c) := by
  unfold collect
  by_cases hc : ((s.conn c).alive && !(s.conn c).held) = true
  · rw [if_pos hc]
    rw [Bool.and_eq_true] at hc
    have hlt := h.lt hc.1
    obtain ⟨e1, e2, e3, e4, e5, e6, -⟩ := disconnect_eq h c
    have eo : (disconnect s c).conn c = (s.conn c).off := by rw [e1, set_same]
    have ex : ∀ x, x ≠ c → (disconnect s c).conn x = s.conn x := fun x e => by rw [e1, set_other _ _ e]
    have hh : (s.conn c).held = false := by simpa using hc.2
    dsimp only
    refine ⟨core_set (core_disconnect h hlt) (by rw [e2]; exact hlt) rfl ?_ ?_, ?_, ?_, ?_, ?_⟩
    · intro hl; dsimp only at hl; rw [eo] at hl; cases hl
    · intro hl
      have : (s.conn c).held = true := by rw [eo] at hl; exact hl
      rw [hh] at this; cases this
    · intro x hx
      by_cases e : x = c
      · subst e; rw [set_same, eo]; rfl
      · rw [set_other _ _ e, ex x e] at hx ⊢; exact ha x hx
    · intro x
      by_cases e : x = c
      · subst e; rw [set_same, eo]; exact ho x
      · rw [set_other _ _ e, ex x e]; exact ho x
    · intro x hx
      by_cases e : x = c
      · subst e; rw [set_same] at hx; cases hx
      · rw [set_other _ _ e, ex x e] at hx ⊢; exact hl x e hx
    · intro hx
      show (disconnect s c).refused = true
      rw [e6]
      have hx : (disconnect s c).ub = true := hx
      rw [e4] at hx
      exact hu hx
  · rw [if_neg hc]
    refine ⟨h, ha, ho, ?_, hu⟩
    intro x hx
    by_cases e : x = c
    · subst e
      cases hh : (s.conn x).held with
      | true => rfl
      | false => exact absurd (by simp [hx, hh]) hc
    · exact hl x e hx

theorem mid_done {c : Nat} {s : S} (h : Mid c s) : Inv (collect (s.set c { s.conn c with async := (s.conn c).async - 1 }) c) := by
  have ha : (s.conn c).alive = true := h.core.alive_of_async (by rw [h.mine]; decide)
  have hm := h.mine
  apply inv_collect
  · exact core_set h.core (h.core.lt ha) rfl (fun hl => h.core.linked hl) (fun _ => ha)
  · intro x hx
    by_cases e : x = c
    · subst e; rw [set_same] at hx; simp [hm] at hx
    · rw [set_other _ _ e] at hx ⊢; exact h.async x e hx
  · intro x
    by_cases e : x = c
    · subst e; rw [set_same]; simp [hm]
    · rw [set_other _ _ e]; exact h.one x
  · intro x e hx; rw [set_other _ _ e] at hx ⊢; exact h.leak x hx
  · exact h.ub

theorem Inv.mid {s : S} (h : Inv s) {c : Nat} (hc : (s.conn c).async ≠ 0) : Mid c s :=
  ⟨h.core, fun x _ => h.async x, h.one, by have := h.one c; omega, h.leak, h.ub⟩

/-- A callback that reports success. -/
theorem mid_link {s : S} (h : Inv s) {c : Nat} (hc : (s.conn c).async ≠ 0) {k : Conn} (h1 : k.alive = true) (h2 : k.link = none)
    (h3 : k.st ≠ .disconnected) (h4 : k.async = (s.conn c).async) : Mid c (link (s.set c k) c) := by
  have ha := h.core.alive_of_async hc
  have hm := (h.mid hc).mine
  have hk : Core (s.set c k) := core_set h.core (h.core.lt ha) (by rw [h2, h.async c hc]) (by simp [h2]) (fun _ => h1)
  have ec : ∀ x, (link (s.set c k) c).conn x = if x = c then { k with link := some s.ns } else s.conn x := by
    intro x
    show (if x = c then { (s.set c k).conn c with link := some s.ns } else (s.set c k).conn x) = _
    by_cases e : x = c
    · subst e; rw [if_pos rfl, if_pos rfl, set_same]
    · rw [if_neg e, if_neg e, set_other _ _ e]
  refine ⟨core_link hk (by rw [set_same]; exact h1) (by rw [set_same]; exact h2) (by rw [set_same]; exact h3), ?_, ?_, ?_, ?_, ?_⟩
  · intro x e hx; rw [ec, if_neg e] at hx ⊢; exact h.async x hx
  · intro x; rw [ec]; split
    · show k.async ≤ 1; omega
    · exact h.one x
  · rw [ec, if_pos rfl]; show k.async = 1; omega
  · intro x hx
    rw [ec] at hx ⊢
    by_cases e : x = c
    · rw [if_pos e]
      have : k.async = 1 := by omega
      simp [Conn.held, this]
    · rw [if_neg e] at hx ⊢; exact h.leak x hx
  · exact h.ub

theorem inv_set {s : S} (h : Inv s) {c : Nat} (ha : (s.conn c).alive = true) {k : Conn} (h1 : k.alive = true)
    (h2 : k.link = (s.conn c).link) (h3 : k.link.isSome = true → k.st ≠ .disconnected) (h4 : k.async = (s.conn c).async)
    (h5 : k.held = true) : Inv (s.set c k) := by
  refine ⟨core_set h.core (h.core.lt ha) h2 (fun hl => ⟨h3 hl, h1⟩) (fun _ => h1), ?_, ?_, ?_, h.ub⟩
  · intro x hx
    by_cases e : x = c
    · subst e; rw [set_same] at hx ⊢; rw [h2]; exact h.async x (by rw [← h4]; exact hx)
    · rw [set_other _ _ e] at hx ⊢; exact h.async x hx
  · intro x
    by_cases e : x = c
    · subst e; rw [set_same, h4]; exact h.one x
    · rw [set_other _ _ e]; exact h.one x
  · intro x hx
    by_cases e : x = c
    · subst e; rw [set_same]; exact h5
    · rw [set_other _ _ e] at hx ⊢; exact h.leak x hx

theorem inv_bind {s : S} (h : Inv s) {c : Nat} (ha : (s.conn c).alive = true) : Inv (bind s c) := by
  unfold bind
  have h1 : Inv (s.set c { s.conn c with bound := true }) :=
    inv_set h ha ha rfl (fun hl => (h.core.linked hl).1) rfl (by simp [Conn.held])
  dsimp only
  split
  · refine inv_set h1 (by rw [set_same]; exact ha) (by rw [set_same]; exact ha) rfl (by intro _; simp) rfl ?_
    rw [set_same]
    simp [Conn.held]
  · exact h1

theorem inv_flags {s t : S} (h : Inv s) (h1 : t.conn = s.conn) (h2 : t.n = s.n) (h3 : t.str = s.str) (h4 : t.ns = s.ns)
    (h5 : t.ub = true → t.refused = true) : Inv t :=
  ⟨core_flags h.core h1 h2 h3 h4, by rw [h1]; exact h.async, by rw [h1]; exact h.one, by rw [h1]; exact h.leak, h5⟩

/-- A new object. -/
theorem inv_create {s : S} (h : Inv s) {k : Conn} (h1 : k.alive = true) (h2 : k.link = none) (h3 : k.async = 0) (h4 : k.held = true) :
    Inv { s.set s.n k with n := s.n + 1 } := by
  have f := h.core.freshC s.n (Nat.le_refl _)
  have ec : ∀ x, ({ s.set s.n k with n := s.n + 1 } : S).conn x = if x = s.n then k else s.conn x := fun _ => rfl
  refine ⟨⟨?_, h.core.freshS, ?_, ?_, h.core.orphan, ?_⟩, ?_, ?_, ?_, h.ub⟩
  · intro x hx
    have hx : s.n + 1 ≤ x := hx
    rw [ec, if_neg (by omega)]
    exact h.core.freshC x (by omega)
  · intro i x hx
    have := h.core.data i x hx
    refine ⟨this.1, this.2.1, ?_⟩
    have e : x ≠ s.n := by rintro rfl; rw [f] at this; cases this.2.2
    rw [ec, if_neg e]
    exact this.2.2
  · intro x i hx
    rw [ec] at hx ⊢
    by_cases e : x = s.n
    · rw [if_pos e, h2] at hx; cases hx
    · rw [if_neg e] at hx ⊢; exact h.core.link x i hx
  · intro x hx
    rw [ec] at hx ⊢
    split
    · exact h1
    · rename_i e; rw [if_neg e] at hx; exact h.core.held x hx
  · intro x hx
    rw [ec] at hx ⊢
    split
    · exact h2
    · rename_i e; rw [if_neg e] at hx; exact h.async x hx
  · intro x
    rw [ec]
    split
    · omega
    · exact h.one x
  · intro x hx
    rw [ec] at hx ⊢
    split
    · exact h4
    · rename_i e; rw [if_neg e] at hx; exact h.leak x hx

theorem inv_request {s : S} (h : Inv s) {c : Nat} (ha : (s.conn c).alive = true) (hl : (s.conn c).link = none)
    (h0 : (s.conn c).async = 0) (sys : Bool) : Inv (request s c sys) := by
  unfold request
  dsimp only
  refine ⟨core_flags (core_set h.core (h.core.lt ha) (k := { s.conn c with st := .connecting, async := if sys then (s.conn c).async + 1 else (s.conn c).async })
    rfl (by rw [hl]; intro h; cases h) (fun _ => ha)) rfl rfl rfl rfl, ?_, ?_, ?_, h.ub⟩
  · intro x hx
    show ((s.set c _).conn x).link = none
    have hx : ((s.set c _).conn x).async ≠ 0 := hx
    by_cases e : x = c
    · subst e; rw [set_same]; exact hl
    · rw [set_other _ _ e] at hx ⊢; exact h.async x hx
  · intro x
    show ((s.set c _).conn x).async ≤ 1
    by_cases e : x = c
    · subst e; rw [set_same]; dsimp only; rw [h0]; split <;> omega
    · rw [set_other _ _ e]; exact h.one x
  · intro x hx
    show ((s.set c _).conn x).held = true
    have hx : ((s.set c _).conn x).alive = true := hx
    by_cases e : x = c
    · subst e
      rw [set_same]
      have := h.leak x ha
      simp only [Conn.held, Bool.or_eq_true, bne_iff_ne, ne_eq] at this ⊢
      rcases this with h1 | h1
      · exact Or.inl h1
      · exact absurd h0 h1
    · rw [set_other _ _ e] at hx ⊢; exact h.leak x hx

theorem inv_link {s : S} (h : Inv s) {c : Nat} (ha : (s.conn c).alive = true) (hl : (s.conn c).link = none)
    (hs : (s.conn c).st ≠ .disconnected) (h0 : (s.conn c).async = 0) : Inv (link s c) := by
  have ec : ∀ x, (link s c).conn x = if x = c then { s.conn c with link := some s.ns } else s.conn x := fun _ => rfl
  refine ⟨core_link h.core ha hl hs, ?_, ?_, ?_, h.ub⟩
  · intro x hx
    rw [ec] at hx ⊢
    by_cases e : x = c
    · rw [if_pos e] at hx; exact absurd h0 hx
    · rw [if_neg e] at hx ⊢; exact h.async x hx
  · intro x; rw [ec]; split
    · exact h.one c
    · exact h.one x
  · intro x hx
    rw [ec] at hx ⊢
    split
    · exact h.leak c ha
    · rename_i e; rw [if_neg e] at hx; exact h.leak x hx

theorem inv_str {s : S} (h : Inv s) {t : Str} (h1 : t.data = none) (h2 : t.closing = true) :
    Inv { s.setStr s.ns t with ns := s.ns + 1 } := by
  have f := h.core.freshS s.ns (Nat.le_refl _)
  have es : ∀ i, ({ s.setStr s.ns t with ns := s.ns + 1 } : S).str i = if i = s.ns then t else s.str i := fun _ => rfl
  refine ⟨⟨h.core.freshC, ?_, ?_, ?_, ?_, h.core.held⟩, h.async, h.one, h.leak, h.ub⟩
  · intro i hi
    have hi : s.ns + 1 ≤ i := hi
    rw [es, if_neg (by omega)]
    exact h.core.freshS i (by omega)
  · intro i x hx
    rw [es] at hx ⊢
    by_cases e : i = s.ns
    · rw [if_pos e, h1] at hx; cases hx
    · rw [if_neg e] at hx ⊢; exact h.core.data i x hx
  · intro x i hx
    have := h.core.link x i hx
    rw [es]
    have e : i ≠ s.ns := by rintro rfl; rw [f] at this; cases this.1
    rw [if_neg e]; exact this
  · intro i
    rw [es]
    split
    · intro _ _; exact h2
    · exact h.core.orphan i

theorem inv_free {s : S} (h : Inv s) {i : Nat} (hd : (s.str i).data = none) (hi : i < s.ns) :
    Inv (s.setStr i { s.str i with live := false, closing := true }) := by
  refine ⟨⟨h.core.freshC, ?_, ?_, ?_, ?_, h.core.held⟩, h.async, h.one, h.leak, h.ub⟩
  · intro j hj
    have hj : s.ns ≤ j := hj
    rw [setStr_str, if_neg (by omega)]
    exact h.core.freshS j hj
  · intro j x hx
    rw [setStr_str] at hx ⊢
    by_cases e : j = i
    · rw [if_pos e] at hx
      have : (s.str i).data = some x := hx
      rw [hd] at this; cases this
    · rw [if_neg e] at hx ⊢; exact h.core.data j x hx
  · intro x j hx
    have := h.core.link x j hx
    rw [setStr_str]
    have e : j ≠ i := by rintro rfl; rw [hd] at this; cases this.1
    rw [if_neg e]; exact this
  · intro j
    rw [setStr_str]
    split
    · intro h1; cases h1
    · exact h.core.orphan j

/-! ### The ghost flag -/

theorem disconnect_reused (s : S) (c : Nat) : (disconnect s c).reused = s.reused := by
  unfold disconnect
  dsimp only
  split
  · rfl
  · cases (s.conn c).link with
    | none => rfl
    | some i => dsimp only; split <;> rfl

theorem reset_reused (s : S) (c : Nat) (g : Bool) : (reset s c g).reused = s.reused := disconnect_reused _ _

theorem collect_reused (s : S) (c : Nat) : (collect s c).reused = s.reused := by
  unfold collect
  split
  · exact disconnect_reused _ _
  · rfl

theorem resets_reused (cs : List Nat) : ∀ s : S, (resets s cs).reused = s.reused := by
  induction cs with
  | nil => intro s; rfl
  | cons c cs ih =>
    intro s
    show (resets (if (s.conn c).alive then reset s c false else s) cs).reused = _
    rw [ih]
    split
    · exact reset_reused _ _ _
    · rfl

theorem newConnection_reused (s : S) (c : Nat) (cs : List Nat) (sent : Bool) : (newConnection s c cs sent).reused = s.reused := by
  unfold newConnection
  dsimp only
  split
  · rw [reset_reused, resets_reused]
  · rw [resets_reused]

theorem bind_reused (s : S) (c : Nat) : (bind s c).reused = s.reused := by
  unfold bind
  dsimp only
  split <;> rfl

theorem step_reused (b : Nat) (s : S) (op : Op) : s.reused = true → (step b s op).reused = true := by
  intro h
  cases op with
  | start sys ep =>
    simp only [step]
    split
    · rw [bind_reused]; simp [request, S.set, h]
    · simp [request, S.set, h]
  | listen cs ep =>
    simp only [step]
    rw [collect_reused]
    have : (resets (link (setConnected (request { s.set s.n { alive := true, listed := true } with n := s.n + 1 } s.n true) s.n) s.n) cs).reused = true := by
      rw [resets_reused]; simp [link, setConnected, request, S.set, S.setStr, h]
    split
    · rw [bind_reused]; exact this
    · exact this
  | again c sys =>
    simp only [step]
    split
    · simp [request, S.set, h]
    · exact h
  | connected c ok cs sent =>
    simp only [step]
    split
    · exact h
    · rw [collect_reused]
      cases ok
      · show (reset s c false).reused = true
        rw [reset_reused]; exact h
      · show (newConnection _ c cs sent).reused = true
        rw [newConnection_reused]
        split <;> exact h
  | listening c ok cs =>
    simp only [step]
    split
    · exact h
    · rw [collect_reused]
      cases ok
      · exact h
      · show (resets _ cs).reused = true
        rw [resets_reused]; exact h
  | accepted ok cs sent =>
    simp only [step]
    split
    · split <;> exact h
    · split
      · exact h
      · rw [newConnection_reused]; exact h
  | recv i cs reg =>
    simp only [step]
    split
    · cases (s.str i).data with
      | none => exact h
      | some c =>
        dsimp only
        split
        · split
          · rw [bind_reused, resets_reused]; exact h
          · rw [resets_reused]; exact h
        · exact h
    · exact h
  | closed i =>
    simp only [step]
    split
    · cases (s.str i).data with
      | none => exact h
      | some c =>
        dsimp only
        split
        · show (reset s c false).reused = true
          rw [reset_reused]; exact h
        · exact h
    · exact h
  | reset c g =>
    simp only [step]
    split
    · rw [collect_reused, reset_reused]; exact h
    · exact h
  | disconnect c =>
    simp only [step]
    split
    · rw [disconnect_reused]; exact h
    · exact h
  | gc c =>
    simp only [step]
    rw [collect_reused]; exact h
  | keep c on =>
    simp only [step]
    split
    · rw [collect_reused]; exact h
    · exact h

/-! ### The invariant holds -/

theorem setConnected_link {s : S} (h : Inv s) {c : Nat} (hc : (s.conn c).async ≠ 0) : Mid c (link (setConnected s c) c) :=
  mid_link h hc (h.core.alive_of_async hc) (h.async c hc) (by simp) rfl

theorem inv_step (b : Nat) {s : S} (h : Inv s) (op : Op) (hr : (step b s op).reused = false) : Inv (step b s op) := by
  cases op with
  | start sys ep =>
    simp only [step] at hr ⊢
    have h1 := inv_create h (k := { alive := true, listed := true }) rfl rfl rfl rfl
    have h2 := inv_request h1 (c := s.n) (by simp [S.set]) (by simp [S.set]) (by simp [S.set]) sys
    split
    · exact inv_bind h2 (by simp [request, S.set])
    · exact h2
  | listen cs ep =>
    simp only [step] at hr ⊢
    have h1 := inv_create h (k := { alive := true, listed := true }) rfl rfl rfl rfl
    have h2 := inv_request h1 (c := s.n) (by simp [S.set]) (by simp [S.set]) (by simp [S.set]) true
    have h3 := setConnected_link h2 (c := s.n) (by simp [request, S.set])
    have h4 := resets_ok cs h3.core
    have h5 := h3.calm h4.1 h4.2
    revert h5
    generalize resets _ cs = t
    intro h5
    have hm := h5.mine
    have ha : (t.conn s.n).alive = true := h5.core.alive_of_async (by rw [hm]; decide)
    cases ep
    · exact mid_done h5
    · have hb : Inv (bind (t.set s.n { t.conn s.n with async := (t.conn s.n).async - 1 }) s.n) := by
        have hset : ∀ k : Conn, k.alive = true → k.link = (t.conn s.n).link → (k.link.isSome = true → k.st ≠ .disconnected) →
            k.async = 0 → k.held = true → Inv (t.set s.n k) := by
          intro k k1 k2 k3 k4 k5
          refine ⟨core_set h5.core (h5.core.lt ha) k2 (fun hl => ⟨k3 hl, k1⟩) (fun _ => k1), ?_, ?_, ?_, h5.ub⟩
          · intro x hx
            by_cases e : x = s.n
            · subst e; rw [set_same] at hx; exact absurd k4 hx
            · rw [set_other _ _ e] at hx ⊢; exact h5.async x e hx
          · intro x
            by_cases e : x = s.n
            · subst e; rw [set_same, k4]; omega
            · rw [set_other _ _ e]; exact h5.one x
          · intro x hx
            by_cases e : x = s.n
            · subst e; rw [set_same]; exact k5
            · rw [set_other _ _ e] at hx ⊢; exact h5.leak x hx
        have hss : ∀ (k k' : Conn), (t.set s.n k).set s.n k' = t.set s.n k' := by
          intro k k'
          simp only [S.set]
          congr 1
          funext x
          split <;> rfl
        unfold bind setConnected
        dsimp only
        rw [hss, set_same, set_same]
        split
        · rw [hss]
          exact hset _ ha rfl (by intro _; simp) (by simp [hm]) (by simp [Conn.held])
        · exact hset _ ha rfl (fun hl => (h5.core.linked hl).1) (by simp [hm]) (by simp [Conn.held])
      have := inv_collect (c := s.n) hb.core hb.async hb.one (fun x _ => hb.leak x) hb.ub
      exact this
  | again c sys =>
    simp only [step] at hr ⊢
    split
    · rename_i hc
      rw [if_pos hc] at hr
      rw [Bool.and_eq_true, beq_iff_eq] at hc
      have hl : (s.conn c).link = none := by
        cases hl : (s.conn c).link with
        | none => rfl
        | some i => exact absurd hc.2 (h.core.link c i hl).2.1
      have h0 : (s.conn c).async = 0 := by
        simp only [request, S.set, Bool.or_eq_false_iff, bne_eq_false_iff_eq] at hr
        exact hr.2
      exact inv_request h hc.1 hl h0 sys
    · exact h
  | connected c ok cs sent =>
    simp only [step] at hr ⊢
    split
    · exact h
    · rename_i hc
      have ha := h.core.alive_of_async hc
      apply mid_done
      cases ok
      · exact (h.mid hc).calm (core_reset h.core ha false) (calm_reset h.core ha)
      · have : Mid c (link (if (s.conn c).bound = true then setConnected s c else s.set c { s.conn c with st := .handshaking }) c) := by
          split
          · exact setConnected_link h hc
          · exact mid_link h hc ha (h.async c hc) (by simp) rfl
        have hn := newConnection_ok this.core c cs sent
        exact this.calm hn.1 hn.2
  | listening c ok cs =>
    simp only [step] at hr ⊢
    split
    · exact h
    · rename_i hc
      have ha := h.core.alive_of_async hc
      apply mid_done
      cases ok
      · have : Inv (s.set c { s.conn c with st := .disconnected }) :=
          inv_set h ha ha rfl (by intro hl; rw [h.async c hc] at hl; cases hl) rfl (h.leak c ha)
        exact this.mid (by rw [set_same]; exact hc)
      · have := setConnected_link h hc
        have hn := resets_ok cs this.core
        exact this.calm hn.1 hn.2
  | accepted ok cs sent =>
    simp only [step] at hr ⊢
    have h0 : Inv { s with refused := s.refused || !ok } :=
      inv_flags h rfl rfl rfl rfl (fun hu => by simp [h.ub hu])
    split
    · split
      · exact inv_str h0 rfl rfl
      · exact h0
    · split
      · rename_i hk
        have hk : ok = false := by simpa using hk
        exact inv_flags h0 rfl rfl rfl rfl (fun _ => by simp [hk])
      · have h1 := inv_create h0 (k := { alive := true, listed := true, st := .handshaking }) rfl rfl rfl rfl
        have h2 := inv_link h1 (c := s.n) (by simp [S.set]) (by simp [S.set]) (by simp [S.set]) (by simp [S.set])
        have hn := newConnection_ok h2.core s.n cs sent
        exact h2.calm hn.1 hn.2
  | recv i cs reg =>
    simp only [step] at hr ⊢
    split
    · cases hd : (s.str i).data with
      | none => exact h
      | some c =>
        dsimp only
        have ha := (h.core.link c i (h.core.data i c hd).2.2).2.2
        rw [if_pos ha]
        have hn := resets_ok cs h.core
        have h1 := h.calm hn.1 hn.2
        split
        · exact inv_bind h1 (by rw [hn.2.alive]; exact ha)
        · exact h1
    · exact h
  | closed i =>
    simp only [step] at hr ⊢
    split
    · rename_i hv
      have hi : i < s.ns := by
        apply Nat.lt_of_not_le
        intro hl
        rw [h.core.freshS i hl] at hv
        cases hv
      cases hd : (s.str i).data with
      | none => exact inv_free h hd hi
      | some c =>
        dsimp only
        have hl := (h.core.data i c hd).2.2
        have ha := (h.core.link c i hl).2.2
        rw [if_pos ha]
        have hk := calm_reset h.core ha
        refine inv_free (h.calm (core_reset h.core ha false) hk) ?_ (by rw [hk.ns]; exact hi)
        obtain ⟨-, -, -, -, -, -, e⟩ := reset_eq h.core (h.core.lt ha) false
        rw [e, if_pos hl]
    · exact h
  | reset c g =>
    simp only [step] at hr ⊢
    split
    · rename_i ha
      obtain ⟨e1, e2, e3, e4, e5, e6, -⟩ := reset_eq h.core (h.core.lt ha) g
      have eo : (reset s c g).conn c = (s.conn c).dropped g := by rw [e1, set_same]
      have ex : ∀ x, x ≠ c → (reset s c g).conn x = s.conn x := fun x e => by rw [e1, set_other _ _ e]
      apply inv_collect (core_reset h.core ha g)
      · intro x hx
        by_cases e : x = c
        · subst e; rw [eo]; rfl
        · rw [ex x e] at hx ⊢; exact h.async x hx
      · intro x
        by_cases e : x = c
        · subst e; rw [eo]; exact h.one x
        · rw [ex x e]; exact h.one x
      · intro x e hx; rw [ex x e] at hx ⊢; exact h.leak x hx
      · intro hu; rw [e4] at hu; rw [e6]; exact h.ub hu
    · exact h
  | disconnect c =>
    simp only [step] at hr ⊢
    split
    · rename_i ha
      obtain ⟨e1, e2, e3, e4, e5, e6, -⟩ := disconnect_eq h.core c
      have eo : (disconnect s c).conn c = (s.conn c).off := by rw [e1, set_same]
      have ex : ∀ x, x ≠ c → (disconnect s c).conn x = s.conn x := fun x e => by rw [e1, set_other _ _ e]
      refine ⟨core_disconnect h.core (h.core.lt ha), ?_, ?_, ?_, ?_⟩
      · intro x hx
        by_cases e : x = c
        · subst e; rw [eo]; rfl
        · rw [ex x e] at hx ⊢; exact h.async x hx
      · intro x
        by_cases e : x = c
        · subst e; rw [eo]; exact h.one x
        · rw [ex x e]; exact h.one x
      · intro x hx
        by_cases e : x = c
        · subst e; rw [eo]; exact h.leak x ha
        · rw [ex x e] at hx ⊢; exact h.leak x hx
      · intro hu; rw [e4] at hu; rw [e6]; exact h.ub hu
    · exact h
  | gc c =>
    simp only [step] at hr ⊢
    by_cases ha : (s.conn c).alive = true
    · apply inv_collect
      · exact core_set h.core (h.core.lt ha) rfl (fun hl => h.core.linked hl) (fun _ => ha)
      · intro x hx
        by_cases e : x = c
        · subst e; rw [set_same] at hx ⊢; exact h.async x hx
        · rw [set_other _ _ e] at hx ⊢; exact h.async x hx
      · intro x
        by_cases e : x = c
        · subst e; rw [set_same]; exact h.one x
        · rw [set_other _ _ e]; exact h.one x
      · intro x e hx; rw [set_other _ _ e] at hx ⊢; exact h.leak x hx
      · exact h.ub
    · have hg : (s.conn c).gc = false := by
        cases hg : (s.conn c).gc with
        | false => rfl
        | true => exact absurd (h.core.held c (by simp [Conn.held, hg])) ha
      have e : (s.set c { s.conn c with gc := false }) = s := by
        unfold S.set
        cases s
        congr 1
        funext x
        split
        · rename_i e; subst e; dsimp only at hg ⊢; rw [← hg]
        · rfl
      rw [e]
      exact inv_collect h.core h.async h.one (fun x _ => h.leak x) h.ub
  | keep c on =>
    simp only [step] at hr ⊢
    split
    · rename_i ha
      apply inv_collect
      · exact core_set h.core (h.core.lt ha) rfl (fun hl => h.core.linked hl) (fun _ => ha)
      · intro x hx
        by_cases e : x = c
        · subst e; rw [set_same] at hx ⊢; exact h.async x hx
        · rw [set_other _ _ e] at hx ⊢; exact h.async x hx
      · intro x
        by_cases e : x = c
        · subst e; rw [set_same]; exact h.one x
        · rw [set_other _ _ e]; exact h.one x
      · intro x e hx; rw [set_other _ _ e] at hx ⊢; exact h.leak x hx
      · exact h.ub
    · exact h

theorem inv_init : Inv {} :=
  ⟨⟨fun _ _ => rfl, fun _ _ => rfl, fun _ _ h => (by cases h), fun _ _ h => (by cases h), fun _ h => (by cases h), fun _ h => (by cases h)⟩,
    fun _ h => absurd rfl h, fun _ => Nat.zero_le _, fun _ h => (by cases h), fun h => (by cases h)⟩

theorem run_cons (b : Nat) (s : S) (op : Op) (ops : List Op) : run b s (op :: ops) = run b (step b s op) ops := rfl

theorem run_reused (b : Nat) (ops : List Op) : ∀ s : S, s.reused = true → (run b s ops).reused = true := by
  induction ops with
  | nil => intro s h; exact h
  | cons op ops ih => intro s h; rw [run_cons]; exact ih _ (step_reused b s op h)

theorem inv_run (b : Nat) (ops : List Op) : ∀ {s : S}, Inv s → (run b s ops).reused = false → Inv (run b s ops) := by
  induction ops with
  | nil => intro s h _; exact h
  | cons op ops ih =>
    intro s h hr
    rw [run_cons] at hr ⊢
    have h1 : (step b s op).reused = false := by
      cases he : (step b s op).reused with
      | false => rfl
      | true => rw [run_reused b ops _ he] at hr; cases hr
    exact ih (inv_step b h op h1) hr

/-! ### C68 -/

/-- C68 (partial: no object is connected again while a request of it is pending, and the stream channel accepts every connection it
reports): no pointer to an object that is gone is ever used, whatever the application resets in its callbacks. -/
theorem C68_safe_partial (b : Nat) (ops : List Op) (h1 : (run b {} ops).reused = false) (h2 : (run b {} ops).refused = false) :
    (run b {} ops).ub = false := by
  have h := inv_run b ops inv_init h1
  cases hu : (run b {} ops).ub with
  | false => rfl
  | true => rw [h.ub hu] at h2; cases h2

/-- C68 (partial: no object is connected again while a request of it is pending): a stream points at a node connection only if that
connection exists, points back and is in use, and the other way round; so both are in at most one pair. -/
theorem C68_pairs_partial (b : Nat) (ops : List Op) (h1 : (run b {} ops).reused = false) (i c : Nat) :
    (((run b {} ops).str i).data = some c ↔ ((run b {} ops).conn c).link = some i) ∧
    (((run b {} ops).conn c).link = some i → ((run b {} ops).str i).live = true ∧ ((run b {} ops).str i).closing = false ∧
      ((run b {} ops).conn c).alive = true ∧ ((run b {} ops).conn c).st ≠ .disconnected) := by
  have h := (inv_run b ops inv_init h1).core
  refine ⟨⟨fun hd => (h.data i c hd).2.2, fun hl => (h.link c i hl).1⟩, ?_⟩
  intro hl
  have h3 := h.link c i hl
  have h4 := h.data i c h3.1
  exact ⟨h4.1, h4.2.1, h3.2.2, h3.2.1⟩

/-- C68 (partial, as above): nothing is left behind.  An open stream belongs to an existing node connection, an existing node connection
is still referenced from somewhere, and what is referenced exists. -/
theorem C68_owned_partial (b : Nat) (ops : List Op) (h1 : (run b {} ops).reused = false) :
    (∀ i, ((run b {} ops).str i).live = true → ((run b {} ops).str i).closing = false →
      ∃ c, ((run b {} ops).conn c).alive = true ∧ ((run b {} ops).conn c).link = some i) ∧
    ∀ c, ((run b {} ops).conn c).alive = true ↔ ((run b {} ops).conn c).held = true := by
  have h := inv_run b ops inv_init h1
  refine ⟨?_, fun c => ⟨h.leak c, h.core.held c⟩⟩
  intro i hv hc
  cases hd : ((run b {} ops).str i).data with
  | none => rw [h.core.orphan i hv hd] at hc; cases hc
  | some c =>
    have := (h.core.data i c hd).2.2
    exact ⟨c, (h.core.link c i this).2.2, this⟩

/-- C68 (partial, as above): when a node connection is reset its stream is closed and forgets it; when a stream is gone its node
connection is disconnected, unbound and set aside; no other pair changes. -/
theorem C68_both_ends_partial (b : Nat) (ops : List Op) (h1 : (run b {} ops).reused = false) (i c : Nat)
    (hl : ((run b {} ops).conn c).link = some i) :
    (∀ g, (((step b (run b {} ops) (.reset c g)).str i).closing = true ∧ ((step b (run b {} ops) (.reset c g)).str i).data = none)) ∧
    (((step b (run b {} ops) (.closed i)).conn c).st = .disconnected ∧ ((step b (run b {} ops) (.closed i)).conn c).link = none ∧
      ((step b (run b {} ops) (.closed i)).conn c).bound = false ∧ ((step b (run b {} ops) (.closed i)).conn c).listed = false ∧
      ((step b (run b {} ops) (.closed i)).str i).live = false) ∧
    (∀ x, x ≠ c → (step b (run b {} ops) (.closed i)).conn x = (run b {} ops).conn x ∧
      ∀ g, (step b (run b {} ops) (.reset c g)).conn x = (run b {} ops).conn x) := by
  have h := (inv_run b ops inv_init h1).core
  generalize run b {} ops = s at *
  have h3 := h.link c i hl
  have h4 := h.data i c h3.1
  have hlt := h.lt h3.2.2
  have key : ∀ g, ∀ x, x ≠ c → (collect (reset s c g) c).conn x = s.conn x := by
    intro g x e
    have h5 := core_reset h h3.2.2 g
    have e1 := (reset_eq h hlt g).1
    unfold collect
    split
    · rw [set_other _ _ e, (disconnect_eq h5 c).1, set_other _ _ e, e1, set_other _ _ e]
    · rw [e1, set_other _ _ e]
  have key2 : ∀ g, ((collect (reset s c g) c).str i).closing = true ∧ ((collect (reset s c g) c).str i).data = none := by
    intro g
    have h5 := core_reset h h3.2.2 g
    obtain ⟨e1, -, -, -, -, -, e7⟩ := reset_eq h hlt g
    have e8 : (reset s c g).str i = { s.str i with closing := true, data := none } := by rw [e7, if_pos hl]
    unfold collect
    split
    · show ((disconnect (reset s c g) c).str i).closing = true ∧ ((disconnect (reset s c g) c).str i).data = none
      obtain ⟨-, -, -, -, -, -, e9⟩ := disconnect_eq h5 c
      rw [e9]
      split
      · exact ⟨rfl, rfl⟩
      · rw [e8]; exact ⟨rfl, rfl⟩
    · rw [e8]; exact ⟨rfl, rfl⟩
  have hcl : step b s (.closed i) = (reset s c false).setStr i { (reset s c false).str i with live := false, closing := true } := by
    simp only [step, h4.1, h3.1, h3.2.2, if_true]
  have e1 := (reset_eq h hlt false).1
  have eo : (reset s c false).conn c = (s.conn c).dropped false := by rw [e1, set_same]
  refine ⟨?_, ?_, ?_⟩
  · intro g
    have : step b s (.reset c g) = collect (reset s c g) c := by simp only [step, h3.2.2, if_true]
    rw [this]
    exact key2 g
  · rw [hcl]
    refine ⟨?_, ?_, ?_, ?_, ?_⟩
    · show ((reset s c false).conn c).st = _; rw [eo]; rfl
    · show ((reset s c false).conn c).link = _; rw [eo]; rfl
    · show ((reset s c false).conn c).bound = _; rw [eo]; rfl
    · show ((reset s c false).conn c).listed = _; rw [eo]; rfl
    · rw [setStr_str, if_pos rfl]
  · intro x e
    refine ⟨?_, ?_⟩
    · rw [hcl]
      show (reset s c false).conn x = _
      rw [e1, set_other _ _ e]
    · intro g
      have : step b s (.reset c g) = collect (reset s c g) c := by simp only [step, h3.2.2, if_true]
      rw [this]
      exact key g x e

/-! ### The number of connections that wait -/

theorem waiting_le {s t : S} (hn : t.n = s.n) (h : ∀ x, (t.conn x).listed = true → (s.conn x).listed = true) : waiting t ≤ waiting s := by
  unfold waiting
  rw [hn]
  generalize List.range s.n = l
  induction l with
  | nil => exact Nat.le_refl _
  | cons x l ih =>
    simp only [List.filter_cons]
    by_cases hx : (t.conn x).listed = true
    · rw [if_pos hx, if_pos (h x hx)]
      simp only [List.length_cons]; omega
    · rw [if_neg hx]
      split
      · simp only [List.length_cons]; omega
      · exact ih

/-- C68 (partial, as above): with a limit `b`, an incoming connection that finds `b` unfinished connections is closed at once and no
node connection is made for it; so an incoming connection never raises the number of unfinished ones above `b`. -/
theorem C68_backlog_partial (b : Nat) (hb : 0 < b) (ops : List Op) (h1 : (run b {} ops).reused = false) (cs : List Nat) (sent : Bool) :
    (b ≤ waiting (run b {} ops) →
      (step b (run b {} ops) (.accepted true cs sent)).conn = (run b {} ops).conn ∧
      ((step b (run b {} ops) (.accepted true cs sent)).str (run b {} ops).ns).closing = true) ∧
    waiting (step b (run b {} ops) (.accepted true cs sent)) ≤ max b (waiting (run b {} ops)) := by
  have h := inv_run b ops inv_init h1
  generalize run b {} ops = s at *
  have ew : waiting { s with refused := s.refused || !true } = waiting s := rfl
  by_cases hw : b ≤ waiting s
  · have hc : (decide (b > 0) && decide (b ≤ waiting { s with refused := s.refused || !true })) = true := by
      simp [hb, ew, hw]
    have e : step b s (.accepted true cs sent) =
        { ({ s with refused := s.refused || !true } : S).setStr s.ns { live := true, closing := true } with ns := s.ns + 1 } := by
      simp only [step, hc, if_true]
    rw [e]
    refine ⟨fun _ => ⟨rfl, ?_⟩, ?_⟩
    · show (if s.ns = s.ns then ({ live := true, closing := true } : Str) else s.str s.ns).closing = true
      rw [if_pos rfl]
    · exact Nat.le_trans (Nat.le_refl (waiting s)) (Nat.le_max_right _ _)
  · refine ⟨fun h => absurd h hw, ?_⟩
    have hc : ¬ (decide (b > 0) && decide (b ≤ waiting { s with refused := s.refused || !true })) = true := by
      simp [ew, hw]
    have e : step b s (.accepted true cs sent) =
        newConnection (link { ({ s with refused := s.refused || !true } : S).set s.n { alive := true, listed := true, st := .handshaking } with n := s.n + 1 } s.n)
          s.n cs sent := by
      simp only [step, hc, if_false]
      rfl
    rw [e]
    have h0 : Inv { s with refused := s.refused || !true } := inv_flags h rfl rfl rfl rfl (fun hu => by simp [h.ub hu])
    have h1 := inv_create h0 (k := { alive := true, listed := true, st := .handshaking }) rfl rfl rfl rfl
    have h2 := inv_link h1 (c := s.n) (by simp [S.set]) (by simp [S.set]) (by simp [S.set]) (by simp [S.set])
    have hn := newConnection_ok h2.core s.n cs sent
    have h3 := waiting_le hn.2.n hn.2.listed
    refine Nat.le_trans h3 ?_
    have h4 : waiting (link { ({ s with refused := s.refused || !true } : S).set s.n { alive := true, listed := true, st := .handshaking } with n := s.n + 1 } s.n)
        ≤ waiting s + 1 := by
      unfold waiting
      show ((List.range (s.n + 1)).filter _).length ≤ _
      rw [List.range_succ, List.filter_append, List.length_append]
      refine Nat.add_le_add (Nat.le_of_eq ?_) (Nat.le_trans (List.length_filter_le _ _) (Nat.le_refl 1))
      congr 1
      apply List.filter_congr
      intro x hx
      have hx : x < s.n := List.mem_range.1 hx
      have : x ≠ s.n := by omega
      simp [link, S.set, S.setStr, this]
    exact Nat.le_trans h4 (by omega)

/-! ### A connection that was reset stays down -/

structure Down (c : Nat) (s : S) : Prop where
  lt : c < s.n
  async : (s.conn c).async = 0
  st : (s.conn c).st = .disconnected

theorem Down.set {c : Nat} {s : S} (h : Down c s) {x : Nat} {k : Conn} (hk : x = c → k.async = 0 ∧ k.st = .disconnected) : Down c (s.set x k) := by
  refine ⟨h.lt, ?_, ?_⟩
  · by_cases e : c = x
    · rw [e, set_same]; exact (hk e.symm).1
    · rw [set_other _ _ e]; exact h.async
  · by_cases e : c = x
    · rw [e, set_same]; exact (hk e.symm).2
    · rw [set_other _ _ e]; exact h.st

theorem Down.same {c : Nat} {s t : S} (h : Down c s) (h1 : t.conn = s.conn) (h2 : s.n ≤ t.n) : Down c t :=
  ⟨Nat.lt_of_lt_of_le h.lt h2, by rw [h1]; exact h.async, by rw [h1]; exact h.st⟩

theorem Down.disconnect {c : Nat} {s : S} (h : Down c s) (x : Nat) : Down c (disconnect s x) := by
  unfold Link.disconnect
  dsimp only
  split
  · exact h
  · rename_i hs
    have key : ∀ t : S, Down c t → Down c (t.set x { s.conn x with st := .disconnected, link := none }) :=
      fun t ht => ht.set (fun e => ⟨by subst e; exact h.async, rfl⟩)
    apply key
    cases (s.conn x).link with
    | none => exact h
    | some i => dsimp only; split <;> exact h.same rfl (Nat.le_refl _)

theorem Down.reset {c : Nat} {s : S} (h : Down c s) (x : Nat) (g : Bool) : Down c (reset s x g) := by
  unfold Link.reset
  have h1 : Down c (s.set x { s.conn x with listed := false }) := h.set (fun e => by subst e; exact ⟨h.async, h.st⟩)
  have h2 := h1.disconnect x
  exact h2.set (fun e => by subst e; exact ⟨h2.async, h2.st⟩)

theorem Down.collect {c : Nat} {s : S} (h : Down c s) (x : Nat) : Down c (collect s x) := by
  unfold Link.collect
  split
  · have h2 := h.disconnect x
    exact h2.set (fun e => by subst e; exact ⟨h2.async, h2.st⟩)
  · exact h

theorem Down.resets {c : Nat} (cs : List Nat) : ∀ {s : S}, Down c s → Down c (resets s cs) := by
  induction cs with
  | nil => intro s h; exact h
  | cons x cs ih =>
    intro s h
    show Down c (Link.resets (if (s.conn x).alive then Link.reset s x false else s) cs)
    apply ih
    split
    · exact h.reset x false
    · exact h

theorem Down.newConnection {c : Nat} {s : S} (h : Down c s) (x : Nat) (cs : List Nat) (sent : Bool) : Down c (newConnection s x cs sent) := by
  unfold Link.newConnection
  dsimp only
  split
  · exact (Down.resets cs h).reset x false
  · exact Down.resets cs h

theorem Down.bind {c : Nat} {s : S} (h : Down c s) (x : Nat) : Down c (bind s x) := by
  unfold Link.bind
  have h1 : Down c (s.set x { s.conn x with bound := true }) := h.set (fun e => by subst e; exact ⟨h.async, h.st⟩)
  dsimp only
  split
  · rename_i hs
    refine h1.set (fun e => ?_)
    subst e
    rw [set_same] at hs
    have hs : (s.conn x).st = .handshaking := hs
    rw [h.st] at hs
    cases hs
  · exact h1

theorem Down.link {c : Nat} {s : S} (h : Down c s) {x : Nat} (e : x ≠ c) : Down c (link s x) := by
  unfold Link.link
  have h1 : Down c (s.setStr s.ns { live := true, data := some x }) := h.same rfl (Nat.le_refl _)
  exact Down.same (s := (s.setStr s.ns { live := true, data := some x }).set x { s.conn x with link := some s.ns })
    (h1.set (fun e' => absurd e' e)) rfl (Nat.le_refl _)

theorem Down.setConnected {c : Nat} {s : S} (h : Down c s) {x : Nat} (e : x ≠ c) : Down c (setConnected s x) :=
  h.set (fun e' => absurd e' e)

theorem Down.request {c : Nat} {s : S} (h : Down c s) {x : Nat} (e : x ≠ c) (sys : Bool) : Down c (request s x sys) := by
  unfold Link.request
  exact Down.same (s := s.set x { s.conn x with st := .connecting, async := if sys then (s.conn x).async + 1 else (s.conn x).async })
    (h.set (fun e' => absurd e' e)) rfl (Nat.le_refl _)

theorem Down.create {c : Nat} {s : S} (h : Down c s) (k : Conn) : Down c { s.set s.n k with n := s.n + 1 } :=
  Down.same (s := s.set s.n k) (h.set (fun e => absurd h.lt (by omega))) rfl (Nat.le_succ _)

theorem down_step (b : Nat) {c : Nat} {s : S} (h : Down c s) (op : Op) (ha : ∀ sys, op ≠ .again c sys) : Down c (step b s op) := by
  have hn : s.n ≠ c := by have := h.lt; omega
  cases op with
  | start sys ep =>
    simp only [step]
    have h1 := (h.create { alive := true, listed := true }).request hn sys
    split
    · exact h1.bind _
    · exact h1
  | listen cs ep =>
    simp only [step]
    have h1 := (((h.create { alive := true, listed := true }).request hn true).setConnected hn).link hn
    have h2 := Down.resets cs h1
    apply Down.collect
    have key : ∀ t : S, Down c t → Down c (t.set s.n { t.conn s.n with async := (t.conn s.n).async - 1 }) :=
      fun t ht => ht.set (fun e => absurd e hn)
    split
    · exact (key _ h2).bind _
    · exact key _ h2
  | again x sys =>
    simp only [step]
    split
    · exact h.request (fun e => ha sys (by rw [e])) sys
    · exact h
  | connected x ok cs sent =>
    simp only [step]
    split
    · exact h
    · rename_i hx
      have e : x ≠ c := by rintro rfl; exact hx h.async
      apply Down.collect
      have key : ∀ t : S, Down c t → Down c (t.set x { t.conn x with async := (t.conn x).async - 1 }) :=
        fun t ht => ht.set (fun e' => absurd e' e)
      apply key
      cases ok
      · exact h.reset x false
      · apply Down.newConnection
        apply Down.link _ e
        split
        · exact h.setConnected e
        · exact h.set (fun e' => absurd e' e)
  | listening x ok cs =>
    simp only [step]
    split
    · exact h
    · rename_i hx
      have e : x ≠ c := by rintro rfl; exact hx h.async
      apply Down.collect
      have key : ∀ t : S, Down c t → Down c (t.set x { t.conn x with async := (t.conn x).async - 1 }) :=
        fun t ht => ht.set (fun e' => absurd e' e)
      apply key
      cases ok
      · exact h.set (fun e' => absurd e' e)
      · exact Down.resets cs ((h.setConnected e).link e)
  | accepted ok cs sent =>
    simp only [step]
    have h0 : Down c { s with refused := s.refused || !ok } := h.same rfl (Nat.le_refl _)
    split
    · split
      · exact h.same rfl (Nat.le_refl _)
      · exact h0
    · split
      · exact h.same rfl (Nat.le_refl _)
      · exact Down.newConnection ((h0.create { alive := true, listed := true, st := .handshaking }).link hn) _ _ _
  | recv i cs reg =>
    simp only [step]
    split
    · cases (s.str i).data with
      | none => exact h
      | some x =>
        dsimp only
        split
        · split
          · exact (Down.resets cs h).bind x
          · exact Down.resets cs h
        · exact h.same rfl (Nat.le_refl _)
    · exact h
  | closed i =>
    simp only [step]
    split
    · have key : ∀ t : S, Down c t → Down c (t.setStr i { t.str i with live := false, closing := true }) :=
        fun t ht => ht.same rfl (Nat.le_refl _)
      apply key
      cases (s.str i).data with
      | none => exact h
      | some x =>
        dsimp only
        split
        · exact h.reset x false
        · exact h.same rfl (Nat.le_refl _)
    · exact h
  | reset x g =>
    simp only [step]
    split
    · exact (h.reset x g).collect x
    · exact h
  | disconnect x =>
    simp only [step]
    split
    · exact h.disconnect x
    · exact h
  | gc x =>
    simp only [step]
    exact Down.collect (h.set (fun e => by subst e; exact ⟨h.async, h.st⟩)) x
  | keep x on =>
    simp only [step]
    split
    · exact Down.collect (h.set (fun e => by subst e; exact ⟨h.async, h.st⟩)) x
    · exact h

/-- C68 (partial: the connection has no pending request and nobody connects the object again): a connection that is disconnected stays
disconnected, whatever else happens. -/
theorem C68_down_partial (b : Nat) (ops ops' : List Op) (c : Nat) (hc : c < (run b {} ops).n)
    (h1 : ((run b {} ops).conn c).async = 0) (h2 : ((run b {} ops).conn c).st = .disconnected)
    (h3 : ∀ op ∈ ops', ∀ sys, op ≠ .again c sys) : ((run b {} (ops ++ ops')).conn c).st = .disconnected := by
  have key : ∀ (ops' : List Op) (s : S), Down c s → (∀ op ∈ ops', ∀ sys, op ≠ .again c sys) → Down c (run b s ops') := by
    intro ops'
    induction ops' with
    | nil => intro s h _; exact h
    | cons op ops' ih =>
      intro s h ha
      rw [run_cons]
      exact ih _ (down_step b h op (ha op (List.mem_cons_self ..))) (fun o ho => ha o (List.mem_cons_of_mem _ ho))
  have e : run b {} (ops ++ ops') = run b (run b {} ops) ops' := by simp only [run, List.foldl_append]
  rw [e]
  exact (key ops' _ ⟨hc, h1, h2⟩ h3).st

/-! ### Only unfinished connections can time out -/

def Timed (s : S) : Prop := ∀ c, (s.conn c).listed = true → (s.conn c).st ≠ .connected

theorem Timed.set {s : S} (h : Timed s) {x : Nat} {k : Conn} (hk : k.listed = true → k.st ≠ .connected) : Timed (s.set x k) := by
  intro c hc
  by_cases e : c = x
  · rw [e, set_same] at hc ⊢; exact hk hc
  · rw [set_other _ _ e] at hc ⊢; exact h c hc

theorem Timed.same {s t : S} (h : Timed s) (h1 : t.conn = s.conn) : Timed t := by
  intro c; rw [h1]; exact h c

theorem Timed.disconnect {s : S} (h : Timed s) (x : Nat) : Timed (disconnect s x) := by
  unfold Link.disconnect
  dsimp only
  split
  · exact h
  · refine Timed.set ?_ (by intro _; simp)
    cases (s.conn x).link with
    | none => exact h
    | some i => dsimp only; split <;> exact h.same rfl

theorem Timed.reset {s : S} (h : Timed s) (x : Nat) (g : Bool) : Timed (reset s x g) := by
  unfold Link.reset
  have h1 : Timed (s.set x { s.conn x with listed := false }) := h.set (by intro h; cases h)
  have h2 := h1.disconnect x
  exact h2.set (h2 x)

theorem Timed.collect {s : S} (h : Timed s) (x : Nat) : Timed (collect s x) := by
  unfold Link.collect
  split
  · have h2 := h.disconnect x
    exact h2.set (h2 x)
  · exact h

theorem Timed.resets (cs : List Nat) : ∀ {s : S}, Timed s → Timed (resets s cs) := by
  induction cs with
  | nil => intro s h; exact h
  | cons x cs ih =>
    intro s h
    show Timed (Link.resets (if (s.conn x).alive then Link.reset s x false else s) cs)
    apply ih
    split
    · exact h.reset x false
    · exact h

theorem Timed.newConnection {s : S} (h : Timed s) (x : Nat) (cs : List Nat) (sent : Bool) : Timed (newConnection s x cs sent) := by
  unfold Link.newConnection
  dsimp only
  split
  · exact (Timed.resets cs h).reset x false
  · exact Timed.resets cs h

theorem Timed.setConnected {s : S} (h : Timed s) (x : Nat) : Timed (setConnected s x) := h.set (by intro h; cases h)

theorem Timed.bind {s : S} (h : Timed s) (x : Nat) : Timed (bind s x) := by
  unfold Link.bind
  have h1 : Timed (s.set x { s.conn x with bound := true }) := h.set (h x)
  dsimp only
  split
  · exact h1.setConnected x
  · exact h1

theorem Timed.link {s : S} (h : Timed s) (x : Nat) : Timed (link s x) := by
  have h1 : Timed (s.setStr s.ns { live := true, data := some x }) := h.same rfl
  exact Timed.same (s := (s.setStr s.ns { live := true, data := some x }).set x { s.conn x with link := some s.ns }) (h1.set (h x)) rfl

theorem Timed.request {s : S} (h : Timed s) (x : Nat) (sys : Bool) : Timed (request s x sys) :=
  Timed.same (s := s.set x { s.conn x with st := .connecting, async := if sys then (s.conn x).async + 1 else (s.conn x).async })
    (h.set (by intro _; simp)) rfl

theorem Timed.create {s : S} (h : Timed s) {k : Conn} (hk : k.st ≠ .connected) : Timed { s.set s.n k with n := s.n + 1 } :=
  Timed.same (s := s.set s.n k) (h.set (fun _ => hk)) rfl

theorem timed_step (b : Nat) {s : S} (h : Timed s) (op : Op) : Timed (step b s op) := by
  have dec : ∀ (t : S) (x : Nat), Timed t → Timed (t.set x { t.conn x with async := (t.conn x).async - 1 }) :=
    fun t x ht => ht.set (ht x)
  cases op with
  | start sys ep =>
    simp only [step]
    have h1 := Timed.request (h.create (k := { alive := true, listed := true }) (by decide)) s.n sys
    split
    · exact h1.bind _
    · exact h1
  | listen cs ep =>
    simp only [step]
    have h1 := ((Timed.request (h.create (k := { alive := true, listed := true }) (by decide)) s.n true).setConnected s.n).link s.n
    have h2 := Timed.resets cs h1
    apply Timed.collect
    split
    · exact (dec _ _ h2).bind _
    · exact dec _ _ h2
  | again x sys =>
    simp only [step]
    split
    · exact h.request x sys
    · exact h
  | connected x ok cs sent =>
    simp only [step]
    split
    · exact h
    · apply Timed.collect
      apply dec
      cases ok
      · exact h.reset x false
      · apply Timed.newConnection
        apply Timed.link
        split
        · exact h.setConnected x
        · exact h.set (by intro _; simp)
  | listening x ok cs =>
    simp only [step]
    split
    · exact h
    · apply Timed.collect
      apply dec
      cases ok
      · exact h.set (by intro _; simp)
      · exact Timed.resets cs ((h.setConnected x).link x)
  | accepted ok cs sent =>
    simp only [step]
    have h0 : Timed { s with refused := s.refused || !ok } := h.same rfl
    split
    · split
      · exact h.same rfl
      · exact h0
    · split
      · exact h.same rfl
      · exact Timed.newConnection (Timed.link (h0.create (k := { alive := true, listed := true, st := .handshaking }) (by decide)) _) _ _ _
  | recv i cs reg =>
    simp only [step]
    split
    · cases (s.str i).data with
      | none => exact h
      | some x =>
        dsimp only
        split
        · split
          · exact (Timed.resets cs h).bind x
          · exact Timed.resets cs h
        · exact h.same rfl
    · exact h
  | closed i =>
    simp only [step]
    split
    · refine Timed.same (s := match (s.str i).data with
        | none => s
        | some c => if (s.conn c).alive then Link.reset s c false else { s with ub := true }) ?_ rfl
      cases (s.str i).data with
      | none => exact h
      | some x =>
        dsimp only
        split
        · exact h.reset x false
        · exact h.same rfl
    · exact h
  | reset x g =>
    simp only [step]
    split
    · exact (h.reset x g).collect x
    · exact h
  | disconnect x =>
    simp only [step]
    split
    · exact h.disconnect x
    · exact h
  | gc x =>
    simp only [step]
    refine Timed.collect (h.set ?_) x
    exact h x
  | keep x on =>
    simp only [step]
    split
    · refine Timed.collect (h.set ?_) x
      exact h x
    · exact h

/-- C68: a connection that is established is not in the list of those that can time out, in any history. -/
theorem C68_timed (b : Nat) (ops : List Op) (c : Nat) (h : ((run b {} ops).conn c).st = .connected) :
    ((run b {} ops).conn c).listed = false := by
  have key : ∀ (ops : List Op) (s : S), Timed s → Timed (run b s ops) := by
    intro ops
    induction ops with
    | nil => intro s h; exact h
    | cons op ops ih => intro s h; rw [run_cons]; exact ih _ (timed_step b h op)
  cases hl : ((run b {} ops).conn c).listed with
  | false => rfl
  | true => exact absurd h (key ops {} (fun _ h => by cases h) c hl)

/-! ### What the code does not give -/

/-- C68 (negation): the callback for incoming connections is also called when none could be accepted, with a null pointer, and uses it. -/
theorem C68_accept_false : ¬ ∀ (b : Nat) (ops : List Op), (run b {} ops).reused = false → (run b {} ops).ub = false := by
  intro h
  exact absurd (h 0 [.accepted false [] true] rfl) (by decide)

/-- C68 (negation): an object that is reset while it connects and is then connected again is tied to two streams; the first one points
at it after it is gone. -/
theorem C68_reuse_false : ¬ ∀ (b : Nat) (ops : List Op), (run b {} ops).refused = false → (run b {} ops).ub = false := by
  intro h
  exact absurd (h 0 [.start true false, .reset 0 false, .again 0 true, .connected 0 true [] true, .connected 0 true [] true,
    .reset 0 false, .gc 0, .recv 0 [] false] rfl) (by decide)

/-- The other way: the object of two listen requests, the second of which fails, keeps the stream of the first after it is closed, and
closes it once more. -/
example : (run 0 {} [.start true false, .reset 0 false, .again 0 true, .listening 0 true [], .listening 0 false [], .closed 0,
      .again 0 true]).ub = false ∧
    (run 0 {} [.start true false, .reset 0 false, .again 0 true, .listening 0 true [], .listening 0 false [], .closed 0,
      .again 0 true, .disconnect 0]).ub = true := by decide

/-- C68 (negation): a connection that is reset (in a callback, say) while its request is pending becomes connected and bound to
an endpoint when the request succeeds later. -/
theorem C68_reset_false : ¬ ∀ (b : Nat) (ops ops' : List Op) (c : Nat), ((run b {} ops).conn c).alive = true →
    (∀ op ∈ ops', ∀ sys, op ≠ .again c sys) →
    ((run b (step b (run b {} ops) (.reset c false)) ops').conn c).st = .disconnected := by
  intro h
  have := h 0 [.start true false] [.connected 0 true [] true, .recv 0 [] true, .gc 0] 0 rfl (by simp)
  exact absurd this (by decide)

/-- C68 (negation): attempts of the node itself to connect count against the limit of incoming connections.  Without any incoming
connection before, one is turned away. -/
theorem C68_backlog_false : ¬ ∀ (b : Nat) (ops : List Op), 0 < b → (∀ op ∈ ops, ∀ ok cs sent, op ≠ .accepted ok cs sent) →
    ∃ c, ((step b (run b {} ops) (.accepted true [] true)).conn c).link = some (run b {} ops).ns := by
  intro h
  obtain ⟨c, hc⟩ := h 1 [.start true false] (by decide) (by simp)
  have : ∀ c, ((step 1 (run 1 {} [.start true false]) (.accepted true [] true)).conn c).link = none := by
    intro c
    show (if c = 0 then _ else if c = 0 then _ else ({} : Conn)).link = none
    by_cases e : c = 0 <;> simp [e] <;> rfl
  rw [this] at hc
  cases hc

/-! ### Examples -/

/-- A peer connects, registers, sends something whose handler resets another connection; then its stream is closed. -/
def demoOps : List Op :=
  [.listen [] true, .accepted true [] true, .start true false, .recv 1 [] true, .recv 1 [2] false, .connected 2 true [] true,
    .gc 2, .closed 1, .gc 1]

example : (run 8 {} demoOps).ub = false :=
  C68_safe_partial 8 demoOps (by decide) (by decide)
example : ((run 8 {} (demoOps.take 2)).str 1).data = some 1 ∧ ((run 8 {} (demoOps.take 2)).conn 1).link = some 1 := by decide
example : ((run 8 {} (demoOps.take 5)).conn 1).st = .connected ∧ ((run 8 {} (demoOps.take 5)).conn 2).st = .disconnected ∧
    ((run 8 {} (demoOps.take 5)).conn 2).async = 1 := by decide
/-- The late success: the stream is opened, and closed when the request is dropped. -/
example : ((run 8 {} (demoOps.take 6)).conn 2).st = .handshaking ∧ ((run 8 {} (demoOps.take 7)).conn 2).alive = false ∧
    ((run 8 {} (demoOps.take 7)).str 2).closing = true := by decide
example : ((run 8 {} demoOps).conn 1).alive = false ∧ ((run 8 {} demoOps).conn 0).st = .connected ∧ ((run 8 {} demoOps).str 0).live = true := by
  decide
/-- A limit of one: the second incoming connection is turned away. -/
example : waiting (run 1 {} [.accepted true [] true]) = 1 ∧ (run 1 {} [.accepted true [] true, .accepted true [] true]).n = 1 ∧
    ((run 1 {} [.accepted true [] true, .accepted true [] true]).str 1).closing = true := by decide

end Verif.Node.Link
