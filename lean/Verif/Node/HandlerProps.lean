import Verif.Node.Handler

/-!
C80: message handlers use no endpoint or connection that is gone.

The specification is the flag `bad` of a run: an object was used, or given to the application, when nothing held it any more.
-/
namespace Verif.Node.Handler

/-! ### A check of paths, proved sound -/

/-- What is known about the pointers at a point of a path. -/
structure A where
  /-- the object exists -/
  fresh : Var → Bool
  /-- the pointer is null or the object is held by `new_ep` -/
  held : Var → Bool
  /-- `new_ep` may hold something -/
  isOpen : Bool
  /-- the connection exists -/
  cf : Bool
  /-- `conn_sptr` holds it -/
  cw : Bool

def A.ok (a : A) (v : Var) : Bool := a.fresh v || a.held v

def A.conn (a : A) : Bool := a.cf || a.cw

/-- After a callback: strictly, nothing is known about what is not held. -/
def A.after (a : A) (strict : Bool) : A := { a with fresh := fun v => a.fresh v && !strict, cf := a.cf && !strict }

/-- One step of the check; `none`: refused. -/
def chk (strict : Bool) (a : A) : Ins → Option A
  | .bindOf v =>
    if a.conn then some { a with fresh := fun u => u == v || a.fresh u, held := fun u => u != v && a.held u } else none
  | .find v o =>
    some { a with fresh := fun u => u == v || a.fresh u, held := fun u => if u = v then o.isNone else a.held u }
  | .new v =>
    if a.isOpen then none
    else some { a with fresh := fun u => u == v || a.fresh u, held := fun u => u == v, isOpen := true }
  | .drop => some { a with fresh := fun _ => false, held := fun _ => false, isOpen := false }
  | .enter v => if a.ok v then some a else none
  | .link v => if a.ok v then some a else none
  | .defer v => if a.ok v then some a else none
  | .use v => if a.ok v then some a else none
  | .cb vs => if vs.all a.ok then some (a.after strict) else none
  | .cbBind => if a.conn then some (a.after strict) else none
  | .expel v =>
    if a.ok v && !a.isOpen then some { a.after strict with fresh := fun _ => false, held := fun _ => false } else none
  | .resetConn _ => if a.conn then some a else none
  | .useConn => if a.conn then some a else none
  | .watch => if a.conn then some { a with cw := true } else none
  | .unwatch => some { a with cw := false }

/-- The check of a path. -/
def check (strict : Bool) : A → List Ins → Option A
  | a, [] => some a
  | a, i :: p =>
    match chk strict a i with
    | none => none
    | some a => check strict a p

theorem check_append (strict : Bool) (p q : List Ins) : ∀ a, check strict a (p ++ q) = (check strict a p).bind fun a => check strict a q := by
  induction p with
  | nil => intro a; rfl
  | cons i p ih =>
    intro a
    simp only [List.cons_append, check]
    cases chk strict a i with
    | none => rfl
    | some a => exact ih a

/-- The endpoint a connection points to exists (as C75 proves for the whole library). -/
def bindOk (w : W) : Prop := ∀ e, w.bind = some e → w.alive e = true

/-- The run is one the check speaks about. -/
def live (strict : Bool) (w : W) : Prop := strict = true ∨ w.rude = false

structure Inv (strict : Bool) (a : A) (w : W) : Prop where
  bad : live strict w → w.bad = false
  fresh : live strict w → ∀ v, a.fresh v = true → w.good v = true
  cf : live strict w → a.cf = true → (w.own || w.gcC) = true
  cw : live strict w → a.cw = true → w.holdC = true
  held : ∀ v, a.held v = true → w.vars v = none ∨ w.vars v = w.loc
  isOpen : a.isOpen = false → w.loc = none
  bind : bindOk w

theorem alive_iff (w : W) (e : Nat) : w.alive e = true ↔ e ∈ w.tab ∨ e ∈ w.gc ∨ w.loc = some e := by
  simp [W.alive, or_assoc]

theorem good_iff (w : W) (v : Var) : w.good v = true ↔ ∀ e, w.vars v = some e → w.alive e = true := by
  unfold W.good
  cases h : w.vars v with
  | none => simp
  | some e => simp

/-! #### Actions of the application -/

/-- What actions leave alone. -/
structure Same (w w' : W) : Prop where
  vars : w'.vars = w.vars
  loc : w'.loc = w.loc
  holdC : w'.holdC = w.holdC
  bad : w'.bad = w.bad

theorem Same.refl (w : W) : Same w w := ⟨rfl, rfl, rfl, rfl⟩

theorem Same.trans {a b c : W} (h : Same a b) (k : Same b c) : Same a c :=
  ⟨k.vars.trans h.vars, k.loc.trans h.loc, k.holdC.trans h.holdC, k.bad.trans h.bad⟩

theorem settle_same (w : W) : Same w (settle w) := by
  unfold settle
  split
  · exact .refl w
  · split
    · exact .refl w
    · exact ⟨rfl, rfl, rfl, rfl⟩

theorem settle_fields (w : W) : (settle w).tab = w.tab ∧ (settle w).gc = w.gc ∧ (settle w).rude = w.rude := by
  unfold settle
  split
  · exact ⟨rfl, rfl, rfl⟩
  · split <;> exact ⟨rfl, rfl, rfl⟩

theorem settle_alive (w : W) (e : Nat) : (settle w).alive e = w.alive e := by
  obtain ⟨h1, h2, -⟩ := settle_fields w
  unfold W.alive
  rw [h1, h2, (settle_same w).loc]

theorem settle_bind (w : W) : bindOk (settle w) := by
  intro e he
  rw [settle_alive]
  unfold settle at he
  split at he
  · rename_i h; rw [h] at he; cases he
  · split at he
    · rename_i h1 h2
      rw [h1] at he; cases he; exact h2
    · cases he

theorem settle_conn (w : W) (h : (w.own || w.gcC) = true) : ((settle w).own || (settle w).gcC) = true := by
  unfold settle
  split
  · exact h
  · split
    · exact h
    · rfl

theorem resetC_same (w : W) (c : Bool) : Same w (resetC w c) := by
  unfold resetC
  split
  · exact ⟨rfl, rfl, rfl, rfl⟩
  · cases c <;> exact ⟨rfl, rfl, rfl, rfl⟩

theorem resetC_alive (w : W) (c : Bool) (e : Nat) (h : w.alive e = true) : (resetC w c).alive e = true := by
  rw [alive_iff] at h ⊢
  unfold resetC
  split
  · exact h
  · cases c
    · exact h
    · rcases h with h | h | h
      · exact .inl h
      · exact .inr (.inl (List.mem_append_left _ h))
      · exact .inr (.inr h)

theorem resetC_bind (w : W) (c : Bool) : (resetC w c).bind = none := by
  unfold resetC; split <;> rfl

theorem resetC_conn (w : W) (c : Bool) : ((resetC w c).own || (resetC w c).gcC) = true := by
  unfold resetC; split <;> rfl

theorem resetC_rude (w : W) (c : Bool) : (resetC w c).rude = w.rude := by
  unfold resetC
  split
  · rfl
  · cases c <;> rfl

theorem resetE_same (w : W) (e : Nat) : Same w (resetE w e) := by
  unfold resetE; simp only; split <;> exact ⟨rfl, rfl, rfl, rfl⟩

theorem resetE_alive (w : W) (e x : Nat) (h : w.alive x = true ∨ x = e) : (resetE w e).alive x = true := by
  rw [alive_iff] at h ⊢
  have : (resetE w e).tab = w.tab ∧ (resetE w e).gc = w.gc ++ [e] ∧ (resetE w e).loc = w.loc := by
    unfold resetE; simp only; split <;> exact ⟨rfl, rfl, rfl⟩
  rw [this.1, this.2.1, this.2.2]
  rcases h with (h | h | h) | h
  · exact .inl h
  · exact .inr (.inl (List.mem_append_left _ h))
  · exact .inr (.inr h)
  · subst h; exact .inr (.inl (List.mem_append_right _ List.mem_cons_self))

theorem resetE_bind (w : W) (e : Nat) (h : ∀ x, x ≠ e → w.bind = some x → w.alive x = true) : bindOk (resetE w e) := by
  intro x hx
  have hx' : w.bind = some x ∧ x ≠ e := by
    unfold resetE at hx
    simp only at hx
    split at hx
    · cases hx
    · rename_i hn
      refine ⟨hx, ?_⟩
      rintro rfl
      exact hn hx
  exact resetE_alive w e x (.inl (h x hx'.2 hx'.1))

theorem resetE_conn (w : W) (e : Nat) (h : (w.own || w.gcC) = true) : ((resetE w e).own || (resetE w e).gcC) = true := by
  unfold resetE; simp only; split
  · rfl
  · exact h

theorem resetE_rude (w : W) (e : Nat) : (resetE w e).rude = w.rude := by
  unfold resetE; simp only; split <;> rfl

theorem act_same (w : W) (a : Act) : Same w (act w a) := by
  cases a with
  | remove e =>
    simp only [act]
    split
    · have k := settle_same { w with tab := w.tab.filter (· ≠ e), rude := w.rude || (w.vars 0 == some e || w.vars 1 == some e) }
      exact ⟨k.vars, k.loc, k.holdC, k.bad⟩
    · exact .refl w
  | disconnect e =>
    simp only [act]
    split
    · have k := resetE_same { w with tab := w.tab.filter (· ≠ e) } e
      exact ⟨k.vars, k.loc, k.holdC, k.bad⟩
    · exact .refl w
  | resetEp e =>
    simp only [act]
    split
    · exact resetE_same w e
    · exact .refl w
  | resetConn c =>
    simp only [act]
    split
    · exact resetC_same w c
    · exact .refl w
  | add => exact ⟨rfl, rfl, rfl, rfl⟩
  | collect l =>
    simp only [act]
    refine Same.trans ?_ (settle_same _)
    split
    · exact ⟨rfl, rfl, rfl, rfl⟩
    · split <;> exact ⟨rfl, rfl, rfl, rfl⟩
  | nodeReset => exact ⟨rfl, rfl, rfl, rfl⟩

theorem act_bind (w : W) (a : Act) (h : bindOk w) : bindOk (act w a) := by
  cases a with
  | remove e =>
    simp only [act]
    split
    · exact settle_bind _
    · exact h
  | disconnect e =>
    simp only [act]
    split
    · refine resetE_bind _ e ?_
      intro x hx hb
      have := h x hb
      rw [alive_iff] at this ⊢
      rcases this with h1 | h1 | h1
      · exact .inl (List.mem_filter.2 ⟨h1, by simpa using hx⟩)
      · exact .inr (.inl h1)
      · exact .inr (.inr h1)
    · exact h
  | resetEp e =>
    simp only [act]
    split
    · exact resetE_bind w e fun x _ hb => h x hb
    · exact h
  | resetConn c =>
    simp only [act]
    split
    · intro e he; rw [resetC_bind] at he; cases he
    · exact h
  | add =>
    intro e he
    have := h e he
    rw [alive_iff] at this ⊢
    rcases this with h1 | h1 | h1
    · exact .inl (List.mem_append_left _ h1)
    · exact .inr (.inl h1)
    · exact .inr (.inr h1)
  | collect l => exact settle_bind _
  | nodeReset => intro e he; cases he

/-- An action that is not rude keeps every object the handler points to. -/
theorem act_keeps (w : W) (a : Act) (h : (act w a).rude = false) :
    w.rude = false ∧ (∀ v, w.good v = true → (act w a).good v = true) ∧
      ((w.own || w.gcC) = true → ((act w a).own || (act w a).gcC) = true) := by
  have key : ∀ w' : W, w'.vars = w.vars → (∀ v e, w.vars v = some e → w.alive e = true → w'.alive e = true) →
      ∀ v, w.good v = true → w'.good v = true := by
    intro w' hv hal v hg
    rw [good_iff] at hg ⊢
    intro e he
    rw [hv] at he
    exact hal v e he (hg e he)
  cases a with
  | remove e =>
    simp only [act] at h ⊢
    split at h
    · rename_i ht
      simp only [if_pos ht]
      rw [(settle_fields _).2.2] at h
      simp only [Bool.or_eq_false_iff, beq_eq_false_iff_ne, ne_eq] at h
      refine ⟨h.1, key _ (settle_same _).vars ?_, fun hc => settle_conn _ hc⟩
      intro v x hx hal
      rw [settle_alive]
      rw [alive_iff] at hal ⊢
      have hne : x ≠ e := by
        rintro rfl
        match v, hx with
        | 0, hx => exact h.2.1 hx
        | 1, hx => exact h.2.2 hx
      rcases hal with h1 | h1 | h1
      · exact .inl (List.mem_filter.2 ⟨h1, by simpa using hne⟩)
      · exact .inr (.inl h1)
      · exact .inr (.inr h1)
    · rename_i ht
      simp only [if_neg ht]
      exact ⟨h, fun _ h => h, fun h => h⟩
  | disconnect e =>
    simp only [act] at h ⊢
    split at h
    · rename_i ht
      simp only [if_pos ht]
      rw [resetE_rude] at h
      refine ⟨h, key _ (resetE_same _ e).vars ?_, fun hc => resetE_conn _ e hc⟩
      intro v x _ hal
      refine resetE_alive _ e x ?_
      by_cases hne : x = e
      · exact .inr hne
      · left
        rw [alive_iff] at hal ⊢
        rcases hal with h1 | h1 | h1
        · exact .inl (List.mem_filter.2 ⟨h1, by simpa using hne⟩)
        · exact .inr (.inl h1)
        · exact .inr (.inr h1)
    · rename_i ht
      simp only [if_neg ht]
      exact ⟨h, fun _ h => h, fun h => h⟩
  | resetEp e =>
    simp only [act] at h ⊢
    split at h
    · rename_i ht
      simp only [if_pos ht]
      rw [resetE_rude] at h
      exact ⟨h, key _ (resetE_same _ e).vars fun v x _ hal => resetE_alive _ e x (.inl hal), fun hc => resetE_conn _ e hc⟩
    · rename_i ht
      simp only [if_neg ht]
      exact ⟨h, fun _ h => h, fun h => h⟩
  | resetConn c =>
    simp only [act] at h ⊢
    split at h
    · rename_i ht
      simp only [if_pos ht]
      rw [resetC_rude] at h
      exact ⟨h, key _ (resetC_same _ c).vars fun v x _ hal => resetC_alive _ c x hal, fun _ => resetC_conn _ c⟩
    · rename_i ht
      simp only [if_neg ht]
      exact ⟨h, fun _ h => h, fun h => h⟩
  | add =>
    refine ⟨h, key _ rfl ?_, fun h => h⟩
    intro v e _ hal
    rw [alive_iff] at hal ⊢
    rcases hal with h1 | h1 | h1
    · exact .inl (List.mem_append_left _ h1)
    · exact .inr (.inl h1)
    · exact .inr (.inr h1)
  | collect l =>
    simp only [act] at h
    rw [(settle_fields _).2.2] at h
    cases h
  | nodeReset => cases h

theorem acts_same (l : List Act) : ∀ w, Same w (acts w l) := by
  induction l with
  | nil => intro w; exact .refl w
  | cons a l ih => intro w; exact (act_same w a).trans (ih _)

theorem acts_bind (l : List Act) : ∀ w, bindOk w → bindOk (acts w l) := by
  induction l with
  | nil => intro w h; exact h
  | cons a l ih => intro w h; exact ih _ (act_bind w a h)

theorem acts_keeps (l : List Act) : ∀ w, (acts w l).rude = false →
    w.rude = false ∧ (∀ v, w.good v = true → (acts w l).good v = true) ∧
      ((w.own || w.gcC) = true → ((acts w l).own || (acts w l).gcC) = true) := by
  induction l with
  | nil => intro w h; exact ⟨h, fun _ h => h, fun h => h⟩
  | cons a l ih =>
    intro w h
    obtain ⟨h1, h2, h3⟩ := ih _ h
    obtain ⟨k1, k2, k3⟩ := act_keeps w a h1
    exact ⟨k1, fun v hv => h2 v (k2 v hv), fun hc => h3 (k3 hc)⟩

/-! #### Soundness of the check -/

theorem inv_ok {strict : Bool} {a : A} {w : W} (h : Inv strict a w) {v : Var} (hv : a.ok v = true) (hl : live strict w) : w.good v = true := by
  simp only [A.ok, Bool.or_eq_true] at hv
  rcases hv with hv | hv
  · exact h.fresh hl v hv
  · rw [good_iff]
    intro e he
    rw [alive_iff]
    rcases h.held v hv with hn | hn
    · rw [hn] at he; cases he
    · exact .inr (.inr (by rw [← hn]; exact he))

theorem inv_conn {strict : Bool} {a : A} {w : W} (h : Inv strict a w) (hc : a.conn = true) (hl : live strict w) : w.connAlive = true := by
  simp only [A.conn, Bool.or_eq_true] at hc
  unfold W.connAlive
  rcases hc with hc | hc
  · rw [h.cf hl hc]; rfl
  · rw [h.cw hl hc, Bool.or_true]

theorem inv_need {strict : Bool} {a : A} {w : W} (h : Inv strict a w) {ok : Bool} (hok : live strict w → ok = true) :
    Inv strict a (need w ok) :=
  ⟨fun hl => by show (w.bad || !ok) = false; rw [h.bad hl, hok hl]; rfl, h.fresh, h.cf, h.cw, h.held, h.isOpen, h.bind⟩

theorem inv_acts {strict : Bool} {a : A} {w : W} (h : Inv strict a w) (l : List Act) : Inv strict (a.after strict) (acts w l) := by
  have hs := acts_same l w
  have hlive : live strict (acts w l) → live strict w := by
    rintro (hl | hl)
    · exact .inl hl
    · exact .inr (acts_keeps l w hl).1
  refine ⟨?_, ?_, ?_, ?_, ?_, ?_, acts_bind l w h.bind⟩
  · intro hl; rw [hs.bad]; exact h.bad (hlive hl)
  · intro hl v hv
    simp only [A.after, Bool.and_eq_true, Bool.not_eq_true'] at hv
    rcases hl with hl | hl
    · rw [hl] at hv; cases hv.2
    · exact (acts_keeps l w hl).2.1 v (h.fresh (hlive (.inr hl)) v hv.1)
  · intro hl hv
    simp only [A.after, Bool.and_eq_true, Bool.not_eq_true'] at hv
    rcases hl with hl | hl
    · rw [hl] at hv; cases hv.2
    · exact (acts_keeps l w hl).2.2 (h.cf (hlive (.inr hl)) hv.1)
  · intro hl hc; rw [hs.holdC]; exact h.cw (hlive hl) hc
  · intro v hv; rw [hs.vars, hs.loc]; exact h.held v hv
  · intro ho; rw [hs.loc]; exact h.isOpen ho

theorem step_inv {strict : Bool} {a a' : A} {w : W} (h : Inv strict a w) (l : List Act) (i : Ins) (hc : chk strict a i = some a') :
    Inv strict a' (step w l i) := by
  cases i with
  | bindOf v =>
    simp only [chk] at hc
    split at hc
    · rename_i hcn
      cases hc
      have h' := inv_need h (fun hl => inv_conn h hcn hl)
      refine ⟨h'.bad, ?_, h'.cf, h'.cw, ?_, h'.isOpen, h'.bind⟩
      · intro hl u hu
        rw [good_iff]
        simp only [step, W.set]
        intro e he
        by_cases huv : u = v
        · rw [if_pos huv] at he
          exact h.bind e he
        · rw [if_neg huv] at he
          have : a.fresh u = true := by simpa [huv] using hu
          exact (good_iff _ _).1 (h.fresh hl u this) e he
      · intro u hu
        simp only [Bool.and_eq_true, bne_iff_ne, ne_eq] at hu
        simp only [step, W.set, if_neg hu.1]
        exact h.held u hu.2
    · cases hc
  | find v o =>
    simp only [chk, Option.some.injEq] at hc
    subst hc
    have main : ∀ x : Option Nat, (∀ e, x = some e → w.alive e = true) → (o.isNone = true → x = none) →
        Inv strict { a with fresh := fun u => u == v || a.fresh u, held := fun u => if u = v then o.isNone else a.held u } (w.set v x) := by
      intro x hx hn
      refine ⟨h.bad, ?_, h.cf, h.cw, ?_, h.isOpen, h.bind⟩
      · intro hl u hu
        rw [good_iff]
        simp only [W.set]
        intro e he
        by_cases huv : u = v
        · rw [if_pos huv] at he
          exact hx e he
        · rw [if_neg huv] at he
          have : a.fresh u = true := by simpa [huv] using hu
          exact (good_iff _ _).1 (h.fresh hl u this) e he
      · intro u hu
        by_cases huv : u = v
        · simp only [if_pos huv] at hu
          left
          simp only [W.set, if_pos huv]
          exact hn hu
        · simp only [if_neg huv] at hu
          simp only [W.set, if_neg huv]
          exact h.held u hu
    cases o with
    | none => exact main none (fun e he => by cases he) fun _ => rfl
    | some e =>
      refine main _ ?_ fun hx => by cases hx
      intro x hx
      split at hx
      · rename_i ht
        cases hx
        rw [alive_iff]
        exact .inl (by simpa using ht)
      · cases hx
  | new v =>
    simp only [chk] at hc
    split at hc
    · cases hc
    · rename_i ho
      cases hc
      have hloc : w.loc = none := h.isOpen (by simpa using ho)
      have hal : ∀ e, w.alive e = true → (step w l (.new v)).alive e = true := by
        intro e he
        rw [alive_iff] at he ⊢
        rcases he with h1 | h1 | h1
        · exact .inl h1
        · exact .inr (.inl h1)
        · rw [hloc] at h1; cases h1
      refine ⟨h.bad, ?_, h.cf, h.cw, ?_, fun hx => (by cases hx), fun e he => hal e (h.bind e he)⟩
      · intro hl u hu
        rw [good_iff]
        intro e he
        simp only [step, W.set] at he
        by_cases huv : u = v
        · rw [if_pos huv] at he
          cases he
          rw [alive_iff]
          exact .inr (.inr rfl)
        · rw [if_neg huv] at he
          have : a.fresh u = true := by simpa [huv] using hu
          exact hal e ((good_iff _ _).1 (h.fresh hl u this) e he)
      · intro u hu
        have : u = v := by simpa using hu
        right; simp only [step, W.set, if_pos this]
  | drop =>
    simp only [chk, Option.some.injEq] at hc
    subst hc
    have hs := settle_same { w with loc := none }
    have hr : (settle { w with loc := none }).rude = w.rude := (settle_fields { w with loc := none }).2.2
    have hlv : live strict (settle { w with loc := none }) → live strict w := by
      rintro (hl | hl)
      · exact .inl hl
      · exact .inr (by rw [← hr]; exact hl)
    refine ⟨?_, fun _ v hv => (by cases hv), ?_, ?_, fun v hv => (by cases hv), ?_, settle_bind _⟩
    · intro hl; show (settle _).bad = false; rw [hs.bad]; exact h.bad (hlv hl)
    · intro hl hcf; exact settle_conn _ (h.cf (hlv hl) hcf)
    · intro hl hcw; show (settle _).holdC = true; rw [hs.holdC]; exact h.cw (hlv hl) hcw
    · intro _; show (settle _).loc = none; rw [hs.loc]
  | enter v =>
    simp only [chk] at hc
    split at hc
    · rename_i hok
      cases hc
      simp only [step]
      cases hv : w.vars v with
      | none => exact h
      | some e =>
        have hg : live strict w → w.alive e = true := fun hl => (good_iff _ _).1 (inv_ok h hok hl) e hv
        have h' := inv_need h hg
        have hal : ∀ x, w.alive x = true → W.alive { need w (w.alive e) with tab := w.tab ++ [e] } x = true := by
          intro x hx
          rw [alive_iff] at hx ⊢
          rcases hx with h1 | h1 | h1
          · exact .inl (List.mem_append_left _ h1)
          · exact .inr (.inl h1)
          · exact .inr (.inr h1)
        refine ⟨h'.bad, ?_, h'.cf, h'.cw, h'.held, h'.isOpen, fun x hx => hal x (h.bind x hx)⟩
        intro hl u hu
        rw [good_iff]
        intro x hx
        exact hal x ((good_iff _ _).1 (h.fresh hl u hu) x hx)
    · cases hc
  | link v =>
    simp only [chk] at hc
    split at hc
    · rename_i hok
      cases hc
      simp only [step]
      cases hv : w.vars v with
      | none => exact h
      | some e =>
        have hg : live strict w → w.alive e = true := fun hl => (good_iff _ _).1 (inv_ok h hok hl) e hv
        have h' := inv_need h hg
        refine ⟨h'.bad, h'.fresh, fun _ _ => rfl, h'.cw, h'.held, h'.isOpen, ?_⟩
        intro x hx
        show w.alive x = true
        simp only at hx
        split at hx
        · rename_i ht; cases hx; exact ht
        · exact h.bind x hx
    · cases hc
  | defer v =>
    simp only [chk] at hc
    split at hc
    · rename_i hok
      cases hc
      simp only [step]
      cases hv : w.vars v with
      | none => exact h
      | some e =>
        have hg : live strict w → w.alive e = true := fun hl => (good_iff _ _).1 (inv_ok h hok hl) e hv
        simp only
        split
        · have hal : ∀ x, w.alive x = true → W.alive { w with gc := w.gc ++ [e] } x = true := by
            intro x hx
            rw [alive_iff] at hx ⊢
            rcases hx with h1 | h1 | h1
            · exact .inl h1
            · exact .inr (.inl (List.mem_append_left _ h1))
            · exact .inr (.inr h1)
          refine ⟨h.bad, ?_, h.cf, h.cw, h.held, h.isOpen, fun x hx => hal x (h.bind x hx)⟩
          intro hl u hu
          rw [good_iff]
          intro x hx
          exact hal x ((good_iff _ _).1 (h.fresh hl u hu) x hx)
        · rename_i hn
          exact inv_need h fun hl => absurd (hg hl) hn
    · cases hc
  | use v =>
    simp only [chk] at hc
    split at hc
    · rename_i hok
      cases hc
      exact inv_need h fun hl => inv_ok h hok hl
    · cases hc
  | cb vs =>
    simp only [chk] at hc
    split at hc
    · rename_i hok
      cases hc
      refine inv_acts (inv_need h fun hl => ?_) l
      rw [List.all_eq_true] at hok ⊢
      exact fun v hv => inv_ok h (hok v hv) hl
    · cases hc
  | cbBind =>
    simp only [chk] at hc
    split at hc
    · rename_i hcn
      cases hc
      refine inv_acts (inv_need h fun hl => ?_) l
      rw [inv_conn h hcn hl, Bool.true_and]
      cases hb : w.bind with
      | none => rfl
      | some e => exact h.bind e hb
    · cases hc
  | expel v =>
    simp only [chk] at hc
    split at hc
    · rename_i hok
      cases hc
      simp only [Bool.and_eq_true, Bool.not_eq_true'] at hok
      have hloc : w.loc = none := h.isOpen hok.2
      simp only [step]
      cases hv : w.vars v with
      | none =>
        refine ⟨h.bad, fun _ u hu => (by cases hu), ?_, h.cw, fun u hu => (by cases hu), h.isOpen, h.bind⟩
        intro hl hcf
        simp only [A.after, Bool.and_eq_true] at hcf
        exact h.cf hl hcf.1
      | some e =>
        have hg : live strict w → w.alive e = true := fun hl => (good_iff _ _).1 (inv_ok h hok.1 hl) e hv
        have h' := inv_need h hg
        simp only
        split
        · -- the endpoint leaves the table and is held until the callback is over
          have h1 : Inv strict { a with fresh := fun _ => false, held := fun _ => false, isOpen := true }
              { need w (w.alive e) with tab := (need w (w.alive e)).tab.filter (· ≠ e), loc := some e } := by
            refine ⟨h'.bad, fun _ u hu => (by cases hu), h'.cf, h'.cw, fun u hu => (by cases hu), fun hx => (by cases hx), ?_⟩
            intro x hx
            have := h.bind x hx
            rw [alive_iff] at this ⊢
            by_cases hxe : x = e
            · subst hxe; exact .inr (.inr rfl)
            · rcases this with k | k | k
              · exact .inl (List.mem_filter.2 ⟨k, by simpa using hxe⟩)
              · exact .inr (.inl k)
              · rw [hloc] at k; cases k
          have h2 := inv_acts h1 l
          generalize hw2 : acts { need w (w.alive e) with tab := (need w (w.alive e)).tab.filter (· ≠ e), loc := some e } l = w2 at h2
          have hs := settle_same { w2 with loc := none }
          have hr : (settle { w2 with loc := none }).rude = w2.rude := (settle_fields { w2 with loc := none }).2.2
          have hlv : live strict (settle { w2 with loc := none }) → live strict w2 := by
            rintro (hl | hl)
            · exact .inl hl
            · exact .inr (by rw [← hr]; exact hl)
          refine ⟨?_, fun _ v hv => (by cases hv), ?_, ?_, fun v hv => (by cases hv), ?_, settle_bind _⟩
          · intro hl; show (settle _).bad = false; rw [hs.bad]; exact h2.bad (hlv hl)
          · intro hl hcf; exact settle_conn _ (h2.cf (hlv hl) hcf)
          · intro hl hcw; show (settle _).holdC = true; rw [hs.holdC]; exact h2.cw (hlv hl) hcw
          · intro _; show (settle _).loc = none; rw [hs.loc]
        · refine ⟨h'.bad, fun _ u hu => (by cases hu), ?_, h'.cw, fun u hu => (by cases hu), h'.isOpen, h'.bind⟩
          intro hl hcf
          simp only [A.after, Bool.and_eq_true] at hcf
          exact h'.cf hl hcf.1
    · cases hc
  | resetConn c =>
    simp only [chk] at hc
    split at hc
    · rename_i hcn
      cases hc
      simp only [step]
      split
      · have hs := resetC_same w c
        have hlv : live strict (resetC w c) → live strict w := by
          rintro (hl | hl)
          · exact .inl hl
          · exact .inr (by rw [← resetC_rude w c]; exact hl)
        refine ⟨?_, ?_, fun _ _ => resetC_conn w c, ?_, ?_, ?_, ?_⟩
        · intro hl; rw [hs.bad]; exact h.bad (hlv hl)
        · intro hl u hu
          rw [good_iff]
          intro x hx
          rw [hs.vars] at hx
          exact resetC_alive w c x ((good_iff _ _).1 (h.fresh (hlv hl) u hu) x hx)
        · intro hl hcw; rw [hs.holdC]; exact h.cw (hlv hl) hcw
        · intro u hu; rw [hs.vars, hs.loc]; exact h.held u hu
        · intro ho; rw [hs.loc]; exact h.isOpen ho
        · intro x hx; rw [resetC_bind] at hx; cases hx
      · rename_i hn
        exact inv_need h fun hl => absurd (inv_conn h hcn hl) hn
    · cases hc
  | useConn =>
    simp only [chk] at hc
    split at hc
    · rename_i hcn
      cases hc
      exact inv_need h fun hl => inv_conn h hcn hl
    · cases hc
  | watch =>
    simp only [chk] at hc
    split at hc
    · rename_i hcn
      cases hc
      have h' := inv_need h fun hl => inv_conn h hcn hl
      exact ⟨h'.bad, h'.fresh, h'.cf, fun hl _ => inv_conn h hcn hl, h'.held, h'.isOpen, h'.bind⟩
    · cases hc
  | unwatch =>
    simp only [chk, Option.some.injEq] at hc
    subst hc
    exact ⟨h.bad, h.fresh, h.cf, fun _ hx => (by cases hx), h.held, h.isOpen, h.bind⟩

/-- Whatever happens, a run of `p` leads from what `a` says to what `b` says. -/
def Leads (strict : Bool) (a : A) (p : List Ins) (b : A) : Prop := ∀ w env, Inv strict a w → Inv strict b (exec w env p)

theorem check_leads {strict : Bool} (p : List Ins) : ∀ {a b : A}, check strict a p = some b → Leads strict a p b := by
  induction p with
  | nil => intro a b h w env hi; cases h; exact hi
  | cons i p ih =>
    intro a b h w env hi
    simp only [check] at h
    cases hc : chk strict a i with
    | none => rw [hc] at h; cases h
    | some a' =>
      rw [hc] at h
      exact ih h _ _ (step_inv hi _ i hc)

/-- What the callbacks of a path leave of the plan of the application. -/
def rest : List (List Act) → List Ins → List (List Act)
  | env, [] => env
  | env, i :: p => rest (if i matches .cb _ | .cbBind | .expel _ then env.tail else env) p

theorem exec_append (p q : List Ins) : ∀ w env, exec w env (p ++ q) = exec (exec w env p) (rest env p) q := by
  induction p with
  | nil => intro w env; rfl
  | cons i p ih => intro w env; exact ih _ _

theorem Leads.seq {strict : Bool} {a b c : A} {p q : List Ins} (h : Leads strict a p b) (k : Leads strict b q c) :
    Leads strict a (p ++ q) c := by
  intro w env hi
  rw [exec_append]
  exact k _ _ (h _ _ hi)

theorem Leads.loop {strict : Bool} {a : A} {α : Type} (f : α → List Ins) (h : ∀ x, Leads strict a (f x) a) :
    ∀ l : List α, Leads strict a (l.flatMap f) a := by
  intro l
  induction l with
  | nil => intro w env hi; exact hi
  | cons x l ih => rw [List.flatMap_cons]; exact (h x).seq ih

/-- `a` says no more than `b`. -/
def A.le (a b : A) : Bool :=
  (!a.fresh 0 || b.fresh 0) && (!a.fresh 1 || b.fresh 1) && (!a.held 0 || b.held 0) && (!a.held 1 || b.held 1) &&
    (!b.isOpen || a.isOpen) && (!a.cf || b.cf) && (!a.cw || b.cw)

theorem inv_le {strict : Bool} {a b : A} (h : a.le b = true) {w : W} (hi : Inv strict b w) : Inv strict a w := by
  simp only [A.le, Bool.and_eq_true, Bool.or_eq_true, Bool.not_eq_true'] at h
  obtain ⟨⟨⟨⟨⟨⟨f0, f1⟩, h0⟩, h1⟩, o⟩, c⟩, d⟩ := h
  have imp : ∀ {x y : Bool}, x = false ∨ y = true → x = true → y = true := by
    intro x y h hx
    rcases h with h | h
    · rw [h] at hx; cases hx
    · exact h
  refine ⟨hi.bad, ?_, fun hl hx => hi.cf hl (imp c hx), fun hl hx => hi.cw hl (imp d hx), ?_, ?_, hi.bind⟩
  · intro hl v hv
    match v, hv with
    | 0, hv => exact hi.fresh hl 0 (imp f0 hv)
    | 1, hv => exact hi.fresh hl 1 (imp f1 hv)
  · intro v hv
    match v, hv with
    | 0, hv => exact hi.held 0 (imp h0 hv)
    | 1, hv => exact hi.held 1 (imp h1 hv)
  · intro ho
    refine hi.isOpen ?_
    rcases o with o | o
    · exact o
    · rw [o] at ho; cases ho

/-- The check as a test. -/
def passes (strict : Bool) (a : A) (p : List Ins) (b : A) : Bool :=
  match check strict a p with
  | none => false
  | some c => b.le c

theorem passes_leads {strict : Bool} {a b : A} {p : List Ins} (h : passes strict a p b = true) : Leads strict a p b := by
  unfold passes at h
  cases hc : check strict a p with
  | none => rw [hc] at h; cases h
  | some c =>
    rw [hc] at h
    intro w env hi
    exact inv_le h (check_leads p hc w env hi)

/-! ### What is known at the places of `on_recv` -/

/-- A message arrives: the connection exists. -/
def before : A := { fresh := fun _ => false, held := fun _ => false, isOpen := false, cf := true, cw := false }

/-- Inside `on_recv`, `conn_sptr` holds the connection; it is known to be held by others only when nothing was collected. -/
def inside (strict : Bool) : A := { before with cf := !strict, cw := true }

/-- In the handler of a registration, `new_ep` holds the endpoint. -/
def building (strict : Bool) : A := { inside strict with held := fun u => u == 0, isOpen := true }

/-- Nothing is known. -/
def nothing : A := { fresh := fun _ => false, held := fun _ => false, isOpen := false, cf := false, cw := false }

/-- Paths on which no pointer to an endpoint is used after the application was called, except to an endpoint that is held. -/
def steady : Path → Bool
  | .pong _ => false
  | .regRsp token fails _ _ => !token && !fails
  | .regReq (.conflict ..) => false
  | .regReq (.unwanted (some _) _) => false
  | .transferReq (.child _ log _) => !log
  | .transferReq (.failed ..) => false
  | _ => true

/-- The path on which the code itself destroys the endpoint it then gives to the application. -/
def refusedNew : Path → Bool
  | .regReq (.unwanted (some _) _) => true
  | _ => false

theorem code_added (strict up log late : Bool) (chans : List (Option (Bool × Bool))) (a : Option (Bool × Bool)) :
    Leads strict (inside strict) (Path.regReq (.added up log chans late a)).code (inside strict) := by
  have h1 : Leads strict (inside strict)
      ([.new 0, .use 0, .useConn, .enter 0] ++ (if up then [.cb []] else []) ++ [.cb [0]] ++ (if log then [.cb [0]] else []) ++ [.link 0, .use 0])
      (building strict) := by
    apply passes_leads
    cases strict <;> cases up <;> cases log <;> rfl
  have h2 : Leads strict (building strict) (chans.flatMap chan) (building strict) := by
    refine Leads.loop _ ?_ _
    intro x
    apply passes_leads
    match x with
    | none => cases strict <;> rfl
    | some (x, y) => cases strict <;> cases x <;> cases y <;> rfl
  have h3 : Leads strict (building strict) ((if late then [.defer 0] else []) ++ [.drop] ++ regTail a false false) (inside strict) := by
    apply passes_leads
    match a with
    | none => cases strict <;> cases late <;> rfl
    | some (x, y) => cases strict <;> cases late <;> cases x <;> cases y <;> rfl
  have := (h1.seq h2).seq h3
  simpa only [Path.code, regReq, List.append_assoc] using this

theorem code_connSyn (strict : Bool) (l : List Bool) : Leads strict (inside strict) (Path.connSyn l).code (inside strict) := by
  refine Leads.seq (b := inside strict) ?_ ?_
  · apply passes_leads; cases strict <;> rfl
  · refine Leads.loop _ ?_ _
    intro x
    apply passes_leads
    cases strict <;> cases x <;> rfl

theorem code_regReq (strict : Bool) (r : Reg) (h : (strict = true ∧ steady (.regReq r) = true) ∨ (strict = false ∧ refusedNew (.regReq r) = false)) :
    Leads strict (inside strict) (Path.regReq r).code (inside strict) := by
  cases r with
  | added up log chans late a => exact code_added strict up log late chans a
  | refused token inited ok => apply passes_leads; cases strict <;> cases token <;> cases inited <;> cases ok <;> rfl
  | mismatch => apply passes_leads; cases strict <;> rfl
  | again a =>
    apply passes_leads
    match a with
    | none => cases strict <;> rfl
    | some (x, y) => cases strict <;> cases x <;> cases y <;> rfl
  | temporary a =>
    apply passes_leads
    match a with
    | none => cases strict <;> rfl
    | some (x, y) => cases strict <;> cases x <;> cases y <;> rfl
  | known o a =>
    apply passes_leads
    match a with
    | none => cases strict <;> rfl
    | some (x, y) => cases strict <;> cases x <;> cases y <;> rfl
  | conflict o a ctrl =>
    rcases h with ⟨_, h⟩ | ⟨rfl, _⟩
    · cases h
    · apply passes_leads
      match a with
      | none => cases ctrl <;> rfl
      | some (x, y) => cases x <;> cases y <;> cases ctrl <;> rfl
  | child a ctrl =>
    apply passes_leads
    match a with
    | none => cases strict <;> cases ctrl <;> rfl
    | some (x, y) => cases strict <;> cases x <;> cases y <;> cases ctrl <;> rfl
  | parent starting ctrl => apply passes_leads; cases strict <;> cases starting <;> cases ctrl <;> rfl
  | unwanted a ctrl =>
    match a, h with
    | none, _ => apply passes_leads; cases strict <;> cases ctrl <;> rfl
    | some _, h => rcases h with ⟨_, h⟩ | ⟨_, h⟩ <;> cases h

theorem code_leads (strict : Bool) (p : Path) (h : (strict = true ∧ steady p = true) ∨ (strict = false ∧ refusedNew p = false)) :
    Leads strict (inside strict) p.code (inside strict) := by
  cases p with
  | regReq r => exact code_regReq strict r h
  | connSyn l => exact code_connSyn strict l
  | bad => apply passes_leads; cases strict <;> rfl
  | ping b o => apply passes_leads; cases strict <;> cases b <;> cases o <;> rfl
  | pong b =>
    rcases h with ⟨_, h⟩ | ⟨rfl, _⟩
    · cases h
    · apply passes_leads; cases b <;> rfl
  | regRsp t f p u =>
    rcases h with ⟨rfl, h⟩ | ⟨rfl, _⟩
    · cases t <;> cases f <;> simp [steady] at h
      apply passes_leads; cases p <;> cases u <;> rfl
    · apply passes_leads; cases t <;> cases f <;> cases p <;> cases u <;> rfl
  | cmdReq r a =>
    apply passes_leads
    match a with
    | none => cases strict <;> cases r <;> rfl
    | some x => cases strict <;> cases r <;> cases x <;> rfl
  | cmdRsp => apply passes_leads; cases strict <;> rfl
  | sync => apply passes_leads; cases strict <;> rfl
  | transferReq t =>
    cases t with
    | here log rsp =>
      apply passes_leads
      match rsp with
      | none => cases strict <;> cases log <;> rfl
      | some (x, y) => cases strict <;> cases log <;> cases x <;> cases y <;> rfl
    | ttl x y => apply passes_leads; cases strict <;> cases x <;> cases y <;> rfl
    | child o log sync =>
      apply passes_leads
      rcases h with ⟨rfl, h⟩ | ⟨rfl, _⟩
      · cases log
        · match sync with
          | none => rfl
          | some (x, y) => cases x <;> cases y <;> rfl
        · cases h
      · match sync with
        | none => cases log <;> rfl
        | some (x, y) => cases log <;> cases x <;> cases y <;> rfl
    | failed o f up rsp =>
      rcases h with ⟨_, h⟩ | ⟨rfl, _⟩
      · cases h
      · apply passes_leads
        obtain ⟨x, y⟩ := rsp
        match f, up with
        | .fails, none => cases x <;> cases y <;> rfl
        | .sent a b, none => cases a <;> cases b <;> cases x <;> cases y <;> rfl
        | .fails, some (_, .fails) => cases x <;> cases y <;> rfl
        | .sent a b, some (_, .fails) => cases a <;> cases b <;> cases x <;> cases y <;> rfl
        | .fails, some (_, .sent c d) => cases c <;> cases d <;> cases x <;> cases y <;> rfl
        | .sent a b, some (_, .sent c d) => cases a <;> cases b <;> cases c <;> cases d <;> cases x <;> cases y <;> rfl
  | transferRsp fails fwd =>
    apply passes_leads
    match fwd with
    | none => cases strict <;> cases fails <;> rfl
    | some (_, .fails) => cases strict <;> rfl
    | some (_, .sent a b) => cases strict <;> cases a <;> cases b <;> rfl

theorem onRecv_leads (strict : Bool) (log : Bool) (p : Path) (e : End)
    (h : (strict = true ∧ steady p = true) ∨ (strict = false ∧ refusedNew p = false)) :
    Leads strict before (onRecv log p e) { before with cf := !strict } := by
  have h1 : Leads strict before ([.watch] ++ if log then [.cbBind] else []) (inside strict) := by
    apply passes_leads; cases strict <;> cases log <;> rfl
  have h3 : Leads strict (inside strict) (e.code ++ [.unwatch]) { before with cf := !strict } := by
    apply passes_leads
    match e with
    | .fine => cases strict <;> rfl
    | .fault x c => cases strict <;> cases x <;> cases c <;> rfl
  have := (h1.seq (code_leads strict p h)).seq h3
  simpa only [onRecv, List.append_assoc] using this

/-- The world in which a message arrives: the connection exists, and so does the endpoint it points to. -/
structure Start (w : W) : Prop where
  conn : (w.own || w.gcC) = true
  bind : ∀ e, w.bind = some e → e ∈ w.tab ∨ e ∈ w.gc
  loc : w.loc = none
  bad : w.bad = false
  rude : w.rude = false

theorem start_inv (strict : Bool) {w : W} (h : Start w) : Inv strict before w :=
  ⟨fun _ => h.bad, fun _ v hv => (by cases hv), fun _ _ => h.conn, fun _ hx => (by cases hx), fun v hv => (by cases hv), fun _ => h.loc,
    fun e he => (alive_iff w e).2 (by rcases h.bind e he with k | k; exact .inl k; exact .inr (.inl k))⟩

/-- On every path but the ones named by `steady`, and whatever the application does in the callbacks (removing endpoints, resetting the
connection, running or resetting the node included), nothing that is gone is used or given to the application. -/
theorem C80_steady (w : W) (h : Start w) (env : List (List Act)) (log : Bool) (p : Path) (e : End) (hp : steady p = true) :
    (exec w env (ioRecv log p e)).bad = false := by
  have k : Leads true before [.useConn] before := passes_leads rfl
  exact ((k.seq (onRecv_leads true log p e (.inl ⟨rfl, hp⟩))) w env (start_inv true h)).bad (.inl rfl)

/-- A run that uses something that is gone is one in which the application removed an endpoint that the handler had a pointer to
(`node::remove_endpoint` destroys it at once; `node::disconnect` and the resets do not), or ran or reset the node inside the callback; except
for the refusal of a new endpoint (`C80_refused_false`). -/
theorem C80_gentle_partial (w : W) (h : Start w) (env : List (List Act)) (log : Bool) (p : Path) (e : End) (hp : refusedNew p = false)
    (hb : (exec w env (ioRecv log p e)).bad = true) : (exec w env (ioRecv log p e)).rude = true := by
  have k : Leads false before [.useConn] before := passes_leads rfl
  have hi := (k.seq (onRecv_leads false log p e (.inr ⟨rfl, hp⟩))) w env (start_inv false h)
  cases hr : (exec w env (ioRecv log p e)).rude with
  | true => rfl
  | false =>
    have := hi.bad (.inr hr)
    rw [show exec w env ([Ins.useConn] ++ onRecv log p e) = exec w env (ioRecv log p e) from rfl, hb] at this
    cases this

/-- The same for the loop over all messages in a memory channel, with the error that may end it. -/
theorem C80_loop_partial (w : W) (h : Start w) (env : List (List Act)) (l : List MemMsg) (err : Option (Bool × Bool))
    (hp : ∀ log p e, MemMsg.msg log p e ∈ l → refusedNew p = false)
    (hb : (exec w env (memProc l err)).bad = true) : (exec w env (memProc l err)).rude = true := by
  have k1 : ∀ l : List MemMsg, (∀ log p e, MemMsg.msg log p e ∈ l → refusedNew p = false) →
      Leads false before (l.flatMap memTurn) before := by
    intro l
    induction l with
    | nil => intro _ w env hi; exact hi
    | cons m l ih =>
      intro hp
      rw [List.flatMap_cons]
      refine Leads.seq ?_ (ih fun log p e hm => hp log p e (List.mem_cons_of_mem _ hm))
      cases m with
      | garbage => exact passes_leads rfl
      | msg log p e =>
        have k : Leads false before [.useConn] before := passes_leads rfl
        exact k.seq (onRecv_leads false log p e (.inr ⟨rfl, hp log p e List.mem_cons_self⟩))
  have k2 : Leads false before ([.useConn] ++ memErr err) before := by
    apply passes_leads
    match err with
    | none => rfl
    | some (x, c) => cases x <;> cases c <;> rfl
  have hi := ((k1 l hp).seq k2) w env (start_inv false h)
  cases hr : (exec w env (memProc l err)).rude with
  | true => rfl
  | false =>
    have := hi.bad (.inr hr)
    rw [show exec w env (l.flatMap memTurn ++ ([.useConn] ++ memErr err)) = exec w env (memProc l err) from rfl, hb] at this
    cases this

/-- After an error of the channel, if `on_error` leaves the connection alone, the application may do anything in the callback for the
removed endpoint. -/
theorem C80_error_steady (w : W) (h : Start w) (env : List (List Act)) (x c : Bool) : (exec w ([] :: env) (onError x c)).bad = false := by
  have k : Leads true before ([.watch, .bindOf 1, .use 1] ++ (if x then [.expel 1] else []) ++ [.useConn] ++
      (if c then [.resetConn true] else []) ++ [.unwatch]) nothing := by
    apply passes_leads; cases x <;> cases c <;> rfl
  have hi := start_inv true h
  have h1 := inv_need hi (ok := w.connAlive) fun hl => inv_conn hi rfl hl
  have h2 := inv_need h1 (ok := (need w w.connAlive).connAlive && match w.bind with
      | none => true
      | some e => w.alive e) fun hl => by
    rw [inv_conn h1 rfl hl, Bool.true_and]
    cases hb : w.bind with
    | none => rfl
    | some e => exact hi.bind e hb
  exact (k _ env h2).bad (.inl rfl)

/-! ### Where it is false -/

/-- A node with the endpoint 0, whose connection gets a message. -/
def peer : W := { tab := [0], next := 1, bind := some 0 }

theorem peer_start : Start peer := ⟨rfl, fun e he => (by cases he; exact .inl (List.mem_singleton.2 rfl)), rfl, rfl, rfl⟩

/-- A node with the parent 0 and a new connection. -/
def fresh : W := { tab := [0], next := 1 }

theorem fresh_start : Start fresh := ⟨rfl, fun e he => (by cases he), rfl, rfl, rfl⟩

/-- Removing the endpoint in `on_pong`, `on_register`, `on_error` or the log breaks the handlers of pongs, of registrations and of
forwarded data, and resetting the connection and running the node in a handler breaks the loop over a memory channel. -/
theorem C80_remove_false :
    (∀ log hit e, (exec peer (if log then [[], [.remove 0]] else [[.remove 0]]) (ioRecv log (.pong hit) e)).bad = true) ∧
      (∀ f p u, (exec peer [[.remove 0]] (ioRecv false (.regRsp true f p u) .fine)).bad = true) ∧
      (∀ a c, (exec peer [[.remove 0]] (ioRecv false (.regReq (.conflict (some 0) a c)) .fine)).bad = true) ∧
      (∀ s, (exec peer [[.remove 0]] (ioRecv false (.transferReq (.child (some 0) true s)) .fine)).bad = true) ∧
      (∀ r, (exec peer [[.remove 0]] (ioRecv false (.transferReq (.failed (some 0) .fails none r)) .fine)).bad = true) ∧
      (exec peer [[.resetConn true, .collect []]] (memProc [.msg false .cmdRsp .fine] none)).bad = true := by
  refine ⟨?_, ?_, ?_, ?_, ?_, rfl⟩
  · intro log hit e
    match e with
    | .fine => cases log <;> cases hit <;> rfl
    | .fault x c => cases log <;> cases hit <;> cases x <;> cases c <;> rfl
  · intro f p u; cases f <;> cases p <;> cases u <;> rfl
  · intro a c
    match a with
    | none => rfl
    | some (x, y) => cases x <;> cases y <;> cases c <;> rfl
  · intro s
    match s with
    | none => rfl
    | some (x, y) => cases x <;> cases y <;> rfl
  · intro r
    obtain ⟨x, y⟩ := r
    cases x <;> cases y <;> rfl

/-- An application that does nothing at all: when `add_endpoint` refuses a new endpoint (a second parent, or subnets that overlap those of
another child), the endpoint is destroyed and then given to `on_error`. -/
theorem C80_refused_false (inited ok c : Bool) (log : Bool) (e : End) :
    (exec fresh [] (ioRecv log (.regReq (.unwanted (some (inited, ok)) c)) e)).bad = true := by
  match e with
  | .fine => cases log <;> cases inited <;> cases ok <;> cases c <;> rfl
  | .fault x y => cases log <;> cases inited <;> cases ok <;> cases c <;> cases x <;> cases y <;> rfl

/-! ### A refused connection is given up -/

/-- The node and its endpoints have let go of the connection. -/
def Gone (w : W) : Prop := w.own = false ∧ w.bind = none

theorem gone_settle {w : W} (h : Gone w) : Gone (settle w) := by
  unfold settle; rw [h.2]; exact h

theorem gone_act {w : W} (h : Gone w) (a : Act) : Gone (act w a) := by
  have hb := h.2
  cases a <;> simp only [act]
  case remove e => split; exact gone_settle ⟨h.1, h.2⟩; exact h
  case disconnect e => split; simp only [resetE, hb, reduceCtorEq, if_false]; exact ⟨h.1, rfl⟩; exact h
  case resetEp e => split; simp only [resetE, hb, reduceCtorEq, if_false]; exact ⟨h.1, rfl⟩; exact h
  case resetConn c => split; simp only [resetC, hb]; exact ⟨rfl, rfl⟩; exact h
  case add => exact h
  case collect l => rw [hb]; exact gone_settle ⟨h.1, h.2⟩
  case nodeReset => exact ⟨rfl, rfl⟩

theorem gone_acts (l : List Act) : ∀ {w : W}, Gone w → Gone (acts w l) := by
  induction l with
  | nil => intro w h; exact h
  | cons a l ih => intro w h; exact ih (gone_act h a)

theorem gone_step {w : W} (h : Gone w) (l : List Act) (i : Ins) (hi : ∀ v, i ≠ .link v) : Gone (step w l i) := by
  cases i <;> simp only [step]
  case link v => exact absurd rfl (hi v)
  case find v o => cases o <;> exact h
  case drop => exact gone_settle ⟨h.1, h.2⟩
  case enter v => split <;> exact h
  case defer v => split; exact h; split <;> exact h
  case cb vs => exact gone_acts l h
  case cbBind => exact gone_acts l h
  case expel v =>
    split
    · exact h
    · split
      · rename_i e _ _
        have := gone_acts l (w := { need w (w.alive e) with tab := w.tab.filter (· ≠ e), loc := some e }) h
        exact gone_settle ⟨this.1, this.2⟩
      · exact h
  case resetConn c =>
    split
    · simp only [resetC, h.2]; exact ⟨rfl, rfl⟩
    · exact h
  all_goals exact h

theorem gone_exec (p : List Ins) (hp : ∀ v, Ins.link v ∉ p) : ∀ {w : W} (env : List (List Act)), Gone w → Gone (exec w env p) := by
  induction p with
  | nil => intro w env h; exact h
  | cons i p ih =>
    intro w env h
    exact ih (fun v hv => hp v (List.mem_cons_of_mem _ hv)) _ (gone_step h _ i fun v e => hp v (e ▸ List.mem_cons_self))

theorem hold_step {w : W} (h : w.holdC = true) (l : List Act) (i : Ins) (hi : i ≠ .unwatch) : (step w l i).holdC = true := by
  cases i <;> simp only [step]
  case unwatch => exact absurd rfl hi
  case watch => simp [W.connAlive, h]
  case find v o => cases o <;> exact h
  case drop => rw [(settle_same _).holdC]; exact h
  case enter v => split <;> exact h
  case link v => split <;> exact h
  case defer v => split; exact h; split <;> exact h
  case cb vs => rw [(acts_same l _).holdC]; exact h
  case cbBind => rw [(acts_same l _).holdC]; exact h
  case expel v =>
    split
    · exact h
    · split
      · rw [(settle_same _).holdC]; exact ((acts_same l _).holdC).trans h
      · exact h
  case resetConn c =>
    split
    · rw [(resetC_same _ c).holdC]; exact h
    · exact h
  all_goals exact h

/-- The connection is reset while it is held, and not used for an endpoint after that. -/
def cuts : List Ins → Bool
  | [] => false
  | i :: p => ((i matches .resetConn _) && p.all fun j => !(j matches .link _)) || (i != .unwatch && cuts p)

theorem cuts_exec (p : List Ins) : ∀ (w : W) (env : List (List Act)), w.holdC = true → cuts p = true → Gone (exec w env p) := by
  induction p with
  | nil => intro w env _ h; cases h
  | cons i p ih =>
    intro w env hw h
    simp only [cuts, Bool.or_eq_true, Bool.and_eq_true] at h
    rcases h with ⟨h1, h2⟩ | ⟨h1, h2⟩
    · cases i <;> try cases h1
      rename_i c
      refine gone_exec p (fun v hv => ?_) _ ?_
      · have := List.all_eq_true.1 h2 _ hv; cases this
      · have : w.connAlive = true := by simp [W.connAlive, hw]
        simp only [step, this, if_true]
        exact ⟨by unfold resetC; split <;> rfl, resetC_bind w c⟩
    · exact ih _ _ (hold_step hw _ i (by simpa using h1)) h2

theorem cuts_append {p : List Ins} (q : List Ins) (hq : ∀ v, Ins.link v ∉ q) (h : cuts p = true) : cuts (p ++ q) = true := by
  induction p with
  | nil => cases h
  | cons i p ih =>
    simp only [List.cons_append, cuts, Bool.or_eq_true, Bool.and_eq_true] at h ⊢
    rcases h with ⟨h1, h2⟩ | ⟨h1, h2⟩
    · refine .inl ⟨h1, ?_⟩
      rw [List.all_append, h2, Bool.true_and, List.all_eq_true]
      intro j hj
      cases j <;> first | rfl | exact absurd hj (hq _)
    · exact .inr ⟨h1, ih h2⟩

/-- The messages that end a registration without success: an answer with a wrong token or an error; a request on a connection of another node; a
request refused for what it says of the node, on a connection that takes an answer. -/
def refuses : Path → Bool
  | .regRsp token fails _ _ => token || fails
  | .regReq .mismatch => true
  | .regReq (.conflict _ a _) => a.isSome
  | .regReq (.child a _) => a.isSome
  | .regReq (.unwanted a _) => a.isSome
  | .regReq (.parent _ _) => true
  | _ => false

/-- After such a message the node and its endpoints have let go of the connection, whatever the application does in the callbacks. -/
theorem C80_refused_ends (w : W) (h : Start w) (env : List (List Act)) (log : Bool) (p : Path) (e : End) (hp : refuses p = true) :
    (exec w env (ioRecv log p e)).own = false ∧ (exec w env (ioRecv log p e)).bind = none := by
  have hc : cuts p.code = true := by
    match p, hp with
    | .regRsp false false _ _, hp => cases hp
    | .regRsp true f pa u, _ => cases f <;> cases pa <;> cases u <;> rfl
    | .regRsp false true pa u, _ => cases pa <;> cases u <;> rfl
    | .regReq .mismatch, _ => rfl
    | .regReq (.conflict o (some (i, k)) c), _ => cases i <;> cases k <;> rfl
    | .regReq (.child (some (i, k)) c), _ => cases i <;> cases k <;> rfl
    | .regReq (.unwanted (some (i, k)) c), _ => cases i <;> cases k <;> rfl
    | .regReq (.parent s c), _ => cases s <;> rfl
  have he : ∀ v, Ins.link v ∉ e.code ++ [Ins.unwatch] := by
    intro v
    match e with
    | .fine => simp [End.code]
    | .fault x c => cases x <;> cases c <;> simp [End.code]
  have h1 := cuts_append _ he hc
  have h2 : cuts ((if log then [.cbBind] else []) ++ (p.code ++ (e.code ++ [Ins.unwatch]))) = true := by
    cases log
    · exact h1
    · simp [cuts, h1]
  have hcode : ioRecv log p e = [.useConn, .watch] ++ ((if log then [.cbBind] else []) ++ (p.code ++ (e.code ++ [Ins.unwatch]))) := by
    simp [ioRecv, onRecv, List.append_assoc]
  rw [hcode, exec_append]
  have hw : (exec w env [.useConn, .watch]).holdC = true := by
    have := h.conn
    simp only [exec, step, need, W.connAlive, this, Bool.true_or]
  exact cuts_exec _ _ _ hw h2

/-- A refused request whose answer was sent does not end the connection: the node still holds it. -/
theorem C80_token_kept (w : W) (ho : w.own = true) (log token : Bool) :
    (exec w [] (ioRecv log (.regReq (.refused token true true)) .fine)).own = true := by
  have key : ∀ (p : List Ins), (p.all fun i => i matches .useConn | .watch | .cbBind | .bindOf _ | .use _ | .unwatch) = true →
      ∀ w : W, w.own = true → (exec w [] p).own = true := by
    intro p
    induction p with
    | nil => intro _ w h; exact h
    | cons i p ih =>
      intro hp w h
      rw [List.all_cons, Bool.and_eq_true] at hp
      have he : exec w [] (i :: p) = exec (step w [] i) [] p := by
        show exec _ _ p = _
        congr 1
        split <;> rfl
      rw [he]
      refine ih hp.2 _ ?_
      have h1 := hp.1
      cases i <;> first | exact h | cases h1
  refine key _ ?_ w ho
  cases log <;> cases token <;> rfl

example : Start fresh ∧ refuses (.regRsp false true true false) = true ∧ fresh.own = true := ⟨fresh_start, rfl, rfl⟩

/-! ### Examples -/

/-- A ping whose endpoint is removed by the application while the node is run again: nothing bad, though the application was rude. -/
example : (exec peer [[.remove 0, .collect []], []] (ioRecv false (.ping true true) .fine)).bad = false ∧
    (exec peer [[.remove 0, .collect []], []] (ioRecv false (.ping true true) .fine)).rude = true := ⟨rfl, rfl⟩

/-- The connection of the ping lives on as long as `on_recv` and no longer. -/
example : (exec peer [[.remove 0, .collect []], []] (ioRecv false (.ping true true) .fine)).connAlive = false := rfl

/-- A pong whose endpoint is disconnected by the application: nothing bad. -/
example : (exec peer [[.disconnect 0]] (ioRecv false (.pong true) .fine)).bad = false ∧
    (exec peer [[.disconnect 0]] (ioRecv false (.pong true) .fine)).tab = [] := ⟨rfl, rfl⟩

/-- A new endpoint that the application removes while it is added: held until the handler is over. -/
example : (exec fresh [[.remove 1]] (ioRecv false (.regReq (.added false false [some (false, true)] true (some (true, true)))) .fine)).bad = false ∧
    (exec fresh [] (ioRecv false (.regReq (.added false false [some (false, true)] true (some (true, true)))) .fine)).tab = [0, 1] := ⟨rfl, rfl⟩

/-- Too many faults: the endpoint goes. -/
example : (exec peer [] (ioRecv false .bad (.fault true true))).tab = [] ∧ (exec peer [] (ioRecv false .bad (.fault true true))).bad = false :=
  ⟨rfl, rfl⟩

end Verif.Node.Handler
