import Verif.Endpoint.Model

/-! The effect of the reset functions without re-entrant calls. -/
namespace Verif.Endpoint

theorem S.ext' {s t : S} (h1 : ∀ c, s.conn c = t.conn c) (h2 : ∀ e, s.ep e = t.ep e) : s = t := by
  cases s; cases t
  simp only [S.mk.injEq]
  exact ⟨funext h1, funext h2⟩

@[simp] theorem setConn_conn (s : S) (c : Nat) (v : Conn) (j : Nat) : (s.setConn c v).conn j = if j = c then v else s.conn j := rfl
@[simp] theorem setConn_ep (s : S) (c : Nat) (v : Conn) (j : Nat) : (s.setConn c v).ep j = s.ep j := rfl
@[simp] theorem setEp_ep (s : S) (c : Nat) (v : Ep) (j : Nat) : (s.setEp c v).ep j = if j = c then v else s.ep j := rfl
@[simp] theorem setEp_conn (s : S) (c : Nat) (v : Ep) (j : Nat) : (s.setEp c v).conn j = s.conn j := rfl

/-- No application code runs inside. -/
def quiet : Nat → S → Option S := fun _ s => some s

/-- The state left by a disconnect. -/
def after (st : St) : St := if st = .disconnecting then .disconnecting else .disconnected

/-- A connection after its reset. -/
def closed (c : Conn) : Conn := { st := after c.st }

theorem disconnect_quiet (c : Nat) (s : S) : disconnect quiet c s = some (s.setConn c { s.conn c with st := after (s.conn c).st }) := by
  unfold disconnect
  cases h : (s.conn c).st <;> simp only [quiet, after]
  case disconnected =>
    congr 1; apply S.ext'
    · intro j; simp only [setConn_conn]; by_cases hj : j = c
      · subst hj; rw [if_pos rfl, if_neg (by simp), ← h]
      · rw [if_neg hj]
    · intro e; rfl
  case disconnecting =>
    congr 1; apply S.ext'
    · intro j; simp only [setConn_conn]; by_cases hj : j = c
      · subst hj; rw [if_pos rfl]; simp only [if_true]; rw [← h]
      · rw [if_neg hj]
    · intro e; rfl
  all_goals
    congr 1; apply S.ext'
    · intro j; simp only [setConn_conn]; by_cases hj : j = c
      · subst hj; simp
      · simp [hj]
    · intro e; rfl

/-- Reset of a connection whose endpoint is being reset, or that has no endpoint. -/
theorem connReset_inner (d c : Nat) (s : S) (hr : (s.conn c).resetting = false)
    (hb : ∀ e, (s.conn c).binding = some e → (s.ep e).resetting = true) :
    connReset quiet (d + 1) c s = some (s.setConn c (closed (s.conn c))) := by
  unfold connReset level connResetF
  simp only [hr, Bool.false_eq_true, if_false, disconnect_quiet, setConn_conn, if_true]
  cases hbind : (s.conn c).binding with
  | none =>
    simp only
    congr 1; apply S.ext'
    · intro j; simp only [setConn_conn]; by_cases hj : j = c
      · subst hj; simp [closed, hbind]
      · simp [hj]
    · intro e; rfl
  | some e =>
    simp only [removeConnection, setConn_ep, hb e hbind, if_true, setConn_conn]
    congr 1; apply S.ext'
    · intro j; simp only [setConn_conn]; by_cases hj : j = c
      · subst hj; simp [closed]
      · simp [hj]
    · intro e; rfl

theorem connReset_busy (hook : Nat → S → Option S) (d c : Nat) (s : S) (hr : (s.conn c).resetting = true) :
    connReset hook (d + 1) c s = some s := by
  unfold connReset level connResetF
  simp [hr]

/-- The loop closes all data connections. -/
theorem epLoop_ok (d e : Nat) (l : List Nat) : ∀ s : S, (s.ep e).data = l → (s.ep e).resetting = true → l.Nodup →
    (∀ c ∈ l, (s.conn c).resetting = false ∧ (s.conn c).binding = some e) →
    epLoop (connReset quiet (d + 1)) e l.length s =
      some { conn := fun c => if c ∈ l then closed (s.conn c) else s.conn c, ep := upd s.ep e { s.ep e with data := [] } } := by
  induction l with
  | nil =>
    intro s hd _ _ _
    unfold epLoop
    rw [hd]
    simp only [List.length_nil]
    congr 1; apply S.ext'
    · intro c; simp
    · intro j; simp only [upd]; by_cases hj : j = e
      · subst hj; rw [if_pos rfl, ← hd]
      · rw [if_neg hj]
  | cons c l ih =>
    intro s hd hr hn hb
    have hbc := hb c (List.mem_cons_self ..)
    unfold epLoop
    rw [hd]
    simp only [List.length_cons]
    rw [connReset_inner d c s hbc.1 (by intro e' he'; rw [hbc.2] at he'; cases he'; exact hr)]
    simp only [setConn_ep, hd, List.head?_cons, if_true, List.tail_cons]
    have hn' := List.nodup_cons.mp hn
    rw [ih]
    · congr 1; apply S.ext'
      · intro j
        simp only [setEp_conn, setConn_conn, List.mem_cons]
        by_cases hj : j = c
        · subst hj; simp [hn'.1]
        · simp [hj]
      · intro j; simp only [upd, setEp_ep, setConn_ep]
        by_cases hj : j = e
        · subst hj; simp
        · simp [hj]
    · simp
    · simp [hr]
    · exact hn'.2
    · intro x hx
      have hxc : x ≠ c := fun h => hn'.1 (h ▸ hx)
      simp only [setEp_conn, setConn_conn, if_neg hxc]
      exact hb x (List.mem_cons_of_mem _ hx)

/-- An endpoint after its reset. -/
def cleared (e : Ep) : Ep := { host := e.host, pid := e.pid }

/-- What `endpoint::reset` leaves: every listed connection is closed, except that one whose own reset is running
(the control connection, `busy`) is only unbound. -/
def afterReset (s : S) (e : Nat) : S :=
  { conn := fun c =>
      if (s.ep e).ctrl = some c ∧ (s.conn c).resetting = true then { s.conn c with binding := none }
      else if (s.ep e).ctrl = some c ∨ c ∈ (s.ep e).data then closed (s.conn c)
      else s.conn c
    ep := upd s.ep e (cleared (s.ep e)) }

theorem epReset_ok (d e : Nat) (s : S) (hr : (s.ep e).resetting = false) (hn : (s.ep e).data.Nodup)
    (hb : ∀ c ∈ (s.ep e).data, (s.conn c).resetting = false ∧ (s.conn c).binding = some e)
    (hc : ∀ c, (s.ep e).ctrl = some c → c ∉ (s.ep e).data) :
    epReset quiet (d + 2) e s = some (afterReset s e) := by
  unfold epReset
  show epResetF (connReset quiet (d + 1)) e s = _
  unfold epResetF
  simp only [hr, Bool.false_eq_true, if_false, setEp_ep, if_true]
  cases hct : (s.ep e).ctrl with
  | none =>
    simp only [setEp_ep, if_true]
    rw [epLoop_ok d e (s.ep e).data _ (by simp) (by simp) hn (by intro c hcm; simpa using hb c hcm)]
    simp only
    congr 1; apply S.ext'
    · intro c; simp [afterReset, hct]
    · intro j; simp only [setEp_ep, afterReset, upd]
      by_cases hj : j = e
      · subst hj; simp [cleared]
      · simp [hj, hct]
  | some c =>
    have hcd := hc c hct
    simp only
    by_cases hbusy : (s.conn c).resetting = true
    · rw [connReset_busy _ _ _ _ (by simp [hbusy])]
      simp only [setEp_ep, setConn_ep, if_true]
      rw [epLoop_ok d e (s.ep e).data _ (by simp) (by simp) hn ?_]
      · simp only
        congr 1; apply S.ext'
        · intro x; simp only [setEp_conn, setConn_conn, afterReset, hct, Option.some.injEq]
          by_cases hx : x = c
          · subst hx; simp [hcd, hbusy]
          · simp [hx, Ne.symm hx]
        · intro j; simp only [setEp_ep, afterReset, upd]
          by_cases hj : j = e
          · subst hj; simp [cleared]
          · simp [hj]
      · intro x hx
        have : x ≠ c := fun h => hcd (h ▸ hx)
        simpa [this] using hb x hx
    · have hbusy' : (s.conn c).resetting = false := by simpa using hbusy
      rw [connReset_inner _ _ _ (by simp [hbusy']) (by intro e' he'; simp at he')]
      simp only [setEp_ep, setConn_ep, if_true]
      rw [epLoop_ok d e (s.ep e).data _ (by simp) (by simp) hn ?_]
      · simp only
        congr 1; apply S.ext'
        · intro x; simp only [setEp_conn, setConn_conn, afterReset, hct, Option.some.injEq]
          by_cases hx : x = c
          · subst hx; simp [hcd, hbusy', closed]
          · simp [hx, Ne.symm hx]
        · intro j; simp only [setEp_ep, afterReset, upd]
          by_cases hj : j = e
          · subst hj; simp [cleared]
          · simp [hj]
      · intro x hx
        have : x ≠ c := fun h => hcd (h ▸ hx)
        simpa [this] using hb x hx

/-- An endpoint lists a connection. -/
def Listed (s : S) (e c : Nat) : Prop := (s.ep e).ctrl = some c ∨ c ∈ (s.ep e).data

/-- The binding invariant. -/
structure Inv (s : S) : Prop where
  /-- bound to `e` exactly when listed by `e` -/
  bound : ∀ c e, (s.conn c).binding = some e ↔ Listed s e c
  nodup : ∀ e, (s.ep e).data.Nodup
  apart : ∀ e c, (s.ep e).ctrl = some c → c ∉ (s.ep e).data
  connQuiet : ∀ c, (s.conn c).resetting = false
  epQuiet : ∀ e, (s.ep e).resetting = false

theorem listed_upd {s : S} {e : Nat} {v : Ep} {f : Nat → Conn} (e' c : Nat) :
    Listed ⟨f, upd s.ep e v⟩ e' c ↔ if e' = e then v.ctrl = some c ∨ c ∈ v.data else Listed s e' c := by
  unfold Listed upd
  by_cases h : e' = e <;> simp [h]

theorem afterReset_inv {s : S} (h : Inv s) (e : Nat) : Inv (afterReset s e) := by
  have hcb : ∀ c, (afterReset s e).conn c =
      if (s.ep e).ctrl = some c ∨ c ∈ (s.ep e).data then closed (s.conn c) else s.conn c := by
    intro c; simp [afterReset, h.connQuiet]
  have hep : ∀ j, (afterReset s e).ep j = if j = e then cleared (s.ep e) else s.ep j := fun _ => rfl
  refine ⟨?_, ?_, ?_, ?_, ?_⟩
  · intro c e'
    rw [hcb]
    unfold Listed at *
    rw [hep]
    by_cases hl : (s.ep e).ctrl = some c ∨ c ∈ (s.ep e).data
    · rw [if_pos hl]
      have hbd := (h.bound c e).mpr hl
      by_cases he : e' = e
      · subst he; simp [closed, cleared]
      · rw [if_neg he]
        simp only [closed]
        constructor
        · intro hh; cases hh
        · intro hh
          have := (h.bound c e').mpr hh
          rw [hbd] at this; cases this; exact absurd rfl he
    · rw [if_neg hl]
      by_cases he : e' = e
      · subst he
        simp only [if_true, cleared]
        constructor
        · intro hh; exact absurd ((h.bound c e').mp hh) hl
        · intro hh; rcases hh with hh | hh <;> cases hh
      · rw [if_neg he]; exact h.bound c e'
  · intro e'; rw [hep]; by_cases he : e' = e
    · simp [he, cleared]
    · simpa [he] using h.nodup e'
  · intro e' c; rw [hep]; by_cases he : e' = e
    · simp [he, cleared]
    · simpa [he] using h.apart e' c
  · intro c; rw [hcb]; split
    · rfl
    · exact h.connQuiet c
  · intro e'; rw [hep]; by_cases he : e' = e
    · simp [he, cleared]
    · simpa [he] using h.epQuiet e'

theorem epReset_inv {s : S} (h : Inv s) (d e : Nat) : ∃ s', epReset quiet (d + 2) e s = some s' ∧ Inv s' ∧ s' = afterReset s e :=
  ⟨_, epReset_ok d e s (h.epQuiet e) (h.nodup e)
    (fun c hc => ⟨h.connQuiet c, (h.bound c e).mpr (Or.inr hc)⟩) (h.apart e), afterReset_inv h e, rfl⟩

/-- What the reset of a connection leaves. -/
def afterConn (s : S) (c : Nat) : S :=
  match (s.conn c).binding with
  | none => s.setConn c (closed (s.conn c))
  | some e =>
    if (s.ep e).ctrl = some c ∨ (s.ep e).data = [c] then afterReset s e
    else (s.setConn c (closed (s.conn c))).setEp e { s.ep e with data := (s.ep e).data.erase c }

theorem connReset_ok {s : S} (h : Inv s) (d c : Nat) : connReset quiet (d + 3) c s = some (afterConn s c) := by
  cases hbind : (s.conn c).binding with
  | none =>
    rw [connReset_inner (d + 2) c s (h.connQuiet c) (by intro e he; rw [hbind] at he; cases he)]
    simp [afterConn, hbind]
  | some e =>
    have hl := (h.bound c e).mp hbind
    show connResetF quiet (epReset quiet (d + 2)) c s = _
    unfold connResetF
    simp only [h.connQuiet c, Bool.false_eq_true, if_false, disconnect_quiet, setConn_conn, if_true, hbind]
    unfold removeConnection
    simp only [setConn_ep, h.epQuiet e, Bool.false_eq_true, if_false, setConn_conn, if_true]
    by_cases hct : (s.ep e).ctrl = some c
    · rw [if_pos hct]
      have hcd := h.apart e c hct
      rw [epReset_ok d e _ (by simpa using h.epQuiet e) (by simpa using h.nodup e) ?_ (by simpa using h.apart e)]
      · simp only [afterConn, hbind, hct, true_or, if_true]
        congr 1; apply S.ext'
        · intro x
          simp only [setConn_conn, afterReset, setConn_ep, hct, Option.some.injEq]
          by_cases hx : x = c
          · subst hx; simp [h.connQuiet x, closed]
          · simp [hx, Ne.symm hx]
        · intro j; simp [afterReset, upd]
      · intro x hx
        have hx' : x ∈ (s.ep e).data := by simpa using hx
        have hxc : x ≠ c := fun hh => hcd (hh ▸ hx')
        simp only [setConn_conn, if_neg hxc]
        exact ⟨h.connQuiet x, (h.bound x e).mpr (Or.inr hx')⟩
    · rw [if_neg hct]
      have hcd : c ∈ (s.ep e).data := hl.resolve_left hct
      rw [if_pos hcd]
      by_cases hlast : (s.ep e).data.erase c = []
      · rw [if_pos hlast]
        have hone : (s.ep e).data = [c] := by
          match hdd : (s.ep e).data with
          | [] => rw [hdd] at hcd; cases hcd
          | x :: l =>
            rw [hdd] at hlast hcd
            by_cases hx : x = c
            · subst hx; rw [List.erase_cons_head] at hlast; rw [hlast]
            · rw [List.erase_cons_tail (by simpa using hx)] at hlast; cases hlast
        rw [epReset_ok d e _ (by simpa using h.epQuiet e) (by simp [hlast]) (by simp [hlast]) (by simp [hlast])]
        simp only [afterConn, hbind, hone, or_true, if_true]
        congr 1; apply S.ext'
        · intro x
          simp only [setConn_conn, afterReset, setConn_ep, setEp_ep, setEp_conn, if_true, hlast, hone]
          by_cases hx : x = c
          · subst hx; simp [hct, h.connQuiet x, closed]
          · simp [hx, h.connQuiet x]
        · intro j; simp only [afterReset, upd, setConn_ep, setEp_ep, if_true]; by_cases hj : j = e <;> simp [hj, cleared]
      · rw [if_neg hlast]
        have hnone : ¬ ((s.ep e).ctrl = some c ∨ (s.ep e).data = [c]) := by
          rintro (hh | hh)
          · exact hct hh
          · rw [hh] at hlast; simp at hlast
        simp only [afterConn, hbind, if_neg hnone]
        congr 1; apply S.ext'
        · intro x
          simp only [setConn_conn, setEp_conn]
          by_cases hx : x = c
          · subst hx; simp [closed]
          · simp [hx]
        · intro j; simp [h.epQuiet e]

theorem afterConn_inv {s : S} (h : Inv s) (c : Nat) : Inv (afterConn s c) := by
  unfold afterConn
  cases hbind : (s.conn c).binding with
  | none =>
    simp only
    refine ⟨?_, h.nodup, h.apart, ?_, h.epQuiet⟩
    · intro x e
      simp only [setConn_conn]
      have := h.bound x e
      by_cases hx : x = c
      · subst hx
        rw [if_pos rfl]
        rw [hbind] at this
        exact this
      · rw [if_neg hx]; exact this
    · intro x; simp only [setConn_conn]; by_cases hx : x = c
      · simp [hx, closed]
      · simpa [hx] using h.connQuiet x
  | some e =>
    simp only
    by_cases hcase : (s.ep e).ctrl = some c ∨ (s.ep e).data = [c]
    · rw [if_pos hcase]; exact afterReset_inv h e
    · rw [if_neg hcase]
      simp only [not_or] at hcase
      refine ⟨?_, ?_, ?_, ?_, ?_⟩
      · intro x e'
        simp only [setEp_conn, setConn_conn, Listed, setEp_ep, setConn_ep]
        have hbx := h.bound x e'
        unfold Listed at hbx
        by_cases hx : x = c
        · subst hx
          rw [if_pos rfl]
          simp only [closed]
          constructor
          · intro hh; cases hh
          · intro hh
            exfalso
            by_cases he : e' = e
            · subst he
              simp only [if_true] at hh
              rcases hh with hh | hh
              · exact hcase.1 hh
              · exact ((h.nodup e').mem_erase_iff.mp hh).1 rfl
            · rw [if_neg he] at hh
              have := hbx.mpr hh
              rw [hbind] at this; cases this; exact he rfl
        · rw [if_neg hx, hbx]
          by_cases he : e' = e
          · subst he; simp [List.mem_erase_of_ne hx]
          · simp [he]
      · intro e'; simp only [setEp_ep, setConn_ep]
        by_cases he : e' = e
        · simpa [he] using (h.nodup e).erase c
        · simpa [he] using h.nodup e'
      · intro e' x; simp only [setEp_ep, setConn_ep]
        by_cases he : e' = e
        · subst he
          simp only [if_true]
          intro hx hm
          exact h.apart e' x hx (List.mem_of_mem_erase hm)
        · simpa [he] using h.apart e' x
      · intro x; simp only [setEp_conn, setConn_conn]; by_cases hx : x = c
        · simp [hx, closed]
        · simpa [hx] using h.connQuiet x
      · intro e'; simp only [setEp_ep, setConn_ep]
        by_cases he : e' = e
        · simpa [he] using h.epQuiet e
        · simpa [he] using h.epQuiet e'

theorem add_inv {s : S} (h : Inv s) (e c : Nat) (f : Bool) : Inv (addConnection e c f s).1 := by
  unfold addConnection
  rw [if_neg (by simp [h.epQuiet e])]
  by_cases h1 : (s.conn c).binding = some e
  · rw [if_pos h1]; exact h
  rw [if_neg h1]
  by_cases h2 : (s.conn c).binding ≠ none
  · rw [if_pos h2]; exact h
  rw [if_neg h2]
  have h3 : (s.conn c).binding = none := by simpa using h2
  have hnl : ∀ e', ¬ Listed s e' c := by
    intro e' hl; have := (h.bound c e').mpr hl; rw [h3] at this; cases this
  simp only
  refine ⟨?_, ?_, ?_, ?_, ?_⟩
  · intro x e'
    simp only [setConn_conn, setEp_conn, Listed, setConn_ep, setEp_ep]
    have hbx := h.bound x e'
    have hn := hnl e'
    unfold Listed at hbx hn
    simp only [not_or] at hn
    by_cases hx : x = c
    · subst hx
      rw [if_pos rfl]
      have : ∀ (p : Prop) [Decidable p] (a b : Conn), a.binding = some e → b.binding = some e →
          (if p then a else b).binding = some e := by
        intro p _ a b h1 h2; split
        · exact h1
        · exact h2
      rw [this _ _ _ rfl rfl]
      simp only [Option.some.injEq]
      by_cases he : e' = e
      · subst he
        simp only [if_true]
        split <;> simp
      · rw [if_neg he]
        constructor
        · intro hh; exact absurd hh.symm he
        · intro hh; rcases hh with hh | hh
          · exact absurd hh hn.1
          · exact absurd hh hn.2
    · rw [if_neg hx, hbx]
      by_cases he : e' = e
      · subst he
        simp only [if_true]
        split
        · simp [hx]
        · rename_i hcond
          simp only [Bool.or_eq_true, not_or, Option.not_isSome_iff_eq_none] at hcond
          simp [hcond.2, Ne.symm hx]
      · simp [he]
  · intro e'; simp only [setConn_ep, setEp_ep]
    by_cases he : e' = e
    · subst he
      simp only [if_true]
      split
      · have := h.nodup e'
        have hn := hnl e'
        simp only [Listed, not_or] at hn
        show ((s.ep e').data ++ [c]).Nodup
        rw [List.nodup_append]
        refine ⟨this, by simp, ?_⟩
        intro a ha b hb
        simp only [List.mem_singleton] at hb
        subst hb
        intro hab; subst hab; exact hn.2 ha
      · exact h.nodup e'
    · simpa [he] using h.nodup e'
  · intro e' x; simp only [setConn_ep, setEp_ep]
    by_cases he : e' = e
    · subst he
      have hn := hnl e'
      simp only [Listed, not_or] at hn
      simp only [if_true]
      split
      · intro hx
        simp only [List.mem_append, List.mem_singleton, not_or]
        exact ⟨h.apart e' x hx, fun hxc => hn.1 (hxc ▸ hx)⟩
      · intro hx; cases hx; exact hn.2
    · simpa [he] using h.apart e' x
  · intro x; simp only [setConn_conn, setEp_conn]
    by_cases hx : x = c
    · subst hx; rw [if_pos rfl]; split <;> exact h.connQuiet x
    · simpa [hx] using h.connQuiet x
  · intro e'; simp only [setConn_ep, setEp_ep]
    by_cases he : e' = e
    · subst he; simp only [if_true]; split <;> exact h.epQuiet e'
    · simpa [he] using h.epQuiet e'

/-! Sorting -/

theorem insertC_perm (f : Nat → Conn) (x : Nat) (l : List Nat) : (insertC f x l).Perm (x :: l) := by
  induction l with
  | nil => exact .refl _
  | cons y l ih =>
    unfold insertC
    split
    · exact (ih.cons y).trans (List.Perm.swap x y l)
    · exact .refl _

theorem sortC_perm (f : Nat → Conn) (l : List Nat) : (sortC f l).Perm l := by
  induction l with
  | nil => exact .refl _
  | cons x l ih => exact (insertC_perm f x _).trans (ih.cons x)

/-- Ascending score. -/
def Ordered (f : Nat → Conn) (l : List Nat) : Prop := l.Pairwise fun a b => score (f a) ≤ score (f b)

/-- Elements of the same score keep their order. -/
theorem insertC_stable (f : Nat → Conn) (k x : Nat) (l : List Nat) :
    (insertC f x l).filter (fun y => decide (score (f y) = k)) = (x :: l).filter (fun y => decide (score (f y) = k)) := by
  induction l with
  | nil => rfl
  | cons y l ih =>
    unfold insertC
    split
    · rename_i hlt
      rw [List.filter_cons, ih]
      by_cases hy : score (f y) = k
      · have hx : ¬ score (f x) = k := by omega
        simp [List.filter_cons, hx, hy]
      · simp [List.filter_cons, hy]
    · rfl

theorem sortC_stable (f : Nat → Conn) (k : Nat) (l : List Nat) :
    (sortC f l).filter (fun y => decide (score (f y) = k)) = l.filter (fun y => decide (score (f y) = k)) := by
  induction l with
  | nil => rfl
  | cons x l ih =>
    rw [sortC, insertC_stable, List.filter_cons, List.filter_cons, ih]

theorem insertC_ordered (f : Nat → Conn) (x : Nat) (l : List Nat) (h : Ordered f l) : Ordered f (insertC f x l) := by
  induction l with
  | nil => simp [insertC, Ordered]
  | cons y l ih =>
    unfold Ordered at *
    have h' := List.pairwise_cons.mp h
    unfold insertC
    split
    · rename_i hlt
      rw [List.pairwise_cons]
      refine ⟨?_, ih h'.2⟩
      intro z hz
      rcases List.mem_cons.mp ((insertC_perm f x l).mem_iff.mp hz) with rfl | hz
      · omega
      · exact h'.1 z hz
    · rename_i hge
      rw [List.pairwise_cons]
      refine ⟨?_, h⟩
      intro z hz
      rcases List.mem_cons.mp hz with rfl | hz
      · omega
      · have := h'.1 z hz; omega

theorem sortC_ordered (f : Nat → Conn) (l : List Nat) : Ordered f (sortC f l) := by
  induction l with
  | nil => exact List.Pairwise.nil
  | cons x l ih => exact insertC_ordered f x _ ih

theorem dataConnection_state (me e : Nat) (fb : Bool) (s : S) : (dataConnection me e fb s).1 = s ∨
    (dataConnection me e fb s).1 = s.setEp e { s.ep e with data := sortC s.conn (s.ep e).data, sorted := true } := by
  unfold dataConnection
  by_cases h : me = e
  · left; rw [if_pos h]
  rw [if_neg h]
  simp only
  by_cases hs : (s.ep e).sorted = true
  · left; rw [if_pos hs]; split <;> rfl
  · right; rw [if_neg hs]; split <;> rfl

theorem sort_inv {s : S} (h : Inv s) (e : Nat) : Inv (s.setEp e { s.ep e with data := sortC s.conn (s.ep e).data, sorted := true }) := by
  have hp := sortC_perm s.conn (s.ep e).data
  refine ⟨?_, ?_, ?_, h.connQuiet, ?_⟩
  · intro c e'
    simp only [setEp_conn, Listed, setEp_ep]
    rw [h.bound c e', Listed]
    by_cases he : e' = e
    · subst he; simp [hp.mem_iff]
    · simp [he]
  · intro e'; simp only [setEp_ep]
    by_cases he : e' = e
    · simpa [he] using hp.nodup_iff.mpr (h.nodup e)
    · simpa [he] using h.nodup e'
  · intro e' c; simp only [setEp_ep]
    by_cases he : e' = e
    · subst he; simpa [hp.mem_iff] using h.apart e' c
    · simpa [he] using h.apart e' c
  · intro e'; simp only [setEp_ep]
    by_cases he : e' = e
    · simpa [he] using h.epQuiet e
    · simpa [he] using h.epQuiet e'

theorem setConn_inv {s : S} (h : Inv s) (c : Nat) (v : Conn) (hb : v.binding = (s.conn c).binding) (hr : v.resetting = (s.conn c).resetting) :
    Inv (s.setConn c v) := by
  refine ⟨?_, h.nodup, h.apart, ?_, h.epQuiet⟩
  · intro x e
    simp only [setConn_conn]
    by_cases hx : x = c
    · subst hx; rw [if_pos rfl, hb]; exact h.bound x e
    · rw [if_neg hx]; exact h.bound x e
  · intro x; simp only [setConn_conn]
    by_cases hx : x = c
    · subst hx; rw [if_pos rfl, hr]; exact h.connQuiet x
    · rw [if_neg hx]; exact h.connQuiet x

theorem step_inv {s : S} (h : Inv s) (d : Nat) (o : Op) : ∃ s', step quiet (d + 3) s o = some s' ∧ Inv s' := by
  cases o with
  | add e c f => exact ⟨_, rfl, add_inv h e c f⟩
  | resetConn c => exact ⟨_, connReset_ok h d c, afterConn_inv h c⟩
  | resetEp e => obtain ⟨s', h1, h2, _⟩ := epReset_inv h (d + 1) e; exact ⟨s', h1, h2⟩
  | openConn c w a b =>
    simp only [step]
    by_cases hd : (s.conn c).st = .disconnected
    · rw [if_pos hd]; exact ⟨_, rfl, setConn_inv h c _ rfl rfl⟩
    · rw [if_neg hd]; exact ⟨_, rfl, h⟩
  | established c =>
    simp only [step]
    by_cases hd : (s.conn c).st = .connecting
    · rw [if_pos hd]; exact ⟨_, rfl, setConn_inv h c _ rfl rfl⟩
    · rw [if_neg hd]; exact ⟨_, rfl, h⟩
  | select me e =>
    refine ⟨_, rfl, ?_⟩
    rcases dataConnection_state me e true s with hh | hh
    · rw [hh]; exact h
    · rw [hh]; exact sort_inv h e
  | traffic c t => exact ⟨_, rfl, setConn_inv h c _ rfl rfl⟩

theorem run_inv (d : Nat) (os : List Op) : ∀ s, Inv s → ∃ s', run quiet (d + 3) s os = some s' ∧ Inv s' := by
  induction os with
  | nil => intro s h; exact ⟨s, rfl, h⟩
  | cons o os ih =>
    intro s h
    obtain ⟨s', h1, h2⟩ := step_inv h d o
    obtain ⟨s'', h3, h4⟩ := ih s' h2
    exact ⟨s'', by simp only [run, h1]; exact h3, h4⟩

theorem initial_inv (host : Nat → Nat) (pid : Nat → Int) : Inv (initial host pid) := by
  refine ⟨?_, ?_, ?_, ?_, ?_⟩ <;> simp [initial, Listed]

end Verif.Endpoint
