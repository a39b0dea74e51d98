import Verif.Endpoint.Life

/-! C75: the pointers between connections and endpoints are valid, whatever the application does inside callbacks. -/
namespace Verif.Endpoint.Life

/-! ### What is expected of the application -/

/-- No data connection of the endpoint is in the middle of a reset. -/
def S.calm (s : S) (e : Nat) : Bool := (s.data e).all fun d => !s.stack.contains (.conn d)

/-- What a polite application does not do: in the callbacks of the reset of a data connection it does not reset or give up the
endpoint of that connection, nor reset its control connection; and it binds only connections that were not bound or reset before. -/
def polite (s : S) : Op → Bool
  | .add _ c _ => !s.used.contains c && !s.down c
  | .resetConn c =>
    match s.binding c with
    | none => true
    | some e => s.ctrl e != some c || s.clearing e || s.calm e
  | .resetEp e => s.clearing e || s.calm e
  | .sort _ _ => true
  | .free e => s.calm e

/-- The application is polite in the whole run. -/
def Polite : S → List Act → Prop
  | _, [] => True
  | s, .go :: acts => Polite (step s .go) acts
  | s, .app op :: acts => polite s op = true ∧ Polite (step s (.app op)) acts

/-! ### The invariant -/

/-- The endpoint a frame is resetting. -/
def Frame.ep : Frame → Option Nat
  | .ctrl e => some e
  | .loop e => some e
  | .data e _ => some e
  | _ => none

/-- The connection a frame is resetting. -/
def Frame.who : Frame → Option Nat
  | .conn c => some c
  | .tail c => some c
  | _ => none

/-- What is known about a frame and those below it. -/
def ok (s : S) (k : List Frame) : Frame → Prop
  | .conn c => ∀ e, s.ctrl e = some c → s.clearing e = false → ∀ d ∈ s.data e, .conn d ∉ k
  | .tail _ => True
  | .ctrl e => ∀ d ∈ s.data e, .conn d ∉ k
  | .loop e => ∀ d ∈ s.data e, .conn d ∉ k
  | .data e _ => ∀ d ∈ s.data e, .conn d ∉ k
  | .dtor e => ∀ f ∈ k, Frame.uses e f = false

/-- The invariant; `x`, `y`, `z` are exemptions inside a step. -/
structure Inv (x y z : Nat → Prop) (s : S) : Prop where
  ub : s.ub = false
  bound : ∀ c e, s.binding c = some e → s.freed e = false ∧ (s.ctrl e = some c ∨ c ∈ s.data e)
  lc : ∀ c e, s.ctrl e = some c → s.clearing e = false → s.binding c = some e
  ld : ∀ c e, c ∈ s.data e → s.clearing e = false → s.binding c = some e
  uc : ∀ c e, s.ctrl e = some c → c ∈ s.used
  ud : ∀ c e, c ∈ s.data e → c ∈ s.used ∧ s.home c = e
  ubd : ∀ c, s.binding c ≠ none → c ∈ s.used
  one : ∀ c e e', s.ctrl e = some c → s.ctrl e' = some c → e = e'
  sep : ∀ c e e', c ∈ s.data e → s.ctrl e' ≠ some c
  nd : ∀ e, (s.data e).Nodup
  cl : ∀ e, s.clearing e = true ↔ e ∈ s.stack.filterMap Frame.ep
  once : (s.stack.filterMap Frame.ep).Nodup
  cnl : ∀ e, .loop e ∈ s.stack → s.ctrl e = none
  cnd : ∀ e c, .data e c ∈ s.stack → s.ctrl e = none
  cb : ∀ e c, .ctrl e ∈ s.stack → s.ctrl e = some c → s.binding c = none
  db : ∀ e c, ¬ z c → .data e c ∈ s.stack → s.binding c = some e → .conn c ∈ s.stack
  bz : ∀ c, s.busy c = true ↔ c ∈ s.stack.filterMap Frame.who
  bnd : (s.stack.filterMap Frame.who).Nodup
  bd : ∀ c, s.busy c = true → s.down c = true
  dn : ∀ c, ¬ x c → s.down c = true → .conn c ∉ s.stack → s.binding c = none
  dt : ∀ e, ¬ y e → .dtor e ∈ s.stack → s.dying e = true ∧ (s.clearing e = true ∨ s.ctrl e = none ∧ s.data e = [])
  fd : ∀ e, s.freed e = true → s.dying e = true
  sane : ∀ k1 f k2, s.stack = k1 ++ f :: k2 → ok s k2 f

/-- Nothing is exempted. -/
def no : Nat → Prop := fun _ => False

abbrev Inv0 (s : S) : Prop := Inv no no no s

theorem upd_same {α : Type} (f : Nat → α) (k : Nat) (v : α) : upd f k v k = v := by simp [upd]
theorem upd_other {α : Type} (f : Nat → α) {k x : Nat} (v : α) (h : x ≠ k) : upd f k v x = f x := by simp [upd, h]

theorem conn_who {k : List Frame} {c : Nat} (h : .conn c ∈ k) : c ∈ k.filterMap Frame.who := List.mem_filterMap.2 ⟨_, h, rfl⟩

/-- Frames of a list with one more. -/
theorem split_cons {f g : Frame} {k k1 k2 : List Frame} (h : g :: k = k1 ++ f :: k2) : (k1 = [] ∧ f = g ∧ k2 = k) ∨ ∃ k1', k = k1' ++ f :: k2 := by
  cases k1 with
  | nil => simp only [List.nil_append, List.cons.injEq] at h; exact .inl ⟨rfl, h.1.symm, h.2.symm⟩
  | cons a k1 => simp only [List.cons_append, List.cons.injEq] at h; exact .inr ⟨k1, h.2⟩

/-- The reset of a connection begins. -/
theorem inv_pushConn {x y z : Nat → Prop} {s : S} {c : Nat} (h : Inv x y z s) (hb : s.busy c = false)
    (hok : ∀ e, s.ctrl e = some c → s.clearing e = false → ∀ d ∈ s.data e, .conn d ∉ s.stack) :
    Inv x y (fun d => z d ∧ d ≠ c) { s with busy := upd s.busy c true, down := upd s.down c true, stack := .conn c :: s.stack } := by
  have hw : c ∉ s.stack.filterMap Frame.who := by rw [← h.bz c, hb]; simp
  constructor
  · exact h.ub
  · exact h.bound
  · exact h.lc
  · exact h.ld
  · exact h.uc
  · exact h.ud
  · exact h.ubd
  · exact h.one
  · exact h.sep
  · exact h.nd
  · exact h.cl
  · exact h.once
  · intro e he; exact h.cnl e (by simpa using he)
  · intro e d he; exact h.cnd e d (by simpa using he)
  · intro e d he hc; exact h.cb e d (by simpa using he) hc
  · intro e d hz hm hbi
    have hm : Frame.data e d ∈ s.stack := by simpa using hm
    by_cases hd : d = c
    · rw [hd]; exact List.mem_cons_self
    · exact List.mem_cons_of_mem _ (h.db e d (fun hz' => hz ⟨hz', hd⟩) hm hbi)
  · intro d
    show upd s.busy c true d = true ↔ d ∈ (Frame.conn c :: s.stack).filterMap Frame.who
    rw [List.filterMap_cons]
    simp only [Frame.who, List.mem_cons]
    by_cases hd : d = c
    · subst hd; rw [upd_same]; simp
    · rw [upd_other _ _ hd, h.bz d]
      exact ⟨.inr, fun h => h.resolve_left hd⟩
  · show ((Frame.conn c :: s.stack).filterMap Frame.who).Nodup
    rw [List.filterMap_cons]
    exact List.nodup_cons.2 ⟨hw, h.bnd⟩
  · intro d hd
    show upd s.down c true d = true
    by_cases hdc : d = c
    · rw [hdc, upd_same]
    · have hd : upd s.busy c true d = true := hd
      rw [upd_other _ _ hdc] at hd ⊢
      exact h.bd d hd
  · intro d hx hd hm
    have hdc : d ≠ c := by rintro rfl; exact hm List.mem_cons_self
    have hd : upd s.down c true d = true := hd
    rw [upd_other _ _ hdc] at hd
    exact h.dn d hx hd (fun hm' => hm (List.mem_cons_of_mem _ hm'))
  · intro e hy hm; exact h.dt e hy (by simpa using hm)
  · exact h.fd
  · intro k1 f k2 hs
    rcases split_cons hs with ⟨-, rfl, rfl⟩ | ⟨k1', hs'⟩
    · exact hok
    · have := h.sane k1' f k2 hs'
      cases f <;> exact this

/-- Exemptions can be widened. -/
theorem Inv.weaken {x y z x' y' z' : Nat → Prop} {s : S} (h : Inv x y z s) (hx : ∀ c, x c → x' c) (hy : ∀ c, y c → y' c) (hz : ∀ c, z c → z' c) :
    Inv x' y' z' s :=
  { h with
    db := fun e c h1 h2 h3 => h.db e c (fun h4 => h1 (hz c h4)) h2 h3
    dn := fun c h1 h2 h3 => h.dn c (fun h4 => h1 (hx c h4)) h2 h3
    dt := fun e h1 h2 => h.dt e (fun h4 => h1 (hy e h4)) h2 }

theorem inv_startConn {x y z : Nat → Prop} {s : S} {c : Nat} {k : List Frame} (h : Inv x y z { s with stack := k })
    (hz : s.busy c = true → ∀ d, z d → d ≠ c) (hzc : ∀ d, z d → d = c)
    (hok : s.busy c = false → ∀ e, s.ctrl e = some c → s.clearing e = false → ∀ d ∈ s.data e, .conn d ∉ k) :
    Inv x y no (startConn s c k) := by
  unfold startConn
  cases hb : s.busy c with
  | true =>
    simp only [if_true]
    exact h.weaken (fun _ h => h) (fun _ h => h) (fun d hd => hz hb d hd (hzc d hd))
  | false =>
    simp only [Bool.false_eq_true, if_false]
    exact (inv_pushConn h hb (hok hb)).weaken (fun _ h => h) (fun _ h => h) (fun d hd => hd.2 (hzc d hd.1))

/-- The reset of an endpoint begins. -/
theorem inv_startEp {x y : Nat → Prop} {s : S} {e : Nat} (h : Inv x y no s) (he : s.clearing e = false)
    (hd : ∀ d ∈ s.data e, .conn d ∉ s.stack) (hx : ∀ c, x c → s.ctrl e = some c) (hy : ∀ e', y e' → e' = e) (hye : y e → s.dying e = true) :
    Inv0 (startEp s e s.stack) := by
  unfold startEp
  have hne : e ∉ s.stack.filterMap Frame.ep := by rw [← h.cl e, he]; simp
  have hcl : ∀ e', upd s.clearing e true e' = false → e' ≠ e ∧ s.clearing e' = false := by
    intro e' h'
    have hn : e' ≠ e := by rintro rfl; rw [upd_same] at h'; cases h'
    rw [upd_other _ _ hn] at h'
    exact ⟨hn, h'⟩
  have hcl' : ∀ e', s.clearing e' = true → upd s.clearing e true e' = true := by
    intro e' h'
    by_cases hn : e' = e
    · rw [hn, upd_same]
    · rw [upd_other _ _ hn]; exact h'
  have hsane : ∀ {s' : S} {k2 : List Frame} {f : Frame}, s'.data = s.data → s'.ctrl = s.ctrl → s'.clearing = upd s.clearing e true → ok s k2 f → ok s' k2 f := by
    intro s' k2 f h1 h2 h3 h4
    cases f with
    | conn c => intro e' hc hcl'' d hd'; rw [h2] at hc; rw [h3] at hcl''; rw [h1] at hd'; exact h4 e' hc (hcl e' hcl'').2 d hd'
    | tail c => trivial
    | ctrl e' => intro d hd'; rw [h1] at hd'; exact h4 d hd'
    | loop e' => intro d hd'; rw [h1] at hd'; exact h4 d hd'
    | data e' c => intro d hd'; rw [h1] at hd'; exact h4 d hd'
    | dtor e' => exact h4
  have hdt : ∀ e', Frame.dtor e' ∈ s.stack → s.dying e' = true ∧ (upd s.clearing e true e' = true ∨ s.ctrl e' = none ∧ s.data e' = []) := by
    intro e' hm
    by_cases hn : e' = e
    · refine ⟨?_, .inl (by rw [hn, upd_same])⟩
      by_cases hy' : y e'
      · rw [hn] at hy' ⊢; exact hye hy'
      · exact (h.dt e' hy' hm).1
    · obtain ⟨h1, h2⟩ := h.dt e' (fun hy' => hn (hy e' hy')) hm
      exact ⟨h1, h2.imp (hcl' e') id⟩
  rw [if_neg (by rw [he]; simp)]
  simp only
  cases hc : s.ctrl e with
  | none =>
    constructor
    · exact h.ub
    · exact h.bound
    · intro c e' h1 h2; exact h.lc c e' h1 (hcl e' h2).2
    · intro c e' h1 h2; exact h.ld c e' h1 (hcl e' h2).2
    · exact h.uc
    · exact h.ud
    · exact h.ubd
    · exact h.one
    · exact h.sep
    · exact h.nd
    · intro e'
      show upd s.clearing e true e' = true ↔ e' ∈ (Frame.loop e :: s.stack).filterMap Frame.ep
      rw [List.filterMap_cons]
      simp only [Frame.ep, List.mem_cons]
      by_cases hn : e' = e
      · rw [hn, upd_same]; simp
      · rw [upd_other _ _ hn, h.cl e']; exact ⟨.inr, fun h => h.resolve_left hn⟩
    · show ((Frame.loop e :: s.stack).filterMap Frame.ep).Nodup
      rw [List.filterMap_cons]
      exact List.nodup_cons.2 ⟨hne, h.once⟩
    · intro e' hm
      simp only [List.mem_cons, Frame.loop.injEq] at hm
      rcases hm with rfl | hm
      · exact hc
      · exact h.cnl e' hm
    · intro e' c hm; exact h.cnd e' c (by simpa using hm)
    · intro e' c hm; exact h.cb e' c (by simpa using hm)
    · intro e' c hz hm hb; exact List.mem_cons_of_mem _ (h.db e' c hz (by simpa using hm) hb)
    · intro c; exact h.bz c
    · exact h.bnd
    · exact h.bd
    · intro c _ h1 h2
      refine h.dn c (fun hx' => ?_) h1 (fun h3 => h2 (List.mem_cons_of_mem _ h3))
      rw [hc] at hx; cases hx c hx'
    · intro e' _ hm; exact hdt e' (by simpa using hm)
    · exact h.fd
    · intro k1 f k2 hs
      rcases split_cons hs with ⟨-, rfl, rfl⟩ | ⟨k1', hs'⟩
      · exact hd
      · exact hsane rfl rfl rfl (h.sane k1' f k2 hs')
  | some c =>
    have hbc : s.binding c = some e := h.lc c e hc he
    have hub : ∀ d e', upd s.binding c none d = some e' → d ≠ c ∧ s.binding d = some e' := by
      intro d e' h'
      have hn : d ≠ c := by rintro rfl; rw [upd_same] at h'; cases h'
      rw [upd_other _ _ hn] at h'
      exact ⟨hn, h'⟩
    have hun : ∀ d, s.binding d = none → upd s.binding c none d = none := by
      intro d h'
      by_cases hn : d = c
      · rw [hn, upd_same]
      · rw [upd_other _ _ hn]; exact h'
    refine inv_startConn (z := no) ?_ (fun _ _ hz => hz.elim) (fun _ hz => hz.elim) ?_
    · constructor
      · exact h.ub
      · intro d e' h1; exact h.bound d e' (hub d e' h1).2
      · intro d e' h1 h2
        obtain ⟨h3, h4⟩ := hcl e' h2
        have hn : d ≠ c := by rintro rfl; exact h3 (h.one d e' e h1 hc)
        show upd s.binding c none d = some e'
        rw [upd_other _ _ hn]; exact h.lc d e' h1 h4
      · intro d e' h1 h2
        obtain ⟨h3, h4⟩ := hcl e' h2
        have hn : d ≠ c := by rintro rfl; exact h.sep d e' e h1 hc
        show upd s.binding c none d = some e'
        rw [upd_other _ _ hn]; exact h.ld d e' h1 h4
      · exact h.uc
      · exact h.ud
      · intro d hn
        refine h.ubd d (fun h' => hn ?_)
        exact hun d h'
      · exact h.one
      · exact h.sep
      · exact h.nd
      · intro e'
        show upd s.clearing e true e' = true ↔ e' ∈ (Frame.ctrl e :: s.stack).filterMap Frame.ep
        rw [List.filterMap_cons]
        simp only [Frame.ep, List.mem_cons]
        by_cases hn : e' = e
        · rw [hn, upd_same]; simp
        · rw [upd_other _ _ hn, h.cl e']; exact ⟨.inr, fun h => h.resolve_left hn⟩
      · show ((Frame.ctrl e :: s.stack).filterMap Frame.ep).Nodup
        rw [List.filterMap_cons]
        exact List.nodup_cons.2 ⟨hne, h.once⟩
      · intro e' hm; exact h.cnl e' (by simpa using hm)
      · intro e' d hm; exact h.cnd e' d (by simpa using hm)
      · intro e' d hm hcd
        simp only [List.mem_cons, Frame.ctrl.injEq] at hm
        show upd s.binding c none d = none
        rcases hm with rfl | hm
        · have hcd : s.ctrl e' = some d := hcd
          rw [hc] at hcd
          rw [Option.some.inj hcd, upd_same]
        · exact hun d (h.cb e' d hm hcd)
      · intro e' d hz hm hb
        exact List.mem_cons_of_mem _ (h.db e' d hz (by simpa using hm) (hub d e' hb).2)
      · intro d; exact h.bz d
      · exact h.bnd
      · exact h.bd
      · intro d _ h1 h2
        show upd s.binding c none d = none
        by_cases hn : d = c
        · rw [hn, upd_same]
        · rw [upd_other _ _ hn]
          refine h.dn d (fun hx' => ?_) h1 (fun h3 => h2 (List.mem_cons_of_mem _ h3))
          have := hx d hx'
          rw [hc] at this
          exact hn (Option.some.inj this).symm
      · intro e' _ hm; exact hdt e' (by simpa using hm)
      · exact h.fd
      · intro k1 f k2 hs
        rcases split_cons hs with ⟨-, rfl, rfl⟩ | ⟨k1', hs'⟩
        · exact hd
        · exact hsane rfl rfl rfl (h.sane k1' f k2 hs')
    · intro _ e' h1 h2 d hd' hm
      exact absurd (h.one c e' e h1 hc) (hcl e' h2).1

theorem ok_shrink {s s' : S} {k : List Frame} {f : Frame} (h : ok s k f) (hd : ∀ e d, d ∈ s'.data e → d ∈ s.data e)
    (hc : ∀ e c, s'.ctrl e = some c → s.ctrl e = some c) (hcl : ∀ e c, s'.ctrl e = some c → s'.clearing e = false → s.clearing e = false) : ok s' k f := by
  cases f with
  | conn c => intro e h1 h2 d h3; exact h e (hc e c h1) (hcl e c h1 h2) d (hd e d h3)
  | tail c => trivial
  | ctrl e => intro d h3; exact h d (hd e d h3)
  | loop e => intro d h3; exact h d (hd e d h3)
  | data e c => intro d h3; exact h d (hd e d h3)
  | dtor e => exact h

/-- The reset of a connection ends. -/
theorem inv_endConn {x y : Nat → Prop} {s : S} {f : Frame} {c : Nat} {k : List Frame} (h : Inv x y no s) (hs : s.stack = f :: k)
    (hf : f.who = some c) (hb : s.binding c = none) (hx : ∀ d, x d → d = c) : Inv no y no (endConn s c k) := by
  unfold endConn
  have hep : f.ep = none := by cases f <;> first | rfl | cases hf
  have hm : ∀ g, g ∈ k → g ∈ s.stack := by intro g hg; rw [hs]; exact List.mem_cons_of_mem _ hg
  have hmc : ∀ d, d ≠ c → .conn d ∈ s.stack → .conn d ∈ k := by
    intro d hd hm'
    rw [hs, List.mem_cons] at hm'
    refine hm'.resolve_left ?_
    rintro rfl
    cases hf; exact hd rfl
  have hw : s.stack.filterMap Frame.who = c :: k.filterMap Frame.who := by rw [hs, List.filterMap_cons, hf]
  have he : s.stack.filterMap Frame.ep = k.filterMap Frame.ep := by rw [hs, List.filterMap_cons, hep]
  have hnd := h.bnd
  rw [hw, List.nodup_cons] at hnd
  constructor
  · exact h.ub
  · exact h.bound
  · exact h.lc
  · exact h.ld
  · exact h.uc
  · exact h.ud
  · exact h.ubd
  · exact h.one
  · exact h.sep
  · exact h.nd
  · intro e; rw [← he]; exact h.cl e
  · have := h.once; rw [he] at this; exact this
  · intro e hm'; exact h.cnl e (hm _ hm')
  · intro e d hm'; exact h.cnd e d (hm _ hm')
  · intro e d hm'; exact h.cb e d (hm _ hm')
  · intro e d hz hm' hb'
    have hd : d ≠ c := by rintro rfl; have hb' : s.binding d = some e := hb'; rw [hb] at hb'; cases hb'
    exact hmc d hd (h.db e d hz (hm _ hm') hb')
  · intro d
    show upd s.busy c false d = true ↔ d ∈ k.filterMap Frame.who
    by_cases hd : d = c
    · subst hd; rw [upd_same]; simp only [Bool.false_eq_true, false_iff]; exact hnd.1
    · rw [upd_other _ _ hd, h.bz d, hw, List.mem_cons]
      exact ⟨fun h => h.resolve_left hd, .inr⟩
  · exact hnd.2
  · intro d hd
    have hd : upd s.busy c false d = true := hd
    by_cases hdc : d = c
    · subst hdc; rw [upd_same] at hd; cases hd
    · rw [upd_other _ _ hdc] at hd; exact h.bd d hd
  · intro d _ h1 h2
    by_cases hdc : d = c
    · rw [hdc]; exact hb
    · exact h.dn d (fun hx' => hdc (hx d hx')) h1 (fun h3 => h2 (hmc d hdc h3))
  · intro e hy hm'; exact h.dt e hy (hm _ hm')
  · exact h.fd
  · intro k1 g k2 hs'
    have : ok s k2 g := h.sane (f :: k1) g k2 (by rw [hs]; exact congrArg _ hs')
    cases g <;> exact this

/-- A connection of an endpoint that is being reset is unbound. -/
theorem inv_unbindClearing {x y z : Nat → Prop} {s : S} {c e : Nat} (h : Inv x y z s) (hb : s.binding c = some e) (he : s.clearing e = true) :
    Inv x y z { s with binding := upd s.binding c none } := by
  have hub : ∀ d e', upd s.binding c none d = some e' → d ≠ c ∧ s.binding d = some e' := by
    intro d e' h'
    have hn : d ≠ c := by rintro rfl; rw [upd_same] at h'; cases h'
    rw [upd_other _ _ hn] at h'
    exact ⟨hn, h'⟩
  have hun : ∀ d, s.binding d = none → upd s.binding c none d = none := by
    intro d h'
    by_cases hn : d = c
    · rw [hn, upd_same]
    · rw [upd_other _ _ hn]; exact h'
  have hne : ∀ {d e'}, s.binding d = some e' → s.clearing e' = false → d ≠ c := by
    rintro d e' h1 h2 rfl
    rw [hb] at h1
    rw [← Option.some.inj h1, he] at h2
    cases h2
  refine { h with bound := ?_, lc := ?_, ld := ?_, ubd := ?_, cb := ?_, db := ?_, dn := ?_, sane := ?_ }
  · intro d e' h1; exact h.bound d e' (hub d e' h1).2
  · intro d e' h1 h2
    have h3 := h.lc d e' h1 h2
    show upd s.binding c none d = some e'
    rw [upd_other _ _ (hne h3 h2)]; exact h3
  · intro d e' h1 h2
    have h3 := h.ld d e' h1 h2
    show upd s.binding c none d = some e'
    rw [upd_other _ _ (hne h3 h2)]; exact h3
  · intro d h1; exact h.ubd d (fun h2 => h1 (hun d h2))
  · intro e' d h1 h2; exact hun d (h.cb e' d h1 h2)
  · intro e' d h1 h2 h3; exact h.db e' d h1 h2 (hub d e' h3).2
  · intro d h1 h2 h3; exact hun d (h.dn d h1 h2 h3)
  · intro k1 f k2 hs
    have := h.sane k1 f k2 hs
    cases f <;> exact this

/-- A data connection is taken off the list of its endpoint. -/
theorem inv_eraseData {x y z : Nat → Prop} {s : S} {c e : Nat} (h : Inv x y z s) (hm : c ∈ s.data e) (hcl : s.clearing e = false) :
    Inv x y z { s with binding := upd s.binding c none, data := upd s.data e ((s.data e).erase c) } := by
  have hb : s.binding c = some e := h.ld c e hm hcl
  have hub : ∀ d e', upd s.binding c none d = some e' → d ≠ c ∧ s.binding d = some e' := by
    intro d e' h'
    have hn : d ≠ c := by rintro rfl; rw [upd_same] at h'; cases h'
    rw [upd_other _ _ hn] at h'
    exact ⟨hn, h'⟩
  have hun : ∀ d, s.binding d = none → upd s.binding c none d = none := by
    intro d h'
    by_cases hn : d = c
    · rw [hn, upd_same]
    · rw [upd_other _ _ hn]; exact h'
  have hsub : ∀ e' d, d ∈ upd s.data e ((s.data e).erase c) e' → d ∈ s.data e' ∧ d ≠ c := by
    intro e' d hd
    by_cases hn : e' = e
    · subst hn
      rw [upd_same] at hd
      exact ⟨List.mem_of_mem_erase hd, fun hdc => by rw [hdc] at hd; exact (List.Nodup.not_mem_erase (h.nd e')) hd⟩
    · rw [upd_other _ _ hn] at hd
      refine ⟨hd, ?_⟩
      rintro rfl
      exact hn ((h.ud d e' hd).2.symm.trans (h.ud d e hm).2)
  refine { h with bound := ?_, lc := ?_, ld := ?_, ud := ?_, ubd := ?_, sep := ?_, nd := ?_, cb := ?_, db := ?_, dn := ?_, dt := ?_, sane := ?_ }
  · intro d e' h1
    obtain ⟨h2, h3⟩ := hub d e' h1
    obtain ⟨h4, h5⟩ := h.bound d e' h3
    refine ⟨h4, h5.imp id (fun h5 => ?_)⟩
    show d ∈ upd s.data e ((s.data e).erase c) e'
    by_cases hn : e' = e
    · subst hn; rw [upd_same]; exact (List.mem_erase_of_ne h2).2 h5
    · rw [upd_other _ _ hn]; exact h5
  · intro d e' h1 h2
    have hn : d ≠ c := by rintro rfl; exact h.sep d e e' hm h1
    show upd s.binding c none d = some e'
    rw [upd_other _ _ hn]; exact h.lc d e' h1 h2
  · intro d e' h1 h2
    obtain ⟨h3, h4⟩ := hsub e' d h1
    show upd s.binding c none d = some e'
    rw [upd_other _ _ h4]; exact h.ld d e' h3 h2
  · intro d e' h1; exact h.ud d e' (hsub e' d h1).1
  · intro d h1; exact h.ubd d (fun h2 => h1 (hun d h2))
  · intro d e' e'' h1; exact h.sep d e' e'' (hsub e' d h1).1
  · intro e'
    show (upd s.data e ((s.data e).erase c) e').Nodup
    by_cases hn : e' = e
    · subst hn; rw [upd_same]; exact (h.nd e').erase c
    · rw [upd_other _ _ hn]; exact h.nd e'
  · intro e' d h1 h2; exact hun d (h.cb e' d h1 h2)
  · intro e' d h1 h2 h3; exact h.db e' d h1 h2 (hub d e' h3).2
  · intro d h1 h2 h3; exact hun d (h.dn d h1 h2 h3)
  · intro e' h1 h2
    obtain ⟨h3, h4⟩ := h.dt e' h1 h2
    refine ⟨h3, h4.imp id (fun h4 => ⟨h4.1, ?_⟩)⟩
    show upd s.data e ((s.data e).erase c) e' = []
    by_cases hn : e' = e
    · subst hn; rw [upd_same, h4.2]; rfl
    · rw [upd_other _ _ hn]; exact h4.2
  · intro k1 f k2 hs
    exact ok_shrink (h.sane k1 f k2 hs) (fun e' d hd => (hsub e' d hd).1) (fun _ _ h => h) (fun _ _ _ h => h)

/-- The callbacks of the reset of a connection are over, the endpoint is reset next. -/
theorem inv_swap {s : S} {c : Nat} {k : List Frame} (h : Inv0 s) (hs : s.stack = .conn c :: k) (hb : ∀ e, s.binding c = some e → s.clearing e = false) :
    Inv (fun d => d = c ∧ s.binding c ≠ none) no no { s with stack := .tail c :: k } := by
  have hm : ∀ g, g ∈ k → g ∈ s.stack := by intro g hg; rw [hs]; exact List.mem_cons_of_mem _ hg
  have hmc : ∀ d, d ≠ c → .conn d ∈ s.stack → .conn d ∈ k := by
    intro d hd hm'
    rw [hs, List.mem_cons] at hm'
    refine hm'.resolve_left ?_
    intro h'; cases h'; exact hd rfl
  have hw : s.stack.filterMap Frame.who = (Frame.tail c :: k).filterMap Frame.who := by rw [hs]; rfl
  have he : s.stack.filterMap Frame.ep = (Frame.tail c :: k).filterMap Frame.ep := by rw [hs]; rfl
  refine { h with cl := ?_, once := ?_, cnl := ?_, cnd := ?_, cb := ?_, db := ?_, bz := ?_, bnd := ?_, dn := ?_, dt := ?_, sane := ?_ }
  · intro e; rw [← he]; exact h.cl e
  · rw [← he]; exact h.once
  · intro e hm'; exact h.cnl e (hm _ (by simpa using hm'))
  · intro e d hm'; exact h.cnd e d (hm _ (by simpa using hm'))
  · intro e d hm'; exact h.cb e d (hm _ (by simpa using hm'))
  · intro e d hz hm' hbd
    have hm' := hm _ (show Frame.data e d ∈ k by simpa using hm')
    have hcl : s.clearing e = true := (h.cl e).2 (List.mem_filterMap.2 ⟨_, hm', rfl⟩)
    have hdc : d ≠ c := by
      rintro rfl
      rw [hb e hbd] at hcl; cases hcl
    exact List.mem_cons_of_mem _ (hmc d hdc (h.db e d hz hm' hbd))
  · intro d; rw [← hw]; exact h.bz d
  · rw [← hw]; exact h.bnd
  · intro d h1 h2 h3
    by_cases hdc : d = c
    · subst hdc
      cases hbb : s.binding d with
      | none => rfl
      | some e => exact absurd ⟨rfl, by rw [hbb]; simp⟩ h1
    · exact h.dn d (fun h => h) h2 (fun h4 => h3 (List.mem_cons_of_mem _ (hmc d hdc h4)))
  · intro e hy hm'; exact h.dt e hy (hm _ (by simpa using hm'))
  · intro k1 f k2 hs'
    rcases split_cons hs' with ⟨-, rfl, rfl⟩ | ⟨k1', hs''⟩
    · trivial
    · have : ok s k2 f := h.sane (.conn c :: k1') f k2 (by rw [hs, hs'']; rfl)
      cases f <;> exact this

theorem inv_unbind {s : S} {c : Nat} {k : List Frame} (h : Inv0 s) (hs : s.stack = .conn c :: k) : Inv0 (unbind s c k) := by
  unfold unbind
  cases hb : s.binding c with
  | none => exact inv_endConn h hs rfl hb (fun _ h => h.elim)
  | some e =>
    obtain ⟨hfr, hl⟩ := h.bound c e hb
    simp only
    rw [if_neg (by rw [hfr]; simp)]
    split
    · rename_i hcl
      exact inv_endConn (inv_unbindClearing h hb hcl) hs rfl (upd_same _ _ _) (fun _ h => h.elim)
    · rename_i hcl
      have hcl : s.clearing e = false := by simpa using hcl
      have hbe : ∀ e', s.binding c = some e' → s.clearing e' = false := by
        intro e' he'; rw [hb] at he'; rw [← Option.some.inj he']; exact hcl
      split
      · rename_i hc
        have h1 := inv_swap h hs hbe
        have h2 : ∀ d ∈ s.data e, .conn d ∉ Frame.tail c :: k := by
          intro d hd hm
          exact (h.sane [] (.conn c) k hs) e hc hcl d hd (by simpa using hm)
        exact inv_startEp h1 hcl h2 (fun d hd => by rw [hd.1]; exact hc) (fun _ h => h.elim) (fun h => h.elim)
      · rename_i hc
        have hm : c ∈ s.data e := hl.resolve_left hc
        rw [if_pos hm]
        have h0 := inv_eraseData h hm hcl
        split
        · rename_i hemp
          have h1 := inv_swap h0 hs (fun e' he' => by
            have he' : upd s.binding c none c = some e' := he'
            rw [upd_same] at he'; cases he')
          refine inv_startEp h1 hcl ?_ (fun d hd => absurd (upd_same _ _ _) hd.2) (fun _ h => h.elim) (fun h => h.elim)
          intro d hd
          have hd : d ∈ upd s.data e ((s.data e).erase c) e := hd
          have hemp : upd s.data e ((s.data e).erase c) e = [] := hemp
          rw [hemp] at hd; cases hd
        · exact inv_endConn h0 hs rfl (upd_same _ _ _) (fun _ h => h.elim)

/-- The control connection of an endpoint has been reset. -/
theorem inv_ctrl {s : S} {e : Nat} {k : List Frame} (h : Inv0 s) (hs : s.stack = .ctrl e :: k) :
    Inv0 { s with ctrl := upd s.ctrl e none, stack := .loop e :: k } := by
  have hm : ∀ g, g ∈ k → g ∈ s.stack := by intro g hg; rw [hs]; exact List.mem_cons_of_mem _ hg
  have htop : .ctrl e ∈ s.stack := by rw [hs]; exact List.mem_cons_self
  have hw : s.stack.filterMap Frame.who = (Frame.loop e :: k).filterMap Frame.who := by rw [hs]; rfl
  have he : s.stack.filterMap Frame.ep = (Frame.loop e :: k).filterMap Frame.ep := by rw [hs]; rfl
  have hc : ∀ e' d, upd s.ctrl e none e' = some d → e' ≠ e ∧ s.ctrl e' = some d := by
    intro e' d h'
    have hn : e' ≠ e := by rintro rfl; rw [upd_same] at h'; cases h'
    rw [upd_other _ _ hn] at h'
    exact ⟨hn, h'⟩
  have hnone : ∀ e', s.ctrl e' = none → upd s.ctrl e none e' = none := by
    intro e' h'
    by_cases hn : e' = e
    · rw [hn, upd_same]
    · rw [upd_other _ _ hn]; exact h'
  have hmc : ∀ d, .conn d ∈ s.stack → .conn d ∈ k := by
    intro d hm'; rw [hs, List.mem_cons] at hm'; exact hm'.resolve_left (by intro h; cases h)
  constructor
  · exact h.ub
  · intro d e' hb
    obtain ⟨h1, h2⟩ := h.bound d e' hb
    refine ⟨h1, ?_⟩
    rcases h2 with h2 | h2
    · left
      show upd s.ctrl e none e' = some d
      have hn : e' ≠ e := by
        rintro rfl
        have hb : s.binding d = some e' := hb
        rw [h.cb e' d htop h2] at hb; cases hb
      rw [upd_other _ _ hn]; exact h2
    · exact .inr h2
  · intro d e' h1 h2; exact h.lc d e' (hc e' d h1).2 h2
  · exact h.ld
  · intro d e' h1; exact h.uc d e' (hc e' d h1).2
  · exact h.ud
  · exact h.ubd
  · intro d e1 e2 h1 h2; exact h.one d e1 e2 (hc e1 d h1).2 (hc e2 d h2).2
  · intro d e1 e2 h1 h2; exact h.sep d e1 e2 h1 (hc e2 d h2).2
  · exact h.nd
  · intro e'; rw [← he]; exact h.cl e'
  · rw [← he]; exact h.once
  · intro e' hm'
    simp only [List.mem_cons, Frame.loop.injEq] at hm'
    show upd s.ctrl e none e' = none
    rcases hm' with rfl | hm'
    · exact upd_same _ _ _
    · exact hnone e' (h.cnl e' (hm _ hm'))
  · intro e' d hm'; exact hnone e' (h.cnd e' d (hm _ (by simpa using hm')))
  · intro e' d hm' hcd; exact h.cb e' d (hm _ (by simpa using hm')) (hc e' d hcd).2
  · intro e' d hz hm' hb
    exact List.mem_cons_of_mem _ (hmc d (h.db e' d hz (hm _ (by simpa using hm')) hb))
  · intro d; rw [← hw]; exact h.bz d
  · rw [← hw]; exact h.bnd
  · exact h.bd
  · intro d hx h1 h2; exact h.dn d hx h1 (fun h3 => h2 (List.mem_cons_of_mem _ (hmc d h3)))
  · intro e' hy hm'
    obtain ⟨h1, h2⟩ := h.dt e' hy (hm _ (by simpa using hm'))
    exact ⟨h1, h2.imp id (fun h2 => ⟨hnone e' h2.1, h2.2⟩)⟩
  · exact h.fd
  · intro k1 f k2 hs'
    rcases split_cons hs' with ⟨-, rfl, rfl⟩ | ⟨k1', hs''⟩
    · exact h.sane [] (.ctrl e) k2 hs
    · exact ok_shrink (h.sane (.ctrl e :: k1') f k2 (by rw [hs, hs'']; rfl)) (fun _ _ h => h) (fun e' d hd => (hc e' d hd).2) (fun _ _ _ h => h)

/-- The reset of an endpoint ends. -/
theorem inv_endEp {s : S} {e : Nat} {k : List Frame} (h : Inv0 s) (hs : s.stack = .loop e :: k) (hd : s.data e = []) :
    Inv0 { s with clearing := upd s.clearing e false, stack := k } := by
  have hm : ∀ g, g ∈ k → g ∈ s.stack := by intro g hg; rw [hs]; exact List.mem_cons_of_mem _ hg
  have hcn : s.ctrl e = none := h.cnl e (by rw [hs]; exact List.mem_cons_self)
  have hw : s.stack.filterMap Frame.who = k.filterMap Frame.who := by rw [hs]; rfl
  have he : s.stack.filterMap Frame.ep = e :: k.filterMap Frame.ep := by rw [hs]; rfl
  have hnd := h.once
  rw [he, List.nodup_cons] at hnd
  have hmc : ∀ d, .conn d ∈ s.stack → .conn d ∈ k := by
    intro d hm'; rw [hs, List.mem_cons] at hm'; exact hm'.resolve_left (by intro h; cases h)
  have hcl : ∀ e', e' ≠ e → upd s.clearing e false e' = false → s.clearing e' = false := by
    intro e' hn h'; rw [upd_other _ _ hn] at h'; exact h'
  constructor
  · exact h.ub
  · exact h.bound
  · intro d e' h1 h2
    have hn : e' ≠ e := by rintro rfl; have h1 : s.ctrl e' = some d := h1; rw [hcn] at h1; cases h1
    exact h.lc d e' h1 (hcl e' hn h2)
  · intro d e' h1 h2
    have hn : e' ≠ e := by rintro rfl; have h1 : d ∈ s.data e' := h1; rw [hd] at h1; cases h1
    exact h.ld d e' h1 (hcl e' hn h2)
  · exact h.uc
  · exact h.ud
  · exact h.ubd
  · exact h.one
  · exact h.sep
  · exact h.nd
  · intro e'
    show upd s.clearing e false e' = true ↔ e' ∈ k.filterMap Frame.ep
    by_cases hn : e' = e
    · subst hn; rw [upd_same]; simp only [Bool.false_eq_true, false_iff]; exact hnd.1
    · rw [upd_other _ _ hn, h.cl e', he, List.mem_cons]; exact ⟨fun h => h.resolve_left hn, .inr⟩
  · exact hnd.2
  · intro e' hm'; exact h.cnl e' (hm _ hm')
  · intro e' d hm'; exact h.cnd e' d (hm _ hm')
  · intro e' d hm'; exact h.cb e' d (hm _ hm')
  · intro e' d hz hm' hb; exact hmc d (h.db e' d hz (hm _ hm') hb)
  · intro d; rw [← hw]; exact h.bz d
  · rw [← hw]; exact h.bnd
  · exact h.bd
  · intro d hx h1 h2; exact h.dn d hx h1 (fun h3 => h2 (hmc d h3))
  · intro e' hy hm'
    obtain ⟨h1, h2⟩ := h.dt e' hy (hm _ hm')
    refine ⟨h1, ?_⟩
    by_cases hn : e' = e
    · subst hn; exact .inr ⟨hcn, hd⟩
    · exact h2.imp (fun h2 => by show upd s.clearing e false e' = true; rw [upd_other _ _ hn]; exact h2) id
  · exact h.fd
  · intro k1 f k2 hs'
    refine ok_shrink (h.sane (.loop e :: k1) f k2 (by rw [hs]; exact congrArg _ hs')) (fun _ _ h => h) (fun _ _ h => h) (fun e' d hd' h' => hcl e' ?_ h')
    rintro rfl
    have hd' : s.ctrl e' = some d := hd'
    rw [hcn] at hd'; cases hd'

/-- The loop over the data connections takes the next one, or goes back to its head. -/
theorem inv_loopSwap {s : S} {f g : Frame} {e : Nat} {k : List Frame} {z : Nat → Prop} (h : Inv0 s) (hs : s.stack = f :: k)
    (hf : f = .loop e ∨ ∃ c, f = .data e c) (hg : g = .loop e ∨ ∃ c, g = .data e c ∧ (¬ z c → s.binding c ≠ some e)) :
    Inv no no z { s with stack := g :: k } := by
  have hm : ∀ g, g ∈ k → g ∈ s.stack := by intro g hg; rw [hs]; exact List.mem_cons_of_mem _ hg
  have hcn : s.ctrl e = none := by
    have : f ∈ s.stack := by rw [hs]; exact List.mem_cons_self
    rcases hf with rfl | ⟨c, rfl⟩
    · exact h.cnl e this
    · exact h.cnd e c this
  have hfw : f.who = none ∧ f.ep = some e := by rcases hf with rfl | ⟨c, rfl⟩ <;> exact ⟨rfl, rfl⟩
  have hgw : g.who = none ∧ g.ep = some e := by rcases hg with rfl | ⟨c, rfl, -⟩ <;> exact ⟨rfl, rfl⟩
  have hfc : ∀ d, Frame.conn d ≠ f := by intro d h'; rw [← h'] at hfw; cases hfw.1
  have hw : s.stack.filterMap Frame.who = (g :: k).filterMap Frame.who := by
    rw [hs, List.filterMap_cons, List.filterMap_cons, hfw.1, hgw.1]
  have he : s.stack.filterMap Frame.ep = (g :: k).filterMap Frame.ep := by
    rw [hs, List.filterMap_cons, List.filterMap_cons, hfw.2, hgw.2]
  have hmc : ∀ d, .conn d ∈ s.stack → .conn d ∈ k := by
    intro d hm'; rw [hs, List.mem_cons] at hm'; exact hm'.resolve_left (hfc d)
  have hnot : ∀ {a}, a ∈ g :: k → a.ep = none → a ∈ k := by
    intro a ha hn
    rw [List.mem_cons] at ha
    refine ha.resolve_left ?_
    rintro rfl
    rw [hgw.2] at hn; cases hn
  refine { h with cl := ?_, once := ?_, cnl := ?_, cnd := ?_, cb := ?_, db := ?_, bz := ?_, bnd := ?_, dn := ?_, dt := ?_, sane := ?_ }
  · intro e'; rw [← he]; exact h.cl e'
  · rw [← he]; exact h.once
  · intro e' hm'
    rw [List.mem_cons] at hm'
    rcases hm' with rfl | hm'
    · have : e' = e := Option.some.inj hgw.2
      rw [this]; exact hcn
    · exact h.cnl e' (hm _ hm')
  · intro e' c hm'
    rw [List.mem_cons] at hm'
    rcases hm' with rfl | hm'
    · have : e' = e := Option.some.inj hgw.2
      rw [this]; exact hcn
    · exact h.cnd e' c (hm _ hm')
  · intro e' d hm' hcd
    rw [List.mem_cons] at hm'
    rcases hm' with rfl | hm'
    · have : e' = e := Option.some.inj hgw.2
      subst this
      have hcd : s.ctrl e' = some d := hcd
      rw [hcn] at hcd; cases hcd
    · exact h.cb e' d (hm _ hm') hcd
  · intro e' d hz hm' hb
    rw [List.mem_cons] at hm'
    rcases hm' with rfl | hm'
    · rcases hg with hg | ⟨c, hg, hb'⟩
      · cases hg
      · cases hg
        exact absurd hb (hb' hz)
    · exact List.mem_cons_of_mem _ (hmc d (h.db e' d (fun h => h) (hm _ hm') hb))
  · intro d; rw [← hw]; exact h.bz d
  · rw [← hw]; exact h.bnd
  · intro d hx h1 h2; exact h.dn d hx h1 (fun h3 => h2 (List.mem_cons_of_mem _ (hmc d h3)))
  · intro e' hy hm'; exact h.dt e' hy (hm _ (hnot hm' rfl))
  · intro k1 a k2 hs'
    rcases split_cons hs' with ⟨-, rfl, rfl⟩ | ⟨k1', hs''⟩
    · have := h.sane [] f k2 hs
      have this : ∀ d ∈ s.data e, .conn d ∉ k2 := by
        rcases hf with rfl | ⟨c, rfl⟩ <;> exact this
      rcases hg with rfl | ⟨c, rfl, -⟩ <;> exact this
    · have : ok s k2 a := h.sane (f :: k1') a k2 (by rw [hs, hs'']; rfl)
      cases a <;> exact this

/-- The data connections an endpoint that is being reset has left. -/
theorem inv_tailData {s : S} {e c : Nat} {t : List Nat} (h : Inv0 s) (hd : s.data e = c :: t) (hcl : s.clearing e = true) (hb : s.binding c ≠ some e) :
    Inv0 { s with data := upd s.data e t } := by
  have hsub : ∀ e' d, d ∈ upd s.data e t e' → d ∈ s.data e' := by
    intro e' d hd'
    by_cases hn : e' = e
    · subst hn; rw [upd_same] at hd'; rw [hd]; exact List.mem_cons_of_mem _ hd'
    · rw [upd_other _ _ hn] at hd'; exact hd'
  refine { h with bound := ?_, ld := ?_, ud := ?_, sep := ?_, nd := ?_, dt := ?_, sane := ?_ }
  · intro d e' h1
    obtain ⟨h2, h3⟩ := h.bound d e' h1
    refine ⟨h2, h3.imp id (fun h3 => ?_)⟩
    show d ∈ upd s.data e t e'
    by_cases hn : e' = e
    · subst hn
      rw [upd_same]
      rw [hd, List.mem_cons] at h3
      refine h3.resolve_left ?_
      rintro rfl
      exact hb h1
    · rw [upd_other _ _ hn]; exact h3
  · intro d e' h1 h2; exact h.ld d e' (hsub e' d h1) h2
  · intro d e' h1; exact h.ud d e' (hsub e' d h1)
  · intro d e1 e2 h1; exact h.sep d e1 e2 (hsub e1 d h1)
  · intro e'
    show (upd s.data e t e').Nodup
    by_cases hn : e' = e
    · subst hn; rw [upd_same]; have := h.nd e'; rw [hd] at this; exact (List.nodup_cons.1 this).2
    · rw [upd_other _ _ hn]; exact h.nd e'
  · intro e' hy hm'
    obtain ⟨h1, h2⟩ := h.dt e' hy hm'
    refine ⟨h1, ?_⟩
    by_cases hn : e' = e
    · subst hn; exact .inl hcl
    · exact h2.imp id (fun h2 => ⟨h2.1, by show upd s.data e t e' = []; rw [upd_other _ _ hn]; exact h2.2⟩)
  · intro k1 f k2 hs
    exact ok_shrink (h.sane k1 f k2 hs) hsub (fun _ _ h => h) (fun _ _ _ h => h)

/-- An endpoint is gone. -/
theorem inv_dtor {s : S} {e : Nat} {k : List Frame} (h : Inv0 s) (hs : s.stack = .dtor e :: k) :
    Inv0 { s with freed := upd s.freed e true, stack := k } := by
  have hm : ∀ g, g ∈ k → g ∈ s.stack := by intro g hg; rw [hs]; exact List.mem_cons_of_mem _ hg
  obtain ⟨hdy, hdt⟩ := h.dt e (fun h => h) (by rw [hs]; exact List.mem_cons_self)
  have huse := h.sane [] (.dtor e) k hs
  have he : s.stack.filterMap Frame.ep = k.filterMap Frame.ep := by rw [hs]; rfl
  have hw : s.stack.filterMap Frame.who = k.filterMap Frame.who := by rw [hs]; rfl
  have hemp : s.ctrl e = none ∧ s.data e = [] := by
    refine hdt.resolve_left (fun hcl => ?_)
    have := (h.cl e).1 hcl
    rw [he, List.mem_filterMap] at this
    obtain ⟨f, h1, h2⟩ := this
    have h3 : Frame.uses e f = false := huse f h1
    cases f <;> simp_all [Frame.ep, Frame.uses]
  have hmc : ∀ d, .conn d ∈ s.stack → .conn d ∈ k := by
    intro d hm'; rw [hs, List.mem_cons] at hm'; exact hm'.resolve_left (by intro h; cases h)
  constructor
  · exact h.ub
  · intro d e' hb
    obtain ⟨h1, h2⟩ := h.bound d e' hb
    refine ⟨?_, h2⟩
    show upd s.freed e true e' = false
    have hn : e' ≠ e := by
      rintro rfl
      rw [hemp.1, hemp.2] at h2
      rcases h2 with h2 | h2 <;> cases h2
    rw [upd_other _ _ hn]; exact h1
  · exact h.lc
  · exact h.ld
  · exact h.uc
  · exact h.ud
  · exact h.ubd
  · exact h.one
  · exact h.sep
  · exact h.nd
  · intro e'; rw [← he]; exact h.cl e'
  · rw [← he]; exact h.once
  · intro e' hm'; exact h.cnl e' (hm _ hm')
  · intro e' d hm'; exact h.cnd e' d (hm _ hm')
  · intro e' d hm'; exact h.cb e' d (hm _ hm')
  · intro e' d hz hm' hb; exact hmc d (h.db e' d hz (hm _ hm') hb)
  · intro d; rw [← hw]; exact h.bz d
  · rw [← hw]; exact h.bnd
  · exact h.bd
  · intro d hx h1 h2; exact h.dn d hx h1 (fun h3 => h2 (hmc d h3))
  · intro e' hy hm'; exact h.dt e' hy (hm _ hm')
  · intro e' hf
    have hf : upd s.freed e true e' = true := hf
    by_cases hn : e' = e
    · rw [hn]; exact hdy
    · rw [upd_other _ _ hn] at hf; exact h.fd e' hf
  · intro k1 f k2 hs'
    have : ok s k2 f := h.sane (.dtor e :: k1) f k2 (by rw [hs]; exact congrArg _ hs')
    cases f <;> exact this

theorem inv_go {s : S} (h : Inv0 s) : Inv0 (go s) := by
  unfold go
  rw [if_neg (by rw [h.ub]; simp)]
  split
  · exact h
  · rename_i c k hs; exact inv_unbind h hs
  · rename_i c k hs
    have hw : c ∈ s.stack.filterMap Frame.who := by rw [hs]; exact List.mem_cons_self
    refine inv_endConn h hs rfl ?_ (fun _ h => h.elim)
    refine h.dn c (fun h => h) (h.bd c ((h.bz c).2 hw)) (fun hm => ?_)
    have := h.bnd
    rw [hs] at this hm
    have hm' : Frame.conn c ∈ k := by simpa using hm
    exact (List.nodup_cons.1 this).1 (conn_who hm')
  · rename_i e k hs; exact inv_ctrl h hs
  · rename_i e k hs
    split
    · rename_i hd; exact inv_endEp h hs hd
    · rename_i c t hd
      have hc : c ∈ s.data e := by rw [hd]; exact List.mem_cons_self
      have hk : Frame.conn c ∉ k := h.sane [] (.loop e) k hs c hc
      have hbb : s.busy c = true → s.binding c = none := fun hb =>
        h.dn c (fun h => h) (h.bd c hb) (fun hm => hk (by rw [hs] at hm; simpa using hm))
      have h1 : Inv no no (fun d => d = c ∧ s.busy c = false) { s with stack := .data e c :: k } := by
        refine inv_loopSwap h hs (.inl rfl) (.inr ⟨c, rfl, fun hz hb => ?_⟩)
        cases hbu : s.busy c with
        | true => rw [hbb hbu] at hb; cases hb
        | false => exact hz ⟨rfl, hbu⟩
      refine inv_startConn h1 (fun hb d hz => ?_) (fun d hz => hz.1) (fun _ e' h2 => absurd h2 (h.sep c e e' hc))
      rw [hz.2] at hb; cases hb
  · rename_i e c k hs
    have hnb : ∀ t, s.data e = c :: t → s.binding c ≠ some e := by
      intro t hd hb
      have h1 := h.db e c (fun h => h) (by rw [hs]; exact List.mem_cons_self) hb
      have h2 : ∀ d ∈ s.data e, .conn d ∉ k := h.sane [] (.data e c) k hs
      exact h2 c (by rw [hd]; exact List.mem_cons_self) (by rw [hs] at h1; simpa using h1)
    have hcl : s.clearing e = true := (h.cl e).2 (by rw [hs]; exact List.mem_cons_self)
    split
    · rename_i hh
      cases hd : s.data e with
      | nil => rw [hd] at hh; cases hh
      | cons a t =>
        rw [hd] at hh
        have : a = c := by simpa using hh
        subst this
        have h1 := inv_tailData h hd hcl (hnb t hd)
        exact inv_loopSwap (z := no) h1 hs (.inr ⟨a, rfl⟩) (.inl rfl)
    · exact inv_loopSwap (z := no) h hs (.inr ⟨c, rfl⟩) (.inl rfl)
  · rename_i e k hs; exact inv_dtor h hs

/-- A connection that was never bound or reset is added. -/
theorem inv_add {s : S} {e c : Nat} (h : Inv0 s) (force : Bool) (hdy : s.dying e = false) (hcu : c ∉ s.used) (hcd : s.down c = false) :
    Inv0 (call s (.add e c force)) := by
  simp only [call]
  by_cases hcl : s.clearing e = true
  · rw [if_pos hcl]; exact h
  rw [if_neg hcl]
  have hcl : s.clearing e = false := by simpa using hcl
  by_cases hbn : s.binding c ≠ none
  · rw [if_pos hbn]; exact h
  rw [if_neg hbn]
  have hbn : s.binding c = none := by cases hb : s.binding c with | none => rfl | some _ => exact absurd (by rw [hb]; simp) hbn
  have hfr : s.freed e = false := by
    cases hf : s.freed e with
    | false => rfl
    | true => rw [h.fd e hf] at hdy; cases hdy
  have hnb : .conn c ∉ s.stack := by
    intro hm
    have := h.bd c ((h.bz c).2 (conn_who hm))
    rw [hcd] at this; cases this
  have hfe : ∀ f ∈ s.stack, f.ep ≠ some e := by
    intro f hf hep
    have := (h.cl e).2 (List.mem_filterMap.2 ⟨f, hf, hep⟩)
    rw [hcl] at this; cases this
  have hub : ∀ d e', upd s.binding c (some e) d = some e' → (d = c ∧ e' = e) ∨ (d ≠ c ∧ s.binding d = some e') := by
    intro d e' h'
    by_cases hn : d = c
    · subst hn; rw [upd_same] at h'; exact .inl ⟨rfl, (Option.some.inj h').symm⟩
    · rw [upd_other _ _ hn] at h'; exact .inr ⟨hn, h'⟩
  have hup : ∀ d, d ≠ c → upd s.binding c (some e) d = s.binding d := fun d hn => upd_other _ _ hn
  have hdb : ∀ e' d, ¬ no d → .data e' d ∈ s.stack → upd s.binding c (some e) d = some e' → .conn d ∈ s.stack := by
    intro e' d hz hm hb
    rcases hub d e' hb with ⟨-, rfl⟩ | ⟨-, hb⟩
    · exact absurd rfl (hfe _ hm)
    · exact h.db e' d hz hm hb
  have hdn : ∀ d, ¬ no d → s.down d = true → .conn d ∉ s.stack → upd s.binding c (some e) d = none := by
    intro d hx h1 h2
    have hn : d ≠ c := by rintro rfl; rw [hcd] at h1; cases h1
    rw [hup d hn]; exact h.dn d hx h1 h2
  have hubd : ∀ d, upd s.binding c (some e) d ≠ none → d ∈ c :: s.used := by
    intro d hd
    by_cases hn : d = c
    · rw [hn]; exact List.mem_cons_self
    · rw [hup d hn] at hd; exact List.mem_cons_of_mem _ (h.ubd d hd)
  split
  · -- the list of data connections
    have hda : ∀ e' d, d ∈ upd s.data e (s.data e ++ [c]) e' → d ∈ s.data e' ∨ (e' = e ∧ d = c) := by
      intro e' d hd
      by_cases hn : e' = e
      · subst hn; rw [upd_same, List.mem_append, List.mem_singleton] at hd; exact hd.imp id (fun h => ⟨rfl, h⟩)
      · rw [upd_other _ _ hn] at hd; exact .inl hd
    have hnc : ∀ {d e'}, d ∈ s.data e' → d ≠ c := by rintro d e' h1 rfl; exact hcu (h.ud d e' h1).1
    constructor
    · exact h.ub
    · intro d e' hb
      rcases hub d e' hb with ⟨rfl, rfl⟩ | ⟨hn, hb⟩
      · refine ⟨hfr, .inr ?_⟩
        show d ∈ upd s.data e' (s.data e' ++ [d]) e'
        rw [upd_same]; simp
      · obtain ⟨h1, h2⟩ := h.bound d e' hb
        refine ⟨h1, h2.imp id (fun h2 => ?_)⟩
        show d ∈ upd s.data e (s.data e ++ [c]) e'
        by_cases hn : e' = e
        · subst hn; rw [upd_same]; exact List.mem_append_left _ h2
        · rw [upd_other _ _ hn]; exact h2
    · intro d e' h1 h2
      have hn : d ≠ c := by rintro rfl; exact hcu (h.uc d e' h1)
      show upd s.binding c (some e) d = some e'
      rw [hup d hn]; exact h.lc d e' h1 h2
    · intro d e' h1 h2
      show upd s.binding c (some e) d = some e'
      rcases hda e' d h1 with h1 | ⟨rfl, rfl⟩
      · rw [hup d (hnc h1)]; exact h.ld d e' h1 h2
      · exact upd_same _ _ _
    · intro d e' h1; exact List.mem_cons_of_mem _ (h.uc d e' h1)
    · intro d e' h1
      show d ∈ c :: s.used ∧ upd s.home c e d = e'
      rcases hda e' d h1 with h1 | ⟨rfl, rfl⟩
      · rw [upd_other _ _ (hnc h1)]; exact ⟨List.mem_cons_of_mem _ (h.ud d e' h1).1, (h.ud d e' h1).2⟩
      · exact ⟨List.mem_cons_self, upd_same _ _ _⟩
    · exact hubd
    · exact h.one
    · intro d e1 e2 h1 h2
      rcases hda e1 d h1 with h1 | ⟨rfl, rfl⟩
      · exact h.sep d e1 e2 h1 h2
      · exact hcu (h.uc d e2 h2)
    · intro e'
      show (upd s.data e (s.data e ++ [c]) e').Nodup
      by_cases hn : e' = e
      · subst hn
        rw [upd_same, List.nodup_append]
        refine ⟨h.nd e', by simp, ?_⟩
        intro a ha b hb
        rw [List.mem_singleton] at hb
        rw [hb]; exact hnc ha
      · rw [upd_other _ _ hn]; exact h.nd e'
    · exact h.cl
    · exact h.once
    · exact h.cnl
    · exact h.cnd
    · intro e' d hm hc
      have hn : d ≠ c := by rintro rfl; exact hcu (h.uc d e' hc)
      show upd s.binding c (some e) d = none
      rw [hup d hn]; exact h.cb e' d hm hc
    · exact hdb
    · exact h.bz
    · exact h.bnd
    · exact h.bd
    · exact hdn
    · intro e' hy hm
      obtain ⟨h1, h2⟩ := h.dt e' hy hm
      have hn : e' ≠ e := by rintro rfl; rw [hdy] at h1; cases h1
      refine ⟨h1, h2.imp id (fun h2 => ⟨h2.1, ?_⟩)⟩
      show upd s.data e (s.data e ++ [c]) e' = []
      rw [upd_other _ _ hn]; exact h2.2
    · exact h.fd
    · intro k1 f k2 hs
      have hk2 : .conn c ∉ k2 := fun hm => hnb (by rw [show s.stack = k1 ++ f :: k2 from hs]; simp [hm])
      have h1 := h.sane k1 f k2 hs
      cases f with
      | conn c' =>
        intro e' h2 h3 d h4
        rcases hda e' d h4 with h4 | ⟨rfl, rfl⟩
        · exact h1 e' h2 h3 d h4
        · exact hk2
      | tail c' => trivial
      | ctrl e' =>
        intro d h4
        rcases hda e' d h4 with h4 | ⟨rfl, rfl⟩
        · exact h1 d h4
        · exact hk2
      | loop e' =>
        intro d h4
        rcases hda e' d h4 with h4 | ⟨rfl, rfl⟩
        · exact h1 d h4
        · exact hk2
      | data e' c' =>
        intro d h4
        rcases hda e' d h4 with h4 | ⟨rfl, rfl⟩
        · exact h1 d h4
        · exact hk2
      | dtor e' => exact h1
  · -- the control connection
    rename_i hno
    have hce : s.ctrl e = none := by
      cases hc : s.ctrl e with
      | none => rfl
      | some _ => rw [hc] at hno; simp at hno
    have hct : ∀ e' d, upd s.ctrl e (some c) e' = some d → (e' = e ∧ d = c) ∨ (e' ≠ e ∧ s.ctrl e' = some d) := by
      intro e' d h'
      by_cases hn : e' = e
      · subst hn; rw [upd_same] at h'; exact .inl ⟨rfl, (Option.some.inj h').symm⟩
      · rw [upd_other _ _ hn] at h'; exact .inr ⟨hn, h'⟩
    constructor
    · exact h.ub
    · intro d e' hb
      rcases hub d e' hb with ⟨rfl, rfl⟩ | ⟨hn, hb⟩
      · exact ⟨hfr, .inl (upd_same _ _ _)⟩
      · obtain ⟨h1, h2⟩ := h.bound d e' hb
        refine ⟨h1, h2.imp (fun h2 => ?_) id⟩
        show upd s.ctrl e (some c) e' = some d
        have hn : e' ≠ e := by rintro rfl; rw [hce] at h2; cases h2
        rw [upd_other _ _ hn]; exact h2
    · intro d e' h1 h2
      show upd s.binding c (some e) d = some e'
      rcases hct e' d h1 with ⟨rfl, rfl⟩ | ⟨-, hg⟩
      · exact upd_same _ _ _
      · have hn : d ≠ c := fun hdc => hcu (hdc ▸ h.uc d e' hg)
        rw [hup d hn]; exact h.lc d e' hg h2
    · intro d e' h1 h2
      have hn : d ≠ c := by rintro rfl; exact hcu (h.ud d e' h1).1
      show upd s.binding c (some e) d = some e'
      rw [hup d hn]; exact h.ld d e' h1 h2
    · intro d e' h1
      rcases hct e' d h1 with ⟨rfl, rfl⟩ | ⟨-, h1⟩
      · exact List.mem_cons_self
      · exact List.mem_cons_of_mem _ (h.uc d e' h1)
    · intro d e' h1; exact ⟨List.mem_cons_of_mem _ (h.ud d e' h1).1, (h.ud d e' h1).2⟩
    · exact hubd
    · intro d e1 e2 h1 h2
      rcases hct e1 d h1 with ⟨g1, g2⟩ | ⟨-, g1⟩
      · rcases hct e2 d h2 with ⟨g3, -⟩ | ⟨-, g3⟩
        · rw [g1, g3]
        · exact absurd (g2 ▸ h.uc d e2 g3) hcu
      · rcases hct e2 d h2 with ⟨-, g3⟩ | ⟨-, g3⟩
        · exact absurd (g3 ▸ h.uc d e1 g1) hcu
        · exact h.one d e1 e2 g1 g3
    · intro d e1 e2 h1 h2
      rcases hct e2 d h2 with ⟨rfl, rfl⟩ | ⟨-, h2⟩
      · exact hcu (h.ud _ e1 h1).1
      · exact h.sep d e1 e2 h1 h2
    · exact h.nd
    · exact h.cl
    · exact h.once
    · intro e' hm
      have hn : e' ≠ e := by rintro rfl; exact hfe _ hm rfl
      show upd s.ctrl e (some c) e' = none
      rw [upd_other _ _ hn]; exact h.cnl e' hm
    · intro e' d hm
      have hn : e' ≠ e := by rintro rfl; exact hfe _ hm rfl
      show upd s.ctrl e (some c) e' = none
      rw [upd_other _ _ hn]; exact h.cnd e' d hm
    · intro e' d hm hc
      rcases hct e' d hc with ⟨rfl, rfl⟩ | ⟨-, hg⟩
      · exact absurd rfl (hfe _ hm)
      · have hn : d ≠ c := fun hdc => hcu (hdc ▸ h.uc d e' hg)
        show upd s.binding c (some e) d = none
        rw [hup d hn]; exact h.cb e' d hm hg
    · exact hdb
    · exact h.bz
    · exact h.bnd
    · exact h.bd
    · exact hdn
    · intro e' hy hm
      obtain ⟨h1, h2⟩ := h.dt e' hy hm
      have hn : e' ≠ e := by rintro rfl; rw [hdy] at h1; cases h1
      refine ⟨h1, h2.imp id (fun h2 => ⟨?_, h2.2⟩)⟩
      show upd s.ctrl e (some c) e' = none
      rw [upd_other _ _ hn]; exact h2.1
    · exact h.fd
    · intro k1 f k2 hs
      have h1 := h.sane k1 f k2 hs
      cases f with
      | conn c' =>
        intro e' h2 h3 d h4
        rcases hct e' c' h2 with ⟨rfl, rfl⟩ | ⟨-, h2⟩
        · exact absurd (by rw [show s.stack = k1 ++ Frame.conn c' :: k2 from hs]; simp) hnb
        · exact h1 e' h2 h3 d h4
      | tail c' => trivial
      | ctrl e' => exact h1
      | loop e' => exact h1
      | data e' c' => exact h1
      | dtor e' => exact h1

theorem calm_iff {s : S} {e : Nat} : s.calm e = true ↔ ∀ d ∈ s.data e, .conn d ∉ s.stack := by
  simp [S.calm, List.all_eq_true, List.contains_iff_mem]

theorem inv_sort {s : S} {e : Nat} {l : List Nat} (h : Inv0 s) (hp : l.Perm (s.data e)) : Inv0 { s with data := upd s.data e l } := by
  have hm : ∀ e' d, d ∈ upd s.data e l e' ↔ d ∈ s.data e' := by
    intro e' d
    by_cases hn : e' = e
    · subst hn; rw [upd_same]; exact hp.mem_iff
    · rw [upd_other _ _ hn]
  refine { h with bound := ?_, ld := ?_, ud := ?_, sep := ?_, nd := ?_, dt := ?_, sane := ?_ }
  · intro d e' hb
    obtain ⟨h1, h2⟩ := h.bound d e' hb
    exact ⟨h1, h2.imp id (hm e' d).2⟩
  · intro d e' h1; exact h.ld d e' ((hm e' d).1 h1)
  · intro d e' h1; exact h.ud d e' ((hm e' d).1 h1)
  · intro d e1 e2 h1; exact h.sep d e1 e2 ((hm e1 d).1 h1)
  · intro e'
    show (upd s.data e l e').Nodup
    by_cases hn : e' = e
    · subst hn; rw [upd_same]; exact hp.nodup_iff.2 (h.nd e')
    · rw [upd_other _ _ hn]; exact h.nd e'
  · intro e' hy hm'
    obtain ⟨h1, h2⟩ := h.dt e' hy hm'
    refine ⟨h1, h2.imp id (fun h2 => ⟨h2.1, ?_⟩)⟩
    show upd s.data e l e' = []
    by_cases hn : e' = e
    · subst hn; rw [upd_same]; rw [h2.2] at hp; exact hp.eq_nil
    · rw [upd_other _ _ hn]; exact h2.2
  · intro k1 f k2 hs
    exact ok_shrink (h.sane k1 f k2 hs) (fun e' d => (hm e' d).1) (fun _ _ h => h) (fun _ _ _ h => h)

/-- The destruction of an endpoint begins. -/
theorem inv_pushDtor {s : S} {e : Nat} (h : Inv0 s) (hu : ∀ f ∈ s.stack, Frame.uses e f = false) :
    Inv no (fun e' => e' = e) no { s with dying := upd s.dying e true, stack := .dtor e :: s.stack } := by
  have hdy : ∀ e', s.dying e' = true → upd s.dying e true e' = true := by
    intro e' h'
    by_cases hn : e' = e
    · rw [hn, upd_same]
    · rw [upd_other _ _ hn]; exact h'
  refine { h with cl := ?_, once := ?_, cnl := ?_, cnd := ?_, cb := ?_, db := ?_, bz := ?_, bnd := ?_, dn := ?_, dt := ?_, fd := ?_, sane := ?_ }
  · intro e'; exact h.cl e'
  · exact h.once
  · intro e' hm; exact h.cnl e' (by simpa using hm)
  · intro e' d hm; exact h.cnd e' d (by simpa using hm)
  · intro e' d hm; exact h.cb e' d (by simpa using hm)
  · intro e' d hz hm hb; exact List.mem_cons_of_mem _ (h.db e' d hz (by simpa using hm) hb)
  · intro d; exact h.bz d
  · exact h.bnd
  · intro d hx h1 h2; exact h.dn d hx h1 (fun h3 => h2 (List.mem_cons_of_mem _ h3))
  · intro e' hy hm
    have hm : Frame.dtor e' ∈ s.stack := by
      simp only [List.mem_cons, Frame.dtor.injEq] at hm
      exact hm.resolve_left hy
    obtain ⟨h1, h2⟩ := h.dt e' (fun h => h) hm
    exact ⟨hdy e' h1, h2⟩
  · intro e' hf; exact hdy e' (h.fd e' hf)
  · intro k1 f k2 hs
    rcases split_cons hs with ⟨-, rfl, rfl⟩ | ⟨k1', hs'⟩
    · exact hu
    · have := h.sane k1' f k2 hs'
      cases f <;> exact this

theorem inv_call {s : S} {op : Op} (h : Inv0 s) (hc : s.can op = true) (hp : polite s op = true) : Inv0 (call s op) := by
  cases op with
  | add e c force =>
    simp only [S.can, polite, Bool.and_eq_true, Bool.not_eq_true', List.contains_eq_mem, decide_eq_false_iff_not] at hc hp
    exact inv_add h force hc.2 hp.1 hp.2
  | resetConn c =>
    refine inv_startConn (z := no) (k := s.stack) h (fun _ _ hz => hz.elim) (fun _ hz => hz.elim) ?_
    intro _ e h1 h2
    have hb := h.lc c e h1 h2
    simp only [polite, hb, h1, h2, bne_self_eq_false, Bool.false_or] at hp
    exact calm_iff.1 hp
  | resetEp e =>
    simp only [polite, Bool.or_eq_true] at hp
    cases hcl : s.clearing e with
    | true => show Inv0 (startEp s e s.stack); unfold startEp; rw [if_pos hcl]; exact h
    | false =>
      rw [hcl] at hp
      exact inv_startEp h hcl (calm_iff.1 (hp.resolve_left (by simp))) (fun _ h => h.elim) (fun _ h => h.elim) (fun h => h.elim)
  | sort e l =>
    simp only [S.can, Bool.and_eq_true] at hc
    exact inv_sort h (List.isPerm_iff.1 hc.2.2)
  | free e =>
    simp only [S.can, Bool.and_eq_true, Bool.not_eq_true', List.any_eq_false] at hc
    have hu : ∀ f ∈ s.stack, Frame.uses e f = false := fun f hf => by simpa using hc.2.2 f hf
    have h1 := inv_pushDtor h hu
    have hcl : s.clearing e = false := by
      cases hcl : s.clearing e with
      | false => rfl
      | true =>
        obtain ⟨f, h2, h3⟩ := List.mem_filterMap.1 ((h.cl e).1 hcl)
        have h4 := hu f h2
        cases f <;> simp_all [Frame.ep, Frame.uses]
    refine inv_startEp h1 hcl ?_ (fun _ h => h.elim) (fun _ h => h) (fun _ => upd_same _ _ _)
    intro d hd hm
    exact calm_iff.1 hp d hd (by simpa using hm)

theorem inv_init : Inv0 {} := by
  constructor <;> intros <;> first | rfl | (simp at *; done) | simp_all

theorem inv_run {s : S} {acts : List Act} (h : Inv0 s) (hp : Polite s acts) : Inv0 (run s acts) := by
  induction acts generalizing s with
  | nil => exact h
  | cons a acts ih =>
    cases a with
    | go => exact ih (inv_go h) hp
    | app op =>
      obtain ⟨h1, h2⟩ := hp
      refine ih ?_ h2
      simp only [step]
      cases hc : s.can op with
      | true => simp only [if_true]; exact inv_call h hc h1
      | false => simp only [Bool.false_eq_true, if_false]; exact h

/-! ### The code comes to an end -/

/-- What a connection that was bound is worth. -/
def val (s : S) (c : Nat) : Nat := (if (s.binding c).isSome then 6 else 0) + (if c ∈ s.data (s.home c) then 4 else 0)

/-- What a frame is worth. -/
def wt (s : S) : Frame → Nat
  | .conn _ => 1
  | .tail _ => 1
  | .ctrl _ => 5
  | .loop _ => 4
  | .data e c => if (s.data e).head? = some c then 1 else 5
  | .dtor _ => 1

def usum (s : S) : Nat := (s.used.map (val s)).sum
def wsum (s : S) (k : List Frame) : Nat := (k.map (wt s)).sum
def pot (s : S) : Nat := usum s + wsum s s.stack

theorem sum_le {α : Type} {l : List α} {f g : α → Nat} (h : ∀ a ∈ l, f a ≤ g a) : (l.map f).sum ≤ (l.map g).sum := by
  induction l with
  | nil => simp
  | cons a l ih =>
    have h1 := h a List.mem_cons_self
    have h2 := ih (fun b hb => h b (List.mem_cons_of_mem _ hb))
    simp only [List.map_cons, List.sum_cons]
    omega

theorem sum_drop {l : List Nat} {f g : Nat → Nat} {c n : Nat} (h : ∀ a ∈ l, f a ≤ g a) (hc : c ∈ l) (hn : f c + n ≤ g c) :
    (l.map f).sum + n ≤ (l.map g).sum := by
  induction l with
  | nil => cases hc
  | cons a l ih =>
    simp only [List.map_cons, List.sum_cons]
    by_cases hac : a = c
    · have := sum_le (fun b hb => h b (List.mem_cons_of_mem _ hb) : ∀ b ∈ l, f b ≤ g b)
      rw [hac]; omega
    · have h1 := ih (fun b hb => h b (List.mem_cons_of_mem _ hb)) (by simpa [Ne.symm hac] using hc)
      have h2 := h a List.mem_cons_self
      omega

theorem wsum_cons (s : S) (f : Frame) (k : List Frame) : wsum s (f :: k) = wt s f + wsum s k := by simp [wsum]

theorem wsum_congr {s s' : S} {k : List Frame} (h : ∀ f ∈ k, wt s' f = wt s f) : wsum s' k = wsum s k := by
  unfold wsum; rw [List.map_congr_left h]

theorem wt_data {s s' : S} (h : s'.data = s.data) (f : Frame) : wt s' f = wt s f := by
  cases f <;> simp [wt, h]

theorem wt_upd {s s' : S} {e : Nat} {l : List Nat} (h : s'.data = upd s.data e l) {f : Frame} (hf : f.ep ≠ some e) : wt s' f = wt s f := by
  cases f with
  | data e' c =>
    have hn : e' ≠ e := fun h => hf (by rw [h]; rfl)
    simp [wt, h, upd_other _ _ hn]
  | _ => rfl

theorem usum_same {s s' : S} (h1 : s'.used = s.used) (h2 : s'.binding = s.binding) (h3 : s'.data = s.data) (h4 : s'.home = s.home) : usum s' = usum s := by
  unfold usum; rw [h1]; congr 1; apply List.map_congr_left; intro c _; simp [val, h2, h3, h4]

theorem wsum_same {s s' : S} (h : s'.data = s.data) (k : List Frame) : wsum s' k = wsum s k := wsum_congr (fun f _ => wt_data h f)

theorem pot_same {s s' : S} (h1 : s'.used = s.used) (h2 : s'.binding = s.binding) (h3 : s'.data = s.data) (h4 : s'.home = s.home) :
    pot s' = usum s + wsum s s'.stack := by
  unfold pot; rw [usum_same h1 h2 h3 h4, wsum_same h3]

theorem pot_startConn {s : S} {c : Nat} {k : List Frame} : pot (startConn s c k) = usum s + wsum s k + (if s.busy c then 0 else 1) := by
  unfold startConn
  split
  · exact pot_same (s := s) rfl rfl rfl rfl
  · rw [pot_same (s := s) (s' := { s with busy := upd s.busy c true, down := upd s.down c true, stack := .conn c :: k }) rfl rfl rfl rfl]
    simp only [wsum_cons, wt]; omega

theorem usum_unbind {s : S} {c e : Nat} (hc : c ∈ s.used) (hb : s.binding c = some e) : usum { s with binding := upd s.binding c none } + 6 ≤ usum s := by
  refine sum_drop ?_ hc ?_
  · intro a _
    by_cases h : a = c
    · subst h; simp [val, upd_same]
    · simp [val, upd_other _ _ h]
  · simp [val, upd_same, hb]; omega

theorem pot_startEp_none {s : S} {e : Nat} {k : List Frame} (he : s.clearing e = false) (hc : s.ctrl e = none) :
    pot (startEp s e k) = usum s + wsum s k + 4 := by
  unfold startEp
  simp only [he, hc, Bool.false_eq_true, if_false]
  rw [pot_same (s := s) (s' := { s with clearing := upd s.clearing e true, stack := .loop e :: k }) rfl rfl rfl rfl]
  simp only [wsum_cons, wt]; omega

theorem pot_startEp_some {s : S} {e c : Nat} {k : List Frame} (he : s.clearing e = false) (hc : s.ctrl e = some c) (hu : c ∈ s.used)
    (hb : s.binding c = some e) : pot (startEp s e k) + 1 ≤ usum s + wsum s k + (if s.busy c then 0 else 1) := by
  unfold startEp
  simp only [he, hc, Bool.false_eq_true, if_false]
  rw [pot_startConn]
  have h1 := usum_unbind hu hb
  have h2 : usum { s with clearing := upd s.clearing e true, binding := upd s.binding c none } = usum { s with binding := upd s.binding c none } :=
    usum_same rfl rfl rfl rfl
  have h3 : wsum { s with clearing := upd s.clearing e true, binding := upd s.binding c none } (.ctrl e :: k) = 5 + wsum s k := by
    rw [wsum_same (s := s) rfl, wsum_cons]; rfl
  rw [h2, h3]
  show _ + (if s.busy c then 0 else 1) + 1 ≤ _
  omega

theorem pot_startEp {x y z : Nat → Prop} {s : S} {e : Nat} {k : List Frame} (h : Inv x y z s) (he : s.clearing e = false) :
    pot (startEp s e k) ≤ usum s + wsum s k + 4 := by
  cases hc : s.ctrl e with
  | none => rw [pot_startEp_none he hc]; omega
  | some c =>
    have := pot_startEp_some (k := k) he hc (h.uc c e hc) (h.lc c e hc he)
    split at this <;> omega

theorem pot_endConn {s : S} {c : Nat} {k : List Frame} : pot (endConn s c k) = usum s + wsum s k := by
  exact pot_same (s := s) rfl rfl rfl rfl

theorem pot_unbind {s : S} {c : Nat} {k : List Frame} (h : Inv0 s) (hs : s.stack = .conn c :: k) : pot (unbind s c k) < pot s := by
  have hp : pot s = usum s + (1 + wsum s k) := by unfold pot; rw [hs, wsum_cons]; rfl
  rw [hp]
  unfold unbind
  cases hb : s.binding c with
  | none => simp only; rw [pot_endConn]; omega
  | some e =>
    obtain ⟨hfr, hl⟩ := h.bound c e hb
    have hcu : c ∈ s.used := h.ubd c (by rw [hb]; simp)
    simp only
    rw [if_neg (by rw [hfr]; simp)]
    split
    · rw [pot_endConn]
      have := usum_unbind hcu hb
      have h2 : wsum { s with binding := upd s.binding c none } k = wsum s k := wsum_same (s := s) rfl k
      omega
    · rename_i hcl
      have hcl : s.clearing e = false := by simpa using hcl
      split
      · rename_i hc
        have hbz : s.busy c = true := (h.bz c).2 (by rw [hs]; exact List.mem_cons_self)
        have := pot_startEp_some (k := .tail c :: k) hcl hc hcu hb
        rw [hbz, wsum_cons] at this
        simp only [if_true, wt] at this
        omega
      · rename_i hc
        have hm : c ∈ s.data e := hl.resolve_left hc
        rw [if_pos hm]
        have h0 := inv_eraseData h hm hcl
        have hU : usum { s with binding := upd s.binding c none, data := upd s.data e ((s.data e).erase c) } + 10 ≤ usum s := by
          refine sum_drop ?_ hcu ?_
          · intro a _
            unfold val
            have hsub : ∀ e', a ∈ upd s.data e ((s.data e).erase c) e' → a ∈ s.data e' := by
              intro e' ha
              by_cases hn : e' = e
              · subst hn; rw [upd_same] at ha; exact List.mem_of_mem_erase ha
              · rw [upd_other _ _ hn] at ha; exact ha
            have h1 : (if (upd s.binding c none a).isSome then 6 else 0) ≤ (if (s.binding a).isSome then 6 else 0) := by
              by_cases hn : a = c
              · subst hn; rw [upd_same]; simp
              · rw [upd_other _ _ hn]; exact Nat.le_refl _
            have h2 : (if a ∈ upd s.data e ((s.data e).erase c) (s.home a) then 4 else 0) ≤ (if a ∈ s.data (s.home a) then 4 else 0) := by
              by_cases ha : a ∈ s.data (s.home a)
              · rw [if_pos ha]; split <;> omega
              · rw [if_neg ha, if_neg (fun h => ha (hsub _ h))]; exact Nat.le_refl _
            exact Nat.add_le_add h1 h2
          · have hh := (h.ud c e hm).2
            have hne : c ∉ (s.data e).erase c := List.Nodup.not_mem_erase (h.nd e)
            simp [val, upd_same, hb, hh, hm, hne]
        have hne : ∀ f ∈ k, f.ep ≠ some e := by
          intro f hf hep
          have := (h.cl e).2 (List.mem_filterMap.2 ⟨f, by rw [hs]; exact List.mem_cons_of_mem _ hf, hep⟩)
          rw [hcl] at this; cases this
        have hW : wsum { s with binding := upd s.binding c none, data := upd s.data e ((s.data e).erase c) } k = wsum s k :=
          wsum_congr (fun f hf => wt_upd rfl (hne f hf))
        split
        · have := pot_startEp (k := .tail c :: k) h0 hcl
          rw [wsum_cons, hW] at this
          simp only [wt] at this
          omega
        · rw [pot_endConn, hW]; omega

theorem pot_go {s : S} (h : Inv0 s) (hs0 : s.stack ≠ []) : pot (go s) < pot s := by
  have htop : ∀ {f k}, s.stack = f :: k → pot s = usum s + (wt s f + wsum s k) := by
    intro f k hs; unfold pot; rw [hs, wsum_cons]
  unfold go
  rw [if_neg (by rw [h.ub]; simp)]
  split
  · rename_i hs; exact absurd hs hs0
  · rename_i c k hs; exact pot_unbind h hs
  · rename_i c k hs; rw [pot_endConn, htop hs]; simp only [wt]; omega
  · rename_i e k hs
    rw [htop hs]
    refine Nat.lt_of_le_of_lt (Nat.le_of_eq (pot_same (s := s) rfl rfl rfl rfl)) ?_
    simp only [wsum_cons, wt]; omega
  · rename_i e k hs
    rw [htop hs]
    split
    · refine Nat.lt_of_le_of_lt (Nat.le_of_eq (pot_same (s := s) rfl rfl rfl rfl)) ?_
      simp only [wt]; omega
    · rename_i c t hd
      rw [pot_startConn, wsum_cons]
      simp only [wt, hd, List.head?_cons, if_true]
      split <;> omega
  · rename_i e c k hs
    rw [htop hs]
    have hnd := h.once
    rw [hs] at hnd
    have hne : ∀ f ∈ k, f.ep ≠ some e := by
      intro f hf hep
      exact (List.nodup_cons.1 hnd).1 (List.mem_filterMap.2 ⟨f, hf, hep⟩)
    split
    · rename_i hh
      have hm : c ∈ s.data e := List.mem_of_mem_head? hh
      obtain ⟨t, hd⟩ : ∃ t, s.data e = c :: t := by
        cases hd : s.data e with
        | nil => rw [hd] at hh; cases hh
        | cons a t => rw [hd] at hh; exact ⟨t, by rw [show a = c by simpa using hh]⟩
      have hU : usum { s with data := upd s.data e (s.data e).tail, stack := .loop e :: k } + 4 ≤ usum s := by
        refine sum_drop (c := c) ?_ (h.ud c e hm).1 ?_
        · intro a _
          unfold val
          have hsub : ∀ e', a ∈ upd s.data e (s.data e).tail e' → a ∈ s.data e' := by
            intro e' ha
            by_cases hn : e' = e
            · subst hn; rw [upd_same] at ha; exact List.mem_of_mem_tail ha
            · rw [upd_other _ _ hn] at ha; exact ha
          refine Nat.add_le_add (Nat.le_refl _) ?_
          show (if a ∈ upd s.data e (s.data e).tail (s.home a) then 4 else 0) ≤ (if a ∈ s.data (s.home a) then 4 else 0)
          by_cases ha : a ∈ s.data (s.home a)
          · rw [if_pos ha]; split <;> omega
          · rw [if_neg ha, if_neg (fun h => ha (hsub _ h))]; exact Nat.le_refl _
        · have hh' := (h.ud c e hm).2
          have hnt : c ∉ t := by have := h.nd e; rw [hd] at this; exact (List.nodup_cons.1 this).1
          simp [val, upd_same, hh', hd, hnt]
      unfold pot
      rw [wsum_cons, wsum_congr (fun f hf => wt_upd (s := s) (e := e) (l := (s.data e).tail) rfl (hne f hf))]
      simp only [wt]
      split <;> omega
    · rename_i hh
      refine Nat.lt_of_le_of_lt (Nat.le_of_eq (pot_same (s := s) rfl rfl rfl rfl)) ?_
      simp only [wsum_cons, wt, if_neg hh]; omega
  · rename_i e k hs
    rw [htop hs]
    refine Nat.lt_of_le_of_lt (Nat.le_of_eq (pot_same (s := s) rfl rfl rfl rfl)) ?_
    simp only [wt]; omega

theorem wsum_sort {s s' : S} {e : Nat} {l : List Nat} (hd : s'.data = upd s.data e l) {k : List Frame} (hon : (k.filterMap Frame.ep).Nodup) :
    wsum s' k ≤ wsum s k + 4 := by
  induction k with
  | nil => simp [wsum]
  | cons f k ih =>
    rw [wsum_cons, wsum_cons]
    by_cases hep : f.ep = some e
    · have hk : wsum s' k = wsum s k := by
        refine wsum_congr (fun g hg => wt_upd hd (fun hge => ?_))
        rw [List.filterMap_cons, hep] at hon
        exact (List.nodup_cons.1 hon).1 (List.mem_filterMap.2 ⟨g, hg, hge⟩)
      have hf : wt s' f ≤ wt s f + 4 := by
        cases f <;> simp only [wt] <;> first | omega | (split <;> split <;> omega)
      omega
    · rw [wt_upd hd hep]
      have := ih (by
        rw [List.filterMap_cons] at hon
        split at hon
        · exact hon
        · exact (List.nodup_cons.1 hon).2)
      omega

theorem pot_call {s : S} {op : Op} (h : Inv0 s) (hc : s.can op = true) (hp : polite s op = true) : pot (call s op) ≤ pot s + 10 := by
  cases op with
  | add e c force =>
    simp only [polite, Bool.and_eq_true, Bool.not_eq_true', List.contains_eq_mem, decide_eq_false_iff_not] at hp
    simp only [call]
    by_cases hcl : s.clearing e = true
    · rw [if_pos hcl]; omega
    rw [if_neg hcl]
    by_cases hbn : s.binding c ≠ none
    · rw [if_pos hbn]; omega
    rw [if_neg hbn]
    have hne : ∀ f ∈ s.stack, f.ep ≠ some e := fun f hf hep => hcl ((h.cl e).2 (List.mem_filterMap.2 ⟨f, hf, hep⟩))
    have hval : ∀ s' : S, val s' c ≤ 10 := by intro s'; unfold val; split <;> split <;> omega
    split
    · have hU : usum { s with data := upd s.data e (s.data e ++ [c]), home := upd s.home c e, binding := upd s.binding c (some e), used := c :: s.used } ≤ 10 + usum s := by
        unfold usum
        simp only [List.map_cons, List.sum_cons]
        refine Nat.add_le_add (hval _) (sum_le ?_)
        intro a ha
        have hn : a ≠ c := by rintro rfl; exact hp.1 ha
        have hm : a ∈ upd s.data e (s.data e ++ [c]) (s.home a) ↔ a ∈ s.data (s.home a) := by
          by_cases hh : s.home a = e
          · rw [hh, upd_same]; simp [hn]
          · rw [upd_other _ _ hh]
        simp [val, upd_other _ _ hn, hm]
      have hW : wsum { s with data := upd s.data e (s.data e ++ [c]), home := upd s.home c e, binding := upd s.binding c (some e), used := c :: s.used } s.stack = wsum s s.stack :=
        wsum_congr (fun f hf => wt_upd rfl (hne f hf))
      show usum { s with data := upd s.data e (s.data e ++ [c]), home := upd s.home c e, binding := upd s.binding c (some e), used := c :: s.used } +
        wsum { s with data := upd s.data e (s.data e ++ [c]), home := upd s.home c e, binding := upd s.binding c (some e), used := c :: s.used } s.stack ≤ usum s + wsum s s.stack + 10
      omega
    · have hU : usum { s with ctrl := upd s.ctrl e (some c), binding := upd s.binding c (some e), used := c :: s.used } ≤ 10 + usum s := by
        unfold usum
        simp only [List.map_cons, List.sum_cons]
        refine Nat.add_le_add (hval _) (sum_le ?_)
        intro a ha
        have hn : a ≠ c := by rintro rfl; exact hp.1 ha
        simp [val, upd_other _ _ hn]
      have hW : wsum { s with ctrl := upd s.ctrl e (some c), binding := upd s.binding c (some e), used := c :: s.used } s.stack = wsum s s.stack :=
        wsum_congr (fun f _ => wt_data rfl f)
      show usum { s with ctrl := upd s.ctrl e (some c), binding := upd s.binding c (some e), used := c :: s.used } +
        wsum { s with ctrl := upd s.ctrl e (some c), binding := upd s.binding c (some e), used := c :: s.used } s.stack ≤ usum s + wsum s s.stack + 10
      omega
  | resetConn c =>
    simp only [call]
    rw [pot_startConn]; unfold pot; split <;> omega
  | resetEp e =>
    simp only [call]
    cases hcl : s.clearing e with
    | true => unfold startEp; rw [if_pos hcl]; show pot s ≤ _; omega
    | false => have := pot_startEp (k := s.stack) h hcl; unfold pot at *; omega
  | sort e l =>
    simp only [S.can, Bool.and_eq_true] at hc
    have hpm := List.isPerm_iff.1 hc.2.2
    have hU : usum (call s (.sort e l)) = usum s := by
      show ((s.used.map (val { s with data := upd s.data e l })).sum = _)
      unfold usum
      congr 1
      apply List.map_congr_left
      intro a _
      have hm : a ∈ upd s.data e l (s.home a) ↔ a ∈ s.data (s.home a) := by
        by_cases hh : s.home a = e
        · rw [hh, upd_same]; exact hpm.mem_iff
        · rw [upd_other _ _ hh]
      simp [val, hm]
    have hW : wsum { s with data := upd s.data e l } s.stack ≤ wsum s s.stack + 4 := wsum_sort rfl h.once
    show usum (call s (.sort e l)) + wsum { s with data := upd s.data e l } s.stack ≤ usum s + wsum s s.stack + 10
    omega
  | free e =>
    simp only [S.can, Bool.and_eq_true, Bool.not_eq_true', List.any_eq_false] at hc
    have hu : ∀ f ∈ s.stack, Frame.uses e f = false := fun f hf => by simpa using hc.2.2 f hf
    have h1 := inv_pushDtor h hu
    have hcl : s.clearing e = false := by
      cases hcl : s.clearing e with
      | false => rfl
      | true =>
        obtain ⟨f, h2, h3⟩ := List.mem_filterMap.1 ((h.cl e).1 hcl)
        have h4 := hu f h2
        cases f <;> simp_all [Frame.ep, Frame.uses]
    have h2 := pot_startEp (k := .dtor e :: s.stack) h1 hcl
    have h3 : usum { s with dying := upd s.dying e true, stack := .dtor e :: s.stack } = usum s := usum_same rfl rfl rfl rfl
    have h4 : wsum { s with dying := upd s.dying e true, stack := .dtor e :: s.stack } (.dtor e :: s.stack) = 1 + wsum s s.stack := by
      rw [wsum_cons, wsum_congr (fun f _ => wt_data (s := s) rfl f)]; rfl
    have h5 : pot (call s (.free e)) ≤ usum s + (1 + wsum s s.stack) + 4 := by
      rw [h3, h4] at h2; exact h2
    unfold pot at *; omega

/-- The number of pieces of code that run in a run. -/
def work : S → List Act → Nat
  | _, [] => 0
  | s, .go :: acts => (if s.stack = [] then 0 else 1) + work (step s .go) acts
  | s, .app op :: acts => work (step s (.app op)) acts

/-- The number of calls of the application. -/
def calls (acts : List Act) : Nat := (acts.filter (fun a => a != .go)).length

theorem work_le {s : S} {acts : List Act} (h : Inv0 s) (hp : Polite s acts) : work s acts + pot (run s acts) ≤ pot s + 10 * calls acts := by
  induction acts generalizing s with
  | nil => simp [work, run, calls]
  | cons a acts ih =>
    cases a with
    | go =>
      have h1 := ih (inv_go h) hp
      have h2 : pot (go s) + (if s.stack = [] then 0 else 1) ≤ pot s := by
        by_cases hs : s.stack = []
        · rw [if_pos hs]
          have : go s = s := by unfold go; rw [hs]; simp
          rw [this]; omega
        · rw [if_neg hs]; exact pot_go h hs
      simp only [work]
      have h3 : calls (Act.go :: acts) = calls acts := by simp [calls]
      rw [h3]
      show _ + work (go s) acts + pot (run (go s) acts) ≤ _
      omega
    | app op =>
      obtain ⟨h1, h2⟩ := hp
      have h3 : Inv0 (step s (.app op)) ∧ pot (step s (.app op)) ≤ pot s + 10 := by
        simp only [step]
        cases hc : s.can op with
        | true => simp only [if_true]; exact ⟨inv_call h hc h1, pot_call h hc h1⟩
        | false => simp only [Bool.false_eq_true, if_false]; exact ⟨h, by omega⟩
      have h4 := ih h3.1 h2
      have h5 : calls (Act.app op :: acts) = calls acts + 1 := by simp [calls]
      rw [h5]
      show work (step s (.app op)) acts + pot (run (step s (.app op)) acts) ≤ _
      have := h3.2
      omega

/-! ### C75 -/

/-- What an outsider sees: how many references the endpoint has to the connection. -/
def refs (s : S) (e c : Nat) : Nat := (if s.ctrl e = some c then 1 else 0) + (s.data e).count c

/-- C75 (no dangling pointer): whatever a polite application does, in callbacks or outside of them, no endpoint is used after its
destruction. -/
theorem C75_safe_partial (acts : List Act) (hp : Polite {} acts) : (run {} acts).ub = false := (inv_run inv_init hp).ub

/-- C75 (agreement): when no call is running, a connection points to an endpoint exactly if that endpoint has one reference to the
connection, and otherwise the endpoint has none; and the endpoint exists. -/
theorem C75_binding_partial (acts : List Act) (hp : Polite {} acts) (hs : (run {} acts).stack = []) (c e : Nat) :
    ((run {} acts).binding c = some e → (run {} acts).freed e = false ∧ refs (run {} acts) e c = 1) ∧
    ((run {} acts).binding c ≠ some e → refs (run {} acts) e c = 0) := by
  have h := inv_run inv_init hp
  generalize run {} acts = s at h hs
  have hcl : s.clearing e = false := by
    cases hcl : s.clearing e with
    | false => rfl
    | true => have := (h.cl e).1 hcl; rw [hs] at this; cases this
  constructor
  · intro hb
    obtain ⟨h1, h2⟩ := h.bound c e hb
    refine ⟨h1, ?_⟩
    unfold refs
    by_cases hm : c ∈ s.data e
    · rw [if_neg (h.sep c e e hm), (h.nd e).count, if_pos hm]
    · rw [if_pos (h2.resolve_right hm), List.count_eq_zero.2 hm]
  · intro hb
    unfold refs
    rw [if_neg (fun hc => hb (h.lc c e hc hcl)), List.count_eq_zero.2 (fun hm => hb (h.ld c e hm hcl))]

/-- C75 (a connection that was reset is let go of): when no call is running, no endpoint has a reference to it, nor it to one. -/
theorem C75_down_partial (acts : List Act) (hp : Polite {} acts) (hs : (run {} acts).stack = []) (c : Nat) (hd : (run {} acts).down c = true) :
    (run {} acts).binding c = none ∧ ∀ e, refs (run {} acts) e c = 0 := by
  have h1 : (run {} acts).binding c = none := (inv_run inv_init hp).dn c (fun h => h) hd (by rw [hs]; simp)
  exact ⟨h1, fun e => (C75_binding_partial acts hp hs c e).2 (by rw [h1]; simp)⟩

/-- C75 (the loops end): the code takes at most ten steps for each call of the application, so that the loop over the data
connections ends, whatever is done in the callbacks. -/
theorem C75_ends_partial (acts : List Act) (hp : Polite {} acts) : work {} acts ≤ 10 * calls acts := by
  have := work_le inv_init hp
  have h0 : pot {} = 0 := rfl
  omega

/-- C75 is false of an application that resets the endpoint (`node::disconnect`, or a refused message) in a callback of the reset of
one of its data connections: the nested reset of the connection returns at once, its endpoint is cleared and destroyed, and the
connection still points to it.  The first reset goes on after the callback and calls a function of the destroyed endpoint. -/
theorem C75_reset_false :
    ∃ acts : List Act, (run {} acts).ub = true ∧
      acts = [.app (.add 0 10 false), .app (.add 0 11 true), .app (.resetConn 11), .app (.resetEp 0), .go, .go, .go, .go, .go, .app (.free 0), .go, .go, .go] :=
  ⟨_, by decide, rfl⟩

/-- C75 is false of an application that resets the control connection in a callback of the reset of a data connection. -/
theorem C75_ctrl_false :
    ∃ acts : List Act, (run {} acts).ub = true ∧
      acts = [.app (.add 0 10 false), .app (.add 0 11 true), .app (.resetConn 11), .app (.resetConn 10), .go, .go, .go, .go, .go, .go,
        .app (.free 0), .go, .go, .go] :=
  ⟨_, by decide, rfl⟩

/-- The same without the destruction of the endpoint in the callback: afterwards the connection points to an endpoint that has no
reference to it. -/
theorem C75_left_false :
    ∃ acts : List Act, (run {} acts).ub = false ∧ (run {} acts).stack = [.conn 11] ∧ (run {} acts).clearing 0 = false ∧
      (run {} acts).binding 11 = some 0 ∧ refs (run {} acts) 0 11 = 0 :=
  ⟨[.app (.add 0 10 false), .app (.add 0 11 true), .app (.resetConn 11), .app (.resetEp 0), .go, .go, .go, .go, .go], by decide⟩

/-! ### Examples -/

/-- Decidable form of `Polite` for the examples (plumbing). -/
instance decPolite : (s : S) → (acts : List Act) → Decidable (Polite s acts)
  | _, [] => .isTrue trivial
  | s, .go :: acts => decPolite (step s .go) acts
  | s, .app op :: acts => @instDecidableAnd _ _ (instDecidableEqBool _ _) (decPolite (step s (.app op)) acts)

/-- A polite run: in the callback of the reset of the control connection of endpoint 0, which has three data connections, the application
binds a connection to endpoint 1 and resets a data connection of endpoint 0; in the callback of the next one the list is sorted in
another order, so that one connection is reset twice; at last endpoint 0 is destroyed. -/
def demo : List Act :=
  [.app (.add 0 10 false), .app (.add 0 11 true), .app (.add 0 12 true), .app (.add 0 13 true), .app (.resetConn 10), .app (.add 1 20 false),
    .app (.resetConn 11), .go, .go, .go, .go, .app (.sort 0 [13, 12]), .go, .go, .go, .go, .go, .go, .go, .go, .go, .go, .app (.free 0), .go, .go]

example : Polite {} demo := by decide
example : (run {} demo).stack = [] ∧ (run {} demo).freed 0 = true ∧ (run {} demo).binding 20 = some 1 ∧ refs (run {} demo) 1 20 = 1 := by decide
example : (run {} demo).down 10 = true ∧ (run {} demo).down 11 = true ∧ (run {} demo).down 12 = true ∧ (run {} demo).down 20 = false := by decide
example : (run {} demo).binding 10 = none ∧ refs (run {} demo) 0 11 = 0 ∧ refs (run {} demo) 0 12 = 0 := by decide
example : work {} demo = 16 ∧ calls demo = 9 := by decide

/-- The runs of the counterexamples are not polite. -/
example : ¬ Polite {} [.app (.add 0 10 false), .app (.add 0 11 true), .app (.resetConn 11), .app (.resetEp 0)] := by decide
example : ¬ Polite {} [.app (.add 0 10 false), .app (.add 0 11 true), .app (.resetConn 11), .app (.resetConn 10)] := by decide

end Verif.Endpoint.Life
