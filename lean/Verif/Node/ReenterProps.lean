import Verif.Node.Reenter

/-!
C99: calling a node from its own callbacks.

Specification: a call is inside another one if it is above it on the stack.  A
flag must be set exactly while a call that it stands for is not finished, and
nothing may be freed that a call that is not finished goes on to use.
-/
namespace Verif.Node.Reenter

/-! ### Specification -/

def Frame.isCb : Frame → Bool | .cb _ => true | _ => false
def Frame.isUv : Frame → Bool | .uv _ => true | _ => false
def Frame.isSelf : Frame → Bool | .self _ => true | _ => false
def Frame.isReset : Frame → Bool | .reset _ => true | _ => false
def Frame.isProc : Frame → Bool | .proc _ _ => true | _ => false
def Frame.isPoll : Frame → Bool | .poll _ => true | _ => false
def Frame.isGcE : Frame → Bool | .gcE _ => true | _ => false
def Frame.isGcC : Frame → Bool | .gcC _ => true | _ => false

@[simp] theorem isCb_eq : (∀ ph l, Frame.isCb (.proc ph l) = false) ∧ (∀ ph, Frame.isCb (.poll ph) = false) ∧ (∀ r, Frame.isCb (.reset r) = false) ∧
    Frame.isCb .op = false ∧ Frame.isCb .loop = false ∧ Frame.isCb .init = false ∧
    (∀ b, Frame.isCb (.gcE b) = false) ∧ (∀ b, Frame.isCb (.gcC b) = false) ∧ (∀ b, Frame.isCb (.self b) = false) ∧
    (∀ b, Frame.isCb (.cb b) = true) ∧ (∀ b, Frame.isCb (.uv b) = false) := by
  simp [Frame.isCb]
@[simp] theorem isUv_eq : (∀ ph l, Frame.isUv (.proc ph l) = false) ∧ (∀ ph, Frame.isUv (.poll ph) = false) ∧ (∀ r, Frame.isUv (.reset r) = false) ∧
    Frame.isUv .op = false ∧ Frame.isUv .loop = false ∧ Frame.isUv .init = false ∧
    (∀ b, Frame.isUv (.gcE b) = false) ∧ (∀ b, Frame.isUv (.gcC b) = false) ∧ (∀ b, Frame.isUv (.self b) = false) ∧
    (∀ b, Frame.isUv (.cb b) = false) ∧ (∀ b, Frame.isUv (.uv b) = true) := by
  simp [Frame.isUv]
@[simp] theorem isSelf_eq : (∀ ph l, Frame.isSelf (.proc ph l) = false) ∧ (∀ ph, Frame.isSelf (.poll ph) = false) ∧ (∀ r, Frame.isSelf (.reset r) = false) ∧
    Frame.isSelf .op = false ∧ Frame.isSelf .loop = false ∧ Frame.isSelf .init = false ∧
    (∀ b, Frame.isSelf (.gcE b) = false) ∧ (∀ b, Frame.isSelf (.gcC b) = false) ∧ (∀ b, Frame.isSelf (.self b) = true) ∧
    (∀ b, Frame.isSelf (.cb b) = false) ∧ (∀ b, Frame.isSelf (.uv b) = false) := by
  simp [Frame.isSelf]
@[simp] theorem isReset_eq : (∀ ph l, Frame.isReset (.proc ph l) = false) ∧ (∀ ph, Frame.isReset (.poll ph) = false) ∧ (∀ r, Frame.isReset (.reset r) = true) ∧
    Frame.isReset .op = false ∧ Frame.isReset .loop = false ∧ Frame.isReset .init = false ∧
    (∀ b, Frame.isReset (.gcE b) = false) ∧ (∀ b, Frame.isReset (.gcC b) = false) ∧ (∀ b, Frame.isReset (.self b) = false) ∧
    (∀ b, Frame.isReset (.cb b) = false) ∧ (∀ b, Frame.isReset (.uv b) = false) := by
  simp [Frame.isReset]
@[simp] theorem isProc_eq : (∀ ph l, Frame.isProc (.proc ph l) = true) ∧ (∀ ph, Frame.isProc (.poll ph) = false) ∧ (∀ r, Frame.isProc (.reset r) = false) ∧
    Frame.isProc .op = false ∧ Frame.isProc .loop = false ∧ Frame.isProc .init = false ∧
    (∀ b, Frame.isProc (.gcE b) = false) ∧ (∀ b, Frame.isProc (.gcC b) = false) ∧ (∀ b, Frame.isProc (.self b) = false) ∧
    (∀ b, Frame.isProc (.cb b) = false) ∧ (∀ b, Frame.isProc (.uv b) = false) := by
  simp [Frame.isProc]
@[simp] theorem isPoll_eq : (∀ ph l, Frame.isPoll (.proc ph l) = false) ∧ (∀ ph, Frame.isPoll (.poll ph) = true) ∧ (∀ r, Frame.isPoll (.reset r) = false) ∧
    Frame.isPoll .op = false ∧ Frame.isPoll .loop = false ∧ Frame.isPoll .init = false ∧
    (∀ b, Frame.isPoll (.gcE b) = false) ∧ (∀ b, Frame.isPoll (.gcC b) = false) ∧ (∀ b, Frame.isPoll (.self b) = false) ∧
    (∀ b, Frame.isPoll (.cb b) = false) ∧ (∀ b, Frame.isPoll (.uv b) = false) := by
  simp [Frame.isPoll]
@[simp] theorem isGcE_eq : (∀ ph l, Frame.isGcE (.proc ph l) = false) ∧ (∀ ph, Frame.isGcE (.poll ph) = false) ∧ (∀ r, Frame.isGcE (.reset r) = false) ∧
    Frame.isGcE .op = false ∧ Frame.isGcE .loop = false ∧ Frame.isGcE .init = false ∧
    (∀ b, Frame.isGcE (.gcE b) = true) ∧ (∀ b, Frame.isGcE (.gcC b) = false) ∧ (∀ b, Frame.isGcE (.self b) = false) ∧
    (∀ b, Frame.isGcE (.cb b) = false) ∧ (∀ b, Frame.isGcE (.uv b) = false) := by
  simp [Frame.isGcE]
@[simp] theorem isGcC_eq : (∀ ph l, Frame.isGcC (.proc ph l) = false) ∧ (∀ ph, Frame.isGcC (.poll ph) = false) ∧ (∀ r, Frame.isGcC (.reset r) = false) ∧
    Frame.isGcC .op = false ∧ Frame.isGcC .loop = false ∧ Frame.isGcC .init = false ∧
    (∀ b, Frame.isGcC (.gcE b) = false) ∧ (∀ b, Frame.isGcC (.gcC b) = true) ∧ (∀ b, Frame.isGcC (.self b) = false) ∧
    (∀ b, Frame.isGcC (.cb b) = false) ∧ (∀ b, Frame.isGcC (.uv b) = false) := by
  simp [Frame.isGcC]

/-- A callback of the application is not finished. -/
def S.inside (s : S) : Bool := s.stack.any Frame.isCb

/-- In its callbacks the application calls none of `proc`, `poll`, `reset` and `init`. -/
def Polite (s : S) : List Ev → Prop
  | [] => True
  | e :: es => (e = .proc ∨ e = .poll ∨ e = .reset ∨ e = .init → s.inside = false) ∧
      ∀ s', step s e = some (.ok s') → Polite s' es

/-- No reset begins and no `init` is called inside a callback of the application. -/
def Quiet (s : S) : List Ev → Prop
  | [] => True
  | e :: es => (e = .init → s.inside = false) ∧
      ∀ s', step s e = some (.ok s') → (s.resetting = false → s'.resetting = true → s.inside = false) ∧ Quiet s' es

/-! ### Invariant -/

/-- Calls a reset may be inside of. -/
def Below (k : List Frame) : Prop := k = [] ∨ (∃ l, k = [.proc .last l]) ∨ k = [.poll .last] ∨ k = [.init]

/-- A frame fits on the calls below it. -/
def Fits (k : List Frame) : Frame → Prop
  | .cb h => h = !k.any Frame.isCb
  | .uv h => h = !k.any Frame.isUv
  | .gcE h => h = !k.any Frame.isGcE
  | .gcC h => h = !k.any Frame.isGcC
  | .self _ => k.any Frame.isSelf = false ∧ k.any Frame.isCb = false
  | .reset _ => Below k
  | .proc _ _ => atApp k = true ∧ k.any Frame.isProc = false
  | .poll _ => atApp k = true ∧ k.any Frame.isPoll = false
  | .op => atApp k = true
  | .loop => atApp k = true
  | .init => k = []

/-- Every frame fits. -/
def WF : List Frame → Prop
  | [] => True
  | f :: k => Fits k f ∧ WF k

/-- The invariant. -/
structure Inv (s : S) : Prop where
  wf : WF s.stack
  cb : s.inCb = s.stack.any Frame.isCb
  uv : s.chanCb = s.stack.any Frame.isUv
  uvc : s.stack.any Frame.isUv = true → s.chan = true
  self : s.recvSelf = s.stack.any Frame.isSelf
  busy : .self true ∈ s.stack → 1 ≤ s.selfQ
  rst : s.resetting = s.stack.any Frame.isReset
  life : ∀ l, .proc .io l ∈ s.stack → l = s.life
  gE : s.gcEp = s.stack.any Frame.isGcE
  gC : s.gcConn = s.stack.any Frame.isGcC
  prc : s.inProc = s.stack.any Frame.isProc ∨ (s.inProc = false ∧ ∃ l, s.stack = [.proc .last l])
  pol : s.inPoll = s.stack.any Frame.isPoll ∨ (s.inPoll = false ∧ s.stack = [.poll .last])

theorem inv_start : Inv {} := by
  constructor <;> simp [WF]

theorem Below.cases {k : List Frame} (h : Below k) :
    WF k ∧ k.any Frame.isCb = false ∧ k.any Frame.isUv = false ∧ k.any Frame.isSelf = false ∧
    k.any Frame.isReset = false ∧ k.any Frame.isGcE = false ∧ k.any Frame.isGcC = false ∧
    .self true ∉ k ∧ (∀ l, .proc .io l ∉ k) ∧
    (k.any Frame.isProc = false ∨ ∃ l, k = [.proc .last l]) ∧ (k.any Frame.isPoll = false ∨ k = [.poll .last]) := by
  rcases h with rfl | ⟨l, rfl⟩ | rfl | rfl <;>
    simp [WF, Fits, atApp, Frame.isCb, Frame.isUv, Frame.isSelf, Frame.isReset, Frame.isGcE, Frame.isGcC, Frame.isProc,
      Frame.isPoll]

theorem app_top {k : List Frame} (h : atApp k = true) (hc : k.any Frame.isCb = false) : k = [] := by
  match k with
  | [] => rfl
  | f :: k => cases f <;> simp [atApp, Frame.isCb] at h hc

theorem inv_tail {s : S} {ph : RPh} {k : List Frame} (h : Inv s) (hk : s.stack = .reset ph :: k) : Inv (resetTail s k) := by
  have hb : Below k := by have := h.wf; rw [hk] at this; exact this.1
  obtain ⟨b1, b2, b3, b4, b5, b6, b7, b8, b9, b10, b11⟩ := hb.cases
  refine ⟨b1, b2.symm, b3.symm, fun h => absurd h (by simp [resetTail, b3]), b4.symm, fun h => absurd h b8, b5.symm,
    fun l h => absurd h (b9 l), b6.symm, b7.symm, ?_, ?_⟩
  · rcases b10 with h | h
    · exact Or.inl h.symm
    · exact Or.inr ⟨rfl, h⟩
  · rcases b11 with h | h
    · exact Or.inl h.symm
    · exact Or.inr ⟨rfl, h⟩

/-- The flags of `proc` and `poll` are up to date: not after the reset at their end. -/
def Sharp (s : S) : Prop := s.inProc = s.stack.any Frame.isProc ∧ s.inPoll = s.stack.any Frame.isPoll

theorem sharp_of {s : S} (h : Inv s) (h1 : ∀ l, s.stack ≠ [.proc .last l]) (h2 : s.stack ≠ [.poll .last]) : Sharp s := by
  refine ⟨?_, ?_⟩
  · rcases h.prc with e | ⟨_, l, e⟩
    · exact e
    · exact absurd e (h1 l)
  · rcases h.pol with e | ⟨_, e⟩
    · exact e
    · exact absurd e h2

theorem inv_callApp {s : S} (h : Inv s) (hs : Sharp s) : Inv (callApp s) := by
  obtain ⟨a1, a2, a3, a4, a5, a6, a7, a8, a9, a10, _, _⟩ := h
  obtain ⟨s1, s2⟩ := hs
  constructor <;> simp [callApp, WF, Fits] <;> (simp_all <;> first | assumption | grind)

theorem inv_callUv {s : S} (h : Inv s) (hs : Sharp s) (hc : s.chan = true) : Inv (callUv s) := by
  obtain ⟨a1, a2, a3, a4, a5, a6, a7, a8, a9, a10, _, _⟩ := h
  obtain ⟨s1, s2⟩ := hs
  constructor <;> simp [callUv, WF, Fits] <;> (simp_all <;> first | assumption | grind)

theorem inv_callSelf {s : S} (h : Inv s) (hs : Sharp s) : Inv (callSelf s) := by
  unfold callSelf
  split
  · exact h
  next hf =>
  obtain ⟨a1, a2, a3, a4, a5, a6, a7, a8, a9, a10, _, _⟩ := h
  obtain ⟨s1, s2⟩ := hs
  constructor <;> simp [WF, Fits] <;> (simp_all <;> first | assumption | grind)

theorem inv_callReset {s : S} (h : Inv s) (hs : Sharp s) (hb : s.resetting = false → Below s.stack) : Inv (callReset s) := by
  unfold callReset
  split
  · exact h
  next hf =>
  have hb := hb (by simpa using hf)
  obtain ⟨a1, a2, a3, a4, a5, a6, a7, a8, a9, a10, _, _⟩ := h
  obtain ⟨s1, s2⟩ := hs
  constructor <;> simp [WF, Fits] <;> (simp_all <;> first | assumption | grind)

/-- The application calls something that is pushed. -/
theorem inv_push {s : S} {f : Frame} (h : Inv s) (hs : Sharp s) (hf : Fits s.stack f)
    (hk : f = .op ∨ f = .loop ∨ f = .init) : Inv { s with stack := f :: s.stack } ∧ Sharp { s with stack := f :: s.stack } := by
  obtain ⟨a1, a2, a3, a4, a5, a6, a7, a8, a9, a10, _, _⟩ := h
  obtain ⟨s1, s2⟩ := hs
  refine ⟨?_, ?_⟩
  · constructor <;> rcases hk with rfl | rfl | rfl <;>
      simp [WF] <;>
      (simp_all <;> first | assumption | grind)
  · constructor <;> rcases hk with rfl | rfl | rfl <;> simp <;> (simp_all <;> first | assumption | grind)

theorem sharp_app {s : S} (h : Inv s) (ha : atApp s.stack = true) : Sharp s := by
  refine sharp_of h (fun l e => ?_) (fun e => ?_) <;> rw [e] at ha <;> cases ha

theorem inv_appCall {s s' : S} {e : Ev} (h : Inv s) (ha : atApp s.stack = true) (hc : appCall s e = some s')
    (hi : e = .init → s.inside = false) (hq : s.resetting = false → s'.resetting = true → s.inside = false) : Inv s' := by
  have hs := sharp_app h ha
  cases e <;> simp only [appCall, Option.some.injEq, reduceCtorEq] at hc
  case proc =>
    split at hc
    · cases hc; exact h
    next hf =>
    cases hc
    obtain ⟨a1, a2, a3, a4, a5, a6, a7, a8, a9, a10, _, _⟩ := h
    obtain ⟨s1, s2⟩ := hs
    constructor <;> simp [WF, Fits] <;> (simp_all <;> first | assumption | grind)
  case poll =>
    split at hc
    · cases hc; exact h
    next hf =>
    cases hc
    obtain ⟨a1, a2, a3, a4, a5, a6, a7, a8, a9, a10, _, _⟩ := h
    obtain ⟨s1, s2⟩ := hs
    constructor <;> simp [WF, Fits] <;> (simp_all <;> first | assumption | grind)
  case reset =>
    subst hc
    refine inv_callReset h hs fun hr => ?_
    refine Or.inl (app_top ha (hq hr ?_))
    simp [callReset, hr]
  case init =>
    have hk : s.stack = [] := app_top ha (hi rfl)
    obtain ⟨p1, p2⟩ := inv_push (f := .init) h hs (by rw [hk]; rfl) (by simp)
    split at hc <;> cases hc
    · exact inv_callReset p1 p2 fun _ => by rw [hk]; exact Or.inr (Or.inr (Or.inr rfl))
    · exact p1
  case shutdown =>
    split at hc <;> cases hc
    · exact h
    · obtain ⟨p1, _⟩ := inv_push (f := .op) h hs ha (by simp)
      exact ⟨p1.1, p1.2, p1.3, p1.4, p1.5, p1.6, p1.7, p1.8, p1.9, p1.10, p1.11, p1.12⟩
  case op => cases hc; exact (inv_push (f := .op) h hs ha (by simp)).1
  case loop => cases hc; exact (inv_push (f := .loop) h hs ha (by simp)).1
  case sendSelf =>
    split at hc <;> cases hc
    · exact inv_callSelf ⟨h.1, h.2, h.3, h.4, h.5, fun _ => by simp, h.7, h.8, h.9, h.10, h.11, h.12⟩ hs
    · exact h

theorem inv_procPh {s : S} {ph ph' : Ph} {l : Nat} {k : List Frame} (h : Inv s) (hk : s.stack = .proc ph l :: k)
    (hph : ph ≠ .last) (hio : ph' ≠ .io) :
    Inv { s with stack := .proc ph' l :: k } ∧ Sharp { s with stack := .proc ph' l :: k } := by
  have hs : Sharp s := sharp_of h (fun l e => by rw [hk] at e; injection e with e; injection e with e; exact hph e)
    (fun e => by rw [hk] at e; injection e with e; cases e)
  obtain ⟨a1, a2, a3, a4, a5, a6, a7, a8, a9, a10, _, _⟩ := h
  obtain ⟨s1, s2⟩ := hs
  simp only [hk] at *
  refine ⟨?_, ?_⟩
  · constructor <;> simp [WF, Fits] at * <;> (simp_all <;> first | assumption | grind)
  · constructor <;> (simp_all <;> first | assumption | grind)

theorem inv_pollPh {s : S} {ph ph' : Ph} {k : List Frame} (h : Inv s) (hk : s.stack = .poll ph :: k)
    (hph : ph ≠ .last) : Inv { s with stack := .poll ph' :: k } ∧ Sharp { s with stack := .poll ph' :: k } := by
  have hs : Sharp s := sharp_of h (fun l e => by rw [hk] at e; injection e with e; cases e)
    (fun e => by rw [hk] at e; injection e with e; injection e with e; exact hph e)
  obtain ⟨a1, a2, a3, a4, a5, a6, a7, a8, a9, a10, _, _⟩ := h
  obtain ⟨s1, s2⟩ := hs
  simp only [hk] at *
  refine ⟨?_, ?_⟩
  · constructor <;> simp [WF, Fits] at * <;> (simp_all <;> first | assumption | grind)
  · constructor <;> (simp_all <;> first | assumption | grind)

theorem inv_gcE {s : S} (h : Inv s) (hs : Sharp s) : Inv { s with gcEp := true, stack := .gcE (!s.gcEp) :: s.stack } := by
  obtain ⟨a1, a2, a3, a4, a5, a6, a7, a8, a9, a10, _, _⟩ := h
  obtain ⟨s1, s2⟩ := hs
  constructor <;> simp [WF, Fits] <;> (simp_all <;> first | assumption | grind)

theorem inv_gcC {s : S} (h : Inv s) (hs : Sharp s) : Inv { s with gcConn := true, stack := .gcC (!s.gcConn) :: s.stack } := by
  obtain ⟨a1, a2, a3, a4, a5, a6, a7, a8, a9, a10, _, _⟩ := h
  obtain ⟨s1, s2⟩ := hs
  constructor <;> simp [WF, Fits] <;> (simp_all <;> first | assumption | grind)

/-- A call ends that holds no flag but possibly its own. -/
theorem inv_pop {s s' : S} {f : Frame} {k : List Frame} (h : Inv s) (hs : Sharp s) (hk : s.stack = f :: k)
    (hf : match f with
      | .cb b => s' = { s with inCb := if b then false else s.inCb, stack := k }
      | .gcE b => s' = { s with gcEp := if b then false else s.gcEp, stack := k }
      | .gcC b => s' = { s with gcConn := if b then false else s.gcConn, stack := k }
      | .uv b => s' = { s with chanCb := if b then false else s.chanCb, stack := k }
      | .self b => b = false ∧ s' = { s with recvSelf := false, stack := k }
      | .op => s' = { s with stack := k }
      | .loop => s' = { s with stack := k }
      | .init => s' = { s with on := true, selfQ := 0, stack := k }
      | _ => False) : Inv s' := by
  obtain ⟨a1, a2, a3, a4, a5, a6, a7, a8, a9, a10, _, _⟩ := h
  obtain ⟨s1, s2⟩ := hs
  rw [hk] at a1 a2 a3 a4 a5 a6 a7 a8 a9 a10 s1 s2
  cases f <;> simp only at hf <;> first | exact hf.elim | skip
  all_goals first | obtain ⟨rfl, rfl⟩ := hf | subst hf
  all_goals constructor <;> simp [WF, Fits] at * <;> (simp_all <;> first | assumption | grind)

theorem inv_later {s t : S} {ph ph' : Ph} {f : S → S} (hl : later s ph = some (ph', f)) (h : Inv t) (hs : Sharp t)
    (hb : t.resetting = false → (f t).resetting = true → Below t.stack) : Inv (f t) ∧ ph' ≠ .io ∧ ph ≠ .last := by
  cases ph <;> simp only [later, Option.some.injEq, Prod.mk.injEq, reduceCtorEq] at hl
  case check =>
    obtain ⟨rfl, rfl⟩ := hl
    refine ⟨?_, by simp, by simp⟩
    split
    next hd => exact inv_callReset h hs fun hr => hb hr (by simp [hd, callReset, hr])
    · exact h
  all_goals obtain ⟨rfl, rfl⟩ := hl
  all_goals refine ⟨?_, by simp, by simp⟩
  · exact inv_callSelf h hs
  · exact inv_callReset h hs fun hr => hb hr (by simp [callReset, hr])
  · exact inv_callSelf h hs
  · exact h
  · exact h

theorem later_ph {s : S} {ph ph' : Ph} {f : S → S} (hl : later s ph = some (ph', f)) :
    ph' ≠ .io ∧ ph ≠ .last ∧ ((f = callReset ∧ ph' = .last) ∨ ∀ t : S, (f t).resetting = t.resetting) := by
  have hself : ∀ t : S, (callSelf t).resetting = t.resetting := fun t => by unfold callSelf; split <;> rfl
  cases ph <;> simp only [later, Option.some.injEq, Prod.mk.injEq, reduceCtorEq] at hl
  case check =>
    obtain ⟨rfl, rfl⟩ := hl
    refine ⟨by simp, by simp, ?_⟩
    split
    · exact Or.inl ⟨rfl, rfl⟩
    · exact Or.inr fun _ => rfl
  all_goals obtain ⟨rfl, rfl⟩ := hl
  all_goals refine ⟨by simp, by simp, ?_⟩
  · exact Or.inr hself
  · exact Or.inl ⟨rfl, rfl⟩
  · exact Or.inr hself
  · exact Or.inr fun _ => rfl
  · exact Or.inr fun _ => rfl

theorem inv_same {s s' : S} (h : Inv s) (hs : Sharp s) (h1 : s'.stack = s.stack) (h2 : s'.inProc = s.inProc)
    (h3 : s'.inPoll = s.inPoll) (h4 : s'.inCb = s.inCb) (h5 : s'.recvSelf = s.recvSelf) (h6 : s'.gcEp = s.gcEp)
    (h7 : s'.gcConn = s.gcConn) (h8 : s'.resetting = s.resetting) (h9 : s'.chanCb = s.chanCb)
    (h10 : s.chan = true → s'.chan = true) (h11 : s'.life = s.life) (h12 : s.selfQ ≤ s'.selfQ) : Inv s' := by
  refine ⟨h1 ▸ h.1, by rw [h1, h4]; exact h.2, by rw [h1, h9]; exact h.3, fun x => h10 (h.4 (h1 ▸ x)),
    by rw [h1, h5]; exact h.5, fun x => Nat.le_trans (h.6 (h1 ▸ x)) h12, by rw [h1, h8]; exact h.7,
    fun l x => by rw [h11]; exact h.8 l (h1 ▸ x), by rw [h1, h6]; exact h.9, by rw [h1, h7]; exact h.10,
    Or.inl (by rw [h1, h2]; exact hs.1), Or.inl (by rw [h1, h3]; exact hs.2)⟩

/-- The phase of a reset changes. -/
theorem inv_resetPh {s s' : S} {ph ph' : RPh} {k : List Frame} (h : Inv s) (hs : Sharp s) (hk : s.stack = .reset ph :: k)
    (he : s' = { s with stack := .reset ph' :: k } ∨ s' = { s with resettingGc := true, stack := .reset ph' :: k }) : Inv s' := by
  obtain ⟨a1, a2, a3, a4, a5, a6, a7, a8, a9, a10, _, _⟩ := h
  obtain ⟨s1, s2⟩ := hs
  rw [hk] at a1 a2 a3 a4 a5 a6 a7 a8 a9 a10 s1 s2
  rcases he with rfl | rfl <;> constructor <;> simp [WF, Fits] at * <;> (simp_all <;> first | assumption | grind)

/-- `proc` or `poll` end. -/
theorem inv_end {s s' : S} {f : Frame} {k : List Frame} (h : Inv s) (hk : s.stack = f :: k)
    (hf : (∃ l, f = .proc .last l ∧ s' = { s with inProc := false, stack := k }) ∨
      (f = .poll .last ∧ s' = { s with inPoll := false, stack := k })) : Inv s' := by
  obtain ⟨a1, a2, a3, a4, a5, a6, a7, a8, a9, a10, a11, a12⟩ := h
  rw [hk] at a1 a2 a3 a4 a5 a6 a7 a8 a9 a10 a11 a12
  rcases hf with ⟨l, rfl, rfl⟩ | ⟨rfl, rfl⟩ <;> constructor <;> simp [WF, Fits] at * <;>
    first | assumption | grind | (simp_all <;> first | assumption | grind)

/-- A message to oneself is taken, or handled and removed. -/
theorem inv_take {s s' : S} {b : Bool} {k : List Frame} (h : Inv s) (hs : Sharp s) (hk : s.stack = .self b :: k)
    (hq : 1 ≤ s.selfQ) (he : s' = { s with stack := .self true :: k } ∨
      s' = { s with selfQ := s.selfQ - 1, stack := .self false :: k }) : Inv s' := by
  obtain ⟨a1, a2, a3, a4, a5, a6, a7, a8, a9, a10, _, _⟩ := h
  obtain ⟨s1, s2⟩ := hs
  rw [hk] at a1 a2 a3 a4 a5 a6 a7 a8 a9 a10 s1 s2
  have hn : Frame.self true ∉ k := fun hm => by
    have := a1.1.1
    rw [List.any_eq_false] at this
    exact this _ hm rfl
  rcases he with rfl | rfl <;> constructor <;> simp [WF, Fits] at * <;> (simp_all <;> first | assumption | grind)

theorem app_of {k : List Frame} {f : Frame} (h : WF (f :: k)) (hf : f.isProc = true ∨ f.isPoll = true) : atApp k = true := by
  cases f <;> simp at hf
  · exact h.1.1
  · exact h.1.1

/-- The invariant is preserved by every step and nothing bad happens, if no reset begins inside a callback. -/
theorem inv_step {s : S} {e : Ev} {o : Out} (h : Inv s) (ho : step s e = some o) (hi : e = .init → s.inside = false)
    (hq : ∀ s', o = .ok s' → s.resetting = false → s'.resetting = true → s.inside = false) : ∃ s', o = .ok s' ∧ Inv s' := by
  have happ : atApp s.stack = true → (appCall s e).map Out.ok = some o → ∃ s', o = .ok s' ∧ Inv s' := by
    intro ha hm
    obtain ⟨s', h1, rfl⟩ := Option.map_eq_some_iff.1 hm
    exact ⟨s', rfl, inv_appCall h ha h1 hi (hq s' rfl)⟩
  have hwf := h.wf
  unfold step at ho
  split at ho
  next hk => exact happ (by rw [hk]; rfl) ho
  next b k hk =>
    have hs : Sharp s := sharp_app h (by rw [hk]; rfl)
    split at ho
    · cases ho; exact ⟨_, rfl, inv_pop h hs hk rfl⟩
    · exact happ (by rw [hk]; rfl) ho
  next l k hk =>
    have hs : Sharp s := sharp_of h (by rw [hk]; simp) (by rw [hk]; simp)
    have hl : l = s.life := h.life l (by rw [hk]; simp)
    rw [if_neg (by simp [hl])] at ho
    split at ho <;> simp only [Option.some.injEq, reduceCtorEq] at ho
    · exact ⟨_, ho.symm, inv_callApp h hs⟩
    · exact ⟨_, ho.symm, (inv_procPh h hk (by simp) (by simp)).1⟩
  next l k hk =>
    have hs : Sharp s := sharp_of h (by rw [hk]; simp) (by rw [hk]; simp)
    split at ho <;> simp only [Option.some.injEq, reduceCtorEq] at ho
    · exact ⟨_, ho.symm, inv_callApp h hs⟩
    · exact ⟨_, ho.symm, (inv_procPh h hk (by simp) (by simp)).1⟩
  next l k hk =>
    split at ho <;> simp only [Option.some.injEq, reduceCtorEq] at ho
    exact ⟨_, ho.symm, inv_end h hk (Or.inl ⟨_, rfl, rfl⟩)⟩
  next ph l k _ _ hlast hk =>
    split at ho <;> simp only [Option.some.injEq, reduceCtorEq] at ho
    · obtain ⟨p1, p2⟩ := inv_procPh (ph' := .gcC) h hk (by simp) (by simp)
      exact ⟨_, ho.symm, inv_gcE p1 p2⟩
    · obtain ⟨p1, p2⟩ := inv_procPh (ph' := .check) h hk (by simp) (by simp)
      exact ⟨_, ho.symm, inv_gcC p1 p2⟩
    next hl =>
      obtain ⟨q1, q2, q3⟩ := later_ph hl
      obtain ⟨p1, p2⟩ := inv_procPh h hk q2 q1
      refine ⟨_, ho.symm, (inv_later hl p1 p2 fun hr hr' => ?_).1⟩
      rcases q3 with ⟨rfl, rfl⟩ | q3
      · refine Or.inr (Or.inl ⟨l, ?_⟩)
        have hin : s.inside = false := hq _ ho.symm hr hr'
        have hk0 : k = [] := by
          refine app_top (app_of (f := .proc _ l) (by rw [hk] at hwf; exact hwf) (Or.inl (by simp))) ?_
          simpa [S.inside, hk] using hin
        rw [hk0]
      · rw [q3] at hr'; rw [hr] at hr'; cases hr'
  next k hk =>
    have hs : Sharp s := sharp_of h (by rw [hk]; simp) (by rw [hk]; simp)
    split at ho
    · split at ho <;> simp only [Option.some.injEq, reduceCtorEq] at ho
      next hc => exact ⟨_, ho.symm, inv_callUv h hs hc⟩
    · simp only [Option.some.injEq] at ho
      exact ⟨_, ho.symm, (inv_pollPh h hk (by simp)).1⟩
    · cases ho
  · cases ho
  next k hk =>
    split at ho <;> simp only [Option.some.injEq, reduceCtorEq] at ho
    exact ⟨_, ho.symm, inv_end h hk (Or.inr ⟨rfl, rfl⟩)⟩
  next ph k _ _ hlast hk =>
    split at ho <;> simp only [Option.some.injEq, reduceCtorEq] at ho
    · obtain ⟨p1, p2⟩ := inv_pollPh (ph' := .gcC) h hk (by simp)
      exact ⟨_, ho.symm, inv_gcE p1 p2⟩
    · obtain ⟨p1, p2⟩ := inv_pollPh (ph' := .check) h hk (by simp)
      exact ⟨_, ho.symm, inv_gcC p1 p2⟩
    next hl =>
      obtain ⟨q1, q2, q3⟩ := later_ph hl
      obtain ⟨p1, p2⟩ := inv_pollPh h hk q2
      refine ⟨_, ho.symm, (inv_later hl p1 p2 fun hr hr' => ?_).1⟩
      rcases q3 with ⟨rfl, rfl⟩ | q3
      · refine Or.inr (Or.inr (Or.inl ?_))
        have hin : s.inside = false := hq _ ho.symm hr hr'
        have hk0 : k = [] := by
          refine app_top (app_of (f := .poll _) (by rw [hk] at hwf; exact hwf) (Or.inr (by simp))) ?_
          simpa [S.inside, hk] using hin
        rw [hk0]
      · rw [q3] at hr'; rw [hr] at hr'; cases hr'
  all_goals
    rename_i hk
    have hs : Sharp s := sharp_of h (by rw [hk]; simp) (by rw [hk]; simp)
  next b k =>
    split at ho <;> simp only [Option.some.injEq, reduceCtorEq] at ho
    · exact ⟨_, ho.symm, inv_callApp h hs⟩
    · exact ⟨_, ho.symm, inv_pop h hs hk rfl⟩
  next b k =>
    split at ho <;> simp only [Option.some.injEq, reduceCtorEq] at ho
    · exact ⟨_, ho.symm, inv_callApp h hs⟩
    · exact ⟨_, ho.symm, inv_pop h hs hk rfl⟩
  next k =>
    split at ho
    · split at ho <;> simp only [Option.some.injEq, reduceCtorEq] at ho
      exact ⟨_, ho.symm, inv_take h hs hk (by omega) (Or.inl rfl)⟩
    · simp only [Option.some.injEq] at ho
      exact ⟨_, ho.symm, inv_pop h hs hk ⟨rfl, rfl⟩⟩
    · cases ho
  next k =>
    have hb : 1 ≤ s.selfQ := h.busy (by rw [hk]; simp)
    split at ho
    · simp only [Option.some.injEq] at ho
      exact ⟨_, ho.symm, inv_callApp h hs⟩
    · rw [if_neg (by omega)] at ho
      simp only [Option.some.injEq] at ho
      exact ⟨_, ho.symm, inv_take h hs hk hb (Or.inr rfl)⟩
    · cases ho
  next b k =>
    have hc : s.chan = true := h.uvc (by rw [hk]; simp)
    split at ho
    · simp only [Option.some.injEq] at ho
      exact ⟨_, ho.symm, inv_callApp h hs⟩
    · rw [if_neg (by simp [hc])] at ho
      simp only [Option.some.injEq] at ho
      exact ⟨_, ho.symm, inv_pop h hs hk rfl⟩
    · cases ho
  next k =>
    split at ho
    · simp only [Option.some.injEq] at ho
      exact ⟨_, ho.symm, inv_callApp h hs⟩
    · split at ho
      · cases ho
      next hc =>
      simp only [Option.some.injEq] at ho
      refine ⟨_, ho.symm, inv_same h hs rfl rfl rfl rfl rfl rfl rfl rfl ?_ (fun _ => rfl) rfl (Nat.le_refl _)⟩
      have : s.chanCb = false := by
        rw [h.uv]
        cases hx : s.stack.any Frame.isUv
        · rfl
        · exact absurd (h.uvc hx) hc
      exact this.symm
    · simp only [Option.some.injEq] at ho
      exact ⟨_, ho.symm, inv_pop h hs hk rfl⟩
    · cases ho
  next k =>
    split at ho
    · split at ho <;> simp only [Option.some.injEq, reduceCtorEq] at ho
      next hc => exact ⟨_, ho.symm, inv_callUv h hs hc⟩
    · simp only [Option.some.injEq] at ho
      exact ⟨_, ho.symm, inv_pop h hs hk rfl⟩
    · cases ho
  next k =>
    split at ho <;> simp only [Option.some.injEq, reduceCtorEq] at ho
    exact ⟨_, ho.symm, inv_pop h hs hk rfl⟩
  next k =>
    split at ho <;> simp only [Option.some.injEq, reduceCtorEq] at ho
    · exact ⟨_, ho.symm, inv_callApp h hs⟩
    · exact ⟨_, ho.symm, inv_callSelf h hs⟩
    · exact ⟨_, ho.symm, inv_resetPh h hs hk (Or.inl rfl)⟩
  next k =>
    split at ho <;> simp only [Option.some.injEq, reduceCtorEq] at ho
    · exact ⟨_, ho.symm, inv_callApp h hs⟩
    · exact ⟨_, ho.symm, inv_resetPh h hs hk (Or.inr rfl)⟩
  next k =>
    split at ho <;> simp only [Option.some.injEq, reduceCtorEq] at ho
    · exact ⟨_, ho.symm, inv_callApp h hs⟩
    · exact ⟨_, ho.symm, inv_resetPh h hs hk (Or.inl rfl)⟩
  next k =>
    have hu : s.chanCb = false := by
      have hb : Below k := by have := hwf; rw [hk] at this; exact this.1
      rw [h.uv, hk]; simpa using hb.cases.2.2.1
    split at ho
    · split at ho <;> simp only [Option.some.injEq, reduceCtorEq] at ho
      next hc => exact ⟨_, ho.symm, inv_callUv h hs hc⟩
    · rw [if_neg (by simp [hu])] at ho
      simp only [Option.some.injEq] at ho
      exact ⟨_, ho.symm, inv_resetPh h hs hk (Or.inl rfl)⟩
    · cases ho
  next k =>
    split at ho
    · split at ho <;> simp only [Option.some.injEq, reduceCtorEq] at ho
      next hc => exact ⟨_, ho.symm, inv_callUv h hs hc⟩
    · simp only [Option.some.injEq] at ho
      exact ⟨_, ho.symm, inv_tail h hk⟩
    · cases ho

theorem inv_run {s : S} {es : List Ev} {o : Out} (h : Inv s) (hq : Quiet s es) (ho : run s es = some o) :
    ∃ s', o = .ok s' ∧ Inv s' := by
  induction es generalizing s with
  | nil => cases ho; exact ⟨s, rfl, h⟩
  | cons e es ih =>
    unfold run at ho
    cases hst : step s e with
    | none => rw [hst] at ho; cases ho
    | some o1 =>
      obtain ⟨s1, rfl, h1⟩ := inv_step h hst hq.1 fun s' he => (hq.2 s' (he ▸ hst)).1
      rw [hst] at ho
      exact ih h1 (hq.2 s1 hst).2 ho

/-! ### Polite applications -/

/-- No call of `proc`, `poll`, `reset` or `init` is inside a callback. -/
def Apart : List Frame → Prop
  | [] => True
  | f :: k => (f.isProc = true ∨ f.isPoll = true ∨ f.isReset = true ∨ f = .init → k.any Frame.isCb = false) ∧ Apart k

theorem callSelf_stack (s : S) : (callSelf s).stack = s.stack ∨ (callSelf s).stack = .self false :: s.stack := by
  unfold callSelf; split
  · exact Or.inl rfl
  · exact Or.inr rfl

theorem apart_callSelf {s : S} (h : Apart s.stack) : Apart (callSelf s).stack := by
  rcases callSelf_stack s with e | e <;> rw [e]
  · exact h
  · exact ⟨by simp, h⟩

theorem apart_callReset {s : S} (h : Apart s.stack) (hi : s.inside = false) : Apart (callReset s).stack := by
  unfold callReset; split
  · exact h
  · exact ⟨fun _ => hi, h⟩

theorem apart_appCall {s s' : S} {e : Ev} (h : Apart s.stack) (hc : appCall s e = some s')
    (hp : e = .proc ∨ e = .poll ∨ e = .reset ∨ e = .init → s.inside = false) : Apart s'.stack := by
  cases e <;> simp only [appCall, Option.some.injEq, reduceCtorEq] at hc
  case proc => split at hc <;> cases hc <;> first | exact h | exact ⟨fun _ => hp (by simp), h⟩
  case poll => split at hc <;> cases hc <;> first | exact h | exact ⟨fun _ => hp (by simp), h⟩
  case reset => cases hc; exact apart_callReset h (hp (by simp))
  case init =>
    have hi : s.inside = false := hp (by simp)
    have : Apart (Frame.init :: s.stack) := ⟨fun _ => hi, h⟩
    split at hc <;> cases hc
    · exact apart_callReset this (by simpa [S.inside] using hi)
    · exact this
  case shutdown => split at hc <;> cases hc <;> first | exact h | exact ⟨by simp, h⟩
  case op => cases hc; exact ⟨by simp, h⟩
  case loop => cases hc; exact ⟨by simp, h⟩
  case sendSelf =>
    split at hc <;> cases hc
    · exact apart_callSelf h
    · exact h

/-- With a polite application the stack stays so, and a reset begins outside of callbacks only. -/
theorem apart_step {s s' : S} {e : Ev} (h : Apart s.stack) (hst : step s e = some (.ok s'))
    (hp : e = .proc ∨ e = .poll ∨ e = .reset ∨ e = .init → s.inside = false) :
    Apart s'.stack ∧ (s.resetting = false → s'.resetting = true → s.inside = false) := by
  have happ : (appCall s e).map Out.ok = some (.ok s') →
      Apart s'.stack ∧ (s.resetting = false → s'.resetting = true → s.inside = false) := by
    intro hm
    obtain ⟨s1, h1, h2⟩ := Option.map_eq_some_iff.1 hm
    cases h2
    refine ⟨apart_appCall h h1 hp, fun hr hr' => ?_⟩
    by_cases he : e = .proc ∨ e = .poll ∨ e = .reset ∨ e = .init
    · exact hp he
    · exfalso
      have : s'.resetting = s.resetting := by
        cases e <;> simp only [appCall, Option.some.injEq, reduceCtorEq] at h1 <;>
          first
          | (exfalso; simp at he; done)
          | (split at h1 <;> cases h1 <;> first | rfl | (unfold callSelf; split <;> rfl))
          | (cases h1; rfl)
      rw [this, hr] at hr'; cases hr'
  have hlat : ∀ (ph ph' : Ph) (f : S → S) (t : S), later s ph = some (ph', f) → Apart t.stack → t.inside = false →
      t.resetting = s.resetting → s.inside = t.inside →
      Apart (f t).stack ∧ (s.resetting = false → (f t).resetting = true → s.inside = false) := by
    intro ph ph' f t hl ha hi _ hin
    refine ⟨?_, fun _ _ => hin.trans hi⟩
    cases ph <;> simp only [later, Option.some.injEq, Prod.mk.injEq, reduceCtorEq] at hl
    case check =>
      obtain ⟨_, rfl⟩ := hl
      split
      · exact apart_callReset ha hi
      · exact ha
    all_goals obtain ⟨_, rfl⟩ := hl
    · exact apart_callSelf ha
    · exact apart_callReset ha hi
    · exact apart_callSelf ha
    · exact ha
    · exact ha
  unfold step at hst
  split at hst
  · exact happ hst
  next b k hk =>
    split at hst
    · cases hst
      rw [hk] at h
      exact ⟨h.2, fun h1 h2 => by simp [h1] at h2⟩
    · exact happ hst
  all_goals
    rename_i hk
    rw [hk] at h
    (repeat' split at hst) <;> simp only [Option.some.injEq, Out.ok.injEq, reduceCtorEq] at hst
  all_goals
    first
    | (subst hst
       refine ⟨?_, fun h1 h2 => ?_⟩
       · first
         | exact h.2
         | (simp [Apart, callApp, callUv, hk] at h ⊢; exact h)
         | (simp [Apart, resetTail, hk] at h ⊢; exact h.2)
         | exact apart_callSelf (by rw [hk]; exact h)
       · first
         | (simp [callApp, callUv, resetTail, h1] at h2; done)
         | (unfold callSelf at h2; split at h2 <;> simp [h1] at h2; done))
    | skip
  all_goals
    rename_i hl
    subst hst
    have hc := h.1 (by simp)
    refine hlat _ _ _ _ hl (by simpa [Apart] using h) ?_ rfl ?_
    · simpa [S.inside] using hc
    · simp [S.inside, hk]

theorem polite_quiet {s : S} {es : List Ev} (h : Apart s.stack) (hp : Polite s es) : Quiet s es := by
  induction es generalizing s with
  | nil => trivial
  | cons e es ih =>
    refine ⟨fun he => hp.1 (by simp [he]), fun s' hst => ?_⟩
    obtain ⟨h1, h2⟩ := apart_step h hst hp.1
    exact ⟨h2, ih h1 (hp.2 s' hst)⟩

/-! ### The claims -/

/-- **C99**: if no reset begins inside a callback of the application, then whatever callbacks come and whatever else is
called in them, the channel of the streams is never closed inside one of its callbacks, nothing freed by a reset is used
by a call below it and no message to oneself is removed twice. -/
theorem C99_safe {es : List Ev} {o : Out} (hq : Quiet {} es) (ho : run {} es = some o) : ∃ s, o = .ok s :=
  let ⟨s, h, _⟩ := inv_run inv_start hq ho
  ⟨s, h⟩

/-- **C99**: so it is with an application that calls none of `proc`, `poll`, `reset` and `init` in its callbacks. -/
theorem C99_polite {es : List Ev} {o : Out} (hp : Polite {} es) (ho : run {} es = some o) : ∃ s, o = .ok s :=
  C99_safe (polite_quiet trivial hp) ho

/-- **C99**: the flags tell what is going on: a callback, messages to oneself being handed over, a reset, a collection, a
callback of the stream channel; and `proc` and `poll`, but for the moment after the reset at their end. -/
theorem C99_flags {es : List Ev} {s : S} (hq : Quiet {} es) (hr : run {} es = some (.ok s)) :
    (s.inCb = true ↔ ∃ f ∈ s.stack, f.isCb = true) ∧ (s.recvSelf = true ↔ ∃ f ∈ s.stack, f.isSelf = true) ∧
    (s.resetting = true ↔ ∃ f ∈ s.stack, f.isReset = true) ∧ (s.gcEp = true ↔ ∃ f ∈ s.stack, f.isGcE = true) ∧
    (s.gcConn = true ↔ ∃ f ∈ s.stack, f.isGcC = true) ∧ (s.chanCb = true ↔ ∃ f ∈ s.stack, f.isUv = true) ∧
    (s.inProc = true → ∃ f ∈ s.stack, f.isProc = true) ∧ (s.inPoll = true → ∃ f ∈ s.stack, f.isPoll = true) ∧
    ((∃ f ∈ s.stack, f.isProc = true) → s.inProc = true ∨ ∃ l, s.stack = [.proc .last l]) ∧
    ((∃ f ∈ s.stack, f.isPoll = true) → s.inPoll = true ∨ s.stack = [.poll .last]) := by
  obtain ⟨_, h, i⟩ := inv_run inv_start hq hr
  cases h
  refine ⟨?_, ?_, ?_, ?_, ?_, ?_, ?_, ?_, ?_, ?_⟩
  · rw [i.cb, List.any_eq_true]
  · rw [i.self, List.any_eq_true]
  · rw [i.rst, List.any_eq_true]
  · rw [i.gE, List.any_eq_true]
  · rw [i.gC, List.any_eq_true]
  · rw [i.uv, List.any_eq_true]
  · intro h
    rcases i.prc with e | ⟨e, _⟩
    · rwa [e, List.any_eq_true] at h
    · rw [e] at h; cases h
  · intro h
    rcases i.pol with e | ⟨e, _⟩
    · rwa [e, List.any_eq_true] at h
    · rw [e] at h; cases h
  · intro h
    rcases i.prc with e | ⟨_, e⟩
    · left; rwa [e, List.any_eq_true]
    · exact Or.inr e
  · intro h
    rcases i.pol with e | ⟨_, e⟩
    · left; rwa [e, List.any_eq_true]
    · exact Or.inr e

theorem count_le {k : List Frame} {p : Frame → Bool} (h : WF k) (hp : ∀ f k, p f = true → Fits k f → k.any p = false) :
    k.countP p ≤ 1 := by
  induction k with
  | nil => simp
  | cons f k ih =>
    by_cases hf : p f = true
    · have := hp f k hf h.1
      have h0 : k.countP p = 0 := List.countP_eq_zero.2 fun x hx => by
        rw [List.any_eq_false] at this; exact this x hx
      simp [hf, h0]
    · simpa [hf] using ih h.2

/-- **C99**: there is at most one call of `proc`, of `poll`, of `reset` and of the handing over of messages to oneself at
a time. -/
theorem C99_once {es : List Ev} {s : S} (hq : Quiet {} es) (hr : run {} es = some (.ok s)) :
    s.stack.countP Frame.isProc ≤ 1 ∧ s.stack.countP Frame.isPoll ≤ 1 ∧ s.stack.countP Frame.isReset ≤ 1 ∧
    s.stack.countP Frame.isSelf ≤ 1 := by
  obtain ⟨_, h, i⟩ := inv_run inv_start hq hr
  cases h
  refine ⟨count_le i.wf ?_, count_le i.wf ?_, count_le i.wf ?_, count_le i.wf ?_⟩ <;> intro f k hf hk <;>
    cases f <;> simp at hf
  · exact hk.2
  · exact hk.2
  · exact (Below.cases hk).2.2.2.2.1
  · exact hk.1

/-- **C99**: a message to oneself is taken outside of all callbacks only, and is still there when it was handled. -/
theorem C99_self {es : List Ev} {s : S} (hq : Quiet {} es) (hr : run {} es = some (.ok s)) :
    (∀ o, step s .take = some o → s.inside = false ∧ s.selfQ ≠ 0) ∧ (.self true ∈ s.stack → s.selfQ ≠ 0) := by
  obtain ⟨_, h, i⟩ := inv_run inv_start hq hr
  cases h
  refine ⟨fun o ho => ?_, fun h => by have := i.busy h; omega⟩
  have hk : ∃ k, s.stack = .self false :: k ∧ s.selfQ ≠ 0 := by
    unfold step at ho
    split at ho <;> simp [appCall] at ho
    · rename_i hk
      exact absurd (i.life _ (by rw [hk]; simp)) ho.1
    · rename_i hk
      exact ⟨_, hk, ho.1⟩
  obtain ⟨k, hk, hn⟩ := hk
  have hw := i.wf
  rw [hk] at hw
  exact ⟨by simpa [S.inside, hk] using hw.1.2, hn⟩

/-! ### When a reset begins inside a callback -/

/-- Streams: `poll` → callback → `shutdown`, `proc` → reset → `io_stream_close`. -/
def abortRun : List Ev :=
  [.init, .next, .op, .chan, .next, .poll, .uv, .call, .shutdown, .next, .proc, .next, .next, .next, .next, .next, .next]

/-- Memory: `proc` → callback → `shutdown`, `poll` → reset; `proc` goes on. -/
def freedRun : List Ev :=
  [.init, .next, .proc, .call, .shutdown, .next, .poll, .next, .next, .next, .next, .next, .next, .next, .next, .ret, .next]

/-- A message to oneself → callback → `shutdown`, `proc` → reset; the message is removed. -/
def popRun : List Ev :=
  [.init, .next, .sendSelf, .take, .call, .shutdown, .next, .proc, .next, .next, .next, .next, .next, .next, .next, .next,
    .ret, .next]

/-- `shutdown` outside of callbacks; `proc` → messages to oneself → callback → `poll` → reset. -/
def pollRun : List Ev :=
  [.init, .next, .op, .call, .sendSelf, .ret, .next, .shutdown, .next, .proc, .next, .take, .call, .poll, .next, .next,
    .next, .next, .next, .next, .next, .next, .ret, .next]

/-- `proc` → callback → `reset`, `init`, `proc`. -/
def twiceRun : List Ev :=
  [.init, .next, .proc, .call, .reset, .next, .next, .next, .next, .next, .init, .next, .proc]

/-- **C99**, the code: a program may call `shutdown` and then `proc` in a callback of a stream, and the process aborts. -/
theorem C99_abort_false : ¬ ∀ es o, run {} es = some o → o ≠ .bad .abort := fun h =>
  h abortRun _ (show run {} abortRun = some (.bad .abort) by decide +kernel) rfl

/-- **C99**, the code: a program may call `shutdown` and then `poll` in a callback of `proc`, and `proc` goes on with the
buffer and the table freed. -/
theorem C99_freed_false : ¬ ∀ es o, run {} es = some o → o ≠ .bad .useAfterFree := fun h =>
  h freedRun _ (show run {} freedRun = some (.bad .useAfterFree) by decide +kernel) rfl

/-- **C99**, the code: a program may call `shutdown` and `proc` while a message to oneself is handled — or only `poll`
after a shutdown — and the front of an empty list is removed. -/
theorem C99_pop_false : ¬ ∀ es o, run {} es = some o → o ≠ .bad .popEmpty := fun h =>
  h popRun _ (show run {} popRun = some (.bad .popEmpty) by decide +kernel) rfl

example : run {} pollRun = some (.bad .popEmpty) := by decide +kernel

/-- **C99**, the code: a reset in a callback clears the flag of the `proc` below it, so a second one can run inside. -/
theorem C99_once_false : ¬ ∀ es s, run {} es = some (.ok s) → s.stack.countP Frame.isProc ≤ 1 := fun h => by
  have hr : run {} twiceRun =
      some (.ok { on := true, inProc := true, life := 1, stack := [.proc .io 1, .cb true, .proc .io 0] }) := by
    decide +kernel
  have := h twiceRun _ hr
  revert this
  decide +kernel

/-! ### Examples -/

/-- Checks `Quiet` along a run. -/
def quietB (s : S) : List Ev → Bool
  | [] => true
  | e :: es => (e != .init || !s.inside) &&
    match step s e with
    | some (.ok s') => (s.resetting || !s'.resetting || !s.inside) && quietB s' es
    | _ => true

theorem quietB_iff {s : S} {es : List Ev} (h : quietB s es = true) : Quiet s es := by
  induction es generalizing s with
  | nil => trivial
  | cons e es ih =>
    simp only [quietB, Bool.and_eq_true] at h
    refine ⟨fun he => by simpa [he] using h.1, fun s' hst => ?_⟩
    have h2 := h.2
    rw [hst] at h2
    simp only [Bool.and_eq_true] at h2
    refine ⟨fun hr hr' => by simpa [hr, hr'] using h2.1, ih h2.2⟩

/-- A busy program: `proc`, a callback that sends to oneself, polls (a stream callback in it) and shuts down; `proc` hands
over the message, collects, and resets at its end. -/
def busyRun : List Ev :=
  [.init, .next, .op, .chan, .next, .proc, .call, .sendSelf, .poll, .uv, .call, .proc, .ret, .next, .next, .next, .gc, .call,
    .ret, .next, .next, .next, .next, .shutdown, .next, .ret, .next, .next, .next, .take, .call, .sendSelf, .ret, .next,
    .take, .next, .next, .next, .gc, .next, .next, .again, .next, .next, .call, .reset, .ret, .next, .next, .uv, .call,
    .ret, .next, .next, .next, .next, .init, .next]

example : Quiet {} busyRun ∧ run {} busyRun = some (.ok { on := true, life := 1 }) :=
  ⟨quietB_iff (by decide +kernel), by decide +kernel⟩

/-- In the callback inside `poll` inside the callback inside `proc`. -/
example : run {} (busyRun.take 11) = some (.ok
    { on := true, inProc := true, inPoll := true, inCb := true, chan := true, chanCb := true, selfQ := 1
      stack := [.cb false, .uv true, .poll .io, .cb true, .proc .io 0] }) := by decide +kernel

/-- The runs above are not quiet. -/
example : quietB {} abortRun = false ∧ quietB {} freedRun = false ∧ quietB {} popRun = false ∧ quietB {} pollRun = false ∧
    quietB {} twiceRun = false := by decide +kernel

end Verif.Node.Reenter
