import Verif.Node.LifeProps

/-!
C89: what the state and the flags of a node say.
-/
namespace Verif.Node.Life

/-! ### Specification -/

/-- The registration response accepts the node. -/
def Call.accepts : Call → Prop
  | .regRsp a _ _ _ => a = true
  | _ => False

/-- The call is no `init`. -/
def Call.noInit : Call → Prop
  | .init _ _ => False
  | _ => True

/-- The node has to register at a parent before it may work: it has an id and the address of a parent. -/
def S.below (s : S) : Prop := s.hasId = true ∧ s.parentAddr = true

/-! ### Invariant -/

/-- `q`: the node is not initialised inside callbacks. -/
structure Says (q : Prop) (s : S) : Prop where
  running : s.st = .running → s.actived = true
  actived : s.resetting = false → s.actived = true → s.below → s.regDone = true
  connecting : q → s.st = .connectingParent → s.below
  states : s.actived = true → s.st ≠ .created ∧ (s.resetting = false → s.st ≠ .inited)

/-- What a call leaves as it was. -/
def Frame (q : Prop) (s s' : S) : Prop := s'.resetting = s.resetting ∧ (q → s'.hasId = s.hasId ∧ s'.parentAddr = s.parentAddr)

def Holds (q : Prop) (f : S → Option S) : Prop := ∀ s s', Says q s → f s = some s' → Says q s' ∧ Frame q s s'

theorem Frame.refl (q : Prop) (s : S) : Frame q s s := ⟨rfl, fun _ => ⟨rfl, rfl⟩⟩

theorem Frame.trans {q : Prop} {a b c : S} (h1 : Frame q a b) (h2 : Frame q b c) : Frame q a c :=
  ⟨h2.1.trans h1.1, fun h => ⟨(h2.2 h).1.trans (h1.2 h).1, (h2.2 h).2.trans (h1.2 h).2⟩⟩

theorem holds_some {q : Prop} : Holds q some := by
  intro s s' hi h; cases h; exact ⟨hi, .refl q s⟩

theorem holds_bind {q : Prop} {f g : S → Option S} (hf : Holds q f) (hg : Holds q g) : Holds q (fun s => (f s).bind g) := by
  intro s s' hi h
  obtain ⟨t, ht, hs⟩ := Option.bind_eq_some_iff.mp h
  obtain ⟨h1, h2⟩ := hf s t hi ht
  obtain ⟨h3, h4⟩ := hg t s' h1 hs
  exact ⟨h3, h2.trans h4⟩

theorem holds_ite {q : Prop} {f g : S → Option S} {P : S → Prop} [∀ s, Decidable (P s)] (hf : Holds q f) (hg : Holds q g) :
    Holds q (fun s => if P s then f s else g s) := by
  intro s s' hi h
  dsimp only at h
  split at h
  · exact hf s s' hi h
  · exact hg s s' hi h

theorem holds_out {q : Prop} {hook : S → Option S} (hh : Holds q hook) : Holds q (callOut hook) :=
  fun s s' hi h => hh (s.emit .other) s' ⟨hi.1, hi.2, hi.3, hi.4⟩ h

theorem holds_shutdown {q : Prop} {hook : S → Option S} (hh : Holds q hook) : Holds q (shutdownF hook) := by
  intro s s' hi h
  unfold shutdownF at h
  split at h
  · cases h; exact ⟨hi, .refl q s⟩
  · unfold onShutdown at h
    split at h
    · exact hh ({ s with shutdown := true }.emit .down) s' ⟨hi.1, hi.2, hi.3, hi.4⟩ h
    · cases h; exact ⟨⟨hi.1, hi.2, hi.3, hi.4⟩, .refl q s⟩

theorem holds_fatal {q : Prop} {hook : S → Option S} (hh : Holds q hook) : Holds q (fatal hook) := by
  unfold fatal
  exact holds_ite holds_some (holds_bind (holds_shutdown hh) (holds_out hh))

theorem says_lost {q : Prop} {s : S} (hi : Says q s) (p : Bool) : Says q { s with parent := p, st := .lostParent } :=
  ⟨by nofun, hi.2, by nofun, fun _ => ⟨by nofun, by nofun⟩⟩

theorem holds_removeParent {q : Prop} {hook : S → Option S} (hh : Holds q hook) : Holds q (removeParent hook) := by
  unfold removeParent
  refine holds_ite (holds_bind (f := fun s => callOut hook { s with parent := false, st := .lostParent }) ?_
    (holds_ite holds_some (holds_fatal hh))) holds_some
  exact fun s s' hi h => holds_out hh { s with parent := false, st := .lostParent } s' (says_lost hi false) h

theorem holds_reset {q : Prop} {hook : S → Option S} (hh : Holds q hook) : Holds q (resetF hook) := by
  intro s s' hi h
  unfold resetF at h
  split at h
  · cases h; exact ⟨hi, .refl q s⟩
  · rename_i hr
    obtain ⟨a, ha, h⟩ := Option.bind_eq_some_iff.mp h
    obtain ⟨b, hb, h⟩ := Option.bind_eq_some_iff.mp h
    obtain ⟨e, he, h⟩ := Option.bind_eq_some_iff.mp h
    cases h
    have hi' : Says q ({ s with resetting := true }.emit (.resetBegins (s.actived && !s.shutdown))) :=
      ⟨hi.1, fun h => (by cases h), hi.3, fun h => ⟨(hi.4 h).1, fun h => (by cases h)⟩⟩
    obtain ⟨i1, f1⟩ := holds_out hh _ a hi' ha
    obtain ⟨i2, f2⟩ := holds_removeParent hh a b i1 hb
    obtain ⟨i3, f3⟩ := holds_out hh b e i2 he
    have f := (f1.trans f2).trans f3
    refine ⟨⟨by nofun, by nofun, by nofun, by nofun⟩, ?_, f.2⟩
    show false = s.resetting
    simpa using hr

theorem holds_onActived {q : Prop} {hook : S → Option S} (hh : Holds q hook) (s s' : S) (hi : Says q s)
    (hp : s.resetting = false → s.below → s.regDone = true) (h : onActived hook s = some s') : Says q s' ∧ Frame q s s' := by
  unfold onActived at h
  split at h
  · rename_i ha
    cases h
    exact ⟨⟨fun _ => ha, hi.2, by nofun, fun _ => ⟨by nofun, by nofun⟩⟩, .refl q s⟩
  · exact hh ({ s with st := .running, actived := true }.emit (.up (s.shutdown || s.resetting))) s' ⟨fun _ => rfl, fun hr _ hb => hp hr hb, by nofun, fun _ => ⟨by nofun, by nofun⟩⟩ h

theorem reset_actived (hook : S → Option S) (s s' : S) (hr : s.resetting = false) (h : resetF hook s = some s') : s'.actived = false := by
  unfold resetF at h
  rw [if_neg (by rw [hr]; decide)] at h
  obtain ⟨a, ha, h⟩ := Option.bind_eq_some_iff.mp h
  obtain ⟨b, hb, h⟩ := Option.bind_eq_some_iff.mp h
  obtain ⟨e, he, h⟩ := Option.bind_eq_some_iff.mp h
  cases h
  rfl

theorem holds_init {q : Prop} {hook : S → Option S} (hh : Holds q hook) (i p : Bool) (s s' : S) (hi : Says q s)
    (h : initF hook i p s = some s') : Says q s' ∧ s'.resetting = s.resetting := by
  obtain ⟨t, ht, h⟩ := Option.bind_eq_some_iff.mp h
  cases h
  have key : t.resetting = s.resetting ∧ (s.resetting = false → t.actived = false) ∧ (t.actived = true → s.actived = true) := by
    split at ht
    · rename_i hcr
      cases ht
      refine ⟨rfl, fun _ => ?_, id⟩
      cases ha : s.actived with
      | false => rfl
      | true => exact absurd hcr (hi.states ha).1
    · refine ⟨(holds_reset hh s t hi ht).2.1, fun hr => reset_actived hook s t hr ht, fun ha => ?_⟩
      cases hr : s.resetting with
      | false => rw [reset_actived hook s t hr ht] at ha; cases ha
      | true =>
        unfold resetF at ht
        rw [if_pos hr] at ht
        cases ht
        exact ha
  obtain ⟨k1, k2, k3⟩ := key
  refine ⟨⟨by nofun, ?_, by nofun, ?_⟩, k1⟩
  · intro hr ha _
    have ha : t.actived = true := ha
    rw [k2 (k1 ▸ hr)] at ha
    cases ha
  · intro ha
    refine ⟨by nofun, fun hr => ?_⟩
    have ha : t.actived = true := ha
    rw [k2 (k1 ▸ hr)] at ha
    cases ha

theorem holds_call {q : Prop} {hook : S → Option S} (hh : Holds q hook) (c : Call) (hc : q → c.noInit) : Holds q (fun s => callF hook s c) := by
  have hout := holds_out hh
  have hres := holds_reset hh
  cases c with
  | init i p =>
    by_cases hq : q
    · exact (hc hq).elim
    · intro s s' hi h
      exact holds_init hh i p s s' hi h |>.imp_right fun f => ⟨f, fun h => absurd h hq⟩
  | start ok =>
    intro s s' hi h
    have h : startF hook ok s = some s' := h
    unfold startF at h
    split at h
    · cases h; exact ⟨hi, .refl q s⟩
    · split at h
      · rename_i hb
        split at h
        · cases h; exact ⟨hi, .refl q s⟩
        · obtain ⟨t, ht, h⟩ := Option.bind_eq_some_iff.mp h
          cases h
          obtain ⟨i1, f1⟩ := hout s t hi ht
          have hb' : q → t.below := fun hq => by
            unfold S.below
            rw [(f1.2 hq).1, (f1.2 hq).2]
            simpa using hb
          refine ⟨⟨?_, i1.2, fun hq _ => hb' hq, ?_⟩, f1⟩
          · intro hst
            cases ok <;> cases hst
          · intro _
            cases ok
            · exact ⟨by nofun, by nofun⟩
            · exact ⟨by nofun, by nofun⟩
      · rename_i hb
        exact holds_onActived hh s s' hi (fun _ hb' => absurd (by rw [hb'.1, hb'.2]; rfl) hb) h
  | shutdown => exact holds_shutdown hh
  | reset => exact hres
  | proc r =>
    intro s s' hi h
    have h : procF hook r s = some s' := h
    unfold procF at h
    split at h
    · cases h; exact ⟨hi, .refl q s⟩
    · obtain ⟨t, ht, rfl⟩ := Option.map_eq_some_iff.mp h
      have hrec : Holds q (reconnectF hook r) := by
        intro s s' hi h
        unfold reconnectF at h
        split at h
        · rename_i hb
          obtain ⟨t, ht, h⟩ := Option.bind_eq_some_iff.mp h
          cases h
          obtain ⟨i1, f1⟩ := hout s t hi ht
          have hb' : q → t.below := fun hq => by
            unfold S.below
            rw [(f1.2 hq).1, (f1.2 hq).2]
            simp only [Bool.and_eq_true] at hb
            exact hb.1.1
          exact ⟨⟨by nofun, i1.2, fun hq _ => hb' hq, fun _ => ⟨by nofun, by nofun⟩⟩, f1⟩
        · cases h; exact ⟨hi, .refl q s⟩
      have hbody : Holds q (procBody hook r) := by
        unfold procBody
        exact holds_ite holds_some (holds_ite (holds_bind hout hres) (holds_bind hout (holds_bind hrec
          (holds_bind hout (holds_ite hres holds_some)))))
      obtain ⟨i1, f1⟩ := hbody { s with inProc := true } t ⟨hi.1, hi.2, hi.3, hi.4⟩ ht
      exact ⟨⟨i1.1, i1.2, i1.3, i1.4⟩, f1⟩
  | poll =>
    intro s s' hi h
    have h : pollF hook s = some s' := h
    unfold pollF at h
    split at h
    · cases h; exact ⟨hi, .refl q s⟩
    · obtain ⟨t, ht, rfl⟩ := Option.map_eq_some_iff.mp h
      have hbody : Holds q (pollBody hook) := by
        unfold pollBody
        exact holds_ite (holds_bind hout hres) (holds_bind hout (holds_ite hres holds_some))
      obtain ⟨i1, f1⟩ := hbody { s with inPoll := true } t ⟨hi.1, hi.2, hi.3, hi.4⟩ ht
      exact ⟨⟨i1.1, i1.2, i1.3, i1.4⟩, f1⟩
  | addParent =>
    show Holds q (addParentF hook)
    unfold addParentF
    refine holds_ite holds_some (holds_ite holds_some (holds_bind (f := fun s =>
      if (s.st = .lostParent ∨ s.st = .connectingParent) ∧ s.regDone = true then onActived hook { s with parent := true }
      else some { s with parent := true }) ?_ hout))
    intro s s' hi h
    dsimp only at h
    split at h
    · rename_i hb
      exact holds_onActived hh { s with parent := true } s' ⟨hi.1, hi.2, hi.3, hi.4⟩ (fun _ _ => hb.2) h
    · cases h; exact ⟨⟨hi.1, hi.2, hi.3, hi.4⟩, .refl q s⟩
  | removeParent => exact holds_removeParent hh
  | disconnectParent =>
    show Holds q (disconnectParentF hook)
    unfold disconnectParentF
    refine holds_ite (holds_bind (f := fun s => callOut hook { s with parent := false }) ?_ hout) holds_some
    exact fun s s' hi h => hout { s with parent := false } s' ⟨hi.1, hi.2, hi.3, hi.4⟩ h
  | connectionLost =>
    intro s s' hi h
    have h : connectionLostF hook s = some s' := h
    unfold connectionLostF at h
    split at h
    · split at h
      · cases h; exact ⟨says_lost hi s.parent, .refl q s⟩
      · exact holds_fatal hh { s with st := .lostParent } s' (says_lost hi s.parent) h
    · cases h; exact ⟨hi, .refl q s⟩
  | regRsp a o f c =>
    show Holds q (regRspF hook a o f c)
    unfold regRspF
    refine holds_bind hout (holds_ite (P := fun _ => a = true) ?_ (holds_bind (f := fun s =>
      if o && !s.actived then fatal hook s else callOut hook s) (holds_ite (holds_fatal hh) hout) hout))
    intro s s' hi h
    unfold regAccepted at h
    split at h
    · split at h
      · exact holds_onActived hh { s with regDone := true } s' ⟨hi.1, fun _ _ _ => rfl, hi.3, hi.4⟩ (fun _ _ => rfl) h
      · split at h
        · cases h; exact ⟨⟨hi.1, fun _ _ _ => rfl, hi.3, hi.4⟩, .refl q s⟩
        · cases h; exact ⟨hi, .refl q s⟩
    · cases h; exact ⟨hi, .refl q s⟩
  | regConflict =>
    show Holds q (regConflictF hook)
    unfold regConflictF
    exact holds_bind (f := fun s => if s.st = .connectingParent then fatal hook s else some s)
      (holds_ite (holds_fatal hh) holds_some) hout

theorem holds_calls {q : Prop} {f : S → Call → Option S} (hf : ∀ c, (q → c.noInit) → Holds q fun s => f s c) : ∀ cs,
    (∀ c ∈ cs, q → c.noInit) → Holds q fun s => calls f s cs
  | [], _ => holds_some
  | c :: cs, h => holds_bind (hf c (h c (by simp))) (holds_calls hf cs fun x hx => h x (by simp [hx]))

theorem holds_exec {q : Prop} (cb : List Ev → List Call) (hcb : ∀ l, ∀ c ∈ cb l, q → c.noInit) : ∀ d c, (q → c.noInit) →
    Holds q fun s => exec cb d s c
  | 0, _, _ => by intro s s' _ h; cases h
  | d + 1, c, hc => holds_call (hook := fun s => calls (exec cb d) s (cb s.log))
      (fun s s' hi h => holds_calls (holds_exec cb hcb d) (cb s.log) (hcb s.log) s s' hi h) c hc

/-- Calls from outside: all of them, also `init`. -/
theorem says_run {q : Prop} (cb : List Ev → List Call) (hcb : ∀ l, ∀ c ∈ cb l, q → c.noInit) (d : Nat) (cs : List Call) : ∀ (s s' : S), Says q s →
    s.resetting = false → calls (exec cb d) s cs = some s' → Says q s' ∧ s'.resetting = false := by
  induction cs with
  | nil => intro s s' hi hr h; cases h; exact ⟨hi, hr⟩
  | cons c cs ih =>
    intro s s' hi hr h
    obtain ⟨t, ht, h⟩ := Option.bind_eq_some_iff.mp h
    suffices h1 : Says q t ∧ t.resetting = s.resetting from ih t s' h1.1 (h1.2.trans hr) h
    by_cases hc : c.noInit
    · obtain ⟨h1, h2⟩ := holds_exec cb hcb d c (fun _ => hc) s t hi ht
      exact ⟨h1, h2.1⟩
    · cases c with
      | init i p =>
        cases d with
        | zero => cases ht
        | succ d =>
          exact holds_init (hook := fun s => calls (exec cb d) s (cb s.log))
            (fun s s' hi h => holds_calls (holds_exec cb hcb d) (cb s.log) (hcb s.log) s s' hi h) i p s t hi ht
      | _ => exact absurd trivial hc

theorem says_init (q : Prop) : Says q {} :=
  ⟨by nofun, fun _ h => (by cases h), fun _ h => (by cases h), fun h => (by cases h)⟩

/-! ### Without an accepted registration -/

/-- The flag PARENT_REG_DONE stays as it is or is cleared. -/
def Unreg (f : S → Option S) : Prop := ∀ s s', s.regDone = false → f s = some s' → s'.regDone = false

theorem unreg_some : Unreg some := by intro s s' hi h; cases h; exact hi

theorem unreg_bind {f g : S → Option S} (hf : Unreg f) (hg : Unreg g) : Unreg (fun s => (f s).bind g) := by
  intro s s' hi h
  obtain ⟨t, ht, hs⟩ := Option.bind_eq_some_iff.mp h
  exact hg t s' (hf s t hi ht) hs

theorem unreg_ite {f g : S → Option S} {P : S → Prop} [∀ s, Decidable (P s)] (hf : Unreg f) (hg : Unreg g) :
    Unreg (fun s => if P s then f s else g s) := by
  intro s s' hi h
  dsimp only at h
  split at h
  · exact hf s s' hi h
  · exact hg s s' hi h

theorem unreg_pre {f : S → Option S} (k : S → S) (hf : Unreg f) (hk : ∀ s, (k s).regDone = s.regDone) : Unreg (fun s => f (k s)) :=
  fun s s' hi h => hf _ s' ((hk s).trans hi) h

theorem unreg_map {f : S → Option S} (k : S → S) (hf : Unreg f) (hk : ∀ s, (k s).regDone = s.regDone) : Unreg (fun s => (f s).map k) := by
  intro s s' hi h
  obtain ⟨t, ht, rfl⟩ := Option.map_eq_some_iff.mp h
  exact (hk t).trans (hf s t hi ht)

theorem unreg_call {hook : S → Option S} (hh : Unreg hook) (c : Call) (hc : ¬ c.accepts) : Unreg (fun s => callF hook s c) := by
  have hout : Unreg (callOut hook) := unreg_pre (fun s => s.emit .other) hh fun _ => rfl
  have hset : ∀ st : St, Unreg (fun s => some { s with st := st }) := fun st => unreg_pre _ unreg_some fun _ => rfl
  have hshut : Unreg (shutdownF hook) := by
    unfold shutdownF onShutdown
    refine unreg_ite unreg_some (unreg_pre (f := fun s => if s.actived then hook (s.emit .down) else some s) _ ?_ fun _ => rfl)
    exact unreg_ite (unreg_pre (fun s => s.emit .down) hh fun _ => rfl) unreg_some
  have hfat : Unreg (fatal hook) := by
    unfold fatal
    exact unreg_ite unreg_some (unreg_bind hshut hout)
  have hrem : Unreg (removeParent hook) := by
    unfold removeParent
    exact unreg_ite (unreg_bind (f := fun s => callOut hook { s with parent := false, st := .lostParent })
      (unreg_pre _ hout fun _ => rfl) (unreg_ite unreg_some hfat)) unreg_some
  have hres : Unreg (resetF hook) := by
    intro s s' hi h
    unfold resetF at h
    split at h
    · cases h; exact hi
    · obtain ⟨a, ha, h⟩ := Option.bind_eq_some_iff.mp h
      obtain ⟨b, hb, h⟩ := Option.bind_eq_some_iff.mp h
      obtain ⟨e, he, h⟩ := Option.bind_eq_some_iff.mp h
      cases h
      rfl
  have hup : Unreg (onActived hook) := by
    unfold onActived
    exact unreg_ite (hset _) (unreg_pre (fun s => { s with st := .running, actived := true }.emit (.up (s.shutdown || s.resetting))) hh fun _ => rfl)
  cases c with
  | init i p =>
    show Unreg (initF hook i p)
    unfold initF
    exact unreg_bind (f := fun s => if s.st = .created then some s else resetF hook s) (unreg_ite unreg_some hres)
      (unreg_pre _ unreg_some fun _ => rfl)
  | start ok =>
    show Unreg (startF hook ok)
    unfold startF
    exact unreg_ite unreg_some (unreg_ite (unreg_ite unreg_some (unreg_bind hout (hset _))) hup)
  | shutdown => exact hshut
  | reset => exact hres
  | proc r =>
    show Unreg (procF hook r)
    unfold procF
    refine unreg_ite unreg_some (unreg_map (f := fun s => procBody hook r { s with inProc := true }) _ (unreg_pre _ ?_ fun _ => rfl) fun _ => rfl)
    unfold procBody
    refine unreg_ite unreg_some (unreg_ite (unreg_bind hout hres) (unreg_bind hout (unreg_bind ?_
      (unreg_bind hout (unreg_ite hres unreg_some)))))
    unfold reconnectF
    exact unreg_ite (unreg_bind hout (hset _)) unreg_some
  | poll =>
    show Unreg (pollF hook)
    unfold pollF
    refine unreg_ite unreg_some (unreg_map (f := fun s => pollBody hook { s with inPoll := true }) _ (unreg_pre _ ?_ fun _ => rfl) fun _ => rfl)
    unfold pollBody
    exact unreg_ite (unreg_bind hout hres) (unreg_bind hout (unreg_ite hres unreg_some))
  | addParent =>
    show Unreg (addParentF hook)
    unfold addParentF
    refine unreg_ite unreg_some (unreg_ite unreg_some (unreg_bind (f := fun s =>
      if (s.st = .lostParent ∨ s.st = .connectingParent) ∧ s.regDone = true then onActived hook { s with parent := true }
      else some { s with parent := true }) (unreg_ite (unreg_pre _ hup fun _ => rfl) (unreg_pre _ unreg_some fun _ => rfl)) hout))
  | removeParent => exact hrem
  | disconnectParent =>
    show Unreg (disconnectParentF hook)
    unfold disconnectParentF
    exact unreg_ite (unreg_bind (f := fun s => callOut hook { s with parent := false }) (unreg_pre _ hout fun _ => rfl) hout) unreg_some
  | connectionLost =>
    show Unreg (connectionLostF hook)
    unfold connectionLostF
    exact unreg_ite (unreg_ite (hset _) (unreg_pre _ hfat fun _ => rfl)) unreg_some
  | regRsp a o f c =>
    have ha : a = false := by simpa [Call.accepts] using hc
    subst ha
    show Unreg (regRspF hook false o f c)
    unfold regRspF
    exact unreg_bind hout (unreg_bind (f := fun s =>
      if o && !s.actived then fatal hook s else callOut hook s) (unreg_ite hfat hout) hout)
  | regConflict =>
    show Unreg (regConflictF hook)
    unfold regConflictF
    exact unreg_bind (f := fun s => if s.st = .connectingParent then fatal hook s else some s) (unreg_ite hfat unreg_some) hout

theorem unreg_calls {f : S → Call → Option S} (hf : ∀ c, ¬ c.accepts → Unreg fun s => f s c) : ∀ cs, (∀ c ∈ cs, ¬ c.accepts) →
    Unreg fun s => calls f s cs
  | [], _ => unreg_some
  | c :: cs, h => unreg_bind (hf c (h c (by simp))) (unreg_calls hf cs fun x hx => h x (by simp [hx]))

theorem unreg_exec (cb : List Ev → List Call) (hcb : ∀ l, ∀ c ∈ cb l, ¬ c.accepts) : ∀ d c, ¬ c.accepts → Unreg fun s => exec cb d s c
  | 0, _, _ => by intro s s' _ h; cases h
  | d + 1, c, hc => unreg_call (hook := fun s => calls (exec cb d) s (cb s.log))
      (fun s s' hi h => unreg_calls (unreg_exec cb hcb d) (cb s.log) (hcb s.log) s s' hi h) c hc

/-! ### C89 -/

/-- C89 (states): whatever the application, the network and the timers do, also inside callbacks, after each call a node in the state RUNNING is
active, and an active node is in one of the states RUNNING, LOST_PARENT and CONNECTING_PARENT. -/
theorem C89_states (cb : List Ev → List Call) (d : Nat) (cs : List Call) (s : S) (h : run cb d cs = some s) :
    (s.st = .running → s.actived = true) ∧ (s.actived = true → s.st = .running ∨ s.st = .lostParent ∨ s.st = .connectingParent) := by
  obtain ⟨hi, hr⟩ := says_run (q := False) cb (fun _ _ _ h => h.elim) d cs {} s (says_init _) rfl h
  refine ⟨hi.running, fun ha => ?_⟩
  obtain ⟨h1, h2⟩ := hi.states ha
  cases hs : s.st with
  | created => exact absurd hs h1
  | inited => exact absurd hs (h2 hr)
  | running => exact .inl rfl
  | lostParent => exact .inr (.inl rfl)
  | connectingParent => exact .inr (.inr rfl)

/-- C89 (registration): a node with an id and the address of a parent is active only after a parent accepted it: the flag is set, and
that takes a registration response that accepts the node. -/
theorem C89_registered (cb : List Ev → List Call) (d : Nat) (cs : List Call) (s : S) (h : run cb d cs = some s) (ha : s.actived = true) (hb : s.below) :
    s.regDone = true ∧ ((∃ c ∈ cs, c.accepts) ∨ ∃ l, ∃ c ∈ cb l, c.accepts) := by
  obtain ⟨hi, hr⟩ := says_run (q := False) cb (fun _ _ _ h => h.elim) d cs {} s (says_init _) rfl h
  have hreg := hi.actived hr ha hb
  refine ⟨hreg, Classical.byContradiction fun hn => ?_⟩
  have h1 : ∀ c ∈ cs, ¬ c.accepts := fun c hc hh => hn (.inl ⟨c, hc, hh⟩)
  have h2 : ∀ l, ∀ c ∈ cb l, ¬ c.accepts := fun l c hc hh => hn (.inr ⟨l, c, hc, hh⟩)
  have := unreg_calls (unreg_exec cb h2 d) cs h1 {} s rfl h
  rw [this] at hreg
  cases hreg

/-- Calls that do not tell the node to stop, to begin again or to look for a parent. -/
def Call.peaceful : Call → Bool
  | .addParent | .disconnectParent | .connectionLost | .regRsp .. | .regConflict | .poll => true
  | .proc reconnect => !reconnect
  | _ => false

/-- The node is RUNNING and active and was not told to stop. -/
def S.works (s : S) : Prop := s.st = .running ∧ s.actived = true ∧ s.shutdown = false

def Works (f : S → Option S) : Prop := ∀ s s', s.works → f s = some s' → s'.works

theorem works_some : Works some := by intro s s' h e; cases e; exact h

theorem works_bind {f g : S → Option S} (hf : Works f) (hg : Works g) : Works (fun s => (f s).bind g) := by
  intro s s' h e
  obtain ⟨t, h1, h2⟩ := Option.bind_eq_some_iff.1 e
  exact hg t s' (hf s t h h1) h2

theorem works_call {hook : S → Option S} (hh : Works hook) (c : Call) (hc : c.peaceful = true) : Works (fun s => callF hook s c) := by
  have ho : Works (callOut hook) := fun s s' h e => hh (s.emit .other) s' h e
  cases c <;> simp only [Call.peaceful, Bool.false_eq_true, Bool.not_eq_true'] at hc
  case proc r =>
    subst hc
    intro s s' h e
    simp only [callF, procF] at e
    split at e
    · cases e; exact h
    · obtain ⟨t, h1, rfl⟩ := Option.map_eq_some_iff.1 e
      suffices t.works from this
      have h0 : S.works { s with inProc := true } := h
      generalize ({ s with inProc := true } : S) = s at h1 h0
      simp only [procBody, h0.1, h0.2.2, reduceCtorEq, if_false, Bool.false_eq_true] at h1
      obtain ⟨a, h2, h3⟩ := Option.bind_eq_some_iff.1 h1
      have ha := ho s a h0 h2
      simp only [reconnectF, Bool.and_false, Bool.false_and, Bool.false_eq_true, if_false, Option.bind_some] at h3
      obtain ⟨b, h4, h5⟩ := Option.bind_eq_some_iff.1 h3
      have hb := ho a b ha h4
      rw [if_neg (by rw [hb.2.2]; decide)] at h5
      cases h5; exact hb
  case poll =>
    intro s s' h e
    simp only [callF, pollF] at e
    split at e
    · cases e; exact h
    · obtain ⟨t, h1, rfl⟩ := Option.map_eq_some_iff.1 e
      suffices t.works from this
      have h0 : S.works { s with inPoll := true } := h
      generalize ({ s with inPoll := true } : S) = s at h1 h0
      simp only [pollBody, h0.2.2, Bool.false_eq_true, if_false] at h1
      obtain ⟨a, h2, h3⟩ := Option.bind_eq_some_iff.1 h1
      have ha := ho s a h0 h2
      rw [if_neg (by rw [ha.2.2]; decide)] at h3
      cases h3; exact ha
  case addParent =>
    intro s s' h e
    simp only [callF, addParentF] at e
    split at e
    · cases e; exact h
    · split at e
      · cases e; exact h
      · rw [if_neg (by rw [h.1]; simp)] at e
        exact ho { s with parent := true } s' h e
  case disconnectParent =>
    intro s s' h e
    simp only [callF, disconnectParentF] at e
    split at e
    · exact works_bind ho ho { s with parent := false } s' h e
    · cases e; exact h
  case connectionLost =>
    intro s s' h e
    simp only [callF, connectionLostF, h.1, reduceCtorEq, false_and, if_false] at e
    cases e; exact h
  case regRsp a o f c =>
    intro s s' h e
    simp only [callF, regRspF] at e
    refine works_bind ho (fun s s' h e => ?_) s s' h e
    split at e
    · simp only [regAccepted, h.1, reduceCtorEq, if_false] at e
      cases e; exact h
    · rw [if_neg (by rw [h.2.1]; simp)] at e
      exact works_bind ho ho s s' h e
  case regConflict =>
    intro s s' h e
    simp only [callF, regConflictF, h.1, reduceCtorEq, if_false, Option.bind_some] at e
    exact ho s s' h e

theorem works_calls {f : S → Call → Option S} (hf : ∀ c, c.peaceful = true → Works fun s => f s c) : ∀ cs, (∀ c ∈ cs, c.peaceful = true) →
    Works fun s => calls f s cs
  | [], _ => works_some
  | c :: cs, h => works_bind (hf c (h c List.mem_cons_self)) (works_calls hf cs fun c' hc' => h c' (List.mem_cons_of_mem _ hc'))

theorem works_exec (cb : List Ev → List Call) (hcb : ∀ l, ∀ c ∈ cb l, c.peaceful = true) : ∀ d c, c.peaceful = true → Works fun s => exec cb d s c
  | 0, _, _ => by intro s s' _ h; cases h
  | d + 1, c, hc => works_call (hook := fun s => calls (exec cb d) s (cb s.log))
      (fun s s' hi h => works_calls (works_exec cb hcb d) (cb s.log) (hcb s.log) s s' hi h) c hc

/-- C89 (kept): a node that is RUNNING stays so whatever other nodes do: lost connections, refused and accepted registrations, conflicts, and
endpoints that come, until the application, a timer or the loss of its parent's endpoint says otherwise. -/
theorem C89_kept (cb : List Ev → List Call) (hcb : ∀ l, ∀ c ∈ cb l, c.peaceful = true) (d : Nat) (cs : List Call) (hcs : ∀ c ∈ cs, c.peaceful = true)
    (s s' : S) (hr : s.st = .running) (ha : s.actived = true) (hs : s.shutdown = false) (h : calls (exec cb d) s cs = some s') :
    s'.st = .running ∧ s'.actived = true ∧ s'.shutdown = false :=
  works_calls (works_exec cb hcb d) cs hcs s s' ⟨hr, ha, hs⟩ h

example : (run (fun _ => []) 4 ([.init true true, .start true, .addParent, .regRsp true true true true] ++
      [.connectionLost, .regRsp false true false false, .regConflict, .proc false, .poll, .disconnectParent])).map
        (fun s => (s.st, s.actived, s.shutdown, s.parent)) = some (.running, true, false, false) ∧
    ∀ c ∈ [Call.connectionLost, .regRsp false true false false, .regConflict, .proc false, .poll, .disconnectParent], c.peaceful = true :=
  ⟨rfl, by decide⟩

/-- C89 (connecting): if the node is not initialised inside callbacks, it waits for a parent only if it has an id and the address of one.
Missing: `init` inside callbacks, see `C89_connecting_false`. -/
theorem C89_connecting_partial (cb : List Ev → List Call) (hcb : ∀ l, ∀ c ∈ cb l, c.noInit) (d : Nat) (cs : List Call) (s : S)
    (h : run cb d cs = some s) (hs : s.st = .connectingParent) : s.below :=
  (says_run (q := True) cb (fun l c hc _ => hcb l c hc) d cs {} s (says_init _) rfl h).1.connecting trivial hs

/-- C89 (connecting) is false with `init` inside a callback of `start`: the node waits for a parent that it does not have. -/
theorem C89_connecting_false : ∃ (cb : List Ev → List Call) (cs : List Call) (s : S), run cb 4 cs = some s ∧ s.st = .connectingParent ∧ ¬ s.below :=
  ⟨fun l => if l = [.other] then [.init true false] else [], [.init true true, .start true], _, rfl, rfl, by simp [S.below]⟩

/-- C89 (again): a node that lost its parent is RUNNING again as soon as an endpoint that contains it is added, without a new registration. -/
theorem C89_again_false : ∃ (cs1 cs2 : List Call) (s1 s2 : S), run (fun _ => []) 4 cs1 = some s1 ∧ s1.below ∧ s1.st = .lostParent ∧
    (∀ c ∈ cs2, ¬ c.accepts) ∧ run (fun _ => []) 4 (cs1 ++ cs2) = some s2 ∧ s2.st = .running :=
  ⟨[.init true true, .start true, .regRsp true true false true, .addParent, .removeParent], [.addParent], _, _, rfl, ⟨rfl, rfl⟩, rfl,
    by simp [Call.accepts], rfl, rfl⟩

/-- C89 (shutdown before init): the flag SHUTDOWN of a node that was never initialised is kept by `init`; the node is reset by the first
`proc` after its start. -/
theorem C89_early_false : ∃ (cs1 cs2 : List Call) (s1 s2 : S), run (fun _ => []) 4 cs1 = some s1 ∧ s1.st = .created ∧
    (.shutdown ∉ cs2 ∧ .reset ∉ cs2) ∧ run (fun _ => []) 4 (cs1 ++ cs2) = some s2 ∧ s2.st = .created ∧
      (run (fun _ => []) 4 cs2).map (fun s => s.st) = some .running :=
  ⟨[.shutdown], [.init true false, .start true, .proc false], _, _, rfl, rfl, by decide, rfl, rfl, rfl⟩

/-- A node below a parent: up only when the response and the endpoint are there; later without its parent, still active. -/
example : (run (fun _ => []) 4 [.init true true, .start true, .addParent, .regRsp true true false false]).map (fun s => (s.st, s.actived, s.regDone)) =
      some (.connectingParent, false, false) ∧
    (run (fun _ => []) 4 [.init true true, .start true, .addParent, .regRsp true true true true]).map (fun s => (s.st, s.actived, s.regDone)) =
      some (.running, true, true) ∧
    (run (fun _ => []) 4 [.init true true, .start true, .addParent, .regRsp true true true true, .removeParent, .proc true]).map
      (fun s => (s.st, s.actived)) = some (.connectingParent, true) := by decide

end Verif.Node.Life
