import Verif.Node.LifeCycle

/-!
C42: reports of `on_node_up` and `on_node_down`.
-/
namespace Verif.Node.Life

/-! ### Specification -/

/-- The reports of a history: `true` for up, `false` for down. -/
def reports : List Ev → List Bool
  | [] => []
  | .up _ :: l => true :: reports l
  | .down :: l => false :: reports l
  | _ :: l => reports l

/-- `Alternates b l`: the reports alternate and the first one is `b`. -/
def Alternates : Bool → List Bool → Prop
  | _, [] => True
  | b, x :: l => x = b ∧ Alternates (!b) l

/-- Put a report in front of the first life cycle. -/
def consFirst (b : Bool) : List (List Bool) → List (List Bool)
  | [] => [[b]]
  | c :: cs => (b :: c) :: cs

/-- The reports of each life cycle (a life cycle ends where a reset ends). -/
def cycles : List Ev → List (List Bool)
  | [] => [[]]
  | .resetEnds :: l => [] :: cycles l
  | .up _ :: l => consFirst true (cycles l)
  | .down :: l => consFirst false (cycles l)
  | _ :: l => cycles l

/-- Every reset of an active node came after a shutdown, and the node was not activated after a shutdown or during a
reset. -/
def Orderly (l : List Ev) : Prop := ∀ e ∈ l, e ≠ .resetBegins true ∧ e ≠ .up true

/-! ### Proof -/

theorem cycles_ne (l : List Ev) : cycles l ≠ [] := by
  induction l with
  | nil => simp [cycles]
  | cons e l ih => cases e <;> simp [cycles, ih] <;> (cases h : cycles l <;> simp [consFirst])

theorem flatten_consFirst (b : Bool) (cs : List (List Bool)) : (consFirst b cs).flatten = b :: cs.flatten := by
  cases cs <;> simp [consFirst]

theorem reports_flatten (l : List Ev) : reports l = (cycles l).flatten := by
  induction l with
  | nil => rfl
  | cons e l ih => cases e <;> simp [cycles, reports, ih, flatten_consFirst]

theorem consFirst_append (b : Bool) (p : List (List Bool)) (q : List (List Bool)) (hp : p ≠ []) :
    consFirst b (p ++ q) = consFirst b p ++ q := by
  cases p with
  | nil => exact absurd rfl hp
  | cons c cs => rfl

theorem cycles_reset (l : List Ev) : cycles (l ++ [.resetEnds]) = cycles l ++ [[]] := by
  induction l with
  | nil => rfl
  | cons e l ih => cases e <;> simp [cycles, ih, consFirst_append _ _ _ (cycles_ne l)]

theorem cycles_quiet (l : List Ev) (e : Ev) (he : e = .other ∨ ∃ b, e = .resetBegins b) : cycles (l ++ [e]) = cycles l := by
  induction l with
  | nil => rcases he with rfl | ⟨b, rfl⟩ <;> rfl
  | cons x l ih => cases x <;> simp [cycles, ih]

theorem consFirst_snoc (b : Bool) (p : List (List Bool)) (c : List Bool) :
    ∃ p' c', consFirst b (p ++ [c]) = p' ++ [c'] ∧
      ∀ x, consFirst b (p ++ [c ++ [x]]) = p' ++ [c' ++ [x]] := by
  cases p with
  | nil => exact ⟨[], b :: c, rfl, fun x => rfl⟩
  | cons q p => exact ⟨(b :: q) :: p, c, rfl, fun x => rfl⟩

theorem cycles_report (l : List Ev) (e : Ev) (x : Bool) (he : (∃ b, e = .up b) ∧ x = true ∨ e = .down ∧ x = false) :
    ∀ p c, cycles l = p ++ [c] → cycles (l ++ [e]) = p ++ [c ++ [x]] := by
  induction l with
  | nil =>
    intro p c h
    have : p = [] ∧ c = [] := by
      cases p with
      | nil => simpa [cycles] using h.symm
      | cons q p => simp [cycles] at h
    obtain ⟨rfl, rfl⟩ := this
    rcases he with ⟨⟨b, rfl⟩, rfl⟩ | ⟨rfl, rfl⟩ <;> rfl
  | cons y l ih =>
    intro p c h
    obtain ⟨q, d, hq⟩ : ∃ q d, cycles l = q ++ [d] :=
      ⟨(cycles l).dropLast, (cycles l).getLast (cycles_ne l), (List.dropLast_concat_getLast _).symm⟩
    have ih' := ih q d hq
    have key : ∀ b, consFirst b (cycles l) = p ++ [c] → consFirst b (cycles (l ++ [e])) = p ++ [c ++ [x]] := by
      intro b hb
      obtain ⟨p', c', h1, h2⟩ := consFirst_snoc b q d
      rw [hq, h1] at hb
      obtain ⟨hp, hc⟩ := List.append_inj' hb rfl
      simp only [List.cons.injEq, and_true] at hc
      subst hp; subst hc
      rw [ih', h2]
    cases y with
    | up b => exact key true h
    | down => exact key false h
    | resetEnds =>
      simp only [cycles, List.cons_append] at h ⊢
      rw [ih']
      rw [hq] at h
      cases p with
      | nil => simp at h
      | cons r p =>
        simp only [List.cons_append, List.cons.injEq] at h ⊢
        obtain ⟨h0, h1⟩ := h
        obtain ⟨hp, hc⟩ := List.append_inj' h1 rfl
        simp only [List.cons.injEq, and_true] at hc
        subst hp; subst hc
        exact ⟨h0, rfl⟩
    | resetBegins b =>
      have h' : cycles l = p ++ [c] := h
      exact ih p c h'
    | other =>
      have h' : cycles l = p ++ [c] := h
      exact ih p c h'

/-- A life cycle as it should be: nothing, only up, or up and then down. -/
def CycleOk (c : List Bool) : Prop := c = [] ∨ c = [true] ∨ c = [true, false]

/-- The invariant. -/
def Inv (s : S) : Prop :=
  ∃ p c, cycles s.log = p ++ [c] ∧ (∀ x ∈ p, CycleOk x) ∧
    (c = [] ∧ s.actived = false ∨ c = [true] ∧ s.actived = true ∨ c = [true, false] ∧ s.actived = true ∧ s.shutdown = true) ∧
    (Orderly s.log → (∀ x ∈ p, x ≠ [true]) ∧ (s.resetting = true → s.actived = true → s.shutdown = true) ∧
      (s.actived = true → s.shutdown = true → c = [true, false]))

def Pres (f : S → Option S) : Prop :=
  ∀ s s', Inv s → f s = some s' → Inv s' ∧ (s.resetting = true → s'.resetting = true)

theorem orderly_snoc (l : List Ev) (e : Ev) (h : Orderly (l ++ [e])) : Orderly l :=
  fun x hx => h x (List.mem_append.mpr (Or.inl hx))

theorem orderly_last (l : List Ev) (e : Ev) (h : Orderly (l ++ [e])) : e ≠ .resetBegins true ∧ e ≠ .up true :=
  h e (by simp)

/-- Members other than those the invariant speaks of may change. -/
theorem inv_same (s t : S) (hl : t.log = s.log) (ha : t.actived = s.actived) (hs : t.shutdown = s.shutdown)
    (hr : t.resetting = s.resetting) (h : Inv s) : Inv t := by
  obtain ⟨p, c, h1, h2, h3, h4⟩ := h
  exact ⟨p, c, by rw [hl]; exact h1, h2, by rw [ha, hs]; exact h3, by rw [hl, ha, hs, hr]; exact h4⟩

theorem inv_other (s : S) (h : Inv s) : Inv (s.emit .other) := by
  obtain ⟨p, c, h1, h2, h3, h4⟩ := h
  refine ⟨p, c, ?_, h2, h3, ?_⟩
  · show cycles (s.log ++ [.other]) = _
    rw [cycles_quiet _ _ (Or.inl rfl)]; exact h1
  · intro ho; exact h4 (orderly_snoc _ _ ho)

theorem callOut_pres {hook : S → Option S} (hh : Pres hook) : Pres (callOut hook) := by
  intro s s' hi h
  obtain ⟨h1, h2⟩ := hh _ _ (inv_other s hi) h
  exact ⟨h1, h2⟩

theorem pres_bind {f g : S → Option S} (hf : Pres f) (hg : Pres g) : Pres (fun s => (f s).bind g) := by
  intro s s' hi h
  obtain ⟨t, ht, hs'⟩ := Option.bind_eq_some_iff.mp h
  obtain ⟨h1, h2⟩ := hf s t hi ht
  obtain ⟨h3, h4⟩ := hg t s' h1 hs'
  exact ⟨h3, fun h => h4 (h2 h)⟩

theorem pres_some : Pres some := by
  intro s s' hi h
  cases h
  exact ⟨hi, id⟩

/-- Setting members the invariant does not speak of. -/
theorem pres_set (f : S → S) (hl : ∀ s, (f s).log = s.log) (ha : ∀ s, (f s).actived = s.actived)
    (hs : ∀ s, (f s).shutdown = s.shutdown) (hr : ∀ s, (f s).resetting = s.resetting) : Pres (fun s => some (f s)) := by
  intro s s' hi h
  cases h
  exact ⟨inv_same s _ (hl s) (ha s) (hs s) (hr s) hi, fun h => (hr s).trans h⟩

theorem pres_ite {f g : S → Option S} {P : S → Prop} [∀ s, Decidable (P s)] (hf : Pres f) (hg : Pres g) :
    Pres (fun s => if P s then f s else g s) := by
  intro s s' hi h
  dsimp only at h
  split at h
  · exact hf s s' hi h
  · exact hg s s' hi h

theorem pres_pre {f : S → Option S} (k : S → S) (hf : Pres f) (hl : ∀ s, (k s).log = s.log)
    (ha : ∀ s, (k s).actived = s.actived) (hs : ∀ s, (k s).shutdown = s.shutdown)
    (hr : ∀ s, (k s).resetting = s.resetting) : Pres (fun s => f (k s)) := by
  intro s s' hi h
  obtain ⟨h1, h2⟩ := hf _ s' (inv_same s _ (hl s) (ha s) (hs s) (hr s) hi) h
  exact ⟨h1, fun h => h2 ((hr s).trans h)⟩

theorem onActived_pres {hook : S → Option S} (hh : Pres hook) : Pres (onActived hook) := by
  intro s s' hi h
  unfold onActived at h
  split at h
  · cases h; exact ⟨inv_same s _ rfl rfl rfl rfl hi, id⟩
  · rename_i hact
    suffices hk : Inv ({ s with st := .running, actived := true }.emit (.up (s.shutdown || s.resetting))) by
      obtain ⟨h1, h2⟩ := hh _ _ hk h
      exact ⟨h1, h2⟩
    obtain ⟨p, c, h1, h2, h3, h4⟩ := hi
    have hc : c = [] := by
      rcases h3 with h | h | h
      · exact h.1
      · exact absurd h.2 hact
      · exact absurd h.2.1 hact
    subst hc
    refine ⟨p, [true], ?_, h2, Or.inr (Or.inl ⟨rfl, rfl⟩), ?_⟩
    · show cycles (s.log ++ [.up (s.shutdown || s.resetting)]) = _
      exact cycles_report s.log _ true (Or.inl ⟨⟨_, rfl⟩, rfl⟩) p [] h1
    · intro ho
      have ho' := orderly_snoc _ _ ho
      obtain ⟨h5, h6, h7⟩ := h4 ho'
      have hlate := (orderly_last _ _ ho).2
      refine ⟨h5, ?_, ?_⟩
      · intro hr _
        have hr : s.resetting = true := hr
        rw [hr] at hlate
        exact absurd (by simp) hlate
      · intro _ hs
        have hs : s.shutdown = true := hs
        rw [hs] at hlate
        exact absurd (by simp) hlate

theorem shutdown_pres {hook : S → Option S} (hh : Pres hook) : Pres (shutdownF hook) := by
  intro s s' hi h
  unfold shutdownF at h
  split at h
  · cases h; exact ⟨hi, id⟩
  · rename_i hsd
    unfold onShutdown at h
    obtain ⟨p, c, h1, h2, h3, h4⟩ := hi
    split at h
    · rename_i hact
      have hact : s.actived = true := hact
      suffices hk : Inv ({ s with shutdown := true }.emit .down) by
        obtain ⟨h1, h2⟩ := hh _ _ hk h
        exact ⟨h1, h2⟩
      have hc : c = [true] := by
        rcases h3 with h | h | h
        · rw [h.2] at hact; cases hact
        · exact h.1
        · exact absurd h.2.2 hsd
      subst hc
      refine ⟨p, [true, false], ?_, h2, Or.inr (Or.inr ⟨rfl, hact, rfl⟩), ?_⟩
      · show cycles (s.log ++ [.down]) = _
        exact cycles_report s.log _ false (Or.inr ⟨rfl, rfl⟩) p [true] h1
      · intro ho
        obtain ⟨h5, _, _⟩ := h4 (orderly_snoc _ _ ho)
        exact ⟨h5, fun _ _ => rfl, fun _ _ => rfl⟩
    · rename_i hact
      have hact : ¬ s.actived = true := hact
      cases h
      refine ⟨⟨p, c, h1, h2, ?_, ?_⟩, id⟩
      · rcases h3 with h | h | h
        · exact Or.inl h
        · exact absurd h.2 hact
        · exact absurd h.2.1 hact
      · intro ho
        obtain ⟨h5, _, _⟩ := h4 ho
        exact ⟨h5, fun _ _ => rfl, fun ha => absurd ha hact⟩

theorem fatal_pres {hook : S → Option S} (hh : Pres hook) : Pres (fatal hook) := by
  unfold fatal
  exact pres_ite pres_some (pres_bind (shutdown_pres hh) (callOut_pres hh))

theorem removeParent_pres {hook : S → Option S} (hh : Pres hook) : Pres (removeParent hook) := by
  unfold removeParent
  refine pres_ite ?_ pres_some
  refine pres_bind (f := fun s => callOut hook { s with parent := false, st := .lostParent }) ?_
    (pres_ite pres_some (fatal_pres hh))
  exact pres_pre _ (callOut_pres hh) (fun _ => rfl) (fun _ => rfl) (fun _ => rfl) (fun _ => rfl)

theorem reset_pres {hook : S → Option S} (hh : Pres hook) : Pres (resetF hook) := by
  intro s s' hi h
  unfold resetF at h
  split at h
  · cases h; exact ⟨hi, id⟩
  · rename_i hr
    have hbody : Pres fun s => (callOut hook s).bind fun s => (removeParent hook s).bind (callOut hook) :=
      pres_bind (callOut_pres hh) (pres_bind (removeParent_pres hh) (callOut_pres hh))
    have hi' : Inv ({ s with resetting := true }.emit (.resetBegins (s.actived && !s.shutdown))) := by
      obtain ⟨p, c, h1, h2, h3, h4⟩ := hi
      refine ⟨p, c, ?_, h2, h3, ?_⟩
      · show cycles (s.log ++ [.resetBegins (s.actived && !s.shutdown)]) = _
        rw [cycles_quiet _ _ (Or.inr ⟨_, rfl⟩)]; exact h1
      · intro ho
        obtain ⟨h5, _, h7⟩ := h4 (orderly_snoc _ _ ho)
        refine ⟨h5, fun _ hact => ?_, h7⟩
        have hact : s.actived = true := hact
        show s.shutdown = true
        cases hsd : s.shutdown with
        | true => rfl
        | false =>
          have := (orderly_last _ _ ho).1
          rw [hsd, hact] at this
          exact absurd rfl this
    obtain ⟨a, ha, h⟩ := Option.bind_eq_some_iff.mp h
    obtain ⟨b, hb, h⟩ := Option.bind_eq_some_iff.mp h
    obtain ⟨e, he, h⟩ := Option.bind_eq_some_iff.mp h
    cases h
    obtain ⟨hie, hre⟩ := hbody _ e hi' (by
      show Option.bind _ _ = _
      rw [ha]; show (removeParent hook a).bind _ = _; rw [hb]; exact he)
    have hre : e.resetting = true := hre rfl
    refine ⟨?_, fun h => absurd h hr⟩
    obtain ⟨p, c, h1, h2, h3, h4⟩ := hie
    refine ⟨p ++ [c], [], ?_, ?_, Or.inl ⟨rfl, rfl⟩, ?_⟩
    · show cycles (e.log ++ [.resetEnds]) = _
      rw [cycles_reset, h1]
    · intro x hx
      rcases List.mem_append.mp hx with hx | hx
      · exact h2 x hx
      · simp only [List.mem_singleton] at hx
        subst hx
        rcases h3 with h | h | h
        · exact Or.inl h.1
        · exact Or.inr (Or.inl h.1)
        · exact Or.inr (Or.inr h.1)
    · intro ho
      obtain ⟨h5, h6, h7⟩ := h4 (orderly_snoc _ _ ho)
      refine ⟨?_, fun h => (by cases h), fun h => (by cases h)⟩
      intro x hx
      rcases List.mem_append.mp hx with hx | hx
      · exact h5 x hx
      · simp only [List.mem_singleton] at hx
        subst hx
        intro hc
        rcases h3 with h | h | h
        · rw [h.1] at hc; cases hc
        · have := h7 h.2 (h6 hre h.2)
          rw [hc] at this; cases this
        · rw [h.1] at hc; cases hc

theorem pres_map {f : S → Option S} (k : S → S) (hf : Pres f) (hl : ∀ s, (k s).log = s.log)
    (ha : ∀ s, (k s).actived = s.actived) (hs : ∀ s, (k s).shutdown = s.shutdown)
    (hr : ∀ s, (k s).resetting = s.resetting) : Pres (fun s => (f s).map k) := by
  intro s s' hi h
  obtain ⟨t, ht, rfl⟩ := Option.map_eq_some_iff.mp h
  obtain ⟨h1, h2⟩ := hf s t hi ht
  exact ⟨inv_same t _ (hl t) (ha t) (hs t) (hr t) h1, fun h => (hr t).trans (h2 h)⟩

theorem call_pres {hook : S → Option S} (hh : Pres hook) (c : Call) : Pres (fun s => callF hook s c) := by
  have hout := callOut_pres hh
  have hres := reset_pres hh
  have hset : ∀ st : St, Pres (fun s => some { s with st := st }) := fun st =>
    pres_set _ (fun _ => rfl) (fun _ => rfl) (fun _ => rfl) (fun _ => rfl)
  cases c with
  | init i p =>
    show Pres (initF hook i p)
    unfold initF
    refine pres_bind (f := fun s => if s.st = .created then some s else resetF hook s) (pres_ite pres_some hres) ?_
    exact pres_set _ (fun _ => rfl) (fun _ => rfl) (fun _ => rfl) (fun _ => rfl)
  | start ok =>
    show Pres (startF hook ok)
    unfold startF
    exact pres_ite pres_some (pres_ite (pres_ite pres_some (pres_bind hout (hset _))) (onActived_pres hh))
  | shutdown => exact shutdown_pres hh
  | reset => exact hres
  | proc r =>
    show Pres (procF hook r)
    unfold procF
    refine pres_ite pres_some (pres_map (f := fun s => procBody hook r { s with inProc := true }) _ ?_
      (fun _ => rfl) (fun _ => rfl) (fun _ => rfl) (fun _ => rfl))
    refine pres_pre (f := procBody hook r) _ ?_ (fun _ => rfl) (fun _ => rfl) (fun _ => rfl) (fun _ => rfl)
    unfold procBody
    refine pres_ite pres_some (pres_ite (pres_bind hout hres) (pres_bind hout (pres_bind ?_
      (pres_bind hout (pres_ite hres pres_some)))))
    unfold reconnectF
    exact pres_ite (pres_bind hout (hset _)) pres_some
  | poll =>
    show Pres (pollF hook)
    unfold pollF
    refine pres_ite pres_some (pres_map (f := fun s => pollBody hook { s with inPoll := true }) _ ?_
      (fun _ => rfl) (fun _ => rfl) (fun _ => rfl) (fun _ => rfl))
    refine pres_pre (f := pollBody hook) _ ?_ (fun _ => rfl) (fun _ => rfl) (fun _ => rfl) (fun _ => rfl)
    unfold pollBody
    exact pres_ite (pres_bind hout hres) (pres_bind hout (pres_ite hres pres_some))
  | addParent =>
    show Pres (addParentF hook)
    unfold addParentF
    refine pres_ite pres_some (pres_ite pres_some (pres_bind (f := fun s =>
      if (s.st = .lostParent ∨ s.st = .connectingParent) ∧ s.regDone = true then onActived hook { s with parent := true }
      else some { s with parent := true }) (pres_ite ?_ ?_) hout))
    · exact pres_pre _ (onActived_pres hh) (fun _ => rfl) (fun _ => rfl) (fun _ => rfl) (fun _ => rfl)
    · exact pres_set _ (fun _ => rfl) (fun _ => rfl) (fun _ => rfl) (fun _ => rfl)
  | removeParent => exact removeParent_pres hh
  | disconnectParent =>
    show Pres (disconnectParentF hook)
    unfold disconnectParentF
    refine pres_ite (pres_bind (f := fun s => callOut hook { s with parent := false }) ?_ hout) pres_some
    exact pres_pre _ hout (fun _ => rfl) (fun _ => rfl) (fun _ => rfl) (fun _ => rfl)
  | connectionLost =>
    show Pres (connectionLostF hook)
    unfold connectionLostF
    refine pres_ite (pres_ite (hset _) ?_) pres_some
    exact pres_pre _ (fatal_pres hh) (fun _ => rfl) (fun _ => rfl) (fun _ => rfl) (fun _ => rfl)
  | regRsp a o f c =>
    show Pres (regRspF hook a o f c)
    unfold regRspF
    refine pres_bind hout (pres_ite (P := fun _ => a = true) ?_ (pres_bind (f := fun s =>
      if o && !s.actived then fatal hook s else callOut hook s) (pres_ite (fatal_pres hh) hout) hout))
    unfold regAccepted
    refine pres_ite (pres_ite ?_ (pres_ite (P := fun _ => c = true) ?_ pres_some)) pres_some
    · exact pres_pre _ (onActived_pres hh) (fun _ => rfl) (fun _ => rfl) (fun _ => rfl) (fun _ => rfl)
    · exact pres_set _ (fun _ => rfl) (fun _ => rfl) (fun _ => rfl) (fun _ => rfl)
  | regConflict =>
    show Pres (regConflictF hook)
    unfold regConflictF
    exact pres_bind (f := fun s => if s.st = .connectingParent then fatal hook s else some s)
      (pres_ite (fatal_pres hh) pres_some) hout

theorem calls_pres {f : S → Call → Option S} (hf : ∀ c, Pres fun s => f s c) : ∀ cs, Pres fun s => calls f s cs
  | [] => pres_some
  | c :: cs => pres_bind (hf c) (calls_pres hf cs)

theorem exec_pres (cb : List Ev → List Call) : ∀ d c, Pres fun s => exec cb d s c
  | 0, _ => by intro s s' _ h; cases h
  | d + 1, c => call_pres (hook := fun s => calls (exec cb d) s (cb s.log))
      (fun s s' hi h => calls_pres (exec_pres cb d) (cb s.log) s s' hi h) c

theorem inv_init : Inv {} := by
  refine ⟨[], [], rfl, by simp, Or.inl ⟨rfl, rfl⟩, ?_⟩
  intro _
  exact ⟨by simp, fun h => (by cases h), fun h => (by cases h)⟩

theorem alternates_pairs : ∀ p : List (List Bool), (∀ x ∈ p, x = [] ∨ x = [true, false]) → ∀ l, Alternates true l →
    Alternates true (p.flatten ++ l)
  | [], _, l, h => by simpa using h
  | x :: p, hp, l, h => by
    have ih := alternates_pairs p (fun y hy => hp y (by simp [hy])) l h
    rcases hp x (by simp) with rfl | rfl
    · simpa using ih
    · simpa [Alternates] using ih

/-! ### Property C42 -/

/-- C42 (per life cycle): whatever the application, the network and the timers do, also from inside callbacks, each life
cycle reports nothing, or up once, or up once and then down once. -/
theorem C42_cycle (cb : List Ev → List Call) (d : Nat) (cs : List Call) (s : S) (h : run cb d cs = some s) :
    ∀ c ∈ cycles s.log, c = [] ∨ c = [true] ∨ c = [true, false] := by
  obtain ⟨⟨p, c, h1, h2, h3, _⟩, _⟩ := calls_pres (exec_pres cb d) cs {} s inv_init h
  intro x hx
  rw [h1] at hx
  rcases List.mem_append.mp hx with hx | hx
  · exact h2 x hx
  · simp only [List.mem_singleton] at hx
    subst hx
    rcases h3 with h | h | h
    · exact Or.inl h.1
    · exact Or.inr (Or.inl h.1)
    · exact Or.inr (Or.inr h.1)

/-- C42 (alternation).  Missing: histories in which an active node is reset (by `reset`, `init` or the destructor)
without a shutdown, or activated after a shutdown or during a reset; see `C42_reset_false` and `C42_late_false`. -/
theorem C42_alternate_partial (cb : List Ev → List Call) (d : Nat) (cs : List Call) (s : S) (h : run cb d cs = some s)
    (ho : Orderly s.log) : Alternates true (reports s.log) := by
  obtain ⟨⟨p, c, h1, h2, h3, h4⟩, _⟩ := calls_pres (exec_pres cb d) cs {} s inv_init h
  obtain ⟨h5, _, _⟩ := h4 ho
  rw [reports_flatten, h1, List.flatten_append]
  refine alternates_pairs p ?_ _ ?_
  · intro x hx
    rcases h2 x hx with h | h | h
    · exact Or.inl h
    · exact absurd h (h5 x hx)
    · exact Or.inr h
  · rcases h3 with h | h | h <;> rw [h.1] <;> simp [Alternates]

/-- `f` begins no early reset, and keeps the flag SHUTDOWN. -/
def Quiet (f : S → Option S) : Prop := ∀ s s', f s = some s' → (.resetBegins true ∉ s.log → .resetBegins true ∉ s'.log) ∧
  (s.shutdown = true → s'.shutdown = true)

theorem quiet_some : Quiet some := by intro s s' h; cases h; exact ⟨id, id⟩

theorem quiet_bind {f g : S → Option S} (hf : Quiet f) (hg : Quiet g) : Quiet (fun s => (f s).bind g) := by
  intro s s' h
  obtain ⟨t, ht, hs'⟩ := Option.bind_eq_some_iff.mp h
  exact ⟨fun hn => (hg t s' hs').1 ((hf s t ht).1 hn), fun hn => (hg t s' hs').2 ((hf s t ht).2 hn)⟩

theorem quiet_ite {f g : S → Option S} {P : S → Prop} [∀ s, Decidable (P s)] (hf : Quiet f) (hg : Quiet g) :
    Quiet (fun s => if P s then f s else g s) := by
  intro s s' h
  dsimp only at h
  split at h
  · exact hf s s' h
  · exact hg s s' h

theorem quiet_pre {f : S → Option S} (k : S → S) (hf : Quiet f)
    (hk : ∀ s, .resetBegins true ∉ s.log → .resetBegins true ∉ (k s).log) (hs : ∀ s, s.shutdown = true → (k s).shutdown = true) :
    Quiet (fun s => f (k s)) :=
  fun s s' h => ⟨fun hn => (hf _ s' h).1 (hk s hn), fun hn => (hf _ s' h).2 (hs s hn)⟩

theorem quiet_set (k : S → S) (hk : ∀ s, (k s).log = s.log) (hs : ∀ s, s.shutdown = true → (k s).shutdown = true) :
    Quiet (fun s => some (k s)) :=
  quiet_pre k quiet_some (fun s h => by rw [hk]; exact h) hs

theorem quiet_out {hook : S → Option S} (hh : Quiet hook) : Quiet (callOut hook) := by
  unfold callOut
  exact quiet_pre _ hh (fun s h => by simpa [S.emit] using h) (fun _ h => h)

theorem quiet_fatal {hook : S → Option S} (hh : Quiet hook) : Quiet (shutdownF hook) ∧ Quiet (fatal hook) := by
  have hshut : Quiet (shutdownF hook) := by
    unfold shutdownF onShutdown
    refine quiet_ite quiet_some (quiet_pre (f := fun s => if s.actived then hook (s.emit .down) else some s) _ ?_
      (fun _ h => h) (fun _ _ => rfl))
    exact quiet_ite (quiet_pre _ hh (fun s h => by simpa [S.emit] using h) (fun _ h => h)) quiet_some
  refine ⟨hshut, ?_⟩
  unfold fatal
  exact quiet_ite quiet_some (quiet_bind hshut (quiet_out hh))

theorem quiet_removeParent {hook : S → Option S} (hh : Quiet hook) : Quiet (removeParent hook) := by
  unfold removeParent
  exact quiet_ite (quiet_bind (f := fun s => callOut hook { s with parent := false, st := .lostParent })
    (quiet_pre _ (quiet_out hh) (fun _ h => h) (fun _ h => h)) (quiet_ite quiet_some (quiet_fatal hh).2)) quiet_some

/-- Calls made from inside callbacks: none of `init`, `reset`, `proc` and `poll`. -/
def Mild : Call → Prop
  | .init _ _ => False
  | .reset => False
  | .proc _ => False
  | .poll => False
  | _ => True

theorem quiet_call {hook : S → Option S} (hh : Quiet hook) (c : Call) (hc : Mild c) : Quiet (fun s => callF hook s c) := by
  have hout := quiet_out hh
  have hfat := (quiet_fatal hh).2
  have hset : ∀ st : St, Quiet (fun s => some { s with st := st }) := fun st => quiet_set _ (fun _ => rfl) (fun _ h => h)
  have hup : Quiet (onActived hook) := by
    unfold onActived
    exact quiet_ite (hset _) (quiet_pre _ hh (fun s h => by simpa [S.emit] using h) (fun _ h => h))
  cases c with
  | init i p => exact hc.elim
  | reset => exact hc.elim
  | proc r => exact hc.elim
  | poll => exact hc.elim
  | start ok =>
    show Quiet (startF hook ok)
    unfold startF
    exact quiet_ite quiet_some (quiet_ite (quiet_ite quiet_some (quiet_bind hout (hset _))) hup)
  | shutdown => exact (quiet_fatal hh).1
  | addParent =>
    show Quiet (addParentF hook)
    unfold addParentF
    refine quiet_ite quiet_some (quiet_ite quiet_some (quiet_bind (f := fun s =>
      if (s.st = .lostParent ∨ s.st = .connectingParent) ∧ s.regDone = true then onActived hook { s with parent := true }
      else some { s with parent := true }) (quiet_ite (quiet_pre _ hup (fun _ h => h) (fun _ h => h)) ?_) hout))
    exact quiet_set _ (fun _ => rfl) (fun _ h => h)
  | removeParent => exact quiet_removeParent hh
  | disconnectParent =>
    show Quiet (disconnectParentF hook)
    unfold disconnectParentF
    exact quiet_ite (quiet_bind (f := fun s => callOut hook { s with parent := false })
      (quiet_pre _ hout (fun _ h => h) (fun _ h => h)) hout) quiet_some
  | connectionLost =>
    show Quiet (connectionLostF hook)
    unfold connectionLostF
    exact quiet_ite (quiet_ite (hset _) (quiet_pre _ hfat (fun _ h => h) (fun _ h => h))) quiet_some
  | regRsp a o f c =>
    show Quiet (regRspF hook a o f c)
    unfold regRspF
    refine quiet_bind hout (quiet_ite (P := fun _ => a = true) ?_ (quiet_bind (f := fun s =>
      if o && !s.actived then fatal hook s else callOut hook s) (quiet_ite hfat hout) hout))
    unfold regAccepted
    refine quiet_ite (quiet_ite (quiet_pre _ hup (fun _ h => h) (fun _ h => h))
      (quiet_ite (P := fun _ => c = true) ?_ quiet_some)) quiet_some
    exact quiet_set _ (fun _ => rfl) (fun _ h => h)
  | regConflict =>
    show Quiet (regConflictF hook)
    unfold regConflictF
    exact quiet_bind (f := fun s => if s.st = .connectingParent then fatal hook s else some s) (quiet_ite hfat quiet_some) hout

theorem quiet_calls {f : S → Call → Option S} (hf : ∀ c, Mild c → Quiet fun s => f s c) : ∀ cs, (∀ c ∈ cs, Mild c) →
    Quiet fun s => calls f s cs
  | [], _ => quiet_some
  | c :: cs, h => quiet_bind (hf c (h c (by simp))) (quiet_calls hf cs (fun x hx => h x (by simp [hx])))

theorem quiet_exec (cb : List Ev → List Call) (hcb : ∀ l, ∀ c ∈ cb l, Mild c) : ∀ d c, Mild c → Quiet fun s => exec cb d s c
  | 0, _, _ => by intro s s' h; cases h
  | d + 1, c, hc => quiet_call (hook := fun s => calls (exec cb d) s (cb s.log))
      (fun s s' h => quiet_calls (quiet_exec cb hcb d) (cb s.log) (hcb s.log) s s' h) c hc

theorem calm_reset {hook : S → Option S} (hh : Quiet hook) (s s' : S) (hs : s.actived = true → s.shutdown = true)
    (h : resetF hook s = some s') (hn : .resetBegins true ∉ s.log) : .resetBegins true ∉ s'.log := by
  unfold resetF at h
  split at h
  · cases h; exact hn
  · obtain ⟨a, ha, h⟩ := Option.bind_eq_some_iff.mp h
    obtain ⟨b, hb, h⟩ := Option.bind_eq_some_iff.mp h
    obtain ⟨e, he, h⟩ := Option.bind_eq_some_iff.mp h
    cases h
    have hfalse : (s.actived && !s.shutdown) = false := by
      cases ha : s.actived with
      | false => rfl
      | true => rw [hs ha]; rfl
    have := (quiet_out hh _ _ he).1 ((quiet_removeParent hh _ _ hb).1 ((quiet_out hh _ _ ha).1 (by
      show .resetBegins true ∉ s.log ++ [.resetBegins (s.actived && !s.shutdown)]
      rw [hfalse]; simpa using hn)))
    show .resetBegins true ∉ e.log ++ [.resetEnds]
    simpa using this

theorem calm_shut {hook : S → Option S} (hh : Quiet hook) (s s' : S) (hs : s.shutdown = true)
    (h : (callOut hook s).bind (resetF hook) = some s') (hn : .resetBegins true ∉ s.log) : .resetBegins true ∉ s'.log := by
  obtain ⟨a, ha, h⟩ := Option.bind_eq_some_iff.mp h
  obtain ⟨h1, h2⟩ := quiet_out hh _ _ ha
  exact calm_reset hh a s' (fun _ => h2 hs) h (h1 hn)

theorem calm_if {hook : S → Option S} (hh : Quiet hook) (s s' : S)
    (h : (if s.shutdown then resetF hook s else some s) = some s') (hn : .resetBegins true ∉ s.log) :
    .resetBegins true ∉ s'.log := by
  split at h
  · rename_i hs; exact calm_reset hh s s' (fun _ => hs) h hn
  · cases h; exact hn

/-- A call from outside: anything but `reset`; `init` is covered by the state it is called in. -/
theorem calm_call {hook : S → Option S} (hh : Quiet hook) (c : Call) (hc : c ≠ .reset) (s s' : S)
    (hi : ∀ i p, c = .init i p → s.actived = true → s.shutdown = true) (h : callF hook s c = some s')
    (hn : .resetBegins true ∉ s.log) : .resetBegins true ∉ s'.log := by
  by_cases hm : Mild c
  · exact (quiet_call hh c hm s s' h).1 hn
  · cases c with
    | reset => exact absurd rfl hc
    | init i p =>
      have h : initF hook i p s = some s' := h
      obtain ⟨a, ha, h⟩ := Option.bind_eq_some_iff.mp h
      cases h
      show .resetBegins true ∉ a.log
      split at ha
      · cases ha; exact hn
      · exact calm_reset hh s a (hi i p rfl) ha hn
    | proc r =>
      have h : procF hook r s = some s' := h
      unfold procF at h
      split at h
      · cases h; exact hn
      · obtain ⟨t, ht, rfl⟩ := Option.map_eq_some_iff.mp h
        show .resetBegins true ∉ t.log
        unfold procBody at ht
        split at ht
        · cases ht; exact hn
        · split at ht
          · rename_i hs
            exact calm_shut hh _ _ hs ht hn
          · obtain ⟨a, ha, ht⟩ := Option.bind_eq_some_iff.mp ht
            obtain ⟨b, hb, ht⟩ := Option.bind_eq_some_iff.mp ht
            obtain ⟨e, he, ht⟩ := Option.bind_eq_some_iff.mp ht
            have hq : Quiet (reconnectF hook r) := by
              unfold reconnectF
              exact quiet_ite (quiet_bind (quiet_out hh) (quiet_set _ (fun _ => rfl) (fun _ h => h))) quiet_some
            exact calm_if hh e t ht ((quiet_out hh _ _ he).1 ((hq _ _ hb).1 ((quiet_out hh _ _ ha).1 hn)))
    | poll =>
      have h : pollF hook s = some s' := h
      unfold pollF at h
      split at h
      · cases h; exact hn
      · obtain ⟨t, ht, rfl⟩ := Option.map_eq_some_iff.mp h
        show .resetBegins true ∉ t.log
        unfold pollBody at ht
        split at ht
        · rename_i hs
          exact calm_shut hh _ _ hs ht hn
        · obtain ⟨a, ha, ht⟩ := Option.bind_eq_some_iff.mp ht
          exact calm_if hh a t ht ((quiet_out hh _ _ ha).1 hn)
    | _ => exact absurd trivial hm

/-- The calls from outside follow the rules: no `reset`, and `init` only when the node is not active. -/
def Follows (cb : List Ev → List Call) (d : Nat) : S → List Call → Prop
  | _, [] => True
  | s, c :: cs => c ≠ .reset ∧ (∀ i p, c = .init i p → s.actived = false) ∧
      ∀ s', exec cb d s c = some s' → Follows cb d s' cs

/-- C42 for a caller that stops a running node only with `shutdown`, followed by `proc` or `poll`, and whose callbacks do
not call `init`, `reset`, `proc` or `poll`: the reports alternate.  Missing: activation after a shutdown, which only the
order of network messages decides. -/
theorem C42_shutdown_partial (cb : List Ev → List Call) (hcb : ∀ l, ∀ c ∈ cb l, Mild c) (d : Nat) (cs : List Call) (s : S)
    (hf : Follows cb d {} cs) (h : run cb d cs = some s) (hl : .up true ∉ s.log) : Alternates true (reports s.log) := by
  refine C42_alternate_partial cb d cs s h ?_
  have key : ∀ cs t, Follows cb d t cs → .resetBegins true ∉ t.log → calls (exec cb d) t cs = some s →
      .resetBegins true ∉ s.log := by
    intro cs
    induction cs with
    | nil => intro t _ hn h; cases h; exact hn
    | cons c cs ih =>
      intro t hf hn h
      obtain ⟨a, ha, h⟩ := Option.bind_eq_some_iff.mp h
      obtain ⟨h1, h2, h3⟩ := hf
      refine ih a (h3 a ha) ?_ h
      cases d with
      | zero => cases ha
      | succ d =>
        refine calm_call (hook := fun s => calls (exec cb d) s (cb s.log)) ?_ c h1 t a ?_ ha hn
        · intro x x' hx
          exact quiet_calls (quiet_exec cb hcb d) (cb x.log) (hcb x.log) x x' hx
        · intro i p he hact
          rw [h2 i p he] at hact
          cases hact
  have hn := key cs {} hf (by simp) h
  intro e he
  exact ⟨fun h => hn (h ▸ he), fun h => hl (h ▸ he)⟩

/-- C42 is false: a reset of a running node is not reported, so the next start reports up a second time. -/
theorem C42_reset_false : ∃ (cs : List Call) (s : S), run (fun _ => []) 4 cs = some s ∧ ¬ Alternates true (reports s.log) :=
  ⟨[.init true false, .start true, .reset, .init true false, .start true], _, rfl, by
    show ¬ Alternates true [true, true]
    simp [Alternates]⟩

/-- C42 is false: a node that is shut down while it waits for its parent can be activated afterwards, before the reset; up
is then reported without a down. -/
theorem C42_late_false : ∃ (cb : List Ev → List Call) (cs : List Call) (s : S), run cb 6 cs = some s ∧
    (∀ e ∈ s.log, e ≠ .resetBegins true) ∧ ¬ Alternates true (reports s.log) :=
  ⟨fun l => if l = [.other] then [] else if l = [.other, .other] then [.shutdown, .regRsp true true false true, .addParent] else [],
    [.init true true, .start true, .poll, .init true false, .start true], _, rfl, by decide, by
      show ¬ Alternates true [true, true]
      simp [Alternates]⟩

/-- A normal life: start below a parent, registration, shutdown in a callback, reset by `poll`, second life. -/
example : (run (fun l => if l.getLast? = some .other ∧ l.length = 6 then [.shutdown] else []) 6
    [.init true true, .start true, .regRsp true true false true, .addParent, .poll, .poll, .init false false, .start true,
      .shutdown, .proc false]).map (fun s => (reports s.log, cycles s.log)) =
    some ([true, false, true, false], [[true, false], [true, false], []]) := by decide

end Verif.Node.Life
