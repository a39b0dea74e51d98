import Verif.Node.RegistryProps

/-!
C92: `disconnect` and `remove_endpoint` take exactly the endpoint with the given id out of the registry, close
exactly its connections, report it once and say whether they did.

The functions are those of `Verif/Node/Registry.lean`; the statements speak of the entries of the registry
(`Entry`: the parent or an object in the route table), the connections and the notifications only.
-/

namespace Verif.Node.Registry

open Verif.Subnet

/-- An endpoint with this id is registered, at address `r`. -/
def Knows (s : S) (id r : Nat) : Prop := ∃ ep, Entry s ep ∧ ep.id = id ∧ ep.ref = r

/-- From `s` to `t` the endpoint at address `r` goes and nothing else changes: one notification, no other entry, no
connection of another endpoint. -/
structure Gone (s t : S) (r : Nat) : Prop where
  log : t.log = s.log ++ [.removed r]
  entries : ∀ ep, Entry t ep ↔ Entry s ep ∧ ep.ref ≠ r
  own : ∀ c, (s.conn c).bound = some r → (t.conn c).bound = none ∧ (t.conn c).connected = false
  others : ∀ c, (s.conn c).bound ≠ some r → t.conn c = s.conn c
  rest : t.own = s.own ∧ t.info = s.info ∧ t.tokens = s.tokens ∧ t.subs = s.subs

theorem gone_parent {lg sg : Bool} {s : S} {reg : List Ep} (h : Inv lg sg s reg none) {p : Ep} (hp : s.parent = some p) :
    Gone s (drop (emit { s with parent := none } (.removed p.ref)) p.ref) p.ref := by
  have ht := h.dropParent hp (by simp)
  refine ⟨rfl, ?_, ?_, ?_, rfl, rfl, rfl, rfl⟩
  · intro ep
    rw [ht.entry, h.entry]
    constructor
    · rintro (hh | hh)
      · cases hh
      · exact ⟨.inr hh, (h.psep p hp ep hh).1⟩
    · rintro ⟨hh | hh, hne⟩
      · rw [hp] at hh; cases hh; exact absurd rfl hne
      · exact .inr hh
  · intro c hc
    simp [drop, emit, hc]
  · intro c hc
    simp [drop, emit, hc]

/-- What `remove_child` does. -/
theorem dropChild_spec {lg sg : Bool} {s : S} {reg : List Ep} (h : Inv lg sg s reg none) (id : Nat) (x : Option Nat) :
    (∃ ep ∈ reg, ep.id = id ∧ (x = none ∨ x = some ep.ref) ∧ (dropChild s id x).2 = true ∧ Gone s (dropChild s id x).1 ep.ref) ∨
    ((∀ ep ∈ reg, ep.id = id → x ≠ none ∧ x ≠ some ep.ref) ∧ dropChild s id x = (s, false)) := by
  cases hr : (removeChild s.table id x).2 with
  | true =>
    obtain ⟨e, h1, h2, h3, h4⟩ := removeChild_true h.sim hr
    have hd : dropChild s id x =
        (drop (emit { s with table := (removeChild s.table id x).1 } (.removed e.2.ref)) e.2.ref, true) := by
      unfold dropChild; rw [h1]; simp only [hr]; rfl
    have hx : x = none ∨ x = some e.2.ref := by
      unfold removeChild at hr
      rw [h1] at hr
      simp only at hr
      rw [if_neg (by simp [h3])] at hr
      cases x with
      | none => exact .inl rfl
      | some y =>
        right
        by_cases hy : e.2.ref = y
        · rw [hy]
        · simp [hy] at hr
    refine .inl ⟨e.2, h2, h3, hx, by rw [hd], ?_⟩
    rw [hd]
    refine ⟨rfl, ?_, ?_, ?_, rfl, rfl, rfl, rfl⟩
    · intro ep
      have hs := sim_remove h.sim h2
      rw [← h4] at hs
      rw [h.entry]
      have hm : ∀ y, y ∈ (reg.filter fun y => decide (y ≠ e.2)) ↔ y ∈ reg ∧ y ≠ e.2 := by simp [List.mem_filter]
      have he : Entry (drop (emit { s with table := (removeChild s.table id x).1 } (.removed e.2.ref)) e.2.ref) ep ↔
          s.parent = some ep ∨ ep ∈ reg ∧ ep ≠ e.2 := by
        rw [← hm]
        constructor
        · rintro (hp | ⟨r, hr⟩)
          · exact .inl hp
          · exact .inr ((hs.mem _).1 hr).1
        · rintro (hp | hr)
          · exact .inl hp
          · obtain ⟨r', h5, -⟩ := (hs.wf ep hr).self
            exact .inr ⟨r', (hs.mem _).2 ⟨hr, h5⟩⟩
      rw [he]
      constructor
      · rintro (hp | ⟨hm, hne⟩)
        · exact ⟨.inl hp, fun hh => (h.psep ep hp e.2 h2).1 hh.symm⟩
        · exact ⟨.inr hm, fun hh => hne (h.uniq ep hm e.2 h2 hh)⟩
      · rintro ⟨hp | hm, hne⟩
        · exact .inl hp
        · exact .inr ⟨hm, fun hh => hne (by rw [hh])⟩
    · intro c hc
      simp [drop, emit, hc]
    · intro c hc
      simp [drop, emit, hc]
  | false =>
    right
    constructor
    · intro ep hep hid
      obtain ⟨r, hl, -, -⟩ := lowerBound_of_covers h.sim hep (hid ▸ (h.sim.wf ep hep).self : Covers ep.subnets id)
      unfold removeChild at hr
      rw [hl] at hr
      simp only at hr
      rw [if_neg (by simp [hid])] at hr
      cases x with
      | none => simp at hr
      | some y =>
        refine ⟨by simp, ?_⟩
        intro hy
        cases hy
        simp at hr
    · unfold dropChild
      cases lowerBound s.table id with
      | none => rfl
      | some e => simp [hr]

/-- `get_endpoint` finds the registered endpoint with this id and no other. -/
theorem C92_find_partial (H : Nat → Nat → Nat × Nat) (own : Nat) (subs : List Rng) (mv : Nat) (tokens : List Nat) (ops : List Op)
    (hu : Usable ops) (s : S) (hs : run H (init own subs mv tokens) ops = some s) (id : Nat) (ep : Ep) :
    getEndpoint s id = some ep ↔ Entry s ep ∧ ep.id = id := by
  obtain ⟨reg, h⟩ := hu.inv hs
  rw [h.entry]
  unfold getEndpoint
  by_cases hp : isParent s id = true
  · rw [if_pos hp]
    simp only [isParent, Bool.and_eq_true, Option.any_eq_true] at hp
    obtain ⟨-, p, hpp, hpi⟩ := hp
    have hpi : p.id = id := by simpa using hpi
    rw [hpp]
    constructor
    · intro hh; cases hh; exact ⟨.inl rfl, hpi⟩
    · rintro ⟨hh | hh, hid⟩
      · exact hh
      · exact absurd (hid.trans hpi.symm) (h.psep p hpp ep hh).2
  · rw [if_neg hp]
    have hnp : ¬ (s.parent = some ep ∧ ep.id = id) := by
      rintro ⟨h1, h2⟩
      exact hp (by simp [isParent, h.pown (by simp [h1]), h1, h2])
    have hroute : ∀ e ∈ reg, e.id = id → findRoute s.table id = some e := by
      intro e he hid
      by_cases h0 : id = 0
      · subst h0; exact (findRoute_zero h.sim).2 ⟨he, hid⟩
      · exact (findRoute_iff h.sim h0).2 ⟨he, hid ▸ (h.sim.wf e he).self⟩
    constructor
    · intro hf
      split at hf
      · rename_i e he
        split at hf
        · rename_i hid
          cases hf
          refine ⟨.inr ?_, hid⟩
          by_cases h0 : id = 0
          · subst h0; exact ((findRoute_zero h.sim).1 he).1
          · exact ((findRoute_iff h.sim h0).1 he).1
        · cases hf
      · cases hf
    · rintro ⟨hh | hh, hid⟩
      · exact absurd ⟨hh, hid⟩ hnp
      · rw [hroute ep hh hid]; simp [hid]

theorem Inv.knows {lg sg : Bool} {s : S} {reg : List Ep} (h : Inv lg sg s reg none) (id r : Nat) :
    Knows s id r ↔ (∃ p, s.parent = some p ∧ p.id = id ∧ p.ref = r) ∨ ∃ e ∈ reg, e.id = id ∧ e.ref = r := by
  unfold Knows
  constructor
  · rintro ⟨ep, he, h1, h2⟩
    rw [h.entry] at he
    rcases he with he | he
    · exact .inl ⟨ep, he, h1, h2⟩
    · exact .inr ⟨ep, he, h1, h2⟩
  · rintro (⟨p, hp, h1, h2⟩ | ⟨e, he, h1, h2⟩)
    · exact ⟨p, (h.entry p).2 (.inl hp), h1, h2⟩
    · exact ⟨e, (h.entry e).2 (.inr he), h1, h2⟩

/-- `disconnect`: the endpoint with this id goes and the call succeeds, or there is none and nothing happens.
Missing: requests with nested subnets or a subnet from id 0 (the witness is below). -/
theorem C92_disconnect_partial (H : Nat → Nat → Nat × Nat) (own : Nat) (subs : List Rng) (mv : Nat) (tokens : List Nat) (ops : List Op)
    (hu : Usable ops) (s : S) (hs : run H (init own subs mv tokens) ops = some s) (id : Nat) :
    (∃ r, Knows s id r ∧ (disconnect s id).2 = Err.SUCCESS ∧ Gone s (disconnect s id).1 r) ∨
    ((∀ r, ¬ Knows s id r) ∧ disconnect s id = (s, Err.ATNODE_NOT_FOUND)) := by
  obtain ⟨reg, h⟩ := hu.inv hs
  have hc : (∀ p, s.parent = some p → p.id ≠ id) →
      (∃ r, Knows s id r ∧ (disconnect.child id s).2 = Err.SUCCESS ∧ Gone s (disconnect.child id s).1 r) ∨
      ((∀ r, ¬ Knows s id r) ∧ disconnect.child id s = (s, Err.ATNODE_NOT_FOUND)) := by
    intro hnp
    have hf : ∀ e, findRoute s.table id = some e ∧ e.id = id ↔ e ∈ reg ∧ e.id = id := by
      intro e
      by_cases h0 : id = 0
      · subst h0
        rw [findRoute_zero h.sim]
        exact ⟨fun hh => hh.1, fun hh => ⟨hh, hh.2⟩⟩
      · rw [findRoute_iff h.sim h0]
        exact ⟨fun hh => ⟨hh.1.1, hh.2⟩, fun hh => ⟨⟨hh.1, hh.2 ▸ (h.sim.wf e hh.1).self⟩, hh.2⟩⟩
    by_cases hk : ∃ e ∈ reg, e.id = id
    · obtain ⟨e, he, hid⟩ := hk
      have hd : disconnect.child id s = ((dropChild s id none).1, Err.SUCCESS) := by
        unfold disconnect.child
        rw [((hf e).2 ⟨he, hid⟩).1]
        simp [hid]
      rw [hd]
      rcases dropChild_spec h id none with ⟨ep, h1, h2, -, -, h5⟩ | ⟨h1, -⟩
      · exact .inl ⟨ep.ref, (h.knows _ _).2 (.inr ⟨ep, h1, h2, rfl⟩), rfl, h5⟩
      · exact absurd rfl (h1 e he hid).1
    · right
      constructor
      · intro r hr
        rw [h.knows] at hr
        rcases hr with ⟨p, hp, hpi, -⟩ | ⟨e, he, hid, -⟩
        · exact hnp p hp hpi
        · exact hk ⟨e, he, hid⟩
      · unfold disconnect.child
        split
        · rename_i e he
          split
          · rename_i hid
            exact absurd ⟨e, (hf e).1 ⟨he, hid⟩⟩ hk
          · rfl
        · rfl
  unfold Registry.disconnect
  cases hp : s.parent with
  | none => exact hc (by simp [hp])
  | some p =>
    simp only
    by_cases hid : id = p.id
    · rw [if_pos hid]
      exact .inl ⟨p.ref, (h.knows _ _).2 (.inl ⟨p, hp, hid.symm, rfl⟩), rfl, gone_parent h hp⟩
    · rw [if_neg hid]
      apply hc
      intro q hq
      rw [hp] at hq; cases hq
      exact fun hh => hid hh.symm

/-- `remove_endpoint`, with or without the endpoint the caller means: the endpoint with this id goes if it is the one
meant, otherwise nothing happens.  Missing: the node's own id (the witness is below), and requests as above. -/
theorem C92_remove_partial (H : Nat → Nat → Nat × Nat) (own : Nat) (subs : List Rng) (mv : Nat) (tokens : List Nat) (ops : List Op)
    (hu : Usable ops) (s : S) (hs : run H (init own subs mv tokens) ops = some s) (id : Nat) (x : Option Nat) (hid : id ≠ s.own) :
    (∃ r, Knows s id r ∧ (x = none ∨ x = some r) ∧ (removeEndpoint s id x).2 = Err.SUCCESS ∧ Gone s (removeEndpoint s id x).1 r) ∨
    ((∀ r, Knows s id r → x ≠ none ∧ x ≠ some r) ∧ removeEndpoint s id x = (s, Err.ATNODE_NOT_FOUND)) := by
  obtain ⟨reg, h⟩ := hu.inv hs
  unfold Registry.removeEndpoint
  by_cases hp : isParent s id = true
  · rw [if_pos hp]
    simp only [isParent, Bool.and_eq_true, Option.any_eq_true] at hp
    obtain ⟨-, p, hpp, hpi⟩ := hp
    have hpi : p.id = id := by simpa using hpi
    rw [hpp]
    simp only
    by_cases hx : x = none ∨ x = some p.ref
    · rw [if_neg (by rcases hx with rfl | rfl <;> simp)]
      exact .inl ⟨p.ref, (h.knows _ _).2 (.inl ⟨p, hpp, hpi, rfl⟩), hx, rfl, gone_parent h hpp⟩
    · right
      constructor
      · intro r hr
        rw [h.knows] at hr
        rcases hr with ⟨q, hq, -, hqr⟩ | ⟨e, he, hei, -⟩
        · rw [hpp] at hq; cases hq
          rw [← hqr]
          exact not_or.1 hx
        · exact absurd (hei.trans hpi.symm) (h.psep p hpp e he).2
      · cases x with
        | none => simp at hx
        | some y =>
          have : ¬ p.ref = y := fun hh => hx (.inr (by rw [hh]))
          simp [this]
  · rw [if_neg hp, if_neg (fun hh => hid hh.symm)]
    have hnp : ∀ p, s.parent = some p → p.id ≠ id := by
      intro p hpp hpi
      exact hp (by simp [isParent, h.pown (by simp [hpp]), hpp, hpi])
    rcases dropChild_spec h id x with ⟨ep, h1, h2, h3, h4, h5⟩ | ⟨h1, h2⟩
    · rw [if_pos h4]
      exact .inl ⟨ep.ref, (h.knows _ _).2 (.inr ⟨ep, h1, h2, rfl⟩), h3, rfl, h5⟩
    · rw [if_neg (by rw [h2]; simp)]
      refine .inr ⟨?_, rfl⟩
      intro r hr
      rw [h.knows] at hr
      rcases hr with ⟨p, hpp, hpi, -⟩ | ⟨e, he, hei, her⟩
      · exact absurd hpi (hnp p hpp)
      · exact her ▸ h1 e he hei

theorem run_snoc (H : Nat → Nat → Nat × Nat) (op : Op) : ∀ (ops : List Op) (s : S),
    run H s (ops ++ [op]) = (run H s ops).bind fun t => step H t op := by
  intro ops
  induction ops with
  | nil => intro s; show (step H s op).bind (fun s => some s) = step H s op; cases step H s op <;> rfl
  | cons o ops ih =>
    intro s
    simp only [List.cons_append, run]
    cases step H s o with
    | none => rfl
    | some t => exact ih t

/-- After a successful call the id is not known, and no other id is lost. -/
theorem C92_after_partial (H : Nat → Nat → Nat × Nat) (own : Nat) (subs : List Rng) (mv : Nat) (tokens : List Nat) (ops : List Op)
    (hu : Usable ops) (s : S) (hs : run H (init own subs mv tokens) ops = some s) (id : Nat) :
    getEndpoint (disconnect s id).1 id = none ∧ ∀ id', id' ≠ id → getEndpoint (disconnect s id).1 id' = getEndpoint s id' := by
  have hu' : Usable (ops ++ [.disconnect id]) := by
    intro m hm
    rcases List.mem_append.1 hm with hm | hm
    · exact hu m hm
    · simp at hm
  have hs' : run H (init own subs mv tokens) (ops ++ [.disconnect id]) = some (disconnect s id).1 := by
    rw [run_snoc, hs]
    rfl
  have hf := C92_find_partial H own subs mv tokens ops hu s hs
  have hf' := C92_find_partial H own subs mv tokens _ hu' _ hs'
  have hext : ∀ (a b : Option Ep), (∀ ep, a = some ep ↔ b = some ep) → a = b := by
    intro a b hab
    cases a with
    | none =>
      cases b with
      | none => rfl
      | some y => exact absurd ((hab y).2 rfl) (by simp)
    | some x => exact ((hab x).1 rfl).symm
  have huniq : ∀ a b, Entry s a → Entry s b → a.id = b.id → a = b :=
    fun a b => C49_unique_partial H own subs mv tokens ops hu s hs a b
  rcases C92_disconnect_partial H own subs mv tokens ops hu s hs id with ⟨r, ⟨e, he, hei, her⟩, -, hg⟩ | ⟨hn, hd⟩
  · have hkey : ∀ ep, Entry s ep → ep.ref = r → ep = e := by
      intro ep hep hr
      obtain ⟨reg, h⟩ := hu.inv hs
      rw [h.entry] at hep he
      rcases hep with hep | hep <;> rcases he with he | he
      · rw [he] at hep; cases hep; rfl
      · exact absurd (her.trans hr.symm) (h.psep ep hep e he).1
      · exact absurd (hr.trans her.symm) (h.psep e he ep hep).1
      · exact h.uniq ep hep e he (hr.trans her.symm)
    constructor
    · cases hq : getEndpoint (disconnect s id).1 id with
      | none => rfl
      | some ep =>
        obtain ⟨h1, h2⟩ := (hf' id ep).1 hq
        rw [hg.entries] at h1
        exact absurd ((huniq ep e h1.1 he (h2.trans hei.symm)) ▸ her) h1.2
    · intro id' hne
      apply hext
      intro ep
      rw [hf', hf, hg.entries]
      constructor
      · rintro ⟨⟨h1, -⟩, h3⟩; exact ⟨h1, h3⟩
      · rintro ⟨h1, h3⟩
        refine ⟨⟨h1, ?_⟩, h3⟩
        intro hr
        rw [hkey ep h1 hr, hei] at h3
        exact hne h3.symm
  · rw [hd]
    refine ⟨?_, fun _ _ => rfl⟩
    cases hq : getEndpoint s id with
    | none => rfl
    | some ep =>
      obtain ⟨h1, h2⟩ := (hf id ep).1 hq
      exact absurd ⟨ep, h1, h2, rfl⟩ (hn ep.ref)

/-- A peer with the node's own id is registered as a child; `remove_endpoint` refuses to remove it, `disconnect` does it. -/
theorem C92_own_false : ∃ ops s, Usable ops ∧ run (fun _ _ => (0, 0)) (init 5 [⟨4, 7, 2⟩] 0 []) ops = some s ∧ Knows s 5 0 ∧
    removeEndpoint s 5 none = (s, Err.ATNODE_INVALID_ID) ∧ (disconnect s 5).2 = Err.SUCCESS := by
  refine ⟨[.reg { conn := 1, busId := 5 }], _, ?_, rfl, ⟨⟨0, 5, [⟨5, 5, 0⟩]⟩, .inr ⟨⟨5, 5, 0⟩, ?_⟩, rfl, rfl⟩, ?_, ?_⟩
  · intro m hm
    simp at hm
    subst hm
    refine ⟨⟨by decide, by simp, ?_⟩, by simp⟩
    intro cs l h1 h2
    have : epConfs 5 [] = some [(5, 0)] := by decide
    rw [this] at h1; cases h1
    have : createSubnets 5 [(5, 0)] = some [⟨5, 5, 0⟩] := by decide +kernel
    rw [this] at h2; cases h2
    simp
  · decide +kernel
  · rfl
  · decide +kernel

/-- With nested subnets, which are accepted, an endpoint can be neither found, disconnected nor removed: id 9 claims 12 and 8 to 15,
then id 10 registers, and its range hides the wider one. -/
theorem C92_nested_false : ∃ ops s, run (fun _ _ => (0, 0)) (init 5 [⟨0, 255, 8⟩] 0 []) ops = some s ∧ Knows s 9 0 ∧
    getEndpoint s 9 = none ∧ disconnect s 9 = (s, Err.ATNODE_NOT_FOUND) ∧ removeEndpoint s 9 none = (s, Err.ATNODE_NOT_FOUND) := by
  have hr : (run (fun _ _ => (0, 0)) (init 5 [⟨0, 255, 8⟩] 0 [])
      [.reg { conn := 1, busId := 9, confs := [(12, 0), (15, 0), (8, 3)] }, .reg { conn := 2, busId := 10 }]).map
      (fun s => (s.own, s.parent, s.table)) = some (5, none, [(⟨10, 10, 0⟩, ⟨1, 10, [⟨10, 10, 0⟩]⟩),
        (⟨12, 12, 0⟩, ⟨0, 9, [⟨12, 12, 0⟩, ⟨8, 15, 3⟩]⟩), (⟨8, 15, 3⟩, ⟨0, 9, [⟨12, 12, 0⟩, ⟨8, 15, 3⟩]⟩)]) := by decide +kernel
  obtain ⟨s, hs, hv⟩ := Option.map_eq_some_iff.1 hr
  obtain ⟨h1, hv⟩ := Prod.mk.inj hv
  obtain ⟨h2, h3⟩ := Prod.mk.inj hv
  refine ⟨_, s, hs, ⟨⟨0, 9, [⟨12, 12, 0⟩, ⟨8, 15, 3⟩]⟩, .inr ⟨⟨12, 12, 0⟩, by rw [h3]; simp⟩, rfl, rfl⟩, ?_, ?_, ?_⟩
  · simp only [getEndpoint, isParent, h1, h2, h3]
    decide
  · have hf : findRoute s.table 9 = none := by rw [h3]; decide
    simp only [disconnect, h2, disconnect.child, hf]
  · have hd : dropChild s 9 none = (s, false) := by
      have hr : (removeChild s.table 9 none).2 = false := by rw [h3]; decide
      unfold dropChild
      cases lowerBound s.table 9 with
      | none => rfl
      | some e => simp [hr]
    simp only [removeEndpoint, isParent, h1, h2, hd]
    rfl

/-- A parent and two children, one with two connections; a child goes, then the parent, the other child stays; the object the caller
means has to be the right one. -/
example : ((run (fun _ _ => (0, 0)) (init 5 [⟨4, 7, 2⟩] 0 [])
      [.reg { conn := 1, busId := 6 }, .reg { conn := 2, busId := 16, confs := [(16, 4)] }, .reg { conn := 3, busId := 7 }, .link 4 0]).map fun s =>
      ([(disconnect s 6).2, (disconnect s 17).2, (removeEndpoint s 7 (some 1)).2, (removeEndpoint s 7 (some 2)).2, (removeEndpoint s 16 none).2],
       [1, 3, 4].map fun c => ((disconnect s 6).1.conn c).bound)) =
    some ([Err.SUCCESS, Err.ATNODE_NOT_FOUND, Err.ATNODE_NOT_FOUND, Err.SUCCESS, Err.SUCCESS], [none, some 2, none]) := by decide +kernel

end Verif.Node.Registry
