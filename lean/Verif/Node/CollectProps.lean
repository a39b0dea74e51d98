import Verif.Node.Collect

/-! Collection of endpoints (C69). -/
namespace Verif.Node.Collect

/-- Connections and endpoints agree; registered objects are distinct and have distinct ids; the lists of the collection. -/
structure Inv (s : S) : Prop where
  b1 : ∀ c r, (s.conn c).bound = some r ↔ (s.ep r).ctrl = some c ∨ c ∈ (s.ep r).data
  nd : ∀ r, (s.ep r).data.Nodup
  cd : ∀ r c, (s.ep r).ctrl = some c → c ∉ (s.ep r).data
  lt : ∀ r, s.kept r = true → r < s.next
  pos : ∀ r, s.reg r = true → r ≠ 0
  rd : s.routes.Nodup
  pr : ∀ p, s.parent = some p → p ∉ s.routes
  pz : s.parent ≠ none → s.own ≠ 0
  ids : ∀ a b, s.reg a = true → s.reg b = true → (s.ep a).id = (s.ep b).id → a = b
  id0 : (s.ep 0).id = s.own
  g1 : s.inGc = true → s.gc = []
  g2 : s.inGc = false → s.held = [] ∧ s.rest = [] ∧ s.cur = none
  g3 : ∀ r ∈ s.rest, r ∈ s.held
  g4 : ∀ r, s.cur = some r → r ∈ s.held

/-- What is not held has no connections. -/
def Clean (s : S) : Prop := ∀ r, s.kept r = false → s.ep r = { id := (s.ep r).id }

theorem reg_iff {s : S} {r : Nat} : s.reg r = true ↔ s.parent = some r ∨ r ∈ s.routes := by
  simp [S.reg]

theorem kept_iff {s : S} {r : Nat} : s.kept r = true ↔ r = 0 ∨ s.reg r = true ∨ r ∈ s.gc ∨ r ∈ s.held := by
  simp [S.kept, or_assoc]

theorem sweep_reg (s : S) (r : Nat) : (sweep s).reg r = s.reg r := rfl
theorem sweep_kept (s : S) (r : Nat) : (sweep s).kept r = s.kept r := rfl

theorem sweep_ep_id (s : S) (r : Nat) : ((sweep s).ep r).id = (s.ep r).id := by
  simp only [sweep]; split <;> rfl

theorem sweep_clean (s : S) : Clean (sweep s) := by
  intro r h
  rw [sweep_kept] at h
  simp [sweep, h]

theorem sweep_ep {s : S} {r : Nat} (h : s.kept r = true) : (sweep s).ep r = s.ep r := by simp [sweep, h]

theorem sweep_conn {s : S} {c : Nat} (h : ∀ r, (s.conn c).bound = some r → s.kept r = true) : (sweep s).conn c = s.conn c := by
  simp only [sweep]
  split
  · next r hr => rw [if_pos (h r hr)]
  · rfl

theorem sweep_inv {s : S} (h : Inv s) : Inv (sweep s) where
  b1 c r := by
    cases hk : s.kept r with
    | true =>
      rw [sweep_ep hk]
      constructor
      · intro hb
        rw [← h.b1 c r]
        simp only [sweep] at hb
        split at hb
        · next r' hr' => split at hb
                         · exact hb
                         · simp at hb
        · next hn => rw [hn] at hb; simp at hb
      · intro hb
        have := (h.b1 c r).2 hb
        rw [sweep_conn (fun x hx => by rw [this] at hx; cases hx; exact hk)]
        exact this
    | false =>
      have he : (sweep s).ep r = { id := (s.ep r).id } := by simp [sweep, hk]
      rw [he]
      simp only [reduceCtorEq, List.not_mem_nil, or_self, iff_false]
      intro hb
      simp only [sweep] at hb
      split at hb
      · next r' hr' =>
        split at hb
        · next hk' => rw [hr'] at hb; cases hb; rw [hk] at hk'; cases hk'
        · simp at hb
      · next hn => rw [hn] at hb; simp at hb
  nd r := by
    simp only [sweep]; split
    · exact h.nd r
    · exact List.nodup_nil
  cd r c := by
    simp only [sweep]; split
    · exact h.cd r c
    · simp
  lt := h.lt
  pos := h.pos
  rd := h.rd
  pr := h.pr
  pz := h.pz
  ids a b := by rw [sweep_ep_id, sweep_ep_id]; exact h.ids a b
  id0 := by rw [sweep_ep_id]; exact h.id0
  g1 := h.g1
  g2 := h.g2
  g3 := h.g3
  g4 := h.g4

/-! ### The parts of a step keep the invariant -/

theorem init_inv (own : Nat) (ping : Bool) : Inv (init own ping) where
  b1 c r := by by_cases hr : r = 0 <;> simp [init, hr]
  nd r := by by_cases hr : r = 0 <;> simp [init, hr]
  cd r c := by by_cases hr : r = 0 <;> simp [init, hr]
  lt r h := by simp [kept_iff, reg_iff, init] at h; simp [init, h]
  pos r h := by simp [reg_iff, init] at h
  rd := by simp [init]
  pr := by simp [init]
  pz := by simp [init]
  ids a b h := by simp [reg_iff, init] at h
  id0 := by simp [init]
  g1 := by simp [init]
  g2 := by simp [init]
  g3 := by simp [init]
  g4 := by simp [init]

theorem clear_inv {s : S} (h : Inv s) (r : Nat) : Inv (clear s r) where
  b1 c x := by
    simp only [clear]
    by_cases hx : x = r
    · subst hx
      rw [if_pos rfl]
      simp only [reduceCtorEq, List.not_mem_nil, or_self, iff_false]
      split
      · simp
      · next hn => rw [h.b1 c x]; exact hn
    · rw [if_neg hx]
      split
      · next hc =>
        have := (h.b1 c r).2 hc
        constructor
        · simp
        · intro hb
          have := (h.b1 c x).2 hb
          simp_all
      · exact h.b1 c x
  nd x := by simp only [clear]; split
             · exact List.nodup_nil
             · exact h.nd x
  cd x c := by simp only [clear]; split
               · simp
               · exact h.cd x c
  lt := h.lt
  pos := h.pos
  rd := h.rd
  pr := h.pr
  pz := h.pz
  ids a b ha hb := by
    have e : ∀ x, ((clear s r).ep x).id = (s.ep x).id := by
      intro x; simp only [clear]; split
      · next hx => rw [hx]
      · rfl
    rw [e, e]; exact h.ids a b ha hb
  id0 := by
    simp only [clear]; split
    · next hx => rw [← hx]; exact h.id0
    · exact h.id0
  g1 := h.g1
  g2 := h.g2
  g3 := h.g3
  g4 := h.g4

theorem gcAdd_inv {s : S} (h : Inv s) {r : Nat} (hr : r < s.next) : Inv (gcAdd s r) := by
  unfold gcAdd
  split
  · exact h
  · next hg =>
    have hg : s.inGc = false := by simpa using hg
    exact
      { b1 := h.b1, nd := h.nd, cd := h.cd
        lt := by
          intro x hx
          rw [kept_iff] at hx
          rcases hx with hx | hx | hx | hx
          · exact h.lt x (kept_iff.2 (.inl hx))
          · exact h.lt x (kept_iff.2 (.inr (.inl hx)))
          · rcases List.mem_append.1 hx with hx | hx
            · exact h.lt x (kept_iff.2 (.inr (.inr (.inl hx))))
            · rw [List.mem_singleton.1 hx]; exact hr
          · exact h.lt x (kept_iff.2 (.inr (.inr (.inr hx))))
        pos := h.pos, rd := h.rd, pr := h.pr, pz := h.pz, ids := h.ids, id0 := h.id0
        g1 := by intro he; exact absurd (he : s.inGc = true) (by rw [hg]; simp)
        g2 := h.g2, g3 := h.g3, g4 := h.g4 }

/-- Ghosts do not matter. -/
theorem ghost_inv {s : S} (h : Inv s) (l f : Bool) (ls : List Nat) :
    Inv { s with late := l, fell := f, listened := ls } :=
  { b1 := h.b1, nd := h.nd, cd := h.cd, lt := h.lt, pos := h.pos, rd := h.rd, pr := h.pr, pz := h.pz, ids := h.ids
    id0 := h.id0, g1 := h.g1, g2 := h.g2, g3 := h.g3, g4 := h.g4 }

theorem resetEp_inv {s : S} (h : Inv s) {r : Nat} (hr : r < s.next) : Inv (resetEp s r) := by
  unfold resetEp
  exact gcAdd_inv (s := { clear s r with late := _ }) (ghost_inv (clear_inv h r) _ s.fell s.listened) hr

/-- A bound connection belongs to an object that is held. -/
theorem bound_kept {s : S} (h : Inv s) (hc : Clean s) {c r : Nat} (hb : (s.conn c).bound = some r) : s.kept r = true := by
  cases hk : s.kept r with
  | true => rfl
  | false =>
    have := (h.b1 c r).1 hb
    rw [hc r hk] at this
    simp at this

theorem free_conn {s : S} (h : Inv s) {c : Nat} (hc : (s.conn c).bound = none) (k : Conn) (hk : k.bound = none) :
    Inv (s.setConn c k) where
  b1 x r := by
    simp only [S.setConn]
    split
    · next hx =>
      subst hx
      rw [hk, ← hc]; exact h.b1 x r
    · exact h.b1 x r
  nd := h.nd
  cd := h.cd
  lt := h.lt
  pos := h.pos
  rd := h.rd
  pr := h.pr
  pz := h.pz
  ids := h.ids
  id0 := h.id0
  g1 := h.g1
  g2 := h.g2
  g3 := h.g3
  g4 := h.g4

/-- Only `live` changes. -/
theorem live_inv {s : S} (h : Inv s) (c : Nat) (b : Bool) : Inv (s.setConn c { s.conn c with live := b }) where
  b1 x r := by
    simp only [S.setConn]
    split
    · next hx => subst hx; exact h.b1 x r
    · exact h.b1 x r
  nd := h.nd
  cd := h.cd
  lt := h.lt
  pos := h.pos
  rd := h.rd
  pr := h.pr
  pz := h.pz
  ids := h.ids
  id0 := h.id0
  g1 := h.g1
  g2 := h.g2
  g3 := h.g3
  g4 := h.g4

theorem addConn_inv {s : S} (h : Inv s) {r c : Nat} (hc : (s.conn c).bound = none) (f : Bool) : Inv (addConn s r c f) := by
  have hno : ∀ x, (s.ep x).ctrl ≠ some c ∧ c ∉ (s.ep x).data := by
    intro x
    have := mt (h.b1 c x).2 (by rw [hc]; simp)
    exact not_or.1 this
  have key : ∀ e : Ep, e.id = (s.ep r).id → e.data.Nodup → (∀ d, e.ctrl = some d → d ∉ e.data) →
      (∀ d, (e.ctrl = some d ∨ d ∈ e.data) ↔ d = c ∨ (s.ep r).ctrl = some d ∨ d ∈ (s.ep r).data) →
      Inv ((s.setConn c { s.conn c with bound := some r }).setEp r e) := by
    intro e hid hnd hcd hm
    exact
      { b1 := by
          intro d x
          simp only [S.setConn, S.setEp]
          by_cases hd : d = c
          · subst hd
            rw [if_pos rfl]
            by_cases hx : x = r
            · subst hx; rw [if_pos rfl, hm]; simp
            · rw [if_neg hx]
              constructor
              · intro e; cases e; exact absurd rfl hx
              · intro e; exact absurd e (not_or.2 (hno x))
          · rw [if_neg hd]
            by_cases hx : x = r
            · subst hx; rw [if_pos rfl, hm, h.b1 d x]; simp [hd]
            · rw [if_neg hx]; exact h.b1 d x
        nd := by
          intro x; simp only [S.setConn, S.setEp]; split
          · exact hnd
          · exact h.nd x
        cd := by
          intro x d; simp only [S.setConn, S.setEp]; split
          · exact hcd d
          · exact h.cd x d
        lt := h.lt, pos := h.pos, rd := h.rd, pr := h.pr, pz := h.pz
        ids := by
          have e' : ∀ x, (if x = r then e else s.ep x).id = (s.ep x).id := by
            intro x; split
            · next hx => rw [hx, hid]
            · rfl
          intro a b ha hb he
          simp only [S.setConn, S.setEp] at he
          rw [e', e'] at he
          exact h.ids a b ha hb he
        id0 := by
          simp only [S.setConn, S.setEp]; split
          · next hx => rw [hid, ← hx]; exact h.id0
          · exact h.id0
        g1 := h.g1, g2 := h.g2, g3 := h.g3, g4 := h.g4 }
  unfold addConn
  split
  · next hf =>
    refine key _ rfl ?_ ?_ ?_
    · rw [List.nodup_append]
      exact ⟨h.nd r, by simp, by intro a ha b hb; simp at hb; subst hb; intro e; subst e; exact (hno r).2 ha⟩
    · intro d hd hm
      rcases List.mem_append.1 hm with hm | hm
      · exact h.cd r d hd hm
      · simp at hm; subst hm; exact (hno r).1 hd
    · intro d; simp only [List.mem_append, List.mem_singleton]
      constructor
      · rintro (e | e | e)
        · exact .inr (.inl e)
        · exact .inr (.inr e)
        · exact .inl e
      · rintro (e | e | e)
        · exact .inr (.inr e)
        · exact .inl e
        · exact .inr (.inl e)
  · next hf =>
    have hn : (s.ep r).ctrl = none := by
      cases hq : (s.ep r).ctrl with
      | none => rfl
      | some q => simp [hq] at hf
    refine key _ rfl (h.nd r) ?_ ?_
    · intro d hd; cases hd; exact (hno r).2
    · intro d; rw [hn]; simp [eq_comm]

theorem lose_inv {s : S} (h : Inv s) (hc : Clean s) (c : Nat) : Inv (lose s c) := by
  unfold lose
  split
  · next hb => exact free_conn h hb _ rfl
  · next r hb =>
    have hr := h.lt r (bound_kept h hc hb)
    split
    · exact resetEp_inv h hr
    · next hn =>
      have hm : c ∈ (s.ep r).data := by
        rcases (h.b1 c r).1 hb with e | e
        · exact absurd e hn
        · exact e
      have hi : Inv ((s.setConn c {}).setEp r { s.ep r with data := (s.ep r).data.erase c }) :=
        { b1 := by
            intro d x
            simp only [S.setConn, S.setEp]
            by_cases hd : d = c
            · subst hd
              rw [if_pos rfl]
              by_cases hx : x = r
              · subst hx; rw [if_pos rfl]
                simp only [reduceCtorEq, false_iff, not_or]
                exact ⟨hn, fun e => (List.Nodup.not_mem_erase (h.nd x)) e⟩
              · rw [if_neg hx]
                simp only [reduceCtorEq, false_iff]
                intro e
                have := (h.b1 d x).2 e
                rw [hb] at this; cases this; exact hx rfl
            · rw [if_neg hd]
              by_cases hx : x = r
              · subst hx; rw [if_pos rfl, List.mem_erase_of_ne hd]; exact h.b1 d x
              · rw [if_neg hx]; exact h.b1 d x
          nd := by
            intro x; simp only [S.setConn, S.setEp]; split
            · exact (h.nd r).erase c
            · exact h.nd x
          cd := by
            intro x d; simp only [S.setConn, S.setEp]; split
            · intro e hd; exact h.cd r d e (List.mem_of_mem_erase hd)
            · exact h.cd x d
          lt := h.lt, pos := h.pos, rd := h.rd, pr := h.pr, pz := h.pz
          ids := by
            have e' : ∀ x, (if x = r then { s.ep r with data := (s.ep r).data.erase c } else s.ep x).id = (s.ep x).id := by
              intro x; split
              · next hx => rw [hx]
              · rfl
            intro a b ha hb he
            simp only [S.setConn, S.setEp] at he
            rw [e', e'] at he
            exact h.ids a b ha hb he
          id0 := by
            simp only [S.setConn, S.setEp]; split
            · next hx => rw [← hx]; exact h.id0
            · exact h.id0
          g1 := h.g1, g2 := h.g2, g3 := h.g3, g4 := h.g4 }
      dsimp only
      split
      · exact resetEp_inv hi hr
      · exact hi

/-- Fewer registrations. -/
theorem unreg_inv {s : S} (h : Inv s) (p : Option Nat) (l : List Nat) (hp : p = s.parent ∨ p = none) (hl : List.Sublist l s.routes) :
    Inv { s with parent := p, routes := l } := by
  have hsub : ∀ x, ({ s with parent := p, routes := l } : S).reg x = true → s.reg x = true := by
    intro x hx
    rw [reg_iff] at hx ⊢
    rcases hx with hx | hx
    · rcases hp with e | e
      · left; exact e ▸ hx
      · rw [show p = none from e] at hx; cases hx
    · exact .inr (hl.subset hx)
  exact
    { b1 := h.b1, nd := h.nd, cd := h.cd
      lt := by
        intro x hx
        refine h.lt x (kept_iff.2 ?_)
        rcases kept_iff.1 hx with e | e | e | e
        · exact .inl e
        · exact .inr (.inl (hsub x e))
        · exact .inr (.inr (.inl e))
        · exact .inr (.inr (.inr e))
      pos := fun x hx => h.pos x (hsub x hx)
      rd := hl.nodup h.rd
      pr := by
        intro q hq hm
        rcases hp with e | e
        · exact h.pr q (e ▸ hq) (hl.subset hm)
        · rw [show p = none from e] at hq; cases hq
      pz := by
        intro hq
        rcases hp with e | e
        · exact h.pz (e ▸ hq)
        · exact absurd e hq
      ids := fun a b ha hb => h.ids a b (hsub a ha) (hsub b hb)
      id0 := h.id0, g1 := h.g1, g2 := h.g2, g3 := h.g3, g4 := h.g4 }

theorem removeEndpoint_inv {s : S} (h : Inv s) (id : Nat) (e : Option Nat) : Inv (removeEndpoint s id e) := by
  unfold removeEndpoint
  split
  · split
    · exact h
    · exact unreg_inv h none s.routes (.inr rfl) (List.Sublist.refl _)
  · split
    · exact h
    · split
      · exact h
      · split
        · exact h
        · exact unreg_inv h s.parent _ (.inl rfl) List.erase_sublist

theorem disconnect_inv {s : S} (h : Inv s) (id : Nat) : Inv (disconnect s id) := by
  unfold disconnect
  split
  · next p hp =>
    have hp : s.parent = some p := by
      cases hq : s.parent with
      | none => simp [hq] at hp
      | some q => simp only [hq, Option.filter_some] at hp; split at hp <;> simp_all
    exact resetEp_inv (unreg_inv h none s.routes (.inr rfl) (List.Sublist.refl _)) (h.lt p (kept_iff.2 (.inr (.inl (reg_iff.2 (.inl hp))))))
  · split
    · next r hr =>
      have hm := List.mem_of_find?_eq_some hr
      exact resetEp_inv (unreg_inv h s.parent _ (.inl rfl) List.erase_sublist) (h.lt r (kept_iff.2 (.inr (.inl (reg_iff.2 (.inr hm))))))
    · exact h

/-- `find` returns a registered endpoint with the id, if there is one. -/
theorem find_some {s : S} {id r : Nat} (hf : s.find id = some r) : s.reg r = true ∧ (s.ep r).id = id := by
  unfold S.find at hf
  split at hf
  · next hp =>
    simp only [S.isParent, hf, Bool.and_eq_true, beq_iff_eq] at hp
    exact ⟨reg_iff.2 (.inl hf), hp.2⟩
  · exact ⟨reg_iff.2 (.inr (List.mem_of_find?_eq_some hf)), by simpa using List.find?_some hf⟩

theorem find_none {s : S} (h : Inv s) {id : Nat} (hf : s.find id = none) : ∀ x, s.reg x = true → (s.ep x).id ≠ id := by
  intro x hx he
  unfold S.find at hf
  split at hf
  · next hp => simp [S.isParent, hf] at hp
  · next hp =>
    rcases reg_iff.1 hx with e | e
    · refine hp ?_
      simp [S.isParent, e, he]
      exact h.pz (by rw [e]; simp)
    · rw [List.find?_eq_none] at hf
      exact hf x e (by simp [he])

theorem register_inv {s : S} (h : Inv s) (hcl : Clean s) {c id : Nat} (p f : Bool) (hb : (s.conn c).bound = none) :
    Inv (register s c id p f) := by
  have hno : ∀ x, (s.ep x).ctrl ≠ some c ∧ c ∉ (s.ep x).data := by
    intro x
    have := mt (h.b1 c x).2 (by rw [hb]; simp)
    exact not_or.1 this
  have hk : s.kept s.next = false := by
    cases hk : s.kept s.next with
    | false => rfl
    | true => exact absurd (h.lt _ hk) (Nat.lt_irrefl _)
  have hnew := hcl _ hk
  have hreg : s.reg s.next = false := by
    cases hq : s.reg s.next with
    | false => rfl
    | true => rw [kept_iff.2 (.inr (.inl hq))] at hk; cases hk
  have hnext : s.next ≠ 0 := by
    intro e; rw [e] at hk; simp [S.kept] at hk
  have key : ∀ (q : Option Nat) (l : List Nat) (e : Ep), s.find id = none → e.id = id → e.ctrl = some c → e.data = [] →
      (q = some s.next ∧ l = s.routes ∧ s.parent = none ∧ s.own ≠ 0 ∨ q = s.parent ∧ l = s.routes ++ [s.next]) →
      Inv { (({ s with parent := q, routes := l } : S).setConn c { s.conn c with bound := some s.next }).setEp s.next e with
        next := s.next + 1 } := by
    intro q l e hf hid hct hda hq
    have hr : ∀ x, ({ s with parent := q, routes := l } : S).reg x = true → s.reg x = true ∨ x = s.next := by
      intro x hx
      rw [reg_iff] at hx
      rcases hq with ⟨h1, h2, h3, h4⟩ | ⟨h1, h2⟩
      · rcases hx with hx | hx
        · rw [show q = some s.next from h1] at hx; cases hx; exact .inr rfl
        · rw [show l = s.routes from h2] at hx; exact .inl (reg_iff.2 (.inr hx))
      · rcases hx with hx | hx
        · rw [show q = s.parent from h1] at hx; exact .inl (reg_iff.2 (.inl hx))
        · rw [show l = s.routes ++ [s.next] from h2] at hx
          rcases List.mem_append.1 hx with hx | hx
          · exact .inl (reg_iff.2 (.inr hx))
          · exact .inr (by simpa using hx)
    have hnr : s.next ∉ s.routes := by
      intro hm; rw [reg_iff.2 (.inr hm)] at hreg; cases hreg
    exact
      { b1 := by
          intro d x
          simp only [S.setConn, S.setEp]
          by_cases hd : d = c
          · subst hd
            rw [if_pos rfl]
            by_cases hx : x = s.next
            · subst hx; rw [if_pos rfl, hct]; simp
            · rw [if_neg hx]
              constructor
              · intro e; cases e; exact absurd rfl hx
              · intro e; exact absurd e (not_or.2 (hno x))
          · rw [if_neg hd]
            by_cases hx : x = s.next
            · subst hx; rw [if_pos rfl, hct, hda, h.b1, hnew]
              simp
              intro e; exact hd e.symm
            · rw [if_neg hx]; exact h.b1 d x
        nd := by
          intro x; simp only [S.setConn, S.setEp]; split
          · rw [hda]; exact List.nodup_nil
          · exact h.nd x
        cd := by
          intro x d; simp only [S.setConn, S.setEp]; split
          · rw [hda]; simp
          · exact h.cd x d
        lt := by
          intro x hx
          show x < s.next + 1
          rcases kept_iff.1 hx with e | e | e | e
          · omega
          · rcases hr x e with e | e
            · exact Nat.lt_succ_of_lt (h.lt x (kept_iff.2 (.inr (.inl e))))
            · omega
          · exact Nat.lt_succ_of_lt (h.lt x (kept_iff.2 (.inr (.inr (.inl e)))))
          · exact Nat.lt_succ_of_lt (h.lt x (kept_iff.2 (.inr (.inr (.inr e)))))
        pos := by
          intro x hx
          rcases hr x hx with e | e
          · exact h.pos x e
          · rw [e]; exact hnext
        rd := by
          show l.Nodup
          rcases hq with ⟨h1, h2, h3, h4⟩ | ⟨h1, h2⟩
          · rw [h2]; exact h.rd
          · rw [h2, List.nodup_append]
            exact ⟨h.rd, by simp, by intro a ha b hb; simp at hb; subst hb; intro e; subst e; exact hnr ha⟩
        pr := by
          intro x hx
          show x ∉ l
          have hx : q = some x := hx
          rcases hq with ⟨h1, h2, h3, h4⟩ | ⟨h1, h2⟩
          · rw [h2]; rw [h1] at hx; cases hx; exact hnr
          · rw [h2]; rw [h1] at hx
            intro hm
            rcases List.mem_append.1 hm with hm | hm
            · exact h.pr x hx hm
            · simp at hm; subst hm
              rw [reg_iff.2 (.inl hx)] at hreg; cases hreg
        pz := by
          intro hx
          have hx : q ≠ none := hx
          show s.own ≠ 0
          rcases hq with ⟨h1, h2, h3, h4⟩ | ⟨h1, h2⟩
          · exact h4
          · exact h.pz (h1 ▸ hx)
        ids := by
          intro a b ha hb' he
          simp only [S.setConn, S.setEp] at he
          rcases hr a ha with ea | ea <;> rcases hr b hb' with eb | eb
          · have na : a ≠ s.next := by intro e; rw [e, hreg] at ea; cases ea
            have nb : b ≠ s.next := by intro e; rw [e, hreg] at eb; cases eb
            rw [if_neg na, if_neg nb] at he
            exact h.ids a b ea eb he
          · have na : a ≠ s.next := by intro e; rw [e, hreg] at ea; cases ea
            rw [if_neg na, if_pos eb, hid] at he
            exact absurd he (find_none h hf a ea)
          · have nb : b ≠ s.next := by intro e; rw [e, hreg] at eb; cases eb
            rw [if_pos ea, if_neg nb, hid] at he
            exact absurd he.symm (find_none h hf b eb)
          · rw [ea, eb]
        id0 := by
          simp only [S.setConn, S.setEp]; rw [if_neg hnext.symm]; exact h.id0
        g1 := h.g1, g2 := h.g2, g3 := h.g3, g4 := h.g4 }
  unfold register
  split
  · exact addConn_inv h hb f
  · next hf =>
    dsimp only
    split
    · next hp =>
      split
      · exact free_conn h hb _ rfl
      · next hn =>
        have hn : s.parent = none := by simpa using hn
        exact key (some s.next) s.routes _ hf rfl rfl rfl (.inl ⟨rfl, rfl, hn, hp.2⟩)
    · exact key s.parent (s.routes ++ [s.next]) _ hf rfl rfl rfl (.inr ⟨rfl, rfl⟩)

theorem act_inv {s : S} (h : Inv s) (hc : Clean s) (op : Op) : Inv (act s op) := by
  cases op with
  | opened c =>
    simp only [act]; split
    · next he => exact free_conn h (by rw [he]) _ rfl
    · exact h
  | down c =>
    simp only [act]
    exact ghost_inv (live_inv h c false) _ _ _
  | lose c =>
    exact lose_inv (s := { s with fell := s.fell || (s.conn c).bound == some 0 }) (ghost_inv h _ _ _) hc c
  | register c id p f =>
    simp only [act]; split
    · next hb => exact register_inv h hc p f hb.2
    · exact h
  | connect c r f =>
    simp only [act]; split
    · next hb =>
      exact addConn_inv (free_conn h (by rw [hb.1]) _ rfl) (by simp [S.setConn]) f
    · exact h
  | listen c =>
    simp only [act]; split
    · next hb =>
      exact ghost_inv (addConn_inv (free_conn h (by rw [hb]) _ rfl) (by simp [S.setConn]) false) _ _ _
    · exact h
  | suspect r =>
    simp only [act]; split
    · next hk => exact gcAdd_inv (s := { s with fell := _ }) (ghost_inv h _ _ _) (h.lt r hk)
    · exact h
  | retime r =>
    simp only [act]; split
    · exact
        { b1 := by intro c x; simp only [S.setEp]; split
                   · next hx => rw [hx]; exact h.b1 c r
                   · exact h.b1 c x
          nd := by intro x; simp only [S.setEp]; split
                   · exact h.nd r
                   · exact h.nd x
          cd := by intro x; simp only [S.setEp]; split
                   · exact h.cd r
                   · exact h.cd x
          lt := h.lt, pos := h.pos, rd := h.rd, pr := h.pr, pz := h.pz
          ids := by
            have e' : ∀ x, (if x = r then { s.ep r with timer := true } else s.ep x).id = (s.ep x).id := by
              intro x; split
              · next hx => rw [hx]
              · rfl
            intro a b ha hb he
            simp only [S.setEp] at he
            rw [e', e'] at he
            exact h.ids a b ha hb he
          id0 := by
            simp only [S.setEp]; split
            · next hx => rw [← hx]; exact h.id0
            · exact h.id0
          g1 := h.g1, g2 := h.g2, g3 := h.g3, g4 := h.g4 }
    · exact h
  | disconnect id => exact disconnect_inv h id
  | remove id => exact removeEndpoint_inv h id none
  | begin =>
    simp only [act]; split
    · next hg =>
      exact
        { b1 := h.b1, nd := h.nd, cd := h.cd
          lt := by
            intro x hx
            refine h.lt x (kept_iff.2 ?_)
            rcases kept_iff.1 hx with e | e | e | e
            · exact .inl e
            · exact .inr (.inl e)
            · exact absurd e (List.not_mem_nil)
            · exact .inr (.inr (.inl e))
          pos := h.pos, rd := h.rd, pr := h.pr, pz := h.pz, ids := h.ids, id0 := h.id0
          g1 := fun _ => rfl
          g2 := fun e => nomatch e
          g3 := fun r hr => hr
          g4 := by
            intro r hr
            have : s.cur = some r := hr
            rw [(h.g2 hg.1).2.2] at this; cases this }
    · exact h
  | check =>
    simp only [act]; split
    · next r t hg hcu hr =>
      have ht : ∀ x ∈ t, x ∈ s.held := fun x hx => h.g3 x (by rw [hr]; exact List.mem_cons_of_mem _ hx)
      split
      · exact
          { b1 := h.b1, nd := h.nd, cd := h.cd, lt := h.lt, pos := h.pos, rd := h.rd, pr := h.pr, pz := h.pz, ids := h.ids
            id0 := h.id0, g1 := h.g1
            g2 := fun e => by rw [show s.inGc = true from hg] at e; cases e
            g3 := ht
            g4 := h.g4 }
      · have h' := clear_inv h r
        exact
          { b1 := h'.b1, nd := h'.nd, cd := h'.cd, lt := h'.lt, pos := h'.pos, rd := h'.rd, pr := h'.pr, pz := h'.pz, ids := h'.ids
            id0 := h'.id0, g1 := h'.g1
            g2 := fun e => by have e : s.inGc = false := e; rw [hg] at e; cases e
            g3 := ht
            g4 := by intro x hx; cases hx; exact h.g3 r (by rw [hr]; exact List.mem_cons_self ..) }
    · exact h
  | removal =>
    simp only [act]; split
    · next r hcu =>
      have h' := removeEndpoint_inv h (s.ep r).id (some r)
      exact
        { b1 := h'.b1, nd := h'.nd, cd := h'.cd, lt := h'.lt, pos := h'.pos, rd := h'.rd, pr := h'.pr, pz := h'.pz, ids := h'.ids
          id0 := h'.id0, g1 := h'.g1
          g2 := fun e => by have := h'.g2 e; exact ⟨this.1, this.2.1, rfl⟩
          g3 := h'.g3
          g4 := fun x hx => nomatch hx }
    · exact h
  | finish =>
    simp only [act]; split
    · next hg =>
      exact
        { b1 := h.b1, nd := h.nd, cd := h.cd
          lt := by
            intro x hx
            refine h.lt x (kept_iff.2 ?_)
            rcases kept_iff.1 hx with e | e | e | e
            · exact .inl e
            · exact .inr (.inl e)
            · exact absurd e (List.not_mem_nil)
            · exact absurd e (List.not_mem_nil)
          pos := h.pos, rd := h.rd, pr := h.pr, pz := h.pz, ids := h.ids, id0 := h.id0
          g1 := fun e => nomatch e
          g2 := fun _ => ⟨rfl, hg.2.1, hg.2.2⟩
          g3 := by intro x hx; have : x ∈ s.rest := hx; rw [hg.2.1] at this; cases this
          g4 := by intro x hx; have : s.cur = some x := hx; rw [hg.2.2] at this; cases this }
    · exact h

theorem init_clean (own : Nat) (ping : Bool) : Clean (init own ping) := by
  intro r hk
  have : r ≠ 0 := by intro e; rw [e] at hk; simp [S.kept] at hk
  simp [init, this]

theorem run_inv (own : Nat) (ping : Bool) (ops : List Op) :
    Inv (run (init own ping) ops) ∧ Clean (run (init own ping) ops) := by
  unfold run
  suffices ∀ s, Inv s → Clean s → Inv (ops.foldl step s) ∧ Clean (ops.foldl step s) from
    this _ (init_inv own ping) (init_clean own ping)
  induction ops with
  | nil => intro s h hc; exact ⟨h, hc⟩
  | cons o os ih => intro s h hc; exact ih _ (sweep_inv (act_inv h hc o)) (sweep_clean _)

/-! ### Endpoints without control connection are to be collected -/

/-- On the way to being collected. -/
def Pend (s : S) (r : Nat) : Prop := r ∈ s.gc ∨ r ∈ s.rest ∨ s.cur = some r

/-- Every registered endpoint without control connection is. -/
def Alive (s : S) : Prop := s.late = false → ∀ r, s.reg r = true → (s.ep r).ctrl = none → (s.ep r).id ≠ s.own → Pend s r

/-- Registered endpoints with control connection have a ping timer, or got the connection after their registration. -/
def Timed (s : S) : Prop := s.ping = true → ∀ r, s.reg r = true → (s.ep r).ctrl ≠ none → (s.ep r).id ≠ s.own →
  (s.ep r).timer = true ∨ (s.ep r).back = true

theorem alive_of {s t : S} (h : Alive s) (hl : t.late = false → s.late = false) (ho : t.own = s.own)
    (hr : ∀ r, t.reg r = true → (t.ep r).ctrl = none → (t.ep r).id ≠ s.own → s.reg r = true ∧ (s.ep r).ctrl = none ∧ (s.ep r).id = (t.ep r).id)
    (hp : ∀ r, t.reg r = true → (t.ep r).id ≠ s.own → Pend s r → Pend t r) : Alive t := by
  intro hf r h1 h2 h3
  rw [ho] at h3
  obtain ⟨a, b, c⟩ := hr r h1 h2 h3
  exact hp r h1 h3 (h (hl hf) r a b (by rw [c]; exact h3))

theorem timed_of {s t : S} (h : Timed s) (hp : t.ping = s.ping) (ho : t.own = s.own)
    (hr : ∀ r, t.reg r = true → (t.ep r).ctrl ≠ none → (t.ep r).id ≠ s.own → s.ping = true → ((t.ep r).timer = true ∨ (t.ep r).back = true) ∨
      s.reg r = true ∧ (s.ep r).ctrl ≠ none ∧ (s.ep r).id = (t.ep r).id ∧ ((s.ep r).timer = true → (t.ep r).timer = true) ∧
      ((s.ep r).back = true → (t.ep r).back = true)) : Timed t := by
  intro hf r h1 h2 h3
  rw [hp] at hf
  rw [ho] at h3
  rcases hr r h1 h2 h3 hf with e | ⟨a, b, c, d, e⟩
  · exact e
  · rcases h hf r a b (by rw [c]; exact h3) with k | k
    · exact .inl (d k)
    · exact .inr (e k)

theorem sweep_alive {s : S} (h : Alive s) : Alive (sweep s) := by
  refine alive_of h id rfl ?_ (fun _ _ _ e => e)
  intro r hr hc _
  have hk : s.kept r = true := kept_iff.2 (.inr (.inl hr))
  rw [sweep_ep hk] at hc ⊢
  exact ⟨hr, hc, rfl⟩

theorem sweep_timed {s : S} (h : Timed s) : Timed (sweep s) := by
  refine timed_of h rfl rfl ?_
  intro r hr hc _ _
  have hk : s.kept r = true := kept_iff.2 (.inr (.inl hr))
  rw [sweep_ep hk] at hc ⊢
  exact .inr ⟨hr, hc, rfl, id, id⟩

theorem gcAdd_reg (s : S) (r x : Nat) : (gcAdd s r).reg x = s.reg x := by unfold gcAdd; split <;> rfl
theorem gcAdd_ep (s : S) (r : Nat) : (gcAdd s r).ep = s.ep := by unfold gcAdd; split <;> rfl
theorem gcAdd_conn (s : S) (r : Nat) : (gcAdd s r).conn = s.conn := by unfold gcAdd; split <;> rfl
theorem gcAdd_own (s : S) (r : Nat) : (gcAdd s r).own = s.own := by unfold gcAdd; split <;> rfl
theorem gcAdd_ping (s : S) (r : Nat) : (gcAdd s r).ping = s.ping := by unfold gcAdd; split <;> rfl
theorem gcAdd_late (s : S) (r : Nat) : (gcAdd s r).late = s.late := by unfold gcAdd; split <;> rfl
theorem gcAdd_fell (s : S) (r : Nat) : (gcAdd s r).fell = s.fell := by unfold gcAdd; split <;> rfl
theorem gcAdd_listened (s : S) (r : Nat) : (gcAdd s r).listened = s.listened := by unfold gcAdd; split <;> rfl
theorem gcAdd_pend {s : S} {r x : Nat} (h : Pend s x) : Pend (gcAdd s r) x := by
  unfold gcAdd; split
  · exact h
  · rcases h with h | h | h
    · exact .inl (List.mem_append_left _ h)
    · exact .inr (.inl h)
    · exact .inr (.inr h)

theorem gcAdd_alive {s : S} (h : Alive s) (r : Nat) : Alive (gcAdd s r) :=
  alive_of h (by rw [gcAdd_late]; exact id) (gcAdd_own s r)
    (by intro x; rw [gcAdd_reg, gcAdd_ep]; intro a b _; exact ⟨a, b, rfl⟩) (fun x _ _ e => gcAdd_pend e)

theorem gcAdd_timed {s : S} (h : Timed s) (r : Nat) : Timed (gcAdd s r) :=
  timed_of h (gcAdd_ping s r) (gcAdd_own s r)
    (by intro x; rw [gcAdd_reg, gcAdd_ep]; intro a b _ _; exact .inr ⟨a, b, rfl, id, id⟩)

theorem clear_ep_ne {s : S} {r x : Nat} (h : x ≠ r) : (clear s r).ep x = s.ep x := by simp [clear, h]
theorem clear_ep_eq (s : S) (r : Nat) : (clear s r).ep r = { s.ep r with ctrl := none, data := [], timer := false } := by simp [clear]

theorem resetEp_reg (s : S) (r x : Nat) : (resetEp s r).reg x = s.reg x := by unfold resetEp; rw [gcAdd_reg]; rfl
theorem resetEp_ep (s : S) (r : Nat) : (resetEp s r).ep = (clear s r).ep := by unfold resetEp; rw [gcAdd_ep]
theorem resetEp_own (s : S) (r : Nat) : (resetEp s r).own = s.own := by unfold resetEp; rw [gcAdd_own]; rfl

theorem resetEp_alive {s : S} (h : Alive s) (r : Nat) : Alive (resetEp s r) := by
  intro hl x hx hc hi
  rw [resetEp_reg] at hx
  rw [resetEp_ep] at hc hi
  rw [resetEp_own] at hi
  have hl' : (s.late || (s.inGc && s.reg r && !s.rest.contains r && s.cur != some r)) = false := by
    unfold resetEp at hl; rw [gcAdd_late] at hl; exact hl
  rw [Bool.or_eq_false_iff] at hl'
  by_cases e : x = r
  · subst e
    unfold resetEp
    unfold gcAdd
    split
    · next hg =>
      have hg : s.inGc = true := hg
      have := hl'.2
      simp only [hg, hx, Bool.true_and, Bool.and_eq_false_iff] at this
      rcases this with this | this
      · exact .inr (.inl (show x ∈ s.rest by simpa using this))
      · exact .inr (.inr (show s.cur = some x by simpa using this))
    · exact .inl (by simp)
  · rw [clear_ep_ne e] at hc hi
    have := h hl'.1 x hx hc hi
    unfold resetEp
    exact gcAdd_pend (show Pend { clear s r with late := _ } x from this)

theorem resetEp_timed {s : S} (h : Timed s) (r : Nat) : Timed (resetEp s r) := by
  refine timed_of h (by unfold resetEp; rw [gcAdd_ping]; rfl) (resetEp_own s r) ?_
  intro x hx hc hi _
  rw [resetEp_reg] at hx
  rw [resetEp_ep] at hc hi ⊢
  by_cases e : x = r
  · subst e; rw [clear_ep_eq] at hc; exact absurd rfl hc
  · rw [clear_ep_ne e] at hc hi ⊢; exact .inr ⟨hx, hc, rfl, id, id⟩

/-- Only endpoint `r` changes, and keeps its control connection and the rest. -/
theorem setEp_alive {s : S} (h : Alive s) {r : Nat} {e : Ep} (hi : e.id = (s.ep r).id) (hc : e.ctrl = none → (s.ep r).ctrl = none) :
    Alive (s.setEp r e) := by
  refine alive_of h id rfl ?_ (fun _ _ _ x => x)
  intro x hx h1 h2
  simp only [S.setEp] at h1 ⊢
  split at h1
  · next hxr => subst hxr; rw [if_pos rfl]; exact ⟨hx, hc h1, hi.symm⟩
  · next hxr => rw [if_neg hxr]; exact ⟨hx, h1, rfl⟩

theorem setEp_timed {s : S} (h : Timed s) {r : Nat} {e : Ep} (hi : e.id = (s.ep r).id)
    (hc : s.reg r = true → e.ctrl ≠ none → (s.ep r).ctrl ≠ none ∧ ((s.ep r).timer = true → e.timer = true) ∧ ((s.ep r).back = true → e.back = true) ∨
      e.timer = true ∨ e.back = true) : Timed (s.setEp r e) := by
  refine timed_of h rfl rfl ?_
  intro x hx h1 h2 _
  simp only [S.setEp] at h1 ⊢
  split at h1
  · next hxr =>
    subst hxr; rw [if_pos rfl]
    rcases hc hx h1 with ⟨a, b, c⟩ | a
    · exact .inr ⟨hx, a, hi.symm, b, c⟩
    · exact .inl a
  · next hxr => rw [if_neg hxr]; exact .inr ⟨hx, h1, rfl, id, id⟩

theorem addConn_alive {s : S} (h : Alive s) (r c : Nat) (f : Bool) : Alive (addConn s r c f) := by
  unfold addConn
  refine setEp_alive (s := s.setConn c _) h ?_ ?_
  · split <;> rfl
  · split
    · exact id
    · intro e; cases e

theorem addConn_timed {s : S} (h : Timed s) (r c : Nat) (f : Bool) : Timed (addConn s r c f) := by
  unfold addConn
  refine setEp_timed (s := s.setConn c _) h ?_ ?_
  · split <;> rfl
  · intro hr
    split
    · intro e; exact .inl ⟨e, id, id⟩
    · intro _
      have hr : s.reg r = true := hr
      exact .inr (.inr (by simp [hr]))

theorem lose_alive {s : S} (h : Alive s) (c : Nat) : Alive (lose s c) := by
  unfold lose
  split
  · exact h
  · split
    · exact resetEp_alive h _
    · next r _ _ =>
      have : Alive ((s.setConn c {}).setEp r { s.ep r with data := (s.ep r).data.erase c }) :=
        setEp_alive (s := s.setConn c _) h rfl id
      dsimp only
      split
      · exact resetEp_alive this _
      · exact this

theorem lose_timed {s : S} (h : Timed s) (c : Nat) : Timed (lose s c) := by
  unfold lose
  split
  · exact h
  · split
    · exact resetEp_timed h _
    · next r _ _ =>
      have : Timed ((s.setConn c {}).setEp r { s.ep r with data := (s.ep r).data.erase c }) :=
        setEp_timed (s := s.setConn c _) h rfl (fun _ e => .inl ⟨e, id, id⟩)
      dsimp only
      split
      · exact resetEp_timed this _
      · exact this

/-- `removeEndpoint` changes the registrations only. -/
theorem removeEndpoint_shape (s : S) (id : Nat) (e : Option Nat) :
    ∃ p l, removeEndpoint s id e = { s with parent := p, routes := l } ∧ (p = s.parent ∨ p = none) ∧ List.Sublist l s.routes := by
  unfold removeEndpoint
  split
  · split
    · exact ⟨s.parent, s.routes, rfl, .inl rfl, List.Sublist.refl _⟩
    · exact ⟨none, s.routes, rfl, .inr rfl, List.Sublist.refl _⟩
  · split
    · exact ⟨s.parent, s.routes, rfl, .inl rfl, List.Sublist.refl _⟩
    · split
      · exact ⟨s.parent, s.routes, rfl, .inl rfl, List.Sublist.refl _⟩
      · split
        · exact ⟨s.parent, s.routes, rfl, .inl rfl, List.Sublist.refl _⟩
        · exact ⟨s.parent, _, rfl, .inl rfl, List.erase_sublist⟩

theorem unreg_sub {s : S} {p : Option Nat} {l : List Nat} (hp : p = s.parent ∨ p = none) (hl : List.Sublist l s.routes) {x : Nat}
    (hx : ({ s with parent := p, routes := l } : S).reg x = true) : s.reg x = true := by
  rw [reg_iff] at hx ⊢
  rcases hx with hx | hx
  · rcases hp with e | e
    · exact .inl (e ▸ hx)
    · rw [show p = none from e] at hx; cases hx
  · exact .inr (hl.subset hx)

theorem unreg_alive {s : S} (h : Alive s) {p : Option Nat} {l : List Nat} (hp : p = s.parent ∨ p = none) (hl : List.Sublist l s.routes) :
    Alive { s with parent := p, routes := l } :=
  alive_of h id rfl (fun _ a b _ => ⟨unreg_sub hp hl a, b, rfl⟩) (fun _ _ _ e => e)

theorem unreg_timed {s : S} (h : Timed s) {p : Option Nat} {l : List Nat} (hp : p = s.parent ∨ p = none) (hl : List.Sublist l s.routes) :
    Timed { s with parent := p, routes := l } :=
  timed_of h rfl rfl (fun _ a b _ _ => .inr ⟨unreg_sub hp hl a, b, rfl, id, id⟩)

/-- The removal at the end of the treatment of one entry removes that object and nothing else, unless it has the
node's own id. -/
theorem removal_exact {s : S} (h : Inv s) (r : Nat) :
    (∀ x, x ∈ (removeEndpoint s (s.ep r).id (some r)).routes ↔ x ∈ s.routes ∧ (x ≠ r ∨ (s.ep r).id = s.own)) ∧
    (∀ x, (removeEndpoint s (s.ep r).id (some r)).parent = some x ↔ s.parent = some x ∧ x ≠ r) := by
  by_cases hp : s.parent = some r
  · have hi : s.isParent (s.ep r).id = true := by
      simp [S.isParent, hp]; exact h.pz (by rw [hp]; simp)
    unfold removeEndpoint
    rw [if_pos hi, if_neg (by simp [hp])]
    constructor
    · intro x
      constructor
      · intro hx; exact ⟨hx, .inl (by intro e; subst e; exact h.pr _ hp hx)⟩
      · exact fun hx => hx.1
    · intro x
      constructor
      · intro e; cases e
      · intro ⟨a, b⟩; rw [hp] at a; cases a; exact absurd rfl b
  · by_cases hr : r ∈ s.routes
    · have hi : s.isParent (s.ep r).id = false := by
        cases hb : s.isParent (s.ep r).id with
        | false => rfl
        | true =>
          exfalso
          unfold S.isParent at hb
          cases hq : s.parent with
          | none => simp [hq] at hb
          | some q =>
            simp only [hq, Bool.and_eq_true, beq_iff_eq] at hb
            have := h.ids q r (reg_iff.2 (.inl hq)) (reg_iff.2 (.inr hr)) hb.2
            subst this; exact hp hq
      have hfind : s.routes.find? (fun x => (s.ep x).id == (s.ep r).id) = some r := by
        cases hf : s.routes.find? (fun x => (s.ep x).id == (s.ep r).id) with
        | none => rw [List.find?_eq_none] at hf; exact absurd (by simp) (hf r hr)
        | some y =>
          have h1 := List.mem_of_find?_eq_some hf
          have h2 : (s.ep y).id = (s.ep r).id := by simpa using List.find?_some hf
          rw [h.ids y r (reg_iff.2 (.inr h1)) (reg_iff.2 (.inr hr)) h2]
      unfold removeEndpoint
      rw [if_neg (by rw [hi]; simp)]
      split
      · next ho =>
        constructor
        · intro x; simp [ho]
        · intro x
          constructor
          · intro e; exact ⟨e, by intro k; subst k; exact hp e⟩
          · exact fun e => e.1
      · next ho =>
        rw [hfind]
        simp only [ne_eq, not_true_eq_false, and_false, if_false]
        constructor
        · intro x
          rw [h.rd.mem_erase_iff]
          constructor
          · intro ⟨a, b⟩; exact ⟨b, .inl a⟩
          · intro ⟨a, b⟩; rcases b with b | b
            · exact ⟨b, a⟩
            · exact absurd b ho
        · intro x
          constructor
          · intro e; exact ⟨e, by intro k; subst k; exact hp e⟩
          · exact fun e => e.1
    · have : removeEndpoint s (s.ep r).id (some r) = s := by
        unfold removeEndpoint
        split
        · rw [if_pos ⟨rfl, hp⟩]
        · split
          · rfl
          · split
            · rfl
            · next y hy =>
              rw [if_pos]
              refine ⟨rfl, ?_⟩
              intro e; cases e; exact hr (List.mem_of_find?_eq_some hy)
      rw [this]
      constructor
      · intro x
        constructor
        · intro hx; exact ⟨hx, .inl (by intro e; subst e; exact hr hx)⟩
        · exact fun e => e.1
      · intro x
        constructor
        · intro e; exact ⟨e, by intro k; subst k; exact hp e⟩
        · exact fun e => e.1

theorem register_alive {s : S} (h : Alive s) (hi : Inv s) (c id : Nat) (p f : Bool) : Alive (register s c id p f) := by
  unfold register
  split
  · exact addConn_alive h _ _ _
  · dsimp only
    have hnr : s.reg s.next = false := by
      cases hq : s.reg s.next with
      | false => rfl
      | true => exact absurd (hi.lt _ (kept_iff.2 (.inr (.inl hq)))) (Nat.lt_irrefl _)
    split
    · split
      · exact h
      · refine alive_of h (fun e => e) rfl ?_ (fun _ _ _ e => e)
        intro x hx hc hid
        simp only [S.setConn, S.setEp] at hc ⊢
        split at hc
        · cases hc
        · next hxn =>
          rw [if_neg hxn]
          refine ⟨?_, hc, rfl⟩
          rcases reg_iff.1 hx with e | e
          · cases e; exact absurd rfl hxn
          · exact reg_iff.2 (.inr e)
    · refine alive_of h (fun e => e) rfl ?_ (fun _ _ _ e => e)
      intro x hx hc hid
      simp only [S.setConn, S.setEp] at hc ⊢
      split at hc
      · cases hc
      · next hxn =>
        rw [if_neg hxn]
        refine ⟨?_, hc, rfl⟩
        rcases reg_iff.1 hx with e | e
        · exact reg_iff.2 (.inl e)
        · rcases List.mem_append.1 e with e | e
          · exact reg_iff.2 (.inr e)
          · exact absurd (by simpa using e) hxn

theorem register_timed {s : S} (h : Timed s) (c id : Nat) (p f : Bool) : Timed (register s c id p f) := by
  unfold register
  split
  · exact addConn_timed h _ _ _
  · dsimp only
    split
    · split
      · exact h
      · refine timed_of h rfl rfl ?_
        intro x hx hc hid hp
        simp only [S.setConn, S.setEp] at hc hid ⊢
        split at hc
        · next hxn => rw [if_pos hxn] at hid ⊢; left; left; simp [hp]; exact hid
        · next hxn =>
          rw [if_neg hxn]
          refine .inr ⟨?_, hc, rfl, fun e => e, fun e => e⟩
          rcases reg_iff.1 hx with e | e
          · cases e; exact absurd rfl hxn
          · exact reg_iff.2 (.inr e)
    · refine timed_of h rfl rfl ?_
      intro x hx hc hid hp
      simp only [S.setConn, S.setEp] at hc hid ⊢
      split at hc
      · next hxn => rw [if_pos hxn] at hid ⊢; left; left; simp [hp]; exact hid
      · next hxn =>
        rw [if_neg hxn]
        refine .inr ⟨?_, hc, rfl, fun e => e, fun e => e⟩
        rcases reg_iff.1 hx with e | e
        · exact reg_iff.2 (.inl e)
        · rcases List.mem_append.1 e with e | e
          · exact reg_iff.2 (.inr e)
          · exact absurd (by simpa using e) hxn

theorem act_alive {s : S} (h : Alive s) (hi : Inv s) (op : Op) : Alive (act s op) := by
  cases op with
  | opened c => simp only [act]; split <;> exact h
  | down c => exact h
  | lose c => exact lose_alive (s := { s with fell := s.fell || (s.conn c).bound == some 0 }) h c
  | register c id p f =>
    simp only [act]; split
    · exact register_alive h hi c id p f
    · exact h
  | connect c r f =>
    simp only [act]; split
    · exact addConn_alive (s := s.setConn c _) h r c f
    · exact h
  | listen c =>
    simp only [act]; split
    · exact addConn_alive (s := s.setConn c _) h 0 c false
    · exact h
  | suspect r =>
    simp only [act]; split
    · exact gcAdd_alive (s := { s with fell := s.fell || r == 0 }) h r
    · exact h
  | retime r =>
    simp only [act]; split
    · exact setEp_alive h rfl id
    · exact h
  | disconnect id =>
    simp only [act, disconnect]; split
    · exact resetEp_alive (unreg_alive h (.inr rfl) (List.Sublist.refl _)) _
    · split
      · exact resetEp_alive (unreg_alive h (.inl rfl) List.erase_sublist) _
      · exact h
  | remove id =>
    obtain ⟨p, l, e, h1, h2⟩ := removeEndpoint_shape s id none
    show Alive (removeEndpoint s id none)
    rw [e]; exact unreg_alive h h1 h2
  | begin =>
    simp only [act]; split
    · next hg =>
      refine alive_of h (fun e => e) rfl (fun r a b _ => ⟨a, b, rfl⟩) ?_
      intro r _ _ hp
      rcases hp with e | e | e
      · exact .inr (.inl e)
      · rw [(hi.g2 hg.1).2.1] at e; cases e
      · rw [(hi.g2 hg.1).2.2] at e; cases e
    · exact h
  | check =>
    simp only [act]; split
    · next r t hg hcu hr =>
      split
      · next ha =>
        intro hl x hx hc hid
        rcases h hl x hx hc hid with e | e | e
        · exact .inl e
        · rw [hr] at e
          rcases List.mem_cons.1 e with e | e
          · subst e
            have hc : (s.ep x).ctrl = none := hc
            simp [S.avail, hc] at ha
          · exact .inr (.inl e)
        · exact .inr (.inr e)
      · intro hl x hx hc hid
        by_cases e : x = r
        · subst e; exact .inr (.inr rfl)
        · have hc : ((clear s r).ep x).ctrl = none := hc
          have hid : ((clear s r).ep x).id ≠ s.own := hid
          rw [clear_ep_ne e] at hc hid
          rcases h hl x hx hc hid with k | k | k
          · exact .inl k
          · rw [hr] at k
            rcases List.mem_cons.1 k with k | k
            · exact absurd k e
            · exact .inr (.inl k)
          · rw [hcu] at k; cases k
    · exact h
  | removal =>
    simp only [act]; split
    · next r hcu =>
      obtain ⟨p, l, e, h1, h2⟩ := removeEndpoint_shape s (s.ep r).id (some r)
      have hx := removal_exact hi r
      rw [e] at hx ⊢
      intro hl x hr hc hid
      rcases unreg_alive h h1 h2 hl x hr hc hid with k | k | k
      · exact .inl k
      · exact .inr (.inl k)
      · have k : s.cur = some x := k
        rw [hcu] at k; cases k
        exfalso
        rcases reg_iff.1 hr with k | k
        · exact ((hx.2 r).1 k).2 rfl
        · rcases ((hx.1 r).1 k).2 with k | k
          · exact k rfl
          · exact hid k
    · exact h
  | finish =>
    simp only [act]; split
    · next hg =>
      refine alive_of h (fun e => e) rfl (fun r a b _ => ⟨a, b, rfl⟩) ?_
      intro r _ _ hp
      rcases hp with e | e | e
      · rw [hi.g1 hg.1] at e; cases e
      · rw [hg.2.1] at e; cases e
      · rw [hg.2.2] at e; cases e
    · exact h

theorem act_timed {s : S} (h : Timed s) (op : Op) : Timed (act s op) := by
  cases op with
  | opened c => simp only [act]; split <;> exact h
  | down c => exact h
  | lose c => exact lose_timed (s := { s with fell := s.fell || (s.conn c).bound == some 0 }) h c
  | register c id p f =>
    simp only [act]; split
    · exact register_timed h c id p f
    · exact h
  | connect c r f =>
    simp only [act]; split
    · exact addConn_timed (s := s.setConn c _) h r c f
    · exact h
  | listen c =>
    simp only [act]; split
    · exact addConn_timed (s := s.setConn c _) h 0 c false
    · exact h
  | suspect r =>
    simp only [act]; split
    · exact gcAdd_timed (s := { s with fell := s.fell || r == 0 }) h r
    · exact h
  | retime r =>
    simp only [act]; split
    · exact setEp_timed h rfl (fun _ _ => .inr (.inl rfl))
    · exact h
  | disconnect id =>
    simp only [act, disconnect]; split
    · exact resetEp_timed (unreg_timed h (.inr rfl) (List.Sublist.refl _)) _
    · split
      · exact resetEp_timed (unreg_timed h (.inl rfl) List.erase_sublist) _
      · exact h
  | remove id =>
    obtain ⟨p, l, e, h1, h2⟩ := removeEndpoint_shape s id none
    show Timed (removeEndpoint s id none)
    rw [e]; exact unreg_timed h h1 h2
  | begin => simp only [act]; split <;> exact h
  | check =>
    simp only [act]; split
    · next r t hg hcu hr =>
      split
      · exact h
      · refine timed_of h rfl rfl ?_
        intro x hx hc hid _
        have hc : ((clear s r).ep x).ctrl ≠ none := hc
        by_cases e : x = r
        · subst e; rw [clear_ep_eq] at hc; exact absurd rfl hc
        · show _ ∨ s.reg x = true ∧ (s.ep x).ctrl ≠ none ∧ (s.ep x).id = ((clear s r).ep x).id ∧ _ ∧ _
          dsimp only
          rw [clear_ep_ne e] at hc ⊢
          exact .inr ⟨hx, hc, rfl, id, id⟩
    · exact h
  | removal =>
    simp only [act]; split
    · next r hcu =>
      obtain ⟨p, l, e, h1, h2⟩ := removeEndpoint_shape s (s.ep r).id (some r)
      rw [e]; exact unreg_timed h h1 h2
    · exact h
  | finish => simp only [act]; split <;> exact h

theorem run_alive (own : Nat) (ping : Bool) (ops : List Op) :
    Alive (run (init own ping) ops) ∧ Timed (run (init own ping) ops) := by
  unfold run
  suffices ∀ s, Inv s → Clean s → Alive s → Timed s → Alive (ops.foldl step s) ∧ Timed (ops.foldl step s) from
    this _ (init_inv own ping) (init_clean own ping) (by intro _ r hr; simp [reg_iff, init] at hr)
      (by intro _ r hr; simp [reg_iff, init] at hr)
  induction ops with
  | nil => intro s _ _ h ht; exact ⟨h, ht⟩
  | cons o os ih =>
    intro s h hc ha ht
    exact ih _ (sweep_inv (act_inv h hc o)) (sweep_clean _) (sweep_alive (act_alive ha h o)) (sweep_timed (act_timed ht o))

/-! ### A collection without interruption -/

theorem sweep_id {s : S} (h : Inv s) (hc : Clean s) : sweep s = s := by
  have h1 : (sweep s).conn = s.conn := by
    funext c; exact sweep_conn fun r hr => bound_kept h hc hr
  have h2 : (sweep s).ep = s.ep := by
    funext r
    cases hk : s.kept r with
    | true => exact sweep_ep hk
    | false => rw [hc r hk]; simp [sweep, hk]
  have : sweep s = { s with conn := (sweep s).conn, ep := (sweep s).ep } := rfl
  rw [this, h1, h2]

theorem any_same {l : List Nat} {f g : Nat → Bool} (h : ∀ c ∈ l, f c = g c) : l.any f = l.any g := by
  induction l with
  | nil => rfl
  | cons a l ih =>
    rw [List.any_cons, List.any_cons, h a (List.mem_cons_self ..), ih fun c hc => h c (List.mem_cons_of_mem _ hc)]

theorem clear_avail {s : S} (h : Inv s) (r x : Nat) (hr : s.avail r = false) : (clear s r).avail x = s.avail x := by
  by_cases e : x = r
  · subst e; rw [hr]; simp [S.avail, clear]
  · unfold S.avail
    rw [clear_ep_ne e]
    congr 1
    refine any_same ?_
    intro c hc
    simp only [clear]
    rw [if_neg]
    intro hm
    have h1 := (h.b1 c r).2 hm
    have h2 := (h.b1 c x).2 (.inr hc)
    rw [h1] at h2; cases h2; exact e rfl

/-- The treatment of one entry. -/
def round (s : S) : S := step (step s .check) .removal

/-- What a collection does to the entries `l`. -/
structure Done (s t : S) (l : List Nat) : Prop where
  own : t.own = s.own
  routes : ∀ x, x ∈ t.routes ↔ x ∈ s.routes ∧ ¬ (x ∈ l ∧ s.avail x = false ∧ (s.ep x).id ≠ s.own)
  parent : ∀ x, t.parent = some x ↔ s.parent = some x ∧ ¬ (x ∈ l ∧ s.avail x = false)
  ids : ∀ x, (t.ep x).id = (s.ep x).id
  av : ∀ x, t.avail x = s.avail x
  same : ∀ x, ¬ (x ∈ l ∧ s.avail x = false) → t.ep x = s.ep x ∧ ∀ c, (s.conn c).bound = some x → t.conn c = s.conn c
  dead : ∀ c, s.conn c = {} → t.conn c = {}
  gone : ∀ x ∈ l, s.avail x = false → ∀ c, (s.conn c).bound = some x → t.conn c = {}

theorem round_keeps {s : S} (h : Inv s) (hc : Clean s) {r : Nat} {l : List Nat} (hg : s.inGc = true) (hcu : s.cur = none)
    (hr : s.rest = r :: l) (ha : s.avail r = true) : round s = { s with rest := l } := by
  have e1 : act s .check = { s with rest := l } := by simp [act, hg, hcu, hr, ha]
  have i1 := act_inv h hc .check
  rw [e1] at i1
  have e2 : step s .check = { s with rest := l } := by
    unfold step; rw [e1]; exact sweep_id i1 hc
  have e3 : act { s with rest := l } .removal = { s with rest := l } := by simp [act, hcu]
  unfold round
  rw [e2]; unfold step; rw [e3]; exact sweep_id i1 hc

theorem round_drops {s : S} (h : Inv s) (hc : Clean s) {r : Nat} {l : List Nat} (hg : s.inGc = true) (hcu : s.cur = none)
    (hr : s.rest = r :: l) (ha : s.avail r = false) :
    ∃ p rt, round s = { clear s r with rest := l, parent := p, routes := rt } ∧
      (∀ x, x ∈ rt ↔ x ∈ s.routes ∧ (x ≠ r ∨ (s.ep r).id = s.own)) ∧ (∀ x, p = some x ↔ s.parent = some x ∧ x ≠ r) := by
  have hh : r ∈ s.held := h.g3 r (by rw [hr]; exact List.mem_cons_self ..)
  have e1 : act s .check = { clear s r with rest := l, cur := some r } := by simp [act, hg, hcu, hr, ha]
  have i1 := act_inv h hc .check
  rw [e1] at i1
  have c1 : Clean { clear s r with rest := l, cur := some r } := by
    intro x hx
    have hx : s.kept x = false := hx
    have hne : x ≠ r := by
      intro e
      have : s.kept x = true := kept_iff.2 (.inr (.inr (.inr (e ▸ hh))))
      have hx' : s.kept x = false := hx
      rw [this] at hx'; cases hx'
    show (clear s r).ep x = { id := ((clear s r).ep x).id }
    rw [clear_ep_ne hne]; exact hc x hx
  have e2 : step s .check = { clear s r with rest := l, cur := some r } := by
    unfold step; rw [e1]; exact sweep_id i1 c1
  have hx := removal_exact i1 r
  obtain ⟨p, rt, e, h1, h2⟩ := removeEndpoint_shape { clear s r with rest := l, cur := some r }
    (({ clear s r with rest := l, cur := some r } : S).ep r).id (some r)
  have e3 : act { clear s r with rest := l, cur := some r } .removal = { clear s r with rest := l, parent := p, routes := rt } := by
    simp only [act]; rw [e]; simp only [S.mk.injEq, true_and, and_true]; rw [show (clear s r).cur = s.cur from rfl, hcu]
  have hid : (({ clear s r with rest := l, cur := some r } : S).ep r).id = (s.ep r).id := by
    show ((clear s r).ep r).id = _; rw [clear_ep_eq]
  rw [e, hid] at hx
  refine ⟨p, rt, ?_, hx.1, hx.2⟩
  unfold round
  rw [e2]; unfold step
  have i2 := act_inv i1 c1 .removal
  rw [e3] at i2 ⊢
  refine sweep_id i2 ?_
  intro x hk
  refine c1 x ?_
  cases hq : ({ clear s r with rest := l, cur := some r } : S).kept x with
  | false => rfl
  | true =>
    rw [← hk]; symm
    rw [kept_iff] at hq ⊢
    rcases hq with q | q | q | q
    · exact .inl q
    · by_cases hxr : x = r
      · subst hxr; exact .inr (.inr (.inr hh))
      · refine .inr (.inl ?_)
        rw [reg_iff] at q ⊢
        rcases q with q | q
        · exact .inl ((hx.2 x).2 ⟨q, hxr⟩)
        · exact .inr ((hx.1 x).2 ⟨q, .inl hxr⟩)
    · exact .inr (.inr (.inl q))
    · exact .inr (.inr (.inr q))

theorem round_inv {s : S} (h : Inv s) (hc : Clean s) : Inv (round s) ∧ Clean (round s) :=
  ⟨sweep_inv (act_inv (sweep_inv (act_inv h hc _)) (sweep_clean _) _), sweep_clean _⟩

theorem rounds (l : List Nat) : ∀ s : S, Inv s → Clean s → s.inGc = true → s.cur = none → s.rest = l →
    ∃ t, run s ((List.replicate l.length [Op.check, Op.removal]).flatten) = t ∧ Inv t ∧ Clean t ∧ t.inGc = true ∧ t.cur = none ∧
      t.rest = [] ∧ Done s t l := by
  induction l with
  | nil =>
    intro s h hc hg hcu hr
    exact ⟨s, rfl, h, hc, hg, hcu, hr, ⟨rfl, by simp, by simp, fun _ => rfl, fun _ => rfl, fun _ _ => ⟨rfl, fun _ _ => rfl⟩, fun _ e => e, by simp⟩⟩
  | cons r l ih =>
    intro s h hc hg hcu hr
    have ri := round_inv h hc
    have hrun : run s ((List.replicate (r :: l).length [Op.check, Op.removal]).flatten) =
        run (round s) ((List.replicate l.length [Op.check, Op.removal]).flatten) := by
      simp [run, List.replicate_succ, round]
    rw [hrun]
    cases ha : s.avail r with
    | true =>
      have e := round_keeps h hc hg hcu hr ha
      rw [e] at ri ⊢
      obtain ⟨t, h1, h2, h3, h4, h5, h6, d⟩ := ih { s with rest := l } ri.1 ri.2 hg hcu rfl
      refine ⟨t, h1, h2, h3, h4, h5, h6, ⟨d.own, ?_, ?_, d.ids, d.av, ?_, d.dead, ?_⟩⟩
      · intro x; rw [d.routes x]
        refine and_congr Iff.rfl (not_congr ?_)
        constructor
        · intro ⟨a, b⟩; exact ⟨List.mem_cons_of_mem _ a, b⟩
        · intro ⟨a, b, c⟩
          rcases List.mem_cons.1 a with a | a
          · subst a; rw [ha] at b; cases b
          · exact ⟨a, b, c⟩
      · intro x; rw [d.parent x]
        refine and_congr Iff.rfl (not_congr ?_)
        constructor
        · intro ⟨a, b⟩; exact ⟨List.mem_cons_of_mem _ a, b⟩
        · intro ⟨a, b⟩
          rcases List.mem_cons.1 a with a | a
          · subst a; rw [ha] at b; cases b
          · exact ⟨a, b⟩
      · intro x hx
        exact d.same x (fun ⟨a, b⟩ => hx ⟨List.mem_cons_of_mem _ a, b⟩)
      · intro x hx hav c hb
        rcases List.mem_cons.1 hx with e | e
        · subst e; rw [ha] at hav; cases hav
        · exact d.gone x e hav c hb
    | false =>
      obtain ⟨p, rt, e, m1, m2⟩ := round_drops h hc hg hcu hr ha
      rw [e] at ri ⊢
      obtain ⟨t, h1, h2, h3, h4, h5, h6, d⟩ := ih { clear s r with rest := l, parent := p, routes := rt } ri.1 ri.2 hg hcu rfl
      have hav : ∀ x, ({ clear s r with rest := l, parent := p, routes := rt } : S).avail x = s.avail x := fun x => clear_avail h r x ha
      have hids : ∀ x, (({ clear s r with rest := l, parent := p, routes := rt } : S).ep x).id = (s.ep x).id := by
        intro x
        show ((clear s r).ep x).id = _
        by_cases e : x = r
        · subst e; rw [clear_ep_eq]
        · rw [clear_ep_ne e]
      have hown : ({ clear s r with rest := l, parent := p, routes := rt } : S).own = s.own := rfl
      refine ⟨t, h1, h2, h3, h4, h5, h6, ⟨d.own, ?_, ?_, ?_, ?_, ?_, ?_, ?_⟩⟩
      · intro x; rw [d.routes x, hav, hids, hown]
        show x ∈ rt ∧ _ ↔ _
        rw [m1]
        by_cases e : x = r
        · subst e; simp [ha]
          intro _ a _; exact a
        · simp [e]
      · intro x; rw [d.parent x, hav]
        show p = some x ∧ _ ↔ _
        rw [m2]
        by_cases e : x = r
        · subst e; simp [ha]
        · simp [e]
      · intro x; rw [d.ids, hids]
      · intro x; rw [d.av, hav]
      · intro x hx
        have hxr : x ≠ r := by intro e; subst e; exact hx ⟨List.mem_cons_self .., ha⟩
        obtain ⟨q1, q2⟩ := d.same x (by rw [hav]; exact fun ⟨a, b⟩ => hx ⟨List.mem_cons_of_mem _ a, b⟩)
        have hcn : ∀ c, (s.conn c).bound = some x → (clear s r).conn c = s.conn c := by
          intro c hb
          simp only [clear]
          rw [if_neg]
          intro hm
          have := (h.b1 c r).2 hm
          rw [hb] at this; cases this; exact hxr rfl
        refine ⟨by rw [q1]; exact clear_ep_ne hxr, ?_⟩
        intro c hb
        rw [q2 c (by show ((clear s r).conn c).bound = _; rw [hcn c hb]; exact hb)]
        exact hcn c hb
      · intro c hce
        refine d.dead c ?_
        show (clear s r).conn c = {}
        simp only [clear]; split
        · rfl
        · exact hce
      · intro x hx hxa c hb
        by_cases e : x = r
        · refine d.dead c ?_
          show (clear s r).conn c = {}
          simp only [clear]
          rw [if_pos ((h.b1 c r).1 (e ▸ hb))]
        · refine d.gone x ?_ (by rw [hav]; exact hxa) c ?_
          · rcases List.mem_cons.1 hx with q | q
            · exact absurd q e
            · exact q
          · show ((clear s r).conn c).bound = _
            simp only [clear]
            rw [if_neg]
            · exact hb
            · intro hm
              have := (h.b1 c r).2 hm
              rw [hb] at this; cases this; exact e rfl

theorem resetEp_ping (s : S) (r : Nat) : (resetEp s r).ping = s.ping := by unfold resetEp; rw [gcAdd_ping]; rfl

theorem lose_const (s : S) (c : Nat) : (lose s c).own = s.own ∧ (lose s c).ping = s.ping := by
  unfold lose
  split
  · exact ⟨rfl, rfl⟩
  · split
    · exact ⟨resetEp_own _ _, resetEp_ping _ _⟩
    · dsimp only
      split
      · rw [resetEp_own, resetEp_ping]; exact ⟨rfl, rfl⟩
      · exact ⟨rfl, rfl⟩

theorem act_const (s : S) (op : Op) : (act s op).own = s.own ∧ (act s op).ping = s.ping := by
  cases op with
  | lose c => exact lose_const _ c
  | suspect r =>
    simp only [act]; split
    · rw [gcAdd_own, gcAdd_ping]; exact ⟨rfl, rfl⟩
    · exact ⟨rfl, rfl⟩
  | disconnect id =>
    simp only [act, disconnect]; split
    · rw [resetEp_own, resetEp_ping]; exact ⟨rfl, rfl⟩
    · split
      · rw [resetEp_own, resetEp_ping]; exact ⟨rfl, rfl⟩
      · exact ⟨rfl, rfl⟩
  | remove id =>
    obtain ⟨p, l, e, -, -⟩ := removeEndpoint_shape s id none
    show (removeEndpoint s id none).own = _ ∧ (removeEndpoint s id none).ping = _
    rw [e]; exact ⟨rfl, rfl⟩
  | removal =>
    simp only [act]; split
    · next r _ =>
      obtain ⟨p, l, e, -, -⟩ := removeEndpoint_shape s (s.ep r).id (some r)
      rw [e]; exact ⟨rfl, rfl⟩
    · exact ⟨rfl, rfl⟩
  | register c id p f =>
    simp only [act, register]
    repeat' split
    all_goals exact ⟨rfl, rfl⟩
  | check =>
    simp only [act]
    repeat' split
    all_goals exact ⟨rfl, rfl⟩
  | _ => simp only [act]; first | exact ⟨rfl, rfl⟩ | (split <;> exact ⟨rfl, rfl⟩)

theorem run_own (s : S) (ops : List Op) : (run s ops).own = s.own := by
  induction ops generalizing s with
  | nil => rfl
  | cons o l ih => exact (ih (step s o)).trans (act_const s o).1

theorem run_ping (s : S) (ops : List Op) : (run s ops).ping = s.ping := by
  induction ops generalizing s with
  | nil => rfl
  | cons o l ih => exact (ih (step s o)).trans (act_const s o).2

/-- C69: what a collection does if no code of the application interferes: of the endpoints that were registered,
those waiting for collection that are not usable are removed (except one with the node's own id, which cannot be
removed), and all others stay registered; the connections of unusable waiting ones are closed, the usable ones and
those not waiting keep all theirs. -/
theorem C69_collect (own : Nat) (ping : Bool) (ops : List Op) (s t : S) (hs : s = run (init own ping) ops)
    (hg : s.inGc = false) (ht : t = run s (collection s.gc.length)) :
    t.inGc = false ∧ t.gc = [] ∧
    (∀ r, t.reg r = true ↔ s.reg r = true ∧ (r ∉ s.gc ∨ s.avail r = true ∨ (r ∈ s.routes ∧ (s.ep r).id = own))) ∧
    (∀ r, s.reg r = true → r ∉ s.gc ∨ s.avail r = true →
      t.ep r = s.ep r ∧ ∀ c, (s.conn c).bound = some r → t.conn c = s.conn c) ∧
    (∀ r ∈ s.gc, s.avail r = false → ∀ c, (s.conn c).bound = some r → t.conn c = {}) := by
  obtain ⟨h, hc⟩ := run_inv own ping ops
  have hown : (run (init own ping) ops).own = own := run_own _ _
  rw [← hs] at h hc hown
  cases hgc : s.gc with
  | nil =>
    have e : t = s := by
      rw [ht, hgc]
      have e1 : act s .begin = s := by simp [act, hgc]
      have e2 : act s .finish = s := by simp [act, hg]
      simp only [collection, List.length_nil, List.replicate_zero, List.flatten_nil, List.cons_append, List.nil_append, run,
        List.foldl_cons, List.foldl_nil, step]
      rw [e1, sweep_id h hc, e2, sweep_id h hc]
    rw [e]
    exact ⟨hg, hgc, by intro r; simp, fun r _ _ => ⟨rfl, fun _ _ => rfl⟩, by simp⟩
  | cons r0 l0 =>
    have hne : s.gc ≠ [] := by rw [hgc]; simp
    rw [← hgc]
    clear hgc
    have e1 : act s .begin = { s with inGc := true, held := s.gc, rest := s.gc, gc := [] } := by simp [act, hg, hne]
    have i1 := act_inv h hc .begin
    have ck : ∀ x, ({ s with inGc := true, held := s.gc, rest := s.gc, gc := [] } : S).kept x = s.kept x := by
      intro x
      rw [Bool.eq_iff_iff, kept_iff, kept_iff]
      have : s.held = [] := (h.g2 hg).1
      simp only [this, List.not_mem_nil, or_false, false_or]
      exact Iff.rfl
    have e2 : step s .begin = { s with inGc := true, held := s.gc, rest := s.gc, gc := [] } := by
      unfold step; rw [e1] at i1 ⊢
      refine sweep_id i1 ?_
      intro x hx; rw [ck] at hx; exact hc x hx
    rw [e1] at i1
    obtain ⟨u, h1, h2, h3, h4, h5, h6, d⟩ := rounds s.gc { s with inGc := true, held := s.gc, rest := s.gc, gc := [] } i1
      (by intro x hx; rw [ck] at hx; exact hc x hx) rfl (h.g2 hg).2.2 rfl
    have e3 : t = step u .finish := by
      rw [ht]
      have : run s (collection s.gc.length) = run (run (step s .begin) ((List.replicate s.gc.length [Op.check, Op.removal]).flatten)) [.finish] := by
        simp [run, collection]
      rw [this, e2, h1]; rfl
    have e4 : act u .finish = { u with inGc := false, held := [], gc := [] } := by simp [act, h4, h5, h6]
    have e5 : t = sweep { u with inGc := false, held := [], gc := [] } := by rw [e3]; unfold step; rw [e4]
    have hreg : ∀ r, t.reg r = true ↔ s.reg r = true ∧ (r ∉ s.gc ∨ s.avail r = true ∨ (r ∈ s.routes ∧ (s.ep r).id = own)) := by
      intro r
      rw [e5, sweep_reg]
      show u.reg r = true ↔ _
      rw [reg_iff, reg_iff, d.routes r, d.parent r]
      show s.parent = some r ∧ ¬ (r ∈ s.gc ∧ s.avail r = false) ∨ r ∈ s.routes ∧ ¬ (r ∈ s.gc ∧ s.avail r = false ∧ (s.ep r).id ≠ s.own) ↔ _
      rw [hown]
      constructor
      · rintro (⟨a, b⟩ | ⟨a, b⟩)
        · refine ⟨.inl a, ?_⟩
          by_cases q : r ∈ s.gc
          · cases qa : s.avail r with
            | true => exact .inr (.inl rfl)
            | false => exact absurd ⟨q, qa⟩ b
          · exact .inl q
        · refine ⟨.inr a, ?_⟩
          by_cases q : r ∈ s.gc
          · cases qa : s.avail r with
            | true => exact .inr (.inl rfl)
            | false =>
              refine .inr (.inr ⟨a, ?_⟩)
              apply Classical.byContradiction
              intro k; exact b ⟨q, qa, k⟩
          · exact .inl q
      · rintro ⟨a | a, b⟩
        · refine .inl ⟨a, ?_⟩
          intro ⟨k1, k2⟩
          rcases b with b | b | b
          · exact b k1
          · rw [b] at k2; cases k2
          · exact h.pr r a b.1
        · refine .inr ⟨a, ?_⟩
          intro ⟨k1, k2, k3⟩
          rcases b with b | b | b
          · exact b k1
          · rw [b] at k2; cases k2
          · exact k3 b.2
    refine ⟨by rw [e5]; rfl, by rw [e5]; rfl, hreg, ?_, ?_⟩
    case refine_2 =>
      intro r hr ha c hb
      have : u.conn c = {} := d.gone r hr ha c hb
      rw [e5, sweep_conn, this]
      intro x hx
      have hx : (u.conn c).bound = some x := hx
      rw [this] at hx; cases hx
    intro r hr hn
    have hk : ({ u with inGc := false, held := [], gc := [] } : S).kept r = true := by
      have : t.reg r = true := (hreg r).2 ⟨hr, by rcases hn with q | q; exact .inl q; exact .inr (.inl q)⟩
      rw [e5, sweep_reg] at this
      exact kept_iff.2 (.inr (.inl this))
    have hsame := d.same r (by
      intro ⟨a, b⟩
      rcases hn with q | q
      · exact q a
      · have b : s.avail r = false := b
        rw [q] at b; cases b)
    refine ⟨by rw [e5, sweep_ep hk]; exact hsame.1, ?_⟩
    intro c hb
    have hcu : u.conn c = s.conn c := hsame.2 c hb
    rw [e5, sweep_conn, hcu]
    intro x hx
    have hx : (u.conn c).bound = some x := hx
    rw [hcu, hb] at hx; cases hx; exact hk

/-- C69: outside a collection, and when nothing is waiting for one, every registered endpoint has a control
connection, provided no registered endpoint was reset by something else during a collection.  At any time, those
without are waiting.  (An endpoint with the node's own id cannot be removed: `C69_own_id_false`.  The case of a
reset during a collection: `C69_late_false`.) -/
theorem C69_alive_partial (own : Nat) (ping : Bool) (ops : List Op) (s : S) (hs : s = run (init own ping) ops) (hl : s.late = false)
    (r : Nat) (hr : s.reg r = true) (hi : (s.ep r).id ≠ own) (hc : (s.ep r).ctrl = none) :
    r ∈ s.gc ∨ s.inGc = true ∧ (r ∈ s.rest ∨ s.cur = some r) := by
  have hown : s.own = own := by rw [hs]; exact run_own _ _
  have ha := (run_alive own ping ops).1
  have hv := (run_inv own ping ops).1
  rw [← hs] at ha hv
  cases hg : s.inGc with
  | true =>
    rcases ha hl r hr hc (by rw [hown]; exact hi) with e | e | e
    · exact .inl e
    · exact .inr ⟨rfl, .inl e⟩
    · exact .inr ⟨rfl, .inr e⟩
  | false =>
    rcases ha hl r hr hc (by rw [hown]; exact hi) with e | e | e
    · exact .inl e
    · rw [(hv.g2 hg).2.1] at e; cases e
    · rw [(hv.g2 hg).2.2] at e; cases e

/-- C69: every registered endpoint is pinged from time to time or is waiting for collection, unless it lost its
connections and got new ones before it was collected (`C69_ping_false`). -/
theorem C69_ping_partial (own : Nat) (ops : List Op) (s : S) (hs : s = run (init own true) ops) (hl : s.late = false)
    (r : Nat) (hr : s.reg r = true) (hi : (s.ep r).id ≠ own) (hb : (s.ep r).back = false) :
    (s.ep r).timer = true ∨ r ∈ s.gc ∨ s.inGc = true ∧ (r ∈ s.rest ∨ s.cur = some r) := by
  by_cases hc : (s.ep r).ctrl = none
  · exact .inr (C69_alive_partial own true ops s hs hl r hr hi hc)
  · have hown : s.own = own := by rw [hs]; exact run_own _ _
    have hp : s.ping = true := by rw [hs]; exact run_ping _ _
    have ht := (run_alive own true ops).2
    rw [← hs] at ht
    rcases ht hp r hr hc (by rw [hown]; exact hi) with e | e
    · exact .inl e
    · rw [hb] at e; cases e

/-! ### The node's own endpoint -/

/-- Listeners are open while none of them failed. -/
structure Open (s : S) : Prop where
  up : ∀ c ∈ s.listened, s.conn c = { live := true, bound := some 0 }
  gc : 0 ∉ s.gc
  rest : 0 ∉ s.rest
  cur : s.cur ≠ some 0

theorem sweep_open {s : S} (h : Open s) : Open (sweep s) where
  up c hc := by
    have := h.up c hc
    rw [sweep_conn, this]
    intro r hr; rw [this] at hr; cases hr; exact kept_iff.2 (.inl rfl)
  gc := h.gc
  rest := h.rest
  cur := h.cur

theorem clear_open {s : S} (h : Open s) (hi : Inv s) {r : Nat} (hr : r ≠ 0) : Open (clear s r) where
  up c hc := by
    have := h.up c hc
    simp only [clear]
    rw [if_neg, this]
    intro hm
    have := (hi.b1 c r).2 hm
    simp_all
  gc := h.gc
  rest := h.rest
  cur := h.cur

theorem gcAdd_open {s : S} (h : Open s) {r : Nat} (hr : r ≠ 0) : Open (gcAdd s r) := by
  unfold gcAdd; split
  · exact h
  · exact ⟨h.up, by
      intro hm
      rcases List.mem_append.1 hm with hm | hm
      · exact h.gc hm
      · simp at hm; exact hr hm.symm, h.rest, h.cur⟩

theorem resetEp_open {s : S} (h : Open s) (hi : Inv s) {r : Nat} (hr : r ≠ 0) : Open (resetEp s r) := by
  unfold resetEp
  have := clear_open h hi hr
  refine gcAdd_open ?_ hr
  exact ⟨this.up, this.gc, this.rest, this.cur⟩

/-- Another connection changes. -/
theorem conn_open {s : S} (h : Open s) {c : Nat} (hc : (s.conn c).bound ≠ some 0) (k : Conn) : Open (s.setConn c k) where
  up d hd := by
    simp only [S.setConn]; split
    · next e => subst e; rw [h.up d hd] at hc; exact absurd rfl hc
    · exact h.up d hd
  gc := h.gc
  rest := h.rest
  cur := h.cur

theorem ep_open {s : S} (h : Open s) (r : Nat) (e : Ep) : Open (s.setEp r e) := ⟨h.up, h.gc, h.rest, h.cur⟩

theorem unreg_open {s : S} (h : Open s) (p : Option Nat) (l : List Nat) : Open { s with parent := p, routes := l } :=
  ⟨h.up, h.gc, h.rest, h.cur⟩

theorem addConn_open {s : S} (h : Open s) {c : Nat} (hc : (s.conn c).bound ≠ some 0) (r : Nat) (f : Bool) : Open (addConn s r c f) := by
  unfold addConn; exact ep_open (conn_open h hc _) _ _

theorem act_open {s : S} (h : s.fell = false → Open s) (hi : Inv s) (hcl : Clean s) (op : Op) : (act s op).fell = false → Open (act s op) := by
  cases op with
  | opened c =>
    simp only [act]; split
    · next he => intro hf; exact conn_open (h hf) (by rw [he]; simp) _
    · exact h
  | down c =>
    simp only [act]
    intro hf
    simp only [Bool.or_eq_false_iff, beq_eq_false_iff_ne] at hf
    have := conn_open (h hf.1) hf.2 { s.conn c with live := false }
    exact ⟨this.up, this.gc, this.rest, this.cur⟩
  | lose c =>
    simp only [act]
    intro hf
    have hcf : ∀ s' : S, (lose s' c).fell = s'.fell := by
      intro s'
      unfold lose
      split
      · rfl
      · split
        · unfold resetEp; rw [gcAdd_fell]; rfl
        · dsimp only; split
          · unfold resetEp; rw [gcAdd_fell]; rfl
          · rfl
    rw [hcf] at hf
    simp only [Bool.or_eq_false_iff, beq_eq_false_iff_ne] at hf
    have ho : Open { s with fell := s.fell || (s.conn c).bound == some 0 } := by
      have := h hf.1; exact ⟨this.up, this.gc, this.rest, this.cur⟩
    have hi' : Inv { s with fell := s.fell || (s.conn c).bound == some 0 } := ghost_inv hi _ _ _
    generalize hs' : ({ s with fell := s.fell || (s.conn c).bound == some 0 } : S) = s' at ho hi'
    have hb' : (s'.conn c).bound ≠ some 0 := by rw [← hs']; exact hf.2
    unfold lose
    split
    · exact conn_open ho hb' _
    · next r hr =>
      have hr0 : r ≠ 0 := by intro e; rw [e] at hr; exact hb' hr
      split
      · exact resetEp_open ho hi' hr0
      · next hn =>
        have hi2 : Inv (lose s' c) := lose_inv hi' (by rw [← hs']; exact hcl) c
        dsimp only
        have ho2 : Open ((s'.setConn c {}).setEp r { s'.ep r with data := (s'.ep r).data.erase c }) :=
          ep_open (conn_open ho hb' _) _ _
        split
        · next hd =>
          -- the connections of `r` are gone
          refine gcAdd_open ?_ hr0
          refine ⟨?_, ho2.gc, ho2.rest, ho2.cur⟩
          intro d hd'
          show (clear _ r).conn d = _
          simp only [clear]
          rw [if_neg]
          · exact ho2.up d hd'
          · have := ho.up d hd'
            intro hm
            simp only [S.setEp, if_true] at hm hd
            rcases hm with hm | hm
            · have := (hi'.b1 d r).2 (.inl hm); simp_all
            · have := (hi'.b1 d r).2 (.inr (List.mem_of_mem_erase hm)); simp_all
        · exact ho2
  | register c id p f =>
    simp only [act]; split
    · next hb =>
      have hb : (s.conn c).bound ≠ some 0 := by rw [hb.2]; simp
      unfold register
      split
      · intro hf; exact addConn_open (h hf) hb _ _
      · dsimp only
        split
        · split
          · intro hf; exact conn_open (h hf) hb _
          · intro hf
            have := ep_open (conn_open (unreg_open (h hf) (some s.next) s.routes) hb
              { s.conn c with bound := some s.next }) s.next { id := id, ctrl := some c, timer := s.ping && id != s.own }
            exact ⟨this.up, this.gc, this.rest, this.cur⟩
        · intro hf
          have := ep_open (conn_open (unreg_open (h hf) s.parent (s.routes ++ [s.next])) hb
            { s.conn c with bound := some s.next }) s.next { id := id, ctrl := some c, timer := s.ping && id != s.own }
          exact ⟨this.up, this.gc, this.rest, this.cur⟩
    · exact h
  | connect c r f =>
    simp only [act]; split
    · next hb =>
      intro hf
      exact addConn_open (conn_open (h hf) (by rw [hb.1]; simp) _) (by simp [S.setConn]) _ _
    · exact h
  | listen c =>
    simp only [act]; split
    · next hb =>
      intro hf
      have ho := h hf
      refine ⟨?_, ho.gc, ho.rest, ho.cur⟩
      intro d hd
      show (if d = c then _ else _) = _
      rcases List.mem_cons.1 hd with e | e
      · rw [if_pos e]; simp [S.setConn]
      · have hne : d ≠ c := by intro k; subst k; rw [ho.up d e] at hb; cases hb
        rw [if_neg hne]; simp only [S.setConn]; rw [if_neg hne]; exact ho.up d e
    · exact h
  | suspect r =>
    simp only [act]; split
    · intro hf
      rw [gcAdd_fell] at hf
      simp only [Bool.or_eq_false_iff, beq_eq_false_iff_ne] at hf
      have := h hf.1
      exact gcAdd_open (s := { s with fell := s.fell || r == 0 }) ⟨this.up, this.gc, this.rest, this.cur⟩ hf.2
    · exact h
  | retime r =>
    simp only [act]; split
    · intro hf; exact ep_open (h hf) _ _
    · exact h
  | disconnect id =>
    have hrf : ∀ (s' : S) r, (resetEp s' r).fell = s'.fell := by intro s' r; unfold resetEp; rw [gcAdd_fell]; rfl
    simp only [act, disconnect]; split
    · next p hp =>
      have hp : s.parent = some p := by
        cases hq : s.parent with
        | none => simp [hq] at hp
        | some q => simp only [hq, Option.filter_some] at hp; split at hp <;> simp_all
      intro hf; rw [hrf] at hf
      exact resetEp_open (unreg_open (h hf) _ _) (unreg_inv hi none s.routes (.inr rfl) (List.Sublist.refl _)) (hi.pos p (reg_iff.2 (.inl hp)))
    · split
      · next r hr =>
        intro hf; rw [hrf] at hf
        exact resetEp_open (unreg_open (h hf) _ _) (unreg_inv hi s.parent _ (.inl rfl) List.erase_sublist)
          (hi.pos r (reg_iff.2 (.inr (List.mem_of_find?_eq_some hr))))
      · exact h
  | remove id =>
    obtain ⟨p, l, e, -, -⟩ := removeEndpoint_shape s id none
    show (removeEndpoint s id none).fell = false → Open (removeEndpoint s id none)
    rw [e]; intro hf; exact unreg_open (h hf) _ _
  | begin =>
    simp only [act]; split
    · intro hf; have := h hf; exact ⟨this.up, by simp, this.gc, this.cur⟩
    · exact h
  | check =>
    simp only [act]; split
    · next r t hg hcu hr =>
      have ht : s.fell = false → 0 ∉ t ∧ r ≠ 0 := by
        intro hf
        have := (h hf).rest
        rw [hr] at this
        exact ⟨fun e => this (List.mem_cons_of_mem _ e), fun e => this (by rw [e]; exact List.mem_cons_self ..)⟩
      split
      · intro hf; have := h hf; exact ⟨this.up, this.gc, (ht hf).1, this.cur⟩
      · intro hf
        have := clear_open (h hf) hi (ht hf).2
        exact ⟨this.up, this.gc, (ht hf).1, by intro e; cases e; exact (ht hf).2 rfl⟩
    · exact h
  | removal =>
    simp only [act]; split
    · next r hcu =>
      obtain ⟨p, l, e, -, -⟩ := removeEndpoint_shape s (s.ep r).id (some r)
      rw [e]
      intro hf
      have := unreg_open (h hf) p l
      exact ⟨this.up, this.gc, this.rest, by simp⟩
    · exact h
  | finish =>
    simp only [act]; split
    · intro hf; have := h hf; exact ⟨this.up, by simp, this.rest, this.cur⟩
    · exact h

/-- C69: whatever happens to the other connections and endpoints, and through any number of collections, the
listeners of a node stay open as long as none of them fails and none is closed by the application. -/
theorem C69_listen_partial (own : Nat) (ping : Bool) (ops : List Op) (s : S) (hs : s = run (init own ping) ops) (hf : s.fell = false)
    (c : Nat) (hc : c ∈ s.listened) : (s.conn c).live = true ∧ (s.conn c).bound = some 0 := by
  have key : ∀ (ops : List Op) (s : S), Inv s → Clean s → (s.fell = false → Open s) → (run s ops).fell = false → Open (run s ops) := by
    intro ops
    induction ops with
    | nil => intro s _ _ h; exact h
    | cons o os ih =>
      intro s h h' ho
      exact ih (step s o) (sweep_inv (act_inv h h' o)) (sweep_clean _) fun hf => sweep_open (act_open ho h h' o hf)
  have := key ops _ (init_inv own ping) (init_clean own ping)
    (fun _ => ⟨by simp [init], by simp [init], by simp [init], by simp [init]⟩) (by rw [← hs]; exact hf)
  rw [← hs] at this
  rw [this.up c hc]; exact ⟨rfl, rfl⟩

/-! ### Examples and counterexamples -/

/-- A peer registers on connection 1 and has the data connection 2; another peer has only connection 3 and is put into
the list. -/
def demo : List Op := [.opened 1, .register 1 7 false false, .connect 2 1 true, .opened 3, .register 3 8 false false, .suspect 2]

example : (run (init 5 true) demo).gc = [2] ∧ (run (init 5 true) demo).routes = [1, 2] ∧
    (run (init 5 true) demo).avail 1 = true ∧ (run (init 5 true) demo).avail 2 = false := by decide

/-- `C69_collect` on it: the second peer is removed and its connection closed. -/
example : (run (init 5 true) (demo ++ collection 1)).routes = [1] ∧
    (run (init 5 true) (demo ++ collection 1)).conn 3 = {} ∧
    (run (init 5 true) (demo ++ collection 1)).conn 2 = { live := true, bound := some 1 } := by decide

/-- `C69_alive_partial`: the first peer lost its data connection and waits; there is one other that does not. -/
example : (run (init 5 true) (demo ++ [.lose 2])).late = false ∧ (run (init 5 true) (demo ++ [.lose 2])).reg 1 = true ∧
    ((run (init 5 true) (demo ++ [.lose 2])).ep 1).ctrl = none ∧ (run (init 5 true) (demo ++ [.lose 2])).gc = [2, 1] := by decide

/-- `C69_ping_partial` on the example. -/
example : (run (init 5 true) demo).late = false ∧ ((run (init 5 true) demo).ep 1).timer = true ∧
    ((run (init 5 true) demo).ep 1).back = false := by decide

/-- `C69_listen_partial`: two listeners stay open while a peer is collected. -/
example : (run (init 5 true) ([.listen 10, .listen 11] ++ demo ++ collection 1)).fell = false ∧
    (run (init 5 true) ([.listen 10, .listen 11] ++ demo ++ collection 1)).listened = [11, 10] := by decide

/-- `disconnect` of an id leaves every endpoint with another id registered and as it was. -/
theorem C69_disconnect (s : S) (id r : Nat) (hr : s.reg r = true) (hid : (s.ep r).id ≠ id) :
    (disconnect s id).reg r = true ∧ (disconnect s id).ep r = s.ep r := by
  unfold disconnect
  cases hp : s.parent.filter (fun p => (s.ep p).id == id) with
  | some p =>
    obtain ⟨h1, h2⟩ := Option.filter_eq_some_iff.1 hp
    have hne : r ≠ p := fun hh => hid (by subst hh; simpa using h2)
    simp only
    rw [resetEp_reg, resetEp_ep]
    refine ⟨?_, by simp [clear, hne]⟩
    simp only [S.reg, h1, Bool.or_eq_true, beq_iff_eq, Option.some.injEq] at hr ⊢
    rcases hr with hr | hr
    · exact absurd hr.symm hne
    · exact .inr hr
  | none =>
    simp only
    cases hf : s.routes.find? (fun r => (s.ep r).id == id) with
    | none => exact ⟨hr, rfl⟩
    | some q =>
      have h2 := List.find?_some hf
      have hne : r ≠ q := fun hh => hid (by subst hh; simpa using h2)
      simp only
      rw [resetEp_reg, resetEp_ep]
      refine ⟨?_, by simp [clear, hne]⟩
      simp only [S.reg, Bool.or_eq_true, List.contains_iff_mem] at hr ⊢
      rcases hr with hr | hr
      · exact .inl hr
      · exact .inr ((List.mem_erase_of_ne hne).2 hr)

/-- A parent and a child; disconnecting the child leaves the parent, and the other way round. -/
example : (run (init 5 true) [.opened 1, .register 1 9 true false, .opened 2, .register 2 7 false false, .disconnect 7]).parent = some 1 ∧
    (run (init 5 true) [.opened 1, .register 1 9 true false, .opened 2, .register 2 7 false false, .disconnect 7]).routes = [] ∧
    (run (init 5 true) [.opened 1, .register 1 9 true false, .opened 2, .register 2 7 false false, .disconnect 9]).parent = none ∧
    (run (init 5 true) [.opened 1, .register 1 9 true false, .opened 2, .register 2 7 false false, .disconnect 9]).routes = [2] := by decide

/-- C69 is false of the code: an endpoint that loses its connections while the application is called back from a
collection (for example `poll` called from `on_endpoint_removed`) stays registered without any connection and
without ping timer, and is not waiting: no number of collections removes it. -/
theorem C69_late_false : ∃ ops s, s = run (init 5 true) ops ∧ s.inGc = false ∧ s.gc = [] ∧ s.reg 1 = true ∧ (s.ep 1).id = 7 ∧
    (s.ep 1).ctrl = none ∧ (s.ep 1).data = [] ∧ (s.ep 1).timer = false ∧
    ∀ more : List Op, (∀ o ∈ more, o = .begin ∨ o = .check ∨ o = .removal ∨ o = .finish) → run s more = s := by
  let ops := demo ++ [.begin, .check, .lose 2, .removal, .finish]
  refine ⟨ops, _, rfl, by decide, by decide, by decide, by decide, by decide, by decide, by decide, ?_⟩
  have hi := run_inv 5 true ops
  have h1 : (run (init 5 true) ops).inGc = false := by decide
  have h2 : (run (init 5 true) ops).gc = [] := by decide
  have h3 : (run (init 5 true) ops).cur = none := by decide
  generalize run (init 5 true) ops = s at hi h1 h2 h3
  intro more
  induction more with
  | nil => intro _; rfl
  | cons o os ih =>
    intro h
    have e : act s o = s := by
      rcases h o (List.mem_cons_self ..) with e | e | e | e <;> subst e <;> simp [act, h1, h2, h3]
    show run (step s o) os = s
    unfold step
    rw [e, sweep_id hi.1 hi.2]
    exact ih fun o' ho => h o' (List.mem_cons_of_mem _ ho)

/-- The endpoint with the node's own id, without connections. -/
structure Stuck (s : S) : Prop where
  own : s.own = 5
  parent : s.parent = none
  routes : s.routes = [1]
  id : (s.ep 1).id = 5
  ctrl : (s.ep 1).ctrl = none
  data : (s.ep 1).data = []

theorem step_stuck {s : S} (h : Stuck s) (o : Op)
    (ho : (∃ r, o = .suspect r) ∨ o = .begin ∨ o = .check ∨ o = .removal ∨ o = .finish) : Stuck (step s o) := by
  have key : Stuck (act s o) := by
    have hc : ∀ r, Stuck (clear s r) := by
      intro r
      refine ⟨h.own, h.parent, h.routes, ?_, ?_, ?_⟩ <;> (simp only [clear]; split)
      · next e => subst e; exact h.id
      · exact h.id
      · rfl
      · exact h.ctrl
      · rfl
      · exact h.data
    rcases ho with ⟨r, e⟩ | e | e | e | e <;> subst e <;> simp only [act]
    · split
      · unfold gcAdd; split <;> exact ⟨h.own, h.parent, h.routes, h.id, h.ctrl, h.data⟩
      · exact h
    · split
      · exact ⟨h.own, h.parent, h.routes, h.id, h.ctrl, h.data⟩
      · exact h
    · split
      · next r t _ _ _ =>
        split
        · exact ⟨h.own, h.parent, h.routes, h.id, h.ctrl, h.data⟩
        · have := hc r; exact ⟨this.own, this.parent, this.routes, this.id, this.ctrl, this.data⟩
      · exact h
    · split
      · next r hr =>
        have : removeEndpoint s (s.ep r).id (some r) = s := by
          unfold removeEndpoint
          rw [if_neg (by simp [S.isParent, h.parent])]
          split
          · rfl
          · next hne =>
            rw [h.routes, List.find?_cons_of_neg (by rw [h.id, ← h.own]; simpa using Ne.symm hne)]
            rfl
        rw [this]; exact ⟨h.own, h.parent, h.routes, h.id, h.ctrl, h.data⟩
      · exact h
    · split
      · exact ⟨h.own, h.parent, h.routes, h.id, h.ctrl, h.data⟩
      · exact h
  unfold step
  have hk : (act s o).kept 1 = true := kept_iff.2 (.inr (.inl (reg_iff.2 (.inr (by rw [key.routes]; simp)))))
  exact ⟨key.own, key.parent, key.routes, by rw [sweep_ep hk]; exact key.id, by rw [sweep_ep hk]; exact key.ctrl, by rw [sweep_ep hk]; exact key.data⟩

/-- C69 is false of the code: an endpoint registered with the node's own id (accepted: C49) that lost its connections
stays registered, however often it is put into the list and collected. -/
theorem C69_own_id_false : ∃ s, s = run (init 5 true) [.opened 1, .register 1 5 false false, .lose 1] ∧
    ∀ more : List Op, (∀ o ∈ more, (∃ r, o = .suspect r) ∨ o = .begin ∨ o = .check ∨ o = .removal ∨ o = .finish) →
      (run s more).reg 1 = true ∧ ((run s more).ep 1).ctrl = none ∧ ((run s more).ep 1).data = [] := by
  refine ⟨_, rfl, ?_⟩
  have h : Stuck (run (init 5 true) [.opened 1, .register 1 5 false false, .lose 1]) :=
    ⟨by decide, by decide, by decide, by decide, by decide, by decide⟩
  generalize run (init 5 true) [.opened 1, .register 1 5 false false, .lose 1] = s at h
  intro more
  induction more generalizing s with
  | nil => intro _; exact ⟨reg_iff.2 (.inr (by simp [run, h.routes])), h.ctrl, h.data⟩
  | cons o os ih =>
    intro ho
    exact ih (step s o) (step_stuck h o (ho o (List.mem_cons_self ..))) fun o' h' => ho o' (List.mem_cons_of_mem _ h')

/-- The collections do happen there. -/
example : (run (init 5 true) [.opened 1, .register 1 5 false false, .lose 1]).gc = [1] ∧
    (run (init 5 true) ([.opened 1, .register 1 5 false false, .lose 1] ++ collection 1)).gc = [] ∧
    (run (init 5 true) ([.opened 1, .register 1 5 false false, .lose 1] ++ collection 1)).inGc = false := by decide

/-- C69 is false of the code: a peer that lost its connections and registers again before the collection is accepted,
and then the collection closes the new connection and removes the peer, because it has no data connection yet. -/
theorem C69_rejoin_false : ∃ ops s, s = run (init 5 true) ops ∧ s.inGc = false ∧ s.late = false ∧ s.reg 1 = true ∧ (s.ep 1).ctrl = some 4 ∧
    s.conn 4 = { live := true, bound := some 1 } ∧
    (run s (collection s.gc.length)).reg 1 = false ∧ (run s (collection s.gc.length)).conn 4 = {} :=
  ⟨[.opened 1, .register 1 7 false false, .connect 2 1 true, .lose 2, .opened 4, .register 4 7 false false], _, rfl, by decide⟩

/-- C69 is false of the code: if it also has its data connection by then, it stays, but without ping timer: it is
never pinged again. -/
theorem C69_ping_false : ∃ ops s, s = run (init 5 true) ops ∧ s.inGc = false ∧ s.late = false ∧ s.gc = [] ∧ s.reg 1 = true ∧
    s.avail 1 = true ∧ (s.ep 1).id ≠ 5 ∧ (s.ep 1).timer = false :=
  ⟨[.opened 1, .register 1 7 false false, .connect 2 1 true, .lose 2, .opened 4, .register 4 7 false false, .connect 6 1 true] ++
    collection 1, _, rfl, by decide⟩

/-- C69 is false of the code: if one listener fails the others are closed too; and one that the application opens again
before the next collection is closed by it. -/
theorem C69_listen_false : ∃ s, s = run (init 5 true) [.listen 10, .listen 11, .lose 11] ∧ s.conn 10 = {} ∧
    (run s [.listen 12]).conn 12 = { live := true, bound := some 0 } ∧ (run s ([.listen 12] ++ collection 1)).conn 12 = {} :=
  ⟨_, rfl, by decide⟩

end Verif.Node.Collect
