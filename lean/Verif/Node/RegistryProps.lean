import Verif.Node.Registry
import Verif.Subnet.Props

/-! Notifications (C52), identities (C49) and access tokens (C37). -/

namespace Verif.Node.Registry

open Verif.Subnet

/-! ### Specification -/

/-- One event seen by somebody who watches the object `r`: `none` is a violation, otherwise whether it is registered. -/
def balStep (r : Nat) : Option Bool → Ev → Option Bool
  | none, _ => none
  | some b, .added x => if x = r then (if b then none else some true) else some b
  | some b, .removed x => if x = r then (if b then some false else none) else some b
  | some b, .joined .. => some b

/-- Added and removed alternate, beginning with added; the result is whether `r` is registered. -/
def balance (r : Nat) (log : List Ev) : Option Bool := log.foldl (balStep r) (some false)

/-- The object is the parent or in the route table. -/
def Registered (s : S) (r : Nat) : Prop := (∃ p, s.parent = some p ∧ p.ref = r) ∨ ∃ x ∈ s.table, x.2.ref = r

/-- The subnets a request claims are usable: ids of 64 bits, no nesting, none of them starts at 0. -/
structure Plain (m : Req) : Prop where
  id : m.busId < 2 ^ 64
  confs : ∀ c ∈ m.confs, c.1 < 2 ^ 64
  ranges : ∀ cs l, epConfs m.busId m.confs = some cs → createSubnets m.busId cs = some l →
    l.Pairwise Rng.Disj ∧ ∀ r ∈ l, r.min ≠ 0

/-- The request claims a single range. -/
def OneRange (m : Req) : Prop :=
  ∀ cs l, epConfs m.busId m.confs = some cs → createSubnets m.busId cs = some l → l.length = 1

/-! ### Helper lemmas -/

theorem balance_snoc (r : Nat) (log : List Ev) (e : Ev) : balance r (log ++ [e]) = balStep r (balance r log) e := by
  simp [balance, List.foldl_append]

open scoped Classical in
/-- The invariant: `reg` are the objects in the table, `pend` is an object that is the parent already but has not
been reported, `sg` says that every endpoint has one range, `lg` that the log is as it should be. -/
structure Inv (lg sg : Bool) (s : S) (reg : List Ep) (pend : Option Nat) : Prop where
  sim : Sim s.table reg
  fresh : ∀ e ∈ reg, e.ref < s.next
  pfresh : ∀ p, s.parent = some p → p.ref < s.next
  uniq : ∀ a ∈ reg, ∀ b ∈ reg, a.ref = b.ref → a = b
  psep : ∀ p, s.parent = some p → ∀ e ∈ reg, e.ref ≠ p.ref ∧ e.id ≠ p.id
  zero : ∀ e ∈ reg, ∀ r ∈ e.subnets, r.min ≠ 0
  one : sg = true → ∀ e ∈ reg, e.subnets.length = 1
  pown : s.parent ≠ none → s.own ≠ 0
  pnd : ∀ r, pend = some r → ∃ p, s.parent = some p ∧ p.ref = r
  bal : lg = true → ∀ r, balance r s.log =
    some (decide ((∃ p, s.parent = some p ∧ p.ref = r ∧ pend ≠ some r) ∨ ∃ e ∈ reg, e.ref = r))

theorem Inv.congr {lg sg : Bool} {s s' : S} {reg : List Ep} {pend : Option Nat} (h : Inv lg sg s reg pend) (h1 : s'.table = s.table)
    (h2 : s'.parent = s.parent) (h3 : s.next ≤ s'.next) (h4 : s'.own = s.own) (h5 : ∀ r, balance r s'.log = balance r s.log) : Inv lg sg s' reg pend := by
  constructor
  · rw [h1]; exact h.sim
  · intro e he; have := h.fresh e he; omega
  · rw [h2]; intro p hp; have := h.pfresh p hp; omega
  · exact h.uniq
  · rw [h2]; exact h.psep
  · exact h.zero
  · exact h.one
  · rw [h2, h4]; exact h.pown
  · rw [h2]; exact h.pnd
  · intro hl r; rw [h5, h2]; exact h.bal hl r

theorem Inv.registered {lg sg : Bool} {s : S} {reg : List Ep} (h : Inv lg sg s reg none) (r : Nat) :
    Registered s r ↔ (∃ p, s.parent = some p ∧ p.ref = r ∧ (none : Option Nat) ≠ some r) ∨ ∃ e ∈ reg, e.ref = r := by
  unfold Registered
  constructor
  · rintro (⟨p, h1, h2⟩ | ⟨x, h1, h2⟩)
    · exact .inl ⟨p, h1, h2, by simp⟩
    · exact .inr ⟨x.2, ((h.sim.mem x).1 h1).1, h2⟩
  · rintro (⟨p, h1, h2, -⟩ | ⟨e, h1, h2⟩)
    · exact .inl ⟨p, h1, h2⟩
    · obtain ⟨r', h3, -⟩ := (h.sim.wf e h1).self
      exact .inr ⟨(r', e), (h.sim.mem _).2 ⟨h1, h3⟩, h2⟩

@[simp] theorem drop_table (s : S) (r : Nat) : (drop s r).table = s.table := rfl
@[simp] theorem drop_parent (s : S) (r : Nat) : (drop s r).parent = s.parent := rfl
@[simp] theorem drop_next (s : S) (r : Nat) : (drop s r).next = s.next := rfl
@[simp] theorem drop_own (s : S) (r : Nat) : (drop s r).own = s.own := rfl
@[simp] theorem drop_subs (s : S) (r : Nat) : (drop s r).subs = s.subs := rfl
@[simp] theorem drop_log (s : S) (r : Nat) : (drop s r).log = s.log := rfl
@[simp] theorem drop_info (s : S) (r : Nat) : (drop s r).info = s.info := rfl

theorem Inv.drop {lg sg : Bool} {s : S} {reg : List Ep} {pend : Option Nat} (h : Inv lg sg s reg pend) (r : Nat) :
    Inv lg sg (drop s r) reg pend := h.congr rfl rfl (Nat.le_refl _) rfl (fun _ => rfl)

theorem Inv.resetConn {lg sg : Bool} {s : S} {reg : List Ep} {pend : Option Nat} (h : Inv lg sg s reg pend) (c : Nat) :
    Inv lg sg (resetConn s c) reg pend := h.congr rfl rfl (Nat.le_refl _) rfl (fun _ => rfl)

/-- What `remove_child` removes. -/
theorem removeChild_true {t : Table} {reg : List Ep} (h : Sim t reg) {id : Nat} {x : Option Nat} (hr : (removeChild t id x).2 = true) :
    ∃ e, lowerBound t id = some e ∧ e.2 ∈ reg ∧ e.2.id = id ∧
      (removeChild t id x).1 = e.2.subnets.foldl (fun t r => mapErase r t) t := by
  unfold removeChild at *
  cases hl : lowerBound t id with
  | none => simp [hl] at hr
  | some e =>
    simp only [hl] at hr ⊢
    obtain ⟨h1, _⟩ := lowerBound_some h.proper hl
    split at hr
    · simp at hr
    · rename_i hid
      split at hr
      · simp at hr
      · rename_i hx
        rw [if_neg hid, if_neg hx]
        exact ⟨e, rfl, ((h.mem e).1 h1).1, by simpa using hid, rfl⟩

theorem Inv.dropChild {lg sg : Bool} {s : S} {reg : List Ep} {pend : Option Nat} (h : Inv lg sg s reg pend) (id : Nat) (x : Option Nat) :
    ∃ reg', Inv lg sg (dropChild s id x).1 reg' pend ∧ (dropChild s id x).1.parent = s.parent := by
  unfold Registry.dropChild
  cases hl : lowerBound s.table id with
  | none => exact ⟨reg, h, rfl⟩
  | some e =>
    simp only
    split
    · rename_i hr
      obtain ⟨e', h1, h2, h3, h4⟩ := removeChild_true h.sim hr
      rw [hl] at h1
      cases h1
      refine ⟨reg.filter fun y => decide (y ≠ e.2), Inv.drop ?_ _, rfl⟩
      have hm : ∀ y, y ∈ (reg.filter fun y => decide (y ≠ e.2)) ↔ y ∈ reg ∧ y ≠ e.2 := by simp [List.mem_filter]
      constructor
      · show Sim (removeChild s.table id x).1 _
        rw [h4]; exact sim_remove h.sim h2
      · intro a ha; exact h.fresh a ((hm a).1 ha).1
      · exact h.pfresh
      · intro a ha b hb; exact h.uniq a ((hm a).1 ha).1 b ((hm b).1 hb).1
      · intro p hp a ha; exact h.psep p hp a ((hm a).1 ha).1
      · intro a ha; exact h.zero a ((hm a).1 ha).1
      · intro hs a ha; exact h.one hs a ((hm a).1 ha).1
      · exact h.pown
      · exact h.pnd
      · intro hl r
        show balance r (s.log ++ [_]) = _
        rw [balance_snoc, h.bal hl]
        simp only [balStep]
        by_cases hrr : e.2.ref = r
        · subst hrr
          rw [if_pos rfl, if_pos (by simp only [decide_eq_true_eq]; exact .inr ⟨e.2, h2, rfl⟩)]
          congr 1
          symm
          rw [decide_eq_false_iff_not]
          rintro (⟨p, hp, hpr, -⟩ | ⟨a, ha, har⟩)
          · exact (h.psep p hp e.2 h2).1 hpr.symm
          · obtain ⟨ha, hne⟩ := (hm a).1 ha
            exact hne (h.uniq a ha e.2 h2 har)
        · rw [if_neg hrr]
          congr 1
          rw [decide_eq_decide]
          constructor
          · rintro (hp | ⟨a, ha, har⟩)
            · exact .inl hp
            · exact .inr ⟨a, (hm a).2 ⟨ha, fun hc => hrr (by rw [← hc]; exact har)⟩, har⟩
          · rintro (hp | ⟨a, ha, har⟩)
            · exact .inl hp
            · exact .inr ⟨a, ((hm a).1 ha).1, har⟩
    · exact ⟨reg, h, rfl⟩

theorem Inv.dropParent {lg sg : Bool} {s : S} {reg : List Ep} {pend : Option Nat} (h : Inv lg sg s reg pend) {p : Ep} (hp : s.parent = some p)
    (hpe : pend ≠ some p.ref) : Inv lg sg (Registry.drop (emit { s with parent := none } (.removed p.ref)) p.ref) reg none := by
  apply Inv.drop
  constructor
  · exact h.sim
  · exact h.fresh
  · intro q hq; cases hq
  · exact h.uniq
  · intro q hq; cases hq
  · exact h.zero
  · exact h.one
  · intro hq; exact absurd rfl hq
  · intro r hr; cases hr
  · intro hl r
    show balance r (s.log ++ [_]) = _
    have hpn : pend = none := by
      cases hq : pend with
      | none => rfl
      | some q =>
        obtain ⟨p', h1, h2⟩ := h.pnd q hq
        rw [hp] at h1; cases h1
        rw [h2] at hpe; exact absurd hq hpe
    rw [balance_snoc, h.bal hl]
    simp only [balStep, hp]
    by_cases hrr : p.ref = r
    · subst hrr
      rw [if_pos rfl, if_pos (by simp only [decide_eq_true_eq]; exact .inl ⟨p, rfl, rfl, hpe⟩)]
      congr 1
      symm
      rw [decide_eq_false_iff_not]
      rintro (⟨q, hq, -⟩ | ⟨a, ha, har⟩)
      · cases hq
      · exact (h.psep p hp a ha).1 har
    · rw [if_neg hrr]
      congr 1
      rw [decide_eq_decide]
      constructor
      · rintro (⟨q, hq, hqr, -⟩ | ha)
        · cases hq; exact absurd hqr hrr
        · exact .inr ha
      · rintro (⟨q, hq, -⟩ | ha)
        · cases hq
        · exact .inr ha

theorem Inv.disconnect {lg sg : Bool} {s : S} {reg : List Ep} {pend : Option Nat} (h : Inv lg sg s reg pend) (id : Nat)
    (hid : ∀ p, s.parent = some p → pend = some p.ref → id ≠ p.id) :
    ∃ reg', Inv lg sg (disconnect s id).1 reg' pend ∧ (pend ≠ none → (disconnect s id).1.parent = s.parent) := by
  have hc : ∃ reg', Inv lg sg (disconnect.child id s).1 reg' pend ∧ (pend ≠ none → (disconnect.child id s).1.parent = s.parent) := by
    unfold disconnect.child
    split
    · split
      · obtain ⟨reg', h1, h2⟩ := h.dropChild id none
        exact ⟨reg', h1, fun _ => h2⟩
      · exact ⟨reg, h, fun _ => rfl⟩
    · exact ⟨reg, h, fun _ => rfl⟩
  unfold Registry.disconnect
  split
  · rename_i p hp
    split
    · rename_i hpi
      have hpe : pend ≠ some p.ref := fun hh => hid p hp hh hpi
      have hpn : pend = none := by
        cases hq : pend with
        | none => rfl
        | some q =>
          obtain ⟨p', h1, h2⟩ := h.pnd q hq
          rw [hp] at h1; cases h1
          rw [h2] at hpe; exact absurd hq hpe
      subst hpn
      exact ⟨reg, h.dropParent hp hpe, fun hh => absurd rfl hh⟩
    · exact hc
  · exact hc

theorem Inv.disconnects {lg sg : Bool} {pend : Option Nat} : ∀ (ids : List Nat) {s : S} {reg : List Ep}, Inv lg sg s reg pend →
    (∀ p, s.parent = some p → pend = some p.ref → p.id ∉ ids) →
    ∃ reg', Inv lg sg (disconnects s ids) reg' pend ∧ (pend ≠ none → (disconnects s ids).parent = s.parent) := by
  intro ids
  induction ids with
  | nil => intro s reg h _; exact ⟨reg, h, fun _ => rfl⟩
  | cons id ids ih =>
    intro s reg h hid
    obtain ⟨reg', h1, h2⟩ := h.disconnect id (fun p hp hh hpi => hid p hp hh (by simp [hpi]))
    obtain ⟨reg'', h3, h4⟩ := ih h1 (fun p hp hh => by
      rw [h2 (by simp [hh])] at hp
      intro hm
      exact hid p hp hh (by simp [hm]))
    exact ⟨reg'', h3, fun hh => (h4 hh).trans (h2 hh)⟩

theorem Inv.removeEndpoint {lg sg : Bool} {s : S} {reg : List Ep} (h : Inv lg sg s reg none) (id : Nat) (x : Option Nat) :
    ∃ reg', Inv lg sg (removeEndpoint s id x).1 reg' none := by
  unfold Registry.removeEndpoint
  split
  · split
    · rename_i p hp
      split
      · exact ⟨reg, h⟩
      · exact ⟨reg, h.dropParent hp (by simp)⟩
    · exact ⟨reg, h⟩
  · split
    · exact ⟨reg, h⟩
    · split
      · obtain ⟨reg', h1, _⟩ := h.dropChild id x
        exact ⟨reg', h1⟩
      · exact ⟨reg, h⟩

theorem removeEndpoint_parent {s : S} {p : Ep} (ho : s.own ≠ 0) (hp : s.parent = some p) :
    (removeEndpoint s p.id none).1.parent = none := by
  unfold removeEndpoint
  rw [if_pos (by simp [isParent, ho, hp])]
  simp [hp, emit]

/-! `remove_collection` with one range per endpoint. -/

theorem balance_removed (r : Nat) : ∀ (refs : List Nat) (log : List Ev), refs.Nodup → (∀ x ∈ refs, balance x log = some true) →
    balance r (log ++ refs.map .removed) = if r ∈ refs then some false else balance r log := by
  intro refs
  induction refs with
  | nil => intro log _ _; simp
  | cons x refs ih =>
    intro log hn hb
    rw [List.nodup_cons] at hn
    have h1 : log ++ (x :: refs).map Ev.removed = (log ++ [.removed x]) ++ refs.map .removed := by simp
    rw [h1, ih (log ++ [Ev.removed x]) hn.2]
    · by_cases hx : r = x
      · subst hx
        rw [if_neg hn.1, balance_snoc, hb r (by simp)]
        simp [balStep]
      · rw [balance_snoc]
        have h2 : balStep r (balance r log) (.removed x) = balance r log := by
          cases balance r log with
          | none => rfl
          | some b => simp [balStep, Ne.symm hx]
        rw [h2]
        simp [hx]
    · intro y hy
      have hyx : x ≠ y := fun hh => hn.1 (by rw [hh]; exact hy)
      rw [balance_snoc, hb y (by simp [hy])]
      simp [balStep, hyx]

theorem removeCollection_log (s : S) : (removeCollection s).log = s.log ++ (s.table.map fun x => x.2.ref).map .removed ∧
    (removeCollection s).table = [] ∧ (removeCollection s).parent = s.parent ∧ (removeCollection s).next = s.next ∧
    (removeCollection s).own = s.own := by
  have H : ∀ (t : Table) (s : S), let s' := t.foldl (fun s e => drop (emit s (.removed e.2.ref)) e.2.ref) s
      s'.log = s.log ++ (t.map fun x => x.2.ref).map .removed ∧ s'.table = s.table ∧ s'.parent = s.parent ∧ s'.next = s.next ∧ s'.own = s.own := by
    intro t
    induction t with
    | nil => intro s; simp
    | cons e t ih =>
      intro s
      have := ih (drop (emit s (.removed e.2.ref)) e.2.ref)
      simp only at this
      simp only [List.foldl_cons]
      refine ⟨?_, this.2.1, this.2.2.1, this.2.2.2.1, this.2.2.2.2⟩
      rw [this.1]
      simp [emit]
  exact H s.table { s with table := [] }

theorem one_refs {lg : Bool} {s : S} {reg : List Ep} (h : Inv lg true s reg none) : (s.table.map fun x => x.2.ref).Nodup := by
  rw [List.Nodup, List.pairwise_map]
  have hs := h.sim.sorted
  have hsim := h.sim
  have : s.table.Pairwise fun a b => a ∈ s.table ∧ b ∈ s.table ∧ a ≠ b := by
    refine List.Pairwise.imp_of_mem ?_ hs
    intro a b ha hb hab
    refine ⟨ha, hb, fun hh => ?_⟩
    subst hh
    have := h.sim.proper a ha
    first
      | (have h2 : a.1.max < a.1.min := hab; omega)
      | (simp [Rng.lt] at hab)
  refine this.imp ?_
  rintro a b ⟨ha, hb, hab⟩ hr
  obtain ⟨h1, h2⟩ := (hsim.mem a).1 ha
  obtain ⟨h3, h4⟩ := (hsim.mem b).1 hb
  have he := h.uniq _ h1 _ h3 hr
  apply hab
  have hl := h.one rfl _ h1
  rw [← he] at h4
  match hq : a.2.subnets with
  | [x] =>
    rw [hq] at h2 h4
    simp only [List.mem_singleton] at h2 h4
    exact Prod.ext (h2.trans h4.symm) he
  | [] => simp [hq] at hl
  | _ :: _ :: _ => simp [hq] at hl

theorem sim_nil : Sim [] [] := ⟨by simp [Sorted], by simp [Proper], by simp, by simp, by simp⟩

theorem Inv.removeCollection {lg sg : Bool} {s : S} {reg : List Ep} (h : Inv lg sg s reg none) (hls : lg = true → sg = true) :
    Inv lg sg (removeCollection s) [] none := by
  obtain ⟨h1, h2, h3, h4, h5⟩ := removeCollection_log s
  have hmem : ∀ r, r ∈ (s.table.map fun x => x.2.ref) ↔ ∃ e ∈ reg, e.ref = r := by
    intro r
    simp only [List.mem_map]
    constructor
    · rintro ⟨x, hx, hr⟩; exact ⟨x.2, ((h.sim.mem x).1 hx).1, hr⟩
    · rintro ⟨e, he, hr⟩
      obtain ⟨r', h3, -⟩ := (h.sim.wf e he).self
      exact ⟨(r', e), (h.sim.mem _).2 ⟨he, h3⟩, hr⟩
  constructor
  · rw [h2]; exact sim_nil
  · simp
  · rw [h3, h4]; exact h.pfresh
  · simp
  · simp
  · simp
  · simp
  · rw [h3, h5]; exact h.pown
  · intro r hr; cases hr
  · intro hl r
    have := hls hl
    subst this
    rw [h1, balance_removed r _ _ (one_refs h)]
    · split
      · rename_i hm
        rw [hmem] at hm
        obtain ⟨e, he, hr⟩ := hm
        congr 1; symm
        rw [decide_eq_false_iff_not]
        rintro (⟨p, hp, hpr, -⟩ | ⟨a, ha, -⟩)
        · rw [h3] at hp; exact (h.psep p hp e he).1 (hr.trans hpr.symm)
        · simp at ha
      · rename_i hm
        rw [hmem] at hm
        rw [h.bal hl, h3]
        congr 1
        rw [decide_eq_decide]
        constructor
        · rintro (hp | he)
          · exact .inl hp
          · exact absurd he hm
        · rintro (hp | ⟨a, ha, -⟩)
          · exact .inl hp
          · simp at ha
    · intro x hx
      rw [hmem] at hx
      rw [h.bal hl]
      congr 1
      rw [decide_eq_true_eq]
      exact .inr hx

theorem Inv.reset {lg sg : Bool} {s : S} {reg : List Ep} (h : Inv lg sg s reg none) (hls : lg = true → sg = true) (mid : List Nat) :
    ∃ reg', Inv lg sg (reset s mid) reg' none := by
  unfold Registry.reset
  split
  · rename_i p hp
    obtain ⟨reg1, h1⟩ := h.removeEndpoint p.id none
    obtain ⟨reg2, h2, -⟩ := Inv.disconnects mid h1 (fun _ _ hh => by cases hh)
    exact ⟨[], h2.removeCollection hls⟩
  · exact ⟨[], h.removeCollection hls⟩

theorem Inv.addEndpoint {lg sg : Bool} {s : S} {reg : List Ep} (h : Inv lg sg s reg none) {ep : Ep} (hr : ep.ref + 1 = s.next)
    (hf : ∀ e ∈ reg, e.ref < ep.ref) (hpf : ∀ p, s.parent = some p → p.ref < ep.ref) (hid0 : ep.id ≠ 0)
    (hw : WFEp ep) (hz : ∀ r ∈ ep.subnets, r.min ≠ 0) (ho : sg = true → ep.subnets.length = 1) (hun : getEndpoint s ep.id = none)
    (up : List Nat) (hup : ep.id ∉ up) : ∃ reg', Inv lg sg (addEndpoint s ep up).1 reg' none := by
  have hbal : lg = true → balance ep.ref s.log = some false := by
    intro hl
    rw [h.bal hl]
    congr 1
    rw [decide_eq_false_iff_not]
    rintro (⟨p, hp, hpr, -⟩ | ⟨e, he, her⟩)
    · have := hpf p hp; omega
    · have := hf e he; omega
  -- the id is not in the registry
  have hnp : ∀ p, s.parent = some p → p.id ≠ ep.id := by
    intro p hp hpi
    have ho := h.pown (by simp [hp])
    unfold getEndpoint at hun
    rw [if_pos (by simp [isParent, ho, hp, hpi]), hp] at hun
    cases hun
  have hnr : ∀ e ∈ reg, e.id ≠ ep.id := by
    intro e he hei
    have hfr : findRoute s.table ep.id = some e := (findRoute_iff h.sim hid0).2 ⟨he, hei ▸ (h.sim.wf e he).self⟩
    unfold getEndpoint at hun
    rw [hfr] at hun
    split at hun
    · rename_i hip
      simp only [isParent, Bool.and_eq_true, Option.any_eq_true] at hip
      obtain ⟨-, p, hp, hpi⟩ := hip
      exact hnp p hp (by simpa using hpi)
    · simp [hei] at hun
  unfold Registry.addEndpoint
  split
  · rename_i hc
    split
    · rename_i hpn
      have hi : Inv lg sg { s with parent := some ep } reg (some ep.ref) := by
        constructor
        · exact h.sim
        · exact h.fresh
        · intro p hp; cases hp; show ep.ref < s.next; omega
        · exact h.uniq
        · intro p hp e he; cases hp
          have := hf e he
          exact ⟨by omega, hnr e he⟩
        · exact h.zero
        · exact h.one
        · intro _; exact hc.1
        · intro r hr; cases hr; exact ⟨ep, rfl, rfl⟩
        · intro hl r
          show balance r s.log = _
          rw [h.bal hl]
          congr 1
          rw [decide_eq_decide]
          constructor
          · rintro (⟨p, hp, -⟩ | he)
            · rw [hpn] at hp; cases hp
            · exact .inr he
          · rintro (⟨p, hp, hpr, hne⟩ | he)
            · cases hp; exact absurd (by rw [hpr]) hne
            · exact .inr he
      obtain ⟨reg', h1, h2⟩ := Inv.disconnects up hi (fun p hp _ => by cases hp; exact hup)
      have h2 := h2 (by simp)
      refine ⟨reg', ?_⟩
      constructor
      · exact h1.sim
      · exact h1.fresh
      · exact h1.pfresh
      · exact h1.uniq
      · exact h1.psep
      · exact h1.zero
      · exact h1.one
      · exact h1.pown
      · intro r hr; cases hr
      · intro hl r
        show balance r ((Registry.disconnects _ up).log ++ [_]) = _
        rw [balance_snoc, h1.bal hl]
        simp only [balStep]
        by_cases hrr : ep.ref = r
        · subst hrr
          rw [if_pos rfl, if_neg]
          · congr 1; symm
            rw [decide_eq_true_eq]
            exact .inl ⟨ep, h2, rfl, by simp⟩
          · rw [decide_eq_true_eq]
            rintro (⟨p, hp, hpr, hne⟩ | ⟨e, he, her⟩)
            · exact hne rfl
            · exact (h1.psep ep h2 e he).1 her
        · rw [if_neg hrr]
          congr 1
          rw [decide_eq_decide]
          constructor
          · rintro (⟨p, hp, hpr, hne⟩ | he)
            · rw [h2] at hp; cases hp; exact absurd hpr hrr
            · exact .inr he
          · rintro (⟨p, hp, hpr, -⟩ | he)
            · have hp : (Registry.disconnects { s with parent := some ep } up).parent = some p := hp
              rw [h2] at hp; cases hp; exact absurd hpr hrr
            · exact .inr he
    · exact ⟨reg, h⟩
  · split
    · exact ⟨reg, h⟩
    · split
      · rename_i hin
        have hnc : ¬ ∃ e ∈ reg, EpOverlap e ep := by
          intro hc
          have := (checkConflict_iff h.sim hw (fun _ e he r hr => h.zero e he r hr)).2 hc
          simp [insertChild, this] at hin
        have hck : checkConflict s.table ep.subnets = false := by
          cases hq : checkConflict s.table ep.subnets with
          | false => rfl
          | true => simp [insertChild, hq] at hin
        refine ⟨ep :: reg, ?_⟩
        constructor
        · show Sim (insertChild s.table ep).1 _
          simp only [insertChild, hck]
          exact sim_add h.sim hw hnc
        · intro e he
          rcases List.mem_cons.1 he with rfl | he
          · show e.ref < s.next; omega
          · exact h.fresh e he
        · exact h.pfresh
        · intro a ha b hb hab
          rcases List.mem_cons.1 ha with rfl | ha <;> rcases List.mem_cons.1 hb with rfl | hb
          · rfl
          · have := hf b hb; omega
          · have := hf _ ‹a ∈ reg›; omega
          · exact h.uniq a ha b hb hab
        · intro p hp e he
          rcases List.mem_cons.1 he with rfl | he
          · have := hpf p hp
            exact ⟨by omega, fun hh => hnp p hp hh.symm⟩
          · exact h.psep p hp e he
        · intro e he
          rcases List.mem_cons.1 he with rfl | he
          · exact hz
          · exact h.zero e he
        · intro hs e he
          rcases List.mem_cons.1 he with rfl | he
          · exact ho hs
          · exact h.one hs e he
        · exact h.pown
        · intro r hr; cases hr
        · intro hl r
          show balance r (s.log ++ [_]) = _
          rw [balance_snoc]
          by_cases hrr : ep.ref = r
          · subst hrr
            rw [hbal hl]
            simp only [balStep, if_true, Bool.false_eq_true, if_false]
            congr 1; symm
            rw [decide_eq_true_eq]
            exact .inr ⟨ep, by simp, rfl⟩
          · rw [h.bal hl]
            simp only [balStep, if_neg hrr]
            congr 1
            rw [decide_eq_decide]
            constructor
            · rintro (hp | ⟨e, he, her⟩)
              · exact .inl hp
              · exact .inr ⟨e, by simp [he], her⟩
            · rintro (hp | ⟨e, he, her⟩)
              · exact .inl hp
              · rcases List.mem_cons.1 he with rfl | he
                · exact absurd her hrr
                · exact .inr ⟨e, he, her⟩
      · exact ⟨reg, h⟩

theorem balance_joined (r c x id : Nat) (pid : Int) (host : Nat) (log : List Ev) :
    balance r (log ++ [.joined c x id pid host]) = balance r log := by
  rw [balance_snoc]; cases balance r log <;> rfl

theorem Inv.addConnection {lg sg : Bool} {s : S} {reg : List Ep} (h : Inv lg sg s reg none) (c r : Nat) : Inv lg sg (addConnection s c r).1 reg none := by
  unfold Registry.addConnection
  split
  · exact h
  · exact h.congr rfl rfl (Nat.le_refl _) rfl (fun _ => rfl)

theorem Inv.setHash {lg sg : Bool} {s : S} {reg : List Ep} (h : Inv lg sg s reg none) (r x : Nat) : Inv lg sg (setHash s r x) reg none := by
  unfold Registry.setHash
  split
  · exact h
  · exact h.congr rfl rfl (Nat.le_refl _) rfl (fun _ => rfl)

theorem Inv.joined {lg sg : Bool} {s : S} {reg : List Ep} (h : Inv lg sg s reg none) (c r id : Nat) (pid : Int) (host : Nat) :
    Inv lg sg (emit s (.joined c r id pid host)) reg none :=
  h.congr rfl rfl (Nat.le_refl _) rfl (fun _ => balance_joined ..)

theorem epConfs_lt {id : Nat} {confs cs : List (Nat × Nat)} (hid : id < 2 ^ 64) (hc : ∀ c ∈ confs, c.1 < 2 ^ 64)
    (h : epConfs id confs = some cs) : ∀ c ∈ cs, c.1 < 2 ^ 64 := by
  unfold epConfs at h
  split at h
  · cases h
  · cases h; exact hc
  · cases h
    intro c hcm
    rcases List.mem_append.1 hcm with hcm | hcm
    · exact hc c hcm
    · simp only [List.mem_singleton] at hcm; subst hcm; exact hid

theorem Inv.regNew {lg sg : Bool} {s : S} {reg : List Ep} (h : Inv lg sg s reg none) {m : Req} (hm : Plain m) (h0 : m.busId ≠ 0)
    (ho : sg = true → OneRange m) (hup : m.busId ∉ m.up) (hun : getEndpoint s m.busId = none) {s' : S} {code : Int}
    (hr : regNew s m = some (s', code)) : ∃ reg', Inv lg sg s' reg' none := by
  unfold Registry.regNew at hr
  split at hr
  · cases hr
  · rename_i cs hcs
    split at hr
    · cases hr; exact ⟨reg, h⟩
    · split at hr
      · cases hr
      · rename_i l hl
        simp only at hr
        obtain ⟨hb, hself, -⟩ := createSubnets_ok hm.id (epConfs_lt hm.id hm.confs hcs) hl
        obtain ⟨hd, hz⟩ := hm.ranges cs l hcs hl
        have hw : WFEp ⟨s.next, m.busId, l⟩ := ⟨fun r hr => (hb r hr).le, hd, hself⟩
        obtain ⟨s1, hs1⟩ : ∃ s1 : S, s1 = { s with next := s.next + 1, info := upd s.info s.next { id := m.busId, pid := m.pid, host := m.host, hash := m.hash } } := ⟨_, rfl⟩
        have hi : Inv lg sg s1 reg none := by
          subst hs1
          exact h.congr rfl rfl (Nat.le_succ _) rfl (fun _ => rfl)
        rw [← hs1] at hr
        have hadd := hi.addEndpoint (ep := ⟨s.next, m.busId, l⟩) (by subst hs1; rfl) h.fresh
          (by subst hs1; exact h.pfresh) h0 hw hz (fun hs => ho hs cs l hcs hl)
          (by subst hs1; exact hun) m.up hup
        obtain ⟨reg', hadd⟩ := hadd
        split at hr
        · cases hr; exact ⟨reg, hi.resetConn _⟩
        · split at hr
          · simp only [Option.some.injEq] at hr
            rw [hr] at hadd
            exact ⟨reg', hadd⟩
          · simp only [Option.some.injEq, Prod.mk.injEq] at hr
            rw [← hr.1]
            refine ⟨reg', ?_⟩
            split
            · exact (hadd.addConnection _ _).joined _ _ _ _ _
            · exact hadd.addConnection _ _

theorem Inv.regOld {lg sg : Bool} {s : S} {reg : List Ep} (h : Inv lg sg s reg none) (m : Req) (ep : Ep) : Inv lg sg (regOld s m ep).1 reg none := by
  unfold Registry.regOld
  split
  · exact h.setHash _ _
  · simp only
    split
    · exact ((h.addConnection _ _).joined _ _ _ _ _).setHash _ _
    · exact (h.addConnection _ _).setHash _ _

theorem Inv.regConnected {lg sg : Bool} {s : S} {reg : List Ep} (h : Inv lg sg s reg none) (m : Req) : Inv lg sg (regConnected s m).1 reg none := by
  unfold Registry.regConnected
  split
  · split
    · exact h.setHash _ _
    · exact h.resetConn _
  · exact h.resetConn _

theorem Inv.regReq {lg sg : Bool} {H : Nat → Nat → Nat × Nat} {s : S} {reg : List Ep} (h : Inv lg sg s reg none) {m : Req} (hm : Plain m)
    (ho : sg = true → OneRange m) (hup : m.busId ∉ m.up) {s' : S} {code : Int} (hr : regReq H s m = some (s', code)) :
    ∃ reg', Inv lg sg s' reg' none := by
  have hden : Inv lg sg (if m.sent then s else Registry.resetConn s m.conn) reg none := by
    split
    · exact h
    · exact h.resetConn _
  unfold Registry.regReq at hr
  split at hr
  · cases hr; exact ⟨reg, hden⟩
  · split at hr
    · cases hr; exact ⟨reg, hden⟩
    · split at hr
      · cases hr
      · rename_i s1 code1 hb
        have hi : ∃ reg', Inv lg sg s1 reg' none := by
          unfold regBody at hb
          split at hb
          · simp only [Option.some.injEq] at hb
            have := h.regConnected m
            rw [hb] at this
            exact ⟨reg, this⟩
          · split at hb
            · cases hb; exact ⟨reg, h⟩
            · rename_i h0
              split at hb
              · rename_i ep _
                simp only [Option.some.injEq] at hb
                have := h.regOld m ep
                rw [hb] at this
                exact ⟨reg, this⟩
              · rename_i hun
                exact h.regNew hm h0 ho hup hun hb
        obtain ⟨reg', hi⟩ := hi
        simp only [Option.some.injEq, Prod.mk.injEq] at hr
        rw [← hr.1]
        refine ⟨reg', ?_⟩
        split
        · exact hi.resetConn _
        · exact hi

/-- What the theorem on notifications assumes of an operation. -/
def Fair (lg sg : Bool) : Op → Prop
  | .reg m => Plain m ∧ m.busId ∉ m.up ∧ (sg = true → OneRange m)
  | .reset _ => lg = true → sg = true
  | _ => True

theorem Inv.run {lg sg : Bool} {H : Nat → Nat → Nat × Nat} : ∀ (ops : List Op) {s : S} {reg : List Ep}, Inv lg sg s reg none →
    (∀ op ∈ ops, Fair lg sg op) → ∀ {s' : S}, run H s ops = some s' → ∃ reg', Inv lg sg s' reg' none := by
  intro ops
  induction ops with
  | nil => intro s reg h _ s' hr; cases hr; exact ⟨reg, h⟩
  | cons op ops ih =>
    intro s reg h hf s' hr
    simp only [Registry.run, Option.bind_eq_some_iff] at hr
    obtain ⟨s1, h1, h2⟩ := hr
    have hop := hf op (by simp)
    have hi : ∃ reg', Inv lg sg s1 reg' none := by
      cases op with
      | reg m =>
        simp only [step, Option.map_eq_some_iff] at h1
        obtain ⟨⟨a, b⟩, h3, h4⟩ := h1
        subst h4
        exact h.regReq hop.1 hop.2.2 hop.2.1 h3
      | rsp c keys ret =>
        simp only [step, Option.some.injEq] at h1
        subst h1
        unfold regRsp
        split
        · exact ⟨reg, h.resetConn _⟩
        · exact ⟨reg, h⟩
      | remove id x =>
        simp only [step, Option.some.injEq] at h1
        subst h1
        exact h.removeEndpoint id x
      | disconnect id =>
        simp only [step, Option.some.injEq] at h1
        subst h1
        obtain ⟨reg', h3, -⟩ := h.disconnect id (fun _ _ hh => by cases hh)
        exact ⟨reg', h3⟩
      | reset mid =>
        simp only [step, Option.some.injEq] at h1
        subst h1
        exact h.reset hop mid
      | link c r =>
        simp only [step, Option.some.injEq] at h1
        subst h1
        exact ⟨reg, h.addConnection c r⟩
      | close c =>
        simp only [step, Option.some.injEq] at h1
        subst h1
        exact ⟨reg, h.resetConn c⟩
    obtain ⟨reg', hi⟩ := hi
    exact ih hi (fun o ho => hf o (by simp [ho])) h2

theorem inv_init (lg sg : Bool) (own : Nat) (subs : List Rng) (mv : Nat) (tokens : List Nat) : Inv lg sg (init own subs mv tokens) [] none := by
  constructor
  · exact sim_nil
  · simp
  · intro p hp; cases hp
  · simp
  · simp
  · simp
  · simp
  · intro h; exact absurd rfl h
  · intro r hr; cases hr
  · intro hl r
    show balance r [] = _
    simp [balance, init]

/-! ### C52 -/

/-- Every history in which the claimed subnets are usable, the application does not disconnect the new parent inside
the callback for becoming active, and, if the node is reset at all, every endpoint has one range: for every endpoint
object the added and removed notifications alternate, and the last one says whether it is registered.  Missing: the
cases of the three theorems below. -/
theorem C52_pairs_partial (H : Nat → Nat → Nat × Nat) (own : Nat) (subs : List Rng) (mv : Nat) (tokens : List Nat) (ops : List Op)
    (hp : ∀ m, .reg m ∈ ops → Plain m ∧ m.busId ∉ m.up) (h1 : (∃ mid, .reset mid ∈ ops) → ∀ m, .reg m ∈ ops → OneRange m)
    (s : S) (hs : run H (init own subs mv tokens) ops = some s) (r : Nat) :
    ∃ b, balance r s.log = some b ∧ (b = true ↔ Registered s r) := by
  have key : ∀ sg, (∀ op ∈ ops, Fair true sg op) → ∃ b, balance r s.log = some b ∧ (b = true ↔ Registered s r) := by
    intro sg hf
    obtain ⟨reg, hi⟩ := Inv.run ops (inv_init true sg own subs mv tokens) hf hs
    exact ⟨_, hi.bal rfl r, by rw [decide_eq_true_eq, hi.registered]⟩
  by_cases hr : ∃ mid, Op.reset mid ∈ ops
  · refine key true fun op ho => ?_
    cases op with
    | reg m => exact ⟨(hp m ho).1, (hp m ho).2, fun _ => h1 hr m ho⟩
    | reset mid => exact fun _ => rfl
    | _ => trivial
  · refine key false fun op ho => ?_
    cases op with
    | reg m => exact ⟨(hp m ho).1, (hp m ho).2, fun hh => by cases hh⟩
    | reset mid => exact absurd ⟨mid, ho⟩ hr
    | _ => trivial

/-- A reset reports an endpoint with two ranges as removed twice. -/
theorem C52_reset_false : ∃ ops log, (run (fun _ _ => (0, 0)) (init 5 [⟨5, 5, 0⟩] 0 []) ops).map S.log = some log ∧ balance 0 log = none :=
  ⟨[.reg { conn := 1, busId := 16, pid := 7, host := 8, confs := [(16, 1), (32, 1)] }, .reset []],
   [.added 0, .joined 1 0 16 7 8, .removed 0, .removed 0], by decide +kernel, by decide⟩

/-- The application disconnects the new parent when the node becomes active: it is told that the parent is removed, and
then that it is added. -/
theorem C52_up_false : ∃ ops log, (run (fun _ _ => (0, 0)) (init 5 [⟨5, 5, 0⟩] 0 []) ops).map S.log = some log ∧ balance 0 log = none :=
  ⟨[.reg { conn := 1, busId := 4, pid := 7, host := 8, confs := [(4, 2)], up := [4] }],
   [.removed 0, .added 0, .joined 1 0 4 7 8], by decide +kernel, by decide⟩

/-- A child, a sibling and the parent come; the sibling is replaced; the parent is lost; the node is reset. -/
example : ((run (fun _ _ => (0, 0)) (init 5 [⟨4, 7, 2⟩] 0 [])
      [.reg { conn := 1, busId := 6 }, .reg { conn := 2, busId := 16 }, .reg { conn := 3, busId := 8, confs := [(0, 4)] },
       .disconnect 16, .reg { conn := 4, busId := 16, pid := 3 }, .remove 8 none, .reset []]).map fun s => s.log) =
    some [.added 0, .joined 1 0 6 0 0, .added 1, .joined 2 1 16 0 0, .added 2, .joined 3 2 8 0 0, .removed 1, .added 3,
      .joined 4 3 16 3 0, .removed 2, .removed 0, .removed 3] := by decide +kernel

/-! ### C49 -/

theorem mem_mapSet_sub {k : Rng} {v : Ep} {t : Table} {x : Rng × Ep} (h : x ∈ mapSet k v t) : x ∈ t ∨ x.2 = v := by
  induction t with
  | nil => simp [mapSet] at h; subst h; exact .inr rfl
  | cons y t ih =>
    obtain ⟨k', v'⟩ := y
    unfold mapSet at h
    split at h
    · rcases List.mem_cons.1 h with rfl | h
      · simp
      · rcases ih h with h | h
        · simp [h]
        · exact .inr h
    · split at h
      · rcases List.mem_cons.1 h with rfl | h
        · exact .inr rfl
        · exact .inl h
      · rcases List.mem_cons.1 h with rfl | h
        · exact .inr rfl
        · simp [h]

theorem insertChild_sub {t : Table} {ep : Ep} {x : Rng × Ep} (h : x ∈ (insertChild t ep).1) : x ∈ t ∨ x.2 = ep := by
  unfold insertChild at h
  split at h
  · exact .inl h
  · have H : ∀ (l : List Rng) (t : Table), x ∈ l.foldl (fun t r => mapSet r ep t) t → x ∈ t ∨ x.2 = ep := by
      intro l
      induction l with
      | nil => exact fun t h => .inl h
      | cons r l ih =>
        intro t h
        rcases ih _ h with h | h
        · exact mem_mapSet_sub h
        · exact .inr h
    exact H _ _ h

theorem removeChild_sub {t : Table} {id : Nat} {e : Option Nat} {x : Rng × Ep} (h : x ∈ (removeChild t id e).1) : x ∈ t := by
  unfold removeChild at h
  split at h
  · exact h
  · split at h
    · exact h
    · split at h
      · exact h
      · have H : ∀ (l : List Rng) (t : Table), x ∈ l.foldl (fun t r => mapErase r t) t → x ∈ t := by
          intro l
          induction l with
          | nil => exact fun t h => h
          | cons r l ih => exact fun t h => (mem_mapErase.1 (ih _ h)).1
        exact H _ _ h

/-- Objects in the registry exist and have the id they are registered under; a connection joined an object only for the
identity of that object. -/
structure Ident (s : S) : Prop where
  tab : ∀ x ∈ s.table, x.2.ref < s.next ∧ (s.info x.2.ref).id = x.2.id
  par : ∀ p, s.parent = some p → p.ref < s.next ∧ (s.info p.ref).id = p.id
  joined : ∀ c r id pid host, .joined c r id pid host ∈ s.log →
    r < s.next ∧ (s.info r).id = id ∧ (s.info r).pid = pid ∧ (s.info r).host = host

/-- The registry shrinks, nothing else changes. -/
structure Shrinks (s s' : S) : Prop where
  tab : ∀ x ∈ s'.table, x ∈ s.table
  par : ∀ p, s'.parent = some p → s.parent = some p
  next : s'.next = s.next
  info : s'.info = s.info
  own : s'.own = s.own
  tokens : s'.tokens = s.tokens
  log : ∀ c r id pid host, .joined c r id pid host ∈ s'.log → .joined c r id pid host ∈ s.log
  adds : ∀ r, .added r ∈ s'.log → .added r ∈ s.log

theorem Shrinks.refl (s : S) : Shrinks s s := ⟨fun _ h => h, fun _ h => h, rfl, rfl, rfl, rfl, fun _ _ _ _ _ h => h, fun _ h => h⟩

theorem Shrinks.trans {a b c : S} (h : Shrinks a b) (h' : Shrinks b c) : Shrinks a c :=
  ⟨fun x hx => h.tab x (h'.tab x hx), fun p hp => h.par p (h'.par p hp), h'.next.trans h.next, h'.info.trans h.info,
   h'.own.trans h.own, h'.tokens.trans h.tokens, fun _ _ _ _ _ hx => h.log _ _ _ _ _ (h'.log _ _ _ _ _ hx), fun r hr => h.adds r (h'.adds r hr)⟩

theorem shrinks_resetConn (s : S) (c : Nat) : Shrinks s (resetConn s c) :=
  ⟨fun _ h => h, fun _ h => h, rfl, rfl, rfl, rfl, fun _ _ _ _ _ h => h, fun _ h => h⟩

theorem shrinks_drop (s : S) (c : Nat) : Shrinks s (drop s c) :=
  ⟨fun _ h => h, fun _ h => h, rfl, rfl, rfl, rfl, fun _ _ _ _ _ h => h, fun _ h => h⟩

theorem shrinks_removed (s : S) (r : Nat) : Shrinks s (emit s (.removed r)) :=
  ⟨fun _ h => h, fun _ h => h, rfl, rfl, rfl, rfl, fun _ _ _ _ _ h => by simpa [emit] using h, fun _ h => by simpa [emit] using h⟩

theorem shrinks_noParent (s : S) : Shrinks s { s with parent := none } :=
  ⟨fun _ h => h, fun _ h => (by cases h), rfl, rfl, rfl, rfl, fun _ _ _ _ _ h => h, fun _ h => h⟩

theorem shrinks_dropChild (s : S) (id : Nat) (x : Option Nat) : Shrinks s (dropChild s id x).1 := by
  unfold dropChild
  split
  · exact .refl s
  · split
    · refine .trans (.trans ?_ (shrinks_removed _ _)) (shrinks_drop _ _)
      exact ⟨fun _ h => removeChild_sub h, fun _ h => h, rfl, rfl, rfl, rfl, fun _ _ _ _ _ h => h, fun _ h => h⟩
    · exact .refl s

theorem shrinks_dropParent (s : S) (r : Nat) : Shrinks s (drop (emit { s with parent := none } (.removed r)) r) :=
  .trans (.trans (shrinks_noParent s) (shrinks_removed _ _)) (shrinks_drop _ _)

theorem shrinks_disconnect (s : S) (id : Nat) : Shrinks s (disconnect s id).1 := by
  have hc : Shrinks s (disconnect.child id s).1 := by
    unfold disconnect.child
    split
    · split
      · exact shrinks_dropChild s id none
      · exact .refl s
    · exact .refl s
  unfold disconnect
  split
  · split
    · exact shrinks_dropParent s _
    · exact hc
  · exact hc

theorem shrinks_disconnects (ids : List Nat) : ∀ s, Shrinks s (disconnects s ids) := by
  induction ids with
  | nil => exact .refl
  | cons id ids ih => exact fun s => .trans (shrinks_disconnect s id) (ih _)

theorem shrinks_removeEndpoint (s : S) (id : Nat) (x : Option Nat) : Shrinks s (removeEndpoint s id x).1 := by
  unfold removeEndpoint
  split
  · split
    · split
      · exact .refl s
      · exact shrinks_dropParent s _
    · exact .refl s
  · split
    · exact .refl s
    · split
      · exact shrinks_dropChild s id x
      · exact .refl s

theorem shrinks_removeCollection (s : S) : Shrinks s (removeCollection s) := by
  have H : ∀ (t : Table) (s : S), Shrinks s (t.foldl (fun s e => drop (emit s (.removed e.2.ref)) e.2.ref) s) := by
    intro t
    induction t with
    | nil => exact .refl
    | cons e t ih => exact fun s => .trans (.trans (shrinks_removed _ _) (shrinks_drop _ _)) (ih _)
  refine .trans ?_ (H s.table { s with table := [] })
  exact ⟨fun _ h => (by cases h), fun _ h => h, rfl, rfl, rfl, rfl, fun _ _ _ _ _ h => h, fun _ h => h⟩

theorem shrinks_reset (s : S) (mid : List Nat) : Shrinks s (reset s mid) := by
  unfold reset
  split
  · exact .trans (.trans (shrinks_removeEndpoint _ _ _) (shrinks_disconnects _ _)) (shrinks_removeCollection _)
  · exact shrinks_removeCollection s

theorem Ident.shrinks {s s' : S} (h : Ident s) (hs : Shrinks s s') : Ident s' := by
  constructor
  · intro x hx; rw [hs.next, hs.info]; exact h.tab x (hs.tab x hx)
  · intro p hp; rw [hs.next, hs.info]; exact h.par p (hs.par p hp)
  · intro c r id pid host hj; rw [hs.next, hs.info]; exact h.joined c r id pid host (hs.log _ _ _ _ _ hj)

theorem shrinks_addConnection (s : S) (c r : Nat) : Shrinks s (addConnection s c r).1 := by
  unfold addConnection
  split
  · exact .refl s
  · exact ⟨fun _ h => h, fun _ h => h, rfl, rfl, rfl, rfl, fun _ _ _ _ _ h => h, fun _ h => h⟩

theorem setHash_info (s : S) (r h x : Nat) : ((setHash s r h).info x).id = (s.info x).id ∧ ((setHash s r h).info x).pid = (s.info x).pid ∧
    ((setHash s r h).info x).host = (s.info x).host ∧ (x ≠ r → (setHash s r h).info x = s.info x) := by
  unfold setHash
  split
  · exact ⟨rfl, rfl, rfl, fun _ => rfl⟩
  · simp only [upd]
    split
    · rename_i hx; subst hx; exact ⟨rfl, rfl, rfl, fun hh => absurd rfl hh⟩
    · exact ⟨rfl, rfl, rfl, fun _ => rfl⟩

theorem setHash_same (s : S) (r h : Nat) : (setHash s r h).table = s.table ∧ (setHash s r h).parent = s.parent ∧ (setHash s r h).log = s.log ∧
    (setHash s r h).next = s.next ∧ (setHash s r h).conn = s.conn ∧ (setHash s r h).own = s.own ∧ (setHash s r h).tokens = s.tokens := by
  unfold setHash
  split <;> exact ⟨rfl, rfl, rfl, rfl, rfl, rfl, rfl⟩

theorem Ident.setHash {s : S} (h : Ident s) (r x : Nat) : Ident (setHash s r x) := by
  obtain ⟨h1, h2, h3, h4, -⟩ := setHash_same s r x
  have hi := setHash_info s r x
  constructor
  · intro y hy; rw [h1] at hy; rw [h4, (hi _).1]; exact h.tab y hy
  · intro p hp; rw [h2] at hp; rw [h4, (hi _).1]; exact h.par p hp
  · intro c r id pid host hj
    rw [h3] at hj
    rw [h4, (hi _).1, (hi _).2.1, (hi _).2.2.1]
    exact h.joined c r id pid host hj

theorem Ident.join {s : S} (h : Ident s) {c r id : Nat} {pid : Int} {host : Nat}
    (hr : r < s.next ∧ (s.info r).id = id ∧ (s.info r).pid = pid ∧ (s.info r).host = host) : Ident (emit s (.joined c r id pid host)) := by
  refine ⟨h.tab, h.par, ?_⟩
  intro c' r' id' pid' host' hj
  simp only [emit, List.mem_append, List.mem_singleton, Ev.joined.injEq] at hj
  rcases hj with hj | ⟨-, rfl, rfl, rfl, rfl⟩
  · exact h.joined _ _ _ _ _ hj
  · exact hr

theorem Ident.addEndpoint {s : S} (h : Ident s) {ep : Ep} (he : ep.ref < s.next ∧ (s.info ep.ref).id = ep.id) (up : List Nat) :
    Ident (addEndpoint s ep up).1 ∧ (addEndpoint s ep up).1.next = s.next ∧ (addEndpoint s ep up).1.info = s.info ∧
      (addEndpoint s ep up).1.own = s.own ∧ (addEndpoint s ep up).1.tokens = s.tokens := by
  unfold Registry.addEndpoint
  split
  · split
    · have hi : Ident { s with parent := some ep } := ⟨h.tab, fun p hp => by cases hp; exact he, h.joined⟩
      have hs := shrinks_disconnects up { s with parent := some ep }
      have hi := hi.shrinks hs
      refine ⟨⟨hi.tab, hi.par, ?_⟩, hs.next, hs.info, hs.own, hs.tokens⟩
      intro c r id pid host hj
      simp only [emit, List.mem_append, List.mem_singleton] at hj
      rcases hj with hj | hj
      · exact hi.joined _ _ _ _ _ hj
      · cases hj
    · exact ⟨h, rfl, rfl, rfl, rfl⟩
  · split
    · exact ⟨h, rfl, rfl, rfl, rfl⟩
    · split
      · refine ⟨⟨?_, h.par, ?_⟩, rfl, rfl, rfl, rfl⟩
        · intro x hx
          rcases insertChild_sub hx with hx | hx
          · exact h.tab x hx
          · rw [hx]; exact he
        · intro c r id pid host hj
          simp only [emit, List.mem_append, List.mem_singleton] at hj
          rcases hj with hj | hj
          · exact h.joined _ _ _ _ _ hj
          · cases hj
      · exact ⟨h, rfl, rfl, rfl, rfl⟩

theorem getEndpoint_some {s : S} (h : Ident s) {id : Nat} {ep : Ep} (hg : getEndpoint s id = some ep) :
    ep.ref < s.next ∧ (s.info ep.ref).id = id := by
  unfold getEndpoint at hg
  split at hg
  · rename_i hp
    simp only [isParent, hg, Bool.and_eq_true, Option.any_some] at hp
    have := h.par ep hg
    exact ⟨this.1, this.2.trans (by simpa using hp.2)⟩
  · split at hg
    · rename_i e hf
      split at hg
      · rename_i hid
        cases hg
        obtain ⟨r, hr, -⟩ := C31_route_sound _ _ _ hf
        have := h.tab _ hr
        exact ⟨this.1, this.2.trans hid⟩
      · cases hg
    · cases hg

theorem Ident.regNew {s : S} (h : Ident s) {m : Req} {s' : S} {code : Int} (hr : regNew s m = some (s', code)) : Ident s' ∧ s'.own = s.own := by
  unfold Registry.regNew at hr
  split at hr
  · cases hr
  · split at hr
    · cases hr; exact ⟨h, rfl⟩
    · split at hr
      · cases hr
      · rename_i l hl
        simp only at hr
        obtain ⟨s1, hs1⟩ : ∃ s1 : S, s1 = { s with next := s.next + 1, info := upd s.info s.next { id := m.busId, pid := m.pid, host := m.host, hash := m.hash } } := ⟨_, rfl⟩
        rw [← hs1] at hr
        have hold : ∀ r, r < s.next → s1.info r = s.info r := by
          intro r hlt; subst hs1
          show upd s.info s.next _ r = _
          unfold upd; rw [if_neg (by omega)]
        have hnew : s1.info s.next = { id := m.busId, pid := m.pid, host := m.host, hash := m.hash } := by
          subst hs1
          show upd s.info s.next _ s.next = _
          simp [upd]
        have hn : s1.next = s.next + 1 := by subst hs1; rfl
        have ho : s1.own = s.own := by subst hs1; rfl
        have hi : Ident s1 := by
          constructor
          · intro x hx
            have := h.tab x (by subst hs1; exact hx)
            rw [hold _ this.1, hn]; exact ⟨by omega, this.2⟩
          · intro p hp
            have := h.par p (by subst hs1; exact hp)
            rw [hold _ this.1, hn]; exact ⟨by omega, this.2⟩
          · intro c r id pid host hj
            have := h.joined c r id pid host (by subst hs1; exact hj)
            rw [hold _ this.1, hn]; exact ⟨by omega, this.2⟩
        obtain ⟨ha, han, hai, hao, -⟩ := hi.addEndpoint (ep := ⟨s.next, m.busId, l⟩) ⟨by show s.next < s1.next; omega, by show (s1.info s.next).id = _; rw [hnew]⟩ m.up
        split at hr
        · cases hr; exact ⟨hi.shrinks (shrinks_resetConn _ _), ho⟩
        · split at hr
          · simp only [Option.some.injEq] at hr
            rw [hr] at ha hao
            exact ⟨ha, hao.trans ho⟩
          · simp only [Option.some.injEq, Prod.mk.injEq] at hr
            rw [← hr.1]
            have hc := shrinks_addConnection (Registry.addEndpoint s1 ⟨s.next, m.busId, l⟩ m.up).1 m.conn s.next
            split
            · refine ⟨(ha.shrinks hc).join ?_, (hc.own.trans hao).trans ho⟩
              rw [hc.next, hc.info, han, hai, hnew, hn]
              exact ⟨by omega, rfl, rfl, rfl⟩
            · exact ⟨ha.shrinks hc, (hc.own.trans hao).trans ho⟩

theorem Ident.regOld {s : S} (h : Ident s) (ho : s.own ≠ 0) {m : Req} {ep : Ep} (hg : getEndpoint s m.busId = some ep) :
    Ident (regOld s m ep).1 ∧ (regOld s m ep).1.own = s.own := by
  obtain ⟨h1, h2⟩ := getEndpoint_some h hg
  unfold Registry.regOld
  split
  · exact ⟨h.setHash _ _, (setHash_same ..).2.2.2.2.2.1⟩
  · rename_i hc
    simp only
    have hs := shrinks_addConnection s m.conn ep.ref
    split
    · refine ⟨Ident.setHash (Ident.join (h.shrinks hs) ?_) _ _, (setHash_same ..).2.2.2.2.2.1.trans hs.own⟩
      rw [hs.next, hs.info]
      simp only [ho, ne_eq, not_false_eq_true, true_and, not_or, Decidable.not_not] at hc
      exact ⟨h1, h2, hc.1, hc.2⟩
    · exact ⟨Ident.setHash (h.shrinks hs) _ _, (setHash_same ..).2.2.2.2.2.1.trans hs.own⟩

theorem Ident.regConnected {s : S} (h : Ident s) (m : Req) : Ident (regConnected s m).1 ∧ (regConnected s m).1.own = s.own := by
  unfold Registry.regConnected
  split
  · split
    · exact ⟨h.setHash _ _, (setHash_same ..).2.2.2.2.2.1⟩
    · exact ⟨h.shrinks (shrinks_resetConn _ _), rfl⟩
  · exact ⟨h.shrinks (shrinks_resetConn _ _), rfl⟩

theorem Ident.regReq {H : Nat → Nat → Nat × Nat} {s : S} (h : Ident s) (ho : s.own ≠ 0) {m : Req} {s' : S} {code : Int}
    (hr : regReq H s m = some (s', code)) : Ident s' ∧ s'.own = s.own := by
  have hden : Ident (if m.sent then s else Registry.resetConn s m.conn) ∧ (if m.sent then s else Registry.resetConn s m.conn).own = s.own := by
    split
    · exact ⟨h, rfl⟩
    · exact ⟨h.shrinks (shrinks_resetConn _ _), rfl⟩
  unfold Registry.regReq at hr
  split at hr
  · cases hr; exact hden
  · split at hr
    · cases hr; exact hden
    · split at hr
      · cases hr
      · rename_i s1 code1 hb
        have hi : Ident s1 ∧ s1.own = s.own := by
          unfold regBody at hb
          split at hb
          · simp only [Option.some.injEq] at hb
            have := h.regConnected m
            rw [hb] at this
            exact this
          · split at hb
            · cases hb; exact ⟨h, rfl⟩
            · split at hb
              · rename_i hg
                simp only [Option.some.injEq] at hb
                have := h.regOld ho hg
                rw [hb] at this
                exact this
              · exact h.regNew hb
        simp only [Option.some.injEq, Prod.mk.injEq] at hr
        rw [← hr.1]
        split
        · exact ⟨hi.1.shrinks (shrinks_resetConn _ _), hi.2⟩
        · exact hi

theorem Ident.step {H : Nat → Nat → Nat × Nat} {s : S} (h : Ident s) (ho : s.own ≠ 0) (op : Op) {s' : S} (hs : step H s op = some s') :
    Ident s' ∧ s'.own = s.own := by
  have hsh : Shrinks s s' → Ident s' ∧ s'.own = s.own := fun hx => ⟨h.shrinks hx, hx.own⟩
  cases op with
  | reg m =>
    simp only [Registry.step, Option.map_eq_some_iff] at hs
    obtain ⟨⟨a, b⟩, h3, h4⟩ := hs
    subst h4
    exact h.regReq ho h3
  | rsp c keys ret =>
    simp only [Registry.step, Option.some.injEq] at hs
    subst hs
    apply hsh
    unfold regRsp
    split
    · exact shrinks_resetConn _ _
    · exact .refl _
  | remove id x => simp only [Registry.step, Option.some.injEq] at hs; subst hs; exact hsh (shrinks_removeEndpoint _ _ _)
  | disconnect id => simp only [Registry.step, Option.some.injEq] at hs; subst hs; exact hsh (shrinks_disconnect _ _)
  | reset mid => simp only [Registry.step, Option.some.injEq] at hs; subst hs; exact hsh (shrinks_reset _ _)
  | link c r => simp only [Registry.step, Option.some.injEq] at hs; subst hs; exact hsh (shrinks_addConnection _ _ _)
  | close c => simp only [Registry.step, Option.some.injEq] at hs; subst hs; exact hsh (shrinks_resetConn _ _)

theorem Ident.run {H : Nat → Nat → Nat × Nat} : ∀ (ops : List Op) {s : S}, Ident s → s.own ≠ 0 → ∀ {s' : S}, run H s ops = some s' →
    Ident s' ∧ s'.own = s.own := by
  intro ops
  induction ops with
  | nil => intro s h _ s' hr; cases hr; exact ⟨h, rfl⟩
  | cons op ops ih =>
    intro s h ho s' hr
    simp only [Registry.run, Option.bind_eq_some_iff] at hr
    obtain ⟨s1, h1, h2⟩ := hr
    obtain ⟨h3, h4⟩ := h.step ho op h1
    obtain ⟨h5, h6⟩ := ih h3 (by rw [h4]; exact ho) h2
    exact ⟨h5, h6.trans h4⟩

theorem ident_init (own : Nat) (subs : List Rng) (mv : Nat) (tokens : List Nat) : Ident (init own subs mv tokens) :=
  ⟨fun x hx => (by cases hx), fun p hp => (by cases hp), fun _ _ _ _ _ h => (by cases h)⟩

/-- On a node that is not temporary, all registrations that ever joined one endpoint object, in any history, are for the
same id and come from the same process of the same host. -/
theorem C49_identity (H : Nat → Nat → Nat × Nat) (own : Nat) (ho : own ≠ 0) (subs : List Rng) (mv : Nat) (tokens : List Nat) (ops : List Op)
    (s : S) (hs : run H (init own subs mv tokens) ops = some s) (r c c' id id' host host' : Nat) (pid pid' : Int)
    (h1 : .joined c r id pid host ∈ s.log) (h2 : .joined c' r id' pid' host' ∈ s.log) : id = id' ∧ pid = pid' ∧ host = host' := by
  obtain ⟨hi, -⟩ := Ident.run ops (ident_init own subs mv tokens) ho hs
  obtain ⟨-, a1, a2, a3⟩ := hi.joined _ _ _ _ _ h1
  obtain ⟨-, b1, b2, b3⟩ := hi.joined _ _ _ _ _ h2
  exact ⟨a1.symm.trans b1, a2.symm.trans b2, a3.symm.trans b3⟩

/-- `ep` is the parent or in the route table. -/
def Entry (s : S) (ep : Ep) : Prop := s.parent = some ep ∨ ∃ r, (r, ep) ∈ s.table

theorem Inv.entry {lg sg : Bool} {s : S} {reg : List Ep} (h : Inv lg sg s reg none) (ep : Ep) : Entry s ep ↔ s.parent = some ep ∨ ep ∈ reg := by
  unfold Entry
  constructor
  · rintro (hp | ⟨r, hr⟩)
    · exact .inl hp
    · exact .inr ((h.sim.mem _).1 hr).1
  · rintro (hp | hr)
    · exact .inl hp
    · obtain ⟨r', h3, -⟩ := (h.sim.wf ep hr).self
      exact .inr ⟨r', (h.sim.mem _).2 ⟨hr, h3⟩⟩

theorem Inv.getEndpoint {lg sg : Bool} {s : S} {reg : List Ep} (h : Inv lg sg s reg none) {ep : Ep} (he : Entry s ep) (h0 : ep.id ≠ 0) :
    getEndpoint s ep.id = some ep := by
  rw [h.entry] at he
  unfold Registry.getEndpoint
  rcases he with he | he
  · rw [if_pos (by simp [isParent, h.pown (by simp [he]), he]), he]
  · rw [if_neg]
    · rw [(findRoute_iff h.sim h0).2 ⟨he, (h.sim.wf ep he).self⟩]
      simp
    · simp only [isParent, Bool.and_eq_true, Option.any_eq_true, not_and, not_exists]
      intro _ p hp hpi
      exact (h.psep p hp ep he).2 (by simpa using hpi : p.id = ep.id).symm

/-- Every claim in the history is for usable subnets (and a new parent is not disconnected at once). -/
def Usable (ops : List Op) : Prop := ∀ m, .reg m ∈ ops → Plain m ∧ m.busId ∉ m.up

theorem Usable.inv {H : Nat → Nat → Nat × Nat} {own : Nat} {subs : List Rng} {mv : Nat} {tokens : List Nat} {ops : List Op} (hu : Usable ops)
    {s : S} (hs : run H (init own subs mv tokens) ops = some s) : ∃ reg, Inv false false s reg none :=
  Inv.run ops (inv_init false false own subs mv tokens) (fun op ho => by
    cases op with
    | reg m => exact ⟨(hu m ho).1, (hu m ho).2, fun hh => by cases hh⟩
    | reset mid => exact fun hh => by cases hh
    | _ => trivial) hs

/-- Registered endpoints have different ids. -/
theorem C49_unique_partial (H : Nat → Nat → Nat × Nat) (own : Nat) (subs : List Rng) (mv : Nat) (tokens : List Nat) (ops : List Op)
    (hu : Usable ops) (s : S) (hs : run H (init own subs mv tokens) ops = some s) (a b : Ep) (ha : Entry s a) (hb : Entry s b)
    (hab : a.id = b.id) : a = b := by
  obtain ⟨reg, hi⟩ := hu.inv hs
  rw [hi.entry] at ha hb
  rcases ha with ha | ha <;> rcases hb with hb | hb
  · rw [ha] at hb; exact Option.some.inj hb
  · exact absurd hab.symm (hi.psep a ha b hb).2
  · exact absurd hab (hi.psep b hb a ha).2
  · exact hi.sim.sep a ha b hb ⟨a.id, (hi.sim.wf a ha).self, hab ▸ (hi.sim.wf b hb).self⟩

/-- A registration for a registered id by another process or host is refused; the registry, its notifications, the
identity of every endpoint and every other connection stay as they are, and a stream connection is closed.  Missing: the
node's own id, the hash code of the endpoint, temporary nodes (see below). -/
theorem C49_conflict_partial (H : Nat → Nat → Nat × Nat) (own : Nat) (ho : own ≠ 0) (subs : List Rng) (mv : Nat) (tokens : List Nat) (ops : List Op)
    (hu : Usable ops) (s : S) (hs : run H (init own subs mv tokens) ops = some s) (m : Req) (ep : Ep) (he : Entry s ep)
    (hid : ep.id = m.busId) (h0 : m.busId ≠ 0) (hc : (s.conn m.conn).connected = false)
    (hd : (s.info ep.ref).pid ≠ m.pid ∨ (s.info ep.ref).host ≠ m.host) :
    ∃ s' code, regReq H s m = some (s', code) ∧ code < 0 ∧ s'.table = s.table ∧ s'.parent = s.parent ∧ s'.log = s.log ∧
      (∀ r, (s'.info r).id = (s.info r).id ∧ (s'.info r).pid = (s.info r).pid ∧ (s'.info r).host = (s.info r).host) ∧
      (∀ c, c ≠ m.conn → s'.conn c = s.conn c) ∧ (s'.conn m.conn = s.conn m.conn ∨ (s'.conn m.conn).bound = none) ∧
      (m.version < s.minVersion ∨ access H s.tokens m.keys = false ∨
        code = Err.ATNODE_ID_CONFLICT ∧ (m.fd = true → (s'.conn m.conn).bound = none)) := by
  obtain ⟨reg, hi⟩ := hu.inv hs
  have hown : s.own = own := (Ident.run ops (ident_init own subs mv tokens) ho hs).2
  have hg : getEndpoint s m.busId = some ep := hid ▸ hi.getEndpoint he (hid ▸ h0)
  have hrc : ∀ (s : S), ((resetConn s m.conn).conn m.conn).bound = none ∧ ∀ c, c ≠ m.conn → (resetConn s m.conn).conn c = s.conn c := by
    intro s
    refine ⟨by simp [resetConn, upd], fun c hc => by simp [resetConn, upd, hc]⟩
  unfold regReq
  by_cases hv : m.version < s.minVersion
  · rw [if_pos hv]
    refine ⟨_, _, rfl, by decide, ?_⟩
    split
    · exact ⟨rfl, rfl, rfl, fun _ => ⟨rfl, rfl, rfl⟩, fun _ _ => rfl, .inl rfl, .inl hv⟩
    · exact ⟨rfl, rfl, rfl, fun _ => ⟨rfl, rfl, rfl⟩, (hrc s).2, .inr (hrc s).1, .inl hv⟩
  · rw [if_neg hv]
    by_cases ha : access H s.tokens m.keys = false
    · rw [if_pos ha]
      refine ⟨_, _, rfl, by decide, ?_⟩
      split
      · exact ⟨rfl, rfl, rfl, fun _ => ⟨rfl, rfl, rfl⟩, fun _ _ => rfl, .inl rfl, .inr (.inl ha)⟩
      · exact ⟨rfl, rfl, rfl, fun _ => ⟨rfl, rfl, rfl⟩, (hrc s).2, .inr (hrc s).1, .inr (.inl ha)⟩
    · rw [if_neg ha]
      have hb : regBody s m = some (setHash s ep.ref m.hash, Err.ATNODE_ID_CONFLICT) := by
        unfold regBody regOld
        rw [if_neg (by simp [hc]), if_neg h0, hg]
        simp only
        rw [if_pos ⟨by rw [hown]; exact ho, hd⟩]
      rw [hb]
      obtain ⟨h1, h2, h3, h4, h5, -⟩ := setHash_same s ep.ref m.hash
      refine ⟨_, _, rfl, by decide, ?_⟩
      split
      · refine ⟨h1, h2, h3, fun r => ⟨(setHash_info ..).1, (setHash_info ..).2.1, (setHash_info ..).2.2.1⟩, ?_, .inr (hrc _).1,
          .inr (.inr ⟨rfl, fun _ => (hrc _).1⟩)⟩
        intro c hcc
        rw [(hrc _).2 c hcc, h5]
      · rename_i hfd
        refine ⟨h1, h2, h3, fun r => ⟨(setHash_info ..).1, (setHash_info ..).2.1, (setHash_info ..).2.2.1⟩, fun c _ => by rw [h5],
          .inl (by rw [h5]), .inr (.inr ⟨rfl, fun hf => absurd ⟨hf, by decide⟩ hfd⟩)⟩

/-- A registration by the same process adds the connection to the existing endpoint and leaves the registry alone. -/
theorem C49_same (H : Nat → Nat → Nat × Nat) (own : Nat) (subs : List Rng) (mv : Nat) (tokens : List Nat) (ops : List Op)
    (hu : Usable ops) (s : S) (hs : run H (init own subs mv tokens) ops = some s) (m : Req) (ep : Ep) (he : Entry s ep)
    (hid : ep.id = m.busId) (h0 : m.busId ≠ 0) (hv : s.minVersion ≤ m.version) (ha : access H s.tokens m.keys = true)
    (hc : s.conn m.conn = { bound := none, connected := false })
    (hd : (s.info ep.ref).pid = m.pid ∧ (s.info ep.ref).host = m.host) :
    ∃ s', regReq H s m = some (s', Err.SUCCESS) ∧ s'.conn m.conn = { bound := some ep.ref, connected := true } ∧
      s'.table = s.table ∧ s'.parent = s.parent ∧ (∀ c, c ≠ m.conn → s'.conn c = s.conn c) ∧
      s'.log = s.log ++ [.joined m.conn ep.ref m.busId m.pid m.host] := by
  obtain ⟨reg, hi⟩ := hu.inv hs
  have hg : getEndpoint s m.busId = some ep := hid ▸ hi.getEndpoint he (hid ▸ h0)
  have hac : addConnection s m.conn ep.ref = ({ s with conn := upd s.conn m.conn { bound := some ep.ref, connected := true } }, true) := by
    unfold addConnection; rw [hc]
  unfold regReq
  rw [if_neg (by omega), if_neg (by simp [ha])]
  have hb : regBody s m = some (setHash (emit { s with conn := upd s.conn m.conn { bound := some ep.ref, connected := true } }
      (.joined m.conn ep.ref m.busId m.pid m.host)) ep.ref m.hash, Err.SUCCESS) := by
    unfold regBody regOld
    rw [if_neg (by simp [hc]), if_neg h0, hg]
    simp only
    rw [if_neg (by simp [hd.1, hd.2]), hac]
    simp
  rw [hb]
  obtain ⟨h1, h2, h3, h4, h5, -⟩ := setHash_same (emit { s with conn := upd s.conn m.conn { bound := some ep.ref, connected := true } }
      (.joined m.conn ep.ref m.busId m.pid m.host)) ep.ref m.hash
  simp only
  rw [if_neg (by simp [Err.SUCCESS])]
  refine ⟨_, rfl, ?_, h1, h2, ?_, h3⟩
  · rw [h5]; simp [emit, upd]
  · intro c hcc; rw [h5]; simp [emit, upd, hcc]

/-- A peer that claims the node's own id is accepted: as the parent if the node has no larger subnet, as a child
otherwise. -/
theorem C49_own_id_false :
    (∃ ops, ((run (fun _ _ => (0, 0)) (init 5 [⟨5, 5, 0⟩] 0 []) ops).map fun s => s.parent) = some (some ⟨0, 5, [⟨5, 5, 0⟩]⟩)) ∧
    (∃ ops, ((run (fun _ _ => (0, 0)) (init 5 [⟨4, 7, 2⟩] 0 []) ops).map fun s => s.table) = some [(⟨5, 5, 0⟩, ⟨0, 5, [⟨5, 5, 0⟩]⟩)]) :=
  ⟨⟨[.reg { conn := 1, busId := 5 }], by decide +kernel⟩, ⟨[.reg { conn := 1, busId := 5 }], by decide +kernel⟩⟩

/-- A refused registration replaces the hash code of the existing endpoint. -/
theorem C49_hash_false : ∃ ops m, ((run (fun _ _ => (0, 0)) (init 5 [⟨5, 5, 0⟩] 0 []) ops).map fun s => (s.info 0).hash) = some 77 ∧
    (((run (fun _ _ => (0, 0)) (init 5 [⟨5, 5, 0⟩] 0 []) ops).bind fun s => regReq (fun _ _ => (0, 0)) s m).map
      fun x => ((x.1.info 0).hash, x.2)) = some (99, Err.ATNODE_ID_CONFLICT) :=
  ⟨[.reg { conn := 1, busId := 9, pid := 3, hash := 77 }], { conn := 2, busId := 9, pid := 4, hash := 99 },
    by decide +kernel, by decide +kernel⟩

/-- A temporary node (id 0) lets another process join an endpoint. -/
theorem C49_temporary_false : ∃ ops log, ((run (fun _ _ => (0, 0)) (init 0 [] 0 []) ops).map S.log) = some log ∧
    .joined 1 0 9 3 1 ∈ log ∧ .joined 2 0 9 4 2 ∈ log :=
  ⟨[.reg { conn := 1, busId := 9, pid := 3, host := 1 }, .reg { conn := 2, busId := 9, pid := 4, host := 2 }],
   [.added 0, .joined 1 0 9 3 1, .joined 2 0 9 4 2], by decide +kernel, by decide, by decide⟩

/-- Two connections of one process, then a stranger with the same id, then a stranger on the established connection. -/
example : ((run (fun _ _ => (0, 0)) (init 5 [⟨5, 5, 0⟩] 0 [])
      [.reg { conn := 1, busId := 9, pid := 3 }, .reg { conn := 2, busId := 9, pid := 3 }, .reg { conn := 3, busId := 9, pid := 4 },
       .reg { conn := 2, busId := 8, pid := 3 }]).map fun s => (s.log, (s.conn 1).bound, (s.conn 2).bound, (s.conn 3).bound)) =
    some ([.added 0, .joined 1 0 9 3 0, .joined 2 0 9 3 0], some 0, none, none) := by decide +kernel

/-! ### C37 -/

/-- Some key was made with one of the tokens. -/
def Genuine (H : Nat → Nat → Nat × Nat) (tokens : List Nat) (keys : List Key) : Prop :=
  ∃ k ∈ keys, ∃ t ∈ tokens, H t k.salt = (k.hash1, k.hash2)

theorem access_iff {H : Nat → Nat → Nat × Nat} {tokens : List Nat} {keys : List Key} (h : tokens ≠ []) :
    access H tokens keys = true ↔ Genuine H tokens keys := by
  unfold access Genuine checkHash
  rw [if_pos (.inl h), List.any_eq_true]
  simp only [h, if_false, List.any_eq_true, beq_iff_eq]

theorem shrinks_self {s s' : S} (h : Shrinks s s') {c r id : Nat} {pid : Int} {host : Nat} :
    (.joined c r id pid host ∈ s'.log → .joined c r id pid host ∈ s.log) ∧ (.added r ∈ s'.log → .added r ∈ s.log) :=
  ⟨h.log _ _ _ _ _, h.adds _⟩

theorem addEndpoint_log (s : S) (ep : Ep) (up : List Nat) (c r id : Nat) (pid : Int) (host : Nat)
    (h : .joined c r id pid host ∈ (addEndpoint s ep up).1.log) : .joined c r id pid host ∈ s.log := by
  unfold addEndpoint at h
  split at h
  · split at h
    · simp only [emit, List.mem_append, List.mem_singleton] at h
      rcases h with h | h
      · have h := (shrinks_disconnects up _).log _ _ _ _ _ h
        exact h
      · cases h
    · exact h
  · split at h
    · exact h
    · split at h
      · simp only [emit, List.mem_append, List.mem_singleton] at h
        rcases h with h | h
        · exact h
        · cases h
      · exact h

theorem regBody_joined {s : S} {m : Req} {s' : S} {code : Int} (hr : regBody s m = some (s', code)) {c r id : Nat} {pid : Int} {host : Nat}
    (hj : .joined c r id pid host ∈ s'.log) :
    .joined c r id pid host ∈ s.log ∨ (c = m.conn ∧ id = m.busId ∧ pid = m.pid ∧ host = m.host) := by
  unfold regBody at hr
  split at hr
  · simp only [Option.some.injEq] at hr
    unfold regConnected at hr
    split at hr
    · split at hr <;> (cases hr; left)
      · rw [(setHash_same ..).2.2.1] at hj; exact hj
      · exact hj
    · cases hr; exact .inl hj
  · split at hr
    · cases hr; exact .inl hj
    · split at hr
      · simp only [Option.some.injEq] at hr
        unfold regOld at hr
        split at hr
        · cases hr
          rw [(setHash_same ..).2.2.1] at hj; exact .inl hj
        · simp only at hr
          split at hr
          · cases hr
            rw [(setHash_same ..).2.2.1] at hj
            simp only [emit, List.mem_append, List.mem_singleton, Ev.joined.injEq] at hj
            rcases hj with hj | hj
            · exact .inl ((shrinks_addConnection _ _ _).log _ _ _ _ _ hj)
            · exact .inr ⟨hj.1, hj.2.2⟩
          · cases hr
            rw [(setHash_same ..).2.2.1] at hj
            exact .inl ((shrinks_addConnection _ _ _).log _ _ _ _ _ hj)
      · unfold regNew at hr
        split at hr
        · cases hr
        · split at hr
          · cases hr; exact .inl hj
          · split at hr
            · cases hr
            · simp only at hr
              obtain ⟨s1, hs1, hl1⟩ : ∃ s1 : S, s1 = { s with next := s.next + 1, info := upd s.info s.next { id := m.busId, pid := m.pid, host := m.host, hash := m.hash } } ∧
                s1.log = s.log := ⟨_, rfl, rfl⟩
              rw [← hs1] at hr
              rw [← hl1]
              split at hr
              · cases hr; exact .inl hj
              · split at hr
                · simp only [Option.some.injEq] at hr
                  exact .inl (addEndpoint_log s1 ⟨s.next, m.busId, ‹List Rng›⟩ m.up c r id pid host (by rw [hr]; exact hj))
                · simp only [Option.some.injEq, Prod.mk.injEq] at hr
                  rw [← hr.1] at hj
                  split at hj
                  · simp only [emit, List.mem_append, List.mem_singleton, Ev.joined.injEq] at hj
                    rcases hj with hj | hj
                    · exact .inl (addEndpoint_log _ _ _ c r id pid host ((shrinks_addConnection _ _ _).log _ _ _ _ _ hj))
                    · exact .inr ⟨hj.1, hj.2.2⟩
                  · exact .inl (addEndpoint_log _ _ _ c r id pid host ((shrinks_addConnection _ _ _).log _ _ _ _ _ hj))

/-- A request that fails the version or token check changes at most the connection it came on, which may be closed. -/
theorem regReq_denied {H : Nat → Nat → Nat × Nat} {s : S} {m : Req} (h : m.version < s.minVersion ∨ access H s.tokens m.keys = false) :
    ∃ s' code, regReq H s m = some (s', code) ∧ code < 0 ∧ (s' = s ∨ s' = resetConn s m.conn) := by
  unfold regReq
  by_cases hv : m.version < s.minVersion
  · rw [if_pos hv]
    refine ⟨_, _, rfl, by decide, ?_⟩
    split
    · exact .inl rfl
    · exact .inr rfl
  · rw [if_neg hv]
    have ha := h.resolve_left hv
    rw [if_pos ha]
    refine ⟨_, _, rfl, by decide, ?_⟩
    split
    · exact .inl rfl
    · exact .inr rfl

/-- On a node with tokens: a request whose keys were not made with one of the tokens is refused, and changes nothing
except that its connection may be closed; the same holds for responses. -/
theorem C37_gate (H : Nat → Nat → Nat × Nat) (s : S) (ht : s.tokens ≠ []) (m : Req) (hg : ¬ Genuine H s.tokens m.keys) :
    (∃ s' code, regReq H s m = some (s', code) ∧ code < 0 ∧ (s' = s ∨ s' = resetConn s m.conn)) ∧
    ∀ c ret, regRsp H s c m.keys ret = (resetConn s c, false) := by
  have ha : access H s.tokens m.keys = false := by
    rw [← Bool.not_eq_true, access_iff ht]; exact hg
  exact ⟨regReq_denied (.inr ha), fun c ret => by unfold regRsp; rw [if_pos (.inl ha)]⟩

theorem step_tokens {H : Nat → Nat → Nat × Nat} {s : S} {op : Op} {s' : S} (hs : step H s op = some s') : s'.tokens = s.tokens := by
  cases op with
  | reg m =>
    simp only [step, Option.map_eq_some_iff] at hs
    obtain ⟨⟨a, b⟩, h3, h4⟩ := hs
    subst h4
    have hadd : ∀ (s : S) (ep : Ep) (up : List Nat), (addEndpoint s ep up).1.tokens = s.tokens := by
      intro s ep up
      unfold addEndpoint
      split
      · split
        · exact (shrinks_disconnects up _).tokens
        · rfl
      · split
        · rfl
        · split <;> rfl
    have hb : ∀ {s' code}, regBody s m = some (s', code) → s'.tokens = s.tokens := by
      intro s' code hr
      unfold regBody at hr
      split at hr
      · simp only [Option.some.injEq] at hr
        unfold regConnected at hr
        split at hr
        · split at hr <;> cases hr
          · exact (setHash_same ..).2.2.2.2.2.2
          · rfl
        · cases hr; rfl
      · split at hr
        · cases hr; rfl
        · split at hr
          · simp only [Option.some.injEq] at hr
            unfold regOld at hr
            split at hr
            · cases hr; exact (setHash_same ..).2.2.2.2.2.2
            · simp only at hr
              split at hr <;> cases hr
              · exact (setHash_same ..).2.2.2.2.2.2.trans (shrinks_addConnection _ _ _).tokens
              · exact (setHash_same ..).2.2.2.2.2.2.trans (shrinks_addConnection _ _ _).tokens
          · unfold regNew at hr
            split at hr
            · cases hr
            · split at hr
              · cases hr; rfl
              · split at hr
                · cases hr
                · simp only at hr
                  split at hr
                  · cases hr; rfl
                  · split at hr
                    · simp only [Option.some.injEq] at hr
                      have := hadd { s with next := s.next + 1, info := upd s.info s.next { id := m.busId, pid := m.pid, host := m.host, hash := m.hash } } ⟨s.next, m.busId, ‹List Rng›⟩ m.up
                      rw [hr] at this
                      exact this
                    · simp only [Option.some.injEq, Prod.mk.injEq] at hr
                      rw [← hr.1]
                      split
                      · exact (shrinks_addConnection _ _ _).tokens.trans (hadd _ _ _)
                      · exact (shrinks_addConnection _ _ _).tokens.trans (hadd _ _ _)
    unfold regReq at h3
    split at h3
    · cases h3; split <;> rfl
    · split at h3
      · cases h3; split <;> rfl
      · split at h3
        · cases h3
        · rename_i hr
          simp only [Option.some.injEq, Prod.mk.injEq] at h3
          rw [← h3.1]
          have := hb hr
          split
          · exact this
          · exact this
  | rsp c keys ret =>
    simp only [step, Option.some.injEq] at hs
    subst hs
    unfold regRsp
    split <;> rfl
  | remove id x => simp only [step, Option.some.injEq] at hs; subst hs; exact (shrinks_removeEndpoint _ _ _).tokens
  | disconnect id => simp only [step, Option.some.injEq] at hs; subst hs; exact (shrinks_disconnect _ _).tokens
  | reset mid => simp only [step, Option.some.injEq] at hs; subst hs; exact (shrinks_reset _ _).tokens
  | link c r => simp only [step, Option.some.injEq] at hs; subst hs; exact (shrinks_addConnection _ _ _).tokens
  | close c => simp only [step, Option.some.injEq] at hs; subst hs; rfl

/-- Over every history of a node with tokens: whatever joined an endpoint did so by a request with a key made with one of
the tokens. -/
theorem C37_history (H : Nat → Nat → Nat × Nat) (own : Nat) (subs : List Rng) (mv : Nat) (tokens : List Nat) (ht : tokens ≠ []) (ops : List Op)
    (s : S) (hs : run H (init own subs mv tokens) ops = some s) (c r id : Nat) (pid : Int) (host : Nat) (hj : .joined c r id pid host ∈ s.log) :
    ∃ m, .reg m ∈ ops ∧ m.conn = c ∧ m.busId = id ∧ m.pid = pid ∧ m.host = host ∧ Genuine H tokens m.keys := by
  have key : ∀ (ops : List Op) (s0 s : S), s0.tokens = tokens → run H s0 ops = some s → .joined c r id pid host ∈ s.log →
      .joined c r id pid host ∈ s0.log ∨ ∃ m, .reg m ∈ ops ∧ m.conn = c ∧ m.busId = id ∧ m.pid = pid ∧ m.host = host ∧ Genuine H tokens m.keys := by
    intro ops
    induction ops with
    | nil => intro s0 s _ hr hj; cases hr; exact .inl hj
    | cons op ops ih =>
      intro s0 s htk hr hj
      simp only [run, Option.bind_eq_some_iff] at hr
      obtain ⟨s1, h1, h2⟩ := hr
      rcases ih s1 s ((step_tokens h1).trans htk) h2 hj with hj1 | ⟨m, hm, hrest⟩
      · have hsh : Shrinks s0 s1 → .joined c r id pid host ∈ s0.log := fun hx => hx.log _ _ _ _ _ hj1
        cases op with
        | reg m =>
          simp only [step, Option.map_eq_some_iff] at h1
          obtain ⟨⟨a, b⟩, h3, h4⟩ := h1
          subst h4
          by_cases hd : m.version < s0.minVersion ∨ access H s0.tokens m.keys = false
          · obtain ⟨s', code, h5, -, h6⟩ := regReq_denied hd
            rw [h5] at h3
            cases h3
            rcases h6 with rfl | rfl
            · exact .inl hj1
            · exact .inl hj1
          · have ha : access H s0.tokens m.keys = true := by
              cases hq : access H s0.tokens m.keys with
              | true => rfl
              | false => exact absurd (.inr hq) hd
            have hgen : Genuine H tokens m.keys := by
              rw [htk] at ha
              exact (access_iff ht).1 ha
            unfold regReq at h3
            rw [if_neg (fun hh => hd (.inl hh)), if_neg (fun hh => hd (.inr hh))] at h3
            split at h3
            · cases h3
            · rename_i hb
              simp only [Option.some.injEq, Prod.mk.injEq] at h3
              have hj2 : Ev.joined c r id pid host ∈ (‹S› : S).log := by
                rw [← h3.1] at hj1
                split at hj1
                · exact hj1
                · exact hj1
              rcases regBody_joined hb hj2 with h7 | ⟨rfl, rfl, rfl, rfl⟩
              · exact .inl h7
              · exact .inr ⟨m, by simp, rfl, rfl, rfl, rfl, hgen⟩
        | rsp c keys ret =>
          simp only [step, Option.some.injEq] at h1
          subst h1
          unfold regRsp at hj1
          split at hj1
          · exact .inl hj1
          · exact .inl hj1
        | remove id x => simp only [step, Option.some.injEq] at h1; subst h1; exact .inl (hsh (shrinks_removeEndpoint _ _ _))
        | disconnect id => simp only [step, Option.some.injEq] at h1; subst h1; exact .inl (hsh (shrinks_disconnect _ _))
        | reset mid => simp only [step, Option.some.injEq] at h1; subst h1; exact .inl (hsh (shrinks_reset _ _))
        | link c r => simp only [step, Option.some.injEq] at h1; subst h1; exact .inl (hsh (shrinks_addConnection _ _ _))
        | close c => simp only [step, Option.some.injEq] at h1; subst h1; exact .inl (hsh (shrinks_resetConn _ _))
      · exact .inr ⟨m, by simp [hm], hrest⟩
  rcases key ops _ s rfl hs hj with h | h
  · cases h
  · exact h

/-- Two nodes that share a token, or have none both, accept each other's data, whatever the salts. -/
theorem C37_shared (H : Nat → Nat → Nat × Nat) (mine theirs : List Nat) (salt : Nat → Nat)
    (h : (∃ t, t ∈ mine ∧ t ∈ theirs) ∨ (mine = [] ∧ theirs = [])) : access H mine (keysOf H theirs salt) = true := by
  rcases h with ⟨t, h1, h2⟩ | ⟨rfl, rfl⟩
  · rw [access_iff (List.ne_nil_of_mem h1)]
    obtain ⟨i, hi, ht⟩ := List.mem_iff_getElem.1 h2
    refine ⟨{ salt := salt i, hash1 := (H t (salt i)).1, hash2 := (H t (salt i)).2 }, ?_, t, h1, rfl⟩
    unfold keysOf
    rw [List.mem_map]
    refine ⟨(t, i), ?_, rfl⟩
    rw [List.mem_zipIdx_iff_getElem?]
    simp [ht, hi]
  · rfl

/-- Nodes that share no token refuse each other, except where the hash collides. -/
theorem C37_disjoint (H : Nat → Nat → Nat × Nat) (mine theirs : List Nat) (salt : Nat → Nat) (hm : mine ≠ [])
    (hcol : ∀ t ∈ mine, ∀ t' ∈ theirs, ∀ x, H t x ≠ H t' x) : access H mine (keysOf H theirs salt) = false := by
  rw [← Bool.not_eq_true, access_iff hm]
  rintro ⟨k, hk, t, ht, he⟩
  unfold keysOf at hk
  rw [List.mem_map] at hk
  obtain ⟨⟨t', i⟩, h1, rfl⟩ := hk
  have h2 : t' ∈ theirs := by
    rw [List.mem_zipIdx_iff_getElem?] at h1
    exact List.mem_of_getElem? h1
  exact hcol t ht t' h2 _ he

/-- What a node without tokens accepts: no access data, or a key that is zero. -/
theorem C37_no_token (H : Nat → Nat → Nat × Nat) (keys : List Key) :
    access H [] keys = true ↔ keys = [] ∨ ∃ k ∈ keys, k.hash1 = 0 ∧ k.hash2 = 0 := by
  cases keys with
  | nil => simp [access]
  | cons k ks => simp [access, checkHash]

/-- A node without tokens accepts access data that is not empty, if one key is zero. -/
theorem C37_zero_key_false (H : Nat → Nat → Nat × Nat) : ∃ keys, keys ≠ [] ∧ access H [] keys = true :=
  ⟨[⟨1, 2, 3⟩, ⟨0, 0, 0⟩], by simp, rfl⟩

/-- A peer that knows no token registers with the access data of the node's own refusal: its first request, without
keys, is refused; the response carries keys made with the node's tokens, and a second request with these keys is accepted. -/
theorem C37_reflection_false (H : Nat → Nat → Nat × Nat) (t : Nat) (salt : Nat → Nat) :
    let s := init 5 [⟨5, 5, 0⟩] 0 [t]
    (∃ s', regReq H s { conn := 1, busId := 9 } = some (s', Err.ACCESS_DENY)) ∧
    ∃ s', run H s [.reg { conn := 1, busId := 9 }, .reg { conn := 1, busId := 9, keys := keysOf H s.tokens salt }] = some s' ∧
      s'.log = [.added 0, .joined 1 0 9 0 0] := by
  intro s
  have hden : regReq H s { conn := 1, busId := 9 } = some (s, Err.ACCESS_DENY) := by
    unfold regReq
    rw [if_neg (by simp [s, init]), if_pos (by simp [access, s, init])]
    rfl
  refine ⟨⟨s, hden⟩, ?_⟩
  have ha : access H s.tokens (keysOf H s.tokens salt) = true := C37_shared H _ _ salt (.inl ⟨t, by simp [s, init], by simp [s, init]⟩)
  have hreg : regReq H s { conn := 1, busId := 9, keys := keysOf H s.tokens salt } =
      (match regBody s { conn := 1, busId := 9 } with | none => none | some (s', code) => some (if code < 0 then resetConn s' 1 else s', code)) := by
    unfold regReq
    rw [if_neg (by simp [s, init]), if_neg (by rw [ha]; simp)]
    have : regBody s { conn := 1, busId := 9, keys := keysOf H s.tokens salt } = regBody s { conn := 1, busId := 9 } := by
      simp [regBody, regNew, regOld, regConnected]
    rw [this]
    cases regBody s { conn := 1, busId := 9 } <;> simp
  have hc : createSubnets 9 [(9, 0)] = some [⟨9, 9, 0⟩] := by decide +kernel
  have hb : ∃ s', regBody s { conn := 1, busId := 9 } = some (s', Err.SUCCESS) ∧ s'.log = [.added 0, .joined 1 0 9 0 0] := by
    have he : epConfs 9 [] = some [(9, 0)] := rfl
    simp [regBody, s, init, getEndpoint, isParent, findRoute, lowerBound, regNew, he, hc, isChildNode, Rng.contain, addEndpoint,
      containList, insertChild, checkConflict, conflict1, mapSet, addConnection, emit, Err.SUCCESS]
  obtain ⟨s', hb1, hb2⟩ := hb
  refine ⟨s', ?_, hb2⟩
  simp only [run, step]
  rw [hden]
  simp only [Option.map_some, Option.bind_some]
  rw [hreg, hb1]
  simp [Err.SUCCESS]

/-- A toy hash: the key made with token 2 passes, the one made with token 3 does not. -/
example : access (fun t x => (t * 10 + x, t)) [1, 2] [⟨4, 0, 0⟩, ⟨7, 27, 2⟩] = true ∧
    access (fun t x => (t * 10 + x, t)) [1, 2] [⟨4, 0, 0⟩, ⟨7, 37, 3⟩] = false := by decide

end Verif.Node.Registry
