import Verif.Node.Tree
import Verif.Node.ForwardProps

/-! Property C71: in a tree of nodes every data message reaches the node it is sent to. -/
namespace Verif.Node.Tree

open Verif.Node
open Verif.Subnet (Rng Ep Hist Covers)

/-! ### Specification -/

/-- `a` is `x` or above it. -/
inductive Anc (par : Nat → Option Nat) (a : Nat) : Nat → Prop
  | self : Anc par a a
  | up {x p} : par x = some p → Anc par a p → Anc par a x

/-- From `x` to `t` there are at most `d` steps: up to some node above both and down again, or up to the top, to another
tree and down (`dep` is 1 at the top). -/
def Far (par : Nat → Option Nat) (dep : Nat → Nat) (x t d : Nat) : Prop :=
  (∃ a, Anc par a x ∧ Anc par a t ∧ dep x + dep t ≤ d + 2 * dep a) ∨ dep x + dep t ≤ d + 1

/-- The id `u` is in the range of node `x`. -/
def Cov (w : World) (x u : Nat) : Prop := ∃ n, w.node x = some n ∧ Covers n.subnets u

/-- The nodes form trees of finite height, their tops know each other, and all connections along the trees and between the
tops work.  `par` is the node above, `dep` the depth, `reg` the endpoints in the route tables: nodes below, and any others
whose range is separate; the connections to these may be lost. -/
structure Ok (w : World) (par : Nat → Option Nat) (dep : Nat → Nat) (top : Nat) (reg : Nat → List Ep) : Prop where
  node : ∀ x n, w.node x = some n → n.id = x ∧ x ≠ 0 ∧ n.created = false ∧ n.minVersion ≤ 2 ∧ Covers n.subnets x ∧ Hist n.routes (reg x)
  par_ : ∀ x n, w.node x = some n → n.parent.map (·.id) = par x
  above : ∀ x n p, w.node x = some n → par x = some p → ∃ q, w.node p = some q ∧ dep x = dep p + 1 ∧
    ∀ u, Covers n.subnets u → Covers q.subnets u
  depth : ∀ x n, w.node x = some n → 1 ≤ dep x ∧ dep x ≤ top
  link : ∀ x n e, w.node x = some n → e ∈ reg x → ∃ k, w.node e.id = some k ∧ (∀ u, Covers e.subnets u ↔ Covers k.subnets u) ∧
    (par e.id = some x ∨ ∀ u, ¬ (Covers n.subnets u ∧ Covers k.subnets u))
  below : ∀ x n t k, w.node x = some n → w.node t = some k → Covers n.subnets t → t ≠ x →
    ∃ e ∈ reg x, par e.id = some x ∧ Covers e.subnets t
  mesh : ∀ x n t k, w.node x = some n → par x = none → w.node t = some k → ¬ Covers n.subnets t → ∃ e ∈ reg x, Covers e.subnets t
  conn : ∀ x n e, w.node x = some n → (n.parent = some e ∨ (e ∈ reg x ∧ (par e.id = some x ∨ par x = none))) →
    (∃ c, n.dataConn e.ref = some c ∧ ∀ m, 0 ≤ n.push c m) ∧ ∃ c, n.ctrlConn e.ref = some c ∧ ∀ m, 0 ≤ n.push c m
  side : ∀ x n e, w.node x = some n → e ∈ reg x →
    (n.dataConn e.ref = none ∨ ∃ c, n.dataConn e.ref = some c ∧ ∀ m, 0 ≤ n.push c m) ∧
    (n.ctrlConn e.ref = none ∨ ∃ c, n.ctrlConn e.ref = some c ∧ ∀ m, 0 ≤ n.push c m)
  bound : ∀ y x, w.bound y x = none ∨ w.bound y x = some x ∨ w.bound y x = some y

/-- No connection is lost. -/
def Whole (w : World) (reg : Nat → List Ep) : Prop :=
  ∀ x n e, w.node x = some n → e ∈ reg x → n.dataConn e.ref ≠ none ∧ n.ctrlConn e.ref ≠ none

/-- What the call leads to: receiver, sender, number, content. -/
def Send.expected (w : World) (s : Send) : List (Nat × Nat × Nat × List Nat) :=
  if (w.node s.t).isSome then [(s.t, s.x, s.seq, s.content)] else []

/-- The answer to the call: sender, receiver, number, success. -/
def Send.reply (w : World) (s : Send) : List (Nat × Nat × Nat × Bool) :=
  if (w.node s.t).isSome then (if s.need then [(s.x, s.t, s.seq, true)] else []) else [(s.x, s.t, s.seq, false)]

/-- The calls that reported success. -/
def S.accepted (s : S) : List Send := (s.sends.filter fun d => decide (0 ≤ d.2)).map Prod.fst

/-- The deliveries among the events. -/
def Ev.got : Ev → Option (Nat × Nat × Nat × List Nat)
  | .delivered x m => some (x, m.from_, m.seq, m.content)
  | .answered _ _ => none

/-- The answers among the events. -/
def Ev.ans : Ev → Option (Nat × Nat × Nat × Bool)
  | .delivered _ _ => none
  | .answered x m => some (x, m.from_, m.seq, decide (0 ≤ m.ret))

/-- How many messages are handled in a history. -/
def work (w : World) : S → List Op → Nat
  | _, [] => 0
  | s, .send d :: ops => work w (step w s (.send d)) ops
  | s, .handle i :: ops => (if i < s.fly.length then 1 else 0) + work w (step w s (.handle i)) ops

/-! ### The tree -/

section
variable {w : World} {par : Nat → Option Nat} {dep : Nat → Nat} {top : Nat} {reg : Nat → List Ep}

theorem Anc.trans {a b c : Nat} (h : Anc par a b) (k : Anc par b c) : Anc par a c := by
  induction k with
  | self => exact h
  | up e _ ih => exact .up e ih

theorem Anc.last {a x : Nat} (h : Anc par a x) (ne : a ≠ x) : ∃ p, par x = some p ∧ Anc par a p := by
  cases h with
  | self => exact absurd rfl ne
  | up e k => exact ⟨_, e, k⟩

/-- Two nodes above the same one. -/
theorem Anc.linear {a b x : Nat} (h : Anc par a x) (k : Anc par b x) : Anc par a b ∨ Anc par b a := by
  induction h with
  | self => exact .inr k
  | @up x p e _ ih =>
    cases k with
    | self => exact .inl (.up e (by assumption))
    | up e' k =>
      rw [e] at e'
      cases e'
      exact ih k

theorem Anc.dep_le (h : Ok w par dep top reg) {a x : Nat} (k : Anc par a x) : (w.node x).isSome → dep a ≤ dep x ∧ (w.node a).isSome ∧
    (a ≠ x → dep a < dep x) := by
  induction k with
  | self => exact fun hx => ⟨Nat.le_refl _, hx, fun e => absurd rfl e⟩
  | @up x p e _ ih =>
    intro hx
    obtain ⟨n, hn⟩ := Option.isSome_iff_exists.1 hx
    obtain ⟨q, hq, hd, _⟩ := h.above x n p hn e
    obtain ⟨i1, i2, _⟩ := ih (by rw [hq]; rfl)
    exact ⟨by omega, i2, fun _ => by omega⟩

theorem Anc.cov (h : Ok w par dep top reg) {a x : Nat} (k : Anc par a x) {u : Nat} : Cov w x u → Cov w a u := by
  induction k with
  | self => exact id
  | up e _ ih =>
    rintro ⟨n, hn, hu⟩
    obtain ⟨q, hq, _, hc⟩ := h.above _ n _ hn e
    exact ih ⟨q, hq, hc u hu⟩

theorem Ok.self (h : Ok w par dep top reg) {x : Nat} {n : Node} (hn : w.node x = some n) : Cov w x x :=
  ⟨n, hn, (h.node x n hn).2.2.2.2.1⟩

theorem Ok.anc (h : Ok w par dep top reg) (j : Nat) : ∀ (x t : Nat) (k : Node), w.node t = some k → Cov w x t → top ≤ j + dep x → Anc par x t := by
  induction j with
  | zero =>
    intro x t k ht hc hj
    by_cases e : t = x
    · rw [e]; exact .self
    · obtain ⟨n, hn, hu⟩ := hc
      obtain ⟨e, he, hp, hcov⟩ := h.below x n t k hn ht hu e
      obtain ⟨m, hm, _⟩ := h.link x n e hn he
      obtain ⟨_, _, hd, _⟩ := h.above e.id m x hm hp
      have := (h.depth _ m hm).2
      omega
  | succ j ih =>
    intro x t k ht hc hj
    by_cases e : t = x
    · rw [e]; exact .self
    · obtain ⟨n, hn, hu⟩ := hc
      obtain ⟨e, he, hp, hcov⟩ := h.below x n t k hn ht hu e
      obtain ⟨m, hm, hs, _⟩ := h.link x n e hn he
      obtain ⟨_, _, hd, _⟩ := h.above e.id m x hm hp
      have := ih e.id t k ht ⟨m, hm, (hs t).1 hcov⟩ (by omega)
      exact (Anc.up hp .self).trans this

theorem Ok.cov_iff (h : Ok w par dep top reg) {x t : Nat} {k : Node} (ht : w.node t = some k) : Cov w x t ↔ Anc par x t :=
  ⟨fun hc => h.anc top x t k ht hc (by omega), fun a => a.cov h (h.self ht)⟩

/-- Nobody has the node above in its range. -/
theorem Ok.not_up (h : Ok w par dep top reg) {x p : Nat} {n : Node} (hn : w.node x = some n) (hp : par x = some p) : ¬ Cov w x p := by
  intro hc
  obtain ⟨q, hq, hd, _⟩ := h.above x n p hn hp
  have := (((h.cov_iff hq).1 hc).dep_le h (by rw [hq]; rfl)).1
  omega

/-- The node `y` is a right next stop from `x` towards `u`. -/
inductive Next (w : World) (par : Nat → Option Nat) (x u y : Nat) : Prop
  | down : par y = some x → Cov w y u → Next w par x u y
  | across : (∀ v, ¬ (Cov w x v ∧ Cov w y v)) → Cov w y u → Next w par x u y
  | up : par x = some y → ¬ Cov w x u → Next w par x u y

theorem Ok.route (h : Ok w par dep top reg) {x u : Nat} {n : Node} (hn : w.node x = some n) (hu : u ≠ 0) (hx : u ≠ x)
    (fn : Nat → Option Nat) (hf : ∀ e, (n.parent = some e ∨ (e ∈ reg x ∧ (par e.id = some x ∨ par x = none))) → ∃ c, fn e.ref = some c ∧ ∀ m, 0 ≤ n.push c m)
    (hs : ∀ e, e ∈ reg x → fn e.ref = none ∨ ∃ c, fn e.ref = some c ∧ ∀ m, 0 ≤ n.push c m) :
    (∃ e c, remoteChannel n fn u = (Err.SUCCESS, some e, some c) ∧ (∀ m, 0 ≤ n.push c m) ∧ Next w par x u e.id ∧ (w.node e.id).isSome) ∨
    (∃ e p, remoteChannel n fn u = (Err.ATNODE_NO_CONNECTION, some e, none) ∧ fn e.ref = none ∧ e ∈ reg x ∧ Covers e.subnets u ∧
      n.isChild u = false ∧ ¬ Cov w x u ∧ n.parent = some p ∧ n.isParent e.id = false) ∨
    ((remoteChannel n fn u).1 < 0 ∧ w.node u = none ∧ (Covers n.subnets u ∨ n.parent = none)) := by
  obtain ⟨n1, n2, n3, n4, n5, n6⟩ := h.node x n hn
  obtain ⟨r1, r2⟩ := C34_next_hop_partial n (reg x) n6 n3 fn u hu (by rw [n1]; exact hx)
  have hpar := h.par_ x n hn
  have rid : ∀ e ∈ reg x, e.id ≠ 0 := by
    intro e he
    obtain ⟨k, hk, _⟩ := h.link x n e hn he
    exact (h.node _ _ hk).2.1
  by_cases hh : ∃ e, Hop n (reg x) u e
  · obtain ⟨e, he⟩ := hh
    have cases_ : (∃ c, fn e.ref = some c ∧ ∀ m, 0 ≤ n.push c m) ∨ (fn e.ref = none ∧ e ∈ reg x ∧ par e.id ≠ some x ∧ par x ≠ none ∧
        ¬ TowardsParent n u ∧ Direct (reg x) u e) := by
      cases he with
      | parent _ e => exact .inl (hf _ (.inl e))
      | default _ _ _ e => exact .inl (hf _ (.inl e))
      | direct t d =>
        by_cases k : par e.id = some x ∨ par x = none
        · exact .inl (hf _ (.inr ⟨d.1, k⟩))
        · rcases hs e d.1 with a | a
          · exact .inr ⟨a, d.1, fun b => k (.inl b), fun b => k (.inr b), t, d⟩
          · exact .inl a
    rcases cases_ with ⟨c, hc, hp⟩ | ⟨b1, b2, b3, b4, b5, b6⟩
    rotate_left
    · refine .inr (.inl ?_)
      obtain ⟨k, hk, hl1, hl2⟩ := h.link x n e hn b2
      have dis : ∀ v, ¬ (Covers n.subnets v ∧ Covers k.subnets v) := by
        rcases hl2 with a | a
        · exact absurd a b3
        · exact a
      have nc : ¬ Covers n.subnets u := fun a => dis u ⟨a, (hl1 u).1 b6.2.2⟩
      cases hp : n.parent with
      | none => rw [hp] at hpar; exact absurd hpar.symm b4
      | some p =>
        refine ⟨e, p, ?_, b1, b2, b6.2.2, ?_, ?_, rfl, ?_⟩
        · have d1 := (directChild_iff n (reg x) n6 u hu e).2 b6
          have i1 : n.isParent u = false := by rw [Bool.eq_false_iff, ne_eq, isParent_iff]; exact b5
          unfold remoteChannel
          rw [if_neg (by simp [n3]), if_neg (by rw [n1]; exact hx)]
          simp only [i1, Bool.false_eq_true, if_false, d1]
          simp [useChannel, finishChannel, b1]
        · rw [Bool.eq_false_iff, ne_eq]
          intro a
          exact nc ((isChildNode_iff _ _ _ hu).1 a).2
        · rintro ⟨n', hn', a⟩
          rw [hn] at hn'; cases hn'
          exact nc a
        · rw [Bool.eq_false_iff, ne_eq, isParent_iff]
          rintro ⟨_, p', hp', ep⟩
          rw [hp] at hp'; cases hp'
          have : par x = some e.id := by rw [← hpar, hp]; exact congrArg some ep
          obtain ⟨q, hq, _, hc⟩ := h.above x n _ hn this
          rw [hk] at hq; cases hq
          exact dis x ⟨n5, hc x n5⟩
    refine .inl ⟨e, c, (r1 e c).2 ⟨he, hc⟩, hp, ?_⟩
    have up : ∀ e, n.parent = some e → ¬ Covers n.subnets u → Next w par x u e.id ∧ (w.node e.id).isSome := by
      intro e he hc
      have : par x = some e.id := by rw [← hpar, he]; rfl
      obtain ⟨q, hq, _⟩ := h.above x n _ hn this
      refine ⟨.up this ?_, by rw [hq]; rfl⟩
      rintro ⟨n', hn', k⟩
      rw [hn] at hn'; cases hn'
      exact hc k
    cases he with
    | parent t e' =>
      obtain ⟨_, p, hp, hid⟩ := t
      refine up _ e' ?_
      intro k
      have : par x = some p.id := by rw [← hpar, hp]; rfl
      exact h.not_up hn (hid ▸ this) ⟨n, hn, k⟩
    | direct _ d =>
      obtain ⟨d1, d2, d3⟩ := d
      obtain ⟨k, hk, hs, hl⟩ := h.link x n e hn d1
      refine ⟨?_, by rw [hk]; rfl⟩
      rcases hl with hl | hl
      · exact .down hl ⟨k, hk, (hs u).1 d3⟩
      · refine .across ?_ ⟨k, hk, (hs u).1 d3⟩
        rintro v ⟨⟨a, ha, h1⟩, ⟨b, hb, h2⟩⟩
        rw [hn] at ha; cases ha
        rw [hk] at hb; cases hb
        exact hl v ⟨h1, h2⟩
    | default _ _ hc e' =>
      exact up _ e' fun k => hc ⟨by rw [n1]; exact n2, k⟩
  · refine .inr (.inr ⟨r2.2 fun ⟨e, c, k, _⟩ => hh ⟨e, k⟩, ?_, ?_⟩)
    · cases ht : w.node u with
      | none => rfl
      | some k =>
        exfalso
        by_cases tp : TowardsParent n u
        · obtain ⟨_, p, hp, _⟩ := id tp
          exact hh ⟨p, .parent tp hp⟩
        · have nod : ∀ e, ¬ Direct (reg x) u e := fun e d => hh ⟨e, .direct tp d⟩
          by_cases hc : Covers n.subnets u
          · obtain ⟨e, he, _, hce⟩ := h.below x n u k hn ht hc hx
            exact nod e ⟨he, rid e he, hce⟩
          · cases hp : n.parent with
            | some p => exact hh ⟨p, .default tp nod (fun k => hc k.2) hp⟩
            | none =>
              rw [hp] at hpar
              obtain ⟨e, he, hce⟩ := h.mesh x n u k hn hpar.symm ht hc
              exact nod e ⟨he, rid e he, hce⟩
    · by_cases hc : Covers n.subnets u
      · exact .inl hc
      · refine .inr ?_
        cases hp : n.parent with
        | none => rfl
        | some p =>
          exfalso
          by_cases tp : TowardsParent n u
          · exact hh ⟨p, .parent tp hp⟩
          · exact hh ⟨p, .default tp (fun e d => hh ⟨e, .direct tp d⟩) (fun k => hc k.2) hp⟩

/-- The message came to `y` from `s`, and the way to `u` does not lead back. -/
def Came (w : World) (par : Nat → Option Nat) (y u s : Nat) : Prop := (par y = some s → Cov w y u) ∧ (Cov w s u → par y = some s)

theorem Ok.came (h : Ok w par dep top reg) {x u y : Nat} (hx : (w.node x).isSome) (k : Next w par x u y) : Came w par y u x := by
  obtain ⟨n, hn⟩ := Option.isSome_iff_exists.1 hx
  cases k with
  | down a b => exact ⟨fun _ => b, fun _ => a⟩
  | across a b => exact ⟨fun _ => b, fun c => absurd ⟨c, b⟩ (a u)⟩
  | up a b =>
    refine ⟨fun e => ?_, fun c => absurd c b⟩
    obtain ⟨q, hq, hd, _⟩ := h.above x n y hn a
    obtain ⟨_, _, hd', _⟩ := h.above y q x hq e
    omega

theorem Ok.not_back (h : Ok w par dep top reg) {y u s z : Nat} (hy : (w.node y).isSome) (hc : Came w par y u s) (k : Next w par y u z) : z ≠ s := by
  obtain ⟨n, hn⟩ := Option.isSome_iff_exists.1 hy
  rintro rfl
  cases k with
  | down a b =>
    have := hc.2 b
    obtain ⟨m, hm, _⟩ := b
    obtain ⟨_, _, hd, _⟩ := h.above z m y hm a
    obtain ⟨_, _, hd', _⟩ := h.above y n z hn this
    omega
  | across a b =>
    have := hc.2 b
    exact a y ⟨h.self hn, (Anc.up this .self).cov h (h.self hn)⟩
  | up a b => exact b (hc.1 a)

theorem Ok.far (h : Ok w par dep top reg) {x u y d : Nat} (hx : (w.node x).isSome) (hu : (w.node u).isSome) (hy : (w.node y).isSome)
    (ne : u ≠ x) (k : Next w par x u y) (hf : Far par dep x u d) : ∃ d', d = d' + 1 ∧ Far par dep y u d' := by
  obtain ⟨n, hn⟩ := Option.isSome_iff_exists.1 hx
  obtain ⟨q, hq⟩ := Option.isSome_iff_exists.1 hu
  obtain ⟨m, hm⟩ := Option.isSome_iff_exists.1 hy
  have dx := (h.depth x n hn).1
  have du := (h.depth u q hq).1
  have dy := (h.depth y m hm).1
  have goal : ∀ d', d = d' + 1 → Far par dep y u d' → ∃ d', d = d' + 1 ∧ Far par dep y u d' := fun d' a b => ⟨d', a, b⟩
  cases k with
  | down a b =>
    obtain ⟨_, _, hd, _⟩ := h.above y m x hm a
    have ayu := (h.cov_iff hq).1 b
    have axu : Anc par x u := (Anc.up a .self).trans ayu
    have l1 := (axu.dep_le h hu).2.2 (Ne.symm ne)
    have : dep u ≤ d + dep x := by
      rcases hf with ⟨c, c1, c2, c3⟩ | c
      · have := (c1.dep_le h hx).1; omega
      · omega
    exact goal (d - 1) (by omega) (.inl ⟨y, .self, ayu, by omega⟩)
  | across a b =>
    have ayu := (h.cov_iff hq).1 b
    have l2 := (ayu.dep_le h hu).1
    rcases hf with ⟨c, c1, c2, c3⟩ | c
    · have ncx : c ≠ x := by
        rintro rfl
        exact a u ⟨c2.cov h (h.self hq), b⟩
      have l1 := (c1.dep_le h hx).2.2 ncx
      have lc : dep c ≤ dep y := by
        rcases Anc.linear c2 ayu with k | k
        · exact (k.dep_le h hy).1
        · exact absurd ⟨h.self hn, (k.trans c1).cov h (h.self hn)⟩ (a x)
      exact goal (d - 1) (by omega) (.inl ⟨y, .self, ayu, by omega⟩)
    · exact goal (d - 1) (by omega) (.inl ⟨y, .self, ayu, by omega⟩)
  | up a b =>
    obtain ⟨_, _, hd, _⟩ := h.above x n y hn a
    rcases hf with ⟨c, c1, c2, c3⟩ | c
    · have ncx : c ≠ x := by
        rintro rfl
        exact b (c2.cov h (h.self hq))
      obtain ⟨p, hp, cp⟩ := c1.last ncx
      rw [a] at hp; cases hp
      have l1 := (cp.dep_le h hy).1
      have l2 := (c2.dep_le h hu).1
      exact goal (d - 1) (by omega) (.inl ⟨c, cp, c2, by omega⟩)
    · exact goal (d - 1) (by omega) (.inr (by omega))

open Classical in
/-- A bound for the steps to go, known or unknown target. -/
noncomputable def left (w : World) (dep : Nat → Nat) (top x u : Nat) : Nat := if Cov w x u then top - dep x else top + dep x

theorem Ok.left_lt (h : Ok w par dep top reg) {x u y : Nat} (hx : (w.node x).isSome) (hy : (w.node y).isSome) (k : Next w par x u y) :
    left w dep top y u < left w dep top x u := by
  obtain ⟨n, hn⟩ := Option.isSome_iff_exists.1 hx
  obtain ⟨m, hm⟩ := Option.isSome_iff_exists.1 hy
  have dx := h.depth x n hn
  have dy := h.depth y m hm
  unfold left
  cases k with
  | down a b =>
    obtain ⟨_, _, hd, _⟩ := h.above y m x hm a
    rw [if_pos b, if_pos ((Anc.up a .self).cov h b)]
    omega
  | across a b =>
    rw [if_pos b, if_neg fun c => a u ⟨c, b⟩]
    omega
  | up a b =>
    obtain ⟨_, _, hd, _⟩ := h.above x n y hn a
    rw [if_neg b]
    split <;> omega

theorem Ok.left_le (h : Ok w par dep top reg) {x : Nat} (u : Nat) (hx : (w.node x).isSome) : left w dep top x u ≤ 2 * top := by
  obtain ⟨n, hn⟩ := Option.isSome_iff_exists.1 hx
  have dx := h.depth x n hn
  unfold left
  split <;> omega

theorem Ok.ne (h : Ok w par dep top reg) {x u y : Nat} (hx : (w.node x).isSome) (k : Next w par x u y) : y ≠ x := by
  obtain ⟨n, hn⟩ := Option.isSome_iff_exists.1 hx
  rintro rfl
  cases k with
  | down a b => obtain ⟨_, _, hd, _⟩ := h.above y n y hn a; omega
  | across a b => exact a y ⟨h.self hn, h.self hn⟩
  | up a b => obtain ⟨_, _, hd, _⟩ := h.above y n y hn a; omega

/-! ### Messages under way -/

/-- What is known of a message under way. -/
structure Good (w : World) (par : Nat → Option Nat) (dep : Nat → Nat) (top ttl : Nat) (acc : List Send) (p : Packet) : Prop where
  here : (w.node p.at_).isSome
  ver : p.m.version = 2
  conn : (p.conn = none ∧ p.m.rsp = false ∧ p.m.to = p.at_) ∨
    ∃ b, p.conn = some b ∧ (b = none ∨ b = some p.m.src ∨ b = some p.at_) ∧ Came w par p.at_ p.m.to p.m.src
  zero : p.m.to ≠ 0
  rsp : p.m.rsp = true → (w.node p.m.to).isSome
  from_ : p.m.rsp = false → (w.node p.m.from_).isSome
  far : p.m.rsp = false → (w.node p.m.to).isSome → p.m.to ≠ p.at_ → ∃ d, Far par dep p.at_ p.m.to d ∧ p.m.router.length + d ≤ ttl
  own : p.conn = none → p.m.from_ = p.at_
  org : p.conn ≠ none → p.m.rsp = false → left w dep top p.at_ p.m.to < left w dep top p.m.from_ p.m.to
  src : p.m.rsp = false → ⟨p.m.from_, p.m.to, p.m.content, p.m.seq, p.m.needRsp⟩ ∈ acc

/-- What is to be delivered: receiver, sender, number, content. -/
def dueD (w : World) (m : Msg) : List (Nat × Nat × Nat × List Nat) :=
  if m.rsp = false ∧ (w.node m.to).isSome then [(m.to, m.from_, m.seq, m.content)] else []

/-- What is to be answered: sender, receiver, number, success. -/
def dueA (w : World) (m : Msg) : List (Nat × Nat × Nat × Bool) :=
  if m.rsp then [(m.to, m.from_, m.seq, decide (0 ≤ m.ret))]
  else if (w.node m.to).isSome then (if m.needRsp then [(m.from_, m.to, m.seq, true)] else [])
  else [(m.from_, m.to, m.seq, false)]

/-- A bound for the work that a message causes. -/
noncomputable def pot (w : World) (dep : Nat → Nat) (top : Nat) (p : Packet) : Nat :=
  if p.m.rsp then left w dep top p.at_ p.m.to + 1 else (left w dep top p.at_ p.m.to + 1) * (2 * top + 2)

/-- What a node does with a message, seen from outside. -/
structure Out (w : World) (par : Nat → Option Nat) (dep : Nat → Nat) (reg : Nat → List Ep) (top ttl : Nat) (acc : List Send) (p : Packet)
    (P : List Packet) (L : List Ev) : Prop where
  good : ∀ q ∈ P, Good w par dep top ttl acc q
  del : L.filterMap Ev.got ++ P.flatMap (fun q => dueD w q.m) = dueD w p.m
  ans : ∃ ex lost, (L.filterMap Ev.ans ++ P.flatMap (fun q => dueA w q.m) ++ lost).Perm (dueA w p.m ++ ex) ∧ (Whole w reg → lost = []) ∧
    ∀ a ∈ ex, p.m.rsp = false ∧ p.m.needRsp = true ∧ a = (p.m.from_, p.m.to, p.m.seq, true)
  pot : (P.map (pot w dep top)).sum < pot w dep top p

/-- Answering. -/
theorem Ok.answer (h : Ok w par dep top reg) {y ttl : Nat} {acc : List Send} {n : Node} (hn : w.node y = some n) (m : Msg) (code : Int)
    (hv : m.version = 2) (hf : (w.node m.from_).isSome) (e : m.from_ ≠ y) :
    ((sendTransferRsp n m code).1.filterMap (packets w y) = [] ∧ (sendTransferRsp n m code).1.filterMap (seen y) = [] ∧ ¬ Whole w reg) ∨
    ∃ r : Packet, (sendTransferRsp n m code).1.filterMap (packets w y) = [r] ∧ (sendTransferRsp n m code).1.filterMap (seen y) = [] ∧
      Good w par dep top ttl acc r ∧ r.m = transferRspMsg n m code := by
  obtain ⟨n1, n2, n3, n4, n5, n6⟩ := h.node y n hn
  obtain ⟨q, hq⟩ := Option.isSome_iff_exists.1 hf
  have f0 := (h.node _ q hq).2.1
  have hy : (w.node y).isSome := by rw [hn]; rfl
  have e1 : (transferRspMsg n m code).to = m.from_ := rfl
  have e2 : (transferRspMsg n m code).src = y := n1
  have e3 : (transferRspMsg n m code).rsp = true := rfl
  have e4 : (transferRspMsg n m code).version = 2 := hv
  unfold sendTransferRsp sendMsg
  generalize transferRspMsg n m code = k at *
  rw [if_neg (by simp [n3])]
  rw [if_neg (by rw [n1]; exact e)]
  rcases h.route hn f0 e n.ctrlConn (fun x hx => (h.conn y n x hn hx).2)
      (fun x hx => (h.side y n x hn hx).2) with ⟨x, c, r1, r2, r3, r4⟩ | ⟨x, p, r1, r2, r3, _⟩ | ⟨_, r, _⟩
  · rw [r1]
    simp only
    rw [if_neg (by decide), if_neg (by have := r2 k; omega)]
    refine .inr ⟨⟨x.id, some (w.bound x.id y), k⟩, rfl, rfl, ⟨r4, e4, .inr ⟨_, rfl, ?_, ?_⟩, ?_, fun _ => ?_, ?_, ?_, (fun k => nomatch k), fun _ => ?_, ?_⟩, rfl⟩
    · show _ ∨ _ = some k.src ∨ _; rw [e2]; exact h.bound x.id y
    · show Came w par x.id k.to k.src; rw [e1, e2]; exact h.came hy r3
    · show k.to ≠ 0; rw [e1]; exact f0
    · show (w.node k.to).isSome; rw [e1]; exact hf
    all_goals intro c; exact absurd (e3.symm.trans c) (by simp)
  · rw [r1]
    simp only
    rw [if_pos (by decide)]
    exact .inl ⟨rfl, rfl, fun wh => (wh y n x hn r3).2 r2⟩
  · rw [hq] at r; cases r

theorem forwardData_ok {n : Node} {e : Ep} {c u f : Nat} {m : Msg} (hu : u ≠ 0) (hx : u ≠ n.id)
    (hr : remoteChannel n n.dataConn u = (Err.SUCCESS, some e, some c)) (hp : ∀ m, 0 ≤ n.push c m) (hb : e.id ≠ f) :
    forwardData n m f u = ([.sent e c { m with src := n.id }], n.push c { m with src := n.id }, some e, { m with src := n.id }) := by
  unfold forwardData
  rw [if_neg hu, if_neg (Ne.symm hx), hr]
  simp only
  rw [if_neg (fun k => hb k.2), if_neg (by have := hp { m with src := n.id }; omega)]

theorem forwardReq_ok {n : Node} {e : Ep} {c : Nat} {m : Msg} (hu : m.to ≠ 0) (hx : m.to ≠ n.id)
    (hr : remoteChannel n n.dataConn m.to = (Err.SUCCESS, some e, some c)) (hp : ∀ m, 0 ≤ n.push c m) (hb : e.id ≠ m.src) :
    ∃ es, (forwardReq n m).1 = .sent e c (passed n m) :: es ∧
      ((∃ d, es = [.sync d e]) ∨ es = [] ∨ (m.needRsp = true ∧ ∃ code, 0 ≤ code ∧ es = (sendTransferRsp n (passed n m) code).1)) := by
  unfold forwardReq
  dsimp only
  rw [forwardData_ok (m := { m with router := m.router ++ [n.id] }) hu hx hr hp hb]
  dsimp only
  have p0 := hp { m with router := m.router ++ [n.id], src := n.id }
  generalize n.push c { m with router := m.router ++ [n.id], src := n.id } = r at p0
  have p1 : ¬ r < 0 := by omega
  split
  · split
    · exact ⟨_, rfl, .inl ⟨_, rfl⟩⟩
    · exact ⟨_, rfl, .inr (.inl rfl)⟩
  · simp only [p1, false_and, if_false, false_or]
    split
    · next k =>
      exact ⟨_, rfl, .inr (.inr ⟨k, _, p0, rfl⟩)⟩
    · exact ⟨_, rfl, .inr (.inl rfl)⟩

/-- A lost connection: the node above is used instead. -/
theorem forwardReq_up {n : Node} {e p : Ep} {c : Nat} {m : Msg} (hu : m.to ≠ 0) (hx : m.to ≠ n.id) (hid : n.id ≠ 0) (hcr : n.created = false)
    (hr : remoteChannel n n.dataConn m.to = (Err.ATNODE_NO_CONNECTION, some e, none)) (hch : n.isChild m.to = false)
    (hpar : n.parent = some p) (hpe : n.isParent e.id = false) (hc : n.dataConn p.ref = some c) (hp : ∀ m, 0 ≤ n.push c m)
    (hb : p.id ≠ m.src) (hp0 : p.id ≠ 0) (hpn : p.id ≠ n.id) :
    ∃ es, (forwardReq n m).1 = .sent p c (passed n m) :: es ∧
      (es = [] ∨ (m.needRsp = true ∧ ∃ code, 0 ≤ code ∧ es = (sendTransferRsp n (passed n m) code).1)) := by
  have fd : forwardData n { m with router := m.router ++ [n.id] } m.src m.to =
      ([], Err.ATNODE_NO_CONNECTION, some e, { m with router := m.router ++ [n.id] }) := by
    unfold forwardData
    rw [if_neg hu, if_neg (Ne.symm hx), hr]
  have ip : n.isParent p.id = true := (isParent_iff _ _).2 ⟨hid, p, hpar, rfl⟩
  have rp : remoteChannel n n.dataConn p.id = (Err.SUCCESS, some p, some c) := by
    unfold remoteChannel
    rw [if_neg (by simp [hcr]), if_neg hpn]
    simp only [ip, if_true, hpar]
    exact (useChannel_ok _ _ _ _).2 ⟨rfl, hc⟩
  have is : n.isParent m.src = false := by
    rw [Bool.eq_false_iff, ne_eq, isParent_iff]
    rintro ⟨_, p', hp', e'⟩
    rw [hpar] at hp'; cases hp'
    exact hb e'
  have neg : ¬ (Err.ATNODE_NO_CONNECTION ≥ 0) := by decide
  have neg2 : Err.ATNODE_NO_CONNECTION < 0 := by decide
  unfold forwardReq
  dsimp only
  rw [fd]
  simp only [neg, false_and, if_false, neg2, is, hch, hpar, notParent, hpe, Bool.not_false, if_true, and_self]
  rw [forwardData_ok (m := { m with router := m.router ++ [n.id] }) hp0 hpn rp hp hb]
  dsimp only
  have p0 := hp { m with router := m.router ++ [n.id], src := n.id }
  generalize n.push c { m with router := m.router ++ [n.id], src := n.id } = r at p0
  have p1 : ¬ r < 0 := by omega
  simp only [p1, false_or]
  split
  · next k => exact ⟨_, rfl, .inr ⟨k, _, p0, rfl⟩⟩
  · exact ⟨_, rfl, .inl rfl⟩

theorem forwardReq_fail {n : Node} {m : Msg} (hu : m.to ≠ 0) (hx : m.to ≠ n.id) (hid : n.id ≠ 0)
    (hr : (remoteChannel n n.dataConn m.to).1 < 0) (hc : Covers n.subnets m.to ∨ n.parent = none) :
    ∃ code, code < 0 ∧ (forwardReq n m).1 = (sendTransferRsp n { m with router := m.router ++ [n.id] } code).1 := by
  have hd : ∃ r e, r < 0 ∧ forwardData n { m with router := m.router ++ [n.id] } m.src m.to = ([], r, e, { m with router := m.router ++ [n.id] }) := by
    rcases remoteChannel_shape n n.dataConn m.to with ⟨e, c, k, _⟩ | ⟨k1, k2⟩
    · rw [k] at hr; exact absurd hr (show ¬ Err.SUCCESS < 0 by decide)
    · unfold forwardData
      rw [if_neg hu, if_neg (Ne.symm hx)]
      generalize remoteChannel n n.dataConn m.to = x at k1 k2
      obtain ⟨r, e, c⟩ := x
      dsimp only at k2
      subst k2
      exact ⟨r, e, k1, by cases e <;> rfl⟩
  obtain ⟨r, e, r0, hd⟩ := hd
  refine ⟨r, r0, ?_⟩
  unfold forwardReq
  dsimp only
  rw [hd]
  dsimp only
  rw [if_neg (fun k => absurd k.1 (by omega))]
  rcases hc with hc | hc
  · have : n.isChild m.to = true := (isChildNode_iff _ _ _ hu).2 ⟨hid, hc⟩
    simp only [this, r0, Bool.true_eq_false, and_false, if_false, true_or, if_true]
    rfl
  · rw [hc]
    dsimp only
    simp only [ite_self, r0, true_or, if_true]
    rfl

@[simp] theorem packets_sent (w : World) (x : Nat) (e : Ep) (c : Nat) (m : Msg) : packets w x (.sent e c m) = some ⟨e.id, some (w.bound e.id x), m⟩ := rfl
@[simp] theorem packets_self (w : World) (x : Nat) (m : Msg) : packets w x (.toSelf m) = some ⟨x, none, m⟩ := rfl
@[simp] theorem packets_deliver (w : World) (x : Nat) (m : Msg) : packets w x (.deliver m) = none := rfl
@[simp] theorem packets_response (w : World) (x : Nat) (m : Msg) : packets w x (.response m) = none := rfl
@[simp] theorem seen_sent (x : Nat) (e : Ep) (c : Nat) (m : Msg) : seen x (.sent e c m) = none := rfl
@[simp] theorem seen_deliver (x : Nat) (m : Msg) : seen x (.deliver m) = some (.delivered x m) := rfl
@[simp] theorem seen_response (x : Nat) (m : Msg) : seen x (.response m) = some (.answered x m) := rfl

/-- How a message under way is handled. -/
theorem Ok.entry (h : Ok w par dep top reg) {ttl : Nat} {acc : List Send} {p : Packet} (g : Good w par dep top ttl acc p) {n : Node}
    (hn : w.node p.at_ = some n) (hc : p.conn ≠ none) : ∃ cn s', receive w p = (handle n cn { p.m with src := s' }).1 ∧
      cn = some true ∧ ∀ z, Next w par p.at_ p.m.to z → z ≠ s' := by
  have n1 := (h.node _ n hn).1
  have n2 := (h.node _ n hn).2.1
  unfold receive
  rw [hn]
  dsimp only
  rcases g.conn with ⟨c1, c2, c3⟩ | ⟨b, c1, c2, c3⟩
  · exact absurd c1 hc
  · rw [c1]
    have same : { p.m with src := p.m.src } = p.m := rfl
    rcases c2 with c2 | c2 | c2
    · rw [c2]
      exact ⟨some true, p.m.src, rfl, rfl, fun z hz => h.not_back g.here c3 hz⟩
    · rw [c2]
      refine ⟨some true, p.m.src, ?_, rfl, fun z hz => h.not_back g.here c3 hz⟩
      simp only [unpackSrc]
      rw [ite_self]
    · rw [c2]
      refine ⟨some true, p.at_, ?_, rfl, fun z hz => h.ne g.here hz⟩
      simp only [unpackSrc]
      rw [if_neg n2]

theorem Ok.recv (h : Ok w par dep top reg) {ttl : Nat} (hT : ∀ x n, w.node x = some n → (ttl : Int) ≤ n.ttl ∧ n.ttl < W64)
    {acc : List Send} {p : Packet} (g : Good w par dep top ttl acc p) :
    Out w par dep reg top ttl acc p ((receive w p).filterMap (packets w p.at_)) ((receive w p).filterMap (seen p.at_)) := by
  obtain ⟨n, hn⟩ := Option.isSome_iff_exists.1 g.here
  obtain ⟨n1, n2, n3, n4, n5, n6⟩ := h.node _ n hn
  by_cases hown : p.conn = none
  · have c1 : p.m.rsp = false ∧ p.m.to = p.at_ := by
      rcases g.conn with ⟨_, a⟩ | ⟨_, a, _⟩
      · exact a
      · rw [hown] at a; cases a
    obtain ⟨c1, c2⟩ := c1
    have ht : (w.node p.m.to).isSome := by rw [c2]; exact g.here
    have due : dueD w p.m = [(p.at_, p.m.from_, p.m.seq, p.m.content)] := by rw [dueD, if_pos ⟨c1, ht⟩, c2]
    have rc : receive w p = .deliver p.m :: if p.m.needRsp then [.response { p.m with rsp := true, ret := 0 }] else [] := by
      unfold receive
      rw [hn, hown]
      dsimp only
      unfold ownQueue
      rw [if_neg (by simp [c1])]
    have fr : p.m.needRsp = true → p.m.from_ = p.m.to := fun _ => (g.own hown).trans c2.symm
    have p0 : 0 < pot w dep top p := by
      simp only [pot, c1, Bool.false_eq_true, if_false]
      exact Nat.mul_pos (by omega) (by omega)
    rw [rc]
    cases hneed : p.m.needRsp with
    | true =>
      rw [if_pos rfl]
      refine ⟨by simp, ?_, ⟨[], [], ?_, by simp, by simp⟩, p0⟩
      · rw [due]
        simp [Ev.got]
      · have e := fr hneed
        simp [Ev.ans, dueA, c1, ht, hneed, e, ← c2]
        rfl
    | false =>
      rw [if_neg (by simp)]
      refine ⟨by simp, ?_, ⟨[], [], ?_, by simp, by simp⟩, p0⟩
      · rw [due]
        simp [Ev.got]
      · simp [Ev.ans, dueA, c1, ht, hneed]
  obtain ⟨cn, s', hr, hcn, hb⟩ := h.entry g hn hown
  rw [hr]
  have hc1 : ¬ (cn = none ∧ s' ≠ n.id) := by rw [hcn]; simp
  have hc2 : ¬ cn = some false := by rw [hcn]; simp
  have hne : p.m.rsp = false → p.m.from_ ≠ p.at_ := by
    intro a b
    have := g.org hown a
    rw [b] at this
    omega
  have fn : ∀ e, (n.parent = some e ∨ (e ∈ reg p.at_ ∧ (par e.id = some p.at_ ∨ par p.at_ = none))) →
      ∃ c, n.dataConn e.ref = some c ∧ ∀ m, 0 ≤ n.push c m := fun x hx => (h.conn _ n x hn hx).1
  have sd : ∀ e, e ∈ reg p.at_ → n.dataConn e.ref = none ∨ ∃ c, n.dataConn e.ref = some c ∧ ∀ m, 0 ≤ n.push c m :=
    fun x hx => (h.side _ n x hn hx).1
  cases hrsp : p.m.rsp with
  | true =>
    have ht := g.rsp hrsp
    have hh : handle n cn { p.m with src := s' } = transferRsp n cn { p.m with src := s' } := by unfold handle; rw [if_pos hrsp]
    rw [hh]
    unfold transferRsp
    rw [if_neg hc1, if_neg hc2]
    by_cases e : p.m.to = n.id
    · rw [if_pos e]
      refine ⟨by simp, ?_, ⟨[], [], ?_, by simp, by simp⟩, ?_⟩
      · simp [Ev.got, dueD, hrsp]
      · simp [Ev.ans, dueA, hrsp, e, n1]
      · show 0 < _
        simp [pot, hrsp]
    · rw [if_neg e]
      rcases h.route hn g.zero (by rw [← n1]; exact e) n.dataConn fn sd with ⟨x, c, r1, r2, r3, r4⟩ | ⟨x, _, r1, r2, r3, _⟩ | ⟨_, r, _⟩
      · dsimp only
        rw [forwardData_ok (m := { p.m with src := s' }) g.zero e r1 r2 (hb _ r3)]
        have lt := h.left_lt g.here r4 r3
        refine ⟨?_, ?_, ⟨[], [], ?_, by simp, by simp⟩, ?_⟩
        · simp only [packets_sent, List.filterMap_cons, List.filterMap_nil, List.mem_singleton]
          rintro q rfl
          refine ⟨r4, g.ver, .inr ⟨_, rfl, ?_, ?_⟩, g.zero, g.rsp, ?_, ?_, (fun k => nomatch k), fun _ => ?_, ?_⟩
          · show _ ∨ _ = some n.id ∨ _; rw [n1]; exact h.bound _ _
          · show Came w par x.id p.m.to n.id; rw [n1]; exact h.came g.here r3
          all_goals intro k; exact absurd (hrsp.symm.trans k) (by simp)
        · simp [dueD, hrsp]
        · simp [dueA, hrsp]
        · simp only [packets_sent, pot, hrsp, List.filterMap_cons, List.filterMap_nil, List.map_cons, List.map_nil, List.sum_cons, List.sum_nil, if_true]
          omega
      · have fd : forwardData n { p.m with src := s' } s' p.m.to = ([], Err.ATNODE_NO_CONNECTION, some x, { p.m with src := s' }) := by
          unfold forwardData
          rw [if_neg g.zero, if_neg (Ne.symm e), r1]
        dsimp only
        rw [fd]
        refine ⟨by simp, ?_, ⟨[], dueA w p.m, by simp, fun wh => absurd r2 (wh _ n x hn r3).1, by simp⟩, ?_⟩
        · simp [dueD, hrsp]
        · show 0 < _
          simp [pot, hrsp]
      · rw [r] at ht; cases ht
  | false =>
    have hf := g.from_ hrsp
    have hh : handle n cn { p.m with src := s' } = transferReq n cn { p.m with src := s' } := by unfold handle; rw [if_neg (by simp [hrsp])]
    rw [hh]
    unfold transferReq
    have g1 : ¬ p.m.version < n.minVersion := by rw [g.ver]; omega
    rw [if_neg g1, if_neg hc1, if_neg hc2]
    have rpot : ∀ r : Packet, Good w par dep top ttl acc r → r.m.rsp = true → pot w dep top r ≤ 2 * top + 1 := by
      intro r gr hr
      have := h.left_le r.m.to gr.here
      simp only [pot, hr, if_true]; omega
    have ppot : 2 * top + 2 ≤ pot w dep top p := by
      simp only [pot, hrsp, Bool.false_eq_true, if_false]
      exact Nat.le_trans (by omega) (Nat.mul_le_mul_right (2 * top + 2) (show 1 ≤ left w dep top p.at_ p.m.to + 1 by omega))
    by_cases e : p.m.to = n.id
    · rw [if_pos e]
      have ht : (w.node p.m.to).isSome := by rw [e, n1, hn]; rfl
      cases hneed : p.m.needRsp with
      | true =>
        rw [if_pos rfl]
        dsimp only
        have due : dueD w p.m = [(p.at_, p.m.from_, p.m.seq, p.m.content)] := by rw [dueD, if_pos ⟨hrsp, ht⟩, e, n1]
        rcases h.answer (ttl := ttl) (acc := acc) hn { p.m with src := s' } Err.SUCCESS g.ver hf (hne hrsp) with ⟨r1, r2, r3⟩ | ⟨r, r1, r2, r3, r4⟩
        · rw [List.filterMap_cons, List.filterMap_cons, r1, r2]
          refine ⟨by simp, ?_, ⟨[], dueA w p.m, by show (dueA w p.m).Perm (dueA w p.m ++ []); simp, fun wh => absurd wh r3, by simp⟩, ?_⟩
          · rw [due]
            simp [Ev.got]
          · show 0 < _
            omega
        have r5 : r.m.rsp = true := by rw [r4]; rfl
        rw [List.filterMap_cons, List.filterMap_cons, r1, r2]
        refine ⟨by simpa using r3, ?_, ⟨[], [], ?_, by simp, by simp⟩, ?_⟩
        · rw [due]
          simp [Ev.got, dueD, r5]
        · have rt : r.m.to = p.m.from_ := by rw [r4]; rfl
          have rf : r.m.from_ = p.m.to := by rw [r4]; rfl
          have rs : r.m.seq = p.m.seq := by rw [r4]; rfl
          have rr : r.m.ret = 0 := by rw [r4]; rfl
          simp [Ev.ans, dueA, hrsp, r5, ht, hneed, rt, rf, rs, rr]
        · have := rpot r r3 r5
          simp
          omega
      | false =>
        rw [if_neg (by simp)]
        refine ⟨by simp, ?_, ⟨[], [], ?_, by simp, by simp⟩, ?_⟩
        · have : dueD w p.m = [(p.at_, p.m.from_, p.m.seq, p.m.content)] := by rw [dueD, if_pos ⟨hrsp, ht⟩, e, n1]
          rw [this]
          simp [Ev.got]
        · simp [Ev.ans, dueA, hrsp, ht, hneed]
        · show 0 < _
          omega
    · rw [if_neg e]
      -- an answer that reports a failure
      have fail : ∀ (k : Msg) (code : Int), k.version = p.m.version → k.from_ = p.m.from_ → k.to = p.m.to → k.seq = p.m.seq → code < 0 → w.node p.m.to = none →
          Out w par dep reg top ttl acc p ((sendTransferRsp n k code).1.filterMap (packets w p.at_)) ((sendTransferRsp n k code).1.filterMap (seen p.at_)) := by
        intro k code k1 k2 k3 k4 k5 k6
        rcases h.answer (ttl := ttl) (acc := acc) hn k code (k1.trans g.ver) (by rw [k2]; exact hf) (by rw [k2]; exact hne hrsp) with ⟨r1, r2, r3⟩ | ⟨r, r1, r2, r3, r4⟩
        · rw [r1, r2]
          refine ⟨by simp, ?_, ⟨[], dueA w p.m, by simp, fun wh => absurd wh r3, by simp⟩, ?_⟩
          · simp [dueD, k6]
          · show 0 < _
            omega
        have r5 : r.m.rsp = true := by rw [r4]; rfl
        rw [r1, r2]
        refine ⟨by simpa using r3, ?_, ⟨[], [], ?_, by simp, by simp⟩, ?_⟩
        · simp [dueD, r5, k6]
        · have rt : r.m.to = p.m.from_ := by rw [r4]; exact k2
          have rf : r.m.from_ = p.m.to := by rw [r4]; exact k3
          have rs : r.m.seq = p.m.seq := by rw [r4]; exact k4
          have rr : r.m.ret = code := by rw [r4]; rfl
          simp [dueA, hrsp, r5, k6, rt, rf, rs, rr, k5]
        · have := rpot r r3 r5
          simp
          omega
      obtain ⟨t1, t2⟩ := hT _ n hn
      have tn : (n.ttl % (W64 : Int)).toNat = n.ttl.toNat := by rw [Int.emod_eq_of_lt (by omega) t2]
      by_cases tr : ttlReached n { p.m with src := s' } = true
      · rw [if_pos tr]
        refine fail _ _ rfl rfl rfl rfl (by decide) ?_
        cases ht : w.node p.m.to with
        | none => rfl
        | some q =>
          exfalso
          obtain ⟨d, f1, f2⟩ := g.far hrsp (by rw [ht]; rfl) (by rw [← n1]; exact e)
          have hq : (w.node p.m.to).isSome := by rw [ht]; rfl
          have : d ≠ 0 := by
            rintro rfl
            have dd := (h.depth _ n hn).1
            have dq := (h.depth _ q ht).1
            rcases f1 with ⟨a, a1, a2, a3⟩ | a
            · have l1 := a1.dep_le h g.here
              have l2 := a2.dep_le h hq
              by_cases ea : a = p.at_
              · have := l2.2.2 (by rw [ea, ← n1]; exact Ne.symm e)
                omega
              · have := l1.2.2 ea
                omega
            · omega
          simp only [ttlReached, decide_eq_true_eq, tn] at tr
          omega
      · rw [if_neg tr]
        -- the message is passed on to `x`
        have pass : ∀ (x : Ep) (c : Nat) (es : List Eff), Next w par p.at_ p.m.to x.id → (w.node x.id).isSome →
            ((∃ d e, es = [.sync d e]) ∨ es = [] ∨
              (p.m.needRsp = true ∧ ∃ code, 0 ≤ code ∧ es = (sendTransferRsp n (passed n { p.m with src := s' }) code).1)) →
            Out w par dep reg top ttl acc p ((Eff.sent x c (passed n { p.m with src := s' }) :: es).filterMap (packets w p.at_))
              ((Eff.sent x c (passed n { p.m with src := s' }) :: es).filterMap (seen p.at_)) := by
          intro x c es r3 r4 q2
          have lt := h.left_lt g.here r4 r3
          have gq : Good w par dep top ttl acc ⟨x.id, some (w.bound x.id p.at_), passed n { p.m with src := s' }⟩ := by
            refine ⟨r4, g.ver, .inr ⟨_, rfl, ?_, ?_⟩, g.zero, g.rsp, g.from_, ?_, (fun k => nomatch k), fun _ k => Nat.lt_trans lt (g.org hown k), g.src⟩
            · show _ ∨ _ = some n.id ∨ _; rw [n1]; exact h.bound _ _
            · show Came w par x.id p.m.to n.id; rw [n1]; exact h.came g.here r3
            · intro k1 k2 _
              obtain ⟨d, f1, f2⟩ := g.far k1 k2 (by rw [← n1]; exact e)
              obtain ⟨d', f3, f4⟩ := h.far g.here k2 r4 (by rw [← n1]; exact e) r3 f1
              refine ⟨d', f4, ?_⟩
              simp only [passed, List.length_append, List.length_singleton]
              omega
          have fpot : pot w dep top ⟨x.id, some (w.bound x.id p.at_), passed n { p.m with src := s' }⟩ + (2 * top + 2) ≤ pot w dep top p := by
            simp only [pot, passed, hrsp, Bool.false_eq_true, if_false]
            rw [← Nat.succ_mul]
            exact Nat.mul_le_mul_right _ (by omega)
          have dd : dueD w (passed n { p.m with src := s' }) = dueD w p.m := rfl
          have da : dueA w (passed n { p.m with src := s' }) = dueA w p.m := rfl
          rw [List.filterMap_cons, List.filterMap_cons]
          simp only [packets_sent, seen_sent]
          have plain : es.filterMap (packets w p.at_) = [] → es.filterMap (seen p.at_) = [] →
              Out w par dep reg top ttl acc p (⟨x.id, some (w.bound x.id p.at_), passed n { p.m with src := s' }⟩ :: es.filterMap (packets w p.at_))
                (es.filterMap (seen p.at_)) := by
            intro e1 e2
            rw [e1, e2]
            refine ⟨by simpa using gq, by simp [dd], ⟨[], [], by simp [da], by simp, by simp⟩, ?_⟩
            refine Nat.lt_of_lt_of_le ?_ fpot
            show pot w dep top _ + 0 < pot w dep top _ + (2 * top + 2)
            exact Nat.add_lt_add_left (by omega) _
          rcases q2 with ⟨d, e', q2⟩ | q2 | ⟨q2, code, q3, q4⟩
          · exact plain (by rw [q2]; rfl) (by rw [q2]; rfl)
          · exact plain (by rw [q2]; rfl) (by rw [q2]; rfl)
          · rcases h.answer (ttl := ttl) (acc := acc) hn (passed n { p.m with src := s' }) code g.ver hf (hne hrsp) with ⟨a1, a2, _⟩ | ⟨r, a1, a2, a3, a4⟩
            · exact plain (by rw [q4]; exact a1) (by rw [q4]; exact a2)
            have a5 : r.m.rsp = true := by rw [a4]; rfl
            rw [q4, a1, a2]
            refine ⟨?_, by have : dueD w r.m = [] := (by simp [dueD, a5]); simp [dd, this], ⟨[(p.m.from_, p.m.to, p.m.seq, true)], [], ?_, by simp, ?_⟩, ?_⟩
            · intro q hq
              rcases List.mem_cons.1 hq with k | k
              · rw [k]; exact gq
              · rw [List.mem_singleton.1 k]; exact a3
            · have rt : r.m.to = p.m.from_ := by rw [a4]; rfl
              have rf : r.m.from_ = p.m.to := by rw [a4]; rfl
              have rs : r.m.seq = p.m.seq := by rw [a4]; rfl
              have rr : r.m.ret = code := by rw [a4]; rfl
              have : dueA w r.m = [(p.m.from_, p.m.to, p.m.seq, true)] := by simp [dueA, a5, rt, rf, rs, rr, q3]
              simp [da, this]
            · intro a ha
              exact ⟨hrsp, q2, List.mem_singleton.1 ha⟩
            · have := rpot r a3 a5
              refine Nat.lt_of_lt_of_le ?_ fpot
              show pot w dep top _ + (pot w dep top r + 0) < pot w dep top _ + (2 * top + 2)
              exact Nat.add_lt_add_left (by omega) _
        rcases h.route hn g.zero (by rw [← n1]; exact e) n.dataConn fn sd with
          ⟨x, c, r1, r2, r3, r4⟩ | ⟨x, u, r1, r2, r3, r4, r5, r6, r7, r8⟩ | ⟨r1, r2, r3⟩
        · obtain ⟨es, q1, q2⟩ := forwardReq_ok (m := { p.m with src := s' }) g.zero e r1 r2 (hb _ r3)
          rw [q1]
          exact pass x c es r3 r4 (q2.imp (fun ⟨d, k⟩ => ⟨d, x, k⟩) id)
        · have pu : par p.at_ = some u.id := by rw [← h.par_ _ n hn, r7]; rfl
          obtain ⟨q, hq, _⟩ := h.above _ n _ hn pu
          have nx : Next w par p.at_ p.m.to u.id := .up pu r6
          obtain ⟨c, c1, c2⟩ := fn u (.inl r7)
          obtain ⟨es, q1, q2⟩ := forwardReq_up (m := { p.m with src := s' }) g.zero e (by rw [n1]; exact n2) n3 r1 r5 r7 r8 c1 c2 (hb _ nx)
            (h.node _ q hq).2.1 (by rw [n1]; exact h.ne g.here nx)
          rw [q1]
          exact pass u c es nx (by rw [hq]; rfl) (.inr q2)
        · obtain ⟨code, c1, c2⟩ := forwardReq_fail (m := { p.m with src := s' }) g.zero e (by rw [n1]; exact n2) r1 r3
          rw [c2]
          exact fail _ _ rfl rfl rfl rfl c1 r2

/-- Sending. -/
theorem Ok.send (h : Ok w par dep top reg) {ttl : Nat} {d : Send} {n : Node} (hn : w.node d.x = some n) (ht : d.t ≠ 0)
    (hfar : (w.node d.t).isSome → ∃ k, Far par dep d.x d.t k ∧ k ≤ ttl) (limit : Nat) :
    (∃ code, code < 0 ∧ sendData n limit d.t d.content d.seq d.need = ([], code) ∧
      (limit < d.content.length ∨ w.node d.t = none ∨ ∃ e ∈ reg d.x, Covers e.subnets d.t ∧ n.dataConn e.ref = none)) ∨
    (∃ (e : Eff) (code : Int) (p : Packet), 0 ≤ code ∧ sendData n limit d.t d.content d.seq d.need = ([e], code) ∧ packets w d.x e = some p ∧ seen d.x e = none ∧
      p.m = dataMsg n d.t d.content d.seq d.need ∧ ∀ acc, d ∈ acc → Good w par dep top ttl acc p) := by
  obtain ⟨n1, n2, n3, n4, n5, n6⟩ := h.node _ n hn
  have hx : (w.node d.x).isSome := by rw [hn]; rfl
  unfold sendData
  rw [if_neg (by simp [n3])]
  by_cases hl : d.content.length > limit
  · rw [if_pos hl]
    exact .inl ⟨_, by decide, rfl, .inl hl⟩
  · rw [if_neg hl]
    unfold sendMsg
    rw [if_neg (by simp [n3])]
    have src : ∀ acc : List Send, d ∈ acc → ⟨n.id, d.t, d.content, d.seq, d.need⟩ ∈ acc := by
      intro acc ha; rw [n1]; exact ha
    by_cases e : d.t = n.id
    · rw [if_pos e]
      refine .inr ⟨_, _, _, by decide, rfl, rfl, rfl, rfl, fun acc ha => ⟨hx, rfl, .inl ⟨rfl, rfl, e.trans n1⟩, ht, ?_, ?_, ?_, fun _ => n1, fun k => absurd rfl k, fun _ => src acc ha⟩⟩
      · intro k; cases k
      · intro _; show (w.node n.id).isSome; rw [n1]; exact hx
      · intro _ _ k; exact absurd (e.trans n1) k
    · rw [if_neg e]
      rcases h.route hn ht (by rw [← n1]; exact e) n.dataConn (fun x k => (h.conn _ n x hn k).1)
          (fun x k => (h.side _ n x hn k).1) with ⟨x, c, r1, r2, r3, r4⟩ | ⟨x, _, r1, r2, r3, r4, _⟩ | ⟨r1, r2, r3⟩
      · rw [r1]
        dsimp only
        have p0 := r2 (dataMsg n d.t d.content d.seq d.need)
        rw [if_neg (by decide), if_neg (by omega)]
        refine .inr ⟨_, _, _, p0, rfl, rfl, rfl, rfl, fun acc ha => ⟨r4, rfl, .inr ⟨_, rfl, ?_, ?_⟩, ht, ?_, ?_, ?_, (fun k => nomatch k), fun _ _ => ?_, fun _ => src acc ha⟩⟩
        · show _ ∨ _ = some n.id ∨ _; rw [n1]; exact h.bound _ _
        · show Came w par x.id d.t n.id; rw [n1]; exact h.came hx r3
        · intro k; cases k
        · intro _; show (w.node n.id).isSome; rw [n1]; exact hx
        · intro _ k _
          obtain ⟨D, f1, f2⟩ := hfar k
          obtain ⟨D', f3, f4⟩ := h.far hx k r4 (by rw [← n1]; exact e) r3 f1
          exact ⟨D', f4, by simp only [dataMsg, List.length_singleton]; omega⟩
        · show left w dep top x.id d.t < left w dep top n.id d.t
          rw [n1]; exact h.left_lt hx r4 r3
      · rw [r1]
        dsimp only
        rw [if_pos (by decide)]
        exact .inl ⟨_, by decide, rfl, .inr (.inr ⟨x, r3, r4, r2⟩)⟩
      · rcases remoteChannel_shape n n.dataConn d.t with ⟨e', c, k, _⟩ | ⟨k1, k2⟩
        · rw [k] at r1; exact absurd r1 (show ¬ Err.SUCCESS < 0 by decide)
        · generalize remoteChannel n n.dataConn d.t = y at k1 k2
          obtain ⟨r, e', c⟩ := y
          dsimp only at k2 k1
          subst k2
          refine .inl ⟨r, k1, ?_, .inr (.inl r2)⟩
          cases e' <;> simp [k1]

/-- What holds at any time. -/
structure Inv (w : World) (par : Nat → Option Nat) (dep : Nat → Nat) (reg : Nat → List Ep) (top ttl : Nat) (s : S) : Prop where
  good : ∀ p ∈ s.fly, Good w par dep top ttl s.accepted p
  del : (s.log.filterMap Ev.got ++ s.fly.flatMap fun q => dueD w q.m).Perm (s.accepted.flatMap (Send.expected w))
  ans : ∃ ex lost, ((s.log.filterMap Ev.ans ++ s.fly.flatMap fun q => dueA w q.m) ++ lost).Perm (s.accepted.flatMap (Send.reply w) ++ ex) ∧
    (Whole w reg → lost = []) ∧
    ∀ a ∈ ex, ∃ d ∈ s.accepted, d.need = true ∧ a = (d.x, d.t, d.seq, true)
  ok : ∀ r ∈ s.sends, r.2 < 0 → w.limit r.1.x < r.1.content.length ∨ w.node r.1.t = none ∨
    ∃ n, w.node r.1.x = some n ∧ ∃ e ∈ reg r.1.x, Covers e.subnets r.1.t ∧ n.dataConn e.ref = none

theorem Good.mono {ttl : Nat} {a b : List Send} {p : Packet} (g : Good w par dep top ttl a p) (h : ∀ d ∈ a, d ∈ b) : Good w par dep top ttl b p :=
  ⟨g.here, g.ver, g.conn, g.zero, g.rsp, g.from_, g.far, g.own, g.org, fun k => h _ (g.src k)⟩

theorem Ok.inv_send (h : Ok w par dep top reg) {ttl : Nat} {s : S} (i : Inv w par dep reg top ttl s) (d : Send) (ht : d.t ≠ 0)
    (hfar : (w.node d.t).isSome → ∃ k, Far par dep d.x d.t k ∧ k ≤ ttl) : Inv w par dep reg top ttl (step w s (.send d)) := by
  cases hn : w.node d.x with
  | none => simp only [step, hn]; exact i
  | some n =>
    simp only [step, hn]
    have n1 := (h.node _ n hn).1
    rcases h.send hn ht hfar (w.limit d.x) with ⟨code, c1, c2, c3⟩ | ⟨e, code, p, c1, c2, c3, c4, c5, c6⟩
    · rw [c2]
      have acc : S.accepted { s.apply w d.x [] with sends := s.sends ++ [(d, code)] } = s.accepted := by
        simp only [S.accepted, List.filter_append]
        rw [List.filter_cons_of_neg (by simp; omega)]
        simp
      refine ⟨?_, ?_, ?_, ?_⟩
      · rw [acc]; simpa [S.apply] using i.good
      · rw [acc]; simpa [S.apply] using i.del
      · rw [acc]; simpa [S.apply] using i.ans
      · intro r hr
        rcases List.mem_append.1 hr with k | k
        · exact i.ok r k
        · rw [List.mem_singleton.1 k]; exact fun _ => c3.imp id (Or.imp id fun k => ⟨n, hn, k⟩)
    · rw [c2]
      have acc : S.accepted { s.apply w d.x [e] with sends := s.sends ++ [(d, code)] } = s.accepted ++ [d] := by
        simp only [S.accepted, List.filter_append]
        rw [List.filter_cons_of_pos (by simpa using c1)]
        simp
      have fly : (S.apply w s d.x [e]).fly = s.fly ++ [p] := by simp [S.apply, c3]
      have log : (S.apply w s d.x [e]).log = s.log := by simp [S.apply, c4]
      have dd : dueD w p.m = d.expected w := by rw [c5]; simp [dueD, dataMsg, Send.expected, n1]
      have da : dueA w p.m = d.reply w := by rw [c5]; simp [dueA, dataMsg, Send.reply, n1]
      refine ⟨?_, ?_, ?_, ?_⟩
      · rw [acc]
        intro q hq
        have hq : q ∈ (S.apply w s d.x [e]).fly := hq
        rw [fly] at hq
        rcases List.mem_append.1 hq with k | k
        · exact (i.good q k).mono fun _ hx => List.mem_append_left _ hx
        · rw [List.mem_singleton.1 k]; exact c6 _ (by simp)
      · rw [acc]
        show ((S.apply w s d.x [e]).log.filterMap Ev.got ++ (S.apply w s d.x [e]).fly.flatMap fun q => dueD w q.m).Perm _
        rw [fly, log, List.flatMap_append, List.flatMap_append, ← List.append_assoc]
        simp only [List.flatMap_cons, List.flatMap_nil, List.append_nil, dd]
        exact i.del.append_right _
      · rw [acc]
        obtain ⟨ex, lost, e1, e3, e2⟩ := i.ans
        refine ⟨ex, lost, ?_, e3, fun a ha => ?_⟩
        · show (((S.apply w s d.x [e]).log.filterMap Ev.ans ++ (S.apply w s d.x [e]).fly.flatMap fun q => dueA w q.m) ++ lost).Perm _
          rw [fly, log, List.flatMap_append, List.flatMap_append]
          simp only [List.flatMap_cons, List.flatMap_nil, List.append_nil, da]
          rw [List.perm_iff_count] at e1 ⊢
          intro a
          have e1 := e1 a
          simp only [List.count_append] at e1 ⊢
          omega
        · obtain ⟨x, hx, k⟩ := e2 a ha
          exact ⟨x, List.mem_append_left _ hx, k⟩
      · intro r hr
        rcases List.mem_append.1 hr with k | k
        · exact i.ok r k
        · rw [List.mem_singleton.1 k]; intro k; exact absurd c1 (by simpa using k)

theorem erase_perm {l : List Packet} {j : Nat} (h : j < l.length) : (l[j] :: l.eraseIdx j).Perm l := by
  induction l generalizing j with
  | nil => simp at h
  | cons a l ih =>
    cases j with
    | zero => exact List.Perm.refl _
    | succ j =>
      simp only [List.getElem_cons_succ, List.eraseIdx_cons_succ]
      exact (List.Perm.swap _ _ _).trans ((ih (by simpa using h)).cons a)

theorem Ok.inv_handle (h : Ok w par dep top reg) {ttl : Nat} (hT : ∀ x n, w.node x = some n → (ttl : Int) ≤ n.ttl ∧ n.ttl < W64) {s : S}
    (i : Inv w par dep reg top ttl s) (j : Nat) : Inv w par dep reg top ttl (step w s (.handle j)) ∧
      (∀ p, s.fly[j]? = some p → ((step w s (.handle j)).fly.map (pot w dep top)).sum < (s.fly.map (pot w dep top)).sum) := by
  cases hp : s.fly[j]? with
  | none => simp only [step, hp]; exact ⟨i, fun p k => by cases k⟩
  | some p =>
    simp only [step, hp]
    obtain ⟨hj, hpj⟩ := List.getElem?_eq_some_iff.1 hp
    have perm : (p :: s.fly.eraseIdx j).Perm s.fly := by rw [← hpj]; exact erase_perm hj
    have mem : p ∈ s.fly := by rw [← hpj]; exact List.getElem_mem hj
    have o := h.recv hT (i.good p mem)
    generalize hP : (receive w p).filterMap (packets w p.at_) = P at o
    generalize hL : (receive w p).filterMap (seen p.at_) = L at o
    have fly : (S.apply w { s with fly := s.fly.eraseIdx j } p.at_ (receive w p)).fly = s.fly.eraseIdx j ++ P := by simp [S.apply, hP]
    have log : (S.apply w { s with fly := s.fly.eraseIdx j } p.at_ (receive w p)).log = s.log ++ L := by simp [S.apply, hL]
    have acc : (S.apply w { s with fly := s.fly.eraseIdx j } p.at_ (receive w p)).accepted = s.accepted := rfl
    refine ⟨⟨?_, ?_, ?_, i.ok⟩, ?_⟩
    · rw [fly, acc]
      intro q hq
      rcases List.mem_append.1 hq with k | k
      · exact i.good q (List.mem_of_mem_eraseIdx k)
      · exact o.good q k
    · rw [fly, log, acc]
      refine List.Perm.trans ?_ i.del
      have k1 := perm.flatMap_right (fun q => dueD w q.m)
      rw [List.flatMap_cons, ← o.del] at k1
      rw [List.perm_iff_count] at k1 ⊢
      intro a
      have := k1 a
      simp only [List.filterMap_append, List.flatMap_append, List.count_append] at this ⊢
      omega
    · rw [fly, log, acc]
      obtain ⟨ex, lost, e1, e3, e2⟩ := i.ans
      obtain ⟨ey, lost', f1, f3, f2⟩ := o.ans
      refine ⟨ex ++ ey, lost ++ lost', ?_, fun wh => by rw [e3 wh, f3 wh]; rfl, ?_⟩
      · have k1 := perm.flatMap_right (fun q => dueA w q.m)
        rw [List.flatMap_cons] at k1
        rw [List.perm_iff_count] at k1 e1 f1 ⊢
        intro a
        have k1 := k1 a
        have e1 := e1 a
        have f1 := f1 a
        simp only [List.filterMap_append, List.flatMap_append, List.count_append] at k1 e1 f1 ⊢
        omega
      · intro a ha
        rcases List.mem_append.1 ha with k | k
        · exact e2 a k
        · obtain ⟨g1, g2, g3⟩ := f2 a k
          exact ⟨_, (i.good p mem).src g1, g2, g3⟩
    · intro q _
      rw [fly, List.map_append, List.sum_append]
      have k1 := (perm.map (pot w dep top)).sum_nat
      rw [List.map_cons, List.sum_cons] at k1
      have := o.pot
      omega

end

section
variable {w : World} {par : Nat → Option Nat} {dep : Nat → Nat} {top : Nat} {reg : Nat → List Ep}

theorem Ok.inv (h : Ok w par dep top reg) {ttl : Nat} (hT : ∀ x n, w.node x = some n → (ttl : Int) ≤ n.ttl ∧ n.ttl < W64) (ops : List Op) :
    ∀ s, Inv w par dep reg top ttl s → (∀ d, .send d ∈ ops → d.t ≠ 0 ∧ ((w.node d.t).isSome → ∃ k, Far par dep d.x d.t k ∧ k ≤ ttl)) →
      Inv w par dep reg top ttl (run w s ops) := by
  induction ops with
  | nil => intro s i _; exact i
  | cons o os ih =>
    intro s i hs
    refine ih _ ?_ fun d hd => hs d (List.mem_cons_of_mem _ hd)
    cases o with
    | send d => exact h.inv_send i d (hs d (List.mem_cons_self ..)).1 (hs d (List.mem_cons_self ..)).2
    | handle j => exact (h.inv_handle hT i j).1

theorem Ok.init (w : World) (par : Nat → Option Nat) (dep : Nat → Nat) (reg : Nat → List Ep) (top ttl : Nat) : Inv w par dep reg top ttl {} :=
  ⟨by simp, by simp [S.accepted], ⟨[], [], by simp [S.accepted], by simp, by simp⟩, by simp⟩

theorem Ok.send_pot (h : Ok w par dep top reg) {ttl : Nat} {s : S} (d : Send) (ht : d.t ≠ 0)
    (hfar : (w.node d.t).isSome → ∃ k, Far par dep d.x d.t k ∧ k ≤ ttl) :
    ((step w s (.send d)).fly.map (pot w dep top)).sum ≤ (s.fly.map (pot w dep top)).sum + (2 * top + 1) * (2 * top + 2) := by
  cases hn : w.node d.x with
  | none => simp only [step, hn]; omega
  | some n =>
    simp only [step, hn]
    rcases h.send hn ht hfar (w.limit d.x) with ⟨code, c1, c2, c3⟩ | ⟨e, code, p, c1, c2, c3, c4, c5, c6⟩
    · rw [c2]; simp [S.apply]
    · rw [c2]
      have fly : (S.apply w s d.x [e]).fly = s.fly ++ [p] := by simp [S.apply, c3]
      show ((S.apply w s d.x [e]).fly.map (pot w dep top)).sum ≤ _
      rw [fly, List.map_append, List.sum_append]
      have hr : p.m.rsp = false := by rw [c5]; rfl
      have hl := h.left_le p.m.to (c6 [d] (by simp)).here
      simp only [List.map_cons, List.map_nil, List.sum_cons, List.sum_nil, pot, hr, Bool.false_eq_true, if_false]
      have := Nat.mul_le_mul_right (2 * top + 2) (show left w dep top p.at_ p.m.to + 1 ≤ 2 * top + 1 by omega)
      omega

/-- The number of calls in a history. -/
def sendsIn (ops : List Op) : Nat := ops.countP fun o => match o with
  | .send _ => true
  | .handle _ => false

theorem Ok.work (h : Ok w par dep top reg) {ttl : Nat} (hT : ∀ x n, w.node x = some n → (ttl : Int) ≤ n.ttl ∧ n.ttl < W64) (ops : List Op) :
    ∀ s, Inv w par dep reg top ttl s → (∀ d, .send d ∈ ops → d.t ≠ 0 ∧ ((w.node d.t).isSome → ∃ k, Far par dep d.x d.t k ∧ k ≤ ttl)) →
      Tree.work w s ops ≤ (s.fly.map (pot w dep top)).sum + sendsIn ops * ((2 * top + 1) * (2 * top + 2)) := by
  induction ops with
  | nil => intro s _ _; exact Nat.zero_le _
  | cons o os ih =>
    intro s i hs
    have hs' := fun d hd => hs d (List.mem_cons_of_mem _ hd)
    cases o with
    | send d =>
      obtain ⟨h1, h2⟩ := hs d (List.mem_cons_self ..)
      have k := ih _ (h.inv_send i d h1 h2) hs'
      have l := h.send_pot (s := s) d h1 h2
      have e : sendsIn (.send d :: os) = sendsIn os + 1 := by simp [sendsIn]
      rw [e, Nat.succ_mul]
      simp only [Tree.work]
      omega
    | handle j =>
      obtain ⟨k1, k2⟩ := h.inv_handle hT i j
      have k := ih _ k1 hs'
      have e : sendsIn (.handle j :: os) = sendsIn os := by simp [sendsIn]
      rw [e]
      simp only [Tree.work]
      split
      · next hj =>
        have := k2 _ (List.getElem?_eq_getElem hj)
        omega
      · next hj =>
        have e2 : step w s (.handle j) = s := by
          simp only [step, List.getElem?_eq_none (Nat.le_of_not_lt hj)]
        rw [e2] at k ⊢
        omega

/-- C71: in a tree of nodes, whatever is sent, in any order of sending and handling: every message that `send_data`
accepted is delivered exactly once, to the node it was sent to and with its content, or is still under way; nothing else is
delivered.  It is refused only if it is too long, the node does not exist, or a connection of the sender to another node
that has the target in its range is lost.  Answers: for a node that does not exist the sender gets one answer that reports
failure; for others no such answer, and an answer if it asked for one; answers are lost only if some connection is.
Assumed: the hop limit of every node is at least the distance; the tables do not change meanwhile; the connections along
the trees work, others may be lost.  Missing: the sender's own messages over a lost connection (`C71_broken_false`),
answers over a lost connection (`C71_answer_lost_false`), more answers than one (`C71_answers_false`,
`C71_success_false`). -/
theorem C71_delivery_partial (h : Ok w par dep top reg) (ttl : Nat) (hT : ∀ x n, w.node x = some n → (ttl : Int) ≤ n.ttl ∧ n.ttl < 2 ^ 64)
    (ops : List Op) (hs : ∀ d, .send d ∈ ops → d.t ≠ 0 ∧ ((w.node d.t).isSome → ∃ k, Far par dep d.x d.t k ∧ k ≤ ttl)) (s : S)
    (e : s = run w {} ops) :
    (∃ rest, (s.log.filterMap Ev.got ++ rest).Perm (s.accepted.flatMap (Send.expected w)) ∧ (s.fly = [] → rest = [])) ∧
    (∃ rest lost ex, (s.log.filterMap Ev.ans ++ rest ++ lost).Perm (s.accepted.flatMap (Send.reply w) ++ ex) ∧ (s.fly = [] → rest = []) ∧
      (Whole w reg → lost = []) ∧ ∀ a ∈ ex, ∃ d ∈ s.accepted, d.need = true ∧ a = (d.x, d.t, d.seq, true)) ∧
    ∀ r ∈ s.sends, r.2 < 0 → w.limit r.1.x < r.1.content.length ∨ w.node r.1.t = none ∨
      ∃ n, w.node r.1.x = some n ∧ ∃ e ∈ reg r.1.x, Covers e.subnets r.1.t ∧ n.dataConn e.ref = none := by
  have i := h.inv hT ops {} (Ok.init w par dep reg top ttl) hs
  rw [← e] at i
  obtain ⟨ex, lost, e1, e3, e2⟩ := i.ans
  exact ⟨⟨_, i.del, fun k => by rw [k]; rfl⟩, ⟨_, lost, ex, e1, fun k => by rw [k]; rfl, e3, e2⟩, i.ok⟩

/-- C71: the messages of a call are handled at most a number of times that depends on the height of the trees only; so if
every message under way is handled at some time, all are delivered. -/
theorem C71_end_partial (h : Ok w par dep top reg) (ttl : Nat) (hT : ∀ x n, w.node x = some n → (ttl : Int) ≤ n.ttl ∧ n.ttl < 2 ^ 64)
    (ops : List Op) (hs : ∀ d, .send d ∈ ops → d.t ≠ 0 ∧ ((w.node d.t).isSome → ∃ k, Far par dep d.x d.t k ∧ k ≤ ttl)) :
    work w {} ops ≤ sendsIn ops * ((2 * top + 1) * (2 * top + 2)) ∧
    ∃ k, (run w (run w {} ops) (List.replicate k (.handle 0))).fly = [] := by
  refine ⟨by simpa using h.work hT ops {} (Ok.init w par dep reg top ttl) hs, ?_⟩
  have i := h.inv hT ops {} (Ok.init w par dep reg top ttl) hs
  generalize run w {} ops = s at i
  generalize hm : (s.fly.map (pot w dep top)).sum = m
  induction m using Nat.strongRecOn generalizing s with
  | ind m ih =>
    cases hf : s.fly with
    | nil => exact ⟨0, hf⟩
    | cons p l =>
      obtain ⟨k1, k2⟩ := h.inv_handle hT i 0
      have lt := k2 p (by rw [hf]; rfl)
      obtain ⟨k, hk⟩ := ih _ (by rw [← hm]; exact lt) _ k1 rfl
      refine ⟨k + 1, ?_⟩
      rw [List.replicate_succ]
      exact hk

end

/-! ### Examples and counterexamples -/

/-- Nodes of the examples: the connections of endpoint `r` are number `r`. -/
def exNode (id : Nat) (sub : Rng) (parent : Option Ep) (routes : List Ep) : Node where
  id := id
  subnets := [sub]
  parent := parent
  routes := routes.flatMap fun e => e.subnets.map fun r => (r, e)
  dataConn := fun r => if r = 0 then none else some r
  ctrlConn := fun r => if r = 0 then none else some r
  push := fun _ _ => 0

/-- The range 16-31 with the nodes 16 (top), 20 (20-23) and 24 (24-27), which know each other, 22 below 20 and 25 below 24. -/
def exW : World where
  node x :=
    if x = 16 then some (exNode 16 ⟨16, 31, 4⟩ none [⟨20, 20, [⟨20, 23, 2⟩]⟩, ⟨24, 24, [⟨24, 27, 2⟩]⟩])
    else if x = 20 then some (exNode 20 ⟨20, 23, 2⟩ (some ⟨16, 16, [⟨16, 31, 4⟩]⟩) [⟨22, 22, [⟨22, 22, 0⟩]⟩, ⟨24, 24, [⟨24, 27, 2⟩]⟩])
    else if x = 22 then some (exNode 22 ⟨22, 22, 0⟩ (some ⟨20, 20, [⟨20, 23, 2⟩]⟩) [])
    else if x = 24 then some (exNode 24 ⟨24, 27, 2⟩ (some ⟨16, 16, [⟨16, 31, 4⟩]⟩) [⟨20, 20, [⟨20, 23, 2⟩]⟩, ⟨25, 25, [⟨25, 25, 0⟩]⟩])
    else if x = 25 then some (exNode 25 ⟨25, 25, 0⟩ (some ⟨24, 24, [⟨24, 27, 2⟩]⟩) [])
    else none
  limit := fun _ => 100
  bound := fun _ x => some x

/-- Node 22 sends to 25, asking for an answer, 25 to 16, 22 to 31, which does not exist, and 20 to itself. -/
def exOps : List Op :=
  [.send ⟨22, 25, [7], 1, true⟩, .send ⟨25, 16, [8], 2, false⟩, .send ⟨22, 31, [9], 3, false⟩, .send ⟨20, 20, [10], 4, true⟩] ++
    List.replicate 20 (.handle 1) ++ List.replicate 20 (.handle 0)

example : (run exW {} exOps).fly = [] ∧
    (run exW {} exOps).log.filterMap Ev.got = [(20, 20, 4, [10]), (16, 25, 2, [8]), (25, 22, 1, [7])] ∧
    (run exW {} exOps).log.filterMap Ev.ans = [(20, 20, 4, true), (22, 31, 3, false), (22, 25, 1, true), (22, 25, 1, true)] := by decide +kernel

/-- The node above, in the example. -/
def exPar (x : Nat) : Option Nat := if x = 20 ∨ x = 24 then some 16 else if x = 22 then some 20 else if x = 25 then some 24 else none

/-- The depth, in the example. -/
def exDep (x : Nat) : Nat := if x = 16 then 1 else if x = 20 ∨ x = 24 then 2 else 3

/-- The registered endpoints, in the example. -/
def exReg (x : Nat) : List Ep :=
  if x = 16 then [⟨24, 24, [⟨24, 27, 2⟩]⟩, ⟨20, 20, [⟨20, 23, 2⟩]⟩]
  else if x = 20 then [⟨24, 24, [⟨24, 27, 2⟩]⟩, ⟨22, 22, [⟨22, 22, 0⟩]⟩]
  else if x = 24 then [⟨25, 25, [⟨25, 25, 0⟩]⟩, ⟨20, 20, [⟨20, 23, 2⟩]⟩]
  else []

theorem ex_hist (a b : Ep) (ra rb : Rng) (ea : a.subnets = [ra]) (eb : b.subnets = [rb]) (ha : ra.min ≤ a.id ∧ a.id ≤ ra.max)
    (hb : rb.min ≤ b.id ∧ b.id ≤ rb.max) (h0 : ra.min ≠ 0) (hd : ra.max < rb.min) :
    Hist [(ra, a), (rb, b)] [b, a] := by
  have wa : Subnet.WFEp a := ⟨by rw [ea]; intro r hr; rw [List.mem_singleton.1 hr]; omega, by rw [ea]; exact List.pairwise_singleton _ _,
    ⟨ra, by rw [ea]; simp, ha⟩⟩
  have wb : Subnet.WFEp b := ⟨by rw [eb]; intro r hr; rw [List.mem_singleton.1 hr]; omega, by rw [eb]; exact List.pairwise_singleton _ _,
    ⟨rb, by rw [eb]; simp, hb⟩⟩
  have h1 := Hist.step (op := .add a) (reg' := [a]) (b := true) .init ⟨wa, by simp⟩ (Or.inr ⟨by simp, rfl⟩)
  have h2 := Hist.step (op := .add b) (reg' := [b, a]) (b := true) h1 ⟨wb, by
    rintro _ e he r hr
    rw [List.mem_singleton.1 he, ea] at hr
    rw [List.mem_singleton.1 hr]; exact h0⟩ (Or.inr ⟨by
    rintro ⟨e, he, id, ⟨r, hr, h3⟩, ⟨r2, hr2, h4⟩⟩
    rw [List.mem_singleton.1 he, ea] at hr
    rw [eb] at hr2
    rw [List.mem_singleton.1 hr] at h3
    rw [List.mem_singleton.1 hr2] at h4
    obtain ⟨_, h3⟩ := h3
    obtain ⟨h4, _⟩ := h4
    omega, rfl⟩)
  have e1 : (Subnet.step [] (.add a)).1 = [(ra, a)] := by
    simp [Subnet.step, Subnet.insertChild, Subnet.checkConflict, Subnet.conflict1, Subnet.lowerBound, ea, Subnet.mapSet]
  have e2 : (Subnet.step [(ra, a)] (.add b)).1 = [(ra, a), (rb, b)] := by
    have l1 : ra.lt rb = true := by unfold Rng.lt; rw [if_pos (by omega)]; simp; omega
    have l2 : ra.lt { min := rb.min, max := rb.min, mask := 0 } = true := by unfold Rng.lt; rw [if_pos (by show ra.max ≠ rb.min; omega)]; simp; omega
    simp [Subnet.step, Subnet.insertChild, Subnet.checkConflict, Subnet.conflict1, Subnet.lowerBound, eb, Subnet.mapSet, l1, l2]
  rw [e1, e2] at h2
  exact h2

theorem ex_cov {a b k u : Nat} : Covers [⟨a, b, k⟩] u ↔ a ≤ u ∧ u ≤ b := by
  constructor
  · rintro ⟨r, hr, h⟩; rw [List.mem_singleton.1 hr] at h; exact h
  · intro h; exact ⟨_, List.mem_singleton.2 rfl, h⟩

theorem ex_nodes {x : Nat} {n : Node} (h : exW.node x = some n) :
    (x = 16 ∧ n = exNode 16 ⟨16, 31, 4⟩ none [⟨20, 20, [⟨20, 23, 2⟩]⟩, ⟨24, 24, [⟨24, 27, 2⟩]⟩]) ∨
    (x = 20 ∧ n = exNode 20 ⟨20, 23, 2⟩ (some ⟨16, 16, [⟨16, 31, 4⟩]⟩) [⟨22, 22, [⟨22, 22, 0⟩]⟩, ⟨24, 24, [⟨24, 27, 2⟩]⟩]) ∨
    (x = 22 ∧ n = exNode 22 ⟨22, 22, 0⟩ (some ⟨20, 20, [⟨20, 23, 2⟩]⟩) []) ∨
    (x = 24 ∧ n = exNode 24 ⟨24, 27, 2⟩ (some ⟨16, 16, [⟨16, 31, 4⟩]⟩) [⟨20, 20, [⟨20, 23, 2⟩]⟩, ⟨25, 25, [⟨25, 25, 0⟩]⟩]) ∨
    (x = 25 ∧ n = exNode 25 ⟨25, 25, 0⟩ (some ⟨24, 24, [⟨24, 27, 2⟩]⟩) []) := by
  simp only [exW] at h
  split at h
  · next e => cases h; exact .inl ⟨e, rfl⟩
  split at h
  · next e => cases h; exact .inr (.inl ⟨e, rfl⟩)
  split at h
  · next e => cases h; exact .inr (.inr (.inl ⟨e, rfl⟩))
  split at h
  · next e => cases h; exact .inr (.inr (.inr (.inl ⟨e, rfl⟩)))
  split at h
  · next e => cases h; exact .inr (.inr (.inr (.inr ⟨e, rfl⟩)))
  · cases h

/-- The example is a tree as assumed. -/
theorem ex_ok : Ok exW exPar exDep 3 exReg := by
  have cov : ∀ {a b k u : Nat}, Covers [⟨a, b, k⟩] u ↔ a ≤ u ∧ u ≤ b := ex_cov
  have conn : ∀ x n e, exW.node x = some n → (n.parent = some e ∨ e ∈ exReg x) →
      (∃ c, n.dataConn e.ref = some c ∧ ∀ m, 0 ≤ n.push c m) ∧ ∃ c, n.ctrlConn e.ref = some c ∧ ∀ m, 0 ≤ n.push c m := by
    intro x n e h he
    have he : e.ref ≠ 0 ∧ n.dataConn = (fun r => if r = 0 then none else some r) ∧ n.ctrlConn = (fun r => if r = 0 then none else some r) ∧
        n.push = fun _ _ => 0 := by
      rcases ex_nodes h with ⟨rfl, rfl⟩ | ⟨rfl, rfl⟩ | ⟨rfl, rfl⟩ | ⟨rfl, rfl⟩ | ⟨rfl, rfl⟩ <;> refine ⟨?_, rfl, rfl, rfl⟩ <;>
        simp [exNode, exReg] at he <;> first | (subst he; decide) | (rcases he with he | he <;> subst he <;> decide) | (rcases he with he | he | he <;> subst he <;> decide)
    obtain ⟨e0, e1, e2, e3⟩ := he
    rw [e1, e2, e3]
    exact ⟨⟨e.ref, if_neg e0, fun _ => Int.le_refl _⟩, ⟨e.ref, if_neg e0, fun _ => Int.le_refl _⟩⟩
  refine ⟨?_, ?_, ?_, ?_, ?_, ?_, ?_, ?_, ?_, ?_⟩
  · intro x n h
    rcases ex_nodes h with ⟨rfl, rfl⟩ | ⟨rfl, rfl⟩ | ⟨rfl, rfl⟩ | ⟨rfl, rfl⟩ | ⟨rfl, rfl⟩
    · exact ⟨rfl, by decide, rfl, by decide, cov.2 (by decide), ex_hist ⟨20, 20, [⟨20, 23, 2⟩]⟩ ⟨24, 24, [⟨24, 27, 2⟩]⟩ _ _ rfl rfl (by decide) (by decide) (by decide) (by decide)⟩
    · exact ⟨rfl, by decide, rfl, by decide, cov.2 (by decide), ex_hist ⟨22, 22, [⟨22, 22, 0⟩]⟩ ⟨24, 24, [⟨24, 27, 2⟩]⟩ _ _ rfl rfl (by decide) (by decide) (by decide) (by decide)⟩
    · exact ⟨rfl, by decide, rfl, by decide, cov.2 (by decide), .init⟩
    · exact ⟨rfl, by decide, rfl, by decide, cov.2 (by decide), ex_hist ⟨20, 20, [⟨20, 23, 2⟩]⟩ ⟨25, 25, [⟨25, 25, 0⟩]⟩ _ _ rfl rfl (by decide) (by decide) (by decide) (by decide)⟩
    · exact ⟨rfl, by decide, rfl, by decide, cov.2 (by decide), .init⟩
  · intro x n h
    rcases ex_nodes h with ⟨rfl, rfl⟩ | ⟨rfl, rfl⟩ | ⟨rfl, rfl⟩ | ⟨rfl, rfl⟩ | ⟨rfl, rfl⟩ <;> rfl
  · intro x n p h hp
    rcases ex_nodes h with ⟨rfl, rfl⟩ | ⟨rfl, rfl⟩ | ⟨rfl, rfl⟩ | ⟨rfl, rfl⟩ | ⟨rfl, rfl⟩ <;> simp [exPar] at hp <;> subst hp <;>
      refine ⟨_, rfl, rfl, ?_⟩ <;> intro u hu <;> simp only [exNode, cov] at hu ⊢ <;> omega
  · intro x n h
    rcases ex_nodes h with ⟨rfl, rfl⟩ | ⟨rfl, rfl⟩ | ⟨rfl, rfl⟩ | ⟨rfl, rfl⟩ | ⟨rfl, rfl⟩ <;> decide
  · intro x n e h he
    rcases ex_nodes h with ⟨rfl, rfl⟩ | ⟨rfl, rfl⟩ | ⟨rfl, rfl⟩ | ⟨rfl, rfl⟩ | ⟨rfl, rfl⟩ <;> simp [exReg] at he <;>
      rcases he with rfl | rfl <;> refine ⟨_, rfl, fun u => Iff.rfl, ?_⟩ <;>
      first
        | exact .inl rfl
        | (refine .inr ?_; intro u; simp only [exNode, cov]; omega)
  · intro x n t k h ht hc ne
    rcases ex_nodes h with ⟨rfl, rfl⟩ | ⟨rfl, rfl⟩ | ⟨rfl, rfl⟩ | ⟨rfl, rfl⟩ | ⟨rfl, rfl⟩ <;>
    rcases ex_nodes ht with ⟨rfl, rfl⟩ | ⟨rfl, rfl⟩ | ⟨rfl, rfl⟩ | ⟨rfl, rfl⟩ | ⟨rfl, rfl⟩ <;>
    simp only [exNode, cov] at hc <;> first | (exfalso; omega) | skip
    · exact ⟨⟨20, 20, [⟨20, 23, 2⟩]⟩, by decide, rfl, cov.2 (by decide)⟩
    · exact ⟨⟨20, 20, [⟨20, 23, 2⟩]⟩, by decide, rfl, cov.2 (by decide)⟩
    · exact ⟨⟨24, 24, [⟨24, 27, 2⟩]⟩, by decide, rfl, cov.2 (by decide)⟩
    · exact ⟨⟨24, 24, [⟨24, 27, 2⟩]⟩, by decide, rfl, cov.2 (by decide)⟩
    · exact ⟨⟨22, 22, [⟨22, 22, 0⟩]⟩, by decide, rfl, cov.2 (by decide)⟩
    · exact ⟨⟨25, 25, [⟨25, 25, 0⟩]⟩, by decide, rfl, cov.2 (by decide)⟩
  · intro x n t k h hp ht hc
    rcases ex_nodes h with ⟨rfl, rfl⟩ | ⟨rfl, rfl⟩ | ⟨rfl, rfl⟩ | ⟨rfl, rfl⟩ | ⟨rfl, rfl⟩ <;> simp [exPar] at hp
    rcases ex_nodes ht with ⟨rfl, rfl⟩ | ⟨rfl, rfl⟩ | ⟨rfl, rfl⟩ | ⟨rfl, rfl⟩ | ⟨rfl, rfl⟩ <;>
    simp only [exNode, cov] at hc <;> omega
  · exact fun x n e h he => conn x n e h (he.imp id And.left)
  · exact fun x n e h he => ⟨.inr (conn x n e h (.inr he)).1, .inr (conn x n e h (.inr he)).2⟩
  · intro y x; exact .inr (.inl rfl)

example : Far exPar exDep 22 25 4 := .inl ⟨16, .up (p := 20) rfl (.up rfl .self), .up (p := 24) rfl (.up rfl .self), by decide⟩

/-- C71 is false of the code: the sender that asked for one answer gets two. -/
theorem C71_answers_false : ∃ ops, sendsIn ops = 1 ∧ (run exW {} ops).log.filterMap Ev.ans = [(22, 25, 1, true), (22, 25, 1, true)] :=
  ⟨[.send ⟨22, 25, [7], 1, true⟩, .handle 0, .handle 0, .handle 0, .handle 0, .handle 0, .handle 0, .handle 0], by decide, by decide +kernel⟩

/-- C71 is false of the code: the sender gets an answer that reports success for a message to a node that does not exist
(and another that reports the failure). -/
theorem C71_success_false : exW.node 31 = none ∧
    ∃ ops, sendsIn ops = 1 ∧ (run exW {} ops).log.filterMap Ev.ans = [(22, 31, 1, true), (22, 31, 1, false)] :=
  ⟨rfl, [.send ⟨22, 31, [7], 1, true⟩, .handle 0, .handle 0, .handle 0, .handle 0, .handle 0, .handle 0], by decide, by decide +kernel⟩

/-- The example, but the data connection from 20 to 24 is lost (the endpoint is registered as long as it has its control
connection or was not collected). -/
def exBroken : World :=
  { exW with node := fun x => (exW.node x).map fun n => if x = 20 then { n with dataConn := fun r => if r = 0 ∨ r = 24 then none else some r } else n }

theorem ex_broken_node {x : Nat} {m : Node} (h : exBroken.node x = some m) : ∃ n, exW.node x = some n ∧ m.id = n.id ∧ m.created = n.created ∧
    m.minVersion = n.minVersion ∧ m.subnets = n.subnets ∧ m.routes = n.routes ∧ m.parent = n.parent ∧ m.ctrlConn = n.ctrlConn ∧ m.push = n.push ∧
    m.dataConn = if x = 20 then (fun r => if r = 0 ∨ r = 24 then none else some r) else n.dataConn := by
  simp only [exBroken, Option.map_eq_some_iff] at h
  obtain ⟨n, h1, h2⟩ := h
  refine ⟨n, h1, ?_⟩
  subst h2
  split <;> exact ⟨rfl, rfl, rfl, rfl, rfl, rfl, rfl, rfl, rfl⟩

theorem ex_broken_some {x : Nat} {n : Node} (h : exW.node x = some n) : ∃ m, exBroken.node x = some m ∧ m.subnets = n.subnets := by
  refine ⟨_, by simp only [exBroken, h, Option.map_some]; rfl, ?_⟩
  split <;> rfl

/-- So is the example with the lost connection. -/
theorem ex_broken_ok : Ok exBroken exPar exDep 3 exReg := by
  have o := ex_ok
  have data : ∀ x n e, exW.node x = some n → e ∈ exReg x → ∃ c, n.dataConn e.ref = some c ∧ c = e.ref ∧ c ≠ 0 := by
    intro x n e h he
    rcases ex_nodes h with ⟨rfl, rfl⟩ | ⟨rfl, rfl⟩ | ⟨rfl, rfl⟩ | ⟨rfl, rfl⟩ | ⟨rfl, rfl⟩ <;> simp [exReg] at he <;> rcases he with rfl | rfl <;>
      exact ⟨_, rfl, rfl, by decide⟩
  refine ⟨?_, ?_, ?_, ?_, ?_, ?_, ?_, ?_, ?_, fun y x => .inr (.inl rfl)⟩
  · intro x m h
    obtain ⟨n, hn, e1, e2, e3, e4, e5, _⟩ := ex_broken_node h
    rw [e1, e2, e3, e4, e5]; exact o.node x n hn
  · intro x m h
    obtain ⟨n, hn, e1, e2, e3, e4, e5, e6, _⟩ := ex_broken_node h
    rw [e6]; exact o.par_ x n hn
  · intro x m p h hp
    obtain ⟨n, hn, e1, e2, e3, e4, _⟩ := ex_broken_node h
    obtain ⟨q, hq, hd, hc⟩ := o.above x n p hn hp
    obtain ⟨q', hq', es⟩ := ex_broken_some hq
    exact ⟨q', hq', hd, by rw [e4, es]; exact hc⟩
  · intro x m h
    obtain ⟨n, hn, _⟩ := ex_broken_node h
    exact o.depth x n hn
  · intro x m e h he
    obtain ⟨n, hn, _, _, _, e4, _⟩ := ex_broken_node h
    obtain ⟨k, hk, h1, h2⟩ := o.link x n e hn he
    obtain ⟨k', hk', es⟩ := ex_broken_some hk
    exact ⟨k', hk', by rw [es]; exact h1, by rw [e4, es]; exact h2⟩
  · intro x m t k h ht hc ne
    obtain ⟨n, hn, _, _, _, e4, _⟩ := ex_broken_node h
    obtain ⟨q, hq, _⟩ := ex_broken_node ht
    exact o.below x n t q hn hq (by rw [← e4]; exact hc) ne
  · intro x m t k h hp ht hc
    obtain ⟨n, hn, _, _, _, e4, _⟩ := ex_broken_node h
    obtain ⟨q, hq, _⟩ := ex_broken_node ht
    exact o.mesh x n t q hn hp hq (by rw [← e4]; exact hc)
  · intro x m e h he
    obtain ⟨n, hn, _, _, _, _, _, e6, e7, e8, e9⟩ := ex_broken_node h
    rw [e6] at he
    obtain ⟨⟨c, c1, c2⟩, k⟩ := o.conn x n e hn he
    rw [e7, e8, e9]
    refine ⟨?_, k⟩
    by_cases hx : x = 20
    · subst hx
      rcases ex_nodes hn with ⟨h, _⟩ | ⟨_, rfl⟩ | ⟨h, _⟩ | ⟨h, _⟩ | ⟨h, _⟩ <;> first | (exact absurd h (by decide)) | skip
      have : e.ref ≠ 0 ∧ e.ref ≠ 24 := by
        simp [exNode, exReg, exPar] at he
        rcases he with he | ⟨he, h3⟩
        · subst he; decide
        · rcases he with he | he <;> subst he <;> first | decide | (exfalso; revert h3; decide)
      exact ⟨e.ref, by rw [if_pos rfl]; exact if_neg (by omega), fun _ => Int.le_refl _⟩
    · rw [if_neg hx]; exact ⟨c, c1, c2⟩
  · intro x m e h he
    obtain ⟨n, hn, _, _, _, _, _, e6, e7, e8, e9⟩ := ex_broken_node h
    obtain ⟨k1, k2⟩ := o.side x n e hn he
    rw [e7, e8, e9]
    refine ⟨?_, k2⟩
    split
    · obtain ⟨c, c1, c2, c3⟩ := data x n e hn he
      by_cases e24 : e.ref = 24
      · exact .inl (if_pos (.inr e24))
      · refine .inr ⟨e.ref, if_neg (by rw [← c2]; rw [← c2] at e24; omega), ?_⟩
        rcases ex_nodes hn with ⟨_, rfl⟩ | ⟨_, rfl⟩ | ⟨_, rfl⟩ | ⟨_, rfl⟩ | ⟨_, rfl⟩ <;> exact fun _ => Int.le_refl _
    · exact k1

/-- The theorems apply to it: 22 sends to 25, in any order of steps. -/
example (k : List Nat) : ∃ rest, ((run exBroken {} (.send ⟨22, 25, [7], 1, true⟩ :: k.map .handle)).log.filterMap Ev.got ++ rest).Perm
    ((run exBroken {} (.send ⟨22, 25, [7], 1, true⟩ :: k.map .handle)).accepted.flatMap (Send.expected exBroken)) := by
  obtain ⟨⟨rest, h, _⟩, _⟩ := C71_delivery_partial ex_broken_ok 4 (by
    intro x n h
    simp only [exBroken, Option.map_eq_some_iff] at h
    obtain ⟨q, h1, h2⟩ := h
    have : n.ttl = q.ttl := by subst h2; split <;> rfl
    rw [this]
    rcases ex_nodes h1 with ⟨_, rfl⟩ | ⟨_, rfl⟩ | ⟨_, rfl⟩ | ⟨_, rfl⟩ | ⟨_, rfl⟩ <;> exact ⟨by decide, by decide⟩)
    (.send ⟨22, 25, [7], 1, true⟩ :: k.map .handle) (by
      intro d hd
      rcases List.mem_cons.1 hd with hd | hd
      · cases hd
        exact ⟨by decide, fun _ => ⟨4, .inl ⟨16, .up (p := 20) rfl (.up rfl .self), .up (p := 24) rfl (.up rfl .self), by decide⟩, by decide⟩⟩
      · simp at hd) _ rfl
  exact ⟨rest, h⟩

/-- C71 is false of the code when a connection between two nodes that know each other directly is lost: messages of others
take the way over the node above, but not those of the node itself. -/
theorem C71_broken_false : ∃ ops, (run exBroken {} ops).sends = [(⟨22, 25, [7], 1, false⟩, 0), (⟨20, 25, [8], 2, false⟩, Err.ATNODE_NO_CONNECTION)] ∧
    (run exBroken {} ops).log.filterMap Ev.got = [(25, 22, 1, [7])] :=
  ⟨[.send ⟨22, 25, [7], 1, false⟩, .send ⟨20, 25, [8], 2, false⟩, .handle 0, .handle 0, .handle 0, .handle 0], by decide +kernel, by decide +kernel⟩

/-- C71 is false of the code in the same case for answers: they do not take the way over the node above.  The message is
delivered, nothing is under way any more, and the sender who asked for an answer has none. -/
theorem C71_answer_lost_false : ∃ ops, (run exBroken {} ops).sends = [(⟨24, 22, [7], 1, true⟩, 0)] ∧ (run exBroken {} ops).fly = [] ∧
    (run exBroken {} ops).log.filterMap Ev.got = [(22, 24, 1, [7])] ∧ (run exBroken {} ops).log.filterMap Ev.ans = [] :=
  ⟨[.send ⟨24, 22, [7], 1, true⟩, .handle 0, .handle 0, .handle 0], by decide +kernel, by decide +kernel, by decide +kernel, by decide +kernel⟩

end Verif.Node.Tree
