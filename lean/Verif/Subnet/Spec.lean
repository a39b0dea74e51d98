import Verif.Subnet.Model

/-! Specification vocabulary for the subnet properties: sets of ids. -/
namespace Verif.Subnet

/-- A range value the API can produce: the constructor applied to a 64-bit
prefix and a mask width. -/
def Rng.Valid (r : Rng) : Prop := ∃ p m, p < 2 ^ 64 ∧ Rng.mk? p m = some r

/-- `id` is in the id interval of the range. -/
def Rng.Has (r : Rng) (id : Nat) : Prop := r.min ≤ id ∧ id ≤ r.max

/-- `id` is in some range of the list. -/
def Covers (l : List Rng) (id : Nat) : Prop := ∃ r ∈ l, r.Has id

/-- No common id (for non-empty ranges). -/
def Rng.Disj (a b : Rng) : Prop := a.max < b.min ∨ b.max < a.min

/-- Ranges that share an id. -/
def Overlap (a b : Rng) : Prop := ∃ id, a.Has id ∧ b.Has id

/-- An endpoint with a subnet list without nesting that contains its own id. -/
structure WFEp (e : Ep) : Prop where
  proper : ∀ r ∈ e.subnets, r.min ≤ r.max
  disj : e.subnets.Pairwise Rng.Disj
  self : Covers e.subnets e.id

/-- Some id is covered by both endpoints. -/
def EpOverlap (a b : Ep) : Prop := ∃ id, Covers a.subnets id ∧ Covers b.subnets id

/-- The abstract registry: a list of registered endpoints.  One call and its
result. -/
def SpecStep (reg : List Ep) (op : Op) (res : List Ep × Bool) : Prop :=
  match op with
  | .add ep =>
    ((∃ e ∈ reg, EpOverlap e ep) ∧ res = (reg, false)) ∨
    ((¬ ∃ e ∈ reg, EpOverlap e ep) ∧ res = (ep :: reg, true))
  | .remove id x =>
    (∃ e ∈ reg, e.id = id ∧ (x = none ∨ x = some e.ref) ∧
      res = (reg.filter fun y => decide (y ≠ e), true)) ∨
    ((¬ ∃ e ∈ reg, e.id = id ∧ (x = none ∨ x = some e.ref)) ∧ res = (reg, false))

/-- Calls for which the full behaviour is proved: the added endpoint is
`WFEp`, and does not have a range starting at id 0 while the table has one. -/
def Legal (reg : List Ep) : Op → Prop
  | .add ep => WFEp ep ∧
      ((∃ r ∈ ep.subnets, r.min = 0) → ∀ e ∈ reg, ∀ r ∈ e.subnets, r.min ≠ 0)
  | .remove _ _ => True

/-- Histories: the code's table next to the abstract registry. -/
inductive Hist : Table → List Ep → Prop
  | init : Hist [] []
  | step {t reg op reg' b} : Hist t reg → Legal reg op → SpecStep reg op (reg', b) →
      Hist (Subnet.step t op).1 reg'

end Verif.Subnet
