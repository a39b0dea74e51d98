import Verif.Basic

/-!
Model of the subnet code of `src/atbus_endpoint.cpp` and of the route table
code of `src/atbus_node.cpp`.

Ids are natural numbers below `2^64`.  The expression `(1 << m) - 1` of the
range constructor is computed in `int`: for `m ≥ 31` the shift or the
subtraction overflows, which is the outcome "undefined behaviour" (`none`).
`id_prefix_` is not kept (no modelled function reads it after construction).
-/
namespace Verif.Subnet

/-- `endpoint_subnet_range`, `include/atbus_endpoint.h:60-93`. -/
structure Rng where
  min : Nat
  max : Nat
  mask : Nat
deriving DecidableEq, Repr

/-- `((1 << mask_bits) - 1)` in `int` arithmetic. -/
def intMask (m : Nat) : Option Nat := if m ≤ 30 then some (2 ^ m - 1) else none

/-- Range constructor, `src/atbus_endpoint.cpp:28-32`. -/
def Rng.mk? (p m : Nat) : Option Rng :=
  match intMask m with
  | none => none
  | some v => some { min := (p ||| v) - v, max := p ||| v, mask := m }

/-- `operator<`, `src/atbus_endpoint.cpp:60-66` (and the equivalent `<=>`,
39-57). -/
def Rng.lt (a b : Rng) : Bool :=
  if a.max ≠ b.max then decide (a.max < b.max) else decide (a.min > b.min)

/-- `contain(const endpoint_subnet_range&)`, `src/atbus_endpoint.cpp:98-100`. -/
def Rng.containRng (a b : Rng) : Bool := decide (a.max ≥ b.max) && decide (a.min ≤ b.min)

/-- `contain(id)`, `src/atbus_endpoint.cpp:102-108`. -/
def Rng.contain (a : Rng) (id : Nat) : Bool :=
  if id = 0 then false else decide (a.max ≥ id) && decide (a.min ≤ id)

/-- static `contain(id_prefix, mask_bits, id)`, `src/atbus_endpoint.cpp:110-117`. -/
def containConf (p m id : Nat) : Option Bool :=
  if id = 0 then some false
  else match intMask m with
    | none => none
    | some v => some (decide (p ||| v = id ||| v))

/-- `get_children_min_id`, `src/atbus_endpoint.cpp:262-265` (64-bit mask;
`mask ≥ 64` is an undefined shift). -/
def childrenMin (p m : Nat) : Option Nat :=
  if m < 64 then some (p &&& (2 ^ 64 - 1 - (2 ^ m - 1))) else none

/-- `get_children_max_id`, `src/atbus_endpoint.cpp:267-270`. -/
def childrenMax (p m : Nat) : Option Nat := if m < 64 then some (p ||| (2 ^ m - 1)) else none

/-- static `is_child_node`, `src/atbus_endpoint.cpp:272-285`. -/
def isChildStatic (parent prefix_ m id : Nat) : Option Bool :=
  let p := if prefix_ = 0 then parent else prefix_
  match childrenMin p m, childrenMax p m with
  | some lo, some hi => some (decide (parent ≠ id) && decide (id ≥ lo) && decide (id ≤ hi))
  | _, _ => none

/-- `std::sort` with `operator<` (insertion sort; ranges that compare equal are
equal here, so the sorted list is unique). -/
def insertRng (x : Rng) : List Rng → List Rng
  | [] => [x]
  | y :: ys => if y.lt x then y :: insertRng x ys else x :: y :: ys

/-- `std::sort`, `src/atbus_endpoint.cpp:697`. -/
def sortRng : List Rng → List Rng
  | [] => []
  | x :: xs => insertRng x (sortRng xs)

/-- Replace-or-append step of the merge, `src/atbus_endpoint.cpp:706-725`.  The
prefix `subnets[0..new_size)` is kept as a stack, last element first. -/
def pushRng (s : List Rng) (x : Rng) : List Rng :=
  match s with
  | [] => [x]
  | p :: r => if x.min ≤ p.min then x :: r else x :: p :: r

/-- The `while (check_merge …)` loop, `src/atbus_endpoint.cpp:733-746`. -/
def collapse : List Rng → Option (List Rng)
  | a :: b :: s =>
    if a.mask = b.mask ∧ a.min = (b.max + 1) % W64 then
      match Rng.mk? b.min (b.mask + 1) with
      | none => none
      | some up => if up.max = a.max ∧ up.min = b.min then collapse (up :: s) else some (a :: b :: s)
    else some (a :: b :: s)
  | l => some l
termination_by l => l.length

/-- The outer loop, `src/atbus_endpoint.cpp:702-747`. -/
def mergeLoop : List Rng → List Rng → Option (List Rng)
  | s, [] => some s
  | s, x :: xs =>
    match collapse (pushRng s x) with
    | none => none
    | some s' => mergeLoop s' xs

/-- `endpoint::merge_subnets`, `src/atbus_endpoint.cpp:692-752`. -/
def mergeSubnets (l : List Rng) : Option (List Rng) :=
  match sortRng l with
  | [] => some []
  | x :: xs => if l.length ≤ 1 then some l else (mergeLoop [x] xs).map List.reverse

/-- The subnet part of `endpoint::create`, `src/atbus_endpoint.cpp:159-176`;
`confs` are `(id_prefix, mask_bits)`. -/
def createRanges (id : Nat) : List (Nat × Nat) → Option (List Rng × Bool)
  | [] => some ([], true)
  | (p, m) :: cs =>
    match Rng.mk? (if p = 0 then id else p) m, createRanges id cs with
    | some r, some (rs, auto) =>
      if p = 0 then some (r :: rs, false)
      else match containConf p m id with
        | none => none
        | some c => some (r :: rs, if c then false else auto)
    | _, _ => none

/-- The subnets `endpoint::create` gives a new endpoint, `src/atbus_endpoint.cpp:157-180`. -/
def createSubnets (id : Nat) (confs : List (Nat × Nat)) : Option (List Rng) :=
  match createRanges id confs with
  | none => none
  | some (rs, true) =>
    match Rng.mk? id 0 with
    | none => none
    | some r => mergeSubnets (rs ++ [r])
  | some (rs, false) => mergeSubnets rs

/-- `endpoint::contain(ranges, ranges)`, `src/atbus_endpoint.cpp:771-792`. -/
def containList (parent child : List Rng) : Bool :=
  if parent = [] ∧ child ≠ [] then false
  else child.all fun c => parent.any fun p => p.contain c.min && p.contain c.max

/-- `endpoint::contain(ranges, confs)`, `src/atbus_endpoint.cpp:794-815`. -/
def containConfs (parent : List Rng) (child : List (Nat × Nat)) : Bool :=
  if parent = [] ∧ child ≠ [] then false
  else child.all fun c => parent.any fun p => p.contain c.1 && decide (p.mask ≥ c.2)

/-- `endpoint::contain(ranges, id)`, `src/atbus_endpoint.cpp:817-829`. -/
def containIn (parent : List Rng) (id : Nat) : Bool :=
  if parent = [] ∨ id = 0 then false else parent.any fun p => p.contain id

/-- `endpoint::search_subnet_for_id`, `src/atbus_endpoint.cpp:754-769`: the
position found, or the length. -/
def searchSubnet (l : List Rng) (id : Nat) : Nat := l.findIdx fun r => r.contain id

/-- `endpoint::is_child_node`, `src/atbus_endpoint.cpp:247-260`. -/
def isChildNode (selfId : Nat) (subnets : List Rng) (id : Nat) : Bool :=
  if selfId = 0 then false else subnets.any fun r => r.contain id

/-! ### Route table -/

/-- An endpoint as the route table sees it.  `ref` is its address. -/
structure Ep where
  ref : Nat
  id : Nat
  subnets : List Rng
deriving DecidableEq, Repr

/-- `std::map<endpoint_subnet_range, endpoint::ptr_t>` as the list of entries in
key order, `include/atbus_node.h:140`. -/
abbrev Table := List (Rng × Ep)

/-- `coll[k] = v`. -/
def mapSet (k : Rng) (v : Ep) : Table → Table
  | [] => [(k, v)]
  | (k', v') :: t =>
    if k'.lt k then (k', v') :: mapSet k v t
    else if k.lt k' then (k, v) :: (k', v') :: t
    else (k', v) :: t

/-- `coll.erase(k)`. -/
def mapErase (k : Rng) (t : Table) : Table := t.filter fun e => e.1.lt k || k.lt e.1

/-- `coll.lower_bound(endpoint_subnet_range(id, 0))`: the first entry whose key
is not less. -/
def lowerBound (t : Table) (id : Nat) : Option (Rng × Ep) :=
  t.find? fun e => !e.1.lt { min := id, max := id, mask := 0 }

/-- `node::check_conflict(coll, range)`, `src/atbus_node.cpp:1970-1985`. -/
def conflict1 (t : Table) (r : Rng) : Bool :=
  match lowerBound t r.min with
  | none => false
  | some e => e.1.contain r.min || r.contain e.1.min

/-- `node::check_conflict(coll, ranges)`, `src/atbus_node.cpp:1987-1996`. -/
def checkConflict (t : Table) (l : List Rng) : Bool := l.any fun r => conflict1 t r

/-- `node::find_route`, `src/atbus_node.cpp:1998-2013`. -/
def findRoute (t : Table) (id : Nat) : Option Ep :=
  match lowerBound t id with
  | none => none
  | some e => if e.2.id = id then some e.2 else if e.1.contain id then some e.2 else none

/-- `node::insert_child`, `src/atbus_node.cpp:2015-2037`: new table, accepted?
(Callbacks: property C52.) -/
def insertChild (t : Table) (ep : Ep) : Table × Bool :=
  if checkConflict t ep.subnets then (t, false)
  else (ep.subnets.foldl (fun t r => mapSet r ep t) t, true)

/-- `node::remove_child`, `src/atbus_node.cpp:2039-2066`; `expected` is the
endpoint address or NULL. -/
def removeChild (t : Table) (id : Nat) (expected : Option Nat) : Table × Bool :=
  match lowerBound t id with
  | none => (t, false)
  | some e =>
    if e.2.id ≠ id then (t, false)
    else if expected.any (fun x => e.2.ref ≠ x) then (t, false)
    else (e.2.subnets.foldl (fun t r => mapErase r t) t, true)

/-- A call on the route table. -/
inductive Op where
  | add (ep : Ep)
  | remove (id : Nat) (expected : Option Nat)
deriving DecidableEq, Repr

/-- One call. -/
def step (t : Table) : Op → Table × Bool
  | .add ep => insertChild t ep
  | .remove id x => removeChild t id x

end Verif.Subnet
