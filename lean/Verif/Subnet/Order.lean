import Verif.Subnet.Lemmas
import Verif.Endpoint.Lemmas

/-!
C83: the orderings used for sorting and for the route table.

`std::sort`, `std::map` and `std::lower_bound` have undefined behaviour if the comparison they are given is no strict weak order, and
their results may depend on the implementation if different elements compare equal.
-/
namespace Verif.Subnet

/-! ### Model: the other comparison operators -/

/-- `operator==`, `src/atbus_endpoint.cpp:34-36`. -/
def Rng.eqOp (a b : Rng) : Bool := decide (a.max = b.max) && decide (a.min = b.min)

/-- `operator!=`, `src/atbus_endpoint.cpp:92-94`. -/
def Rng.neOp (a b : Rng) : Bool := decide (a.max ≠ b.max) || decide (a.min ≠ b.min)

/-- `operator<=`, `src/atbus_endpoint.cpp:68-74`. -/
def Rng.leOp (a b : Rng) : Bool :=
  if a.max ≠ b.max then decide (a.max < b.max) else decide (a.min ≥ b.min)

/-- `operator>`, `src/atbus_endpoint.cpp:76-82`. -/
def Rng.gtOp (a b : Rng) : Bool :=
  if a.max ≠ b.max then decide (a.max > b.max) else decide (a.min < b.min)

/-- `operator>=`, `src/atbus_endpoint.cpp:84-90`. -/
def Rng.geOp (a b : Rng) : Bool :=
  if a.max ≠ b.max then decide (a.max > b.max) else decide (a.min ≤ b.min)

/-- `operator<=>`, `src/atbus_endpoint.cpp:39-57`. -/
def Rng.cmp (a b : Rng) : Ordering :=
  if a.max ≠ b.max then
    if a.max < b.max then .lt else .gt
  else if a.min ≠ b.min then
    if a.min > b.min then .lt else .gt
  else .eq

/-- `lower_bound_by_max_id`, `src/atbus_endpoint.cpp:123-135`. -/
def Rng.belowId (l : Rng) (r : Nat) : Bool := decide (l.max < r)

/-- `endpoint::contain(confs, id)`, `src/atbus_endpoint.cpp:831-843`. -/
def containConfId : List (Nat × Nat) → Nat → Option Bool
  | [], _ => some false
  | (p, m) :: cs, id =>
    if id = 0 then some false
    else match containConf p m id with
      | none => none
      | some true => some true
      | some false => containConfId cs id

/-! ### Specification -/

/-- What the standard library asks of a comparison. -/
structure StrictWeak {α : Type} (lt : α → α → Bool) : Prop where
  irrefl : ∀ a, lt a a = false
  trans : ∀ a b c, lt a b = true → lt b c = true → lt a c = true
  /-- being incomparable is transitive -/
  incomp : ∀ a b c, lt a b = false → lt b a = false → lt b c = false → lt c b = false → lt a c = false ∧ lt c a = false

/-- The list is in the order of the comparison: nothing is less than something before it. -/
def InOrder {α : Type} (lt : α → α → Bool) (l : List α) : Prop := l.Pairwise fun a b => lt b a = false

/-! ### C83 -/

/-- C83: the ordering of ranges is a strict weak order, and ranges that compare equal are equal ranges. -/
theorem C83_ranges : StrictWeak Rng.lt ∧ ∀ a b : Rng, a.lt b = false → b.lt a = false → a.min = b.min ∧ a.max = b.max := by
  refine ⟨⟨?_, ?_, ?_⟩, ?_⟩
  · intro a
    rw [← Bool.not_eq_true, lt_iff]; omega
  · intro a b c h1 h2
    rw [lt_iff] at *; omega
  · intro a b c h1 h2 h3 h4
    rw [← Bool.not_eq_true, lt_iff] at h1 h2 h3 h4
    rw [← Bool.not_eq_true, ← Bool.not_eq_true, lt_iff, lt_iff]
    constructor <;> omega
  · intro a b h1 h2
    rw [← Bool.not_eq_true, lt_iff] at h1 h2; omega

example : (⟨16, 31, 4⟩ : Rng).lt ⟨0, 31, 5⟩ = true ∧ (⟨0, 15, 4⟩ : Rng).lt ⟨16, 31, 4⟩ = true := by decide

/-- C83: all comparison operators agree, also the one of newer language versions. -/
theorem C83_operators (a b : Rng) :
    (a.lt b = true ↔ a.cmp b = .lt) ∧ (a.gtOp b = true ↔ a.cmp b = .gt) ∧ (a.eqOp b = true ↔ a.cmp b = .eq) ∧
    (a.leOp b = true ↔ a.cmp b ≠ .gt) ∧ (a.geOp b = true ↔ a.cmp b ≠ .lt) ∧ (a.neOp b = true ↔ a.cmp b ≠ .eq) ∧
    (a.cmp b = .gt ↔ b.cmp a = .lt) := by
  have h : a.cmp b = .lt ∨ a.cmp b = .gt ∨ a.cmp b = .eq := by cases a.cmp b <;> simp
  unfold Rng.cmp Rng.lt Rng.gtOp Rng.eqOp Rng.leOp Rng.geOp Rng.neOp
  by_cases h1 : a.max = b.max
  · by_cases h2 : a.min = b.min
    · simp [h1, h2]
    · have h2' : b.min ≠ a.min := fun e => h2 e.symm
      by_cases h3 : a.min > b.min
      · have : ¬ b.min > a.min := by omega
        have h4 : b.min ≤ a.min := by omega
        have h5 : ¬ a.min ≤ b.min := by omega
        simp [h1, h2, h2', h3, h4, h5]
      · have h4 : b.min > a.min := by omega
        have h5 : a.min ≤ b.min := by omega
        have h6 : ¬ b.min ≤ a.min := by omega
        simp [h1, h2, h2', h3, h4, h5, h6]
  · have h1' : b.max ≠ a.max := fun e => h1 e.symm
    by_cases h3 : a.max < b.max
    · have : ¬ b.max < a.max := by omega
      simp [h1, h1', h3, this]
    · have : b.max < a.max := by omega
      simp [h1, h1', h3, this]

example : (⟨16, 31, 4⟩ : Rng).cmp ⟨0, 31, 5⟩ = .lt ∧ (⟨16, 31, 4⟩ : Rng).geOp ⟨0, 31, 5⟩ = false := by decide

/-- C83: in a table ordered by the comparison the ranges below an id come first, as `std::lower_bound` asks for. -/
theorem C83_partition (l : List Rng) (id : Nat) (h : InOrder Rng.lt l) :
    l = l.filter (fun r => r.belowId id) ++ l.filter (fun r => !r.belowId id) := by
  induction l with
  | nil => rfl
  | cons x xs ih =>
    have h' := List.pairwise_cons.1 h
    by_cases hx : x.belowId id = true
    · rw [List.filter_cons_of_pos (p := fun r => Rng.belowId r id) hx, List.filter_cons_of_neg (by rw [hx]; decide), List.cons_append, ← ih h'.2]
    · have hall : ∀ r ∈ xs, r.belowId id = false := by
        intro r hr
        have h2 := h'.1 r hr
        rw [← Bool.not_eq_true, lt_iff] at h2
        simp only [Rng.belowId, decide_eq_true_eq, decide_eq_false_iff_not] at hx ⊢
        omega
      have e1 : xs.filter (fun r => r.belowId id) = [] := by
        rw [List.filter_eq_nil_iff]
        intro r hr
        rw [hall r hr]; decide
      have e2 : xs.filter (fun r => !r.belowId id) = xs := by
        rw [List.filter_eq_self]
        intro r hr
        rw [hall r hr]; rfl
      rw [List.filter_cons_of_neg (p := fun r => Rng.belowId r id) hx, List.filter_cons_of_pos (by simpa using hx), e1, e2, List.nil_append]

example : let l : List Rng := [⟨0, 15, 4⟩, ⟨16, 31, 4⟩, ⟨32, 32, 0⟩]
    l.filter (·.belowId 20) = [⟨0, 15, 4⟩] ∧ l.filter (fun r => !r.belowId 20) = [⟨16, 31, 4⟩, ⟨32, 32, 0⟩] := by decide

/-- C83: whatever way `std::sort` sorts, `merge_subnets` goes on with the same list. -/
theorem C83_any_sort (l l' : List Rng) (hv : ∀ r ∈ l, r.Valid) (hp : l'.Perm l) (ho : InOrder Rng.lt l') : l' = sortRng l := by
  refine List.Perm.eq_of_pairwise (le := Le) ?_ ho (sortRng_sorted l) (hp.trans (sortRng_perm l).symm)
  intro a b ha hb h1 h2
  rw [le_iff] at h1 h2
  obtain ⟨p, m, h3, h4⟩ := hv a (hp.mem_iff.1 ha)
  obtain ⟨p', m', h5, h6⟩ := hv b (mem_sortRng.1 hb)
  have sa := (mk_block h3 h4).size
  have sb := (mk_block h5 h6).size
  have e1 : a.max = b.max := by omega
  have e2 : a.min = b.min := by omega
  have e3 : 2 ^ a.mask = 2 ^ b.mask := by omega
  have e4 : a.mask = b.mask := Nat.pow_right_inj (Nat.le_refl 2) |>.1 e3
  cases a; cases b; simp_all

example : let l : List Rng := [⟨16, 31, 4⟩, ⟨0, 15, 4⟩, ⟨0, 31, 5⟩]
    InOrder Rng.lt [⟨0, 15, 4⟩, ⟨16, 31, 4⟩, ⟨0, 31, 5⟩] ∧ sortRng l = [⟨0, 15, 4⟩, ⟨16, 31, 4⟩, ⟨0, 31, 5⟩] := by
  unfold InOrder; decide

/-- C83: a configured list of subnets contains an id exactly if one of the ranges made of it does. -/
theorem C83_conf_list (cs : List (Nat × Nat)) (id : Nat) (h : ∀ c ∈ cs, c.1 < 2 ^ 64 ∧ c.2 ≤ 30) :
    containConfId cs id = some (decide (id ≠ 0 ∧ ∃ c ∈ cs, id >>> c.2 = c.1 >>> c.2)) := by
  induction cs with
  | nil => simp [containConfId]
  | cons c cs ih =>
    obtain ⟨p, m⟩ := c
    have hm := h (p, m) List.mem_cons_self
    have ih := ih fun c hc => h c (List.mem_cons_of_mem _ hc)
    unfold containConfId
    by_cases h0 : id = 0
    · simp [h0]
    · rw [if_neg h0]
      have hc : containConf p m id = some (decide (id >>> m = p >>> m)) := by
        unfold containConf
        rw [if_neg h0]
        simp only [intMask, hm.2, if_true]
        congr 1
        rw [decide_eq_decide, or_mask, or_mask, Nat.shiftRight_eq_div_pow, Nat.shiftRight_eq_div_pow]
        have hpos : 0 < 2 ^ m := Nat.two_pow_pos m
        constructor
        · intro e
          have : p / 2 ^ m * 2 ^ m = id / 2 ^ m * 2 ^ m := by omega
          exact (Nat.eq_of_mul_eq_mul_right hpos this).symm
        · intro e; rw [e]
      rw [hc]
      by_cases he : id >>> m = p >>> m
      · simp only [he, decide_true]
        simp [h0, he]
      · simp only [he, decide_false, ih, Option.some.injEq, decide_eq_decide]
        constructor
        · rintro ⟨h1, c, h2, h3⟩
          exact ⟨h1, c, List.mem_cons_of_mem _ h2, h3⟩
        · rintro ⟨h1, c, h2, h3⟩
          rcases List.mem_cons.1 h2 with rfl | h2
          · exact absurd h3 he
          · exact ⟨h1, c, h2, h3⟩

example : containConfId [(0x100, 4), (0x200, 8)] 0x2ff = some true ∧ containConfId [(0x100, 4), (0x200, 8)] 0x120 = some false := by decide

end Verif.Subnet

namespace Verif.Endpoint

/-- `sort_connection_cmp_fn`, `src/atbus_endpoint.cpp:443-460`. -/
def connLt (a b : Conn) : Bool := decide (score a < score b)

theorem stable_unique {f : Nat → Conn} : ∀ {l l' : List Nat}, Ordered f l → Ordered f l' →
    (∀ c : Conn, l'.filter (fun x => decide (score (f x) = score c)) = l.filter (fun x => decide (score (f x) = score c))) → l' = l
  | [], [], _, _, _ => rfl
  | [], y :: ys, _, _, h => by
    have := h (f y)
    simp at this
  | x :: xs, [], _, _, h => by
    have := h (f x)
    simp at this
  | x :: xs, y :: ys, h1, h2, h => by
    have h1' := List.pairwise_cons.1 h1
    have h2' := List.pairwise_cons.1 h2
    have hx : x ∈ (y :: ys) := by
      have : x ∈ (x :: xs).filter (fun z => decide (score (f z) = score (f x))) := by simp
      rw [← h (f x)] at this
      exact (List.mem_filter.1 this).1
    have hy : y ∈ (x :: xs) := by
      have : y ∈ (y :: ys).filter (fun z => decide (score (f z) = score (f y))) := by simp
      rw [h (f y)] at this
      exact (List.mem_filter.1 this).1
    have e : score (f x) = score (f y) := by
      have a : score (f y) ≤ score (f x) := by
        rcases List.mem_cons.1 hx with e | e
        · rw [e]; exact Nat.le_refl _
        · exact h2'.1 x e
      have b : score (f x) ≤ score (f y) := by
        rcases List.mem_cons.1 hy with e | e
        · rw [e]; exact Nat.le_refl _
        · exact h1'.1 y e
      omega
    have e2 : y = x := by
      have := h (f x)
      rw [List.filter_cons_of_pos (by simp [e]), List.filter_cons_of_pos (by simp)] at this
      exact (List.cons.inj this).1
    subst e2
    congr 1
    refine stable_unique h1'.2 h2'.2 fun c => ?_
    have := h c
    by_cases hc : score (f y) = score c
    · rw [List.filter_cons_of_pos (by simp [hc]), List.filter_cons_of_pos (by simp [hc])] at this
      exact (List.cons.inj this).2
    · rwa [List.filter_cons_of_neg (by simp [hc]), List.filter_cons_of_neg (by simp [hc])] at this

/-- C83: the comparison of data connections is a strict weak order, and every stable sort (`std::list::sort`) gives the same list. -/
theorem C83_connections : Subnet.StrictWeak connLt ∧
    ∀ (f : Nat → Conn) (l l' : List Nat), Subnet.InOrder (fun a b => connLt (f a) (f b)) l' →
      (∀ c : Conn, l'.filter (fun x => !connLt (f x) c && !connLt c (f x)) = l.filter (fun x => !connLt (f x) c && !connLt c (f x))) →
      l' = sortC f l := by
  refine ⟨⟨?_, ?_, ?_⟩, ?_⟩
  · intro a; simp [connLt]
  · intro a b c h1 h2
    simp only [connLt, decide_eq_true_eq] at *; omega
  · intro a b c h1 h2 h3 h4
    simp only [connLt, decide_eq_false_iff_not] at *; omega
  · intro f l l' ho hs
    have hc : ∀ (l : List Nat) (c : Conn), l.filter (fun x => !connLt (f x) c && !connLt c (f x)) =
        l.filter (fun x => decide (score (f x) = score c)) := by
      intro l c
      congr 1
      funext x
      simp only [connLt]
      rw [Bool.eq_iff_iff]
      simp only [Bool.and_eq_true, Bool.not_eq_true', decide_eq_false_iff_not, decide_eq_true_eq]
      omega
    refine stable_unique (sortC_ordered f l) ?_ fun c => ?_
    · refine List.Pairwise.imp ?_ ho
      intro a b h
      simp only [connLt, decide_eq_false_iff_not] at h
      omega
    · rw [sortC_stable, ← hc, ← hc, hs c]

example : let f : Nat → Conn := fun x => { shareAddr := x == 2, shareHost := x ≥ 1 }
    sortC f [0, 1, 2, 3] = [2, 1, 3, 0] := by decide

end Verif.Endpoint
