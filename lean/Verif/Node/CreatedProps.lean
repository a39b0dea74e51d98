import Verif.Node.Created

/-! Property C105: what the creation time of an endpoint says. -/

namespace Verif.Node.Created

/-! ### Specification -/

/-- The clock of the node. -/
def clock (s : S) : Int × Int := (s.sec, s.usec)

/-- What an application gets that asks for the seconds and then for the microseconds. -/
def asked (s : S) (r : Nat) : Int × Int := ((getSec s r).2, (getUsec (getSec s r).1 r).2)

/-- The same in the other order. -/
def asked' (s : S) (r : Nat) : Int × Int := ((getSec (getUsec s r).1 r).2, (getUsec s r).2)

/-- Earlier or at the same time. -/
def Le (a b : Int × Int) : Prop := a.1 < b.1 ∨ (a.1 = b.1 ∧ a.2 ≤ b.2)

/-- The time is not set by `start`. -/
def NoStart (ops : List Op) : Prop := ∀ a b, Op.start a b ∉ ops

/-! ### Lemmas -/

theorem Le.refl (a : Int × Int) : Le a a := Or.inr ⟨rfl, Int.le_refl _⟩

theorem Le.trans {a b c : Int × Int} (h : Le a b) (k : Le b c) : Le a c := by
  unfold Le at *
  omega

theorem asked_eq (s : S) (r : Nat) : asked s r = if s.cs r > 0 then (s.cs r, s.cu r) else clock s := by
  unfold asked getSec getUsec clock
  by_cases h : s.cs r > 0
  · simp [h]
  · simp [h]
    split <;> rfl

theorem asked'_eq (s : S) (r : Nat) : asked' s r = asked s r := by
  rw [asked_eq]
  unfold asked' getSec getUsec clock
  by_cases h : s.cs r > 0
  · simp [h]
  · simp [h]
    split <;> rfl

theorem run_append (s : S) (a b : List Op) : run s (a ++ b) = run (run s a) b := List.foldl_append ..

theorem run_cons (s : S) (o : Op) (b : List Op) : run s (o :: b) = run (step s o) b := rfl

theorem step_n (s : S) (op : Op) : s.n ≤ (step s op).n := by
  cases op <;> simp only [step, tick, getSec, getUsec] <;> grind

/-- What one step does to the time kept for an endpoint that exists. -/
theorem step_kept (s : S) (op : Op) {r : Nat} (hr : r < s.n) :
    ((step s op).cs r = s.cs r ∧ (step s op).cu r = s.cu r) ∨
    (s.cs r ≤ 0 ∧ (step s op).cs r = s.sec ∧ (step s op).cu r = s.usec ∧ clock (step s op) = clock s) := by
  cases op <;> simp only [step, tick, getSec, getUsec, clock] <;> grind

theorem run_kept (ops : List Op) : ∀ {s : S} {r : Nat} (_ : r < s.n) (_ : 0 < s.cs r),
    (run s ops).cs r = s.cs r ∧ (run s ops).cu r = s.cu r := by
  induction ops with
  | nil => exact fun _ _ => ⟨rfl, rfl⟩
  | cons op ops ih =>
    intro s r hr hc
    have hn := step_n s op
    rcases step_kept s op hr with ⟨h1, h2⟩ | ⟨h1, -⟩
    · have h3 := ih (s := step s op) (r := r) (by omega) (by omega)
      rw [run_cons]
      exact ⟨h3.1.trans h1, h3.2.trans h2⟩
    · omega

/-- Endpoints that do not exist have no time. -/
theorem run_fresh (ops : List Op) : ∀ {s : S} (_ : ∀ r, s.n ≤ r → s.cs r = 0), ∀ r, (run s ops).n ≤ r → (run s ops).cs r = 0 := by
  induction ops with
  | nil => exact fun h => h
  | cons op ops ih =>
    intro s h
    rw [run_cons]
    refine ih (fun r hr => ?_)
    have := h r
    cases op <;> simp only [step, tick, getSec, getUsec] at hr ⊢ <;> grind

theorem kept_moment (ops : List Op) : ∀ {r : Nat}, 0 < (run init ops).cs r →
    ∃ a b, ops = a ++ b ∧ r < (run init a).n ∧ ((run init ops).cs r, (run init ops).cu r) = clock (run init a) := by
  generalize hl : ops.length = n
  induction n generalizing ops with
  | zero =>
    intro r h
    rw [List.length_eq_zero_iff.mp hl] at h
    exact absurd h (Int.lt_irrefl 0)
  | succ n ih =>
    intro r h
    have hne : ops ≠ [] := fun he => by rw [he] at hl; cases hl
    have he : ops = ops.dropLast ++ [ops.getLast hne] := (List.dropLast_concat_getLast hne).symm
    generalize ops.getLast hne = op at he
    have hlen : ops.dropLast.length = n := by rw [List.length_dropLast, hl]; rfl
    generalize ops.dropLast = l at he hlen
    subst he
    rw [run_append] at h ⊢
    change 0 < (step (run init l) op).cs r at h
    show ∃ a b, l ++ [op] = a ++ b ∧ _ ∧ ((step (run init l) op).cs r, (step (run init l) op).cu r) = _
    by_cases hr : r < (run init l).n
    · rcases step_kept (run init l) op hr with ⟨h1, h2⟩ | ⟨-, h1, h2, -⟩
      · rw [h1] at h
        obtain ⟨a, b, k1, k2, k3⟩ := ih l hlen h
        exact ⟨a, b ++ [op], by rw [k1, List.append_assoc], k2, by rw [h1, h2]; exact k3⟩
      · exact ⟨l, [op], rfl, hr, by rw [h1, h2]; rfl⟩
    · have h0 := run_fresh l (s := init) (fun _ _ => rfl) r (by omega)
      have : (step (run init l) op).cs r = 0 := by
        cases op <;> simp only [step, tick, getSec, getUsec] <;> grind
      omega

/-! ### C105 -/

/-- C105: both parts of the answer belong together, in whatever order they are asked for: they are the clock of the node at one moment
at which the endpoint existed. -/
theorem C105_pair (ops : List Op) (r : Nat) (hr : r < (run init ops).n) :
    asked' (run init ops) r = asked (run init ops) r ∧
    ∃ a b, ops = a ++ b ∧ r < (run init a).n ∧ asked (run init ops) r = clock (run init a) := by
  refine ⟨asked'_eq _ _, ?_⟩
  rw [asked_eq]
  split
  · next h => exact kept_moment ops h
  · exact ⟨ops, [], (List.append_nil _).symm, hr, rfl⟩

/-- C105: an answer with positive seconds is given again for ever, whatever happens. -/
theorem C105_stable (ops1 ops2 : List Op) (r : Nat) (hr : r < (run init ops1).n) (o : Op) (ho : o = .askSec r ∨ o = .askUsec r)
    (hp : 0 < (asked (run init ops1) r).1) : asked (run init (ops1 ++ o :: ops2)) r = asked (run init ops1) r := by
  rw [run_append, run_cons]
  generalize run init ops1 = s at hr hp
  have hk : 0 < (step s o).cs r ∧ asked s r = ((step s o).cs r, (step s o).cu r) := by
    rw [asked_eq] at hp ⊢
    rcases ho with rfl | rfl <;> simp only [step, getSec, getUsec, clock, hr, if_true] at hp ⊢ <;> grind
  have hn := step_n s o
  have h2 := run_kept ops2 (s := step s o) (r := r) (by omega) hk.1
  rw [asked_eq, h2.1, h2.2, if_pos hk.1, hk.2]

/-- C105: while nobody sets the time by `start` after the construction, the answer lies between the time of the construction and now. -/
theorem C105_between_partial (ops1 ops2 : List Op) (hn : NoStart ops2) :
    Le (clock (run init ops1)) (asked (run init (ops1 ++ .create :: ops2)) (run init ops1).n) ∧
    Le (asked (run init (ops1 ++ .create :: ops2)) (run init ops1).n) (clock (run init (ops1 ++ .create :: ops2))) := by
  rw [run_append, run_cons]
  generalize run init ops1 = s
  suffices H : ∀ (ops : List Op) (t : S), NoStart ops → s.n < t.n → Le (clock s) (clock t) →
      (0 < t.cs s.n → Le (clock s) (t.cs s.n, t.cu s.n) ∧ Le (t.cs s.n, t.cu s.n) (clock t)) →
      Le (clock s) (asked (run t ops) s.n) ∧ Le (asked (run t ops) s.n) (clock (run t ops)) by
    refine H ops2 _ hn (Nat.lt_succ_self _) (Le.refl _) (fun h => ?_)
    simp only [step, if_true] at h
    omega
  intro ops
  induction ops with
  | nil =>
    intro t _ _ hc hk
    show Le _ (asked t s.n) ∧ Le (asked t s.n) (clock t)
    rw [asked_eq]
    split
    · next h => exact hk h
    · exact ⟨hc, Le.refl _⟩
  | cons op ops ih =>
    intro t ho hl hc hk
    rw [run_cons]
    have hmono : Le (clock t) (clock (step t op)) := by
      cases op with
      | proc a b => simp only [step, tick, clock, Le]; grind
      | start a b => exact absurd (List.mem_cons_self ..) (ho a b)
      | create => exact Le.refl _
      | askSec r => simp only [step, getSec, clock, Le]; grind
      | askUsec r => simp only [step, getUsec, clock, Le]; grind
    refine ih _ (fun a b h => ho a b (List.mem_cons_of_mem _ h)) (Nat.lt_of_lt_of_le hl (step_n t op)) (hc.trans hmono) (fun hp => ?_)
    rcases step_kept t op hl with ⟨h1, h2⟩ | ⟨-, h1, h2, h3⟩
    · rw [h1, h2]
      rw [h1] at hp
      exact ⟨(hk hp).1, (hk hp).2.trans hmono⟩
    · rw [h1, h2, h3]
      exact ⟨hc, Le.refl _⟩

/-- Two endpoints made at 100.5 and 107.0, the second one asked first: 107.0 and 130.2, and again so at 200. -/
example : let ops := [Op.start 100 5, .create, .proc 107 0, .create, .askUsec 1, .proc 130 2, .askSec 0, .proc 200 0]
    asked (run init ops) 0 = (130, 2) ∧ asked (run init ops) 1 = (107, 0) ∧ clock (run init ops) = (200, 0) := by decide +kernel

/-- The time is not that of the construction, and not in the order of the constructions: the elder endpoint has the later time. -/
theorem C105_creation_false : ∃ ops : List Op, NoStart ops ∧ 2 = (run (run init [.start 100 0]) ops).n ∧
    ¬ Le (asked (run (run init [.start 100 0]) ops) 0) (asked (run (run init [.start 100 0]) ops) 1) := by
  refine ⟨[.create, .create, .askSec 1, .proc 130 0], ?_, by decide +kernel, ?_⟩
  · intro a b h
    simp at h
  · rw [show asked (run (run init [.start 100 0]) [.create, .create, .askSec 1, .proc 130 0]) 0 = (130, 0) from by decide +kernel,
      show asked (run (run init [.start 100 0]) [.create, .create, .askSec 1, .proc 130 0]) 1 = (100, 0) from by decide +kernel]
    unfold Le
    omega

/-- When `start` sets the time back the endpoint seems to be made in the future. -/
theorem C105_start_false : ∃ ops : List Op, 0 < (run init ops).n ∧ 0 < (asked (run init ops) 0).1 ∧ ¬ Le (asked (run init ops) 0) (clock (run init ops)) := by
  refine ⟨[.start 100 0, .create, .askSec 0, .start 50 0], by decide +kernel, by decide +kernel, ?_⟩
  rw [show asked (run init [.start 100 0, .create, .askSec 0, .start 50 0]) 0 = (100, 0) from by decide +kernel,
    show clock (run init [.start 100 0, .create, .askSec 0, .start 50 0]) = (50, 0) from by decide +kernel]
  unfold Le
  omega

/-- Before the node is started an answer is not kept: the endpoint gets another time later. -/
theorem C105_unstarted_false : ∃ ops1 ops2 : List Op, 0 < (run init ops1).n ∧
    asked (run init (ops1 ++ .askSec 0 :: ops2)) 0 ≠ asked (run init ops1) 0 :=
  ⟨[.create], [.start 100 0], by decide +kernel, by decide +kernel⟩

end Verif.Node.Created
