import Verif.Node.Timer

/-! Properties C43 (clock and connection timeouts) and C44 (ping processing ends). -/
namespace Verif.Node.Timer

/-! ### C43 -/

/-- The deadline of a connection attempt that is not finished, closed or timed out, read off the history. -/
def pending (c : Nat) (l : List Ev) : Option Int :=
  l.foldl (fun o e => match e with
    | .created c' d => if c' = c then some d else o
    | .finished c' => if c' = c then none else o
    | .dropped c' => if c' = c then none else o
    | .expired c' _ => if c' = c then none else o) none

theorem pending_snoc (c : Nat) (l : List Ev) (e : Ev) : pending c (l ++ [e]) = match e with
    | .created c' d => if c' = c then some d else pending c l
    | .finished c' => if c' = c then none else pending c l
    | .dropped c' => if c' = c then none else pending c l
    | .expired c' _ => if c' = c then none else pending c l := by
  unfold pending; rw [List.foldl_append]; rfl

/-- Timeouts in the history are justified: only attempts that are pending with a deadline before the time given. -/
def Fair (l : List Ev) : Prop :=
  ∀ l1 l2 c now, l = l1 ++ .expired c now :: l2 → ∃ d, pending c l1 = some d ∧ d < now

theorem split_snoc {l l1 l2 : List Ev} {e x : Ev} (h : l ++ [e] = l1 ++ x :: l2) :
    (l2 = [] ∧ e = x ∧ l = l1) ∨ ∃ l2', l2 = l2' ++ [e] ∧ l = l1 ++ x :: l2' := by
  rcases List.eq_nil_or_concat l2 with h2 | ⟨l2', y, h2⟩
  · subst h2
    have := List.append_inj' h rfl
    simp at this
    exact Or.inl ⟨rfl, this.2, this.1⟩
  · right
    rw [List.concat_eq_append] at h2
    subst h2
    rw [show l1 ++ x :: (l2' ++ [y]) = (l1 ++ x :: l2') ++ [y] by simp] at h
    have := List.append_inj' h rfl
    simp at this
    exact ⟨l2', by rw [this.2], this.1⟩

theorem Fair.snoc {l : List Ev} (h : Fair l) (e : Ev) (he : ∀ c now, e = .expired c now → ∃ d, pending c l = some d ∧ d < now) :
    Fair (l ++ [e]) := by
  intro l1 l2 c now hl
  rcases split_snoc hl with ⟨-, he', rfl⟩ | ⟨l2', -, h'⟩
  · exact he c now he'
  · exact h l1 l2' c now h'

/-- The timer list is in order and agrees with the history. -/
structure TInv (s : C) : Prop where
  sorted : s.list.Pairwise (fun a b => a.1 ≤ b.1)
  ub : ∀ x ∈ s.list, x.1 ≤ s.sec + s.idle
  fresh : ∀ x ∈ s.list, x.2 < s.next
  nodup : s.list.Pairwise (fun a b => a.2 ≠ b.2)
  link : ∀ c d, pending c s.log = some d ↔ (d, c) ∈ s.list
  conn : ∀ x ∈ s.list, s.conn x.2 = false
  fair : Fair s.log

theorem mem_erase (c : Nat) (l : List (Int × Nat)) (x : Int × Nat) : x ∈ erase c l ↔ x ∈ l ∧ x.2 ≠ c := by
  unfold erase; rw [List.mem_filter]; simp

theorem TInv.closed {s : C} (h : TInv s) (c : Nat) (e : Ev) (b : Bool)
    (he : ∀ x, pending x (s.log ++ [e]) = if c = x then none else pending x s.log)
    (hf : ∀ c now, e = .expired c now → ∃ d, pending c s.log = some d ∧ d < now) :
    TInv { s with list := erase c s.list, conn := fun x => if x = c then b else s.conn x, log := s.log ++ [e] } := by
  refine ⟨h.sorted.sublist List.filter_sublist, ?_, ?_, h.nodup.sublist List.filter_sublist, ?_, ?_, h.fair.snoc e hf⟩
  · intro x hx; exact h.ub x ((mem_erase c _ x).mp hx).1
  · intro x hx; exact h.fresh x ((mem_erase c _ x).mp hx).1
  · intro x d
    show pending x (s.log ++ [e]) = some d ↔ (d, x) ∈ erase c s.list
    rw [he, mem_erase, ← h.link]
    by_cases hx : c = x
    · subst hx; simp
    · simp [hx, Ne.symm hx]
  · intro x hx
    have := (mem_erase c _ x).mp hx
    show (if x.2 = c then b else s.conn x.2) = false
    rw [if_neg this.2]
    exact h.conn x this.1

theorem TInv.act {s : C} (h : TInv s) (a : Act) : TInv (act s a) := by
  cases a with
  | finish c => exact h.closed c _ true (fun x => by rw [pending_snoc]) (fun _ _ h => by cases h)
  | drop c => exact h.closed c _ false (fun x => by rw [pending_snoc]) (fun _ _ h => by cases h)
  | create =>
    refine ⟨?_, ?_, ?_, ?_, ?_, ?_, h.fair.snoc _ (fun _ _ h => by cases h)⟩
    · show (s.list ++ [_]).Pairwise _
      rw [List.pairwise_append]
      exact ⟨h.sorted, by simp, fun x hx y hy => by simp at hy; rw [hy]; exact h.ub x hx⟩
    · intro x hx
      have hx : x ∈ s.list ∨ x ∈ [(s.sec + s.idle, s.next)] := List.mem_append.mp hx
      show x.1 ≤ s.sec + s.idle
      rcases hx with hx | hx
      · exact h.ub x hx
      · simp at hx; rw [hx]; exact Int.le_refl _
    · intro x hx
      have hx : x ∈ s.list ∨ x ∈ [(s.sec + s.idle, s.next)] := List.mem_append.mp hx
      show x.2 < s.next + 1
      rcases hx with hx | hx
      · have := h.fresh x hx; omega
      · simp at hx; rw [hx]; exact Nat.lt_succ_self _
    · show (s.list ++ [_]).Pairwise _
      rw [List.pairwise_append]
      refine ⟨h.nodup, by simp, fun x hx y hy => ?_⟩
      simp at hy
      have := h.fresh x hx
      rw [hy]
      show x.2 ≠ s.next
      omega
    · intro c d
      show pending c (s.log ++ [_]) = some d ↔ (d, c) ∈ s.list ++ [_]
      rw [pending_snoc, List.mem_append, ← h.link]
      simp only [List.mem_singleton, Prod.mk.injEq]
      by_cases hc : s.next = c
      · subst hc
        have hn : pending s.next s.log ≠ some d := by
          intro hd
          have := h.fresh _ ((h.link _ _).mp hd)
          simp at this
        simp [hn]
        exact eq_comm
      · simp [hc, Ne.symm hc]
    · intro x hx
      have hx : x ∈ s.list ∨ x ∈ [(s.sec + s.idle, s.next)] := List.mem_append.mp hx
      show (if x.2 = s.next then false else s.conn x.2) = false
      rcases hx with hx | hx
      · split
        · rfl
        · exact h.conn x hx
      · simp at hx; simp [hx]

theorem act_same (s : C) (a : Act) : (act s a).sec = s.sec ∧ (act s a).usec = s.usec ∧ (act s a).idle = s.idle := by
  cases a <;> exact ⟨rfl, rfl, rfl⟩

theorem acts_same (s : C) (l : List Act) : (acts s l).sec = s.sec ∧ (acts s l).usec = s.usec ∧ (acts s l).idle = s.idle := by
  induction l generalizing s with
  | nil => exact ⟨rfl, rfl, rfl⟩
  | cons a l ih =>
    have h1 := ih (s := act s a)
    have h2 := act_same s a
    exact ⟨h1.1.trans h2.1, h1.2.1.trans h2.2.1, h1.2.2.trans h2.2.2⟩

/-- While `c` is being closed it is still listed: the invariant holds for the list without it. -/
structure Mid (c : Nat) (s : C) : Prop where
  lt : c < s.next
  inv : TInv { s with list := erase c s.list }

theorem erase_append (c : Nat) (l k : List (Int × Nat)) : erase c (l ++ k) = erase c l ++ erase c k := List.filter_append ..

theorem erase_erase (c c' : Nat) (l : List (Int × Nat)) : erase c (erase c' l) = erase c' (erase c l) := by
  unfold erase; rw [List.filter_filter, List.filter_filter]; congr; funext x; exact Bool.and_comm _ _

theorem Mid.act {s : C} {c : Nat} (h : Mid c s) (a : Act) : Mid c (act s a) := by
  have hk := h.inv.act a
  cases a with
  | finish c' =>
    refine ⟨h.lt, ?_⟩
    have : TInv { (Timer.act s (.finish c')) with list := erase c' (erase c s.list) } := hk
    rw [erase_erase] at this
    exact this
  | drop c' =>
    refine ⟨h.lt, ?_⟩
    have : TInv { (Timer.act s (.drop c')) with list := erase c' (erase c s.list) } := hk
    rw [erase_erase] at this
    exact this
  | create =>
    have hl : c < s.next := h.lt
    refine ⟨Nat.lt_succ_of_lt hl, ?_⟩
    have e : erase c (s.list ++ [(s.sec + s.idle, s.next)]) = erase c s.list ++ [(s.sec + s.idle, s.next)] := by
      rw [erase_append]
      congr 1
      unfold erase
      simp
      omega
    show TInv { (Timer.act s .create) with list := erase c (s.list ++ [(s.sec + s.idle, s.next)]) }
    rw [e]
    exact hk

theorem Mid.acts {s : C} {c : Nat} (h : Mid c s) (l : List Act) : Mid c (acts s l) := by
  induction l generalizing s with
  | nil => exact h
  | cons a l ih => exact ih (h.act a)

theorem TInv.expireOne {s : C} (h : TInv s) (cb : List Ev → List Act) (c : Nat) (d now : Int) (hc : (d, c) ∈ s.list) (hd : d < now) :
    TInv (expireOne cb s c now) := by
  have hm : Mid c { s with log := s.log ++ [.expired c now] } := by
    refine ⟨h.fresh _ hc, ?_⟩
    have := h.closed c (.expired c now) false (fun x => by rw [pending_snoc]) (fun c' now' he => by
      cases he; exact ⟨d, (h.link c d).mpr hc, hd⟩)
    refine ⟨this.sorted, this.ub, this.fresh, this.nodup, this.link, ?_, this.fair⟩
    intro x hx
    exact h.conn x ((mem_erase c _ x).mp hx).1
  exact (hm.acts _).inv

theorem expireOne_same (cb : List Ev → List Act) (s : C) (c : Nat) (now : Int) :
    (expireOne cb s c now).sec = s.sec ∧ (expireOne cb s c now).usec = s.usec ∧ (expireOne cb s c now).idle = s.idle :=
  acts_same { s with log := s.log ++ [.expired c now] } _

theorem TInv.expire {cb : List Ev → List Act} {sec : Int} {n : Nat} {s s' : C} (h : TInv s) (hs : expire cb sec n s = some s') :
    TInv s' ∧ (∀ x ∈ s'.list, sec ≤ x.1) ∧ s'.sec = s.sec ∧ s'.usec = s.usec ∧ s'.idle = s.idle := by
  induction n generalizing s with
  | zero => cases hs
  | succ n ih =>
    unfold Timer.expire at hs
    split at hs
    · rename_i hl
      cases hs
      exact ⟨h, by simp [hl], rfl, rfl, rfl⟩
    · rename_i d c rest hl
      have hmem : (d, c) ∈ s.list := by rw [hl]; simp
      have hc : s.conn c = false := h.conn _ hmem
      rw [hc] at hs
      simp only [Bool.false_eq_true, if_false] at hs
      split at hs
      · rename_i hd
        cases hs
        refine ⟨h, ?_, rfl, rfl, rfl⟩
        intro x hx
        have hsort := h.sorted
        rw [hl] at hx hsort
        rcases List.mem_cons.mp hx with hx | hx
        · rw [hx]; exact hd
        · have := (List.pairwise_cons.mp hsort).1 x hx
          simp at this
          omega
      · rename_i hd
        obtain ⟨h1, h2, h3, h4, h5⟩ := ih (h.expireOne cb c d sec hmem (by omega)) hs
        obtain ⟨k1, k2, k3⟩ := expireOne_same cb s c sec
        exact ⟨h1, h2, h3.trans k1, h4.trans k2, h5.trans k3⟩

theorem advance_clock (s : C) (sec usec : Int) :
    let s' := advance s sec usec
    (s.sec < s'.sec ∨ (s.sec = s'.sec ∧ s.usec ≤ s'.usec)) ∧ (sec < s'.sec ∨ (sec = s'.sec ∧ usec ≤ s'.usec)) ∧
    ((s'.sec = s.sec ∧ s'.usec = s.usec) ∨ (s'.sec = sec ∧ s'.usec = usec)) ∧ s'.list = s.list ∧ s'.idle = s.idle := by
  intro s'
  show _
  have : s' = advance s sec usec := rfl
  unfold advance at this
  split at this
  · rw [this]; exact ⟨Or.inl (by simpa), Or.inr ⟨rfl, Int.le_refl _⟩, Or.inr ⟨rfl, rfl⟩, rfl, rfl⟩
  · split at this
    · rename_i h
      rw [this]
      exact ⟨Or.inr ⟨rfl, by show s.usec ≤ usec; omega⟩, Or.inr ⟨h.1, Int.le_refl _⟩, Or.inr ⟨h.1.symm, rfl⟩, rfl, rfl⟩
    · rename_i h1 h2
      rw [this]
      refine ⟨Or.inr ⟨rfl, Int.le_refl _⟩, ?_, Or.inl ⟨rfl, rfl⟩, rfl, rfl⟩
      show sec < s.sec ∨ _
      by_cases he : sec = s.sec
      · right; refine ⟨he, ?_⟩
        show usec ≤ s.usec
        have : ¬ usec > s.usec := fun h => h2 ⟨he, h⟩
        omega
      · left; omega

theorem TInv.advance {s : C} (h : TInv s) (sec usec : Int) : TInv (advance s sec usec) := by
  have hc := (advance_clock s sec usec).1
  have : s.sec ≤ (Timer.advance s sec usec).sec := by rcases hc with h | h <;> omega
  have hadv : (Timer.advance s sec usec).list = s.list ∧ (Timer.advance s sec usec).idle = s.idle ∧
      (Timer.advance s sec usec).log = s.log ∧ (Timer.advance s sec usec).next = s.next ∧ (Timer.advance s sec usec).conn = s.conn := by
    unfold Timer.advance
    split
    · exact ⟨rfl, rfl, rfl, rfl, rfl⟩
    · split <;> exact ⟨rfl, rfl, rfl, rfl, rfl⟩
  obtain ⟨a1, a2, a3, a4, a5⟩ := hadv
  refine ⟨by rw [a1]; exact h.sorted, ?_, by rw [a1, a4]; exact h.fresh, by rw [a1]; exact h.nodup, by rw [a1, a3]; exact h.link,
    by rw [a1, a5]; exact h.conn, by rw [a3]; exact h.fair⟩
  intro x hx
  rw [a1] at hx
  have := h.ub x hx
  rw [a2]
  omega

/-- Histories without `start` (which sets the clock). -/
def NoStart (ops : List Op) : Prop := ∀ op ∈ ops, ∀ a b, op ≠ .start a b

theorem TInv.step {cb : List Ev → List Act} {n : Nat} {s s' : C} (h : TInv s) (op : Op) (ho : ∀ a b, op ≠ .start a b)
    (hs : step cb n s op = some s') : TInv s' := by
  cases op with
  | start a b => exact absurd rfl (ho a b)
  | act a => cases hs; exact h.act a
  | proc sec usec => exact (TInv.expire (h.advance sec usec) hs).1

theorem TInv.run {cb : List Ev → List Act} {n : Nat} {s s' : C} (h : TInv s) (ops : List Op) (ho : NoStart ops)
    (hs : run cb n s ops = some s') : TInv s' := by
  induction ops generalizing s with
  | nil => cases hs; exact h
  | cons op ops ih =>
    unfold Timer.run at hs
    obtain ⟨s1, h1, h2⟩ := Option.bind_eq_some_iff.mp hs
    exact ih (h.step op (ho op (List.mem_cons_self ..)) h1) (fun o hm => ho o (List.mem_cons_of_mem _ hm)) h2

theorem tinv_init (idle : Int) : TInv (init idle) :=
  ⟨List.Pairwise.nil, fun _ h => (by cases h), fun _ h => (by cases h), List.Pairwise.nil, fun c d => (by simp [init, pending]),
   fun _ h => (by cases h), fun l1 l2 c now h => (by simp [init] at h)⟩

theorem init_start (idle a b : Int) : TInv (start (init idle) a b) :=
  ⟨List.Pairwise.nil, fun _ h => (by cases h), fun _ h => (by cases h), List.Pairwise.nil, fun c d => (by simp [init, start, pending]),
   fun _ h => (by cases h), fun l1 l2 c now h => (by simp [init, start] at h)⟩

theorem expire_clock {cb : List Ev → List Act} {sec : Int} {n : Nat} {s s' : C} (hs : expire cb sec n s = some s') :
    s'.sec = s.sec ∧ s'.usec = s.usec := by
  induction n generalizing s with
  | zero => cases hs
  | succ n ih =>
    unfold Timer.expire at hs
    split at hs
    · cases hs; exact ⟨rfl, rfl⟩
    · split at hs
      · have := ih hs; exact this
      · split at hs
        · cases hs; exact ⟨rfl, rfl⟩
        · obtain ⟨h1, h2⟩ := ih hs
          obtain ⟨k1, k2, -⟩ := expireOne_same cb s _ sec
          exact ⟨h1.trans k1, h2.trans k2⟩

/-- C43: no step turns the clock back (`start` apart), and after `proc` it is not behind the time given. -/
theorem C43_clock (cb : List Ev → List Act) (n : Nat) (s s' : C) (op : Op) (ho : ∀ a b, op ≠ .start a b)
    (hs : step cb n s op = some s') :
    (s.sec < s'.sec ∨ (s.sec = s'.sec ∧ s.usec ≤ s'.usec)) ∧
    (∀ sec usec, op = .proc sec usec → sec < s'.sec ∨ (sec = s'.sec ∧ usec ≤ s'.usec)) := by
  cases op with
  | start a b => exact absurd rfl (ho a b)
  | act a =>
    cases hs
    obtain ⟨h1, h2, -⟩ := act_same s a
    exact ⟨Or.inr ⟨h1.symm, by rw [h2]; exact Int.le_refl _⟩, fun _ _ h => by cases h⟩
  | proc sec usec =>
    obtain ⟨h3, h4⟩ := expire_clock hs
    have := advance_clock s sec usec
    rw [h3, h4]
    exact ⟨this.1, fun _ _ h => by cases h; exact this.2.1⟩

/-- C43: whatever was done before (but for `start`), and whatever the application does in the callbacks, after `proc` at
time `sec` no unfinished attempt with an earlier deadline is pending; deadlines and the end of attempts are read off the
history. -/
theorem C43_timeout (cb : List Ev → List Act) (n : Nat) (idle a b : Int) (ops : List Op) (ho : NoStart ops) (sec usec : Int) (s' : C)
    (hs : run cb n (start (init idle) a b) (ops ++ [.proc sec usec]) = some s') (c : Nat) (d : Int)
    (hp : pending c s'.log = some d) : sec ≤ d := by
  have hrun : ∀ (s : C), run cb n s (ops ++ [.proc sec usec]) = (run cb n s ops).bind fun s => step cb n s (.proc sec usec) := by
    clear hs ho
    induction ops with
    | nil => intro s; simp [Timer.run]
    | cons op ops ih =>
      intro s
      show (Timer.step cb n s op).bind _ = ((Timer.step cb n s op).bind _).bind _
      rw [Option.bind_assoc]
      congr
      funext s1
      exact ih s1
  rw [hrun] at hs
  obtain ⟨s1, h1, h2⟩ := Option.bind_eq_some_iff.mp hs
  have hi := TInv.run (init_start idle a b) ops ho h1
  obtain ⟨k1, k2, -⟩ := TInv.expire (hi.advance sec usec) h2
  exact k2 _ ((k1.link c d).mp hp)

/-- C43: an attempt is never given up before its deadline. -/
theorem C43_no_early (cb : List Ev → List Act) (n : Nat) (idle a b : Int) (ops : List Op) (ho : NoStart ops) (s' : C)
    (hs : run cb n (start (init idle) a b) ops = some s') (l1 l2 : List Ev) (c : Nat) (now : Int)
    (hl : s'.log = l1 ++ .expired c now :: l2) : ∃ d, pending c l1 = some d ∧ d < now :=
  (TInv.run (init_start idle a b) ops ho hs).fair l1 l2 c now hl

/-! The loop ends. -/

theorem expire_mono {cb : List Ev → List Act} {sec : Int} {n m : Nat} {s s' : C} (h : expire cb sec n s = some s') (hm : n ≤ m) :
    expire cb sec m s = some s' := by
  induction n generalizing m s with
  | zero => cases h
  | succ n ih =>
    obtain ⟨m, rfl⟩ : ∃ k, m = k + 1 := ⟨m - 1, by omega⟩
    unfold expire at h ⊢
    split at h
    · exact h
    · split at h
      · rw [if_pos (by assumption)]; exact ih h (by omega)
      · rw [if_neg (by assumption)]
        split at h
        · rw [if_pos (by assumption)]; exact h
        · rw [if_neg (by assumption)]; exact ih h (by omega)

/-- How many listed attempts have a deadline before `sec`. -/
def late (sec : Int) (l : List (Int × Nat)) : Nat := (l.filter fun x => decide (x.1 < sec)).length

theorem late_sublist {sec : Int} {l k : List (Int × Nat)} (h : l.Sublist k) : late sec l ≤ late sec k :=
  (h.filter _).length_le

theorem late_act {sec : Int} {s : C} (h : sec ≤ s.sec + s.idle) (a : Act) : late sec (act s a).list ≤ late sec s.list := by
  cases a with
  | finish c => exact late_sublist List.filter_sublist
  | drop c => exact late_sublist List.filter_sublist
  | create =>
    show late sec (s.list ++ [(s.sec + s.idle, s.next)]) ≤ _
    unfold late
    rw [List.filter_append]
    have : ¬ s.sec + s.idle < sec := by omega
    simp [this]

theorem late_acts {sec : Int} {s : C} (h : sec ≤ s.sec + s.idle) (l : List Act) : late sec (acts s l).list ≤ late sec s.list := by
  induction l generalizing s with
  | nil => exact Nat.le_refl _
  | cons a l ih =>
    obtain ⟨h1, -, h3⟩ := act_same s a
    exact Nat.le_trans (ih (s := act s a) (by rw [h1, h3]; exact h)) (late_act h a)

/-- An entry that survives other actions is still there or was erased; after erasing it the count is smaller. -/
theorem late_erase {sec : Int} {l : List (Int × Nat)} {c : Nat} {d : Int} (hm : (d, c) ∈ l) (hd : d < sec) :
    late sec (erase c l) < late sec l := by
  induction l with
  | nil => cases hm
  | cons x l ih =>
    have hsub : late sec (erase c l) ≤ late sec l := late_sublist List.filter_sublist
    have e2 : late sec (x :: l) = (if x.1 < sec then 1 else 0) + late sec l := by
      unfold late; rw [List.filter_cons]; split <;> simp_all <;> omega
    rcases List.mem_cons.mp hm with h | h
    · subst h
      have e1 : erase c ((d, c) :: l) = erase c l := by simp [erase]
      rw [e1, e2]
      simp [hd]
      omega
    · have := ih h
      by_cases hx : x.2 = c
      · have e1 : erase c (x :: l) = erase c l := by simp [erase, hx]
        rw [e1, e2]
        omega
      · have e1 : erase c (x :: l) = x :: erase c l := by simp [erase, hx]
        have e3 : late sec (x :: erase c l) = (if x.1 < sec then 1 else 0) + late sec (erase c l) := by
          unfold late; rw [List.filter_cons]; split <;> simp_all <;> omega
        rw [e1, e2, e3]
        omega

/-- Actions other than erasing keep `(d, c)` or remove it; either way at most `late` entries other than it remain. -/
theorem late_expireOne {sec : Int} {cb : List Ev → List Act} {s : C} {c : Nat} {d : Int} (h : sec ≤ s.sec + s.idle) (hc : c < s.next)
    (hm : (d, c) ∈ s.list) (hd : d < sec) : late sec (expireOne cb s c sec).list < late sec s.list := by
  have key : ∀ (l : List Act) (s : C), sec ≤ s.sec + s.idle → c < s.next → late sec (erase c (acts s l).list) ≤ late sec (erase c s.list) := by
    intro l
    induction l with
    | nil => intro s _ _; exact Nat.le_refl _
    | cons a l ih =>
      intro s h hc
      obtain ⟨h1, -, h3⟩ := act_same s a
      have hc' : c < (act s a).next := by
        cases a
        · exact Nat.lt_succ_of_lt hc
        · exact hc
        · exact hc
      refine Nat.le_trans (ih (act s a) (by rw [h1, h3]; exact h) hc') ?_
      cases a with
      | finish c' => exact late_sublist (List.Sublist.filter _ List.filter_sublist)
      | drop c' => exact late_sublist (List.Sublist.filter _ List.filter_sublist)
      | create =>
        show late sec (erase c (s.list ++ [(s.sec + s.idle, s.next)])) ≤ _
        rw [erase_append]
        unfold late
        rw [List.filter_append]
        have h0 : ¬ s.sec + s.idle < sec := by omega
        have : (List.filter (fun x => decide (x.1 < sec)) (erase c [(s.sec + s.idle, s.next)])) = [] := by
          unfold erase
          rw [List.filter_filter]
          simp [h0]
        rw [this]
        simp
  exact Nat.lt_of_le_of_lt (key _ { s with log := s.log ++ [.expired c sec] } h hc) (late_erase hm hd)

theorem expire_ends (cb : List Ev → List Act) (sec : Int) (s : C) (h : TInv s) (hi : sec ≤ s.sec + s.idle) :
    ∃ n s', expire cb sec n s = some s' := by
  obtain ⟨k, hk⟩ : ∃ k, late sec s.list = k := ⟨_, rfl⟩
  induction k using Nat.strongRecOn generalizing s with
  | _ k ih =>
    obtain ⟨l, hl⟩ : ∃ l, s.list = l := ⟨_, rfl⟩
    cases l with
    | nil => exact ⟨1, s, by unfold expire; rw [hl]⟩
    | cons x rest =>
      obtain ⟨d, c⟩ := x
      have hmem : (d, c) ∈ s.list := by rw [hl]; simp
      have hc := h.conn _ hmem
      by_cases hd : d ≥ sec
      · exact ⟨1, s, by unfold expire; rw [hl]; simp only; rw [hc]; simp [hd]⟩
      · obtain ⟨k1, k2, k3⟩ := expireOne_same cb s c sec
        have hlt := late_expireOne (cb := cb) hi (h.fresh _ hmem) hmem (by omega)
        obtain ⟨n, s', hn⟩ := ih _ (by rw [← hk]; exact hlt) (expireOne cb s c sec) (h.expireOne cb c d sec hmem (by omega))
          (by rw [k1, k3]; exact hi) rfl
        exact ⟨n + 1, s', by unfold expire; rw [hl]; simp only; rw [hc]; simp [hd]; exact hn⟩

/-- C43: the timeout loop always ends, whatever connections the application opens and closes in the callbacks, if the
timeout is not negative. -/
theorem C43_ends (cb : List Ev → List Act) (idle a b : Int) (hi : 0 ≤ idle) (ops : List Op) (ho : NoStart ops) :
    ∃ n s', run cb n (start (init idle) a b) ops = some s' := by
  suffices H : ∀ (ops : List Op) (s : C), TInv s → s.idle = idle → NoStart ops → ∃ n s', ∀ m, n ≤ m → run cb m s ops = some s' by
    obtain ⟨n, s', h⟩ := H ops _ (init_start idle a b) rfl ho
    exact ⟨n, s', h n (Nat.le_refl _)⟩
  intro ops
  induction ops with
  | nil => intro s _ _ _; exact ⟨0, s, fun _ _ => rfl⟩
  | cons op ops ih =>
    intro s h hid ho
    have ho' : NoStart ops := fun o hm => ho o (List.mem_cons_of_mem _ hm)
    cases op with
    | start a b => exact absurd rfl (ho _ (List.mem_cons_self ..) a b)
    | act a =>
      obtain ⟨n, s', hn⟩ := ih (act s a) (h.act a) ((act_same s a).2.2.trans hid) ho'
      exact ⟨n, s', fun m hm => hn m hm⟩
    | proc sec usec =>
      have hc := advance_clock s sec usec
      have hsec : sec ≤ (advance s sec usec).sec := by rcases hc.2.1 with h | h <;> omega
      have hidle := hc.2.2.2.2
      obtain ⟨n1, s1, h1⟩ := expire_ends cb sec (advance s sec usec) (h.advance sec usec) (by
        have : (advance s sec usec).idle = idle := hidle.trans hid
        rw [this]; omega)
      obtain ⟨k1, -, -, -, k5⟩ := TInv.expire (h.advance sec usec) h1
      obtain ⟨n2, s2, h2⟩ := ih s1 k1 (k5.trans (hidle.trans hid)) ho'
      refine ⟨max n1 n2, s2, fun m hm => ?_⟩
      show (expire cb sec m (advance s sec usec)).bind _ = _
      rw [expire_mono h1 (by omega)]
      exact h2 m (by omega)

/-- C43 is false of histories with `start`: an attempt made before `start` turns the clock back hides the later ones. -/
theorem C43_start_false : ∃ ops sec, ∃ s', run (fun _ => []) 10 (init 30) (ops ++ [.proc sec 0]) = some s' ∧
    pending 1 s'.log = some 40 ∧ 40 < sec :=
  ⟨[.proc 1000 0, .act .create, .start 10 0, .act .create], 100, _, rfl, by decide, by decide⟩

/-- Two attempts time out, one was finished; in the callback another is made. -/
example : ((run (fun l => if l.length = 5 then [.create] else []) 10 (init 30)
      [.proc 100 0, .act .create, .act .create, .act .create, .act (.finish 1), .proc 131 5]).map fun s => (s.log, s.list)) =
    some ([.created 0 130, .created 1 130, .created 2 130, .finished 1, .expired 0 131, .created 3 161, .expired 2 131], [(161, 3)]) := by
  decide

/-! ### C44 -/

/-- The timers that are due. -/
def due (e : Env) (l : List (Int × Nat)) : List (Int × Nat) := l.filter fun x => decide (x.1 ≤ e.sec)

/-- No living endpoint that is overdue has its timer before another due timer. -/
def Clear (e : Env) (p : P) : Prop := (due e p.list).Pairwise fun a _ => e.alive a.2 = true → overdue e p a.2 = false

/-- What a ping does elsewhere: it may stop timers and start later ones, and makes no endpoint overdue. -/
def Gentle (e : Env) : Prop := ∀ p r, (due e (e.hook p r).list).Sublist (due e p.list) ∧
  ∀ x, overdue e (e.hook p r) x = true → overdue e p x = true

/-- `next_ep` is empty or the endpoint of the first timer. -/
def Entry (e : Env) (p : P) (next : Option Nat) : Prop :=
  next = none ∨ ∃ t r rest, p.list = (t, r) :: rest ∧ next = lock e r

theorem addTimer_due (e : Env) (p : P) (r : Nat) (hc : e.sec ≤ e.clock) :
    due e (addTimer e p r).list = (due e p.list).filter (fun x => x.2 != r) := by
  unfold addTimer due
  simp only
  rw [List.filter_append, List.filter_filter, List.filter_filter]
  have : (if e.interval ≤ 0 ∨ e.blocked r = true then [] else [(e.clock + e.interval, r)]).filter (fun x => decide (x.1 ≤ e.sec)) = [] := by
    split
    · rfl
    · rename_i h
      have : ¬ e.clock + e.interval ≤ e.sec := by
        intro hx; exact h (Or.inl (by omega))
      simp [this]
  rw [this, List.append_nil]
  congr
  funext x
  exact Bool.and_comm _ _

theorem pingNext_due (e : Env) (p : P) (r : Nat) (hc : e.sec ≤ e.clock) (hg : Gentle e) :
    (due e (pingNext e p (some r)).list).Sublist ((due e p.list).filter (fun x => x.2 != r)) ∧
    ∀ x, overdue e (pingNext e p (some r)) x = true → overdue e p x = true := by
  unfold pingNext
  simp only
  rw [addTimer_due e _ r hc]
  split
  · exact ⟨List.Sublist.refl _, fun x h => h⟩
  · exact ⟨List.Sublist.filter _ (hg p r).1, fun x h => (hg p r).2 x h⟩

theorem chooseNext_some {e : Env} {p p' : P} {t : Int} {x n : Option Nat} (h : chooseNext e p t x = some (p', n)) :
    (due e p'.list).Sublist (due e p.list) ∧ p'.avail = p.avail ∧ Entry e p' n := by
  unfold chooseNext at h
  split at h
  · cases h
  · rename_i t' r' rest hl
    split at h
    · cases h
    · split at h
      · cases h
        exact ⟨List.Sublist.refl _, rfl, Or.inl rfl⟩
      · split at h
        · cases h
          refine ⟨?_, rfl, Or.inl rfl⟩
          rw [hl]
          exact List.Sublist.filter _ (List.sublist_cons_self _ _)
        · cases h
          exact ⟨List.Sublist.refl _, rfl, Or.inr ⟨_, _, _, hl, rfl⟩⟩

theorem overdue_congr {e : Env} {p p' : P} (h : p'.avail = p.avail) (x : Nat) : overdue e p' x = overdue e p x := by
  unfold overdue; rw [h]

theorem Clear.mono {e : Env} {p p' : P} (h : Clear e p) (hs : (due e p'.list).Sublist (due e p.list))
    (ho : ∀ x, overdue e p' x = true → overdue e p x = true) : Clear e p' := by
  refine (h.sublist hs).imp ?_
  intro a _ ha hal
  have := ha hal
  cases hx : overdue e p' a.2 with
  | false => rfl
  | true => rw [ho _ hx] at this; cases this

theorem round_nil {e : Env} {p : P} {next : Option Nat} (hl : p.list = []) : round e p next = (p, none) := by
  unfold round; split
  · rfl
  · rename_i h; rw [hl] at h; cases h

theorem round_cons {e : Env} {p : P} {next : Option Nat} {t : Int} {r : Nat} {rest : List (Int × Nat)} (hl : p.list = (t, r) :: rest) :
    round e p next = if t > e.sec then (p, none) else
      match next.or (lock e r) with
      | some x =>
        if overdue e p x then (addTimer e { p with gc := p.gc ++ [x] } x, some (some x))
        else
          match chooseNext e (pingNext e p (some x)) t (some x) with
          | none => (pingNext e p (some x), none)
          | some (p, n) => (p, some n)
      | none =>
        match chooseNext e p t none with
        | none => (p, none)
        | some (p, n) => (p, some n) := by
  unfold round
  split
  · rename_i h; rw [hl] at h; cases h
  · rename_i h; rw [hl] at h; cases h; rfl

theorem loop_ends (e : Env) (hc : e.sec ≤ e.clock) (hg : Gentle e) (k : Nat) (p : P) (next : Option Nat)
    (hk : (due e p.list).length ≤ k) (hclear : Clear e p) (hn : Entry e p next) : (loop e (k + 2) p next).isSome = true := by
  induction k generalizing p next with
  | zero =>
    have hd : due e p.list = [] := List.length_eq_zero_iff.mp (by omega)
    unfold loop round
    split
    · rename_i h
      split at h
      · cases h; rfl
      · rename_i t r rest hl
        split at h
        · cases h; rfl
        · rename_i ht
          exfalso
          rw [hl] at hd
          unfold due at hd
          have : decide (t ≤ e.sec) = true := by simp; omega
          simp [this] at hd
    · rename_i h
      exfalso
      split at h
      · cases h
      · rename_i t r rest hl
        split at h
        · cases h
        · rename_i ht
          rw [hl] at hd
          unfold due at hd
          simp at hd
          omega
  | succ k ih =>
    obtain ⟨l, hl⟩ : ∃ l, p.list = l := ⟨_, rfl⟩
    unfold loop
    cases l with
    | nil => rw [round_nil hl]; rfl
    | cons y rest =>
      obtain ⟨t, r⟩ := y
      rw [round_cons hl]
      by_cases ht : t > e.sec
      · rw [if_pos ht]; rfl
      · rw [if_neg ht]
        have hdue : due e p.list = (t, r) :: due e rest := by
          rw [hl]; unfold due
          rw [List.filter_cons_of_pos (by simp; omega)]
        have hnext : next.or (lock e r) = lock e r := by
          rcases hn with rfl | ⟨t', r', rest', hl', rfl⟩
          · rfl
          · rw [hl] at hl'; cases hl'
            cases lock e r <;> rfl
        rw [hnext]
        have after : ∀ (q : P) (x : Option Nat), (due e q.list).length ≤ k → Clear e q →
            (match (match chooseNext e q t x with
              | none => (q, none)
              | some (p, n) => (p, some n)) with
            | (p, none) => some p
            | (p, some next) => loop e (k + 2) p next).isSome = true := by
          intro q x hq hcl
          cases hch : chooseNext e q t x with
          | none => rfl
          | some z =>
            obtain ⟨p', n⟩ := z
            obtain ⟨h1, h2, h3⟩ := chooseNext_some hch
            exact ih p' n (Nat.le_trans h1.length_le hq) (hcl.mono h1 (fun x h => by rw [overdue_congr h2] at h; exact h)) h3
        cases hlock : lock e r with
        | some x =>
          have hx : x = r ∧ e.alive r = true := by
            unfold lock at hlock
            split at hlock
            · cases hlock; exact ⟨rfl, by assumption⟩
            · cases hlock
          obtain ⟨rfl, hal⟩ := hx
          simp only
          by_cases hov : overdue e p x = true
          · rw [if_pos hov]
            simp only
            -- then this was the last due timer
            have hnil : due e rest = [] := by
              unfold Clear at hclear
              rw [hdue] at hclear
              cases hr : due e rest with
              | nil => rfl
              | cons z zs =>
                rw [hr] at hclear
                have := (List.pairwise_cons.mp hclear).1 z (List.mem_cons_self ..) hal
                rw [hov] at this
                cases this
            have hd' : due e (addTimer e { p with gc := p.gc ++ [x] } x).list = [] := by
              rw [addTimer_due _ _ _ hc]
              show (due e p.list).filter _ = []
              rw [hdue, hnil]
              simp
            generalize addTimer e { p with gc := p.gc ++ [x] } x = q at hd'
            unfold loop
            obtain ⟨lq, hlq⟩ : ∃ lq, q.list = lq := ⟨_, rfl⟩
            rw [hlq] at hd'
            cases lq with
            | nil => rw [round_nil hlq]; rfl
            | cons z zs =>
              obtain ⟨tz, rz⟩ := z
              rw [round_cons hlq]
              have : tz > e.sec := by
                unfold due at hd'
                simp at hd'
                omega
              rw [if_pos this]
              rfl
          · rw [if_neg hov]
            obtain ⟨h1, h2⟩ := pingNext_due e p x hc hg
            refine after (pingNext e p (some x)) (some x) ?_ ?_
            · have h3 := h1.length_le
              rw [hdue] at h3 hk
              have h4 : ((due e rest).filter fun y => y.2 != x).length ≤ (due e rest).length := List.length_filter_le _ _
              simp at h3 hk h4
              omega
            · exact hclear.mono (h1.trans List.filter_sublist) h2
        | none =>
          simp only
          -- the dead entry is popped
          have hch : chooseNext e p t none = some ({ p with list := rest }, none) := by
            unfold chooseNext
            rw [hl]
            simp only
            rw [if_neg ht, if_neg (by simp), if_pos hlock]
          rw [hch]
          simp only
          refine ih _ _ ?_ ?_ (Or.inl rfl)
          · rw [hdue] at hk; simp at hk; exact hk
          · refine hclear.mono ?_ (fun _ h => h)
            rw [hdue]; exact List.sublist_cons_self _ _

/-- C44 where it holds: if no overdue endpoint (unavailable for longer than the first idle timeout) has a due timer
that is followed by another due timer, the ping loop ends, after at most two more rounds than there are due timers,
whatever pings stop or start elsewhere. -/
theorem C44_ends_partial (e : Env) (hc : e.sec ≤ e.clock) (hg : Gentle e) (p : P) (hclear : Clear e p) :
    ∃ p', loop e ((due e p.list).length + 2) p none = some p' :=
  Option.isSome_iff_exists.mp (loop_ends e hc hg _ p none (Nat.le_refl _) hclear (Or.inl rfl))

/-- `next_ep` is overdue and the first timer is due but not its own: the loop makes no progress. -/
theorem loop_stuck (e : Env) (n : Nat) (p : P) (x : Nat) (t : Int) (r : Nat) (rest : List (Int × Nat)) (hl : p.list = (t, r) :: rest)
    (ht : t ≤ e.sec) (hr : r ≠ x) (ho : overdue e p x = true) : loop e n p (some x) = none := by
  induction n generalizing p rest with
  | zero => rfl
  | succ n ih =>
    unfold loop
    rw [round_cons hl]
    rw [if_neg (by omega)]
    simp only [Option.some_or]
    rw [if_pos ho]
    simp only
    have : ∃ rest', (addTimer e { p with gc := p.gc ++ [x] } x).list = (t, r) :: rest' := by
      unfold addTimer
      rw [hl]
      simp only
      rw [List.filter_cons_of_pos (by simp [hr])]
      exact ⟨_, rfl⟩
    obtain ⟨rest', h'⟩ := this
    exact ih _ rest' h' (by rw [← ho]; rfl)

theorem loop_hangs (e : Env) (hq : ∀ p r, (e.hook p r).list = p.list ∧ (e.hook p r).avail = p.avail)
    (a b : Int × Nat) (hb : b.1 ≤ e.sec) (ha : a.1 ≤ e.sec) (hal : e.alive a.2 = true) (n : Nat) (l1 : List (Int × Nat)) (rest : List (Int × Nat)) (p : P)
    (next : Option Nat) (hl : p.list = l1 ++ a :: b :: rest) (h1 : ∀ y ∈ l1, y.1 ≤ e.sec)
    (hnd : (l1 ++ [a, b]).Pairwise fun x y => x.2 ≠ y.2) (ho : overdue e p a.2 = true) (hn : Entry e p next) :
    loop e n p next = none := by
  induction n generalizing l1 rest p next with
  | zero => rfl
  | succ n ih =>
    have hab : b.2 ≠ a.2 := by
      have := (List.pairwise_append.mp hnd).2.1
      simp at this
      exact fun h => this h.symm
    cases l1 with
    | nil =>
      simp only [List.nil_append] at hl
      have hnext : next.or (lock e a.2) = some a.2 := by
        have hk : lock e a.2 = some a.2 := by unfold lock; rw [if_pos hal]
        rcases hn with rfl | ⟨t', r', rest', hl', rfl⟩
        · exact hk
        · rw [hl] at hl'; cases hl'; rw [hk]; rfl
      obtain ⟨ta, ra⟩ := a
      simp only at *
      unfold loop
      rw [round_cons hl, if_neg (by omega), hnext]
      simp only
      rw [if_pos ho]
      simp only
      obtain ⟨tb, rb⟩ := b
      have : ∃ rest', (addTimer e { p with gc := p.gc ++ [ra] } ra).list = (tb, rb) :: rest' := by
        unfold addTimer
        rw [hl]
        simp only
        rw [List.filter_cons_of_neg (by simp), List.filter_cons_of_pos (by simpa using hab)]
        exact ⟨_, rfl⟩
      obtain ⟨rest', h'⟩ := this
      exact loop_stuck e n _ ra tb rb rest' h' hb hab (by rw [← ho]; rfl)
    | cons y l1 =>
      obtain ⟨t, r⟩ := y
      have ht : t ≤ e.sec := h1 (t, r) (List.mem_cons_self ..)
      have hl1 : ∀ y ∈ l1, y.1 ≤ e.sec := fun y hy => h1 y (List.mem_cons_of_mem _ hy)
      rw [List.cons_append] at hnd
      obtain ⟨hr, hnd'⟩ := List.pairwise_cons.mp hnd
      have hnext : next.or (lock e r) = lock e r := by
        rcases hn with rfl | ⟨t', r', rest', hl', rfl⟩
        · rfl
        · rw [hl] at hl'; cases hl'
          cases lock e r <;> rfl
      -- the next entry
      obtain ⟨z, zs, hz⟩ : ∃ z zs, l1 ++ a :: b :: rest = z :: zs := by
        cases l1 with
        | nil => exact ⟨_, _, rfl⟩
        | cons z l1 => exact ⟨_, _, rfl⟩
      have hzm : z ∈ l1 ++ [a, b] := by
        cases l1 with
        | nil => cases hz; simp
        | cons w l1 => cases hz; simp
      have hzt : z.1 ≤ e.sec := by
        rcases List.mem_append.mp hzm with h | h
        · exact hl1 z h
        · simp at h; rcases h with h | h <;> rw [h] <;> assumption
      have hzr : z.2 ≠ r := fun h => hr z hzm h.symm
      have hfil : ∀ (add : List (Int × Nat)), ∃ rest', (p.list.filter fun x => x.2 != r) ++ add = l1 ++ a :: b :: rest' := by
        intro add
        refine ⟨(rest.filter fun x => x.2 != r) ++ add, ?_⟩
        rw [hl, List.cons_append, List.filter_cons_of_neg (by simp), List.filter_append]
        have e1 : l1.filter (fun x => x.2 != r) = l1 := by
          rw [List.filter_eq_self]
          intro w hw
          simp
          exact fun h => hr w (by simp [hw]) h.symm
        have ea : (a.2 != r) = true := by simp; exact fun h => hr a (by simp) h.symm
        have eb : (b.2 != r) = true := by simp; exact fun h => hr b (by simp) h.symm
        rw [e1]
        simp only [List.filter_cons, ea, eb]
        simp
      unfold loop
      rw [round_cons (show p.list = (t, r) :: (l1 ++ a :: b :: rest) from hl)]
      rw [if_neg (by omega), hnext]
      cases hlock : lock e r with
      | some x =>
        have hx : x = r := by
          unfold lock at hlock
          split at hlock
          · cases hlock; rfl
          · cases hlock
        subst hx
        simp only
        split
        · rename_i heq
          exfalso
          split at heq
          · cases heq
          · have hlist : ∃ rest', (pingNext e p (some x)).list = l1 ++ a :: b :: rest' := by
              unfold pingNext addTimer
              simp only
              split
              · exact hfil _
              · simp only [(hq p x).1]; exact hfil _
            obtain ⟨rest', hlist⟩ := hlist
            obtain ⟨z', zs', hz', hz''⟩ : ∃ z' zs', l1 ++ a :: b :: rest' = z' :: zs' ∧ z' = z := by
              cases l1 with
              | nil => cases hz; exact ⟨_, _, rfl, rfl⟩
              | cons w l1 => cases hz; exact ⟨_, _, rfl, rfl⟩
            subst hz''
            unfold chooseNext at heq
            rw [hlist, hz'] at heq
            obtain ⟨tz, rz⟩ := z'
            simp only at heq
            rw [if_neg (show ¬ tz > e.sec from by simp at hzt; omega)] at heq
            split at heq
            · rename_i hh; split at hh <;> (try split at hh) <;> cases hh
            · cases heq
        · rename_i p' next' heq
          split at heq
          · -- an earlier overdue endpoint
            rename_i hov
            cases heq
            obtain ⟨rest', h'⟩ := hfil (if e.interval ≤ 0 ∨ e.blocked x then [] else [(e.clock + e.interval, x)])
            have h'' : (addTimer e { p with gc := p.gc ++ [x] } x).list = l1 ++ a :: b :: rest' := h'
            obtain ⟨z', zs', hz', hz''⟩ : ∃ z' zs', l1 ++ a :: b :: rest' = z' :: zs' ∧ z' = z := by
              cases l1 with
              | nil => cases hz; exact ⟨_, _, rfl, rfl⟩
              | cons w l1 => cases hz; exact ⟨_, _, rfl, rfl⟩
            subst hz''
            exact loop_stuck e n _ x z'.1 z'.2 zs' (h''.trans hz') hzt hzr (by rw [← hov]; rfl)
          · have hav : (pingNext e p (some x)).avail = p.avail := by
              unfold pingNext addTimer
              simp only
              split
              · rfl
              · exact (hq p x).2
            have hlist : ∃ rest', (pingNext e p (some x)).list = l1 ++ a :: b :: rest' := by
              unfold pingNext addTimer
              simp only
              split
              · exact hfil _
              · simp only [(hq p x).1]; exact hfil _
            obtain ⟨rest', hlist⟩ := hlist
            obtain ⟨z', zs', hz', hz''⟩ : ∃ z' zs', l1 ++ a :: b :: rest' = z' :: zs' ∧ z' = z := by
              cases l1 with
              | nil => cases hz; exact ⟨_, _, rfl, rfl⟩
              | cons w l1 => cases hz; exact ⟨_, _, rfl, rfl⟩
            subst hz''
            cases hch : chooseNext e (pingNext e p (some x)) t (some x) with
            | none => rw [hch] at heq; cases heq
            | some w =>
              obtain ⟨p'', n''⟩ := w
              rw [hch] at heq
              cases heq
              have hent := (chooseNext_some hch).2.2
              have hpp : p' = pingNext e p (some x) := by
                unfold chooseNext at hch
                rw [hlist, hz'] at hch
                obtain ⟨tz, rz⟩ := z'
                simp only at hch
                rw [if_neg (show ¬ tz > e.sec from by simp at hzt; omega)] at hch
                split at hch
                · cases hch; rfl
                · split at hch
                  · rename_i hlk
                    exfalso
                    unfold lock at hlk
                    split at hlk
                    · cases hlk; exact hzr rfl
                    · cases hlk
                  · cases hch; rfl
              subst hpp
              exact ih l1 rest' _ _ hlist hl1 hnd' (by rw [overdue_congr hav]; exact ho) hent
      | none =>
        simp only
        have hch : chooseNext e p t none = some ({ p with list := l1 ++ a :: b :: rest }, none) := by
          unfold chooseNext
          rw [hl]
          simp only [List.cons_append]
          rw [if_neg (by omega), if_neg (by simp), if_pos hlock]
        rw [hch]
        exact ih l1 rest _ _ rfl hl1 hnd' ho (Or.inl rfl)

/-- C44, exactly when the loop ends.  For timers in order of time, one per endpoint, and pings that touch nothing else,
the loop ends if and only if no overdue endpoint has a due timer followed by another due timer.  Timers are always in
order if the clock is not turned back. -/
theorem C44_exact_partial (e : Env) (hc : e.sec ≤ e.clock) (hq : ∀ p r, (e.hook p r).list = p.list ∧ (e.hook p r).avail = p.avail)
    (p : P) (hs : p.list.Pairwise fun x y => x.1 ≤ y.1) (hnd : p.list.Pairwise fun x y => x.2 ≠ y.2) :
    (∃ n p', loop e n p none = some p') ↔
      ∀ l1 a b l2, p.list = l1 ++ a :: b :: l2 → b.1 ≤ e.sec → e.alive a.2 = true → overdue e p a.2 = false := by
  constructor
  · rintro ⟨n, p', h⟩ l1 a b l2 hl hb hal
    cases ho : overdue e p a.2 with
    | false => rfl
    | true =>
      rw [hl] at hs hnd
      have hs' := List.pairwise_append.mp hs
      have hab := (List.pairwise_cons.mp hs'.2.1).1 b (List.mem_cons_self ..)
      have := loop_hangs e hq a b hb (by omega) hal n l1 l2 p none hl
        (fun y hy => by have := hs'.2.2 y hy a (List.mem_cons_self ..); omega)
        (hnd.sublist (List.Sublist.append (List.Sublist.refl _) (by simp))) ho (Or.inl rfl)
      rw [this] at h
      cases h
  · intro h
    have hclear : Clear e p := by
      unfold Clear
      -- every due entry before another due one has a due successor
      suffices H : ∀ l l0, p.list = l0 ++ l → l.Pairwise (fun x y => x.1 ≤ y.1) →
          (due e l).Pairwise fun a _ => e.alive a.2 = true → overdue e p a.2 = false from H p.list [] rfl hs
      intro l
      induction l with
      | nil => intro _ _ _; exact List.Pairwise.nil
      | cons a l ih =>
        intro l0 hl hsort
        obtain ⟨ha, hsort'⟩ := List.pairwise_cons.mp hsort
        have hrec := ih (l0 ++ [a]) (by simpa using hl) hsort'
        unfold due
        rw [List.filter_cons]
        split
        · rw [List.pairwise_cons]
          refine ⟨?_, hrec⟩
          intro y hy hal
          obtain ⟨hy1, hy2⟩ := List.mem_filter.mp hy
          simp at hy2
          cases l with
          | nil => cases hy1
          | cons b l =>
            have hby : b.1 ≤ y.1 := by
              rcases List.mem_cons.mp hy1 with rfl | hy1
              · exact Int.le_refl _
              · exact (List.pairwise_cons.mp hsort').1 y hy1
            exact h l0 a b l hl (by omega) hal
        · exact hrec
    have hg : Gentle e := by
      intro p r
      obtain ⟨h1, h2⟩ := hq p r
      rw [h1]
      exact ⟨List.Sublist.refl _, fun x hx => by rw [overdue_congr h2] at hx; exact hx⟩
    obtain ⟨p', hp'⟩ := C44_ends_partial e hc hg p hclear
    exact ⟨_, p', hp'⟩

theorem filter_ne {l : List (Int × Nat)} {r : Nat} (h : ∀ x ∈ l, x.2 ≠ r) : l.filter (fun x => x.2 != r) = l := by
  rw [List.filter_eq_self]
  intro x hx
  exact bne_iff_ne.mpr (h x hx)

theorem loop_visits (e : Env) (hc : e.sec ≤ e.clock) (hi : 0 < e.interval)
    (hq : ∀ p r, (e.hook p r).list = p.list ∧ (e.hook p r).avail = p.avail ∧ (e.hook p r).pinged = p.pinged ∧ (e.hook p r).gc = p.gc)
    (d : List (Int × Nat)) : ∀ (l : List (Int × Nat)) (p : P) (next : Option Nat), p.list = d ++ l → Entry e p next →
    (∀ x ∈ d, x.1 ≤ e.sec ∧ e.alive x.2 = true ∧ overdue e p x.2 = false ∧ e.blocked x.2 = false) → (∀ x ∈ l, e.sec < x.1) →
    ((d ++ l).Pairwise fun x y => x.2 ≠ y.2) →
    ∃ p', loop e (d.length + 1) p next = some p' ∧ p'.list = l ++ d.map (fun x => (e.clock + e.interval, x.2)) ∧
      p'.pinged = p.pinged ++ (d.map (·.2)).filter (fun r => e.parent != some r) ∧ p'.gc = p.gc := by
  have hstop : ∀ (n : Nat) (p : P) (next : Option Nat), (∀ x ∈ p.list, e.sec < x.1) → loop e (n + 1) p next = some p := by
    intro n p next hl
    unfold loop
    cases hp : p.list with
    | nil => rw [round_nil hp]
    | cons y rest =>
      obtain ⟨t, r⟩ := y
      have := hl (t, r) (by rw [hp]; exact List.mem_cons_self ..)
      have hgt : t > e.sec := this
      rw [round_cons hp, if_pos hgt]
  induction d with
  | nil =>
    intro l p next hp _ _ hl _
    refine ⟨p, hstop 0 p next (by rw [hp]; exact hl), ?_, ?_, rfl⟩
    · simpa using hp
    · simp
  | cons y d ih =>
    obtain ⟨t, r⟩ := y
    intro l p next hp hn hd hl hnd
    obtain ⟨h1, h2, h3, h4⟩ := hd (t, r) (List.mem_cons_self ..)
    have hnext : next.or (lock e r) = some r := by
      have hlk : lock e r = some r := if_pos h2
      rcases hn with rfl | ⟨t', r', rest', hl', rfl⟩
      · exact hlk
      · rw [hp] at hl'; cases hl'
        rw [hlk]; rfl
    have hnt : ¬ t > e.sec := by simp only at h1; omega
    rw [List.cons_append, List.pairwise_cons] at hnd
    -- the state after the ping
    have hpl : (pingNext e p (some r)).list = d ++ (l ++ [(e.clock + e.interval, r)]) ∧ (pingNext e p (some r)).avail = p.avail ∧
        (pingNext e p (some r)).pinged = p.pinged ++ (if e.parent != some r then [r] else []) ∧ (pingNext e p (some r)).gc = p.gc := by
      have hadd : ∀ q : P, q.list = p.list → (addTimer e q r).list = d ++ (l ++ [(e.clock + e.interval, r)]) := by
        intro q hql
        unfold addTimer
        simp only
        rw [hql, hp, if_neg (by rintro (h | h); omega; simp only at h4; rw [h4] at h; cases h), List.cons_append,
          List.filter_cons_of_neg (by simp), filter_ne (fun x hx => fun he => hnd.1 x hx he.symm), List.append_assoc]
      unfold pingNext
      simp only
      by_cases hpar : e.parent = some r
      · rw [if_pos hpar]
        refine ⟨hadd p rfl, rfl, ?_, rfl⟩
        show p.pinged = _
        simp [hpar]
      · rw [if_neg hpar]
        refine ⟨hadd _ (hq p r).1, (hq p r).2.1, ?_, (hq p r).2.2.2⟩
        show (e.hook p r).pinged ++ [r] = _
        rw [(hq p r).2.2.1]
        simp [hpar]
    generalize hpn : pingNext e p (some r) = q at hpl
    obtain ⟨q1, q2, q3, q4⟩ := hpl
    have hround : round e p next = match chooseNext e q t (some r) with
        | none => (q, none)
        | some (p, n) => (p, some n) := by
      rw [round_cons hp, if_neg hnt, hnext]
      simp only
      simp only at h3
      rw [h3, hpn]
      rfl
    have hl' : ∀ x ∈ l ++ [(e.clock + e.interval, r)], e.sec < x.1 := by
      intro x hx
      rcases List.mem_append.mp hx with hx | hx
      · exact hl x hx
      · rw [List.mem_singleton.mp hx]; show e.sec < e.clock + e.interval; omega
    have hpinged : p.pinged ++ (((t, r) :: d).map (·.2)).filter (fun r => e.parent != some r) =
        q.pinged ++ (d.map (·.2)).filter (fun r => e.parent != some r) := by
      rw [q3, List.map_cons, List.filter_cons]
      split <;> simp
    have hlist : l ++ ((t, r) :: d).map (fun x => (e.clock + e.interval, x.2)) =
        (l ++ [(e.clock + e.interval, r)]) ++ d.map (fun x => (e.clock + e.interval, x.2)) := by simp
    rw [hpinged, hlist, ← q4]
    cases d with
    | nil =>
      have hch : chooseNext e q t (some r) = none := by
        unfold chooseNext
        split
        · rfl
        · next t' r' rest hql =>
          rw [q1] at hql
          have : e.sec < t' := hl' (t', r') (by rw [List.nil_append] at hql; rw [hql]; exact List.mem_cons_self ..)
          rw [if_pos this]
      refine ⟨q, ?_, ?_, ?_, rfl⟩
      · unfold loop; rw [hround, hch]
      · rw [q1]; simp
      · simp
    | cons z d =>
      obtain ⟨t', r'⟩ := z
      have hz := hd (t', r') (by simp)
      have hne : r ≠ r' := hnd.1 (t', r') (by simp)
      have hlk' : lock e r' = some r' := if_pos hz.2.1
      have hch : ∃ n, chooseNext e q t (some r) = some (q, n) ∧ Entry e q n := by
        unfold chooseNext
        rw [q1]
        simp only [List.cons_append]
        have hnt' : ¬ t' > e.sec := by have := hz.1; simp only at this; omega
        rw [if_neg hnt']
        by_cases htt : t' ≠ t
        · rw [if_pos htt]; exact ⟨_, rfl, Or.inl rfl⟩
        · rw [if_neg htt, hlk', if_neg (fun he => hne (Option.some.inj he).symm)]
          exact ⟨_, rfl, Or.inr ⟨t', r', _, q1, hlk'.symm⟩⟩
      obtain ⟨n, hch, hen⟩ := hch
      have hih := ih (l ++ [(e.clock + e.interval, r)]) q n q1 hen
        (fun x hx => by
          obtain ⟨a, b, c, f⟩ := hd x (List.mem_cons_of_mem _ hx)
          exact ⟨a, b, by rw [overdue_congr q2]; exact c, f⟩) hl'
        (by
          rw [← List.append_assoc, List.pairwise_append]
          refine ⟨hnd.2, List.pairwise_singleton _ _, fun a ha b hb => ?_⟩
          rw [List.mem_singleton.mp hb]
          exact fun he => hnd.1 a ha he.symm)
      obtain ⟨p', k1, k2, k3, k4⟩ := hih
      refine ⟨p', ?_, k2, k3, k4⟩
      show loop e ((d.length + 1 + 1) + 1) p next = some p'
      unfold loop
      rw [hround, hch]
      exact k1

/-- C44, what the loop does when it is not disturbed: if no due endpoint is overdue, every endpoint with a due timer is visited exactly once, in the
order of the timers; it is pinged unless it is the parent, and its timer is set again; nothing else changes. -/
theorem C44_each_once (e : Env) (hc : e.sec ≤ e.clock) (hi : 0 < e.interval)
    (hq : ∀ p r, (e.hook p r).list = p.list ∧ (e.hook p r).avail = p.avail ∧ (e.hook p r).pinged = p.pinged ∧ (e.hook p r).gc = p.gc)
    (p : P) (hs : p.list.Pairwise fun x y => x.1 ≤ y.1) (hnd : p.list.Pairwise fun x y => x.2 ≠ y.2)
    (hd : ∀ x ∈ p.list, x.1 ≤ e.sec → e.alive x.2 = true ∧ overdue e p x.2 = false ∧ e.blocked x.2 = false) :
    ∃ p', loop e ((due e p.list).length + 1) p none = some p' ∧
      p'.list = p.list.filter (fun x => decide (e.sec < x.1)) ++ (due e p.list).map (fun x => (e.clock + e.interval, x.2)) ∧
      p'.pinged = p.pinged ++ ((due e p.list).map (·.2)).filter (fun r => e.parent != some r) ∧ p'.gc = p.gc := by
  have hsplit : ∀ l : List (Int × Nat), l.Pairwise (fun x y => x.1 ≤ y.1) → l = due e l ++ l.filter (fun x => decide (e.sec < x.1)) := by
    intro l
    induction l with
    | nil => intro _; rfl
    | cons x l ih =>
      intro hs
      obtain ⟨h1, h2⟩ := List.pairwise_cons.mp hs
      unfold due
      by_cases hx : x.1 ≤ e.sec
      · rw [List.filter_cons_of_pos (by simpa using hx), List.filter_cons_of_neg (by simp; omega), List.cons_append]
        exact congrArg _ (ih h2)
      · rw [List.filter_cons_of_neg (by simpa using hx), List.filter_cons_of_pos (by simp; omega)]
        have hz : l.filter (fun x => decide (x.1 ≤ e.sec)) = [] := by
          rw [List.filter_eq_nil_iff]
          intro y hy hd
          have := h1 y hy
          have := of_decide_eq_true hd
          omega
        have := ih h2
        unfold due at this
        rw [hz, List.nil_append] at this ⊢
        rw [← this]
  have hl := hsplit p.list hs
  refine loop_visits e hc hi hq (due e p.list) _ p none hl (Or.inl rfl) (fun x hx => ?_) (fun x hx => ?_) (by rw [← hl]; exact hnd)
  · obtain ⟨h1, h2⟩ := List.mem_filter.mp hx
    exact ⟨of_decide_eq_true h2, hd x h1 (of_decide_eq_true h2)⟩
  · exact of_decide_eq_true (List.mem_filter.mp hx).2

/-- Two endpoints with due timers, default settings; the first one has no data connection although it was created long
ago. -/
def hangEnv : Env where
  sec := 1000
  clock := 1000
  interval := 60
  idle := 30
  created := fun _ => 900
  alive := fun _ => true
  blocked := fun _ => false
  parent := none
  hook := fun p _ => p

/-- C44 is false: `proc` never returns. -/
theorem C44_hang_false : ∀ n, loop hangEnv n { list := [(960, 1), (960, 2)], avail := fun r => r == 2 } none = none :=
  fun n => loop_hangs hangEnv (fun _ _ => ⟨rfl, rfl⟩) (960, 1) (960, 2) (by decide) (by decide) rfl n [] [] _ none rfl
    (by simp) (by decide) (by decide) (Or.inl rfl)

/-- With the two timers in the other order it ends; with all endpoints available each is pinged once. -/
example : ((loop hangEnv 10 { list := [(960, 2), (960, 1)], avail := fun r => r == 2 } none).map fun p => (p.list, p.pinged, p.gc)) =
      some ([(1060, 2), (1060, 1)], [2], [1]) ∧
    ((loop hangEnv 10 { list := [(950, 3), (960, 2), (960, 1), (1001, 4)], avail := fun _ => true } none).map fun p => (p.list, p.pinged, p.gc)) =
      some ([(1001, 4), (1060, 3), (1060, 2), (1060, 1)], [3, 2, 1], []) := by decide

end Verif.Node.Timer
