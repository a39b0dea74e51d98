import Verif.Node.Peer
import Verif.Node.SelfProps

/-! Properties C41 (fault tolerance) and C45 (ping and pong). -/
namespace Verif.Node.Peer

/-! ### What the history says -/

/-- Faults of endpoint `r` since its last success (or since it was registered). -/
def streak (r : Nat) (l : List Ev) : Nat :=
  l.foldl (fun n e => if e = .fault r then n + 1 else if e = .ok r ∨ e = .added r then 0 else n) 0

def connStreak (c : Nat) (l : List Ev) : Nat :=
  l.foldl (fun n e => if e = .connFault c then n + 1 else if e = .connOk c ∨ e = .connReset c ∨ e = .connClosed c then 0 else n) 0

/-- `r` was added and not removed since. -/
def registered (r : Nat) (l : List Ev) : Bool :=
  l.foldl (fun b e => match e with
    | .added r' => if r' = r then true else b
    | .removed r' _ => if r' = r then false else b
    | _ => b) false

/-- The ping of `r` that has not been answered. -/
def outstanding (r : Nat) (l : List Ev) : Option Nat :=
  l.foldl (fun o e => match e with
    | .pinged r' q => if r' = r then some q else o
    | .ponged r' q => if r' = r ∧ o = some q then none else o
    | .added r' => if r' = r then none else o
    | _ => o) none

/-- The sequence numbers of the pings sent. -/
def pings (l : List Ev) : List Nat :=
  l.filterMap fun e => match e with
    | .pinged _ q => some q
    | _ => none

/-! ### C41 -/

/-- Removal after faults, read off the history only. -/
structure Good (tol : Nat) (idOf : Nat → Nat) (l : List Ev) : Prop where
  /-- a registered endpoint with too many faults in a row is removed at once -/
  prompt : ∀ l1 l2 r, l = l1 ++ .fault r :: l2 → tol < streak r (l1 ++ [.fault r]) → registered r l1 = true →
    ∃ l3, l2 = .removed r (some r) :: l3
  /-- a removal because of faults follows the fault that makes them too many; what is removed is what is registered
  with that id -/
  just : ∀ l1 l2 r' r, l = l1 ++ .removed r' (some r) :: l2 →
    ∃ l0, l1 = l0 ++ [.fault r] ∧ tol < streak r l1 ∧ idOf r' = idOf r ∧ registered r' l0 = true
  cprompt : ∀ l1 l2 c, l = l1 ++ .connFault c :: l2 → tol < connStreak c (l1 ++ [.connFault c]) →
    ∃ l3, l2 = .connReset c :: l3
  cjust : ∀ l1 l2 c, l = l1 ++ .connReset c :: l2 → ∃ l0, l1 = l0 ++ [.connFault c] ∧ tol < connStreak c l1

theorem split_snoc {l l1 l2 : List Ev} {e x : Ev} (h : l ++ [e] = l1 ++ x :: l2) :
    (l2 = [] ∧ e = x ∧ l = l1) ∨ ∃ l2', l2 = l2' ++ [e] ∧ l = l1 ++ x :: l2' := by
  rcases List.eq_nil_or_concat l2 with h2 | ⟨l2', y, h2⟩
  · subst h2
    have := List.append_inj' h rfl
    simp at this
    exact Or.inl ⟨rfl, this.2, this.1⟩
  · right
    rw [List.concat_eq_append] at h2
    subst h2
    rw [show l1 ++ x :: (l2' ++ [y]) = (l1 ++ x :: l2') ++ [y] by simp] at h
    have := List.append_inj' h rfl
    simp at this
    exact ⟨l2', by rw [this.2], this.1⟩

/-- Events that are neither faults nor removals because of faults. -/
def Plain : Ev → Prop
  | .fault _ => False
  | .removed _ (some _) => False
  | .connFault _ => False
  | .connReset _ => False
  | _ => True

theorem Good.nil (tol : Nat) (idOf : Nat → Nat) : Good tol idOf [] := by
  constructor <;> intros <;> simp_all

theorem Good.plain {tol : Nat} {idOf : Nat → Nat} {l : List Ev} (h : Good tol idOf l) (e : Ev) (he : Plain e) :
    Good tol idOf (l ++ [e]) := by
  constructor
  · intro l1 l2 r hl ht hr
    rcases split_snoc hl with ⟨-, rfl, -⟩ | ⟨l2', rfl, h'⟩
    · exact he.elim
    · obtain ⟨l3, rfl⟩ := h.prompt _ _ _ h' ht hr; exact ⟨l3 ++ [e], by simp⟩
  · intro l1 l2 r' r hl
    rcases split_snoc hl with ⟨-, rfl, -⟩ | ⟨l2', rfl, h'⟩
    · exact he.elim
    · exact h.just _ _ _ _ h'
  · intro l1 l2 r hl ht
    rcases split_snoc hl with ⟨-, rfl, -⟩ | ⟨l2', rfl, h'⟩
    · exact he.elim
    · obtain ⟨l3, rfl⟩ := h.cprompt _ _ _ h' ht; exact ⟨l3 ++ [e], by simp⟩
  · intro l1 l2 c hl
    rcases split_snoc hl with ⟨-, rfl, -⟩ | ⟨l2', rfl, h'⟩
    · exact he.elim
    · exact h.cjust _ _ _ h'

theorem Good.fault {tol : Nat} {idOf : Nat → Nat} {l : List Ev} (h : Good tol idOf l) (r : Nat)
    (hr : tol < streak r (l ++ [.fault r]) → registered r l = false) : Good tol idOf (l ++ [.fault r]) := by
  constructor
  · intro l1 l2 r1 hl ht hr1
    rcases split_snoc hl with ⟨-, he, rfl⟩ | ⟨l2', rfl, h'⟩
    · cases he; rw [hr ht] at hr1; cases hr1
    · obtain ⟨l3, rfl⟩ := h.prompt _ _ _ h' ht hr1; exact ⟨l3 ++ [.fault r], by simp⟩
  · intro l1 l2 r' r1 hl
    rcases split_snoc hl with ⟨-, he, -⟩ | ⟨l2', rfl, h'⟩
    · cases he
    · exact h.just _ _ _ _ h'
  · intro l1 l2 r1 hl ht
    rcases split_snoc hl with ⟨-, he, -⟩ | ⟨l2', rfl, h'⟩
    · cases he
    · obtain ⟨l3, rfl⟩ := h.cprompt _ _ _ h' ht; exact ⟨l3 ++ [.fault r], by simp⟩
  · intro l1 l2 c hl
    rcases split_snoc hl with ⟨-, he, -⟩ | ⟨l2', rfl, h'⟩
    · cases he
    · exact h.cjust _ _ _ h'

theorem Good.faultRemoved {tol : Nat} {idOf : Nat → Nat} {l : List Ev} (h : Good tol idOf l) (r r' : Nat)
    (ht : tol < streak r (l ++ [.fault r])) (hi : idOf r' = idOf r) (hg : registered r' l = true)
    (he : registered r l = true → r' = r) : Good tol idOf (l ++ [.fault r] ++ [.removed r' (some r)]) := by
  constructor
  · intro l1 l2 r1 hl ht1 hr1
    rcases split_snoc hl with ⟨-, hx, rfl⟩ | ⟨l2', rfl, h'⟩
    · cases hx
    · rcases split_snoc h' with ⟨rfl, hx, rfl⟩ | ⟨l3', rfl, h''⟩
      · cases hx; rw [he hr1]; exact ⟨[], rfl⟩
      · obtain ⟨l3, rfl⟩ := h.prompt _ _ _ h'' ht1 hr1; exact ⟨_, rfl⟩
  · intro l1 l2 r1' r1 hl
    rcases split_snoc hl with ⟨-, hx, rfl⟩ | ⟨l2', rfl, h'⟩
    · cases hx; exact ⟨l, rfl, ht, hi, hg⟩
    · rcases split_snoc h' with ⟨-, hx, -⟩ | ⟨l3', rfl, h''⟩
      · cases hx
      · exact h.just _ _ _ _ h''
  · intro l1 l2 r1 hl ht1
    rcases split_snoc hl with ⟨-, hx, rfl⟩ | ⟨l2', rfl, h'⟩
    · cases hx
    · rcases split_snoc h' with ⟨-, hx, -⟩ | ⟨l3', rfl, h''⟩
      · cases hx
      · obtain ⟨l3, rfl⟩ := h.cprompt _ _ _ h'' ht1; exact ⟨_, rfl⟩
  · intro l1 l2 c hl
    rcases split_snoc hl with ⟨-, hx, rfl⟩ | ⟨l2', rfl, h'⟩
    · cases hx
    · rcases split_snoc h' with ⟨-, hx, -⟩ | ⟨l3', rfl, h''⟩
      · cases hx
      · exact h.cjust _ _ _ h''

theorem Good.connFault {tol : Nat} {idOf : Nat → Nat} {l : List Ev} (h : Good tol idOf l) (c : Nat)
    (hc : connStreak c (l ++ [.connFault c]) ≤ tol) : Good tol idOf (l ++ [.connFault c]) := by
  constructor
  · intro l1 l2 r1 hl ht hr1
    rcases split_snoc hl with ⟨-, he, rfl⟩ | ⟨l2', rfl, h'⟩
    · cases he
    · obtain ⟨l3, rfl⟩ := h.prompt _ _ _ h' ht hr1; exact ⟨_, rfl⟩
  · intro l1 l2 r' r1 hl
    rcases split_snoc hl with ⟨-, he, -⟩ | ⟨l2', rfl, h'⟩
    · cases he
    · exact h.just _ _ _ _ h'
  · intro l1 l2 r1 hl ht
    rcases split_snoc hl with ⟨-, he, rfl⟩ | ⟨l2', rfl, h'⟩
    · cases he; omega
    · obtain ⟨l3, rfl⟩ := h.cprompt _ _ _ h' ht; exact ⟨_, rfl⟩
  · intro l1 l2 c hl
    rcases split_snoc hl with ⟨-, he, -⟩ | ⟨l2', rfl, h'⟩
    · cases he
    · exact h.cjust _ _ _ h'

theorem Good.connReset {tol : Nat} {idOf : Nat → Nat} {l : List Ev} (h : Good tol idOf l) (c : Nat)
    (hc : tol < connStreak c (l ++ [.connFault c])) : Good tol idOf (l ++ [.connFault c] ++ [.connReset c]) := by
  constructor
  · intro l1 l2 r1 hl ht1 hr1
    rcases split_snoc hl with ⟨-, hx, rfl⟩ | ⟨l2', rfl, h'⟩
    · cases hx
    · rcases split_snoc h' with ⟨-, hx, rfl⟩ | ⟨l3', rfl, h''⟩
      · cases hx
      · obtain ⟨l3, rfl⟩ := h.prompt _ _ _ h'' ht1 hr1; exact ⟨_, rfl⟩
  · intro l1 l2 r1' r1 hl
    rcases split_snoc hl with ⟨-, hx, rfl⟩ | ⟨l2', rfl, h'⟩
    · cases hx
    · rcases split_snoc h' with ⟨-, hx, -⟩ | ⟨l3', rfl, h''⟩
      · cases hx
      · exact h.just _ _ _ _ h''
  · intro l1 l2 r1 hl ht1
    rcases split_snoc hl with ⟨-, hx, rfl⟩ | ⟨l2', rfl, h'⟩
    · cases hx
    · rcases split_snoc h' with ⟨rfl, hx, -⟩ | ⟨l3', rfl, h''⟩
      · cases hx; exact ⟨[], rfl⟩
      · obtain ⟨l3, rfl⟩ := h.cprompt _ _ _ h'' ht1; exact ⟨_, rfl⟩
  · intro l1 l2 c1 hl
    rcases split_snoc hl with ⟨-, hx, rfl⟩ | ⟨l2', rfl, h'⟩
    · cases hx; exact ⟨l, rfl, hc⟩
    · rcases split_snoc h' with ⟨-, hx, -⟩ | ⟨l3', rfl, h''⟩
      · cases hx
      · exact h.cjust _ _ _ h''

/-! The counters agree with the history. -/

theorem streak_snoc (r : Nat) (l : List Ev) (e : Ev) : streak r (l ++ [e]) =
    if e = .fault r then streak r l + 1 else if e = .ok r ∨ e = .added r then 0 else streak r l := by
  unfold streak; rw [List.foldl_append]; rfl

theorem connStreak_snoc (c : Nat) (l : List Ev) (e : Ev) : connStreak c (l ++ [e]) =
    if e = .connFault c then connStreak c l + 1 else if e = .connOk c ∨ e = .connReset c ∨ e = .connClosed c then 0 else connStreak c l := by
  unfold connStreak; rw [List.foldl_append]; rfl

theorem registered_snoc (r : Nat) (l : List Ev) (e : Ev) : registered r (l ++ [e]) = match e with
    | .added r' => if r' = r then true else registered r l
    | .removed r' _ => if r' = r then false else registered r l
    | _ => registered r l := by
  unfold registered; rw [List.foldl_append]; rfl

theorem outstanding_snoc (r : Nat) (l : List Ev) (e : Ev) : outstanding r (l ++ [e]) = match e with
    | .pinged r' q => if r' = r then some q else outstanding r l
    | .ponged r' q => if r' = r ∧ outstanding r l = some q then none else outstanding r l
    | .added r' => if r' = r then none else outstanding r l
    | _ => outstanding r l := by
  unfold outstanding; rw [List.foldl_append]; rfl

theorem pings_snoc (l : List Ev) (e : Ev) : pings (l ++ [e]) = match e with
    | .pinged _ q => pings l ++ [q]
    | _ => pings l := by
  unfold pings; rw [List.filterMap_append]; cases e <;> simp

structure Inv (s : S) : Prop where
  good : Good s.tol s.idOf s.log
  fault : ∀ r, (s.ep r).fault = streak r s.log
  reg : ∀ r, registered r s.log = true ↔ s.reg (s.idOf r) = some r
  own : s.reg s.own = none
  conn : ∀ c, s.connFault c = connStreak c s.log
  hold : ∀ id r, s.reg id = some r → s.idOf r = id

/-- Changes of nothing but the sequence number and the ping data. -/
theorem Inv.same {s s' : S} (h : Inv s) (h1 : s'.tol = s.tol) (h2 : s'.idOf = s.idOf) (h3 : s'.log = s.log)
    (h4 : ∀ r, (s'.ep r).fault = (s.ep r).fault) (h5 : s'.reg = s.reg) (h6 : s'.own = s.own)
    (h7 : s'.connFault = s.connFault) : Inv s' := by
  obtain ⟨a, b, c, d, e, f⟩ := h
  refine ⟨?_, ?_, ?_, ?_, ?_, ?_⟩
  · rw [h1, h2, h3]; exact a
  · intro r; rw [h3, h4]; exact b r
  · rw [h2, h3, h5]; exact c
  · rw [h5, h6]; exact d
  · rw [h3, h7]; exact e
  · rw [h2, h5]; exact f

/-- Events that touch no counter and no registration. -/
def Idle : Ev → Prop
  | .pinged _ _ => True
  | .ponged _ _ => True
  | .stale _ => True
  | _ => False

theorem Inv.idle {s : S} (h : Inv s) (e : Ev) (he : Idle e) : Inv (s.emit e) := by
  obtain ⟨a, b, c, d, f, g⟩ := h
  refine ⟨a.plain e (by cases e <;> first | exact he.elim | trivial), ?_, ?_, d, ?_, g⟩
  · intro r
    show _ = streak r (s.log ++ [e])
    rw [streak_snoc, show ((s.emit e).ep r).fault = _ from b r]
    cases e <;> first | exact he.elim | simp
  · intro r
    show registered r (s.log ++ [e]) = true ↔ _
    rw [registered_snoc]
    refine Iff.trans ?_ (c r)
    cases e <;> first | exact he.elim | exact Iff.rfl
  · intro x
    show _ = connStreak x (s.log ++ [e])
    rw [connStreak_snoc, show (s.emit e).connFault x = _ from f x]
    cases e <;> first | exact he.elim | simp

theorem Inv.removed {s : S} (h : Inv s) (id : Nat) : Inv (removeEndpoint s id none) := by
  obtain ⟨a, b, c, d, f, g⟩ := h
  unfold removeEndpoint
  split
  · exact ⟨a, b, c, d, f, g⟩
  · rename_i hid
    split
    · exact ⟨a, b, c, d, f, g⟩
    · rename_i r0 hr0
      refine ⟨a.plain _ trivial, ?_, ?_, ?_, ?_, ?_⟩
      · intro r
        show _ = streak r (s.log ++ [_])
        rw [streak_snoc]; simp; exact b r
      · intro r
        show registered r (s.log ++ [_]) = true ↔ upd s.reg id none (s.idOf r) = some r
        rw [registered_snoc]
        unfold upd
        have hi := g id r0 hr0
        by_cases hrr : r0 = r
        · subst hrr; simp [hi]
        · simp only [hrr, if_false]
          rw [c r]
          split
          · rename_i hx; rw [hx, hr0]; simp [hrr]
          · exact Iff.rfl
      · show upd s.reg id none s.own = none
        unfold upd; split
        · rfl
        · exact d
      · intro x
        show _ = connStreak x (s.log ++ [_])
        rw [connStreak_snoc]; simp; exact f x
      · intro id' r hr
        change upd s.reg id none id' = some r at hr
        unfold upd at hr
        split at hr
        · cases hr
        · exact g _ _ hr

theorem Inv.addFault {s : S} (h : Inv s) (r : Nat) : Inv (addFault s r).1 := by
  obtain ⟨a, b, c, d, f, g⟩ := h
  have hk : streak r (s.log ++ [.fault r]) = (s.ep r).fault + 1 := by rw [streak_snoc, b r]; simp
  have hfault : ∀ (x : Nat), (upd s.ep r { s.ep r with fault := (s.ep r).fault + 1 } x).fault = streak x (s.log ++ [.fault r]) := by
    intro x
    unfold upd
    split
    · rename_i hx; rw [hx, hk]
    · rename_i hx
      rw [streak_snoc]; simp [b x, Ne.symm hx]
  have hreg : ∀ x, registered x (s.log ++ [.fault r]) = true ↔ s.reg (s.idOf x) = some x := by
    intro x; rw [registered_snoc]; exact c x
  have hconn : ∀ x, s.connFault x = connStreak x (s.log ++ [.fault r]) := by
    intro x; rw [connStreak_snoc]; simp; exact f x
  -- no removal
  have base : (s.tol < streak r (s.log ++ [.fault r]) → registered r s.log = false) →
      Inv ({ s with ep := upd s.ep r { s.ep r with fault := (s.ep r).fault + 1 } }.emit (.fault r)) :=
    fun hn => ⟨a.fault r hn, hfault, hreg, d, hconn, g⟩
  unfold Peer.addFault
  simp only
  split
  · rename_i ht
    change (s.ep r).fault + 1 > s.tol at ht
    unfold removeEndpoint
    simp only
    split
    · rename_i hown
      change s.idOf r = s.own at hown
      refine base fun _ => ?_
      have := c r
      rw [hown, d] at this
      simpa using this
    · split
      · rename_i hnone
        change s.reg (s.idOf r) = none at hnone
        refine base fun _ => ?_
        have := c r
        rw [hnone] at this
        simpa using this
      · rename_i r' hr'
        change s.reg (s.idOf r) = some r' at hr'
        have hi : s.idOf r' = s.idOf r := g _ _ hr'
        refine ⟨a.faultRemoved r r' (by rw [hk]; exact ht) hi ((c r').mpr (by rw [hi]; exact hr')) ?_, ?_, ?_, ?_, ?_, ?_⟩
        · intro hreg'
          have := (c r).mp hreg'
          rw [hr'] at this
          simpa using this
        · intro x
          show (upd s.ep r _ x).fault = streak x (s.log ++ [.fault r] ++ [_])
          rw [streak_snoc]; simp; exact hfault x
        · intro x
          show registered x (s.log ++ [.fault r] ++ [_]) = true ↔ upd s.reg (s.idOf r) none (s.idOf x) = some x
          rw [registered_snoc]
          unfold upd
          by_cases hx : r' = x
          · subst hx; simp [hi]
          · simp only [hx, if_false]
            rw [hreg x]
            split
            · rename_i hy; rw [hy, hr']; simp [hx]
            · exact Iff.rfl
        · show upd s.reg (s.idOf r) none s.own = none
          unfold upd; split
          · rfl
          · exact d
        · intro x
          show s.connFault x = connStreak x (s.log ++ [.fault r] ++ [_])
          rw [connStreak_snoc]; simp; exact hconn x
        · intro id' x hx
          change upd s.reg (s.idOf r) none id' = some x at hx
          unfold upd at hx
          split at hx
          · cases hx
          · exact g _ _ hx
  · rename_i ht
    change ¬ (s.ep r).fault + 1 > s.tol at ht
    exact base fun hx => by rw [hk] at hx; omega

theorem Inv.addConnFault {s : S} (h : Inv s) (c0 : Nat) : Inv (addConnFault s c0) := by
  obtain ⟨a, b, c, d, f, g⟩ := h
  have hk : connStreak c0 (s.log ++ [.connFault c0]) = s.connFault c0 + 1 := by rw [connStreak_snoc, f c0]; simp
  have hfault : ∀ x, (s.ep x).fault = streak x (s.log ++ [.connFault c0]) := by
    intro x; rw [streak_snoc]; simp; exact b x
  have hreg : ∀ x, registered x (s.log ++ [.connFault c0]) = true ↔ s.reg (s.idOf x) = some x := by
    intro x; rw [registered_snoc]; exact c x
  have hconn : ∀ x, upd s.connFault c0 (s.connFault c0 + 1) x = connStreak x (s.log ++ [.connFault c0]) := by
    intro x
    unfold upd
    split
    · rename_i hx; rw [hx, hk]
    · rename_i hx; rw [connStreak_snoc]; simp [f x, Ne.symm hx]
  unfold Peer.addConnFault
  simp only
  split
  · rename_i ht
    change s.connFault c0 + 1 > s.tol at ht
    refine ⟨a.connReset c0 (by rw [hk]; exact ht), ?_, ?_, d, ?_, g⟩
    · intro x
      show (s.ep x).fault = streak x (s.log ++ [.connFault c0] ++ [_])
      rw [streak_snoc]; simp; exact hfault x
    · intro x
      show registered x (s.log ++ [.connFault c0] ++ [_]) = true ↔ _
      rw [registered_snoc]; exact hreg x
    · intro x
      show upd (upd s.connFault c0 (s.connFault c0 + 1)) c0 0 x = connStreak x (s.log ++ [.connFault c0] ++ [_])
      rw [connStreak_snoc, ← hconn x]
      unfold upd
      by_cases hx : x = c0
      · subst hx; simp
      · simp [hx, Ne.symm hx]
  · rename_i ht
    change ¬ s.connFault c0 + 1 > s.tol at ht
    exact ⟨a.connFault c0 (by rw [hk]; omega), hfault, hreg, d, hconn, g⟩

theorem Inv.countGood {s : S} (h : Inv s) (c0 : Nat) (b0 : Option Nat) : Inv (countGood s c0 b0) := by
  have key : ∀ s : S, Inv s → Inv ({ s with connFault := upd s.connFault c0 0 }.emit (.connOk c0)) := by
    intro s ⟨a, b, c, d, f, g⟩
    refine ⟨a.plain _ trivial, ?_, ?_, d, ?_, g⟩
    · intro x
      show _ = streak x (s.log ++ [_])
      rw [streak_snoc]; simp; exact b x
    · intro x
      show registered x (s.log ++ [_]) = true ↔ _
      rw [registered_snoc]; exact c x
    · intro x
      show upd s.connFault c0 0 x = connStreak x (s.log ++ [_])
      rw [connStreak_snoc]
      unfold upd
      by_cases hx : x = c0
      · subst hx; simp
      · simp [hx, Ne.symm hx]; exact f x
  unfold Peer.countGood
  refine key _ ?_
  cases b0 with
  | none => exact h
  | some r =>
    obtain ⟨a, b, c, d, f, g⟩ := h
    refine ⟨a.plain _ trivial, ?_, ?_, d, ?_, g⟩
    · intro x
      show (upd s.ep r _ x).fault = streak x (s.log ++ [_])
      rw [streak_snoc]
      unfold upd
      by_cases hx : x = r
      · subst hx; simp
      · simp [hx, Ne.symm hx]; exact b x
    · intro x
      show registered x (s.log ++ [_]) = true ↔ _
      rw [registered_snoc]; exact c x
    · intro x
      show _ = connStreak x (s.log ++ [_])
      rw [connStreak_snoc]; simp; exact f x

theorem Inv.onPong {s : S} (h : Inv s) (b : Option Nat) (seq : Nat) (time ms sec : Int) : Inv (onPong s b seq time ms sec) := by
  unfold Peer.onPong
  cases b with
  | none => exact h
  | some r =>
    simp only
    split
    · refine (h.idle (.ponged r seq) trivial).same rfl rfl rfl ?_ rfl rfl rfl
      intro x
      show (upd (s.emit (.ponged r seq)).ep r _ x).fault = _
      unfold upd; split
      · rename_i hx; rw [hx]
      · rfl
    · exact h.idle _ trivial

theorem Inv.setPing {s : S} (h : Inv s) (r : Nat) (gone : Bool) : Inv (setPing s r gone) := by
  have h1 : Inv ({ s with ep := upd s.ep r { s.ep r with ping := s.seq } }.emit (.pinged r s.seq)) := by
    refine (h.idle (.pinged r s.seq) trivial).same rfl rfl rfl ?_ rfl rfl rfl
    intro x
    show (upd s.ep r _ x).fault = _
    unfold upd; split
    · rename_i hx; rw [hx]; rfl
    · rfl
  unfold Peer.setPing
  simp only
  split
  · exact h1.idle _ trivial
  · exact h1

theorem Inv.sendPing {s : S} (h : Inv s) (r : Nat) (ctrl sent data : Bool) : Inv (sendPing s r ctrl sent data) := by
  have hs : Inv { s with seq := allocSeq s.seq } := h.same rfl rfl rfl (fun _ => rfl) rfl rfl rfl
  unfold Peer.sendPing
  simp only
  split
  · exact h
  · split
    · exact h.addFault r
    · split
      · exact hs.addFault r
      · split
        · exact (hs.addFault r).setPing r _
        · exact hs.setPing r _

theorem Inv.ping {s : S} (h : Inv s) (r : Nat) (ctrl sent data : Bool) : Inv (ping s r ctrl sent data) := by
  unfold Peer.ping
  simp only
  split
  · split
    · exact h.addFault r
    · exact (h.addFault r).sendPing r ctrl sent data
  · exact h.sendPing r ctrl sent data

theorem Inv.closeConn {s : S} (h : Inv s) (c0 : Nat) : Inv (closeConn s c0) := by
  obtain ⟨a, b, c, d, f, g⟩ := h
  refine ⟨a.plain _ trivial, ?_, ?_, d, ?_, g⟩
  · intro x
    show _ = streak x (s.log ++ [_])
    rw [streak_snoc]; simp; exact b x
  · intro x
    show registered x (s.log ++ [_]) = true ↔ _
    rw [registered_snoc]; exact c x
  · intro x
    show upd s.connFault c0 0 x = connStreak x (s.log ++ [_])
    rw [connStreak_snoc]
    unfold upd
    by_cases hx : x = c0
    · subst hx; simp
    · simp [hx, Ne.symm hx]; exact f x

theorem Inv.step {s : S} (h : Inv s) (op : Op) : Inv (step s op) := by
  cases op with
  | unregister id => exact h.removed id
  | alloc => exact h.same rfl rfl rfl (fun _ => rfl) rfl rfl rfl
  | ping r ctrl sent data => exact h.ping r ctrl sent data
  | recv c b ms sec m =>
    cases m with
    | good => exact h.countGood c b
    | pong q t => exact (h.onPong b q t ms sec).countGood c b
    | bad held =>
      show Inv (countBad s c b held)
      unfold countBad
      cases b with
      | none => exact h.addConnFault c
      | some r =>
        refine Inv.addConnFault ?_ c
        dsimp only
        split
        · exact (h.addFault r).closeConn c
        · exact h.addFault r
  | close c => exact h.closeConn c
  | register r =>
    show Inv (if _ then _ else _)
    split
    · rename_i hc
      obtain ⟨hown, hnone⟩ := hc
      obtain ⟨a, b, c, d, f, g⟩ := h
      refine ⟨a.plain _ trivial, ?_, ?_, ?_, ?_, ?_⟩
      · intro x
        show (upd s.ep r _ x).fault = streak x (s.log ++ [_])
        rw [streak_snoc]
        unfold upd
        by_cases hx : x = r
        · subst hx; simp
        · simp [hx, Ne.symm hx]; exact b x
      · intro x
        show registered x (s.log ++ [_]) = true ↔ upd s.reg (s.idOf r) (some r) (s.idOf x) = some x
        rw [registered_snoc]
        unfold upd
        by_cases hx : r = x
        · subst hx; simp
        · simp only [hx, if_false]
          rw [c x]
          split
          · rename_i hy; rw [hy, hnone]; simp [hx]
          · exact Iff.rfl
      · show upd s.reg (s.idOf r) (some r) s.own = none
        unfold upd
        split
        · rename_i hx; exact absurd hx.symm hown
        · exact d
      · intro x
        show _ = connStreak x (s.log ++ [_])
        rw [connStreak_snoc]; simp; exact f x
      · intro id x hx
        change upd s.reg (s.idOf r) (some r) id = some x at hx
        unfold upd at hx
        split at hx
        · rename_i hy; cases hx; exact hy.symm
        · exact g _ _ hx
    · exact h

theorem Inv.run {s : S} (h : Inv s) (ops : List Op) : Inv (run s ops) := by
  induction ops generalizing s with
  | nil => exact h
  | cons op ops ih => exact ih (h.step op)

theorem inv_init (tol own : Nat) (idOf : Nat → Nat) (seq : Nat) : Inv (init tol own idOf seq) :=
  ⟨Good.nil _ _, fun _ => rfl, fun _ => by simp [registered, init], rfl, fun _ => rfl, fun _ _ h => by cases h⟩

theorem step_tol (s : S) (op : Op) : (step s op).tol = s.tol ∧ (step s op).idOf = s.idOf ∧ (step s op).own = s.own := by
  have rm : ∀ s id c, (removeEndpoint s id c).tol = s.tol ∧ (removeEndpoint s id c).idOf = s.idOf ∧ (removeEndpoint s id c).own = s.own := by
    intro s id c; unfold removeEndpoint; split
    · exact ⟨rfl, rfl, rfl⟩
    · split <;> exact ⟨rfl, rfl, rfl⟩
  have af : ∀ s r, (addFault s r).1.tol = s.tol ∧ (addFault s r).1.idOf = s.idOf ∧ (addFault s r).1.own = s.own := by
    intro s r; unfold addFault; simp only; split
    · exact rm _ _ _
    · exact ⟨rfl, rfl, rfl⟩
  have cf : ∀ s r, (addConnFault s r).tol = s.tol ∧ (addConnFault s r).idOf = s.idOf ∧ (addConnFault s r).own = s.own := by
    intro s r; unfold addConnFault; simp only; split <;> exact ⟨rfl, rfl, rfl⟩
  have cg : ∀ s c b, (countGood s c b).tol = s.tol ∧ (countGood s c b).idOf = s.idOf ∧ (countGood s c b).own = s.own := by
    intro s c b; unfold countGood; cases b <;> exact ⟨rfl, rfl, rfl⟩
  have op' : ∀ s b q t ms sec, (onPong s b q t ms sec).tol = s.tol ∧ (onPong s b q t ms sec).idOf = s.idOf ∧ (onPong s b q t ms sec).own = s.own := by
    intro s b q t ms sec; unfold onPong; cases b
    · exact ⟨rfl, rfl, rfl⟩
    · simp only; split <;> exact ⟨rfl, rfl, rfl⟩
  have stp : ∀ s r g, (setPing s r g).tol = s.tol ∧ (setPing s r g).idOf = s.idOf ∧ (setPing s r g).own = s.own := by
    intro s r g; unfold setPing; simp only; split <;> exact ⟨rfl, rfl, rfl⟩
  have sp : ∀ s r a b c, (sendPing s r a b c).tol = s.tol ∧ (sendPing s r a b c).idOf = s.idOf ∧ (sendPing s r a b c).own = s.own := by
    intro s r a b c; unfold sendPing; simp only
    split
    · exact ⟨rfl, rfl, rfl⟩
    · split
      · exact af _ _
      · split
        · exact af _ _
        · split
          · have h1 := stp (addFault { s with seq := allocSeq s.seq } r).1 r (addFault { s with seq := allocSeq s.seq } r).2
            have h2 := af { s with seq := allocSeq s.seq } r
            exact ⟨h1.1.trans h2.1, h1.2.1.trans h2.2.1, h1.2.2.trans h2.2.2⟩
          · exact stp _ _ _
  cases op with
  | unregister id => exact rm _ _ _
  | alloc => exact ⟨rfl, rfl, rfl⟩
  | register r => show (if _ then _ else _ : S).tol = _ ∧ (if _ then _ else _ : S).idOf = _ ∧ (if _ then _ else _ : S).own = _
                  split <;> exact ⟨rfl, rfl, rfl⟩
  | ping r a b c =>
    show (Peer.ping s r a b c).tol = _ ∧ (Peer.ping s r a b c).idOf = _ ∧ (Peer.ping s r a b c).own = _
    unfold Peer.ping
    simp only
    split
    · have h2 := af s r
      split
      · exact h2
      · have h1 := sp (addFault s r).1 r a b c
        exact ⟨h1.1.trans h2.1, h1.2.1.trans h2.2.1, h1.2.2.trans h2.2.2⟩
    · exact sp _ _ _ _ _
  | recv c b ms sec m =>
    cases m with
    | good => exact cg _ _ _
    | pong q t =>
      have h1 := cg (onPong s b q t ms sec) c b
      have h2 := op' s b q t ms sec
      exact ⟨h1.1.trans h2.1, h1.2.1.trans h2.2.1, h1.2.2.trans h2.2.2⟩
    | bad held =>
      show (countBad s c b held).tol = _ ∧ (countBad s c b held).idOf = _ ∧ (countBad s c b held).own = _
      unfold countBad
      cases b with
      | none => exact cf _ _
      | some r =>
        have h2 := af s r
        dsimp only
        split
        · have h1 := cf (closeConn (addFault s r).1 c) c
          exact ⟨h1.1.trans h2.1, h1.2.1.trans h2.2.1, h1.2.2.trans h2.2.2⟩
        · have h1 := cf (addFault s r).1 c
          exact ⟨h1.1.trans h2.1, h1.2.1.trans h2.2.1, h1.2.2.trans h2.2.2⟩
  | close c => exact ⟨rfl, rfl, rfl⟩

theorem run_tol (s : S) (ops : List Op) : (run s ops).tol = s.tol ∧ (run s ops).idOf = s.idOf ∧ (run s ops).own = s.own := by
  induction ops generalizing s with
  | nil => exact ⟨rfl, rfl, rfl⟩
  | cons op ops ih =>
    have h1 := ih (s := step s op)
    have h2 := step_tol s op
    exact ⟨h1.1.trans h2.1, h1.2.1.trans h2.2.1, h1.2.2.trans h2.2.2⟩

/-- C41 for endpoints: in every history of registrations, removals, messages, errors and pings, a fault of a registered
endpoint removes it, at once, exactly if it is the first one beyond the tolerance in a row; and every removal because
of faults is caused by such a fault of an endpoint with the same id.  Partial: the code removes by id, so that a fault of
an object that is no longer registered removes its successor (`C41_successor_false`). -/
theorem C41_threshold_partial (tol own : Nat) (idOf : Nat → Nat) (seq : Nat) (ops : List Op) :
    let log := (run (init tol own idOf seq) ops).log
    (∀ l1 l2 r, log = l1 ++ .fault r :: l2 → registered r l1 = true →
      (tol < streak r (l1 ++ [.fault r]) ↔ ∃ l3, l2 = .removed r (some r) :: l3)) ∧
    (∀ l1 l2 r' r, log = l1 ++ .removed r' (some r) :: l2 →
      ∃ l0, l1 = l0 ++ [.fault r] ∧ tol < streak r l1 ∧ idOf r' = idOf r ∧ registered r' l0 = true) := by
  intro log
  have h := ((inv_init tol own idOf seq).run ops).good
  rw [(run_tol _ _).1, (run_tol _ _).2.1] at h
  change Good tol idOf log at h
  refine ⟨fun l1 l2 r hl hr => ⟨fun ht => h.prompt l1 l2 r hl ht hr, ?_⟩, h.just⟩
  rintro ⟨l3, rfl⟩
  obtain ⟨l0, h0, ht, -, -⟩ := h.just (l1 ++ [.fault r]) l3 r r (by simpa using hl)
  exact ht

/-- C41 for connections: a connection is reset because of faults exactly when it has more faults in a row than tolerated. -/
theorem C41_connection (tol own : Nat) (idOf : Nat → Nat) (seq : Nat) (ops : List Op) :
    let log := (run (init tol own idOf seq) ops).log
    (∀ l1 l2 c, log = l1 ++ .connFault c :: l2 →
      (tol < connStreak c (l1 ++ [.connFault c]) ↔ ∃ l3, l2 = .connReset c :: l3)) ∧
    (∀ l1 l2 c, log = l1 ++ .connReset c :: l2 → ∃ l0, l1 = l0 ++ [.connFault c]) := by
  intro log
  have h := ((inv_init tol own idOf seq).run ops).good
  rw [(run_tol _ _).1, (run_tol _ _).2.1] at h
  change Good tol idOf log at h
  refine ⟨fun l1 l2 c hl => ⟨fun ht => h.cprompt l1 l2 c hl ht, ?_⟩, fun l1 l2 c hl => ?_⟩
  · rintro ⟨l3, rfl⟩
    obtain ⟨l0, h0, ht⟩ := h.cjust (l1 ++ [.connFault c]) l3 c (by simpa using hl)
    exact ht
  · obtain ⟨l0, h0, -⟩ := h.cjust l1 l2 c hl
    exact ⟨l0, h0⟩

theorem snocInd {P : List Ev → Prop} (nil : P []) (snoc : ∀ l e, P l → P (l ++ [e])) (l : List Ev) : P l := by
  rw [← List.reverse_reverse l]
  induction l.reverse with
  | nil => exact nil
  | cons e l ih => rw [List.reverse_cons]; exact snoc _ e ih

/-- C41, the number of faults in a row never exceeds the tolerance for a registered endpoint. -/
theorem C41_registered (tol own : Nat) (idOf : Nat → Nat) (seq : Nat) (ops : List Op) (r : Nat)
    (hr : registered r (run (init tol own idOf seq) ops).log = true) :
    streak r (run (init tol own idOf seq) ops).log ≤ tol := by
  have h := ((inv_init tol own idOf seq).run ops).good
  rw [(run_tol _ _).1, (run_tol _ _).2.1] at h
  change Good tol idOf _ at h
  generalize (run (init tol own idOf seq) ops).log = log at h hr
  -- every prefix of a good history is good except that it may end with a fault
  suffices H : ∀ l1 l2, log = l1 ++ l2 → registered r l1 = true →
      streak r l1 ≤ tol ∨ ∃ l3, l2 = .removed r (some r) :: l3 by
    rcases H log [] (by simp) hr with h | ⟨_, h⟩
    · exact h
    · cases h
  intro l1
  induction l1 using snocInd with
  | nil => intro _ _ h; cases h
  | snoc l e ih =>
    intro l2 hl hreg
    rw [List.append_assoc] at hl
    by_cases he : e = .fault r
    · subst he
      rw [registered_snoc] at hreg
      by_cases ht : tol < streak r (l ++ [.fault r])
      · exact Or.inr (h.prompt l l2 r hl ht hreg)
      · exact Or.inl (by omega)
    · left
      rw [streak_snoc, if_neg he]
      split
      · omega
      · rename_i hne
        have hreg' : registered r l = true := by
          rw [registered_snoc] at hreg
          cases e <;> simp_all
        rcases ih _ hl hreg' with h1 | ⟨l3, h1⟩
        · exact h1
        · cases h1
          rw [registered_snoc] at hreg
          simp at hreg

/-- C41 is false as stated when an endpoint object outlives its registration (the application holds a pointer): a fault of
the old object removes its healthy successor. -/
theorem C41_successor_false : ∃ ops, ∃ l1 l2,
    (run (init 1 7 (fun _ => 5) 0) ops).log = l1 ++ .removed 2 (some 1) :: l2 ∧ streak 2 l1 = 0 :=
  ⟨[.register 1, .recv 10 (some 1) 0 0 (.bad false), .unregister 5, .register 2, .recv 20 (some 2) 0 0 .good,
     .recv 10 (some 1) 0 0 (.bad true)],
   [.added 1, .fault 1, .connFault 10, .removed 1 none, .added 2, .ok 2, .connOk 20, .fault 1],
   [.connFault 10, .connReset 10], by decide, by decide⟩

/-- In `ping_endpoint` the endpoint may be removed just before its ping number is written
(`src/atbus_node.cpp:1818-1822`): use after free if nobody else holds it. -/
theorem C41_write_after_removal_false : ∃ ops, Ev.stale 1 ∈ (run (init 2 7 (fun _ => 5) 0) ops).log :=
  ⟨[.register 1, .ping 1 true true false, .ping 1 true true false], by decide⟩

/-- Three faults in a row are too many, a success in between starts a new count. -/
example : (run (init 2 7 (fun r => r) 0) [.register 1, .recv 10 (some 1) 0 0 (.bad false), .recv 10 (some 1) 0 0 (.bad false),
      .recv 10 (some 1) 0 0 .good, .recv 11 (some 1) 0 0 (.bad false), .recv 12 (some 1) 0 0 (.bad false), .recv 13 (some 1) 0 0 (.bad false)]).log =
    [.added 1, .fault 1, .connFault 10, .fault 1, .connFault 10, .ok 1, .connOk 10, .fault 1, .connFault 11, .fault 1,
      .connFault 12, .fault 1, .removed 1 (some 1), .connClosed 13, .connFault 13] := by decide

/-! ### C45 -/

/-- The stored ping number is the outstanding ping. -/
structure PInv (c0 : Nat) (s : S) (n : Nat) : Prop where
  ping : ∀ r, (s.ep r).ping = (outstanding r s.log).getD 0
  pos : ∀ r q, outstanding r s.log = some q → q ≠ 0
  seq : s.seq = seqAfter c0 n
  seqs : ∃ is : List Nat, pings s.log = is.map (fun i => seqAfter c0 (i + 1)) ∧ is.Pairwise (· < ·) ∧ ∀ i ∈ is, i < n

/-- Everything but pings, pongs and additions. -/
def Mute : Ev → Prop
  | .pinged _ _ => False
  | .ponged _ _ => False
  | .added _ => False
  | _ => True

theorem outstanding_mute (r : Nat) (l : List Ev) (e : Ev) (h : Mute e) : outstanding r (l ++ [e]) = outstanding r l := by
  rw [outstanding_snoc]; cases e <;> first | exact h.elim | rfl

theorem pings_mute (l : List Ev) (e : Ev) (h : Mute e) : pings (l ++ [e]) = pings l := by
  rw [pings_snoc]; cases e <;> first | exact h.elim | rfl

/-- `s'` is `s` with mute events and changed fault counters. -/
structure Like (s s' : S) : Prop where
  out : ∀ r, outstanding r s'.log = outstanding r s.log
  pings : pings s'.log = pings s.log
  ping : ∀ r, (s'.ep r).ping = (s.ep r).ping
  delay : ∀ r, (s'.ep r).delay = (s.ep r).delay ∧ (s'.ep r).lastPong = (s.ep r).lastPong
  seq : s'.seq = s.seq

theorem Like.refl (s : S) : Like s s := ⟨fun _ => rfl, rfl, fun _ => rfl, fun _ => ⟨rfl, rfl⟩, rfl⟩

theorem Like.trans {a b c : S} (h : Like a b) (k : Like b c) : Like a c :=
  ⟨fun r => (k.out r).trans (h.out r), k.pings.trans h.pings, fun r => (k.ping r).trans (h.ping r),
   fun r => ⟨(k.delay r).1.trans (h.delay r).1, (k.delay r).2.trans (h.delay r).2⟩, k.seq.trans h.seq⟩

theorem Like.emit (s : S) (e : Ev) (h : Mute e) : Like s (s.emit e) :=
  ⟨fun r => outstanding_mute r _ e h, pings_mute _ e h, fun _ => rfl, fun _ => ⟨rfl, rfl⟩, rfl⟩

theorem Like.fault (s : S) (r k : Nat) : Like s { s with ep := upd s.ep r { s.ep r with fault := k } } := by
  refine ⟨fun _ => rfl, rfl, fun x => ?_, fun x => ?_, rfl⟩
  · show (upd s.ep r _ x).ping = _
    unfold upd; split
    · rename_i h; rw [h]
    · rfl
  · show (upd s.ep r _ x).delay = _ ∧ (upd s.ep r _ x).lastPong = _
    unfold upd; split
    · rename_i h; rw [h]; exact ⟨rfl, rfl⟩
    · exact ⟨rfl, rfl⟩

theorem like_remove (s : S) (id : Nat) (c : Option Nat) : Like s (removeEndpoint s id c) := by
  unfold removeEndpoint; split
  · exact .refl s
  · split
    · exact .refl s
    · exact Like.trans (b := { s with reg := upd s.reg id none }) ⟨fun _ => rfl, rfl, fun _ => rfl, fun _ => ⟨rfl, rfl⟩, rfl⟩ (.emit _ _ trivial)

theorem like_addFault (s : S) (r : Nat) : Like s (addFault s r).1 := by
  unfold addFault; simp only; split
  · exact ((Like.fault s r _).trans (.emit _ (.fault r) trivial)).trans (like_remove _ _ _)
  · exact (Like.fault s r _).trans (.emit _ (.fault r) trivial)

theorem like_connFault (s : S) (c : Nat) : Like s (addConnFault s c) := by
  have h : ∀ (s : S) (f : Nat → Nat), Like s { s with connFault := f } := fun s f => ⟨fun _ => rfl, rfl, fun _ => rfl, fun _ => ⟨rfl, rfl⟩, rfl⟩
  unfold addConnFault; simp only; split
  · exact (((h s _).trans (.emit _ (.connFault c) trivial)).trans (h _ _)).trans (.emit _ (.connReset c) trivial)
  · exact (h s _).trans (.emit _ (.connFault c) trivial)

theorem like_countGood (s : S) (c : Nat) (b : Option Nat) : Like s (countGood s c b) := by
  have h : ∀ (s : S) (f : Nat → Nat), Like s { s with connFault := f } := fun s f => ⟨fun _ => rfl, rfl, fun _ => rfl, fun _ => ⟨rfl, rfl⟩, rfl⟩
  unfold countGood
  cases b with
  | none => exact (h s _).trans (.emit _ _ trivial)
  | some r => exact (((Like.fault s r 0).trans (.emit _ (.ok r) trivial)).trans (h _ _)).trans (.emit _ _ trivial)

theorem like_close (s : S) (c : Nat) : Like s (closeConn s c) :=
  Like.trans (b := { s with connFault := upd s.connFault c 0 }) ⟨fun _ => rfl, rfl, fun _ => rfl, fun _ => ⟨rfl, rfl⟩, rfl⟩
    (.emit _ _ trivial)

theorem like_countBad (s : S) (c : Nat) (b : Option Nat) (held : Bool) : Like s (countBad s c b held) := by
  unfold countBad
  cases b with
  | none => exact like_connFault _ _
  | some r =>
    refine Like.trans ?_ (like_connFault _ _)
    dsimp only
    split
    · exact (like_addFault s r).trans (like_close _ _)
    · exact like_addFault s r

theorem PInv.like {c0 : Nat} {s s' : S} {n : Nat} (h : PInv c0 s n) (k : Like s s') : PInv c0 s' n :=
  ⟨fun r => by rw [k.out, k.ping]; exact h.ping r, fun r q hq => by rw [k.out] at hq; exact h.pos r q hq,
   k.seq.trans h.seq, by rw [k.pings]; exact h.seqs⟩

theorem PInv.more {c0 : Nat} {s : S} {n : Nat} (h : PInv c0 s n) : PInv c0 { s with seq := allocSeq s.seq } (n + 1) := by
  refine ⟨h.ping, h.pos, ?_, ?_⟩
  · show allocSeq s.seq = allocSeq (seqAfter c0 n)
    rw [h.seq]
  · obtain ⟨is, h1, h2, h3⟩ := h.seqs
    exact ⟨is, h1, h2, fun i hi => Nat.lt_succ_of_lt (h3 i hi)⟩

theorem PInv.onPong {c0 : Nat} {s : S} {n : Nat} (h : PInv c0 s n) (b : Option Nat) (q : Nat) (t ms sec : Int) :
    PInv c0 (onPong s b q t ms sec) n := by
  unfold Peer.onPong
  cases b with
  | none => exact h
  | some r =>
    have hp : pings (s.log ++ [.ponged r q]) = pings s.log := pings_snoc _ _
    have hr := h.ping r
    have hpos := h.pos r
    simp only
    split
    · rename_i hq
      change q = (s.ep r).ping at hq
      refine ⟨fun x => ?_, fun x y hy => ?_, h.seq, by show ∃ is, pings (s.log ++ [.ponged r q]) = _ ∧ _; rw [hp]; exact h.seqs⟩
      · show (upd s.ep r _ x).ping = (outstanding x (s.log ++ [.ponged r q])).getD 0
        rw [outstanding_snoc]
        unfold upd
        by_cases hx : x = r
        · subst hx
          simp only [if_true, true_and]
          cases ho : outstanding x s.log with
          | none => simp
          | some y => rw [ho] at hr; simp at hr; simp [hq, hr]
        · simp only [hx, Ne.symm hx, if_false, false_and]
          exact h.ping x
      · change outstanding x (s.log ++ [.ponged r q]) = some y at hy
        rw [outstanding_snoc] at hy
        simp only at hy
        split at hy
        · cases hy
        · exact h.pos x y hy
    · rename_i hq
      change ¬ q = (s.ep r).ping at hq
      refine ⟨fun x => ?_, fun x y hy => ?_, h.seq, by show ∃ is, pings (s.log ++ [.ponged r q]) = _ ∧ _; rw [hp]; exact h.seqs⟩
      · show (s.ep x).ping = (outstanding x (s.log ++ [.ponged r q])).getD 0
        rw [outstanding_snoc]
        simp only
        split
        · rename_i hx
          obtain ⟨rfl, ho⟩ := hx
          rw [ho] at hr
          exact absurd hr.symm hq
        · exact h.ping x
      · change outstanding x (s.log ++ [.ponged r q]) = some y at hy
        rw [outstanding_snoc] at hy
        simp only at hy
        split at hy
        · cases hy
        · exact h.pos x y hy

theorem PInv.setPing {c0 : Nat} {s : S} {n : Nat} (hc : c0 < W64) (h : PInv c0 s (n + 1)) (hn : ∃ is : List Nat, pings s.log = is.map (fun i => seqAfter c0 (i + 1)) ∧
    is.Pairwise (· < ·) ∧ ∀ i ∈ is, i < n) (r : Nat) (gone : Bool) : PInv c0 (setPing s r gone) (n + 1) := by
  have h0 : s.seq ≠ 0 := by
    rw [h.seq]
    have := (seqAfter_eq c0 hc n).1
    omega
  have h1 : PInv c0 ({ s with ep := upd s.ep r { s.ep r with ping := s.seq } }.emit (.pinged r s.seq)) (n + 1) := by
    refine ⟨fun x => ?_, fun x y hy => ?_, h.seq, ?_⟩
    · show (upd s.ep r _ x).ping = (outstanding x (s.log ++ [.pinged r s.seq])).getD 0
      rw [outstanding_snoc]
      unfold upd
      by_cases hx : x = r
      · subst hx; simp
      · simp only [hx, Ne.symm hx, if_false]; exact h.ping x
    · change outstanding x (s.log ++ [.pinged r s.seq]) = some y at hy
      rw [outstanding_snoc] at hy
      simp only at hy
      split at hy
      · cases hy; exact h0
      · exact h.pos x y hy
    · obtain ⟨is, h2, h3, h4⟩ := hn
      refine ⟨is ++ [n], ?_, ?_, ?_⟩
      · show pings (s.log ++ [.pinged r s.seq]) = _
        rw [pings_snoc]
        simp [h2, h.seq]
      · rw [List.pairwise_append]
        exact ⟨h3, by simp, fun a ha b hb => by simp at hb; rw [hb]; exact h4 a ha⟩
      · intro i hi
        simp at hi
        rcases hi with hi | hi
        · have := h4 i hi; omega
        · omega
  unfold Peer.setPing
  simp only
  split
  · exact h1.like (.emit _ _ trivial)
  · exact h1

theorem PInv.step {c0 : Nat} {s : S} {n : Nat} (hc : c0 < W64) (h : PInv c0 s n) (op : Op) :
    ∃ m, m ≤ n + 1 ∧ PInv c0 (step s op) m := by
  have hsend : ∀ s, PInv c0 s n → ∀ r ctrl sent data, ∃ m, m ≤ n + 1 ∧ PInv c0 (sendPing s r ctrl sent data) m := by
    intro s h r ctrl sent data
    unfold sendPing
    simp only
    split
    · exact ⟨n, by omega, h⟩
    · split
      · exact ⟨n, by omega, h.like (like_addFault s r)⟩
      · split
        · exact ⟨n + 1, by omega, h.more.like (like_addFault _ r)⟩
        · split
          · refine ⟨n + 1, by omega, PInv.setPing hc (h.more.like (like_addFault _ r)) ?_ r _⟩
            rw [(like_addFault _ r).pings]; exact h.seqs
          · exact ⟨n + 1, by omega, PInv.setPing hc h.more h.seqs r _⟩
  cases op with
  | unregister id => exact ⟨n, by omega, h.like (like_remove _ _ _)⟩
  | alloc => exact ⟨n + 1, by omega, h.more⟩
  | close c => exact ⟨n, by omega, h.like (like_close _ _)⟩
  | register r =>
    refine ⟨n, by omega, ?_⟩
    show PInv c0 (if _ then _ else _) n
    split
    · refine ⟨fun x => ?_, fun x y hy => ?_, h.seq, ?_⟩
      · show (upd s.ep r {} x).ping = (outstanding x (s.log ++ [.added r])).getD 0
        rw [outstanding_snoc]
        unfold upd
        by_cases hx : x = r
        · subst hx; simp
        · simp only [hx, Ne.symm hx, if_false]; exact h.ping x
      · change outstanding x (s.log ++ [.added r]) = some y at hy
        rw [outstanding_snoc] at hy
        simp only at hy
        split at hy
        · cases hy
        · exact h.pos x y hy
      · show ∃ is, pings (s.log ++ [.added r]) = _ ∧ _
        rw [pings_snoc]; exact h.seqs
    · exact h
  | ping r ctrl sent data =>
    show ∃ m, _ ∧ PInv c0 (Peer.ping s r ctrl sent data) m
    unfold Peer.ping
    simp only
    split
    · split
      · exact ⟨n, by omega, h.like (like_addFault s r)⟩
      · exact hsend _ (h.like (like_addFault s r)) r ctrl sent data
    · exact hsend s h r ctrl sent data
  | recv c b ms sec m =>
    refine ⟨n, by omega, ?_⟩
    cases m with
    | bad held => exact h.like (like_countBad s c b held)
    | good => exact h.like (like_countGood s c b)
    | pong q t => exact (h.onPong b q t ms sec).like (like_countGood _ c b)

theorem PInv.run {c0 : Nat} {s : S} {n : Nat} (hc : c0 < W64) (h : PInv c0 s n) (ops : List Op) :
    ∃ m, m ≤ n + ops.length ∧ PInv c0 (run s ops) m := by
  induction ops generalizing s n with
  | nil => exact ⟨n, by simp, h⟩
  | cons op ops ih =>
    obtain ⟨m, hm, h'⟩ := h.step hc op
    obtain ⟨k, hk, h''⟩ := ih h'
    exact ⟨k, by simp; omega, h''⟩

theorem pinv_init (tol own : Nat) (idOf : Nat → Nat) (seq : Nat) : PInv seq (init tol own idOf seq) 0 :=
  ⟨fun _ => rfl, fun _ _ h => (by cases h), rfl, [], rfl, (by simp), (by simp)⟩

/-- The steps that touch the measured delay. -/
theorem delay_step (s : S) (op : Op) (r : Nat) (hr : op ≠ .register r) :
    (((step s op).ep r).delay = (s.ep r).delay ∧ ((step s op).ep r).lastPong = (s.ep r).lastPong) ∨
    ∃ c ms sec q t, op = .recv c (some r) ms sec (.pong q t) ∧ q = (s.ep r).ping ∧
      ((step s op).ep r).delay = ms - t ∧ ((step s op).ep r).lastPong = sec := by
  have hset : ∀ s r' g, ((setPing s r' g).ep r).delay = (s.ep r).delay ∧ ((setPing s r' g).ep r).lastPong = (s.ep r).lastPong := by
    intro s r' g
    have : (setPing s r' g).ep = upd s.ep r' { s.ep r' with ping := s.seq } := by
      unfold setPing; simp only; split <;> rfl
    rw [this]
    unfold upd; split
    · rename_i h; rw [h]; exact ⟨rfl, rfl⟩
    · exact ⟨rfl, rfl⟩
  have hsend : ∀ s r' a b c, ((sendPing s r' a b c).ep r).delay = (s.ep r).delay ∧ ((sendPing s r' a b c).ep r).lastPong = (s.ep r).lastPong := by
    intro s r' a b c
    unfold sendPing
    simp only
    split
    · exact ⟨rfl, rfl⟩
    · split
      · exact (like_addFault s r').delay r
      · split
        · exact (like_addFault { s with seq := allocSeq s.seq } r').delay r
        · split
          · have h1 := hset (addFault { s with seq := allocSeq s.seq } r').1 r' (addFault { s with seq := allocSeq s.seq } r').2
            have h2 := (like_addFault { s with seq := allocSeq s.seq } r').delay r
            exact ⟨h1.1.trans h2.1, h1.2.trans h2.2⟩
          · exact hset _ _ _
  cases op with
  | unregister id => exact Or.inl ((like_remove _ _ _).delay r)
  | alloc => exact Or.inl ⟨rfl, rfl⟩
  | close c => exact Or.inl ((like_close s c).delay r)
  | register r' =>
    left
    have hne : r ≠ r' := fun h => hr (by rw [h])
    show ((if _ then _ else _ : S).ep r).delay = _ ∧ ((if _ then _ else _ : S).ep r).lastPong = _
    split
    · show (upd s.ep r' {} r).delay = _ ∧ (upd s.ep r' {} r).lastPong = _
      unfold upd
      simp [hne]
    · exact ⟨rfl, rfl⟩
  | ping r' a b c =>
    left
    show ((Peer.ping s r' a b c).ep r).delay = _ ∧ ((Peer.ping s r' a b c).ep r).lastPong = _
    unfold Peer.ping
    simp only
    split
    · have h2 := (like_addFault s r').delay r
      split
      · exact h2
      · have h1 := hsend (addFault s r').1 r' a b c
        exact ⟨h1.1.trans h2.1, h1.2.trans h2.2⟩
    · exact hsend s r' a b c
  | recv c b ms sec m =>
    cases m with
    | bad held => exact Or.inl ((like_countBad s c b held).delay r)
    | good => exact Or.inl ((like_countGood s c b).delay r)
    | pong q t =>
      have h1 := (like_countGood (onPong s b q t ms sec) c b).delay r
      cases b with
      | none => exact Or.inl h1
      | some r' =>
        by_cases hq : q = (s.ep r').ping
        · have he : (onPong s (some r') q t ms sec).ep = upd s.ep r' { s.ep r' with ping := 0, delay := ms - t, lastPong := sec } := by
            unfold onPong; simp only
            rw [if_pos (show q = ((s.emit (.ponged r' q)).ep r').ping from hq)]; rfl
          rw [he] at h1
          by_cases hx : r = r'
          · right
            subst hx
            refine ⟨c, ms, sec, q, t, rfl, hq, ?_⟩
            have hu : upd s.ep r { s.ep r with ping := 0, delay := ms - t, lastPong := sec } r = { s.ep r with ping := 0, delay := ms - t, lastPong := sec } := by
              unfold upd; simp
            rw [hu] at h1
            exact h1
          · left
            have hu : upd s.ep r' { s.ep r' with ping := 0, delay := ms - t, lastPong := sec } r = s.ep r := by
              unfold upd; simp [hx]
            rw [hu] at h1
            exact h1
        · left
          have he : (onPong s (some r') q t ms sec).ep = s.ep := by
            unfold onPong; simp only
            rw [if_neg (show ¬ q = ((s.emit (.ponged r' q)).ep r').ping from hq)]; rfl
          rw [he] at h1
          exact h1

/-- C45: in every history, a step changes the delay measured for an endpoint only if it is a pong on a connection bound
to that endpoint with the number of its outstanding ping.  Partial: pongs with number 0 are excluded
(`C45_zero_false`). -/
theorem C45_pong_partial (tol own : Nat) (idOf : Nat → Nat) (seq : Nat) (hs : seq < W64) (ops : List Op) (op : Op) (r : Nat)
    (hr : op ≠ .register r) (h0 : ∀ c b ms sec t, op ≠ .recv c b ms sec (.pong 0 t))
    (hd : ((step (run (init tol own idOf seq) ops) op).ep r).delay ≠ ((run (init tol own idOf seq) ops).ep r).delay ∨
      ((step (run (init tol own idOf seq) ops) op).ep r).lastPong ≠ ((run (init tol own idOf seq) ops).ep r).lastPong) :
    ∃ c ms sec q t, op = .recv c (some r) ms sec (.pong q t) ∧ outstanding r (run (init tol own idOf seq) ops).log = some q ∧
      ((step (run (init tol own idOf seq) ops) op).ep r).delay = ms - t := by
  obtain ⟨m, -, hp⟩ := (pinv_init tol own idOf seq).run hs ops
  rcases delay_step (run (init tol own idOf seq) ops) op r hr with h | ⟨c, ms, sec, q, t, h1, h2, h3, h4⟩
  · rcases hd with hd | hd
    · exact absurd h.1 hd
    · exact absurd h.2 hd
  · refine ⟨c, ms, sec, q, t, h1, ?_, h3⟩
    have := hp.ping r
    cases ho : outstanding r (run (init tol own idOf seq) ops).log with
    | none =>
      rw [ho] at this
      rw [this] at h2
      simp at h2
      subst h2
      exact absurd h1 (h0 _ _ _ _ _)
    | some y =>
      rw [ho] at this
      rw [h2, this]; rfl

/-- C45: the pong with the number of the outstanding ping is accepted and ends the ping. -/
theorem C45_answer (tol own : Nat) (idOf : Nat → Nat) (seq : Nat) (hs : seq < W64) (ops : List Op) (r c q : Nat) (ms sec t : Int)
    (ho : outstanding r (run (init tol own idOf seq) ops).log = some q) :
    let s' := run (init tol own idOf seq) (ops ++ [.recv c (some r) ms sec (.pong q t)])
    (s'.ep r).delay = ms - t ∧ (s'.ep r).lastPong = sec ∧ (s'.ep r).ping = 0 ∧ outstanding r s'.log = none := by
  intro s'
  obtain ⟨m, -, hp⟩ := (pinv_init tol own idOf seq).run hs ops
  have hq : (onPong (run (init tol own idOf seq) ops) (some r) q t ms sec) =
      { (run (init tol own idOf seq) ops).emit (.ponged r q) with ep := upd (run (init tol own idOf seq) ops).ep r { (run (init tol own idOf seq) ops).ep r with ping := 0, delay := ms - t, lastPong := sec } } := by
    unfold onPong; simp only
    have := hp.ping r
    rw [ho] at this
    rw [if_pos (show q = (((run (init tol own idOf seq) ops).emit (.ponged r q)).ep r).ping from this.symm)]; rfl
  have hl := like_countGood (onPong (run (init tol own idOf seq) ops) (some r) q t ms sec) c (some r)
  have hs' : s' = countGood (onPong (run (init tol own idOf seq) ops) (some r) q t ms sec) c (some r) := by
    show run _ _ = _
    unfold run; rw [List.foldl_append]; rfl
  rw [hs']
  refine ⟨?_, ?_, ?_, ?_⟩
  · rw [(hl.delay r).1, hq]; show (upd (run (init tol own idOf seq) ops).ep r _ r).delay = _; unfold upd; simp
  · rw [(hl.delay r).2, hq]; show (upd (run (init tol own idOf seq) ops).ep r _ r).lastPong = _; unfold upd; simp
  · rw [hl.ping r, hq]; show (upd (run (init tol own idOf seq) ops).ep r _ r).ping = _; unfold upd; simp
  · rw [hl.out r, hq]
    show outstanding r (_ ++ [_]) = none
    rw [outstanding_snoc]; simp [ho]

/-- C45: pings have different numbers (as long as fewer than 2^64 - 1 numbers are used), none of them 0: a pong that
answers an earlier ping, of whatever endpoint, never has the number of the outstanding one. -/
theorem C45_numbers (tol own : Nat) (idOf : Nat → Nat) (seq : Nat) (hs : seq < W64) (ops : List Op) (hn : ops.length < W64) :
    (pings (run (init tol own idOf seq) ops).log).Nodup ∧ 0 ∉ pings (run (init tol own idOf seq) ops).log := by
  obtain ⟨m, hm, hp⟩ := (pinv_init tol own idOf seq).run hs ops
  obtain ⟨is, h1, h2, h3⟩ := hp.seqs
  rw [h1]
  constructor
  · rw [List.Nodup, List.pairwise_map]
    refine h2.imp_of_mem ?_
    intro a b ha hb hab
    have := h3 b hb
    exact (C39_sequence seq hs a b hab (by omega)).2.2
  · intro h
    obtain ⟨i, -, hi⟩ := List.mem_map.mp h
    have := (seqAfter_eq seq hs i).1
    omega

/-- C45 is false as stated: with no ping outstanding, a pong with sequence number 0 is taken as its answer and sets the
delay, to any value the peer likes. -/
theorem C45_zero_false : ∃ ops, ∃ op,
    outstanding 1 (run (init 3 7 (fun _ => 5) 0) ops).log = none ∧
    ((run (init 3 7 (fun _ => 5) 0) ops).ep 1).delay = 40 ∧ ((step (run (init 3 7 (fun _ => 5) 0) ops) op).ep 1).delay = -1000000 :=
  ⟨[.register 1, .ping 1 true true true, .recv 10 (some 1) 100 0 (.pong 1 60)], .recv 10 (some 1) 0 0 (.pong 0 1000000),
   by decide, by decide, by decide⟩

/-- A duplicated pong and the pong of an older ping change nothing. -/
example : ((run (init 3 7 (fun _ => 5) 0) [.register 1, .ping 1 true true true, .ping 1 true true true,
      .recv 10 (some 1) 100 0 (.pong 1 60), .recv 10 (some 1) 110 0 (.pong 2 90), .recv 10 (some 1) 120 0 (.pong 2 90)]).ep 1) =
    { fault := 0, ping := 0, delay := 20, lastPong := 0 } := by decide

end Verif.Node.Peer
