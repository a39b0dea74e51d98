import Verif.Shm.Model

/-!
C50: a segment is mapped exactly while it has users.

Specification: `users` counts, over the calls and what they returned, the successful opens minus the
successful closes of a name; `live` counts mappings minus unmappings seen by the operating system.
-/
namespace Verif.Shm

/-! ## Specification -/

def Op.name : Op → List Char
  | .open n _ => n
  | .close n _ => n

/-- What one call and its return value add to the number of users. -/
def usersOf : Op → Int → Int
  | .open _ _, r => if 0 ≤ r then 1 else 0
  | .close _ _, r => if r = Err.SUCCESS ∨ r = Err.SHM_CLOSE_FAILED then -1 else 0

/-- Users of the segment `k` after a history. -/
def users (num : List Char → Int) (k : List Char) : List Op → List Int → Int
  | o :: os, r :: rs => (if (normalize num o.name).text = k then usersOf o r else 0) + users num k os rs
  | _, _ => 0

def liveOf (k : List Char) : Ev → Int
  | .mapped j => if j = k then 1 else 0
  | .unmapped j => if j = k then -1 else 0

/-- Mappings of `k` the process has. -/
def live (k : List Char) : List Ev → Int
  | [] => 0
  | e :: es => liveOf k e + live k es

/-- Number of times `k` was unmapped. -/
def unmaps (k : List Char) : List Ev → Int
  | [] => 0
  | .unmapped j :: es => (if j = k then 1 else 0) + unmaps k es
  | .mapped _ :: es => unmaps k es

/-- `k` is the name of a System V segment. -/
def SysV (num : List Char → Int) (k : List Char) : Prop :=
  ∃ name, (normalize num name).text = k ∧ (normalize num name).sysv ≠ 0

/-! ## Names -/

theorem dec_inj {a b : Int} (h : dec a = dec b) : a = b := by
  have hd : ∀ (n : Nat) c, c ∈ Nat.toDigits 10 n → c ≠ '-' := by
    intro n c hc he
    have := Nat.isDigit_of_mem_toDigits (by decide) (by decide) hc
    rw [he] at this
    exact absurd this (by decide)
  have hi : ∀ m n : Nat, Nat.toDigits 10 m = Nat.toDigits 10 n → m = n := by
    intro m n e
    have := congrArg (fun l => Nat.ofDigitChars 10 l 0) e
    simpa [Nat.ofDigitChars_ten_toDigits] using this
  cases a with
  | ofNat m =>
    cases b with
    | ofNat n => exact congrArg Int.ofNat (hi m n h)
    | negSucc n =>
      exact absurd rfl (hd m '-' (by simp only [dec] at h; rw [h]; exact List.mem_cons_self))
  | negSucc m =>
    cases b with
    | ofNat n =>
      exact absurd rfl (hd n '-' (by simp only [dec] at h; rw [← h]; exact List.mem_cons_self))
    | negSucc n =>
      simp only [dec, List.cons.injEq, true_and] at h
      have := hi _ _ h
      simp at this
      rw [this]

theorem dec_not_slash (a : Int) (r : List Char) : dec a ≠ '/' :: r := by
  intro h
  cases a with
  | ofNat m =>
    have := Nat.isDigit_of_mem_toDigits (b := 10) (n := m) (c := '/') (by decide) (by decide)
      (by simp only [dec] at h; rw [h]; exact List.mem_cons_self)
    exact absurd this (by decide)
  | negSucc m => simp [dec] at h

theorem dec_ne_nil (a : Int) : dec a ≠ [] := by
  cases a with
  | ofNat m => exact Nat.toDigits_ne_nil
  | negSucc m => simp [dec]

/-- The text decides the kind. -/
theorem sysv_of_text (num : List Char → Int) (a b : List Char)
    (h : (normalize num a).text = (normalize num b).text) : (normalize num a).sysv = (normalize num b).sysv := by
  cases a with
  | nil =>
    cases b with
    | nil => rfl
    | cons d s =>
      simp only [normalize] at h ⊢
      split at h
      · simp at h
      · exact absurd h.symm (dec_ne_nil _)
  | cons c r =>
    cases b with
    | nil =>
      simp only [normalize] at h ⊢
      split at h
      · simp at h
      · exact absurd h (dec_ne_nil _)
    | cons d s =>
      simp only [normalize] at h ⊢
      split at h <;> split at h
      · simp_all
      · exact absurd h.symm (dec_not_slash _ _)
      · exact absurd h (dec_not_slash _ _)
      · rename_i h1 h2
        simp only [h1, h2, if_false]
        exact dec_inj h

/-! ## Steps -/

attribute [local irreducible] pred

theorem w64_gt : 1 < W64 := by unfold W64; omega

theorem live_append (k : List Char) (a b : List Ev) : live k (a ++ b) = live k a + live k b := by
  induction a with
  | nil => simp [live]
  | cons e es ih => simp only [List.cons_append, live, ih]; omega

theorem unmaps_append (k : List Char) (a b : List Ev) : unmaps k (a ++ b) = unmaps k a + unmaps k b := by
  induction a with
  | nil => simp [unmaps]
  | cons e es ih => cases e <;> simp only [List.cons_append, unmaps, ih] <;> omega

/-- Invariant for a System V segment with `u` users. -/
def Inv (k : List Char) (s : S) (u : Int) : Prop :=
  match s.tab k with
  | none => u = 0 ∧ live k s.log = 0
  | some r => u = r.count ∧ 0 < r.count ∧ r.count < W64 ∧ live k s.log = 1

/-- Invariant for a POSIX segment with `u` users. -/
def InvP (k : List Char) (s : S) (u : Int) : Prop :=
  match s.tab k with
  | none => (u - unmaps k s.log) % W64 = 0 ∧ live k s.log = 0
  | some r => (r.count : Int) = (u - 1 - unmaps k s.log) % W64 ∧ live k s.log = 1

/-- Users after `openBuffer` returned `r`. -/
def opened (num : List Char → Int) (k name : List Char) (r : Int) : Int :=
  if (normalize num name).text = k then (if 0 ≤ r then 1 else 0) else 0

/-- Users after `closeBuffer` returned `r`. -/
def closed (num : List Char → Int) (k name : List Char) (r : Int) : Int :=
  if (normalize num name).text = k then (if r = Err.SUCCESS ∨ r = Err.SHM_CLOSE_FAILED then -1 else 0) else 0

/-- What `openBuffer` does to the segment `k`. -/
theorem open_effect (num : List Char → Int) (sys : Sys) (s : S) (name k : List Char) :
    ((openBuffer num sys s name).1.tab k = s.tab k ∧ (openBuffer num sys s name).1.log = s.log ∧
      opened num k name (openBuffer num sys s name).2 = 0) ∨
    ((openBuffer num sys s name).1.tab k = s.tab k ∧ live k (openBuffer num sys s name).1.log = live k s.log ∧
      unmaps k (openBuffer num sys s name).1.log = unmaps k s.log ∧
      (normalize num name).text ≠ k ∧ opened num k name (openBuffer num sys s name).2 = 0) ∨
    (∃ r, (normalize num name).text = k ∧ verify k = true ∧ s.tab k = some r ∧
      (openBuffer num sys s name).1.tab k = some { r with count := (r.count + 1) % W64 } ∧
      (openBuffer num sys s name).1.log = s.log ∧ opened num k name (openBuffer num sys s name).2 = 1) ∨
    (∃ size, (normalize num name).text = k ∧ verify k = true ∧ s.tab k = none ∧
      (openBuffer num sys s name).1.tab k = some ⟨if (normalize num name).sysv = 0 then 0 else 1, size⟩ ∧
      (openBuffer num sys s name).1.log = s.log ++ [.mapped k] ∧
      opened num k name (openBuffer num sys s name).2 = 1) := by
  unfold openBuffer
  simp only
  cases hv : verify (normalize num name).text with
  | false => exact Or.inl ⟨rfl, rfl, by simp [opened, PATH_INVALID]⟩
  | true =>
    simp only [Bool.true_eq_false, if_false]
    by_cases hk : (normalize num name).text = k
    · subst hk
      cases ht : s.tab (normalize num name).text with
      | some r =>
        refine Or.inr (Or.inr (Or.inl ⟨r, rfl, hv, rfl, ?_, rfl, ?_⟩))
        · simp [upd]
        · simp [opened, Err.SUCCESS]
      | none =>
        cases sys with
        | getFailed => exact Or.inl ⟨ht, rfl, by simp [opened, Err.SHM_GET_FAILED]⟩
        | mapFailed => exact Or.inl ⟨ht, rfl, by simp [opened, MAP_FAILED]⟩
        | ok size =>
          refine Or.inr (Or.inr (Or.inr ⟨size, rfl, hv, rfl, ?_, rfl, ?_⟩))
          · simp [upd]
          · simp [opened, Err.SUCCESS]
    · have hk' : k ≠ (normalize num name).text := fun h => hk h.symm
      cases ht : s.tab (normalize num name).text with
      | some r =>
        refine Or.inr (Or.inl ⟨?_, rfl, rfl, hk, ?_⟩)
        · simp [upd, hk']
        · simp [opened, hk]
      | none =>
        cases sys with
        | getFailed => exact Or.inl ⟨rfl, rfl, by simp [opened, hk]⟩
        | mapFailed => exact Or.inl ⟨rfl, rfl, by simp [opened, hk]⟩
        | ok size =>
          refine Or.inr (Or.inl ⟨?_, ?_, ?_, hk, ?_⟩)
          · simp [upd, hk']
          · simp [live_append, live, liveOf, hk]
          · simp [unmaps_append, unmaps]
          · simp [opened, hk]

/-- What `closeBuffer` does to the segment `k`. -/
theorem close_effect (asserts : Bool) (num : List Char → Int) (fails : Bool) (s s1 : S) (ret : Int) (name k : List Char)
    (h : closeBuffer asserts num fails s name = some (s1, ret)) :
    (s1.tab k = s.tab k ∧ live k s1.log = live k s.log ∧ unmaps k s1.log = unmaps k s.log ∧
      closed num k name ret = 0 ∧ ((normalize num name).text = k → verify k = false ∨ s.tab k = none)) ∨
    (∃ r, (normalize num name).text = k ∧ s.tab k = some r ∧ pred r.count > 0 ∧
      s1.tab k = some { r with count := pred r.count } ∧ s1.log = s.log ∧ closed num k name ret = -1) ∨
    (∃ r, (normalize num name).text = k ∧ s.tab k = some r ∧ pred r.count = 0 ∧
      s1.tab k = none ∧ s1.log = s.log ++ [.unmapped k] ∧ closed num k name ret = -1) := by
  unfold closeBuffer at h
  simp only at h
  cases hv : verify (normalize num name).text with
  | false =>
    rw [hv, if_pos rfl] at h
    cases h
    refine Or.inl ⟨rfl, rfl, rfl, ?_, fun e => Or.inl (e ▸ hv)⟩
    simp [closed, PATH_INVALID, Err.SUCCESS, Err.SHM_CLOSE_FAILED]
  | true =>
    rw [hv, if_neg (by simp)] at h
    by_cases hk : (normalize num name).text = k
    · subst hk
      cases ht : s.tab (normalize num name).text with
      | none =>
        rw [ht] at h
        cases h
        refine Or.inl ⟨ht, rfl, rfl, ?_, fun _ => Or.inr rfl⟩
        simp [closed, Err.SHM_NOT_FOUND, Err.SUCCESS, Err.SHM_CLOSE_FAILED]
      | some r =>
        rw [ht] at h
        simp only at h
        split at h
        · cases h
        · split at h
          · rename_i hc
            cases h
            refine Or.inr (Or.inl ⟨r, rfl, rfl, hc, ?_, rfl, ?_⟩)
            · simp [upd]
            · simp [closed]
          · rename_i hc
            cases h
            refine Or.inr (Or.inr ⟨r, rfl, rfl, by omega, ?_, rfl, ?_⟩)
            · simp [upd]
            · cases fails <;> simp [closed]
    · have hk' : k ≠ (normalize num name).text := fun h => hk h.symm
      cases ht : s.tab (normalize num name).text with
      | none =>
        rw [ht] at h
        cases h
        exact Or.inl ⟨rfl, rfl, rfl, by simp [closed, hk], fun e => absurd e hk⟩
      | some r =>
        rw [ht] at h
        simp only at h
        split at h
        · cases h
        · split at h
          · cases h
            refine Or.inl ⟨?_, rfl, rfl, by simp [closed, hk], fun e => absurd e hk⟩
            simp [upd, hk']
          · cases h
            refine Or.inl ⟨?_, ?_, ?_, by simp [closed, hk], fun e => absurd e hk⟩
            · simp [upd, hk']
            · simp [live_append, live, liveOf, hk]
            · simp [unmaps_append, unmaps, hk]

/-- An invariant that opening and closing preserve. -/
structure Kept (num : List Char → Int) (k : List Char) (I : S → Int → Prop) (ok : Int → Prop) : Prop where
  opn : ∀ sys s name u, I s u → ok u → I (openBuffer num sys s name).1 (u + opened num k name (openBuffer num sys s name).2)
  cls : ∀ asserts fails s s1 ret name u, I s u → closeBuffer asserts num fails s name = some (s1, ret) →
    I s1 (u + closed num k name ret)

theorem attach_kept {num : List Char → Int} {k : List Char} {I : S → Int → Prop} {ok : Int → Prop} (K : Kept num k I ok)
    (asserts : Bool) (ev : Env) (s s1 : S) (name : List Char) (ret u : Int) (hI : I s u) (hok : ok u)
    (h : attach asserts num ev s name = some (s1, ret)) :
    I s1 (u + (if (normalize num name).text = k then usersOf (.open name ev) ret else 0)) := by
  have ho := K.opn ev.sys s name u hI hok
  have he := open_effect num ev.sys s name k
  unfold attach at h
  simp only at h
  split at h
  · rename_i hr
    injection h with h
    have h1 : s1 = (openBuffer num ev.sys s name).1 := (congrArg Prod.fst h).symm
    have h2 : ret = (openBuffer num ev.sys s name).2 := (congrArg Prod.snd h).symm
    rw [h1, h2]
    have : opened num k name (openBuffer num ev.sys s name).2 =
        (if (normalize num name).text = k then usersOf (.open name ev) (openBuffer num ev.sys s name).2 else 0) := rfl
    rw [← this]; exact ho
  · rename_i hr
    have hop : opened num k name (openBuffer num ev.sys s name).2 = if (normalize num name).text = k then 1 else 0 := by
      simp only [opened]; rw [if_pos (by omega : 0 ≤ (openBuffer num ev.sys s name).2)]
    split at h
    · rename_i hm
      cases hc : closeBuffer asserts num ev.fails (openBuffer num ev.sys s name).1 name with
      | none => rw [hc] at h; cases h
      | some x =>
        obtain ⟨s2, r2⟩ := x
        rw [hc] at h
        simp only [Option.map_some, Option.some.injEq, Prod.mk.injEq] at h
        obtain ⟨rfl, rfl⟩ := h
        have hcl := K.cls asserts ev.fails _ _ _ name _ ho hc
        have e : u + opened num k name (openBuffer num ev.sys s name).2 + closed num k name r2 =
            u + (if (normalize num name).text = k then usersOf (.open name ev) ev.mem else 0) := by
          simp only [usersOf]
          rw [if_neg (by omega : ¬ 0 ≤ ev.mem), hop]
          by_cases hk : (normalize num name).text = k
          · rw [if_pos hk, if_pos hk]
            have hce := close_effect asserts num ev.fails _ _ _ name k hc
            rw [if_pos hk] at hop
            rcases he with ⟨_, _, a⟩ | ⟨_, _, _, a, _⟩ | ⟨r, _, a1, _, a2, _⟩ | ⟨z, _, a1, _, a2, _⟩
            · omega
            · exact absurd hk a
            all_goals
              rcases hce with ⟨_, _, _, _, b⟩ | ⟨r, _, _, _, _, _, b⟩ | ⟨r, _, _, _, _, _, b⟩
              · rcases b hk with b | b
                · rw [b] at a1; cases a1
                · rw [b] at a2; cases a2
              all_goals omega
          · rw [if_neg hk, if_neg hk]; simp [closed, hk]
        rw [← e]; exact hcl
    · rename_i hm
      injection h with h
      obtain ⟨rfl, rfl⟩ := Prod.mk.inj h
      simp only [usersOf]
      rw [if_pos (by omega : 0 ≤ ev.mem), ← hop]; exact ho

theorem step_kept {num : List Char → Int} {k : List Char} {I : S → Int → Prop} {ok : Int → Prop} (K : Kept num k I ok)
    (asserts : Bool) (o : Op) (s s1 : S) (ret u : Int) (hI : I s u) (hok : ok u)
    (h : step asserts num s o = some (s1, ret)) :
    I s1 (u + (if (normalize num o.name).text = k then usersOf o ret else 0)) := by
  cases o with
  | «open» name ev => exact attach_kept K asserts ev s s1 name ret u hI hok h
  | close name fails => exact K.cls asserts fails s s1 ret name u hI h

theorem run_kept {num : List Char → Int} {k : List Char} {I : S → Int → Prop} {ok : Int → Prop} (K : Kept num k I ok)
    (asserts : Bool) (ops : List Op) (s s1 : S) (rs : List Int) (u : Int) (hI : I s u)
    (hok : ∀ v, v < u + ops.length → ok v) (h : run asserts num s ops = some (s1, rs)) :
    I s1 (u + users num k ops rs) := by
  induction ops generalizing s u rs with
  | nil => cases h; simpa [users] using hI
  | cons o os ih =>
    simp only [run] at h
    cases hs : step asserts num s o with
    | none => rw [hs] at h; cases h
    | some x =>
      obtain ⟨s2, r⟩ := x
      rw [hs] at h
      simp only at h
      cases hr : run asserts num s2 os with
      | none => rw [hr] at h; cases h
      | some y =>
        obtain ⟨s3, rs'⟩ := y
        rw [hr] at h
        cases h
        have h1 := step_kept K asserts o s s2 r u hI (hok u (by simp; omega)) hs
        have hle : (if (normalize num o.name).text = k then usersOf o r else 0) ≤ 1 := by
          split
          · cases o <;> simp only [usersOf] <;> split <;> omega
          · omega
        have h2 := ih s2 rs' _ h1 (fun v hv => hok v (by simp only [List.length_cons, Int.natCast_add]; omega)) hr
        simp only [users]
        rw [← Int.add_assoc]; exact h2

/-! ## System V segments -/

theorem dec_count {c : Nat} (h : 0 < c) (hc : c < W64) : pred c = c - 1 := by
  unfold pred
  have e : c + W64 - 1 = (c - 1) + W64 := by omega
  rw [e, Nat.add_mod_right, Nat.mod_eq_of_lt (by omega)]

theorem kept_sysv (num : List Char → Int) (k : List Char) (hk : SysV num k) :
    Kept num k (Inv k) (fun u => u + 1 < W64) := by
  constructor
  · intro sys s name u hI hu
    rcases open_effect num sys s name k with ⟨a, b, c⟩ | ⟨a, b, _, _, c⟩ | ⟨r, _, _, a1, a2, b, c⟩ | ⟨z, e, _, a1, a2, b, c⟩
    · simp only [Inv, a, b, c] at hI ⊢; simpa using hI
    · simp only [Inv, a, b, c] at hI ⊢; simpa using hI
    · simp only [Inv, a1, a2, b, c] at hI ⊢
      obtain ⟨h1, h2, h3, h4⟩ := hI
      have : (r.count + 1) % W64 = r.count + 1 := Nat.mod_eq_of_lt (by omega)
      rw [this]; exact ⟨by omega, by omega, by omega, h4⟩
    · obtain ⟨nm, e1, e2⟩ := hk
      have := sysv_of_text num name nm (e.trans e1.symm)
      simp only [Inv, a1, a2, b, c, live_append] at hI ⊢
      rw [if_neg (by rw [this]; exact e2)]
      simp only [live, liveOf, if_true]
      have := w64_gt
      exact ⟨by omega, by omega, by omega, by omega⟩
  · intro asserts fails s s1 ret name u hI h
    rcases close_effect asserts num fails s s1 ret name k h with ⟨a, b, _, c, _⟩ | ⟨r, _, a1, a2, a3, b, c⟩ | ⟨r, _, a1, a2, a3, b, c⟩
    · simp only [Inv, a, b, c] at hI ⊢; simpa using hI
    · simp only [Inv, a1, a3, b, c] at hI ⊢
      obtain ⟨h1, h2, h3, h4⟩ := hI
      rw [dec_count h2 h3] at a2 ⊢
      exact ⟨by omega, by omega, by omega, h4⟩
    · simp only [Inv, a1, a3, b, c, live_append] at hI ⊢
      obtain ⟨h1, h2, h3, h4⟩ := hI
      rw [dec_count h2 h3] at a2
      simp only [live, liveOf, if_true]
      exact ⟨by omega, by omega⟩

/-- **C50**, for names that are non-zero numbers (System V segments), in every history of opens and closes of any
names, with any failures of the system calls, shorter than 2^64 calls: the segment is mapped exactly while
successful opens outnumber successful closes, once, and closes never outnumber opens.  Missing: names of POSIX
segments, for which it is false, see below. -/
theorem C50_sysv_partial (asserts : Bool) (num : List Char → Int) (k : List Char) (hk : SysV num k) (ops : List Op)
    (hlen : ops.length + 1 < 2 ^ 64) (s : S) (rs : List Int) (h : run asserts num S.init ops = some (s, rs)) :
    0 ≤ users num k ops rs ∧ live k s.log = if users num k ops rs = 0 then 0 else 1 := by
  have h0 : Inv k S.init 0 := ⟨rfl, rfl⟩
  have hw : W64 = 2 ^ 64 := rfl
  have := run_kept (kept_sysv num k hk) asserts ops S.init s rs 0 h0 (fun v hv => by omega) h
  rw [Int.zero_add] at this
  unfold Inv at this
  cases ht : s.tab k with
  | none => rw [ht] at this; simp only at this; rw [this.1, this.2]; exact ⟨Int.le_refl 0, rfl⟩
  | some r =>
    rw [ht] at this; simp only at this
    rw [if_neg (by omega)]
    exact ⟨by omega, this.2.2.2⟩

/-! ## POSIX segments -/

theorem mod_pred (a : Int) (c : Nat) (h : (c : Int) = a % W64) : ((pred c : Nat) : Int) = (a - 1) % W64 := by
  unfold pred
  have hw := w64_gt
  have e : (((c + W64 - 1 : Nat)) : Int) = c + W64 - 1 := by omega
  rw [Int.natCast_emod, e, h]
  have : a % (W64 : Int) + W64 - 1 = (a % W64 - 1) + W64 := by omega
  rw [this, Int.add_emod_right, Int.sub_emod, Int.emod_emod, ← Int.sub_emod]

theorem mod_succ (a : Int) (c : Nat) (h : (c : Int) = a % W64) : (((c + 1) % W64 : Nat) : Int) = (a + 1) % W64 := by
  rw [Int.natCast_emod, Int.natCast_add, h, Int.add_emod, Int.emod_emod, ← Int.add_emod]
  rfl

theorem kept_posix (num : List Char → Int) (k : List Char) (hk : ¬ SysV num k) :
    Kept num k (InvP k) (fun _ => True) := by
  constructor
  · intro sys s name u hI _
    rcases open_effect num sys s name k with ⟨a, b, c⟩ | ⟨a, b, d, _, c⟩ | ⟨r, _, _, a1, a2, b, c⟩ | ⟨z, e, _, a1, a2, b, c⟩
    · simp only [InvP, a, b, c] at hI ⊢; simpa using hI
    · simp only [InvP, a, b, c, d] at hI ⊢; simpa using hI
    · simp only [InvP, a1, a2, b, c] at hI ⊢
      refine ⟨?_, hI.2⟩
      rw [mod_succ _ _ hI.1]
      exact congrArg (· % (W64 : Int)) (by omega)
    · have hz : (normalize num name).sysv = 0 := by
        cases Decidable.em ((normalize num name).sysv = 0) with
        | inl h => exact h
        | inr h => exact absurd ⟨name, e, h⟩ hk
      simp only [InvP, a1, a2, b, c, live_append, unmaps_append, hz, if_true] at hI ⊢
      simp only [live, liveOf, unmaps, if_true]
      refine ⟨?_, by omega⟩
      rw [show u + 1 - 1 - (unmaps k s.log + 0) = u - unmaps k s.log by omega, hI.1]
      rfl
  · intro asserts fails s s1 ret name u hI h
    rcases close_effect asserts num fails s s1 ret name k h with ⟨a, b, d, c, _⟩ | ⟨r, _, a1, a2, a3, b, c⟩ | ⟨r, _, a1, a2, a3, b, c⟩
    · simp only [InvP, a, b, c, d] at hI ⊢; simpa using hI
    · simp only [InvP, a1, a3, b, c] at hI ⊢
      refine ⟨?_, hI.2⟩
      rw [mod_pred _ _ hI.1]
      exact congrArg (· % (W64 : Int)) (by omega)
    · simp only [InvP, a1, a3, b, c, live_append, unmaps_append] at hI ⊢
      simp only [live, liveOf, unmaps, if_true]
      have := mod_pred _ _ hI.1
      rw [a2] at this
      refine ⟨?_, by omega⟩
      rw [show u + -1 - (unmaps k s.log + (1 + 0)) = u - 1 - unmaps k s.log - 1 by omega, ← this]
      rfl

/-- Exact law for POSIX segments, in every history: while the segment is not mapped, the number of users equals the
number of times it was unmapped, modulo 2^64.  So every unmapping leaves one more user with unmapped memory, where
the property asks for no users. -/
theorem C50_posix_law (asserts : Bool) (num : List Char → Int) (k : List Char) (hk : ¬ SysV num k) (ops : List Op)
    (s : S) (rs : List Int) (h : run asserts num S.init ops = some (s, rs)) :
    (live k s.log = 0 ∧ (users num k ops rs - unmaps k s.log) % (2 ^ 64 : Int) = 0) ∨ live k s.log = 1 := by
  have h0 : InvP k S.init 0 := ⟨rfl, rfl⟩
  have := run_kept (kept_posix num k hk) asserts ops S.init s rs 0 h0 (fun _ _ => trivial) h
  rw [Int.zero_add] at this
  unfold InvP at this
  cases ht : s.tab k with
  | none => rw [ht] at this; exact Or.inl ⟨this.2, this.1⟩
  | some r => rw [ht] at this; exact Or.inr this.2

theorem witness {num : List Char → Int} {ops : List Op} {log : List Ev} {rs : List Int}
    (h : (run false num S.init ops).map (fun x => (x.1.log, x.2)) = some (log, rs)) :
    ∃ s, run false num S.init ops = some (s, rs) ∧ s.log = log := by
  cases hr : run false num S.init ops with
  | none => rw [hr] at h; cases h
  | some x =>
    obtain ⟨s, r⟩ := x
    rw [hr] at h
    simp only [Option.map_some, Option.some.injEq, Prod.mk.injEq] at h
    exact ⟨s, by rw [h.2], h.1⟩

/-- Two users of one POSIX segment: the first close unmaps it, and one user is left. -/
theorem C50_posix_early_false :
    ∃ ops s rs, run false (fun _ => 0) S.init ops = some (s, rs) ∧ rs = [0, 0, 0] ∧
      users (fun _ => 0) ['/', 'a'] ops rs = 1 ∧ live ['/', 'a'] s.log = 0 := by
  obtain ⟨s, h1, h2⟩ := witness (num := fun _ => 0) (log := [.mapped ['/', 'a'], .unmapped ['/', 'a']]) (rs := [0, 0, 0])
    (ops := [.open ['/', 'a'] ⟨.ok 4096, 0, false⟩, .open ['/', 'a'] ⟨.ok 4096, 0, false⟩, .close ['/', 'a'] false])
    (by decide +kernel)
  exact ⟨_, s, _, h1, rfl, by decide +kernel, by rw [h2]; decide +kernel⟩

/-- One user of a POSIX segment: closing reports success and leaves it mapped; with assertions the process
aborts. -/
theorem C50_posix_leak_false :
    (∃ ops s rs, run false (fun _ => 0) S.init ops = some (s, rs) ∧ rs = [0, 0] ∧
      users (fun _ => 0) ['/', 'a'] ops rs = 0 ∧ live ['/', 'a'] s.log = 1) ∧
    run true (fun _ => 0) S.init [.open ['/', 'a'] ⟨.ok 4096, 0, false⟩, .close ['/', 'a'] false] = none := by
  refine ⟨?_, rfl⟩
  obtain ⟨s, h1, h2⟩ := witness (num := fun _ => 0) (log := [.mapped ['/', 'a']]) (rs := [0, 0])
    (ops := [.open ['/', 'a'] ⟨.ok 4096, 0, false⟩, .close ['/', 'a'] false]) (by decide +kernel)
  exact ⟨_, s, _, h1, rfl, by decide +kernel, by rw [h2]; decide +kernel⟩

theorem close_total (asserts : Bool) (num : List Char → Int) (fails : Bool) (s : S) (name : List Char)
    (h : ∀ r, s.tab (normalize num name).text = some r → 0 < r.count) :
    closeBuffer asserts num fails s name ≠ none := by
  unfold closeBuffer
  simp only
  split
  · simp
  · cases ht : s.tab (normalize num name).text with
    | none => simp
    | some r =>
      have := h r ht
      simp only
      rw [if_neg (by omega)]
      split <;> simp

/-- The assertion on the counter (160) never fails when all names are names of System V segments. -/
theorem C50_sysv_no_abort (num : List Char → Int) (ops : List Op)
    (hall : ∀ o ∈ ops, SysV num (normalize num o.name).text) (hlen : ops.length + 1 < 2 ^ 64) :
    run true num S.init ops ≠ none := by
  have H : ∀ (ops : List Op) (s : S), (∀ o ∈ ops, SysV num (normalize num o.name).text) →
      (∀ k, SysV num k → ∃ u, Inv k s u ∧ u + ops.length + 1 < W64) → run true num s ops ≠ none := by
    intro ops
    induction ops with
    | nil => intro s _ _; simp [run]
    | cons o os ih =>
      intro s ha hI
      have hpos : ∀ s1 k u, Inv k s1 u → ∀ r, s1.tab k = some r → 0 < r.count := by
        intro s1 k u h r hr
        unfold Inv at h
        rw [hr] at h
        exact h.2.1
      have hk := ha o List.mem_cons_self
      obtain ⟨u, hu, hul⟩ := hI _ hk
      simp only [List.length_cons, Int.natCast_add] at hul
      have hs : step true num s o ≠ none := by
        cases o with
        | close name fails => exact close_total true num fails s name (hpos s _ u hu)
        | «open» name ev =>
          simp only [step, attach]
          split
          · simp
          · split
            · have ho := (kept_sysv num _ hk).opn ev.sys s name u hu (by omega)
              have := close_total true num ev.fails _ name (hpos _ _ _ ho)
              intro e
              exact this (Option.map_eq_none_iff.1 e)
            · simp
      simp only [run]
      cases h1 : step true num s o with
      | none => exact absurd h1 hs
      | some x =>
        obtain ⟨s1, r⟩ := x
        simp only
        have := ih s1 (fun o ho => ha o (List.mem_cons_of_mem _ ho)) (fun k hk => by
          obtain ⟨v, hv, hvl⟩ := hI k hk
          simp only [List.length_cons, Int.natCast_add] at hvl
          refine ⟨_, step_kept (kept_sysv num k hk) true o s s1 r v hv (by omega) h1, ?_⟩
          have hle : (if (normalize num o.name).text = k then usersOf o r else 0) ≤ 1 := by
            split
            · cases o <;> simp only [usersOf] <;> split <;> omega
            · omega
          omega)
        cases h2 : run true num s1 os with
        | none => exact absurd h2 this
        | some y => simp
  have hw : W64 = 2 ^ 64 := rfl
  exact H ops S.init hall (fun k _ => ⟨0, ⟨rfl, rfl⟩, by omega⟩)

/-- All names that `str2int` reads as the same number are one segment, whatever their text. -/
theorem C50_same_number (num : List Char → Int) (a b : Char) (x y : List Char)
    (ha : a ≠ '/' ∧ a ≠ '\\') (hb : b ≠ '/' ∧ b ≠ '\\') (h : num (a :: x) = num (b :: y)) :
    (normalize num (a :: x)).text = (normalize num (b :: y)).text := by
  simp [normalize, ha.1, ha.2, hb.1, hb.2, h]

/-- A name that cannot be a segment name: empty, or of more than 255 characters or with a further slash after a first
slash or backslash. -/
def Refused : List Char → Prop
  | [] => True
  | c :: r => (c = '/' ∨ c = '\\') ∧ (254 < r.length ∨ '/' ∈ r)

/-- Such names are refused by opening and closing, and nothing changes. -/
theorem C50_refused (asserts : Bool) (num : List Char → Int) (s : S) (o : Op)
    (h : Refused (match o with | .open n _ => n | .close n _ => n)) :
    step asserts num s o = some (s, PATH_INVALID) := by
  have key : ∀ n, Refused n → verify (normalize num n).text = false := by
    intro n hn
    match n, hn with
    | [], _ => rfl
    | c :: r, hn =>
      have hc : normalize num (c :: r) = ⟨'/' :: r, 0⟩ := by simp only [normalize]; rw [if_pos hn.1]
      rw [hc]
      simp only [verify, List.length_cons, ne_eq, not_true, if_false]
      split
      · rfl
      · next hl =>
        rcases hn.2 with h1 | h1
        · omega
        · rw [List.all_eq_false]
          exact ⟨'/', h1, by simp⟩
  cases o with
  | «open» n ev =>
    have := key n h
    simp only [step, attach, openBuffer, this, if_true]
    rfl
  | close n f =>
    have := key n h
    simp only [step, closeBuffer, this, if_true]

example : Refused [] ∧ Refused ['/', 'a', '/', 'b'] ∧ Refused ['\\', '/'] ∧ ¬ Refused ['/', 'a'] ∧ ¬ Refused ['7', '/'] := by
  simp [Refused]

/-- A first slash and a first backslash make the same segment name. -/
theorem C50_slash (asserts : Bool) (num : List Char → Int) (s : S) (r : List Char) (ev : Env) (f : Bool) :
    step asserts num s (.open ('\\' :: r) ev) = step asserts num s (.open ('/' :: r) ev) ∧
    step asserts num s (.close ('\\' :: r) f) = step asserts num s (.close ('/' :: r) f) := by
  have : normalize num ('\\' :: r) = normalize num ('/' :: r) := by simp [normalize]
  have ho : ∀ s, openBuffer num ev.sys s ('\\' :: r) = openBuffer num ev.sys s ('/' :: r) := by
    intro s; unfold openBuffer; rw [this]
  have hc : ∀ f s, closeBuffer asserts num f s ('\\' :: r) = closeBuffer asserts num f s ('/' :: r) := by
    intro f s; unfold closeBuffer; rw [this]
  constructor
  · simp only [step, attach, ho, hc]
  · simp only [step, hc]

/-! ## Examples -/

/-- Reads the texts of the examples. -/
def exNum (t : List Char) : Int := if t = ['7'] then 7 else if t = ['-', '7'] then -7 else 0

/-- Three opens of the segment 7, one that fails in `mem_attach`, interleaved with another one. -/
def exOps : List Op :=
  [.open ['7'] ⟨.ok 4096, 0, false⟩, .open ['-', '7'] ⟨.getFailed, 0, false⟩, .open ['7'] ⟨.ok 4096, -1, false⟩,
   .open ['7'] ⟨.getFailed, 0, false⟩, .close ['7'] false, .close ['-', '7'] false, .close ['7'] true, .close ['7'] false]

example : (run true exNum S.init exOps).map (fun x => (x.1.log, x.2)) =
    some ([.mapped ['7'], .unmapped ['7']],
      [0, Err.SHM_GET_FAILED, -1, 0, 0, Err.SHM_NOT_FOUND, Err.SHM_CLOSE_FAILED, Err.SHM_NOT_FOUND]) := by decide +kernel

example : SysV exNum ['7'] := ⟨['7'], by decide +kernel, by decide +kernel⟩

example : ¬ SysV exNum ['/', 'a'] := by
  intro ⟨name, h1, h2⟩
  have := sysv_of_text exNum name ['/', 'a'] h1
  exact h2 (this.trans rfl)

/-- `abc` and `xyz` are one POSIX segment named `0`. -/
example : normalize exNum "abc".toList = ⟨['0'], 0⟩ ∧ normalize exNum "xyz".toList = ⟨['0'], 0⟩ := by decide +kernel

end Verif.Shm
