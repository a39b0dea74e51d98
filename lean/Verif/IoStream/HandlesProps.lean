import Verif.IoStream.Handles

/-!
Theorems about the memory a stream channel gives to libuv (C97).  Between two steps every handle is in one of six phases, and every
living object that keeps a handle is the one its phase names; both directions together are the invariant `Inv`.
-/
namespace Verif.IoStream.Handles

/-- Who keeps a handle between two steps. -/
inductive Ph where
  | wait (a : Nat)
  | opn (c : Nat)
  | clA (a : Nat)
  | clP (p : Nat)
  | clC (c : Nat)
  | gone
deriving DecidableEq

/-- The state of a handle and of the object that keeps it. -/
def HOk (s : St) (h : Nat) : Ph → Prop
  | .wait a => (s.hnd h).data = .null ∧ (s.hnd h).refs = 1 ∧ (s.hnd h).closing = none ∧ (s.hnd h).closed = false ∧
      (s.hnd h).freed = false ∧ s.evLoop = some (s.hnd h).loop ∧ (s.asy a).h = h ∧ (s.asy a).live = true ∧ a ∈ s.reqs
  | .opn c => (s.hnd h).data = .conn c ∧ (s.hnd h).refs = 1 ∧ (s.hnd h).closing = none ∧ (s.hnd h).closed = false ∧
      (s.hnd h).freed = false ∧ s.evLoop = some (s.hnd h).loop ∧ (s.con c).h = h ∧ (s.con c).live = true ∧ c ∈ s.pool
  | .clA a => (s.hnd h).data = .async a ∧ (s.hnd h).refs = 1 ∧ (s.hnd h).closing = some .async ∧ (s.hnd h).closed = false ∧
      (s.hnd h).freed = false ∧ (s.lps (s.hnd h).loop).freed = false ∧ (s.hnd h).loop < s.nl ∧ (s.asy a).h = h ∧
      (s.asy a).live = true ∧ a ∉ s.reqs
  | .clP p => (s.hnd h).data = .ptr p ∧ (s.hnd h).refs = 1 ∧ (s.hnd h).closing = some .ptr ∧ (s.hnd h).closed = false ∧
      (s.hnd h).freed = false ∧ (s.lps (s.hnd h).loop).freed = false ∧ (s.hnd h).loop < s.nl ∧ (s.ptr p).h = h ∧
      (s.ptr p).live = true
  | .clC c => (s.hnd h).data = .conn c ∧ (s.hnd h).refs = 1 ∧ (s.hnd h).closing = some .conn ∧ (s.hnd h).closed = false ∧
      (s.hnd h).freed = false ∧ s.evLoop = some (s.hnd h).loop ∧ (s.con c).h = h ∧ (s.con c).live = true ∧ c ∈ s.gc
  | .gone => (s.hnd h).refs = 0 ∧ (s.hnd h).closing ≠ none ∧ (s.hnd h).closed = true ∧ (s.hnd h).freed = true

/-- The invariant: every handle is in its phase, every object belongs to the phase of its handle, and the loops. -/
structure Inv (ph : Nat → Ph) (s : St) : Prop where
  hok : ∀ h, h < s.nh → HOk s h (ph h)
  ra : ∀ a, (s.asy a).live = true → a < s.na ∧ (s.asy a).h < s.nh ∧ (ph (s.asy a).h = .wait a ∨ ph (s.asy a).h = .clA a)
  rq : ∀ a, a ∈ s.reqs → a < s.na ∧ (s.asy a).live = true ∧ (s.asy a).h < s.nh ∧ ph (s.asy a).h = .wait a
  rp : ∀ p, (s.ptr p).live = true → p < s.np ∧ (s.ptr p).h < s.nh ∧ ph (s.ptr p).h = .clP p
  rc : ∀ c, (s.con c).live = true → c < s.nc ∧ (s.con c).h < s.nh ∧ (ph (s.con c).h = .opn c ∨ ph (s.con c).h = .clC c)
  rpool : ∀ c, c ∈ s.pool → c < s.nc ∧ (s.con c).live = true ∧ (s.con c).h < s.nh ∧ ph (s.con c).h = .opn c
  rgc : ∀ c, c ∈ s.gc → c < s.nc ∧ (s.con c).live = true ∧ (s.con c).h < s.nh ∧ ph (s.con c).h = .clC c
  ev : ∀ l, s.evLoop = some l → l < s.nl ∧ (s.lps l).freed = false ∧ (s.lps l).own = s.owner
  own : ∀ l, l < s.nl → (s.lps l).own = true → (s.lps l).freed = false → s.evLoop = some l
  usr : ∀ l, (s.lps l).freed = true → l < s.nl ∧ (s.lps l).own = true

theorem inv_start : Inv (fun _ => .gone) St.start := by
  constructor <;> simp [St.start]

theorem inv_getLoop {ph s} (i : Inv ph s) : Inv ph (getLoop s) := by
  obtain ⟨hok, ra, rq, rp, rc, rpool, rgc, ev, own, usr⟩ := i
  unfold getLoop
  split
  · constructor <;> assumption
  · rename_i hn
    refine ⟨fun h hh => ?_, ra, rq, rp, rc, rpool, rgc, ?_, ?_, ?_⟩
    · have := hok h hh
      revert this
      cases ph h <;> grind [HOk, upd]
    · grind [upd]
    · grind [upd]
    · grind [upd]

/-! ### What the functions do -/

theorem upd_upd {α : Type} (f : Nat → α) (i : Nat) (v w : α) : upd (upd f i v) i w = upd f i w := by
  funext x
  simp only [upd]
  split <;> rfl

theorem upd_same {α : Type} (f : Nat → α) (i : Nat) (v : α) : upd f i v i = v := if_pos rfl

/-- A new handle with a connect request. -/
def newWait (s : St) (l : Nat) : St :=
  { s with hnd := upd s.hnd s.nh ⟨l, .null, 1, none, false, false⟩, nh := s.nh + 1
           asy := upd s.asy s.na ⟨s.nh, true⟩, na := s.na + 1, reqs := s.reqs ++ [s.na] }

/-- A new handle with a connection. -/
def newOpn (s : St) (l : Nat) : St :=
  { s with hnd := upd s.hnd s.nh ⟨l, .conn s.nc, 1, none, false, false⟩, nh := s.nh + 1
           con := upd s.con s.nc ⟨s.nh, true⟩, nc := s.nc + 1, pool := s.pool ++ [s.nc] }

/-- A new handle whose connect request was refused. -/
def newClA (s : St) (l : Nat) : St :=
  { s with hnd := upd s.hnd s.nh ⟨l, .async s.na, 1, some .async, false, false⟩, nh := s.nh + 1
           asy := upd s.asy s.na ⟨s.nh, true⟩, na := s.na + 1 }

/-- A new handle that is closed at once. -/
def newClP (s : St) (l : Nat) : St :=
  { s with hnd := upd s.hnd s.nh ⟨l, .ptr s.np, 1, some .ptr, false, false⟩, nh := s.nh + 1
           ptr := upd s.ptr s.np ⟨s.nh, true⟩, np := s.np + 1 }

theorem inv_newWait {ph s l} (i : Inv ph s) (hl : s.evLoop = some l) : Inv (upd ph s.nh (.wait s.na)) (newWait s l) := by
  obtain ⟨hok, ra, rq, rp, rc, rpool, rgc, ev, own, usr⟩ := i
  refine ⟨fun h hh => ?_, ?_, ?_, ?_, ?_, ?_, ?_, ev, own, usr⟩
  · by_cases e : h = s.nh
    · subst e
      rw [upd_same]
      simp [HOk, newWait, upd_same, hl, ev l hl]
      try grind
    · have e' : upd ph s.nh (Ph.wait s.na) h = ph h := if_neg e
      have hn : h < s.nh := Nat.lt_of_le_of_ne (Nat.le_of_lt_succ hh) e
      have h1 := hok h hn
      clear hok hh
      rw [e']
      revert h1
      cases hp : ph h <;> simp only [HOk, newWait, upd, if_neg e] <;> grind
  all_goals (clear hok; intro x hx; simp only [newWait, upd] at hx ⊢; grind)

theorem inv_newOpn {ph s l} (i : Inv ph s) (hl : s.evLoop = some l) : Inv (upd ph s.nh (.opn s.nc)) (newOpn s l) := by
  obtain ⟨hok, ra, rq, rp, rc, rpool, rgc, ev, own, usr⟩ := i
  refine ⟨fun h hh => ?_, ?_, ?_, ?_, ?_, ?_, ?_, ev, own, usr⟩
  · by_cases e : h = s.nh
    · subst e
      rw [upd_same]
      simp [HOk, newOpn, upd_same, hl, ev l hl]
      try grind
    · have e' : upd ph s.nh (Ph.opn s.nc) h = ph h := if_neg e
      have hn : h < s.nh := Nat.lt_of_le_of_ne (Nat.le_of_lt_succ hh) e
      have h1 := hok h hn
      clear hok hh
      rw [e']
      revert h1
      cases hp : ph h <;> simp only [HOk, newOpn, upd, if_neg e] <;> grind
  all_goals (clear hok; intro x hx; simp only [newOpn, upd] at hx ⊢; grind)

theorem inv_newClA {ph s l} (i : Inv ph s) (hl : s.evLoop = some l) : Inv (upd ph s.nh (.clA s.na)) (newClA s l) := by
  obtain ⟨hok, ra, rq, rp, rc, rpool, rgc, ev, own, usr⟩ := i
  refine ⟨fun h hh => ?_, ?_, ?_, ?_, ?_, ?_, ?_, ev, own, usr⟩
  · by_cases e : h = s.nh
    · subst e
      rw [upd_same]
      simp [HOk, newClA, upd_same, hl, ev l hl]
      try grind
    · have e' : upd ph s.nh (Ph.clA s.na) h = ph h := if_neg e
      have hn : h < s.nh := Nat.lt_of_le_of_ne (Nat.le_of_lt_succ hh) e
      have h1 := hok h hn
      clear hok hh
      rw [e']
      revert h1
      cases hp : ph h <;> simp only [HOk, newClA, upd, if_neg e] <;> grind
  all_goals (clear hok; intro x hx; simp only [newClA, upd] at hx ⊢; grind)

theorem inv_newClP {ph s l} (i : Inv ph s) (hl : s.evLoop = some l) : Inv (upd ph s.nh (.clP s.np)) (newClP s l) := by
  obtain ⟨hok, ra, rq, rp, rc, rpool, rgc, ev, own, usr⟩ := i
  refine ⟨fun h hh => ?_, ?_, ?_, ?_, ?_, ?_, ?_, ev, own, usr⟩
  · by_cases e : h = s.nh
    · subst e
      rw [upd_same]
      simp [HOk, newClP, upd_same, hl, ev l hl]
      try grind
    · have e' : upd ph s.nh (Ph.clP s.np) h = ph h := if_neg e
      have hn : h < s.nh := Nat.lt_of_le_of_ne (Nat.le_of_lt_succ hh) e
      have h1 := hok h hn
      clear hok hh
      rw [e']
      revert h1
      cases hp : ph h <;> simp only [HOk, newClP, upd, if_neg e] <;> grind
  all_goals (clear hok; intro x hx; simp only [newClP, upd] at hx ⊢; grind)

theorem listen_true {s l} (hc : s.closing = false) (hl : (getLoop s).evLoop = some l) (hf : ((getLoop s).lps l).freed = false) :
    listen s true = some (newOpn (getLoop s) l) := by
  simp [listen, hc, hl, makeStream, hf, makeConn, release, retain, setData, upd_same, upd_upd, newOpn]

theorem listen_false {s l} (hc : s.closing = false) (hl : (getLoop s).evLoop = some l) (hf : ((getLoop s).lps l).freed = false) :
    listen s false = some (newClP (getLoop s) l) := by
  simp [listen, hc, hl, makeStream, hf, shutdownPtr, uvClose, release, retain, setData, upd_same, upd_upd, newClP]

theorem connect_true {s l} (hc : s.closing = false) (hl : (getLoop s).evLoop = some l) (hf : ((getLoop s).lps l).freed = false) :
    connect s true = some (newWait (getLoop s) l) := by
  simp [connect, hc, hl, makeStream, hf, release, retain, upd_same, upd_upd, newWait]

theorem connect_false {s l} (hc : s.closing = false) (hl : (getLoop s).evLoop = some l) (hf : ((getLoop s).lps l).freed = false) :
    connect s false = some (newClA (getLoop s) l) := by
  simp [connect, hc, hl, makeStream, hf, shutdownAsync, uvClose, release, retain, setData, upd_same, upd_upd, newClA]

/-! ### Changes of an existing handle -/

/-- A connect request becomes a connection. -/
def toOpn (s : St) (a : Nat) : St :=
  { s with hnd := upd s.hnd (s.asy a).h { s.hnd (s.asy a).h with data := .conn s.nc }
           con := upd s.con s.nc ⟨(s.asy a).h, true⟩, nc := s.nc + 1, pool := s.pool ++ [s.nc]
           asy := upd s.asy a { s.asy a with live := false }, reqs := s.reqs.filter (· ≠ a) }

/-- A connect request fails. -/
def toClA (s : St) (a : Nat) : St :=
  { s with hnd := upd s.hnd (s.asy a).h { s.hnd (s.asy a).h with data := .async a, closing := some .async }
           reqs := s.reqs.filter (· ≠ a) }

/-- A connection is closed. -/
def toClC (s : St) (c : Nat) : St :=
  { s with hnd := upd s.hnd (s.con c).h { s.hnd (s.con c).h with closing := some .conn }
           pool := s.pool.filter (· ≠ c), gc := s.gc ++ [c] }

/-- A closed handle goes with the data of its request. -/
def goneA (s : St) (a : Nat) : St :=
  { s with hnd := upd s.hnd (s.asy a).h { s.hnd (s.asy a).h with closed := true, refs := 0, freed := true }
           asy := upd s.asy a { s.asy a with live := false } }

/-- A closed handle goes with the pointer on the heap. -/
def goneP (s : St) (p : Nat) : St :=
  { s with hnd := upd s.hnd (s.ptr p).h { s.hnd (s.ptr p).h with closed := true, refs := 0, freed := true }
           ptr := upd s.ptr p { s.ptr p with live := false } }

/-- A closed handle goes with its connection. -/
def goneC (s : St) (c : Nat) : St :=
  { s with hnd := upd s.hnd (s.con c).h { s.hnd (s.con c).h with closed := true, refs := 0, freed := true }
           con := upd s.con c { s.con c with live := false }, gc := s.gc.filter (· ≠ c) }

theorem inv_toOpn {ph s a} (i : Inv ph s) (hl : (s.asy a).live = true) (hp : ph (s.asy a).h = .wait a) :
    Inv (upd ph (s.asy a).h (.opn s.nc)) (toOpn s a) := by
  obtain ⟨hok, ra, rq, rp, rc, rpool, rgc, ev, own, usr⟩ := i
  have hx := hok (s.asy a).h (by grind)
  rw [hp] at hx
  simp only [HOk] at hx
  refine ⟨fun h hh => ?_, ?_, ?_, ?_, ?_, ?_, ?_, ev, own, usr⟩
  · by_cases e : h = (s.asy a).h
    · subst e
      rw [upd_same]
      clear hok
      simp only [HOk, toOpn, upd_same]
      grind [upd]
    · have e' : upd ph (s.asy a).h (Ph.opn s.nc) h = ph h := if_neg e
      have h1 := hok h hh
      clear hok hh
      rw [e']
      revert h1
      cases hq : ph h <;> simp only [HOk, toOpn, upd, if_neg e] <;> grind
  all_goals (clear hok; intro x hx; simp only [toOpn, upd] at hx ⊢; grind)

theorem inv_toClA {ph s a} (i : Inv ph s) (hl : (s.asy a).live = true) (hp : ph (s.asy a).h = .wait a) :
    Inv (upd ph (s.asy a).h (.clA a)) (toClA s a) := by
  obtain ⟨hok, ra, rq, rp, rc, rpool, rgc, ev, own, usr⟩ := i
  have hx := hok (s.asy a).h (by grind)
  rw [hp] at hx
  simp only [HOk] at hx
  refine ⟨fun h hh => ?_, ?_, ?_, ?_, ?_, ?_, ?_, ev, own, usr⟩
  · by_cases e : h = (s.asy a).h
    · subst e
      rw [upd_same]
      clear hok
      simp only [HOk, toClA, upd_same]
      grind [upd]
    · have e' : upd ph (s.asy a).h (Ph.clA a) h = ph h := if_neg e
      have h1 := hok h hh
      clear hok hh
      rw [e']
      revert h1
      cases hq : ph h <;> simp only [HOk, toClA, upd, if_neg e] <;> grind
  all_goals (clear hok; intro x hx; simp only [toClA, upd] at hx ⊢; grind)

theorem inv_toClC {ph s a} (i : Inv ph s) (hl : (s.con a).live = true) (hp : ph (s.con a).h = .opn a) :
    Inv (upd ph (s.con a).h (.clC a)) (toClC s a) := by
  obtain ⟨hok, ra, rq, rp, rc, rpool, rgc, ev, own, usr⟩ := i
  have hx := hok (s.con a).h (by grind)
  rw [hp] at hx
  simp only [HOk] at hx
  refine ⟨fun h hh => ?_, ?_, ?_, ?_, ?_, ?_, ?_, ev, own, usr⟩
  · by_cases e : h = (s.con a).h
    · subst e
      rw [upd_same]
      clear hok
      simp only [HOk, toClC, upd_same]
      grind [upd]
    · have e' : upd ph (s.con a).h (Ph.clC a) h = ph h := if_neg e
      have h1 := hok h hh
      clear hok hh
      rw [e']
      revert h1
      cases hq : ph h <;> simp only [HOk, toClC, upd, if_neg e] <;> grind
  all_goals (clear hok; intro x hx; simp only [toClC, upd] at hx ⊢; grind)

theorem inv_goneA {ph s a} (i : Inv ph s) (hl : (s.asy a).live = true) (hp : ph (s.asy a).h = .clA a) :
    Inv (upd ph (s.asy a).h (.gone)) (goneA s a) := by
  obtain ⟨hok, ra, rq, rp, rc, rpool, rgc, ev, own, usr⟩ := i
  have hx := hok (s.asy a).h (by grind)
  rw [hp] at hx
  simp only [HOk] at hx
  refine ⟨fun h hh => ?_, ?_, ?_, ?_, ?_, ?_, ?_, ev, own, usr⟩
  · by_cases e : h = (s.asy a).h
    · subst e
      rw [upd_same]
      clear hok
      simp only [HOk, goneA, upd_same]
      grind [upd]
    · have e' : upd ph (s.asy a).h (Ph.gone) h = ph h := if_neg e
      have h1 := hok h hh
      clear hok hh
      rw [e']
      revert h1
      cases hq : ph h <;> simp only [HOk, goneA, upd, if_neg e] <;> grind
  all_goals (clear hok; intro x hx; simp only [goneA, upd] at hx ⊢; grind)

theorem inv_goneP {ph s a} (i : Inv ph s) (hl : (s.ptr a).live = true) (hp : ph (s.ptr a).h = .clP a) :
    Inv (upd ph (s.ptr a).h (.gone)) (goneP s a) := by
  obtain ⟨hok, ra, rq, rp, rc, rpool, rgc, ev, own, usr⟩ := i
  have hx := hok (s.ptr a).h (by grind)
  rw [hp] at hx
  simp only [HOk] at hx
  refine ⟨fun h hh => ?_, ?_, ?_, ?_, ?_, ?_, ?_, ev, own, usr⟩
  · by_cases e : h = (s.ptr a).h
    · subst e
      rw [upd_same]
      clear hok
      simp only [HOk, goneP, upd_same]
      grind [upd]
    · have e' : upd ph (s.ptr a).h (Ph.gone) h = ph h := if_neg e
      have h1 := hok h hh
      clear hok hh
      rw [e']
      revert h1
      cases hq : ph h <;> simp only [HOk, goneP, upd, if_neg e] <;> grind
  all_goals (clear hok; intro x hx; simp only [goneP, upd] at hx ⊢; grind)

theorem inv_goneC {ph s a} (i : Inv ph s) (hl : (s.con a).live = true) (hp : ph (s.con a).h = .clC a) :
    Inv (upd ph (s.con a).h (.gone)) (goneC s a) := by
  obtain ⟨hok, ra, rq, rp, rc, rpool, rgc, ev, own, usr⟩ := i
  have hx := hok (s.con a).h (by grind)
  rw [hp] at hx
  simp only [HOk] at hx
  refine ⟨fun h hh => ?_, ?_, ?_, ?_, ?_, ?_, ?_, ev, own, usr⟩
  · by_cases e : h = (s.con a).h
    · subst e
      rw [upd_same]
      clear hok
      simp only [HOk, goneC, upd_same]
      grind [upd]
    · have e' : upd ph (s.con a).h (Ph.gone) h = ph h := if_neg e
      have h1 := hok h hh
      clear hok hh
      rw [e']
      revert h1
      cases hq : ph h <;> simp only [HOk, goneC, upd, if_neg e] <;> grind
  all_goals (clear hok; intro x hx; simp only [goneC, upd] at hx ⊢; grind)

/-! ### Steps -/

theorem getLoop_some {ph s} (i : Inv ph s) :
    ∃ l, (getLoop s).evLoop = some l ∧ ((getLoop s).lps l).freed = false := by
  have j := inv_getLoop i
  have : ∃ l, (getLoop s).evLoop = some l := by
    unfold getLoop
    split
    · rename_i l h; exact ⟨l, h⟩
    · exact ⟨_, rfl⟩
  obtain ⟨l, hl⟩ := this
  exact ⟨l, hl, (j.ev l hl).2.1⟩

theorem step_listen {ph s} (i : Inv ph s) (ok : Bool) : ∃ s' ph', listen s ok = some s' ∧ Inv ph' s' := by
  by_cases hc : s.closing = true
  · exact ⟨s, ph, by simp [listen, hc], i⟩
  · obtain ⟨l, hl, hf⟩ := getLoop_some i
    have hc' : s.closing = false := by simpa using hc
    have j := inv_getLoop i
    cases ok
    · exact ⟨_, _, listen_false hc' hl hf, inv_newClP j hl⟩
    · exact ⟨_, _, listen_true hc' hl hf, inv_newOpn j hl⟩

theorem step_connect {ph s} (i : Inv ph s) (ok : Bool) : ∃ s' ph', connect s ok = some s' ∧ Inv ph' s' := by
  by_cases hc : s.closing = true
  · exact ⟨s, ph, by simp [connect, hc], i⟩
  · obtain ⟨l, hl, hf⟩ := getLoop_some i
    have hc' : s.closing = false := by simpa using hc
    have j := inv_getLoop i
    cases ok
    · exact ⟨_, _, connect_false hc' hl hf, inv_newClA j hl⟩
    · exact ⟨_, _, connect_true hc' hl hf, inv_newWait j hl⟩

theorem step_connected {ph s a} (i : Inv ph s) (ha : a ∈ s.reqs) (ok f : Bool) :
    ∃ s' ph', connected s a ok f = some s' ∧ Inv ph' s' := by
  obtain ⟨_, hl, hh, hp⟩ := i.rq a ha
  have hx := i.hok _ hh
  rw [hp] at hx
  obtain ⟨x1, x2, x3, x4, x5, x6, -, -, -⟩ := hx
  by_cases hc : ok = true ∧ ¬ s.closing = true ∧ f = true
  · refine ⟨toOpn s a, _, ?_, inv_toOpn i hl hp⟩
    simp [connected, hl, hc, makeConn, x5, deleteAsync, release, retain, setData, upd_same, upd_upd, x2, toOpn]
  · refine ⟨toClA s a, _, ?_, inv_toClA i hl hp⟩
    have hc' : ¬ (ok = true ∧ s.closing = false ∧ f = true) := by simpa using hc
    have := (i.ev _ x6).2.1
    simp [connected, hl, hc', shutdownAsync, uvClose, setData, upd_same, upd_upd, x1, x3, x5, this, toClA]

theorem step_accept {ph s c} (i : Inv ph s) (hc : c ∈ s.pool) (ok acc f : Bool) :
    ∃ s' ph', accept s c ok acc f = some s' ∧ Inv ph' s' := by
  obtain ⟨_, hl, hh, hp⟩ := i.rpool c hc
  have hx := i.hok _ hh
  rw [hp] at hx
  obtain ⟨x1, x2, x3, x4, x5, x6, -, -, -⟩ := hx
  have hf := (i.ev _ x6).2.1
  cases ok
  · exact ⟨s, ph, by simp [accept, hl, x1], i⟩
  · by_cases hb : acc = true ∧ s.closing = false ∧ f = true
    · refine ⟨newOpn s (s.hnd (s.con c).h).loop, _, ?_, inv_newOpn i x6⟩
      simp [accept, hl, x1, hb, makeStream, hf, makeConn, release, retain, setData, upd_same, upd_upd, newOpn]
    · refine ⟨newClP s (s.hnd (s.con c).h).loop, _, ?_, inv_newClP i x6⟩
      simp [accept, hl, x1, hb, makeStream, hf, shutdownPtr, uvClose, release, retain, setData, upd_same, upd_upd, newClP]

theorem step_disconnect {ph s c} (i : Inv ph s) (hc : c ∈ s.pool ∨ c ∈ s.gc) :
    ∃ s' ph', disconnect s c = some s' ∧ Inv ph' s' ∧ ∀ d, d ∈ s.pool ∨ d ∈ s.gc → d ∈ s'.pool ∨ d ∈ s'.gc := by
  by_cases hg : c ∈ s.gc
  · exact ⟨s, ph, by simp [disconnect, (i.rgc c hg).2.1, hg], i, fun d hd => hd⟩
  · have hc' : c ∈ s.pool := hc.resolve_right hg
    obtain ⟨_, hl, hh, hp⟩ := i.rpool c hc'
    have hx := i.hok _ hh
    rw [hp] at hx
    obtain ⟨x1, x2, x3, x4, x5, x6, -, -, -⟩ := hx
    have hf := (i.ev _ x6).2.1
    refine ⟨toClC s c, _, ?_, inv_toClC i hl hp, ?_⟩
    · simp [disconnect, hl, hg, shutdownConn, x1, hc', uvClose, x3, x5, hf, toClC]
    · intro d hd
      simp only [toClC, List.mem_filter, List.mem_append, List.mem_singleton]
      grind

theorem step_onClose {ph s h} (i : Inv ph s) (hh : h < s.nh) (hc : (s.hnd h).closing.isSome = true) (hd : (s.hnd h).closed = false) :
    ∃ s' ph', onClose s h = some s' ∧ Inv ph' s' := by
  have hx := i.hok h hh
  cases hp : ph h with
  | wait a => rw [hp] at hx; simp [HOk] at hx; simp [hx] at hc
  | opn c => rw [hp] at hx; simp [HOk] at hx; simp [hx] at hc
  | gone => rw [hp] at hx; simp [HOk] at hx; simp [hx] at hd
  | clA a =>
    rw [hp] at hx
    obtain ⟨x1, x2, x3, x4, x5, x6, x7, x8, x9, -⟩ := hx
    subst x8
    refine ⟨goneA s a, _, ?_, inv_goneA i x9 hp⟩
    simp [onClose, x5, x3, x1, x9, deleteAsync, release, upd_same, upd_upd, x2, goneA]
  | clP a =>
    rw [hp] at hx
    obtain ⟨x1, x2, x3, x4, x5, x6, x7, x8, x9⟩ := hx
    subst x8
    refine ⟨goneP s a, _, ?_, inv_goneP i x9 hp⟩
    simp [onClose, x5, x3, x1, x9, release, upd_same, upd_upd, x2, goneP]
  | clC a =>
    rw [hp] at hx
    obtain ⟨x1, x2, x3, x4, x5, x6, x7, x8, x9⟩ := hx
    subst x7
    refine ⟨goneC s a, _, ?_, inv_goneC i x8 hp⟩
    simp [onClose, x5, x3, x1, x8, x9, release, upd_same, upd_upd, x2, goneC]

theorem step_all : ∀ (L : List Nat) {ph s}, Inv ph s → (∀ c, c ∈ L → c ∈ s.pool ∨ c ∈ s.gc) →
    ∃ s' ph', disconnectAll s L = some s' ∧ Inv ph' s'
  | [], ph, s, i, _ => ⟨s, ph, rfl, i⟩
  | c :: t, ph, s, i, h => by
    obtain ⟨s1, ph1, e1, i1, k1⟩ := step_disconnect i (h c List.mem_cons_self)
    obtain ⟨s2, ph2, e2, i2⟩ := step_all t i1 fun d hd => k1 d (h d (List.mem_cons_of_mem _ hd))
    exact ⟨s2, ph2, by rw [disconnectAll, e1]; exact e2, i2⟩

theorem inv_closing {ph s} (i : Inv ph s) (b : Bool) : Inv ph { s with closing := b } := by
  obtain ⟨hok, ra, rq, rp, rc, rpool, rgc, ev, own, usr⟩ := i
  refine ⟨fun h hh => ?_, ra, rq, rp, rc, rpool, rgc, ev, own, usr⟩
  have := hok h hh
  revert this
  cases ph h <;> exact fun x => x

theorem step_init {ph s} (i : Inv ph s) (he : s.evLoop = none) (u : Bool) : Inv ph (initCh s u) := by
  obtain ⟨hok, ra, rq, rp, rc, rpool, rgc, ev, own, usr⟩ := i
  cases u
  · refine ⟨fun h hh => ?_, ra, rq, rp, rc, rpool, rgc, ?_, ?_, usr⟩
    · have := hok h hh
      revert this
      cases ph h <;> simp [HOk, initCh, he] <;> grind
    · simp [initCh]
    · simpa [initCh, he] using own
  · refine ⟨fun h hh => ?_, ra, rq, rp, rc, rpool, rgc, ?_, ?_, ?_⟩
    · have := hok h hh
      revert this
      cases ph h <;> simp only [HOk, initCh, upd, if_true] <;> grind
    · intro l; simp only [initCh, if_true, upd]; grind
    · intro l; simp only [initCh, if_true, upd]; grind
    · intro l; simp only [initCh, if_true, upd]; grind

theorem busy_false {s l} (h : busy s l = false) : ∀ k, k < s.nh → (s.hnd k).loop = l → (s.hnd k).closed = true := by
  intro k hk hl
  have := List.any_eq_false.1 h k (List.mem_range.2 hk)
  simpa [hl] using this

theorem step_closeEnd {ph s} (i : Inv ph s) (hw : waits s = false) :
    ∃ s', closeEnd s = some s' ∧ Inv ph s' ∧ s'.evLoop = none ∧ s'.hnd = s.hnd ∧ s'.nh = s.nh ∧ s'.pool = s.pool ∧ s'.gc = s.gc ∧
      s'.reqs = s.reqs := by
  obtain ⟨hok, ra, rq, rp, rc, rpool, rgc, ev, own, usr⟩ := i
  cases he : s.evLoop with
  | none =>
    refine ⟨{ s with closing := false }, by simp [closeEnd, he, hw], inv_closing ⟨hok, ra, rq, rp, rc, rpool, rgc, ev, own, usr⟩ _, he,
      rfl, rfl, rfl, rfl, rfl⟩
  | some l =>
    obtain ⟨e1, e2, e3⟩ := ev l he
    by_cases ho : s.owner = true
    · have hb : busy s l = false := by simpa [waits, he, ho] using hw
      have hb' := busy_false hb
      refine ⟨{ s with lps := upd s.lps l { s.lps l with freed := true }, evLoop := none, closing := false },
        by simp [closeEnd, he, ho, e2], ⟨fun h hh => ?_, ra, rq, rp, rc, rpool, rgc, ?_, ?_, ?_⟩, rfl, rfl, rfl, rfl, rfl, rfl⟩
      · have h1 := hok h hh
        have h2 := hb' h hh
        revert h1
        clear hok
        cases ph h <;> simp only [HOk, upd] <;> grind
      · simp
      · intro k; simp only [upd]; grind
      · intro k; simp only [upd]; grind
    · have ho' : s.owner = false := by simpa using ho
      have hb : (s.pool = [] ∧ s.gc = []) ∧ s.reqs = [] := by simpa [waits, he, ho'] using hw
      refine ⟨{ s with evLoop := none, closing := false },
        by simp [closeEnd, he, ho'], ⟨fun h hh => ?_, ra, rq, rp, rc, rpool, rgc, ?_, ?_, usr⟩, rfl, rfl, rfl, rfl, rfl, rfl⟩
      · have h1 := hok h hh
        revert h1
        cases ph h <;> simp [HOk, hb]
        all_goals grind
      · simp
      · intro k; grind

theorem step_inv {ph s e} (i : Inv ph s) (hc : can s e = true) : ∃ s' ph', step s e = some s' ∧ Inv ph' s' := by
  cases e with
  | init u =>
    have : s.evLoop = none ∧ s.closing = false := by simpa [can] using hc
    exact ⟨_, ph, rfl, step_init i this.1 u⟩
  | run => exact ⟨_, ph, rfl, inv_getLoop i⟩
  | listen ok => exact step_listen i ok
  | connect ok => exact step_connect i ok
  | connected a ok f => exact step_connected i (by simpa [can] using hc) ok f
  | accept l ok a f =>
    have : l ∈ s.pool ∧ (s.hnd (s.con l).h).closing = none := by simpa [can] using hc
    exact step_accept i this.1 ok a f
  | disconnect c =>
    obtain ⟨s', ph', h1, h2, _⟩ := step_disconnect i (c := c) (by simpa [can] using hc)
    exact ⟨s', ph', h1, h2⟩
  | closed h =>
    have : (h < s.nh ∧ (s.hnd h).closing.isSome = true) ∧ (s.hnd h).closed = false := by simpa [can] using hc
    exact step_onClose i this.1.1 this.1.2 this.2
  | close late =>
    refine step_all _ (inv_closing i true) fun c hc => Or.inl ?_
    exact (List.mem_filter.1 hc).1
  | closeEnd =>
    have : s.closing = true ∧ waits s = false := by simpa [can] using hc
    obtain ⟨s', h1, h2, _⟩ := step_closeEnd i this.2
    exact ⟨s', ph, h1, h2⟩

theorem run_inv : ∀ (es : List Ev) {ph s s'}, Inv ph s → run s es = some s' → ∃ ph', Inv ph' s'
  | [], ph, s, s', i, h => by
    obtain rfl : s = s' := Option.some.inj h
    exact ⟨ph, i⟩
  | e :: t, ph, s, s', i, h => by
    unfold run at h
    split at h
    · rename_i hc
      obtain ⟨s1, ph1, e1, i1⟩ := step_inv i hc
      rw [e1] at h
      exact run_inv t i1 h
    · cases h

/-! ### C97 -/

/-- The object keeps the handle: a connection, the data of a connect request, or a pointer on the heap. -/
def Keeps (s : St) (h : Nat) : Data → Prop
  | .conn c => (s.con c).live = true ∧ (s.con c).h = h
  | .async a => (s.asy a).live = true ∧ (s.asy a).h = h
  | .ptr p => (s.ptr p).live = true ∧ (s.ptr p).h = h
  | .null => False

/-- A history with every way to make and to lose a handle, on a loop of the channel. -/
def exOwn : List Ev :=
  [.init false, .listen true, .listen false, .connect true, .connect true, .connect false, .accept 0 true true true,
   .accept 0 true false true, .accept 0 false true true, .closed 1, .connected 0 true true, .disconnect 1, .disconnect 1,
   .close [2], .connected 1 true true, .disconnect 2, .closed 0, .closed 4, .closed 2, .closed 3, .closed 6, .closed 5]

/-- The same on a loop of the application: a refused connection is still closing when `io_stream_close` returns. -/
def exUser : List Ev := [.init true, .listen true, .connect false, .close [], .closed 0]

/-- **C97, no undefined behaviour.**  In every history a step that can happen is defined: no freed handle, connection or
request is used, no handle is given to `uv_close` twice or freed before libuv reported it as closed, its
`data` always has the type the callback expects, and no freed or missing loop is run. -/
theorem C97_safe {es s} (hr : run St.start es = some s) (e : Ev) (hc : can s e = true) : ∃ s', step s e = some s' := by
  obtain ⟨ph, i⟩ := run_inv es inv_start hr
  obtain ⟨s', _, h, _⟩ := step_inv i hc
  exact ⟨s', h⟩

example : ((run St.start exOwn).map fun s => (s.nh, s.nc, can s .closeEnd)) = some (7, 3, true) := by decide +kernel

/-- **C97, a handle is freed exactly when libuv reported it as closed,** and only handles given to `uv_close` are. -/
theorem C97_freed {es s} (hr : run St.start es = some s) {h : Nat} (hh : h < s.nh) :
    ((s.hnd h).freed = true ↔ (s.hnd h).closed = true) ∧ ((s.hnd h).freed = true → (s.hnd h).closing ≠ none) := by
  obtain ⟨ph, i⟩ := run_inv es inv_start hr
  have hx := i.hok h hh
  revert hx
  cases ph h <;> simp only [HOk] <;> grind

example : ((run St.start (exOwn.take 10)).map fun s => (List.range s.nh).map fun h => ((s.hnd h).closing.isSome, (s.hnd h).freed)) =
    some [(false, false), (true, true), (false, false), (false, false), (true, false), (false, false), (true, false)] := by
  decide +kernel

/-- **C97, one owner.**  Every handle that was not freed is kept by exactly one object, and the object keeps no other; a
freed handle is kept by none. -/
theorem C97_owner {es s} (hr : run St.start es = some s) {h : Nat} (hh : h < s.nh) :
    ((s.hnd h).freed = false → ∃ o, Keeps s h o ∧ ∀ o', Keeps s h o' → o' = o) ∧
    ((s.hnd h).freed = true → ∀ o, ¬ Keeps s h o) := by
  obtain ⟨ph, i⟩ := run_inv es inv_start hr
  obtain ⟨hok, ra, rq, rp, rc, rpool, rgc, ev, own, usr⟩ := i
  have hx := hok h hh
  clear hok
  revert hx
  cases hp : ph h with
  | wait a =>
    simp only [HOk]
    intro hx
    refine ⟨fun _ => ⟨.async a, ⟨hx.2.2.2.2.2.2.2.1, hx.2.2.2.2.2.2.1⟩, fun o' => ?_⟩, by grind⟩
    cases o' <;> simp only [Keeps] <;> grind
  | opn a =>
    simp only [HOk]
    intro hx
    refine ⟨fun _ => ⟨.conn a, ⟨hx.2.2.2.2.2.2.2.1, hx.2.2.2.2.2.2.1⟩, fun o' => ?_⟩, by grind⟩
    cases o' <;> simp only [Keeps] <;> grind
  | clA a =>
    simp only [HOk]
    intro hx
    refine ⟨fun _ => ⟨.async a, ⟨hx.2.2.2.2.2.2.2.2.1, hx.2.2.2.2.2.2.2.1⟩, fun o' => ?_⟩, by grind⟩
    cases o' <;> simp only [Keeps] <;> grind
  | clP a =>
    simp only [HOk]
    intro hx
    refine ⟨fun _ => ⟨.ptr a, ⟨hx.2.2.2.2.2.2.2.2, hx.2.2.2.2.2.2.2.1⟩, fun o' => ?_⟩, by grind⟩
    cases o' <;> simp only [Keeps] <;> grind
  | clC a =>
    simp only [HOk]
    intro hx
    refine ⟨fun _ => ⟨.conn a, ⟨hx.2.2.2.2.2.2.2.1, hx.2.2.2.2.2.2.1⟩, fun o' => ?_⟩, by grind⟩
    cases o' <;> simp only [Keeps] <;> grind
  | gone =>
    simp only [HOk]
    intro hx
    refine ⟨by grind, fun _ o => ?_⟩
    cases o <;> simp only [Keeps] <;> grind

example : ((run St.start (exOwn.take 10)).map fun s => (List.range s.nh).map fun h =>
      ((s.hnd h).refs, (List.range s.nc).map (fun c => (s.con c).live && (s.con c).h == h),
        (List.range s.na).map (fun a => (s.asy a).live && (s.asy a).h == h))) =
    some [(1, [true, false], [false, false, false]), (0, [false, false], [false, false, false]), (1, [false, false], [true, false, false]),
      (1, [false, false], [false, true, false]), (1, [false, false], [false, false, true]), (1, [false, true], [false, false, false]),
      (1, [false, false], [false, false, false])] := by
  decide +kernel

/-- **C97, no object keeps a freed handle.** -/
theorem C97_dangling {es s} (hr : run St.start es = some s) {h : Nat} {o : Data} (hk : Keeps s h o) :
    h < s.nh ∧ (s.hnd h).freed = false := by
  obtain ⟨ph, i⟩ := run_inv es inv_start hr
  have hh : h < s.nh := by
    obtain ⟨hok, ra, rq, rp, rc, rpool, rgc, ev, own, usr⟩ := i
    revert hk
    cases o <;> simp only [Keeps] <;> grind
  refine ⟨hh, ?_⟩
  cases hf : (s.hnd h).freed with
  | false => rfl
  | true => exact absurd hk ((C97_owner hr hh).2 hf o)

example : ((run St.start exOwn).map fun s => ((List.range 3).map fun c => (s.con c).live, (List.range 3).map fun a => (s.asy a).live,
    (List.range 2).map fun p => (s.ptr p).live)) = some ([false, false, false], [false, false, false], [false, false]) := by
  decide +kernel

/-- **C97, nothing is leaked.**  If no connection is open, libuv works on no connect request and reported every handle given to
`uv_close`, then every handle was freed, and so was everything that kept one. -/
theorem C97_leak {es s} (hr : run St.start es = some s) (h1 : s.reqs = []) (h2 : s.pool = [])
    (h3 : ∀ h, h < s.nh → (s.hnd h).closing ≠ none → (s.hnd h).closed = true) :
    (∀ h, h < s.nh → (s.hnd h).freed = true) ∧ (∀ c, (s.con c).live = false) ∧ (∀ a, (s.asy a).live = false) ∧
      (∀ p, (s.ptr p).live = false) ∧ s.gc = [] := by
  obtain ⟨ph, i⟩ := run_inv es inv_start hr
  have key : ∀ h, h < s.nh → (s.hnd h).freed = true := by
    intro h hh
    have hx := i.hok h hh
    have h4 := h3 h hh
    revert hx
    cases ph h <;> simp only [HOk] <;> grind
  have no : ∀ h o, ¬ Keeps s h o := by
    intro h o hk
    obtain ⟨hh, hf⟩ := C97_dangling hr hk
    rw [key h hh] at hf
    cases hf
  refine ⟨key, fun c => ?_, fun a => ?_, fun p => ?_, ?_⟩
  · cases hl : (s.con c).live with
    | false => rfl
    | true => exact absurd ⟨hl, rfl⟩ (no (s.con c).h (.conn c))
  · cases hl : (s.asy a).live with
    | false => rfl
    | true => exact absurd ⟨hl, rfl⟩ (no (s.asy a).h (.async a))
  · cases hl : (s.ptr p).live with
    | false => rfl
    | true => exact absurd ⟨hl, rfl⟩ (no (s.ptr p).h (.ptr p))
  · cases hg : s.gc with
    | nil => rfl
    | cons c t =>
      have := (i.rgc c (by rw [hg]; exact List.mem_cons_self)).2.1
      exact absurd ⟨this, rfl⟩ (no (s.con c).h (.conn c))

example : ((run St.start exOwn).map fun s => (s.reqs, s.pool, (List.range s.nh).all fun h => (s.hnd h).closed)) = some ([], [], true) := by
  decide +kernel

/-- **C97, loops.**  A loop that was freed was made by the channel, so the loop of an application never is; a handle that was not
freed is on a loop that was not; and a loop made by the channel and not freed is the one the channel uses, so none is lost. -/
theorem C97_loops {es s} (hr : run St.start es = some s) :
    (∀ l, (s.lps l).freed = true → (s.lps l).own = true) ∧
    (∀ h, h < s.nh → (s.hnd h).freed = false → (s.lps (s.hnd h).loop).freed = false) ∧
    (∀ l, l < s.nl → (s.lps l).own = true → (s.lps l).freed = false → s.evLoop = some l) := by
  obtain ⟨ph, i⟩ := run_inv es inv_start hr
  refine ⟨fun l hl => (i.usr l hl).2, fun h hh hf => ?_, i.own⟩
  have hx := i.hok h hh
  have ev := i.ev
  revert hx
  cases ph h <;> simp only [HOk] <;> grind

example : ((run St.start (exOwn ++ [.closeEnd, .init true, .run, .listen true, .close [], .closed 7, .closeEnd, .run])).map fun s =>
    (s.evLoop, (List.range s.nl).map fun l => ((s.lps l).own, (s.lps l).freed))) =
    some (some 2, [(true, true), (false, false), (true, false)]) := by
  decide +kernel

/-- **C97, closing a channel with its own loop.**  When `io_stream_close` returns, every handle ever made on the loop was freed, the loop was
freed, and no connection and no request is left. -/
theorem C97_close_own {es s s' l} (hr : run St.start es = some s) (hl : s.evLoop = some l) (ho : (s.lps l).own = true)
    (hc : can s .closeEnd = true) (hs : step s .closeEnd = some s') :
    (∀ h, h < s'.nh → (s'.hnd h).loop = l → (s'.hnd h).freed = true) ∧ (s'.lps l).freed = true ∧ s'.pool = [] ∧ s'.gc = [] ∧
      s'.reqs = [] ∧ s'.evLoop = none := by
  obtain ⟨ph, i⟩ := run_inv es inv_start hr
  have hw : s.closing = true ∧ waits s = false := by simpa [can] using hc
  obtain ⟨s1, e1, i1, n1, n2, n3, n4, n5, n6⟩ := step_closeEnd i hw.2
  obtain rfl : s1 = s' := Option.some.inj (e1.symm.trans hs)
  have ho' : s.owner = true := by rw [← (i.ev l hl).2.2]; exact ho
  have hb : busy s l = false := by simpa [waits, hl, ho'] using hw.2
  have hb' := busy_false hb
  have hr1 : run St.start (es ++ [.closeEnd]) = some s1 := by
    have : ∀ (es : List Ev) (a : St), run a es = some s → run a (es ++ [.closeEnd]) = some s1 := by
      intro es
      induction es with
      | nil =>
        intro a h
        obtain rfl : a = s := Option.some.inj h
        simp only [List.nil_append, run, hc, if_true]
        rw [hs]; rfl
      | cons e t ih =>
        intro a h
        simp only [List.cons_append, run] at h ⊢
        split at h
        · rename_i he
          rw [if_pos he]
          cases hst : step a e with
          | none => rw [hst] at h; cases h
          | some b => rw [hst] at h; exact ih b h
        · cases h
    exact this es _ hr
  have emp : ∀ (x : List Nat), (∀ c, c ∉ x) → x = [] := fun x h => List.eq_nil_iff_forall_not_mem.2 h
  refine ⟨fun h hh hlp => ?_, ?_, ?_, ?_, ?_, n1⟩
  · rw [n2] at hlp ⊢
    rw [n3] at hh
    exact ((C97_freed hr hh).1).2 (hb' h hh hlp)
  · have e2 := (i.ev l hl).2.1
    have : closeEnd s = some { s with lps := upd s.lps l { s.lps l with freed := true }, evLoop := none, closing := false } := by
      simp [closeEnd, hl, ho', e2]
    rw [this] at e1
    obtain rfl := Option.some.inj e1
    simp [upd_same]
  · refine emp _ fun c hcm => ?_
    obtain ⟨_, _, hh, hp⟩ := i1.rpool c hcm
    have hx := i1.hok _ hh
    rw [hp] at hx
    have := hx.2.2.2.2.2.1
    rw [n1] at this
    cases this
  · refine emp _ fun c hcm => ?_
    obtain ⟨_, _, hh, hp⟩ := i1.rgc c hcm
    have hx := i1.hok _ hh
    rw [hp] at hx
    have := hx.2.2.2.2.2.1
    rw [n1] at this
    cases this
  · refine emp _ fun c hcm => ?_
    obtain ⟨_, _, hh, hp⟩ := i1.rq c hcm
    have hx := i1.hok _ hh
    rw [hp] at hx
    have := hx.2.2.2.2.2.1
    rw [n1] at this
    cases this

example : ((run St.start (exOwn ++ [.closeEnd])).map fun s =>
    (s.evLoop, s.pool ++ s.gc ++ s.reqs, (s.lps 0).freed, (List.range s.nh).map fun h => (s.hnd h).freed)) =
    some (none, [], true, [true, true, true, true, true, true, true]) := by
  decide +kernel

/-- **C97, false part: closing a channel on a loop of the application.**  `io_stream_close` returns while a handle still waits for its
report: nothing frees it if the application does not run its loop again. -/
theorem C97_close_false : ∃ s s', run St.start exUser = some s ∧ can s .closeEnd = true ∧ step s .closeEnd = some s' ∧
    s'.nh = 2 ∧ (s'.hnd 1).freed = false ∧ (s'.hnd 1).closing = some .async ∧ (s'.asy 0).live = true := by
  cases h : run St.start exUser with
  | none =>
    have : (run St.start exUser).isSome = true := by decide +kernel
    rw [h] at this; cases this
  | some s =>
    have hc : ((run St.start exUser).map fun s => can s .closeEnd) = some true := by decide +kernel
    have hd : ((run St.start exUser).bind fun s => (step s .closeEnd).map fun s' =>
      (s'.nh, (s'.hnd 1).freed, (s'.hnd 1).closing, (s'.asy 0).live)) = some (2, false, some .async, true) := by decide +kernel
    rw [h] at hc hd
    simp only [Option.map_some, Option.some.injEq, Option.bind_some] at hc hd
    cases hs : step s .closeEnd with
    | none => rw [hs] at hd; cases hd
    | some s' =>
      rw [hs] at hd
      simp only [Option.map_some, Option.some.injEq, Prod.mk.injEq] at hd
      exact ⟨s, s', rfl, hc, hs, hd.1, hd.2.1, hd.2.2.1, hd.2.2.2⟩

/-- **C97, closing a channel, partial.**  When `io_stream_close` returns, whoever owns the loop, no connection and no request is left and every
handle that was not freed was given to `uv_close`; the next report of libuv on it frees it.  Missing: the handle is not freed before the
function returns (`C97_close_false`). -/
theorem C97_close_partial {es s s'} (hr : run St.start es = some s) (hc : can s .closeEnd = true) (hs : step s .closeEnd = some s') :
    s'.pool = [] ∧ s'.gc = [] ∧ s'.reqs = [] ∧
    ∀ h, h < s'.nh → (s'.hnd h).freed = false → can s' (.closed h) = true ∧
      ∀ s2, step s' (.closed h) = some s2 → (s2.hnd h).freed = true := by
  obtain ⟨ph, i⟩ := run_inv es inv_start hr
  have hw : s.closing = true ∧ waits s = false := by simpa [can] using hc
  obtain ⟨s1, e1, i1, n1, n2, n3, n4, n5, n6⟩ := step_closeEnd i hw.2
  obtain rfl : s1 = s' := Option.some.inj (e1.symm.trans hs)
  have emp : ∀ (x : List Nat), (∀ c, c ∉ x) → x = [] := fun x h => List.eq_nil_iff_forall_not_mem.2 h
  have no : ∀ h, h < s1.nh → ∀ l, s1.evLoop = some l → False := by
    intro h hh l hl
    rw [n1] at hl
    cases hl
  refine ⟨?_, ?_, ?_, fun h hh hf => ?_⟩
  · refine emp _ fun c hcm => ?_
    obtain ⟨_, _, hh, hp⟩ := i1.rpool c hcm
    have hx := i1.hok _ hh
    rw [hp] at hx
    exact no _ hh _ hx.2.2.2.2.2.1
  · refine emp _ fun c hcm => ?_
    obtain ⟨_, _, hh, hp⟩ := i1.rgc c hcm
    have hx := i1.hok _ hh
    rw [hp] at hx
    exact no _ hh _ hx.2.2.2.2.2.1
  · refine emp _ fun c hcm => ?_
    obtain ⟨_, _, hh, hp⟩ := i1.rq c hcm
    have hx := i1.hok _ hh
    rw [hp] at hx
    exact no _ hh _ hx.2.2.2.2.2.1
  · have hx := i1.hok h hh
    have cc : (s1.hnd h).closing ≠ none ∧ (s1.hnd h).closed = false := by
      revert hx
      cases ph h <;> simp only [HOk, n1] <;> grind
    have can' : can s1 (.closed h) = true := by
      simp [can, hh, cc.2, Option.isSome_iff_ne_none, cc.1]
    refine ⟨can', fun s2 h2 => ?_⟩
    obtain ⟨s3, ph3, e3, i3⟩ := step_inv i1 can'
    obtain rfl : s3 = s2 := Option.some.inj (e3.symm.trans h2)
    revert hx h2
    cases hp : ph h with
    | wait a => intro hx; exact absurd hx.2.2.2.2.2.1 (by rw [n1]; simp)
    | opn a => intro hx; exact absurd hx.2.2.2.2.2.1 (by rw [n1]; simp)
    | clC a => intro hx; exact absurd hx.2.2.2.2.2.1 (by rw [n1]; simp)
    | gone => intro hx; rw [hx.2.2.2] at hf; cases hf
    | clA a =>
      rintro ⟨x1, x2, x3, x4, x5, x6, x7, x8, x9, -⟩ h2
      have : onClose s1 h = some (goneA s1 a) := by
        subst x8
        simp [onClose, x5, x3, x1, x9, deleteAsync, release, upd_same, upd_upd, x2, goneA]
      obtain rfl := Option.some.inj (this.symm.trans h2)
      subst x8
      simp [goneA, upd_same]
    | clP a =>
      rintro ⟨x1, x2, x3, x4, x5, x6, x7, x8, x9⟩ h2
      have : onClose s1 h = some (goneP s1 a) := by
        subst x8
        simp [onClose, x5, x3, x1, x9, release, upd_same, upd_upd, x2, goneP]
      obtain rfl := Option.some.inj (this.symm.trans h2)
      subst x8
      simp [goneP, upd_same]

example : ((run St.start (exUser ++ [.closeEnd, .closed 1])).map fun s => (s.pool ++ s.gc ++ s.reqs, (s.hnd 1).freed, (s.asy 0).live)) =
    some ([], true, false) := by
  decide +kernel

/-- **C97, `io_stream_run`.**  Its code is success exactly if every handle on the loop is closed, the error `EN_ATBUS_ERR_EV_RUN` otherwise;
so it says whether there is more to do, not whether running failed. -/
theorem C97_run {es s s' l} (hr : run St.start es = some s) (hs : step s .run = some s') (hl : s'.evLoop = some l) :
    (runCode s' = Err.SUCCESS ∨ runCode s' = -605) ∧
    (runCode s' = Err.SUCCESS ↔ ∀ h, h < s'.nh → (s'.hnd h).loop = l → (s'.hnd h).freed = true) := by
  obtain ⟨ph, i⟩ := run_inv es inv_start hr
  have i' : Inv ph s' := by
    obtain rfl : getLoop s = s' := Option.some.inj hs
    exact inv_getLoop i
  have hg : getLoop s' = s' := by unfold getLoop; rw [hl]
  have fr : ∀ h, h < s'.nh → ((s'.hnd h).freed = true ↔ (s'.hnd h).closed = true) := by
    intro h hh
    have hx := i'.hok h hh
    revert hx
    cases ph h <;> simp only [HOk] <;> grind
  have e : runCode s' = if busy s' l then -605 else Err.SUCCESS := by
    unfold runCode
    rw [hg, hl]
  rw [e]
  cases hb : busy s' l with
  | false =>
    refine ⟨Or.inl rfl, fun _ h hh hlp => (fr h hh).2 (busy_false hb h hh hlp), fun _ => rfl⟩
  | true =>
    refine ⟨Or.inr rfl, fun h => by exact absurd h (by decide), fun h => ?_⟩
    obtain ⟨k, hk, hk2⟩ := List.any_eq_true.1 hb
    have hk' := List.mem_range.1 hk
    have hk3 : (s'.hnd k).loop = l ∧ (s'.hnd k).closed = false := by simpa using hk2
    have := (fr k hk').1 (h k hk' hk3.1)
    rw [hk3.2] at this
    cases this

example : ((run St.start [.init false, .run]).map runCode, (run St.start [.init false, .listen true, .run]).map runCode) =
    (some 0, some (-605)) := by
  decide +kernel

#print axioms C97_safe
#print axioms C97_freed
#print axioms C97_owner
#print axioms C97_dangling
#print axioms C97_leak
#print axioms C97_loops
#print axioms C97_close_own
#print axioms C97_close_false
#print axioms C97_close_partial
#print axioms C97_run

end Verif.IoStream.Handles
