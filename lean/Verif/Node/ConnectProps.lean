import Verif.Node.Connect

/-!
C60: a successful connect means an attempt is in progress.  C61: the connection to the parent.
-/
namespace Verif.Node.Connect

open Verif.Address (parse Parsed prefixCI)

/-! ### C60 -/

/-- Equal up to the case of ASCII letters. -/
def sameText (a b : Text) : Prop := a.map Char.toLower = b.map Char.toLower

instance (a b : Text) : Decidable (sameText a b) := inferInstanceAs (Decidable (_ = _))

/-- Some connection object works on a connection to the address: the channel is connecting, or the peers are
registering. -/
def Attempt (s : S) (addr : Text) : Prop :=
  ∃ c, sameText (s.conn c).addr addr ∧ (((s.conn c).st = .connecting ∧ (s.conn c).pending = true) ∨ (s.conn c).st = .handshaking)

/-- A usable address of a stream channel, not a wildcard. -/
def Usable (addr : Text) : Prop := (∃ a, parse addr = .ok a) ∧ isShared addr = false ∧ prefixCI "mem:".toList addr = false ∧
  prefixCI "shm:".toList addr = false ∧ redirect addr = addr

theorem usable_of {addr : Text} (h : (match parse addr with | .ok _ => true | _ => false) = true ∧ isShared addr = false ∧
    prefixCI "mem:".toList addr = false ∧ prefixCI "shm:".toList addr = false ∧ redirect addr = addr) : Usable addr := by
  refine ⟨?_, h.2⟩
  have h := h.1
  split at h
  · next a ha => exact ⟨a, ha⟩
  · exact absurd h (by decide)

/-- The addresses in use: usable, and none is a proper prefix of another. -/
structure Plan (A : Text → Prop) : Prop where
  use : ∀ a, A a → Usable a
  free : ∀ a b, A a → A b → matches_ a b = true → sameText a b

/-- Calls for these addresses that the channel takes; nobody connects to this node. -/
def Tame (A : Text → Prop) : Op → Prop
  | .start _ sys | .proc _ sys => sys = true
  | .connect a sys | .connectTo a _ sys => A a ∧ sys = true
  | .accepted _ => False
  | _ => True

structure Good (A : Text → Prop) (s : S) : Prop where
  ent : ∀ x ∈ s.list, A (s.conn x.2).addr ∧
    (((s.conn x.2).st = .connecting ∧ (s.conn x.2).pending = true) ∨ (s.conn x.2).st = .handshaking)
  lt : ∀ x ∈ s.list, x.2 < s.next

theorem untime_mem {s : S} {c : Nat} {x : Int × Nat} : x ∈ (untime s c).list ↔ x ∈ s.list ∧ x.2 ≠ c := by
  simp [untime, List.mem_filter]

theorem good_untime {A : Text → Prop} {s : S} (h : Good A s) (c : Nat) : Good A (untime s c) :=
  ⟨fun x hx => h.ent x (untime_mem.1 hx).1, fun x hx => h.lt x (untime_mem.1 hx).1⟩

/-- A change of an object that is not in the list, or a good one. -/
theorem good_set {A : Text → Prop} {s : S} (h : Good A s) (c : Nat) (k : Conn)
    (hk : (∀ x ∈ s.list, x.2 ≠ c) ∨ (A k.addr ∧ ((k.st = .connecting ∧ k.pending = true) ∨ k.st = .handshaking))) :
    Good A (s.set c k) := by
  refine ⟨?_, h.lt⟩
  intro x hx
  by_cases hc : x.2 = c
  · rcases hk with hk | hk
    · exact absurd hc (hk x hx)
    · simpa [S.set, hc] using hk
  · have := h.ent x hx
    simpa [S.set, hc] using this

theorem good_flags {A : Text → Prop} {s t : S} (h : Good A s) (h1 : t.list = s.list) (h2 : t.conn = s.conn) (h3 : t.next = s.next) :
    Good A t := ⟨by rw [h1, h2]; exact h.ent, by rw [h1, h3]; exact h.lt⟩

theorem good_disconnect {A : Text → Prop} {cf : Conf} {s : S} (h : Good A s) {c : Nat} (hc : ∀ x ∈ s.list, x.2 ≠ c) :
    Good A (disconnect cf s c) := by
  unfold disconnect
  split
  · exact h
  · have h1 : Good A (onDisconnect cf s c) := by unfold onDisconnect; split; exact good_flags h rfl rfl rfl; exact h
    have h2 : (onDisconnect cf s c).list = s.list := by unfold onDisconnect; split <;> rfl
    exact good_set h1 _ _ (Or.inl (by rw [h2]; exact hc))

theorem disconnect_list {cf : Conf} {s : S} {c : Nat} : (disconnect cf s c).list = s.list := by
  unfold disconnect
  split
  · rfl
  · simp only [S.set]; unfold onDisconnect; split <;> rfl

theorem good_reset {A : Text → Prop} {cf : Conf} {s : S} (h : Good A (untime s c)) : Good A (reset cf s c) := by
  unfold reset
  have hn : ∀ x ∈ (untime s c).list, x.2 ≠ c := fun x hx => (untime_mem.1 hx).2
  exact good_set (good_disconnect h hn) _ _ (Or.inl (by rw [disconnect_list]; exact hn))

/-- Changes of one object do not matter once it has left the list. -/
theorem good_untime_set {A : Text → Prop} {s : S} (h : Good A s) (c : Nat) (k : Conn) : Good A (untime (s.set c k) c) :=
  good_set (s := untime s c) (good_untime h c) c k (Or.inl fun _ hx => (untime_mem.1 hx).2)

theorem setStatus_connected {s : S} {c : Nat} (h : (s.conn c).st ≠ .connected) :
    setStatus s c .connected = untime (s.set c { s.conn c with st := .connected }) c := by
  simp [setStatus, h]

theorem set_set (s : S) (c : Nat) (k k' : Conn) : (s.set c k).set c k' = s.set c k' := by
  simp only [S.set]
  congr 1
  funext x
  by_cases h : x = c <;> simp [h]

theorem set_conn (s : S) (c : Nat) (k : Conn) : (s.set c k).conn c = k := by simp [S.set]

theorem good_handshaking {A : Text → Prop} {s : S} (h : Good A s) (c : Nat) (k : Conn)
    (hk : (∀ x ∈ s.list, x.2 ≠ c) ∨ A k.addr) : Good A (setStatus (s.set c k) c .handshaking) := by
  unfold setStatus
  rw [set_conn, set_set]
  split
  · next hst => exact good_set h _ _ (hk.imp id fun hk => ⟨hk, Or.inr hst⟩)
  · simp only
    rw [if_neg (by simp)]
    exact good_set h _ _ (hk.imp id fun hk => ⟨hk, Or.inr rfl⟩)

theorem good_connected {A : Text → Prop} {s : S} (h : Good A s) (c : Nat) (k : Conn)
    (hk : (∀ x ∈ s.list, x.2 ≠ c) ∨ k.st ≠ .connected) : Good A (setStatus (s.set c k) c .connected) := by
  unfold setStatus
  rw [set_conn, set_set]
  split
  · next hst => exact good_set h _ _ (Or.inl (hk.resolve_right fun h => h hst))
  · simp only [if_true]
    exact good_untime_set h _ _

/-- What `connConnect` does with a usable address. -/
theorem connConnect_usable {s : S} {c : Nat} {addr : Text} (hu : Usable addr) :
    connConnect s c addr true = (s.set c { s.conn c with addr := addr, st := .connecting, pending := true }, Err.SUCCESS) := by
  obtain ⟨⟨a, ha⟩, h1, -, -, h2⟩ := hu
  unfold connConnect
  rw [ha]
  simp only [h1, h2, Bool.false_eq_true, if_false, if_true]
  congr 1
  simp only [S.set]
  congr 1
  funext x
  by_cases h : x = c <;> simp [h]

theorem good_create {A : Text → Prop} {cf : Conf} {s : S} (h : Good A s) (k : Conn)
    (hk : A k.addr ∧ k.st = .connecting ∧ k.pending = true) : Good A ((create cf s).1.set (create cf s).2 k) := by
  refine ⟨?_, ?_⟩
  · intro x hx
    have hx : x ∈ s.list ++ [(s.sec + cf.idle, s.next)] := hx
    rcases List.mem_append.1 hx with hx | hx
    · have hlt := h.lt x hx
      have hne : x.2 ≠ s.next := Nat.ne_of_lt hlt
      have := h.ent x hx
      simpa [S.set, create, hne] using this
    · rw [List.mem_singleton.1 hx]
      simp [S.set, create, hk]
  · intro x hx
    have hx : x ∈ s.list ++ [(s.sec + cf.idle, s.next)] := hx
    show x.2 < s.next + 1
    rcases List.mem_append.1 hx with hx | hx
    · exact Nat.lt_succ_of_lt (h.lt x hx)
    · rw [List.mem_singleton.1 hx]; exact Nat.lt_succ_self _

/-- `connect` with a usable address: an entry was found, or a new attempt begins. -/
theorem connect_usable {cf : Conf} {s : S} {addr : Text} (hu : Usable addr) :
    connect cf s addr true = if found s (fun _ => true) addr then (s, Err.SUCCESS) else
      ((create cf s).1.set s.next ⟨addr, .connecting, none, true⟩, Err.SUCCESS) := by
  unfold connect
  simp only [hu.2.2.1, hu.2.2.2.1, Bool.or_self, Bool.false_eq_true, if_false]
  split
  · rfl
  · rw [connConnect_usable hu]
    simp [create]

theorem good_connect {A : Text → Prop} (hA : Plan A) {cf : Conf} {s : S} (h : Good A s) {addr : Text} (ha : A addr) :
    Good A (connect cf s addr true).1 ∧ (connect cf s addr true).2 = Err.SUCCESS := by
  rw [connect_usable (hA.use addr ha)]
  split
  · exact ⟨h, rfl⟩
  · exact ⟨good_create h _ ⟨ha, rfl, rfl⟩, rfl⟩

theorem good_connectTo {A : Text → Prop} (hA : Plan A) {cf : Conf} {s : S} (h : Good A s) {addr : Text} (ha : A addr) (ep : Nat) :
    Good A (connectTo cf s addr ep true).1 := by
  have hu := hA.use addr ha
  unfold connectTo
  split
  · exact h
  · simp only
    rw [connConnect_usable hu]
    simp only [Err.SUCCESS]
    rw [if_neg (by decide), set_set]
    have := good_create (cf := cf) h ⟨addr, .connecting, some ep, true⟩ ⟨ha, rfl, rfl⟩
    split
    · next hh => simp [S.set] at hh
    · simpa [S.set] using this

theorem good_expire {A : Text → Prop} {cf : Conf} {sec : Int} : ∀ (n : Nat) {s : S}, Good A s → Good A (expire cf sec n s) := by
  intro n
  induction n with
  | zero => intro s h; exact h
  | succ n ih =>
    intro s h
    unfold expire
    split
    · exact h
    · split
      · exact ih (good_untime h _)
      · split
        · exact h
        · exact ih (good_reset (good_untime h _))

/-- An object is not in the list, or is a good entry. -/
theorem good_cases {A : Text → Prop} {s : S} (h : Good A s) (c : Nat) :
    (∀ x ∈ s.list, x.2 ≠ c) ∨ (A (s.conn c).addr ∧ (((s.conn c).st = .connecting ∧ (s.conn c).pending = true) ∨
      (s.conn c).st = .handshaking)) := by
  by_cases hin : ∀ x ∈ s.list, x.2 ≠ c
  · exact Or.inl hin
  · simp only [Classical.not_forall, Classical.not_not] at hin
    obtain ⟨x, hx, rfl⟩ := hin
    exact Or.inr (h.ent x hx)

theorem good_step {A : Text → Prop} (hA : Plan A) {cf : Conf} (hp : cf.parent = [] ∨ A cf.parent) {s : S} (h : Good A s) {op : Op}
    (ho : Tame A op) : Good A (step cf s op).1 := by
  cases op with
  | start now sys =>
    have ho : sys = true := ho
    subst ho
    simp only [step, start]
    split
    · next hh =>
      split
      · exact good_flags h rfl rfl rfl
      · have hpa := hp.resolve_left hh.2
        have := good_connect hA (cf := cf) (s := { s with sec := now, log := s.log ++ [.call now] }) (good_flags h rfl rfl rfl) hpa
        split <;> exact good_flags this.1 rfl rfl rfl
    · exact good_flags h rfl rfl rfl
  | proc sec sys =>
    have ho : sys = true := ho
    subst ho
    simp only [step]
    split
    · exact h
    · have h0 : Good A (if sec > s.sec then { s with sec := sec } else s) := by split; exact good_flags h rfl rfl rfl; exact h
      simp only
      have h1 := good_expire (cf := cf) (sec := sec) (if sec > s.sec then { s with sec := sec } else s).list.length h0
      generalize expire cf sec _ _ = u at h1
      unfold parentPart
      split
      · next hh =>
        split
        · exact good_flags h1 rfl rfl rfl
        · have hpa := hp.resolve_left hh.2.1
          have := good_connect hA (cf := cf) (s := { u with log := u.log ++ [.call sec] }) (good_flags h1 rfl rfl rfl) hpa
          simp only
          split <;> exact good_flags this.1 rfl rfl rfl
      · exact h1
  | connect addr sys =>
    obtain ⟨ha, rfl⟩ := ho
    exact (good_connect hA h ha).1
  | connectTo addr ep sys =>
    obtain ⟨ha, rfl⟩ := ho
    exact good_connectTo hA h ha ep
  | done c ok =>
    simp only [step]
    split
    · cases ok with
      | false => exact good_reset (good_untime_set h _ _)
      | true =>
        simp only [if_true]
        split
        · refine good_handshaking h c _ ?_
          rcases good_cases h c with hc | hc
          · exact Or.inl hc
          · exact Or.inr hc.1
        · refine good_connected h c _ ?_
          rcases good_cases h c with hc | hc
          · exact Or.inl hc
          · refine Or.inr ?_
            rcases hc.2 with hc | hc
            · simp [hc.1]
            · simp [hc]
    · exact h
  | accepted addr => exact ho.elim
  | established c ep =>
    simp only [step]
    split
    · next hst =>
      rw [setStatus_connected (by simp [S.set, hst]), set_set]
      exact good_untime_set h _ _
    · exact h
  | drop c => exact good_reset (good_untime h c)
  | parentUp =>
    simp only [step]
    split
    · exact h
    · simp only
      split
      · exact good_flags h rfl rfl rfl
      · exact good_flags h rfl rfl rfl
  | ctl b => exact good_flags h rfl rfl rfl
  | regDone =>
    simp only [step]
    split
    · simp only
      split
      · exact good_flags h rfl rfl rfl
      · exact good_flags h rfl rfl rfl
    · exact h
  | parentDown =>
    simp only [step]
    split
    · exact good_flags h rfl rfl rfl
    · exact h
  | parentGone => exact good_flags h rfl rfl rfl

theorem good_run {A : Text → Prop} (hA : Plan A) {cf : Conf} (hp : cf.parent = [] ∨ A cf.parent) :
    ∀ (ops : List Op) {s : S}, Good A s → (∀ op ∈ ops, Tame A op) → Good A (run cf s ops) := by
  intro ops
  induction ops with
  | nil => intro s h _; exact h
  | cons op ops ih =>
    intro s h ho
    exact ih (good_step hA hp h (ho op List.mem_cons_self)) fun o h => ho o (List.mem_cons_of_mem _ h)

/-- **C60.**  In every history of calls for usable addresses of which none is a prefix of another, as long as the channel
takes every request and nobody connects to this node, `connect` succeeds and afterwards an attempt for exactly this
address is in progress.  What is missing is false, see the theorems below. -/
theorem C60_attempt_partial (A : Text → Prop) (hA : Plan A) (cf : Conf) (hp : cf.parent = [] ∨ A cf.parent) (ops : List Op)
    (ho : ∀ op ∈ ops, Tame A op) (addr : Text) (ha : A addr) :
    (step cf (run cf {} ops) (.connect addr true)).2 = Err.SUCCESS ∧
    Attempt (step cf (run cf {} ops) (.connect addr true)).1 addr := by
  have hg : Good A (run cf {} ops) := good_run hA hp ops ⟨fun x hx => (List.not_mem_nil hx).elim, fun x hx => (List.not_mem_nil hx).elim⟩ ho
  generalize run cf {} ops = s at hg
  simp only [step]
  rw [connect_usable (hA.use addr ha)]
  split
  · next hf =>
    refine ⟨rfl, ?_⟩
    simp only [found, List.any_eq_true, Bool.and_eq_true] at hf
    obtain ⟨x, hx, ⟨-, -⟩, hm⟩ := hf
    have := hg.ent x hx
    exact ⟨x.2, hA.free _ _ this.1 ha hm, this.2⟩
  · exact ⟨rfl, s.next, by simp [S.set, sameText], Or.inl (by simp [S.set])⟩

/-- A call for an address that no entry's address is a prefix of begins an attempt, in every state. -/
theorem C60_new_attempt (cf : Conf) (s : S) (addr : Text) (hu : Usable addr)
    (hn : ∀ x ∈ s.list, matches_ (s.conn x.2).addr addr = false) :
    (connect cf s addr true).2 = Err.SUCCESS ∧ Attempt (connect cf s addr true).1 addr := by
  rw [connect_usable hu]
  rw [if_neg]
  · exact ⟨rfl, s.next, by simp [S.set, sameText], Or.inl (by simp [S.set])⟩
  · simp only [found, List.any_eq_true, Bool.and_eq_true, not_exists, not_and]
    intro x hx h
    simp [hn x hx]

/-- Two addresses that can be used together. -/
def pairAddrs (a : Text) : Prop := a = "ipv4://10.0.0.1:80".toList ∨ a = "unix:///tmp/bus.sock".toList

theorem pairAddrs_plan : Plan pairAddrs := by
  refine ⟨?_, ?_⟩
  · rintro a (rfl | rfl)
    · exact usable_of (by decide +kernel)
    · exact usable_of (by decide +kernel)
  · rintro a b (rfl | rfl) (rfl | rfl) h
    · rfl
    · exact absurd h (by decide +kernel)
    · exact absurd h (by decide +kernel)
    · rfl

/-- Two attempts, one of which fails; the second call for the other address finds the first. -/
example : Attempt (step ⟨10, 5, 8, [], true⟩ (run ⟨10, 5, 8, [], true⟩ {}
    [.start 1 true, .connect "ipv4://10.0.0.1:80".toList true, .connect "unix:///tmp/bus.sock".toList true, .done 1 false, .proc 3 true])
    (.connect "ipv4://10.0.0.1:80".toList true)).1 "ipv4://10.0.0.1:80".toList :=
  (C60_attempt_partial pairAddrs pairAddrs_plan _ (Or.inl rfl) _ (by simp [Tame, pairAddrs]) _ (Or.inl rfl)).2

/-! Objects that were never created. -/

def Fresh (s : S) : Prop := ∀ c, s.next ≤ c → s.conn c = ⟨[], .disconnected, none, false⟩

theorem fresh_set {s : S} (h : Fresh s) {c : Nat} {k : Conn} (hk : c < s.next ∨ k = ⟨[], .disconnected, none, false⟩) :
    Fresh (s.set c k) := by
  intro x hx
  by_cases hc : x = c
  · rcases hk with hk | hk
    · exact absurd (hc ▸ hk) (Nat.not_lt.2 hx)
    · simp [S.set, hc, hk]
  · simpa [S.set, hc] using h x hx

theorem fresh_flags {s t : S} (h : Fresh s) (h2 : t.conn = s.conn) (h3 : t.next = s.next) : Fresh t := by
  intro c hc
  rw [h2]
  exact h c (h3 ▸ hc)

theorem fresh_lt {s : S} (h : Fresh s) {c : Nat} (hc : (s.conn c).st ≠ .disconnected) : c < s.next :=
  Nat.lt_of_not_le fun hle => hc (by rw [h c hle])

theorem setStatus_next {s : S} {c : Nat} {v : CSt} : (setStatus s c v).next = s.next := by
  unfold setStatus
  split
  · rfl
  · simp only; split <;> rfl

theorem fresh_status {s : S} (h : Fresh s) {c : Nat} (hc : c < s.next) (v : CSt) : Fresh (setStatus s c v) := by
  unfold setStatus
  split
  · exact h
  · have h1 := fresh_set h (k := { s.conn c with st := v }) (Or.inl hc)
    simp only
    split
    · exact fresh_flags h1 rfl rfl
    · exact h1

theorem onDisconnect_same {cf : Conf} {s : S} {c : Nat} :
    (onDisconnect cf s c).conn = s.conn ∧ (onDisconnect cf s c).next = s.next := by
  unfold onDisconnect; split <;> exact ⟨rfl, rfl⟩

theorem disconnect_next {cf : Conf} {s : S} {c : Nat} : (disconnect cf s c).next = s.next := by
  unfold disconnect
  split
  · rfl
  · exact onDisconnect_same.2

theorem fresh_disconnect {cf : Conf} {s : S} (h : Fresh s) (c : Nat) : Fresh (disconnect cf s c) := by
  unfold disconnect
  split
  · exact h
  · next hst =>
    refine fresh_set (fresh_flags h onDisconnect_same.1 onDisconnect_same.2) (Or.inl ?_)
    rw [onDisconnect_same.2]
    exact fresh_lt h hst

theorem fresh_reset {cf : Conf} {s : S} (h : Fresh s) (c : Nat) : Fresh (reset cf s c) := by
  unfold reset
  have h1 : Fresh (disconnect cf (untime s c) c) := fresh_disconnect (s := untime s c) (fresh_flags h rfl rfl) c
  refine fresh_set h1 ?_
  by_cases hc : c < (disconnect cf (untime s c) c).next
  · exact Or.inl hc
  · right; rw [h1 c (Nat.le_of_not_lt hc)]

theorem reset_next {cf : Conf} {s : S} {c : Nat} : (reset cf s c).next = s.next := disconnect_next

theorem fresh_expire {cf : Conf} {sec : Int} : ∀ (n : Nat) {s : S}, Fresh s → Fresh (expire cf sec n s) := by
  intro n
  induction n with
  | zero => intro s h; exact h
  | succ n ih =>
    intro s h
    unfold expire
    split
    · exact h
    · split
      · exact ih (fresh_flags h rfl rfl)
      · split
        · exact h
        · exact ih (fresh_reset h _)

theorem fresh_create {cf : Conf} {s : S} (h : Fresh s) : Fresh (create cf s).1 := by
  intro c hc
  have hc : s.next + 1 ≤ c := hc
  have : c ≠ s.next := by omega
  simpa [create, this] using h c (by omega)

theorem connConnect_next {s : S} {c : Nat} {addr : Text} {sys : Bool} : (connConnect s c addr sys).1.next = s.next := by
  unfold connConnect
  split
  · split
    · simp only; split
      · exact setStatus_next
      · rfl
    · simp only; split <;> rfl
  · rfl

theorem fresh_connConnect {s : S} (h : Fresh s) {c : Nat} (hc : c < s.next) (addr : Text) (sys : Bool) :
    Fresh (connConnect s c addr sys).1 := by
  unfold connConnect
  split
  · split
    · simp only; split
      · exact fresh_status (fresh_set h (Or.inl hc)) hc _
      · exact fresh_set h (Or.inl hc)
    · simp only; split
      · exact fresh_set (fresh_set h (Or.inl hc)) (Or.inl hc)
      · exact fresh_set h (Or.inl hc)
  · exact fresh_set h (Or.inl hc)

theorem fresh_connect {cf : Conf} {s : S} (h : Fresh s) (addr : Text) (sys : Bool) : Fresh (connect cf s addr sys).1 := by
  unfold connect
  split
  · exact h
  · simp only
    split
    · exact fresh_create h
    · exact fresh_connConnect (fresh_create h) (Nat.lt_succ_self _) addr sys

theorem fresh_connectTo {cf : Conf} {s : S} (h : Fresh s) (addr : Text) (ep : Nat) (sys : Bool) :
    Fresh (connectTo cf s addr ep sys).1 := by
  unfold connectTo
  split
  · exact h
  · simp only
    have h1 := fresh_connConnect (fresh_create (cf := cf) h) (Nat.lt_succ_self s.next) addr sys
    have h2 : s.next < (connConnect (create cf s).1 (create cf s).2 addr sys).1.next := by
      rw [connConnect_next]; exact Nat.lt_succ_self _
    have h1 : Fresh (connConnect (create cf s).1 (create cf s).2 addr sys).1 := h1
    generalize connConnect (create cf s).1 (create cf s).2 addr sys = q at h1 h2
    split
    · exact h1
    · simp only
      split
      · exact fresh_status (fresh_set h1 (Or.inl h2)) h2 _
      · exact fresh_set h1 (Or.inl h2)

theorem fresh_step {cf : Conf} {s : S} (h : Fresh s) (op : Op) : Fresh (step cf s op).1 := by
  cases op with
  | start now sys =>
    simp only [step, start]
    split
    · split
      · exact fresh_flags h rfl rfl
      · have := fresh_connect (cf := cf) (s := { s with sec := now, log := s.log ++ [.call now] }) (fresh_flags h rfl rfl) cf.parent sys
        split <;> exact fresh_flags this rfl rfl
    · exact fresh_flags h rfl rfl
  | proc sec sys =>
    simp only [step]
    split
    · exact h
    · have h0 : Fresh (if sec > s.sec then { s with sec := sec } else s) := by split; exact fresh_flags h rfl rfl; exact h
      simp only
      have h1 := fresh_expire (cf := cf) (sec := sec) (if sec > s.sec then { s with sec := sec } else s).list.length h0
      generalize expire cf sec _ _ = u at h1
      unfold parentPart
      split
      · split
        · exact fresh_flags h1 rfl rfl
        · have := fresh_connect (cf := cf) (s := { u with log := u.log ++ [.call sec] }) (fresh_flags h1 rfl rfl) cf.parent sys
          simp only
          split <;> exact fresh_flags this rfl rfl
      · exact h1
  | connect addr sys => exact fresh_connect h addr sys
  | connectTo addr ep sys => exact fresh_connectTo h addr ep sys
  | done c ok =>
    simp only [step]
    split
    · next hp =>
      have hc : c < s.next := Nat.lt_of_not_le fun hle => by simp [h c hle] at hp
      split
      · exact fresh_status (fresh_set h (Or.inl hc)) hc _
      · exact fresh_reset (fresh_set h (Or.inl hc)) c
    · exact h
  | accepted addr =>
    simp only [step]
    have h1 := fresh_status (fresh_create (cf := cf) h) (Nat.lt_succ_self s.next) .handshaking
    refine fresh_set h1 (Or.inl ?_)
    rw [setStatus_next]
    exact Nat.lt_succ_self _
  | established c ep =>
    simp only [step]
    split
    · next hst =>
      have hc : c < s.next := fresh_lt h (by rw [hst]; decide)
      exact fresh_status (fresh_set h (Or.inl hc)) hc _
    · exact h
  | drop c => exact fresh_reset h c
  | parentUp =>
    simp only [step]
    split
    · exact h
    · simp only
      split
      · exact fresh_flags h rfl rfl
      · exact fresh_flags h rfl rfl
  | ctl b => exact fresh_flags h rfl rfl
  | regDone =>
    simp only [step]
    split
    · simp only
      split
      · exact fresh_flags h rfl rfl
      · exact fresh_flags h rfl rfl
    · exact h
  | parentDown =>
    simp only [step]
    split
    · exact fresh_flags h rfl rfl
    · exact h
  | parentGone => exact fresh_flags h rfl rfl

theorem fresh_run {cf : Conf} : ∀ (ops : List Op) {s : S}, Fresh s → Fresh (run cf s ops) := by
  intro ops
  induction ops with
  | nil => intro s h; exact h
  | cons op ops ih => intro s h; exact ih (fresh_step h op)

theorem fresh_init : Fresh {} := fun _ _ => rfl

/-- Only created objects are attempts. -/
theorem attempt_bound {s : S} (h : Fresh s) {addr : Text} (ha : Attempt s addr) :
    ∃ c, c < s.next ∧ sameText (s.conn c).addr addr ∧
      (((s.conn c).st = .connecting ∧ (s.conn c).pending = true) ∨ (s.conn c).st = .handshaking) := by
  obtain ⟨c, h1, h2⟩ := ha
  refine ⟨c, fresh_lt h ?_, h1, h2⟩
  rcases h2 with h2 | h2
  · rw [h2.1]; decide
  · rw [h2]; decide

/-- The general claim, for histories of the calls that satisfy `Q`. -/
def SuccessMeansAttempt (Q : Op → Prop) : Prop :=
  ∀ (cf : Conf) (ops : List Op) (addr : Text), (∀ op ∈ ops, Q op) → Usable addr →
    (step cf (run cf {} ops) (.connect addr true)).2 = Err.SUCCESS →
    Attempt (step cf (run cf {} ops) (.connect addr true)).1 addr

theorem refute {Q : Op → Prop} (cf : Conf) (ops : List Op) (addr : Text) (hQ : ∀ op ∈ ops, Q op) (hu : Usable addr)
    (hs : (step cf (run cf {} ops) (.connect addr true)).2 = Err.SUCCESS)
    (hn : ∀ c, c < (step cf (run cf {} ops) (.connect addr true)).1.next →
      ¬ (sameText ((step cf (run cf {} ops) (.connect addr true)).1.conn c).addr addr ∧
        ((((step cf (run cf {} ops) (.connect addr true)).1.conn c).st = .connecting ∧
          ((step cf (run cf {} ops) (.connect addr true)).1.conn c).pending = true) ∨
        ((step cf (run cf {} ops) (.connect addr true)).1.conn c).st = .handshaking))) : ¬ SuccessMeansAttempt Q := by
  intro h
  obtain ⟨c, hc, h1⟩ := attempt_bound (fresh_step (fresh_run ops fresh_init) _) (h cf ops addr hQ hu hs)
  exact hn c hc h1

/-- C60 is false although every call is for a usable address and taken by the channel: while an attempt for port 80 is
in progress, a call for port 8080 of the same host succeeds and does nothing, because the address of the first is a prefix. -/
theorem C60_prefix_false : ¬ SuccessMeansAttempt fun op => ∃ a, op = .connect a true ∧ Usable a := by
  refine refute ⟨10, 5, 8, [], true⟩ [.connect "ipv4://10.0.0.1:80".toList true] "ipv4://10.0.0.1:8080".toList ?_ ?_ ?_ ?_
  · intro op hop
    rw [List.mem_singleton] at hop
    exact ⟨_, hop, usable_of (by decide +kernel)⟩
  · exact usable_of (by decide +kernel)
  · decide +kernel
  · decide +kernel

/-- C60 is false: a call for a `mem:` address is refused but leaves an entry without address, whose empty text is a prefix
of every address; the next call succeeds and does nothing. -/
theorem C60_refused_false : ¬ SuccessMeansAttempt fun op => op = .connect "mem://0x1000".toList true := by
  refine refute ⟨10, 5, 8, [], true⟩ [.connect "mem://0x1000".toList true] "ipv4://10.0.0.1:80".toList ?_ ?_ ?_ ?_
  · simp
  · exact usable_of (by decide +kernel)
  · decide +kernel
  · decide +kernel

/-- C60 is false: the channel refuses a request, which is reported; the second call for the same address succeeds and
does nothing. -/
theorem C60_failed_false : ¬ SuccessMeansAttempt fun op => op = .connect "ipv4://10.0.0.1:80".toList false := by
  refine refute ⟨10, 5, 8, [], true⟩ [.connect "ipv4://10.0.0.1:80".toList false] "ipv4://10.0.0.1:80".toList ?_ ?_ ?_ ?_
  · simp
  · exact usable_of (by decide +kernel)
  · decide +kernel
  · decide +kernel

/-- C60 is false: a peer that connects over a unix socket has the address `unix://`; while it registers, no connection
to a unix socket can be made. -/
theorem C60_incoming_false : ¬ SuccessMeansAttempt fun op => op = .accepted "unix://".toList := by
  refine refute ⟨10, 5, 8, [], true⟩ [.accepted "unix://".toList] "unix:///tmp/bus.sock".toList ?_ ?_ ?_ ?_
  · simp
  · exact usable_of (by decide +kernel)
  · decide +kernel
  · decide +kernel

/-- The timeouts of `proc` do not touch an attempt that is not due: it stays in the list and its connection is as before. -/
theorem C60_kept (cf : Conf) (sec : Int) : ∀ (n : Nat) (s : S) (c : Nat), (∀ d, (d, c) ∈ s.list → sec ≤ d) →
    ((s.conn c).st ≠ .connected) →
    (∃ d, (d, c) ∈ s.list) → (∀ d, (d, c) ∈ s.list → (d, c) ∈ (expire cf sec n s).list) ∧ (expire cf sec n s).conn c = s.conn c := by
  intro n
  induction n with
  | zero => intro s c _ _ _; exact ⟨fun _ h => h, rfl⟩
  | succ n ih =>
    intro s c hd hc he
    unfold expire
    split
    · exact ⟨fun _ h => h, rfl⟩
    · next d c' l hl =>
      have hm : (d, c') ∈ s.list := by rw [hl]; simp
      have hun : c' ≠ c → ∀ d, (d, c) ∈ (untime s c').list ↔ (d, c) ∈ s.list := by
        intro hne d
        have hne' : ¬ c = c' := fun hh => hne hh.symm
        simp [untime, hne']
      split
      · next hst =>
        have hne : c' ≠ c := fun hh => hc (hh ▸ hst)
        obtain ⟨d', hd'⟩ := he
        obtain ⟨h1, h2⟩ := ih (untime s c') c (fun d h => hd d ((hun hne d).1 h)) hc ⟨d', (hun hne d').2 hd'⟩
        exact ⟨fun d h => h1 d ((hun hne d).2 h), h2⟩
      · split
        · exact ⟨fun _ h => h, rfl⟩
        · next hlt =>
          have hne : c' ≠ c := fun hh => hlt (hd d (hh ▸ hm))
          have hne' : ¬ c = c' := fun hh => hne hh.symm
          have hlist : (reset cf s c').list = (untime s c').list := by
            unfold reset disconnect
            dsimp only
            split
            · rfl
            · show (onDisconnect cf (untime s c') c').list = _
              unfold onDisconnect
              split <;> rfl
          have hconn : (reset cf s c').conn c = s.conn c := by
            unfold reset disconnect
            dsimp only
            split
            · simp [S.set, hne', untime]
            · simp only [S.set, if_neg hne']
              unfold onDisconnect
              split <;> rfl
          obtain ⟨d', hd'⟩ := he
          obtain ⟨h1, h2⟩ := ih (reset cf s c') c (fun d h => hd d ((hun hne d).1 (hlist ▸ h))) (by rw [hconn]; exact hc)
            ⟨d', hlist ▸ (hun hne d').2 hd'⟩
          exact ⟨fun d h => h1 d (hlist ▸ (hun hne d).2 h), h2.trans hconn⟩

/-- After the timeouts of `proc` the first attempt in the list is not due and not connected. -/
theorem C60_due (cf : Conf) (sec : Int) : ∀ (n : Nat) (s : S), s.list.length ≤ n →
    ∀ x l, (expire cf sec n s).list = x :: l → sec ≤ x.1 ∧ ((expire cf sec n s).conn x.2).st ≠ .connected := by
  intro n
  induction n with
  | zero =>
    intro s hn x l hx
    rw [expire] at hx
    rw [hx] at hn
    simp at hn
  | succ n ih =>
    intro s hn x l hx
    have hfil : ∀ {d : Int} {c : Nat} {l : List (Int × Nat)}, s.list = (d, c) :: l → (untime s c).list.length ≤ n := by
      intro d c l hl
      have h1 : (untime s c).list.length ≤ l.length := by
        simp only [untime, hl, List.filter_cons, bne_self_eq_false]
        exact List.length_filter_le _ _
      rw [hl] at hn
      simp at hn
      omega
    unfold expire at hx ⊢
    split at hx
    · next hl => rw [hl] at hx; cases hx
    · next d c l' hl =>
      split at hx
      · next hst =>
        rw [if_pos hst]
        exact ih _ (hfil hl) x l hx
      · next hst =>
        rw [if_neg hst]
        split at hx
        · next hge =>
          rw [if_pos hge]
          rw [hl] at hx
          cases hx
          exact ⟨hge, hst⟩
        · next hlt =>
          rw [if_neg hlt]
          refine ih _ ?_ x l hx
          have hlist : (reset cf s c).list = (untime s c).list := by
            unfold reset disconnect
            dsimp only
            split
            · rfl
            · show (onDisconnect cf (untime s c) c).list = _
              unfold onDisconnect
              split <;> rfl
          rw [hlist]
          exact hfil hl

/-- Two attempts, at 0 and at 3, both for 10 seconds: at 10 both are there, at 11 the first is gone. -/
example : ((run ⟨10, 5, 8, [], true⟩ {} [.connect "ipv4://10.0.0.1:80".toList true, .proc 3 true, .connect "ipv4://10.0.0.2:80".toList true,
      .proc 10 true]).list.map Prod.snd) = [0, 1] ∧
    ((run ⟨10, 5, 8, [], true⟩ {} [.connect "ipv4://10.0.0.1:80".toList true, .proc 3 true, .connect "ipv4://10.0.0.2:80".toList true,
      .proc 11 true]).list.map Prod.snd) = [1] := by decide +kernel

/-! ### C61 -/

/-- The times of the calls of `connect` for the parent. -/
def calls (l : List Ev) : List Int := l.filterMap fun
  | .call n => some n
  | .ping _ => none

/-- Nothing but the connections differs. -/
structure Same (s t : S) : Prop where
  sec : t.sec = s.sec
  opr : t.opr = s.opr
  log : t.log = s.log
  shut : t.shut = s.shut
  active : t.active = s.active
  state : t.state = s.state
  parent : t.parent = s.parent
  ctl : t.ctl = s.ctl

theorem Same.refl (s : S) : Same s s := ⟨rfl, rfl, rfl, rfl, rfl, rfl, rfl, rfl⟩

theorem Same.trans {s t u : S} (h : Same s t) (g : Same t u) : Same s u :=
  ⟨g.sec.trans h.sec, g.opr.trans h.opr, g.log.trans h.log, g.shut.trans h.shut, g.active.trans h.active, g.state.trans h.state,
    g.parent.trans h.parent, g.ctl.trans h.ctl⟩

theorem same_set (s : S) (c : Nat) (k : Conn) : Same s (s.set c k) := ⟨rfl, rfl, rfl, rfl, rfl, rfl, rfl, rfl⟩

theorem same_untime (s : S) (c : Nat) : Same s (untime s c) := ⟨rfl, rfl, rfl, rfl, rfl, rfl, rfl, rfl⟩

theorem same_create (cf : Conf) (s : S) : Same s (create cf s).1 := ⟨rfl, rfl, rfl, rfl, rfl, rfl, rfl, rfl⟩

theorem same_status (s : S) (c : Nat) (v : CSt) : Same s (setStatus s c v) := by
  unfold setStatus
  split
  · exact Same.refl s
  · simp only
    split
    · exact (same_set s c _).trans (same_untime _ c)
    · exact same_set s c _

theorem same_connConnect (s : S) (c : Nat) (addr : Text) (sys : Bool) : Same s (connConnect s c addr sys).1 := by
  unfold connConnect
  split
  · split
    · simp only; split
      · exact (same_set s c _).trans (same_status _ c _)
      · exact same_set s c _
    · simp only; split
      · exact (same_set s c _).trans (same_set _ c _)
      · exact same_set s c _
  · exact same_set s c _

theorem same_connect (cf : Conf) (s : S) (addr : Text) (sys : Bool) : Same s (connect cf s addr sys).1 := by
  unfold connect
  split
  · exact Same.refl s
  · simp only
    split
    · exact same_create cf s
    · exact (same_create cf s).trans (same_connConnect _ _ _ _)

theorem same_connectTo (cf : Conf) (s : S) (addr : Text) (ep : Nat) (sys : Bool) : Same s (connectTo cf s addr ep sys).1 := by
  unfold connectTo
  split
  · exact Same.refl s
  · simp only
    have h1 := (same_create cf s).trans (same_connConnect _ (create cf s).2 addr sys)
    generalize connConnect (create cf s).1 (create cf s).2 addr sys = q at h1
    split
    · exact h1
    · simp only
      split
      · exact (h1.trans (same_set _ _ _)).trans (same_status _ _ _)
      · exact h1.trans (same_set _ _ _)

/-- Nothing but the connections differs, or the attempt to connect to the parent failed. -/
structure Closed (cf : Conf) (s t : S) : Prop where
  sec : t.sec = s.sec
  log : t.log = s.log
  active : t.active = s.active
  parent : t.parent = s.parent
  ctl : t.ctl = s.ctl
  rest : (t.opr = s.opr ∧ t.shut = s.shut ∧ t.state = s.state) ∨
    (t.opr = s.sec + cf.retry ∧ t.shut = (s.shut || !s.active) ∧ s.state = .connecting ∧ t.state = .lost)

theorem Same.closed {cf : Conf} {s t : S} (h : Same s t) : Closed cf s t :=
  ⟨h.sec, h.log, h.active, h.parent, h.ctl, Or.inl ⟨h.opr, h.shut, h.state⟩⟩

theorem Closed.trans {cf : Conf} {s t u : S} (h : Closed cf s t) (g : Closed cf t u) : Closed cf s u := by
  refine ⟨g.sec.trans h.sec, g.log.trans h.log, g.active.trans h.active, g.parent.trans h.parent, g.ctl.trans h.ctl, ?_⟩
  have h1 := h.sec
  have h2 := h.active
  rcases h.rest with ⟨a1, a2, a3⟩ | ⟨a1, a2, a3, a4⟩ <;> rcases g.rest with ⟨b1, b2, b3⟩ | ⟨b1, b2, b3, b4⟩
  · exact Or.inl ⟨b1.trans a1, b2.trans a2, b3.trans a3⟩
  · exact Or.inr ⟨by rw [b1, h1], by rw [b2, a2, h2], a3 ▸ b3, b4⟩
  · exact Or.inr ⟨b1.trans a1, b2.trans a2, a3, b3.trans a4⟩
  · exact absurd (a4.symm.trans b3) (by decide)

theorem closed_disconnect (cf : Conf) (s : S) (c : Nat) : Closed cf s (disconnect cf s c) := by
  unfold disconnect
  split
  · exact (Same.refl s).closed
  · have h1 : Closed cf s (onDisconnect cf s c) := by
      unfold onDisconnect
      split
      · next h => exact ⟨rfl, rfl, rfl, rfl, rfl, Or.inr ⟨rfl, rfl, h.1, rfl⟩⟩
      · exact (Same.refl s).closed
    exact h1.trans (same_set _ _ _).closed

theorem closed_reset (cf : Conf) (s : S) (c : Nat) : Closed cf s (reset cf s c) := by
  unfold reset
  exact ((same_untime s c).closed.trans (closed_disconnect cf _ c)).trans (same_set _ _ _).closed

theorem closed_expire (cf : Conf) (sec : Int) : ∀ (n : Nat) (s : S), Closed cf s (expire cf sec n s) := by
  intro n
  induction n with
  | zero => intro s; exact (Same.refl s).closed
  | succ n ih =>
    intro s
    unfold expire
    split
    · exact (Same.refl s).closed
    · split
      · exact (same_untime s _).closed.trans (ih _)
      · split
        · exact (Same.refl s).closed
        · exact (closed_reset cf s _).trans (ih _)

/-- The next operation on the parent is scheduled, not too early and not too late. -/
structure Watch (m M : Int) (s : S) : Prop where
  clock : 0 < s.sec
  pos : 0 < s.opr
  late : s.opr ≤ s.sec + M
  past : ∀ t ∈ calls s.log, t ≤ s.sec ∧ t + m ≤ s.opr
  spaced : (calls s.log).Pairwise fun a b => a + m < b

/-- `m` is at most, `M` at least every interval; none is negative. -/
structure Between (cf : Conf) (m M : Int) : Prop where
  i0 : 0 ≤ cf.idle
  r0 : 0 ≤ cf.retry
  p0 : 0 ≤ cf.ping
  im : m ≤ cf.idle
  rm : m ≤ cf.retry
  pm : m ≤ cf.ping
  iM : cf.idle ≤ M
  rM : cf.retry ≤ M
  pM : cf.ping ≤ M

theorem watch_resched {m M : Int} {s t : S} (h : Watch m M s) (h1 : t.sec = s.sec) (h2 : t.log = s.log) (d : Int) (h3 : t.opr = s.sec + d)
    (h0 : 0 ≤ d) (hm : m ≤ d) (hM : d ≤ M) : Watch m M t := by
  have := h.clock
  refine ⟨by omega, by omega, by omega, ?_, by rw [h2]; exact h.spaced⟩
  intro x hx
  rw [h2] at hx
  have := h.past x hx
  omega

theorem watch_same {m M : Int} {s t : S} (h : Watch m M s) (h1 : t.sec = s.sec) (h2 : t.log = s.log) (h3 : t.opr = s.opr) : Watch m M t := by
  refine ⟨h1 ▸ h.clock, h3 ▸ h.pos, by rw [h1, h3]; exact h.late, ?_, by rw [h2]; exact h.spaced⟩
  rw [h1, h2, h3]
  exact h.past

theorem watch_closed {cf : Conf} {m M : Int} (hb : Between cf m M) {s t : S} (h : Watch m M s) (hc : Closed cf s t) : Watch m M t := by
  rcases hc.rest with ⟨h1, -, -⟩ | ⟨h1, -, -, -⟩
  · exact watch_same h hc.sec hc.log h1
  · exact watch_resched h hc.sec hc.log _ h1 hb.r0 hb.rm hb.rM

theorem calls_call (l : List Ev) (n : Int) : calls (l ++ [.call n]) = calls l ++ [n] := by simp [calls]

theorem calls_ping (l : List Ev) (n : Int) : calls (l ++ [.ping n]) = calls l := by simp [calls]

theorem watch_call {m M : Int} {s t : S} (h : Watch m M s) {sec : Int} (hs : sec ≤ s.sec) (ho : s.opr < sec) (h1 : t.sec = s.sec)
    (h2 : t.log = s.log ++ [.call sec]) (d : Int) (h3 : t.opr = sec + d) (h0 : 0 ≤ d) (hm : m ≤ d) (hM : d ≤ M) : Watch m M t := by
  have hp := h.pos
  have hc := h.clock
  refine ⟨by omega, by omega, by omega, ?_, ?_⟩
  · intro x hx
    rw [h2, calls_call] at hx
    rcases List.mem_append.1 hx with hx | hx
    · have := h.past x hx
      omega
    · rw [List.mem_singleton] at hx
      omega
  · rw [h2, calls_call, List.pairwise_append]
    refine ⟨h.spaced, by simp, ?_⟩
    intro a ha b hb
    rw [List.mem_singleton] at hb
    have := h.past a ha
    omega

/-- The parent part of `proc`, when it is time. -/
theorem parentPart_due {cf : Conf} {s : S} {sec : Int} {sys : Bool} (h1 : cf.hasId = true) (h2 : cf.parent ≠ []) (h3 : 0 < s.opr)
    (h4 : s.opr < sec) :
    ((s.parent && s.ctl) = true ∧ parentPart cf s sec sys = { s with opr := sec + cf.ping, log := s.log ++ [.ping sec] }) ∨
    ((s.parent && s.ctl) = false ∧ (parentPart cf s sec sys).sec = s.sec ∧ (parentPart cf s sec sys).log = s.log ++ [.call sec] ∧
      (parentPart cf s sec sys).shut = s.shut ∧ (parentPart cf s sec sys).active = s.active ∧
      ((parentPart cf s sec sys).opr = sec + cf.retry ∨ (parentPart cf s sec sys).opr = sec + cf.idle)) := by
  unfold parentPart
  rw [if_pos ⟨h1, h2, by omega, h4⟩]
  split
  · next h => exact Or.inl ⟨h, rfl⟩
  · next h =>
    refine Or.inr ⟨by simpa using h, ?_⟩
    have hs := same_connect cf { s with log := s.log ++ [.call sec] } cf.parent sys
    simp only
    split
    · exact ⟨hs.sec, hs.log, hs.shut, hs.active, Or.inl rfl⟩
    · exact ⟨hs.sec, hs.log, hs.shut, hs.active, Or.inr rfl⟩

theorem parentPart_not {cf : Conf} {s : S} {sec : Int} {sys : Bool} (h : ¬ (s.opr < sec)) : parentPart cf s sec sys = s := by
  unfold parentPart
  rw [if_neg (fun hh => h hh.2.2.2)]

/-- Not a second start. -/
def Op.later : Op → Prop
  | .start _ _ => False
  | _ => True

def tick (s : S) (sec : Int) : S := if sec > s.sec then { s with sec := sec } else s

theorem watch_tick {m M : Int} {s : S} (h : Watch m M s) (sec : Int) : Watch m M (tick s sec) ∧ sec ≤ (tick s sec).sec := by
  unfold tick
  split
  · next hs =>
    have := h.clock
    have := h.late
    refine ⟨⟨?_, h.pos, ?_, ?_, h.spaced⟩, Int.le_refl _⟩
    · show 0 < sec; omega
    · show s.opr ≤ sec + M; omega
    · intro x hx
      have := h.past x hx
      exact ⟨by show x ≤ sec; omega, this.2⟩
  · exact ⟨h, by omega⟩

theorem step_proc {cf : Conf} {s : S} {sec : Int} {sys : Bool} (h : s.shut = false) :
    (step cf s (.proc sec sys)).1 = parentPart cf (expire cf sec (tick s sec).list.length (tick s sec)) sec sys := by
  simp [step, h, tick]

theorem watch_step {cf : Conf} {m M : Int} (hb : Between cf m M) (h1 : cf.hasId = true) (h2 : cf.parent ≠ []) {s : S}
    (h : Watch m M s) {op : Op} (ho : op.later) : Watch m M (step cf s op).1 := by
  cases op with
  | start now sys => exact ho.elim
  | proc sec sys =>
    by_cases hs : s.shut = false
    · rw [step_proc hs]
      obtain ⟨ht, hle⟩ := watch_tick h sec
      have hcl := closed_expire cf sec (tick s sec).list.length (tick s sec)
      have hw := watch_closed hb ht hcl
      have hle : sec ≤ (expire cf sec (tick s sec).list.length (tick s sec)).sec := by rw [hcl.sec]; exact hle
      generalize expire cf sec (tick s sec).list.length (tick s sec) = u at hw hle
      by_cases hd : u.opr < sec
      · rcases parentPart_due (sys := sys) h1 h2 hw.pos hd with ⟨-, he⟩ | ⟨-, e1, e2, -, -, e3 | e3⟩
        · rw [he]
          have hp := hw.pos
          have := hb.p0
          have := hb.pm
          have := hb.pM
          refine ⟨hw.clock, ?_, ?_, ?_, ?_⟩
          · show 0 < sec + cf.ping; omega
          · show sec + cf.ping ≤ u.sec + M; omega
          · intro x hx
            rw [calls_ping] at hx
            have := hw.past x hx
            exact ⟨this.1, by show x + m ≤ sec + cf.ping; omega⟩
          · rw [calls_ping]; exact hw.spaced
        · exact watch_call hw hle hd e1 e2 _ e3 hb.r0 hb.rm hb.rM
        · exact watch_call hw hle hd e1 e2 _ e3 hb.i0 hb.im hb.iM
      · rw [parentPart_not hd]; exact hw
    · simp only [step]
      rw [if_pos (by simpa using hs)]
      exact h
  | connect addr sys =>
    have := same_connect cf s addr sys
    exact watch_same h this.sec this.log this.opr
  | connectTo addr ep sys =>
    have := same_connectTo cf s addr ep sys
    exact watch_same h this.sec this.log this.opr
  | done c ok =>
    simp only [step]
    split
    · split
      · have := (same_set s c { s.conn c with pending := false }).trans
          (same_status _ c (if ((s.set c { s.conn c with pending := false }).conn c).bind = none then .handshaking else .connected))
        exact watch_same h this.sec this.log this.opr
      · exact watch_closed hb h ((same_set s c _).closed.trans (closed_reset cf _ c))
    · exact h
  | accepted addr =>
    have := ((same_create cf s).trans (same_status _ (create cf s).2 .handshaking)).trans (same_set _ (create cf s).2
      { (setStatus (create cf s).1 (create cf s).2 .handshaking).conn (create cf s).2 with addr := addr })
    exact watch_same h this.sec this.log this.opr
  | established c ep =>
    simp only [step]
    split
    · have := (same_set s c { s.conn c with bind := some ep }).trans (same_status _ c .connected)
      exact watch_same h this.sec this.log this.opr
    · exact h
  | drop c => exact watch_closed hb h (closed_reset cf s c)
  | parentUp =>
    simp only [step]
    split
    · exact h
    · simp only
      split
      · exact watch_same h rfl rfl rfl
      · exact watch_same h rfl rfl rfl
  | ctl b => exact watch_same h rfl rfl rfl
  | regDone =>
    simp only [step]
    split
    · simp only
      have hw : Watch m M { s with regDone := true, opr := if s.sec + cf.ping < s.opr then s.sec + cf.ping else s.opr } := by
        by_cases hlt : s.sec + cf.ping < s.opr
        · exact watch_resched h rfl rfl cf.ping (by simp [hlt]) hb.p0 hb.pm hb.pM
        · exact watch_same h rfl rfl (by simp [hlt])
      split
      · exact watch_same hw rfl rfl rfl
      · exact hw
    · exact h
  | parentDown =>
    simp only [step]
    split
    · exact watch_resched h rfl rfl cf.retry rfl hb.r0 hb.rm hb.rM
    · exact h
  | parentGone => exact watch_same h rfl rfl rfl

theorem watch_run {cf : Conf} {m M : Int} (hb : Between cf m M) (h1 : cf.hasId = true) (h2 : cf.parent ≠ []) :
    ∀ (ops : List Op) {s : S}, Watch m M s → (∀ op ∈ ops, op.later) → Watch m M (run cf s ops) := by
  intro ops
  induction ops with
  | nil => intro s h _; exact h
  | cons op ops ih =>
    intro s h ho
    exact ih (watch_step hb h1 h2 h (ho op List.mem_cons_self)) fun o h => ho o (List.mem_cons_of_mem _ h)

theorem watch_start {cf : Conf} {m M : Int} (hb : Between cf m M) (h1 : cf.hasId = true) (h2 : cf.parent ≠ []) {now : Int}
    (hn : 0 < now) (sys : Bool) : Watch m M (step cf {} (.start now sys)).1 := by
  simp only [step, start]
  rw [if_pos ⟨h1, h2⟩]
  have hs := same_connect cf { ({} : S) with sec := now, log := [] ++ [.call now] } cf.parent sys
  have e0 := hs.sec
  have e1 := hs.log
  have b1 := hb.i0
  have b2 := hb.r0
  have b3 := hb.im
  have b4 := hb.rm
  have b5 := hb.iM
  have b6 := hb.rM
  simp only [Bool.false_eq_true, if_false]
  generalize hq : connect cf { ({} : S) with sec := now, log := [] ++ [.call now] } cf.parent sys = q at e0 e1
  have e0 : q.1.sec = now := e0
  have e1 : q.1.log = [.call now] := e1
  split
  · refine ⟨by show 0 < q.1.sec; omega, by show 0 < q.1.sec + cf.idle; omega, by show q.1.sec + cf.idle ≤ q.1.sec + M; omega, ?_, ?_⟩
    · intro x hx
      have hx : x ∈ calls q.1.log := hx
      rw [e1] at hx
      have hx : x = now := by simpa [calls] using hx
      exact ⟨by show x ≤ q.1.sec; omega, by show x + m ≤ q.1.sec + cf.idle; omega⟩
    · show (calls q.1.log).Pairwise _
      rw [e1]; simp [calls]
  · refine ⟨by show 0 < q.1.sec; omega, by show 0 < q.1.sec + cf.retry; omega, by show q.1.sec + cf.retry ≤ q.1.sec + M; omega, ?_, ?_⟩
    · intro x hx
      have hx : x ∈ calls q.1.log := hx
      rw [e1] at hx
      have hx : x = now := by simpa [calls] using hx
      exact ⟨by show x ≤ q.1.sec; omega, by show x + m ≤ q.1.sec + cf.retry; omega⟩
    · show (calls q.1.log).Pairwise _
      rw [e1]; simp [calls]

/-- What one `proc` does, when at least the longest interval has passed. -/
theorem proc_due {cf : Conf} {m M : Int} (hb : Between cf m M) (h1 : cf.hasId = true) (h2 : cf.parent ≠ []) {s : S} (h : Watch m M s)
    (hs : s.shut = false) {sec : Int} (hsec : s.sec + M < sec) (sys : Bool) :
    (Ev.call sec ∈ (step cf s (.proc sec sys)).1.log ∧ (s.parent && s.ctl) = false) ∨
    (Ev.ping sec ∈ (step cf s (.proc sec sys)).1.log ∧ (s.parent && s.ctl) = true) ∨
    ((step cf s (.proc sec sys)).1.log = s.log ∧ (step cf s (.proc sec sys)).1.sec = sec ∧ (step cf s (.proc sec sys)).1.state = .lost ∧
      (step cf s (.proc sec sys)).1.parent = s.parent ∧ (step cf s (.proc sec sys)).1.ctl = s.ctl ∧
      s.state = .connecting) := by
  rw [step_proc hs]
  have hl := h.late
  have hi := hb.i0
  have hiM := hb.iM
  have htick : tick s sec = { s with sec := sec } := by unfold tick; rw [if_pos (by omega)]
  rw [htick]
  have hcl := closed_expire cf sec s.list.length { s with sec := sec }
  generalize expire cf sec s.list.length { s with sec := sec } = u at hcl
  have c1 := hcl.sec
  have c2 := hcl.log
  have c3 := hcl.parent
  have c4 := hcl.ctl
  simp only at c1 c2 c3 c4
  rcases hcl.rest with ⟨r1, r2, r3⟩ | ⟨r1, -, r2, r3⟩
  · simp only at r1
    have hp := h.pos
    rcases parentPart_due (sys := sys) h1 h2 (s := u) (sec := sec) (by omega) (by omega) with ⟨hpc, he⟩ | ⟨hpc, -, e2, -⟩
    · right; left
      rw [he, ← c3, ← c4]
      exact ⟨by simp, hpc⟩
    · left
      rw [e2, ← c3, ← c4]
      exact ⟨by simp, hpc⟩
  · right; right
    have hr := hb.r0
    rw [parentPart_not (by rw [r1]; simp only; omega)]
    exact ⟨c2, c1, r3, c3, c4, r2⟩

/-- **C61, never late.**  After `start` of a node with an id and a parent, in every history: if the node is not connected
to the parent, then of two calls of `proc`, each later than the clock by more than every interval, one calls `connect` for the
parent, unless the first shut the node down.  (The first may only note that the previous attempt timed out.) -/
theorem C61_keeps_trying (cf : Conf) (m M : Int) (hb : Between cf m M) (h1 : cf.hasId = true) (h2 : cf.parent ≠ []) (now : Int)
    (hn : 0 < now) (sys : Bool) (ops : List Op) (ho : ∀ op ∈ ops, op.later) (s t u : S) (sec₁ sec₂ : Int) (sys₁ sys₂ : Bool)
    (hs : s = run cf (step cf {} (.start now sys)).1 ops) (hd : s.shut = false) (hc : (s.parent && s.ctl) = false)
    (hsec₁ : s.sec + M < sec₁) (ht : t = (step cf s (.proc sec₁ sys₁)).1) (htd : t.shut = false)
    (hsec₂ : sec₁ + M < sec₂) (hu : u = (step cf t (.proc sec₂ sys₂)).1) :
    Ev.call sec₁ ∈ t.log ∨ Ev.call sec₂ ∈ u.log := by
  have hw : Watch m M s := by rw [hs]; exact watch_run hb h1 h2 ops (watch_start hb h1 h2 hn sys) ho
  subst ht
  subst hu
  rcases proc_due hb h1 h2 hw hd hsec₁ sys₁ with h | h | ⟨-, g1, g2, g3, g4, -⟩
  · exact Or.inl h.1
  · exact absurd h.2 (by simp [hc])
  · right
    have hw' := watch_step hb h1 h2 hw (op := .proc sec₁ sys₁) trivial
    rcases proc_due hb h1 h2 hw' htd (by rw [g1]; exact hsec₂) sys₂ with h | h | ⟨-, -, -, -, -, h⟩
    · exact h.1
    · rw [g3, g4] at h
      exact absurd h.2 (by simp [hc])
    · exact absurd (g2.symm.trans h) (by decide)

/-- **C61, never early.**  Between two calls of `connect` for the parent more than the shortest interval passes. -/
theorem C61_spaced (cf : Conf) (m M : Int) (hb : Between cf m M) (h1 : cf.hasId = true) (h2 : cf.parent ≠ []) (now : Int)
    (hn : 0 < now) (sys : Bool) (ops : List Op) (ho : ∀ op ∈ ops, op.later) :
    (calls (run cf (step cf {} (.start now sys)).1 ops).log).Pairwise fun a b => a + m < b :=
  (watch_run hb h1 h2 ops (watch_start hb h1 h2 hn sys) ho).spaced

theorem active_step {cf : Conf} {s : S} (h : s.active = true ∧ s.shut = false) {op : Op} :
    (step cf s op).1.active = true ∧ (step cf s op).1.shut = false := by
  have key : ∀ {t u : S}, t.active = true ∧ t.shut = false → Closed cf t u → u.active = true ∧ u.shut = false := by
    intro t u ht hc
    refine ⟨hc.active.trans ht.1, ?_⟩
    rcases hc.rest with ⟨-, r, -⟩ | ⟨-, r, -⟩
    · exact r.trans ht.2
    · rw [r, ht.1, ht.2]; rfl
  cases op with
  | start now sys =>
    simp only [step, start]
    split
    · split
      · exact h
      · have := same_connect cf { s with sec := now, log := s.log ++ [.call now] } cf.parent sys
        have h' := key (t := { s with sec := now, log := s.log ++ [.call now] }) h this.closed
        split <;> exact h'
    · exact ⟨rfl, h.2⟩
  | proc sec sys =>
    rw [step_proc h.2]
    have h0 : (tick s sec).active = true ∧ (tick s sec).shut = false := by unfold tick; split <;> exact h
    have h1 := key h0 (closed_expire cf sec (tick s sec).list.length (tick s sec))
    generalize expire cf sec (tick s sec).list.length (tick s sec) = u at h1
    unfold parentPart
    split
    · split
      · exact h1
      · have h' := key (t := { u with log := u.log ++ [.call sec] }) h1 (same_connect cf { u with log := u.log ++ [.call sec] } cf.parent sys).closed
        simp only
        split <;> exact h'
    · exact h1
  | connect addr sys => exact key h (same_connect cf s addr sys).closed
  | connectTo addr ep sys => exact key h (same_connectTo cf s addr ep sys).closed
  | done c ok =>
    simp only [step]
    split
    · split
      · exact key h ((same_set s c { s.conn c with pending := false }).trans (same_status _ c _)).closed
      · exact key h ((same_set s c _).closed.trans (closed_reset cf _ c))
    · exact h
  | accepted addr =>
    exact key h (((same_create cf s).trans (same_status _ (create cf s).2 .handshaking)).trans (same_set _ (create cf s).2
      { (setStatus (create cf s).1 (create cf s).2 .handshaking).conn (create cf s).2 with addr := addr })).closed
  | established c ep =>
    simp only [step]
    split
    · exact key h ((same_set s c { s.conn c with bind := some ep }).trans (same_status _ c .connected)).closed
    · exact h
  | drop c => exact key h (closed_reset cf s c)
  | parentUp =>
    simp only [step]
    split
    · exact h
    · simp only
      split
      · exact ⟨rfl, h.2⟩
      · exact h
  | ctl b => exact h
  | regDone =>
    simp only [step]
    split
    · simp only
      split
      · exact ⟨rfl, h.2⟩
      · exact h
    · exact h
  | parentDown =>
    simp only [step]
    split
    · exact ⟨h.1, by simp [h.1, h.2]⟩
    · exact h
  | parentGone => exact h

/-- **C61, never gives up.**  A node that was active once is not shut down by the loss of the parent or by failed attempts.
One that was not is, see `C61_gives_up_false`. -/
theorem C61_active_stays_partial (cf : Conf) (s : S) (h : s.active = true) (hd : s.shut = false) (ops : List Op) :
    (run cf s ops).shut = false := by
  suffices ∀ (ops : List Op) (s : S), s.active = true ∧ s.shut = false → (run cf s ops).active = true ∧ (run cf s ops).shut = false from
    (this ops s ⟨h, hd⟩).2
  intro ops
  induction ops with
  | nil => intro s h; exact h
  | cons op ops ih => intro s h; exact ih _ (active_step h)

/-- The configuration of the examples: `first_idle_timeout` 10, `retry_interval` 5, `ping_interval` 8. -/
def exConf : Conf := ⟨10, 5, 8, "ipv4://10.0.0.1:80".toList, true⟩

theorem exBetween : Between exConf 5 10 := by constructor <;> decide

/-- The node registers, loses the parent and tries again. -/
example : (run exConf {} [.start 1 true, .done 0 true, .established 0 7, .parentUp, .regDone, .proc 2 true, .proc 12 true, .parentDown,
    .proc 14 true, .proc 18 true, .done 1 false, .proc 20 true, .proc 24 true]).log = [.call 1, .ping 12, .call 18, .call 24] := by
  decide +kernel

example : (calls (run exConf (step exConf {} (.start 1 true)).1 [.done 0 true, .established 0 7, .parentUp, .regDone, .proc 2 true,
    .proc 12 true, .parentDown, .proc 14 true, .proc 18 true, .done 1 false, .proc 20 true, .proc 24 true]).log).Pairwise
    fun a b => a + 5 < b :=
  C61_spaced exConf 5 10 exBetween rfl (by decide) 1 (by decide) true _ (by simp [Op.later])

/-- Both cases of `C61_keeps_trying`: the first call of `proc` finds that the attempt timed out, the second tries again. -/
example : Ev.call 40 ∉ (step exConf (run exConf (step exConf {} (.start 1 true)).1 [.parentUp, .regDone, .parentDown, .proc 20 true])
      (.proc 40 true)).1.log ∧
    Ev.call 60 ∈ (run exConf (step exConf {} (.start 1 true)).1 [.parentUp, .regDone, .parentDown, .proc 20 true, .proc 40 true,
      .proc 60 true]).log := by decide +kernel

/-- C61 is false: a node that was not active yet gives up and shuts down when the first attempt fails. -/
theorem C61_gives_up_false : ¬ ∀ (cf : Conf) (now : Int) (sys : Bool) (ops : List Op), Between cf 5 10 → cf.hasId = true →
    cf.parent ≠ [] → 0 < now → (∀ op ∈ ops, op.later) → (run cf (step cf {} (.start now sys)).1 ops).shut = false := by
  intro h
  have := h exConf 1 true [.done 0 false] exBetween rfl (by decide) (by decide) (by simp [Op.later])
  revert this
  decide +kernel

/-- C61 is false: a node counts as connecting to the parent while nothing is going on.  The first attempt was refused by the
channel; the entry it left makes the next call succeed without an attempt, although the channel would take it now. -/
theorem C61_stalled_false : ¬ ∀ (cf : Conf) (now : Int) (sys : Bool) (ops : List Op), Between cf 5 10 → cf.hasId = true →
    cf.parent ≠ [] → 0 < now → (∀ op ∈ ops, op.later) → (run cf (step cf {} (.start now sys)).1 ops).state = .connecting →
    Attempt (run cf (step cf {} (.start now sys)).1 ops) cf.parent := by
  intro h
  have := h exConf 1 false [.proc 7 true] exBetween rfl (by decide) (by decide) (by simp [Op.later]) (by decide +kernel)
  obtain ⟨c, hc, h1⟩ := attempt_bound (fresh_run _ (fresh_step fresh_init _)) this
  revert h1
  revert c
  decide +kernel

/-- The end of this history: when the left entry times out, the node shuts down. -/
theorem C61_stalled_shutdown_false : ¬ ∀ (cf : Conf) (now : Int) (ops : List Op), Between cf 5 10 → cf.hasId = true →
    cf.parent ≠ [] → 0 < now → (∀ op ∈ ops, ∃ sec, op = .proc sec true) → (run cf (step cf {} (.start now false)).1 ops).shut = false := by
  intro h
  have := h exConf 1 [.proc 7 true, .proc 12 true] exBetween rfl (by decide) (by decide) (by simp)
  revert this
  decide +kernel

end Verif.Node.Connect
