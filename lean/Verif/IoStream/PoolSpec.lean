import Verif.IoStream.Pool

/-!
What the log of a stream channel says about calls, connections and messages, and the assumptions about the
operating system.  Nothing here depends on how the channel works.
-/
namespace Verif.IoStream.Pool

/-! ### Calls -/

/-- The event is a callback for `t`. -/
def isAnswer (t : Tok) : Ev → Bool
  | .answer u _ _ => u == t
  | _ => false

/-- The event is the return of the call `t`. -/
def isRet (t : Tok) : Ev → Bool
  | .ret u _ => u == t
  | _ => false

/-- The event is the successful return of the call `t`. -/
def isOkRet (t : Tok) : Ev → Bool
  | .ret u code => u == t && code == Err.SUCCESS
  | _ => false

/-- How often call `t` was answered. -/
def answers (t : Tok) (log : List Ev) : Nat := log.countP (isAnswer t)

/-- How often call `t` returned. -/
def rets (t : Tok) (log : List Ev) : Nat := log.countP (isRet t)

/-- How often call `t` returned success. -/
def okRets (t : Tok) (log : List Ev) : Nat := log.countP (isOkRet t)

/-- The request will answer `t`. -/
def isPend (t : Tok) : Req → Bool
  | .dnsListen u | .dnsConnect u | .connect u => u == t
  | .write _ => false

/-- Requests of call `t` libuv has not reported yet. -/
def pend (t : Tok) (reqs : List Req) : Nat := reqs.countP (isPend t)

/-! ### Connections -/

/-- The connection is handed to the application. -/
def announces (r : Ref) : Ev → Bool
  | .answer _ _ (some c) | .accepted _ _ (some c) => c == r
  | _ => false

/-- Something is reported for the connection. -/
def about (r : Ref) : Ev → Bool
  | .accepted l _ _ => l == r
  | .recv c | .sent c _ | .written c _ _ _ | .disconnected c => c == r
  | _ => false

/-- Nothing is reported for a connection after it was reported as disconnected, and nothing before it was handed
to the application. -/
def Ordered : List Ev → Prop
  | [] => True
  | e :: es => (∀ r, e = .disconnected r → ∀ f ∈ es, about r f = false) ∧
      (∀ r, about r e = true → ∀ f ∈ es, announces r f = false) ∧ Ordered es

/-- A connection is given with success and nothing with an error. -/
def Ev.sound : Ev → Prop
  | .answer _ code c | .accepted _ code c => code = Err.SUCCESS ↔ c ≠ none
  | _ => True

/-! ### Messages -/

/-- Messages accepted for a connection. -/
def sentOf (r : Ref) (log : List Ev) : List Nat := log.filterMap fun e => match e with
  | .sent c m => if c = r then some m else none
  | _ => none

/-- Messages reported as finished. -/
def reportedOf (r : Ref) (log : List Ev) : List Nat := log.filterMap fun e => match e with
  | .written c m _ _ => if c = r then some m else none
  | _ => none

/-! ### Assumptions -/

/-- The number the system gives to a new socket. -/
def In.fd : In → Option Nat
  | .listen (.ok fd) => some fd
  | .resolved (.dnsListen _) (some (.ok fd)) => some fd
  | .connected _ fd => fd
  | .incoming _ fd _ => fd
  | _ => none

/-- A new socket does not get the number of an open one. -/
def Fresh (s : St) (i : In) : Prop := ∀ fd, i.fd = some fd → ∀ p ∈ s.pool, p.1 ≠ fd

instance (s : St) (i : In) : Decidable (Fresh s i) :=
  match h : i.fd with
  | none => .isTrue (by intro fd h'; rw [h] at h'; cases h')
  | some fd =>
    if hp : ∀ p ∈ s.pool, p.1 ≠ fd then .isTrue (by intro fd' h'; rw [h] at h'; cases h'; exact hp)
    else .isFalse (by intro hf; exact hp (hf fd h))

/-- The choices of the environment in a step. -/
def In.env : In → Option Env
  | .disconnect _ _ ev | .disconnectFd _ _ ev | .send _ _ ev | .close ev | .ret ev | .written _ _ ev | .again _ ev
  | .data _ _ _ ev => some ev
  | _ => none

/-- The connection a call of the application names. -/
def In.uses : In → Option Ref
  | .disconnect r _ _ | .send r _ _ => some r
  | _ => none

/-- The application does not use a connection that no longer exists. -/
def Owned (s : St) (i : In) : Prop := ∀ r, i.uses = some r → s.held r = true

instance (s : St) (i : In) : Decidable (Owned s i) :=
  match h : i.uses with
  | none => .isTrue (by intro fd h'; rw [h] at h'; cases h')
  | some r => if hp : s.held r = true then .isTrue (by intro r' h'; rw [h] at h'; cases h'; exact hp)
    else .isFalse (by intro hf; exact hp (hf r h))

/-- No rehash (true of every step if the table is a tree). -/
def Steady (_ : St) (i : In) : Prop := ∀ ev, i.env = some ev → ev.rehash = false

instance (s : St) (i : In) : Decidable (Steady s i) :=
  match h : i.env with
  | none => .isTrue (by intro fd h'; rw [h] at h'; cases h')
  | some ev => if hp : ev.rehash = false then .isTrue (by intro r' h'; rw [h] at h'; cases h'; exact hp)
    else .isFalse (by intro hf; exact hp (hf ev h))

/-- `uv_write` takes every request. -/
def Taken (_ : St) (i : In) : Prop := ∀ ev, i.env = some ev → ev.uvOk = true

instance (s : St) (i : In) : Decidable (Taken s i) :=
  match h : i.env with
  | none => .isTrue (by intro fd h'; rw [h] at h'; cases h')
  | some ev => if hp : ev.uvOk = true then .isTrue (by intro r' h'; rw [h] at h'; cases h'; exact hp)
    else .isFalse (by intro hf; exact hp (hf ev h))

/-- An assumption holds at every step of a run. -/
def Along (P : St → In → Prop) (max : Nat) (s : St) : List In → Prop
  | [] => True
  | i :: is => P s i ∧ ∀ s', step max s i = .ok s' → Along P max s' is

end Verif.IoStream.Pool
