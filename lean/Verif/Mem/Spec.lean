import Verif.Mem.Model

/-!
Specification of the shared-memory channel used one call at a time: a queue of
messages with a capacity counted in nodes.  Nothing here mentions cursors,
flags or addresses.
-/
namespace Verif.Mem

/-- A message. -/
abbrev Msg := List Byte

/-- Calls on a channel.  `now` is the clock the call reads. -/
inductive Op where
  | send (m : Msg)
  | recv (now len : Nat)
deriving DecidableEq

/-- What the caller sees: result code, reported size, bytes put into the buffer. -/
structure Ev where
  code : Int
  size : Option Nat
  bytes : Msg
deriving DecidableEq

/-- Nodes a message occupies: its bytes and a 16-byte block head, in 256-byte nodes. -/
def need (len : Nat) : Nat := (len + 16) / 256 + if (len + 16) % 256 = 0 then 0 else 1

/-- Nodes in use. -/
def load (q : List Msg) : Nat := (q.map fun m => need m.length).sum

/-- The queue: `n` nodes of which one stays empty and `prot` are protected.
An empty message is reported as sent and is dropped. -/
def specStep (n prot : Nat) (q : List Msg) : Op → List Msg × Ev
  | .send m =>
    if m = [] then (q, ⟨Err.SUCCESS, none, []⟩)
    else if load q + need m.length + prot + 1 ≤ n then (q ++ [m], ⟨Err.SUCCESS, none, []⟩)
    else (q, ⟨Err.BUFF_LIMIT, none, []⟩)
  | .recv _ len =>
    match q with
    | [] => ([], ⟨Err.NO_DATA, none, []⟩)
    | m :: r => if len < m.length then (m :: r, ⟨Err.BUFF_LIMIT, some m.length, []⟩)
      else (r, ⟨Err.SUCCESS, some m.length, m⟩)

/-- Runs the calls in order (plumbing). -/
def specRun (n prot : Nat) (q : List Msg) : List Op → List Msg × List Ev
  | [] => (q, [])
  | op :: ops =>
    let r := specStep n prot q op
    let s := specRun n prot r.1 ops
    (s.1, r.2 :: s.2)

/-- Non-empty messages whose send reported success, in order. -/
def accepted : List Op → List Ev → List Msg
  | .send m :: ops, e :: evs =>
    if e.code = Err.SUCCESS ∧ m ≠ [] then m :: accepted ops evs else accepted ops evs
  | _ :: ops, _ :: evs => accepted ops evs
  | _, _ => []

/-- Messages returned by successful receives, in order. -/
def delivered : List Op → List Ev → List Msg
  | .recv _ _ :: ops, e :: evs => if e.code = Err.SUCCESS then e.bytes :: delivered ops evs else delivered ops evs
  | _ :: ops, _ :: evs => delivered ops evs
  | _, _ => []

/-- One call on the implementation; `none` if it leaves the memory or does not end. -/
def implStep (hash : List Byte → Nat) (c : Chan) : Op → Option (Chan × Ev)
  | .send m => match send hash c m with
    | .done c' code => some (c', ⟨code, none, []⟩)
    | _ => none
  | .recv now len => match recv hash c now len with
    | .done c' code size bytes => some (c', ⟨code, size, bytes⟩)
    | _ => none

/-- Runs the calls in order (plumbing). -/
def implRun (hash : List Byte → Nat) (c : Chan) : List Op → Option (Chan × List Ev)
  | [] => some (c, [])
  | op :: ops => do
    let r ← implStep hash c op
    let s ← implRun hash r.1 ops
    some (s.1, r.2 :: s.2)

/-- Message lengths a real buffer can have. -/
def Op.ok : Op → Prop
  | .send m => m.length + 512 ≤ 2 ^ 64
  | .recv _ _ => True

/-- A usable configuration: the one `mem_init` chooses by itself is one
(`defaultConf_ok`); a configuration supplied by the caller is not checked by
the code. -/
structure GoodConf (cf : Conf) : Prop where
  nodes : 1 ≤ cf.n
  size : cf.n * 256 < 2 ^ 64
  prot : cf.prot < 2 ^ 64
  protMem : cf.protMem ≤ cf.prot * 256
  retry : 1 ≤ cf.retry

end Verif.Mem
