import Verif.Mem.ConcSpec

/-!
The channel on a machine with store buffers (total store order, as on x86), `src/channel_mem.cpp:536-875`.

The accesses are those of `Conc.lean`, in program order.  A store of a thread goes to its buffer; the oldest store of a buffer
reaches the memory at any later time (`drain`, `rdrain`); a thread reads its own latest buffered store, or else the memory.
The increment of `atomic_operation_seq` (383), the compare and swap of `atomic_write_cur` (571) and the store to
`atomic_read_cur` (866), which are sequentially consistent, take place only when the buffer of the thread is empty.  The fences in
632, 638 and 836 order nothing that this order leaves open.

Simplified:
* A call of `mem_send` begins when the buffer of its thread is empty; what precedes its first access to shared memory
  (the increment) is local.
* The load of a flag (`loadF`) is also put in the buffer, where it has no effect.
* `first_failed_writing_time` is used by the receiver alone, so that its buffered value is the value it reads.
* The buffer of a thread that has stopped is still emptied.
* The compiler keeps the order of the accesses.
-/
namespace Verif.Mem.Tso

open Conc

/-- A buffered store: the access, the register when it was made, and the number of the reservation and of the message (history). -/
structure Ent where
  a : Act
  reg : Bool
  id : Nat
  seq : Nat
deriving DecidableEq, Repr

/-- Memory, program counters and history (`s`; its `heads` and `data` are the memory), buffers of the senders, and nodes whose
flags the receiver has cleared in its buffer. -/
structure T where
  s : St
  buf : Nat → List Ent
  rbuf : List Nat

/-- After `mem_init`. -/
def T.init (conf : Conf) : T := ⟨St.init conf, fun _ => [], []⟩

/-- What a sender with the buffer `b` reads. -/
def view (h : Nat → Head) (b : List Ent) : Nat → Head := b.foldl (fun h e => (act h (fun _ => 0) e.reg e.a).1) h

/-- What the receiver reads. -/
def clrs (l : List Nat) (h : Nat → Head) : Nat → Head := l.foldl clr h

/-- Update of one entry (plumbing). -/
def setBuf (f : Nat → List Ent) (t : Nat) (b : List Ent) : Nat → List Ent := fun u => if u = t then b else f u

/-- The register of a sender after an access. -/
def regOf (h : Nat → Head) (b : List Ent) (reg : Bool) : Act → Bool
  | .loadF i => (view h b i).start
  | _ => reg

/-- One access of sender `t`. -/
def stepSend (hash : List Byte → Nat) (τ : T) (t : Nat) (weak : Bool) : Option T :=
  match τ.s.thr t with
  | .work m left seq w id todo reg =>
    match todo with
    | [] => none
    | a :: rest => some { τ with
        buf := setBuf τ.buf t (τ.buf t ++ [⟨a, reg, id, seq⟩])
        s := τ.s.pc t (if rest = [] then .verify m left seq w id else .work m left seq w id rest (regOf τ.s.heads (τ.buf t) reg a)) }
  | .verify m left seq w id =>
    if seq = (view τ.s.heads (τ.buf t) w).seq then some { τ with s := τ.s.returns t m Err.SUCCESS }
    else
      match left with
      | 0 => some { τ with s := τ.s.returns t m Err.NODE_BAD_BLOCK_CSEQ_ID }
      | left + 1 => some { τ with s := τ.s.pc t (.fetch m left) }
  | _ => if τ.buf t = [] then (Conc.stepSend hash τ.s t weak).map fun s => { τ with s := s } else none

/-- The access sets the written bit of the first node. -/
def isLast : Act → Bool
  | .storeF _ => true
  | _ => false

/-- The oldest store of sender `t` reaches the memory. -/
def drain (τ : T) (t : Nat) : Option T :=
  match τ.buf t with
  | [] => none
  | e :: b =>
    let r := act τ.s.heads τ.s.data e.reg e.a
    some { τ with
      buf := setBuf τ.buf t b
      s := { τ.s with
        heads := r.1, data := r.2.1, oob := τ.s.oob || !e.a.inside τ.s.conf.n
        fin := if isLast e.a then τ.s.fin ++ [e.id] else τ.s.fin } }

/-- The node whose flag the receiver clears in its next access. -/
def clears : RPC → List Nat
  | .skip l | .skipTO l | .skipBad l => [l.rb]
  | .clrSet _ _ re => [re]
  | _ => []

/-- The receiver is about to store `atomic_read_cur`. -/
def storesCur : RPC → Bool
  | .fin ori re _ _ _ => decide (ori ≠ re)
  | _ => false

/-- One access of the receiver. -/
def stepRecv (hash : List Byte → Nat) (τ : T) (now : Nat) : Option T :=
  if storesCur τ.s.rpc = true ∧ τ.rbuf ≠ [] then none
  else (Conc.stepRecv hash { τ.s with heads := clrs τ.rbuf τ.s.heads } now).map fun s =>
    { τ with s := { s with heads := τ.s.heads }, rbuf := τ.rbuf ++ clears τ.s.rpc }

/-- One step of the execution. -/
inductive Ev where
  | call (t : Nat) (m : Msg)
  | send (t : Nat) (weak : Bool)
  | drain (t : Nat)
  | crash (t : Nat)
  | recv (len : Nat)
  | rstep (now : Nat)
  | rdrain
deriving DecidableEq, Repr

/-- One step; `none`: not possible. -/
def step (hash : List Byte → Nat) (τ : T) : Ev → Option T
  | .call t m => if τ.s.thr t = .idle ∧ τ.s.crashed t = false ∧ τ.buf t = [] then some { τ with s := callSend τ.s t m } else none
  | .send t weak => if τ.s.crashed t = false then stepSend hash τ t weak else none
  | .drain t => drain τ t
  | .crash t => some { τ with s := { τ.s with crashed := fun u => if u = t then true else τ.s.crashed u } }
  | .recv len => if τ.s.rpc = .idle then some { τ with s := τ.s.to (.loadR len) } else none
  | .rstep now => stepRecv hash τ now
  | .rdrain =>
    match τ.rbuf with
    | [] => none
    | i :: l => some { τ with s := { τ.s with heads := clr τ.s.heads i }, rbuf := l }

/-- Runs the steps in order (plumbing). -/
def run (hash : List Byte → Nat) (τ : T) : List Ev → Option T
  | [] => some τ
  | e :: es => match step hash τ e with
    | none => none
    | some τ1 => run hash τ1 es

/-! ### Assumptions -/

/-- The step of `Conc` (`drain` and `rdrain` are none). -/
def Ev.sc : Ev → Option Conc.Ev
  | .call t m => some (.call t m)
  | .send t weak => some (.send t weak)
  | .crash t => some (.crash t)
  | .recv len => some (.recv len)
  | .rstep now => some (.rstep now)
  | .drain _ | .rdrain => none

/-- The number of a message is not in a buffer when nodes are reserved for it. -/
def NumberDry (τ : T) : Ev → Prop
  | .send t _ =>
    match τ.s.thr t with
    | .cas _ _ seq w _ _ => τ.s.wcur = w → ∀ u, ∀ e ∈ τ.buf u, e.seq ≠ seq
    | _ => True
  | _ => True

/-- When the receiver gives up on a message, the stores of its sender have reached the memory. -/
def GiveUpDry (τ : T) : Ev → Prop
  | .rstep _ =>
    match τ.s.rpc with
    | .fft l now => τ.s.fft ≠ 0 → absDiff now τ.s.fft > τ.s.conf.timeout → ∀ t, τ.s.who[τ.s.last l.rb]? = some t → τ.buf t = []
    | _ => True
  | _ => True

/-- The assumptions on one step: those of `Conc`, and that buffers are emptied in time. -/
def Legal (τ : T) (e : Ev) : Prop := (∀ e', e.sc = some e' → Conc.Legal τ.s e') ∧ NumberDry τ e ∧ GiveUpDry τ e

/-- `Conc.Prompt`. -/
def Prompt (τ : T) (e : Ev) : Prop := ∀ e', e.sc = some e' → Conc.Prompt τ.s e'

/-- `Conc.CountOK`. -/
def Count (τ : T) (e : Ev) : Prop := ∀ e', e.sc = some e' → CountOK τ.s e'

/-- The assumptions with a counter that does not wrap. -/
def Counted (τ : T) (e : Ev) : Prop := (∀ e', e.sc = some e' → Conc.Counted τ.s e') ∧ GiveUpDry τ e

/-- Every step of the run satisfies `P`. -/
def Along (P : T → Ev → Prop) (hash : List Byte → Nat) (τ : T) : List Ev → Prop
  | [] => True
  | e :: es => P τ e ∧ ∀ τ1, step hash τ e = some τ1 → Along P hash τ1 es

end Verif.Mem.Tso
