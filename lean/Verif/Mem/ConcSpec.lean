import Verif.Mem.Conc
import Verif.Mem.Lemmas

/-! What is said about runs of the interleaved model. -/
namespace Verif.Mem.Conc

/-! ### Runs that are considered -/

/-- The access writes a node head other than by setting the written bit at the end. -/
def Act.marks : Act → Bool
  | .flag _ _ _ | .seq _ _ => true
  | _ => false

/-- Reservation `j` is not finished and its sender has stopped. -/
def Lost (s : St) (j : Nat) : Prop := j ∉ s.fin ∧ ∃ t, s.who[j]? = some t ∧ s.crashed t = true

/-! Assumptions of the partial theorems. -/

/-- Messages have lengths that buffers can have. -/
def SizeOK (_ : St) : Ev → Prop
  | .call _ m => m.length + 512 ≤ 2 ^ 64
  | _ => True

/-- The operation number of a message that is being written. -/
def SPC.number : SPC → Option Nat
  | .work _ _ seq _ _ _ _ => some seq
  | _ => none

/-- When nodes are reserved for a message, no node carries its operation number and no sender that runs is writing a message with
that number.  The 32-bit counter may wrap. -/
def NumberOK (s : St) : Ev → Prop
  | .send t _ =>
    match s.thr t with
    | .cas _ _ seq w _ _ => s.wcur = w → (∀ i, i < s.conf.n → (s.heads i).seq ≠ seq) ∧
        ∀ u, s.crashed u = false → (s.thr u).number ≠ some seq
    | _ => True
  | _ => True

/-- The 32-bit operation counter does not wrap. -/
def CountOK (s : St) : Ev → Prop
  | .send t _ =>
    match s.thr t with
    | .fetch _ _ => s.oseq + 1 < 2 ^ 32
    | _ => True
  | _ => True

/-- When a compare and swap succeeds, the write cursor has not moved since it was read, rather than having moved around
the whole ring. -/
def NoLap (s : St) : Ev → Prop
  | .send t _ =>
    match s.thr t with
    | .cas _ _ _ w wT _ => s.wcur = w → s.tot = wT
    | _ => True
  | _ => True

/-- A sender does not stop between its reservation and its last node head. -/
def StopLate (s : St) : Ev → Prop
  | .crash t =>
    match s.thr t with
    | .work _ _ _ _ _ todo _ => ∀ a ∈ todo, a.marks = false
    | _ => True
  | _ => True

/-- The receiver gives up only on a message whose sender has stopped. -/
def GiveUp (s : St) : Ev → Prop
  | .rstep _ =>
    match s.rpc with
    | .fft l now => s.fft ≠ 0 → absDiff now s.fft > s.conf.timeout → Lost s (s.last l.rb)
    | _ => True
  | _ => True

/-- The assumptions on one step. -/
def Legal (s : St) (e : Ev) : Prop := SizeOK s e ∧ NumberOK s e ∧ NoLap s e ∧ StopLate s e ∧ GiveUp s e

/-- The assumptions with a counter that does not wrap. -/
def Counted (s : St) (e : Ev) : Prop := SizeOK s e ∧ CountOK s e ∧ NoLap s e ∧ StopLate s e ∧ GiveUp s e

/-- Every step of the run satisfies `P`. -/
def Along (P : St → Ev → Prop) (hash : List Byte → Nat) (s : St) : List Ev → Prop
  | [] => True
  | e :: es => P s e ∧ ∀ s1, step hash s e = some s1 → Along P hash s1 es

/-- First node of reservation `j`, counted from the first reservation without wrapping around. -/
def offset (resv : List Msg) (j : Nat) : Nat := ((resv.take j).map fun m => nodes m.length).sum

/-! ### What the receiver has passed -/

/-- Reservation `d` is the first that the receiver has not passed. -/
structure Front (s : St) (d : Nat) : Prop where
  le : d ≤ s.resv.length
  cur : s.rcur = offset s.resv d % s.conf.n
  lo : offset s.resv d ≤ s.tot
  hi : s.tot < offset s.resv d + s.conf.n

/-- Messages of the finished reservations among the first `d`. -/
def takenOf (resv : List Msg) (fin : List Nat) (d : Nat) : List Msg :=
  (List.range d).filterMap fun j => if j ∈ fin then resv[j]? else none

/-- The clock is late. -/
def Late (F timeout : Nat) : Ev → Prop
  | .rstep now => absDiff now F > timeout
  | _ => True

/-! ### What a sender has sent -/

/-- Messages that sender `t` has reserved nodes for, in order. -/
def owned (s : St) (t : Nat) : List Msg := ((s.who.zip s.resv).filter fun e => e.1 = t).map (·.2)

/-- Non-empty messages of the calls of `mem_send` by `t` that returned success, in order. -/
def accepted (s : St) (t : Nat) : List Msg :=
  (s.sent.filter fun e => e.1 = t ∧ e.2.2 = Err.SUCCESS ∧ e.2.1 ≠ []).map (·.2.1)

/-- The message of a call that has reserved nodes and has not returned. -/
def pending : SPC → List Msg
  | .work m _ _ _ _ _ _ => [m]
  | .verify m _ _ _ _ => [m]
  | _ => []

/-- A sender that compares the sequence number at the end does so before its nodes are reserved again. -/
def Prompt (s : St) : Ev → Prop
  | .send t _ =>
    match s.thr t with
    | .verify _ _ _ _ id => s.tot ≤ offset s.resv id + s.conf.n
    | _ => True
  | _ => True

end Verif.Mem.Conc
