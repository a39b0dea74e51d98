import Verif.Mem.ConcProps

/-!
The channel on a machine that may satisfy loads early (as on ARM), `src/channel_mem.cpp:674-860`.

The receiver reads the flag of a node (712, 714) and then the head of the block: `buffer_size` in 777-790 and 826, the bytes in
839-849 and `fast_check` in 852.  The first fence of the receiver is in 836, after the first reads of `buffer_size`.  The loads of
the cursors (677, 680) are sequentially consistent.  So a read of `buffer_size` may be satisfied before the read of the flag, at any
time after the loads of the cursors; reads after 836 are satisfied after it.

The accesses are those of `Conc.lean`; the state keeps all past contents of the data area, and the first one that the receiver can
still read.

Simplified: only the loads of the receiver from the data area are satisfied early; stores, and loads of node heads, take effect in
order.  All loads of a single access read the same past content, and loads are not satisfied later than in program order.
-/
namespace Verif.Mem.Reorder

open Conc

/-- State of the interleaved model, contents of the data area since the beginning, the number of the oldest one that the receiver can
still read, and of the one at the last read of a flag in 712. -/
structure W where
  s : St
  hist : List (Nat → Byte)
  floor : Nat
  seen : Nat

/-- After `mem_init`. -/
def W.init (conf : Conf) : W := ⟨St.init conf, [(St.init conf).data], 0, 0⟩

/-- The number of the present content. -/
def W.now (w : W) : Nat := w.hist.length - 1

/-- The next access of the receiver reads the data area. -/
def readsData : RPC → Bool
  | .size _ | .num _ _ | .copy _ _ _ _ | .check _ _ _ => true
  | _ => false

/-- After this access the receiver can read only contents that are not older: the loads of the cursors (677, 680), and the fence
(836) that follows the last access of the search. -/
def fences : RPC → Bool
  | .loadR _ | .loadW _ _ | .num _ _ => true
  | _ => false

/-- The next access is the read of a flag in 712. -/
def readsFlag : RPC → Bool
  | .flag _ => true
  | _ => false

/-- Bookkeeping after an access of the receiver. -/
def W.next (w : W) (s : St) : W :=
  { w with s := s, floor := if fences w.s.rpc then w.now else w.floor, seen := if readsFlag w.s.rpc then w.now else w.seen }

/-- One access of the receiver; it reads content number `k` of the data area. -/
def stepRecv (hash : List Byte → Nat) (w : W) (now k : Nat) : Option W :=
  if readsData w.s.rpc = true then
    match w.hist[k]? with
    | none => none
    | some d =>
      if k < w.floor then none
      else (Conc.stepRecv hash { w.s with data := d } now).map fun s => w.next { s with data := w.s.data }
  else (Conc.stepRecv hash w.s now).map fun s => w.next s

/-- One step of the execution. -/
inductive Ev where
  /-- a step of a sender, or a call of `mem_recv` -/
  | sc (e : Conc.Ev)
  /-- the receiver makes its next access -/
  | rstep (now k : Nat)
deriving DecidableEq, Repr

/-- One step; `none`: not possible. -/
def step (hash : List Byte → Nat) (w : W) : Ev → Option W
  | .sc (.rstep _) => none
  | .sc e => (Conc.step hash w.s e).map fun s => { w with s := s, hist := w.hist ++ [s.data] }
  | .rstep now k => stepRecv hash w now k

/-- Runs the steps in order (plumbing). -/
def run (hash : List Byte → Nat) (w : W) : List Ev → Option W
  | [] => some w
  | e :: es => match step hash w e with
    | none => none
    | some w1 => run hash w1 es

/-- The step of `Conc`. -/
def Ev.toSc : Ev → Conc.Ev
  | .sc e => e
  | .rstep now _ => .rstep now

/-- The assumptions of the interleaved model. -/
def Legal (w : W) (e : Ev) : Prop := Conc.Legal w.s e.toSc

/-- No read of the data area is satisfied before the last read of a flag in 712; a fence between 712 and 777 would ensure it. -/
def Ordered (w : W) : Ev → Prop
  | .rstep _ k => readsData w.s.rpc = true → w.seen ≤ k
  | _ => True

/-- Every step of the run satisfies `P`. -/
def Along (P : W → Ev → Prop) (hash : List Byte → Nat) (w : W) : List Ev → Prop
  | [] => True
  | e :: es => P w e ∧ ∀ w1, step hash w e = some w1 → Along P hash w1 es

end Verif.Mem.Reorder
