import Verif.Buffer.Model

/-!
Specification of the buffer manager: a plain double-ended queue of blocks.
Nothing here refers to rings, addresses or counters of the implementation.
-/
namespace Verif.Buffer

/-- A block as the user knows it: payload (`none`: not yet written), number of
consumed bytes. -/
structure Blk where
  data : List (Option Byte)
  consumed : Nat
deriving DecidableEq, Repr

/-- Blocks from front to back. -/
abbrev Deque := List Blk

/-- A new block of `s` bytes, none of them written. -/
def Blk.fresh (s : Nat) : Blk := ⟨List.replicate s none, 0⟩
/-- Bytes not consumed. -/
def Blk.unread (b : Blk) : Nat := b.data.length - b.consumed
/-- Consumes up to `s` bytes. -/
def Blk.consume (b : Blk) (s : Nat) : Blk :=
  { b with consumed := min (b.consumed + s) b.data.length }
/-- `s` more bytes at the end. -/
def Blk.append (b : Blk) (s : Nat) : Blk := { b with data := b.data ++ List.replicate s none }
/-- The application writes `d`. -/
def Blk.store (b : Blk) (off : Nat) (d : List Byte) : Blk :=
  { b with data := b.data.take off ++ d.map some ++ b.data.drop (off + d.length) }

namespace Deque

/-- Effect of a successful call. -/
def apply (q : Deque) : Op → Deque
  | .pushBack s => q ++ [.fresh s]
  | .pushFront s => .fresh s :: q
  | .mergeBack s =>
    match q.getLast? with
    | none => [.fresh s]
    | some b => q.dropLast ++ [b.append s]
  | .mergeFront s =>
    match q with
    | [] => [.fresh s]
    | b :: r => b.append s :: r
  | .popBack s fu =>
    match q.getLast? with
    | none => []
    | some b => if fu ∧ (b.consume s).unread = 0 then q.dropLast else q.dropLast ++ [b.consume s]
  | .popFront s fu =>
    match q with
    | [] => []
    | b :: r => if fu ∧ (b.consume s).unread = 0 then r else b.consume s :: r
  | .write i off d =>
    match q[i]? with
    | none => q
    | some b => q.set i (b.store off d)

/-- User writes must stay inside a live block. -/
def Legal (q : Deque) : Op → Prop
  | .write i off d => ∃ b, q[i]? = some b ∧ off + d.length ≤ b.data.length
  | _ => True

/-- Unconsumed bytes held. -/
def unread (q : Deque) : Nat := (q.map Blk.unread).sum

/-- Return value demanded by the limits (0: unlimited). -/
def verdict (limNum limSize : Nat) (q : Deque) : Op → Int
  | .pushBack s | .pushFront s =>
    if (limNum > 0 ∧ q.length ≥ limNum) ∨ (limSize > 0 ∧ q.unread + s > limSize)
    then Err.BUFF_LIMIT else Err.SUCCESS
  | .mergeBack s | .mergeFront s =>
    if (q = [] ∧ limNum > 0 ∧ q.length ≥ limNum) ∨ (limSize > 0 ∧ q.unread + s > limSize)
    then Err.BUFF_LIMIT else Err.SUCCESS
  | .popBack _ _ | .popFront _ _ => if q = [] then Err.NO_DATA else Err.SUCCESS
  | .write _ _ _ => Err.SUCCESS

end Deque

/-- States of a dynamic-mode manager reachable by any calls, with the queue
obtained from the calls that succeeded. -/
inductive DReach (limSize limNum : Nat) : DBuf → Deque → Prop where
  | init : DReach limSize limNum (DBuf.init limSize limNum) []
  | step {d d' q op r} : DReach limSize limNum d q → q.Legal op → d.step op = some (d', r) →
      DReach limSize limNum d' (if r = Err.SUCCESS then q.apply op else q)

/-- States of a static-mode manager reachable by any calls, with the queue
obtained from the calls that succeeded. -/
inductive SReach (maxSize maxNum : Nat) : SBuf → Deque → Prop where
  | init : SReach maxSize maxNum (setMode maxSize maxNum) []
  | step {st st' q op r ptr} : SReach maxSize maxNum st q → q.Legal op →
      st.step op = some (st', r, ptr) →
      SReach maxSize maxNum st' (if r = Err.SUCCESS then q.apply op else q)

end Verif.Buffer
