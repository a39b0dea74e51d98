import Verif.IoStream.Recv

/-!
Specification of the receiving half: what a byte stream means, without buffers
and reads.
-/
namespace Verif.IoStream

/-- Checksum bytes and payload of a frame. -/
abbrev Fr := List Byte × List Byte

/-- The header at the start of the bytes is complete: announced payload length and length of the
length field. -/
def header (s : List Byte) : Option (Nat × Nat) :=
  if s.length ≤ 4 then none
  else if (Vint.readVint (s.drop 4)).2 = 0 then none
  else some (Vint.readVint (s.drop 4))

/-- The frame at the start of the bytes, if it is complete, and the bytes behind it. -/
def decode1 (s : List Byte) : Option (Fr × List Byte) :=
  match header s with
  | none => none
  | some (v, l) =>
    if s.length < 4 + l + v ∨ W64 ≤ 4 + l + v then none
    else some ((s.take 4, (s.drop (4 + l)).take v), s.drop (4 + l + v))

/-- The bytes are the frames `fs` followed by `r`, which does not start with a complete frame. -/
inductive Dec : List Byte → List Fr → List Byte → Prop
  | stop {s : List Byte} : decode1 s = none → Dec s [] s
  | more {s s' r : List Byte} {f : Fr} {fs : List Fr} : decode1 s = some (f, s') → Dec s' fs r → Dec s (f :: fs) r

/-- What is reported for a complete frame. -/
def verdict (cf : RConf) (h : Hash) (f : Fr) : Int :=
  if h.bytes f.2 ≠ f.1 then Err.BAD_DATA
  else if cf.limit > 0 ∧ f.2.length > cf.limit then Err.INVALID_SIZE
  else Err.SUCCESS

/-- The receive callbacks for a sequence of frames, given the failure counts so far; it ends when
the connection is dropped: a frame too large for the read buffer, or one failure too many. -/
def process (cf : RConf) (h : Hash) : Nat → Nat → List Fr → List Cb × Nat × Nat × Bool
  | hf, bf, [] => ([], hf, bf, false)
  | hf, bf, f :: fs =>
    if cf.accept (4 + f.2.length) = false then ([], hf, bf, true)
    else
      let hf' := if verdict cf h f = Err.BAD_DATA then hf + 1 else hf
      let bf' := if verdict cf h f = Err.INVALID_SIZE then bf + 1 else bf
      if (verdict cf h f = Err.BAD_DATA ∧ hf' > cf.maxHash) ∨ (verdict cf h f = Err.INVALID_SIZE ∧ bf' > cf.maxBlock) then
        ([⟨verdict cf h f, f.2⟩], hf', bf', true)
      else
        let r := process cf h hf' bf' fs
        (⟨verdict cf h f, f.2⟩ :: r.1, r.2)

/-- The bytes start with a header announcing a payload the read buffer cannot hold. -/
def tooLarge (cf : RConf) (r : List Byte) : Bool :=
  match header r with
  | none => false
  | some (v, _) => !cf.accept (4 + v)

/-- The bytes start with a header whose announced length overflows 64 bits. -/
def wraps (r : List Byte) : Bool :=
  match header r with
  | none => false
  | some (v, l) => decide (W64 ≤ 4 + l + v)

/-- The received bytes of a run. -/
def received : List REv → List Byte
  | [] => []
  | .data c :: es => c ++ received es
  | _ :: es => received es

end Verif.IoStream
