import Verif.Basic

/-!
Model of the variable-length integer codec, `src/detail/buffer.cpp:47-99`.

`pointer`/`s` are modelled by the list of the `s` bytes at `pointer` (reading)
and by the list of bytes stored at `pointer` (writing).  The NULL pointer case
is the same as `s == 0` in both functions.
-/
namespace Verif.Vint

/-- The loop of `read_vint`, `src/detail/buffer.cpp:54-68`.
`bs` are the bytes still left (`left = bs.length`), `used` the bytes consumed
so far (`s - left`).  `out <<= 7; out |= 0x7F & *d` on a `uint64_t`: the low
seven bits are zero after the shift, so the `or` is an addition. -/
def readLoop : List Byte → (out used : Nat) → Nat × Nat
  | [], out, used => (out, used)
  | b :: rest, out, used =>
    let out' := (out * 128) % W64 + b.val % 128
    if b.val < 128 then (out', used + 1)
    else if rest.isEmpty then (out', 0)
    else readLoop rest out' (used + 1)

/-- `read_vint`, `src/detail/buffer.cpp:47-69`: (decoded value, return value). -/
def readVint (bs : List Byte) : Nat × Nat :=
  if bs.isEmpty then (0, 0) else readLoop bs 0 0

/-- The loop of `write_vint`, `src/detail/buffer.cpp:81-87`.  `acc` holds the
bytes stored so far, last stored first.  Result: (remaining value, used, acc). -/
def writeLoop (inp used s : Nat) (acc : List Byte) : Nat × Nat × List Byte :=
  if h : inp ≠ 0 ∧ used + 1 ≤ s then
    writeLoop (inp / 128) (used + 1) s (⟨128 + inp % 128, by omega⟩ :: acc)
  else (inp, used, acc)
termination_by s - used

/-- `write_vint`, `src/detail/buffer.cpp:71-99`: (return value, bytes stored at
`pointer` in address order).  On success the stored bytes are reversed in place
(line 94-96), on failure they stay as the loop left them. -/
def writeVint (v s : Nat) : Nat × List Byte :=
  if s = 0 then (0, [])
  else
    match writeLoop (v / 128) 1 s [⟨v % 128, by omega⟩] with
    | (rest, used, acc) => if rest ≠ 0 then (0, acc.reverse) else (used, acc)

end Verif.Vint
