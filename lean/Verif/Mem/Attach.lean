import Verif.Mem.Model

/-! Model of `mem_attach` and of the part of `mem_init` it depends on, on raw memory. -/
namespace Verif.Mem

/-- `MEM_CHANNEL_NAME`, `src/channel_mem.cpp:39`: "ATBUSMEM". -/
def magic : List Byte := [65, 84, 66, 85, 83, 77, 69, 77]

/-- `tolower` in the C locale, as used by `strncasecmp`. -/
def lower (b : Byte) : Nat := if 65 ≤ b.val ∧ b.val ≤ 90 then b.val + 32 else b.val

/-- `0 == strncasecmp(MEM_CHANNEL_NAME, p, 8)`, `src/channel_mem.cpp:464`; the name has no zero
byte among its eight, so all eight are compared. -/
def magicEq (mem : Nat → Byte) : Bool := (rd mem 0 8).map lower == magic.map lower

/-- The 16-bit fields at their offsets in `mem_channel`, `src/channel_mem.cpp:93-97`. -/
def u16 (mem : Nat → Byte) (off : Nat) : Nat := fromLE (rd mem off 2)

/-- Result of `mem_attach`: code and the address stored through `channel` (`none`: not stored). -/
structure AttachOut where
  code : Int
  chan : Option Nat
deriving DecidableEq, Repr

/-- `mem_attach`, `src/channel_mem.cpp:456-482`; the channel pointer is the start of the memory. -/
def attach (mem : Nat → Byte) (len : Nat) : AttachOut :=
  if len < minLen then ⟨Err.CHANNEL_SIZE_TOO_SMALL, none⟩
  else if ¬ magicEq mem then ⟨Err.CHANNEL_BUFFER_INVALID, some 0⟩
  else if 2 ≠ u16 mem 16 then ⟨Err.CHANNEL_UNSUPPORTED_VERSION, some 0⟩
  else if 16 ≠ u16 mem 18 then ⟨Err.CHANNEL_ALIGN_SIZE_MISMATCH, some 0⟩
  else if 8 ≠ u16 mem 20 then ⟨Err.CHANNEL_ARCH_SIZE_T_MISMATCH, some 0⟩
  else ⟨Err.SUCCESS, some 0⟩

/-- Header fields `mem_init` stores last, `src/channel_mem.cpp:523-531`, on top of any other
contents (`mem` has the other fields already in place). -/
def initHeader (mem : Nat → Byte) : Nat → Byte :=
  wr (wr (wr (wr mem 0 magic) 16 (toLE 2 2)) 18 (toLE 2 16)) 20 (toLE 2 8)

/-- `mem_init` on raw memory: `none` when the length is refused, `src/channel_mem.cpp:484-487`.
`rest` stands for the fields between (node sizes, offsets, configuration). -/
def initMem (rest : Nat → Byte) (len : Nat) : Int × Option (Nat → Byte) :=
  if len < minLen then (Err.CHANNEL_SIZE_TOO_SMALL, none) else (Err.SUCCESS, some (initHeader rest))

end Verif.Mem
