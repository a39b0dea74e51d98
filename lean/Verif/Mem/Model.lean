import Verif.Basic

/-!
Model of the shared-memory ring channel, `src/channel_mem.cpp`, one call at a
time (the interleaved model is in `Verif/Mem/Conc*.lean`).

The channel is an area of `n` node heads and an area of `n * 256` data bytes.
Addresses are offsets into these areas; every access is checked and an access
outside is the separate outcome `oob`.  A loop that does not end is the outcome
`spin`.  Statistics counters and debug variables are left out.  Of a node
head's flag word the two bits the code looks at are kept.
-/
namespace Verif.Mem

/-- `mem_block::node_data_size`, `src/channel_mem.cpp:191`. -/
abbrev nodeSize : Nat := 256
/-- `mem_block::block_head_size`, `src/channel_mem.cpp:186`. -/
abbrev blockHead : Nat := 16
/-- `mem_block::node_head_size`, `src/channel_mem.cpp:188`. -/
abbrev nodeHead : Nat := 16
/-- `mem_block::channel_head_size`, `src/channel_mem.cpp:143-146,185`. -/
abbrev chanHead : Nat := 4096

/-- Fields of `mem_channel` and `mem_conf` that stay fixed after `mem_init`,
`src/channel_mem.cpp:82-120`. -/
structure Conf where
  n : Nat
  prot : Nat
  protMem : Nat
  timeout : Nat
  retry : Nat
deriving DecidableEq, Repr

/-- `mem_node_head`, `src/channel_mem.cpp:153-156,164-167`. -/
structure Head where
  start : Bool
  written : Bool
  seq : Nat
deriving DecidableEq, Repr

/-- The channel. -/
structure Chan where
  conf : Conf
  rcur : Nat
  wcur : Nat
  fft : Nat
  oseq : Nat
  heads : Nat → Head
  data : Nat → Byte

/-! ### Geometry and initialisation -/

/-- Smallest accepted length, `src/channel_mem.cpp:458,486`. -/
def minLen : Nat := chanHead + nodeSize + nodeHead

/-- `node_count` computed by `mem_init`, `src/channel_mem.cpp:502-503`. -/
def nodesFor (len : Nat) : Nat := (len - chanHead) / (nodeSize + nodeHead)

/-- `area_head_offset`, `area_data_offset`, `area_end_offset`,
`src/channel_mem.cpp:506-510`. -/
def headOff : Nat := chanHead
/-- `area_data_offset`, `src/channel_mem.cpp:508-509`. -/
def dataOff (n : Nat) : Nat := headOff + n * nodeHead
/-- `area_end_offset`, `src/channel_mem.cpp:510`. -/
def endOff (n : Nat) : Nat := dataOff n + n * nodeSize

/-- `mem_default_conf`, `src/channel_mem.cpp:240-272` (called on zeroed memory). -/
def defaultConf (n : Nat) : Conf :=
  let p := n / 128
  let p := if p > 16384 / nodeSize then 16384 / nodeSize else p
  let p := if p > n then n else p
  { n := n, prot := p, protMem := p * nodeSize, timeout := 4, retry := 4 }

/-- `mem_copy_conf` used with a caller's configuration, `src/channel_mem.cpp:212-218,513-514`. -/
def userConf (n prot protMem timeout retry : Nat) : Conf := ⟨n, prot, protMem, timeout, retry⟩

/-- Channel after `mem_init`, `src/channel_mem.cpp:484-534` (memory zeroed). -/
def initChan (conf : Conf) : Chan :=
  { conf, rcur := 0, wcur := 0, fft := 0, oseq := 0,
    heads := fun _ => ⟨false, false, 0⟩, data := fun _ => 0 }

/-! ### Arithmetic -/

/-- `mem_next_index`, `src/channel_mem.cpp:332-335`. -/
def next (n i k : Nat) : Nat := (i + k) % n

/-- `mem_get_available_node_count`, `src/channel_mem.cpp:344-356` (cursors are
below `n`, so the subtraction does not wrap). -/
def avail (cf : Conf) (r w : Nat) : Nat :=
  let ret := (r + cf.n - w - 1) % cf.n
  if ret ≥ cf.prot then ret - cf.prot else 0

/-- `mem_get_node_range_count`, `src/channel_mem.cpp:365-368`. -/
def rangeCount (n b e : Nat) : Nat := (e + n - b) % n

/-- `mem_fetch_operation_seq`, `src/channel_mem.cpp:382-389`. -/
def fetchSeq (s : Nat) : Nat := if (s + 1) % 2 ^ 32 = 0 then 1 else (s + 1) % 2 ^ 32

/-- `mem_calc_node_num`, `src/channel_mem.cpp:396-400`, in 64-bit arithmetic. -/
def calcNodes (len : Nat) : Nat := (len + blockHead + nodeSize - 1) % W64 / nodeSize

/-- 64-bit subtraction. -/
def sub64 (a b : Nat) : Nat := (a + W64 - b) % W64

/-! ### Memory access -/

/-- A number as bytes, little endian. -/
def toLE : Nat → Nat → List Byte
  | 0, _ => []
  | k + 1, v => ⟨v % 256, Nat.mod_lt _ (by omega)⟩ :: toLE k (v / 256)

/-- Bytes as a number, little endian. -/
def fromLE : List Byte → Nat
  | [] => 0
  | b :: bs => b.val + 256 * fromLE bs

/-- `memcpy` into the data area. -/
def wr (d : Nat → Byte) (off : Nat) (bs : List Byte) : Nat → Byte :=
  fun a => if h : off ≤ a ∧ a < off + bs.length then bs[a - off]'(by omega) else d a

/-- `memcpy` out of the data area. -/
def rd (d : Nat → Byte) (off len : Nat) : List Byte := (List.range len).map fun i => d (off + i)

/-- `block_head->buffer_size` and `block_head->fast_check` of the node. -/
def bsize (d : Nat → Byte) (node : Nat) : Nat := fromLE (rd d (node * nodeSize) 8)
/-- `mem_block_head::fast_check` of a block, `src/channel_mem.cpp:159-162`. -/
def bcheck (d : Nat → Byte) (node : Nat) : Nat := fromLE (rd d (node * nodeSize + 8) 8)

/-- Update of one entry (plumbing). -/
def setHead (hs : Nat → Head) (i : Nat) (h : Head) : Nat → Head := fun j => if j = i then h else hs j

/-! ### Send -/

/-- Outcome of `mem_send`; leaving the data area and endless loops are separate outcomes. -/
inductive SendOut where
  | oob
  | spin
  | done (c : Chan) (code : Int)

/-- Loop over the continuation nodes, `src/channel_mem.cpp:598-610`. -/
def markNodes (n seq stop : Nat) : Nat → Nat → (Nat → Head) → Option (Nat → Head)
  | 0, _, _ => none
  | fuel + 1, i, hs =>
    if i = stop then some hs
    else markNodes n seq stop fuel (next n i 1) (setHead hs i ⟨false, true, seq⟩)

/-- Copy of the message into the data area, `src/channel_mem.cpp:617-626`. -/
def copyIn (n : Nat) (d : Nat → Byte) (w w' : Nat) (msg : List Byte) : Option (Nat → Byte) :=
  let start := w * nodeSize + blockHead
  let bufLen := n * nodeSize - w * nodeSize - blockHead
  if w' ≠ 0 ∧ w' < w then
    let copyLen := if msg.length > bufLen then bufLen else msg.length
    if start + copyLen ≤ n * nodeSize ∧ msg.length - copyLen ≤ n * nodeSize then
      some (wr (wr d start (msg.take copyLen)) 0 (msg.drop copyLen))
    else none
  else if start + msg.length ≤ n * nodeSize then some (wr d start msg) else none

/-- `mem_send_real`, `src/channel_mem.cpp:536-647`, without interference: the
compare-and-swap succeeds (after spurious failures, which change nothing). -/
def sendReal (hash : List Byte → Nat) (c : Chan) (msg : List Byte) : SendOut :=
  let n := c.conf.n
  if msg.length = 0 then .done c Err.SUCCESS
  else
    let k := calcNodes msg.length
    if k ≥ sub64 n c.conf.prot then .done c Err.BUFF_LIMIT
    else
      let seq := fetchSeq c.oseq
      let c := { c with oseq := seq }
      if k > avail c.conf c.rcur c.wcur then .done c Err.BUFF_LIMIT
      else
        let w := c.wcur
        let w' := next n w k
        if n ≤ w then .oob
        else
          let d := wr c.data (w * nodeSize) (toLE 16 0)
          let hs := setHead c.heads w ⟨true, false, seq⟩
          match markNodes n seq w' (n + 1) (next n w 1) hs with
          | none => .spin
          | some hs =>
            let d := wr d (w * nodeSize) (toLE 8 msg.length)
            match copyIn n d w w' msg with
            | none => .oob
            | some d =>
              let d := wr d (w * nodeSize + 8) (toLE 8 (hash msg % W64))
              let hs := setHead hs w { hs w with written := true }
              let c := { c with wcur := w', heads := hs, data := d }
              if seq ≠ (hs w).seq then .done c Err.NODE_BAD_BLOCK_CSEQ_ID
              else .done c Err.SUCCESS

/-- `mem_send`, `src/channel_mem.cpp:649-667`; the result of the last attempt is
returned when the attempts are used up, 0 if none was made. -/
def sendLoop (hash : List Byte → Nat) : Nat → Chan → List Byte → Int → SendOut
  | 0, c, _, ret => .done c ret
  | t + 1, c, msg, _ =>
    match sendReal hash c msg with
    | .done c' code =>
      if code = Err.NODE_BAD_BLOCK_CSEQ_ID ∨ code = Err.NODE_BAD_BLOCK_WSEQ_ID then
        sendLoop hash t c' msg code
      else .done c' code
    | o => o

/-- `mem_send`, `src/channel_mem.cpp:649-667`. -/
def send (hash : List Byte → Nat) (c : Chan) (msg : List Byte) : SendOut :=
  sendLoop hash c.conf.retry c msg 0

/-! ### Receive -/

/-- How the search loop of `mem_recv` ends. -/
inductive LoopOut where
  | oob
  | spin
  /-- left with an error code; cursor; size reported -/
  | stop (c : Chan) (endc : Nat) (ret : Int) (size : Option Nat)
  /-- a message from `b` to `e` -/
  | got (c : Chan) (b e : Nat)

/-- Flag-clearing loop, `src/channel_mem.cpp:795-810`: heads and end cursor. -/
def clearNodes (n seq begin_ stop : Nat) : Nat → Nat → (Nat → Head) → Option ((Nat → Head) × Nat)
  | 0, _, _ => none
  | fuel + 1, i, hs =>
    if i = stop then some (hs, i)
    else if (hs i).seq ≠ seq then some (hs, i)
    else if i ≠ begin_ ∧ (hs i).start = true then some (hs, i)
    else clearNodes n seq begin_ stop fuel (next n i 1)
      (setHead hs i { (hs i) with start := false, written := false })

/-- Clears the flag of node `i`, `src/channel_mem.cpp:685-765`. -/
def clearFlag (c : Chan) (i : Nat) : Chan :=
  { c with heads := setHead c.heads i { (c.heads i) with start := false, written := false } }

/-- Distance of two times, `src/channel_mem.cpp:685-765`. -/
def absDiff (a b : Nat) : Nat := if a > b then a - b else b - a

/-- First non-zero error wins: `ret = ret ? ret : code`. -/
def orElse (ret code : Int) : Int := if ret ≠ 0 then ret else code

/-- The search loop, `src/channel_mem.cpp:685-827`.  `now` is the clock in
milliseconds (taken constant during one call). -/
def recvLoop (now len : Nat) : Nat → Chan → Nat → Int → Nat → LoopOut
  | 0, _, _, _, _ => .spin
  | fuel + 1, c, cur, ret, tseq =>
    let n := c.conf.n
    if cur = c.wcur then .stop c cur (orElse ret Err.NO_DATA) none
    else if n ≤ cur then .oob
    else
      let h := c.heads cur
      if h.written then
        if ¬ h.start then recvLoop now len fuel (clearFlag c cur) (next n cur 1) ret tseq
        else if ret ≠ 0 then .stop c cur ret none
        else
          let sz := bsize c.data cur
          if sz = 0 ∨ sz ≥ sub64 (n * nodeSize) c.conf.protMem then
            recvLoop now len fuel (clearFlag c cur) (next n cur 1)
              (orElse ret Err.NODE_BAD_BLOCK_BUFF_SIZE) tseq
          else if sz > len then .stop c cur (orElse ret Err.BUFF_LIMIT) (some sz)
          else
            match clearNodes n h.seq cur c.wcur (n + 1) cur c.heads with
            | none => .spin
            | some (hs, e) =>
              let c' := { c with heads := hs }
              if calcNodes sz ≠ rangeCount n cur e then
                recvLoop now len fuel c' (next n cur 1) (orElse ret Err.NODE_BAD_BLOCK_NODE_NUM) tseq
              else .got c' cur e
      else if tseq ≠ 0 ∧ tseq = h.seq ∧ ¬ h.start then
        recvLoop now len fuel (clearFlag c cur) (next n cur 1) ret tseq
      else if c.fft = 0 then .stop { c with fft := now } cur (orElse ret Err.NO_DATA) none
      else if absDiff now c.fft > c.conf.timeout then
        recvLoop now len fuel { clearFlag c cur with fft := 0 } (next n cur 1) ret h.seq
      else .stop c cur (orElse ret Err.NO_DATA) none

/-- Outcome of `mem_recv`, `src/channel_mem.cpp:669-875`. -/
inductive RecvOut where
  | oob
  | spin
  /-- channel, code, reported size, bytes put into the caller's buffer -/
  | done (c : Chan) (code : Int) (size : Option Nat) (bytes : List Byte)

/-- `mem_recv`, `src/channel_mem.cpp:669-875`. -/
def recv (hash : List Byte → Nat) (c : Chan) (now len : Nat) : RecvOut :=
  let n := c.conf.n
  match recvLoop now len (n + 1) c c.rcur 0 0 with
  | .oob => .oob
  | .spin => .spin
  | .stop c' e ret sz => .done { c' with rcur := e } ret sz []
  | .got c' b e =>
    let c' := { c' with fft := 0 }
    let sz := bsize c'.data b
    let start := b * nodeSize + blockHead
    let bufLen := n * nodeSize - b * nodeSize - blockHead
    if sz ≤ bufLen then
      if start + sz ≤ n * nodeSize then
        let bytes := rd c'.data start sz
        .done { c' with rcur := e } (if hash bytes % W64 ≠ bcheck c'.data b then Err.BAD_DATA else Err.SUCCESS)
          (some sz) bytes
      else .oob
    else
      if start + bufLen ≤ n * nodeSize ∧ sz - bufLen ≤ n * nodeSize then
        let bytes := rd c'.data start bufLen ++ rd c'.data 0 (sz - bufLen)
        .done { c' with rcur := e } (if hash bytes % W64 ≠ bcheck c'.data b then Err.BAD_DATA else Err.SUCCESS)
          (some sz) bytes
      else .oob

end Verif.Mem
