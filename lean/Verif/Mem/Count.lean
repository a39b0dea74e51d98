import Verif.Mem.Spec

/-!
Model of the error counters of a memory channel and of the numbers printed about it: the counters of `mem_channel`
(`src/channel_mem.cpp:122-132`), their updates in `mem_send_real`, `mem_send` and `mem_recv`, `mem_stats_get_error` (`:971-987`) and the
summary printed by `mem_show_channel` (`:881-906`).

The functions repeat those of `Mem.Model` with the counters; `recvC_out` and `sendC_out` show that they do the same otherwise.  The counters
do not wrap (the code's are `size_t`).
-/
namespace Verif.Mem

/-- The counters, `src/channel_mem.cpp:122-132`; this is also what `mem_stats_get_error` copies, `:971-987`. -/
structure Cnt where
  /-- `write_check_sequence_failed_count` -/
  seqFail : Nat := 0
  /-- `write_retry_count` -/
  retry : Nat := 0
  /-- `read_bad_node_count` -/
  badNode : Nat := 0
  /-- `read_bad_block_count` -/
  badBlock : Nat := 0
  /-- `read_write_timeout_count` -/
  timeout : Nat := 0
  /-- `read_check_block_size_failed_count` -/
  blockSize : Nat := 0
  /-- `read_check_node_size_failed_count` -/
  nodeNum : Nat := 0
  /-- `read_check_hash_failed_count` -/
  hash : Nat := 0
deriving DecidableEq, Repr

/-- The search loop of `mem_recv` with its counters, `src/channel_mem.cpp:685-827`. -/
def recvLoopC (now len : Nat) : Nat → Chan → Cnt → Nat → Int → Nat → LoopOut × Cnt
  | 0, _, k, _, _, _ => (.spin, k)
  | fuel + 1, c, k, cur, ret, tseq =>
    let n := c.conf.n
    if cur = c.wcur then (.stop c cur (orElse ret Err.NO_DATA) none, k)
    else if n ≤ cur then (.oob, k)
    else
      let h := c.heads cur
      if h.written then
        if ¬ h.start then recvLoopC now len fuel (clearFlag c cur) { k with badNode := k.badNode + 1 } (next n cur 1) ret tseq
        else if ret ≠ 0 then (.stop c cur ret none, k)
        else
          let sz := bsize c.data cur
          if sz = 0 ∨ sz ≥ sub64 (n * nodeSize) c.conf.protMem then
            recvLoopC now len fuel (clearFlag c cur) { k with badNode := k.badNode + 1, blockSize := k.blockSize + 1 } (next n cur 1)
              (orElse ret Err.NODE_BAD_BLOCK_BUFF_SIZE) tseq
          else if sz > len then (.stop c cur (orElse ret Err.BUFF_LIMIT) (some sz), k)
          else
            match clearNodes n h.seq cur c.wcur (n + 1) cur c.heads with
            | none => (.spin, k)
            | some (hs, e) =>
              let c' := { c with heads := hs }
              if calcNodes sz ≠ rangeCount n cur e then
                recvLoopC now len fuel c' { k with badNode := k.badNode + 1, nodeNum := k.nodeNum + 1 } (next n cur 1)
                  (orElse ret Err.NODE_BAD_BLOCK_NODE_NUM) tseq
              else (.got c' cur e, k)
      else if tseq ≠ 0 ∧ tseq = h.seq ∧ ¬ h.start then
        recvLoopC now len fuel (clearFlag c cur) { k with badNode := k.badNode + 1 } (next n cur 1) ret tseq
      else if c.fft = 0 then (.stop { c with fft := now } cur (orElse ret Err.NO_DATA) none, k)
      else if absDiff now c.fft > c.conf.timeout then
        recvLoopC now len fuel { clearFlag c cur with fft := 0 }
          { k with badNode := k.badNode + 1, badBlock := k.badBlock + 1, timeout := k.timeout + 1 } (next n cur 1) ret h.seq
      else (.stop c cur (orElse ret Err.NO_DATA) none, k)

/-- The counter of the check of the hash, `src/channel_mem.cpp:853-857`. -/
def hashCount (k : Cnt) : RecvOut → Cnt
  | .done _ code _ _ => if code = Err.BAD_DATA then { k with hash := k.hash + 1 } else k
  | _ => k

/-- `mem_recv` with its counters, `src/channel_mem.cpp:669-875`.  Only the check of the hash gives EN_ATBUS_ERR_BAD_DATA. -/
def recvC (hash : List Byte → Nat) (c : Chan) (k : Cnt) (now len : Nat) : RecvOut × Cnt :=
  let n := c.conf.n
  match recvLoopC now len (n + 1) c k c.rcur 0 0 with
  | (.oob, k) => (.oob, k)
  | (.spin, k) => (.spin, k)
  | (.stop c' e ret sz, k) => (.done { c' with rcur := e } ret sz [], k)
  | (.got c' b e, k) =>
    let c' := { c' with fft := 0 }
    let sz := bsize c'.data b
    let start := b * nodeSize + blockHead
    let bufLen := n * nodeSize - b * nodeSize - blockHead
    let o : RecvOut :=
      if sz ≤ bufLen then
        if start + sz ≤ n * nodeSize then
          let bytes := rd c'.data start sz
          .done { c' with rcur := e } (if hash bytes % W64 ≠ bcheck c'.data b then Err.BAD_DATA else Err.SUCCESS)
            (some sz) bytes
        else .oob
      else
        if start + bufLen ≤ n * nodeSize ∧ sz - bufLen ≤ n * nodeSize then
          let bytes := rd c'.data start bufLen ++ rd c'.data 0 (sz - bufLen)
          .done { c' with rcur := e } (if hash bytes % W64 ≠ bcheck c'.data b then Err.BAD_DATA else Err.SUCCESS)
            (some sz) bytes
        else .oob
    (o, hashCount k o)

/-- `mem_send` with its counters, `src/channel_mem.cpp:638-641`, `:649-667`. -/
def sendLoopC (hash : List Byte → Nat) : Nat → Chan → Cnt → List Byte → Int → SendOut × Cnt
  | 0, c, k, _, ret => (.done c ret, k)
  | t + 1, c, k, msg, _ =>
    match sendReal hash c msg with
    | .done c' code =>
      let k := if code = Err.NODE_BAD_BLOCK_CSEQ_ID then { k with seqFail := k.seqFail + 1 } else k
      if code = Err.NODE_BAD_BLOCK_CSEQ_ID ∨ code = Err.NODE_BAD_BLOCK_WSEQ_ID then
        sendLoopC hash t c' { k with retry := k.retry + 1 } msg code
      else (.done c' code, k)
    | o => (o, k)

/-- `mem_send` with its counters, `src/channel_mem.cpp:649-667`. -/
def sendC (hash : List Byte → Nat) (c : Chan) (k : Cnt) (msg : List Byte) : SendOut × Cnt :=
  sendLoopC hash c.conf.retry c k msg 0

/-- One call. -/
def stepC (hash : List Byte → Nat) (c : Chan) (k : Cnt) : Op → Option (Chan × Cnt × Ev)
  | .send m => match sendC hash c k m with
    | (.done c' code, k') => some (c', k', ⟨code, none, []⟩)
    | _ => none
  | .recv now len => match recvC hash c k now len with
    | (.done c' code size bytes, k') => some (c', k', ⟨code, size, bytes⟩)
    | _ => none

/-- Runs the calls in order (plumbing). -/
def runC (hash : List Byte → Nat) (c : Chan) (k : Cnt) : List Op → Option (Chan × Cnt)
  | [] => some (c, k)
  | op :: ops => do
    let r ← stepC hash c k op
    runC hash r.1 r.2.1 ops

/-- The numbers about the buffer printed by `mem_show_channel`, `src/channel_mem.cpp:888-906`: available nodes, size, used size, free size,
in 64-bit arithmetic. -/
def shown (c : Chan) : Nat × Nat × Nat × Nat :=
  let a := avail c.conf c.rcur c.wcur
  (a, nodeSize * c.conf.n % W64, sub64 nodeSize a * c.conf.n % W64, a * c.conf.n % W64)

end Verif.Mem
