import Verif.Mem.Model

/-!
Model of what is told about a shared-memory channel: `mem_show_channel`
(`src/channel_mem.cpp:881-969`) and the getters and setters of the
configuration (`:419-439`).

The numbers are kept, the text around them is left out.  A node of the list is
read through the checked data area: reading outside it is the outcome `none`.
Nobody else uses the channel during the call.  The counters (`:920-929`) are in
`Verif/Mem/Count.lean`; version, align and host size (`:894-896`) are constants
and the debug variables (`:931-935`) are not kept.  `util::string::dumphex` is a
function of another library; it is the bytes it is given.
-/
namespace Verif.Mem.Show

/-- 64-bit multiplication. -/
def mul64 (a b : Nat) : Nat := a * b % W64

/-- The part of the report before the node list. -/
structure Summary where
  nodeSize : Nat
  nodeCount : Nat
  memory : Nat
  available : Nat
  buffer : Nat
  used : Nat
  free : Nat
  timeout : Nat
  protMem : Nat
  prot : Nat
  retry : Nat
  fft : Nat
  rcur : Nat
  wcur : Nat
  oseq : Nat
deriving DecidableEq, Repr

/-- `mem_show_channel` up to the node list, `src/channel_mem.cpp:887-918`. -/
def summary (c : Chan) : Summary :=
  let a := avail c.conf c.rcur c.wcur
  let n := c.conf.n
  { nodeSize := nodeSize, nodeCount := n
    memory := sub64 (endOff n) 0
    available := a
    buffer := mul64 nodeSize n
    used := mul64 (sub64 nodeSize a) n
    free := mul64 a n
    timeout := c.conf.timeout, protMem := c.conf.protMem, prot := c.conf.prot, retry := c.conf.retry
    fft := c.fft, rcur := c.rcur, wcur := c.wcur, oseq := c.oseq }

/-- One line of the node list.  `block` are the length and the hash, told for a
start node only ("is start node=Yes"). -/
structure Row where
  index : Nat
  seq : Nat
  block : Option (Nat × Nat)
  written : Bool
  dump : List Byte
deriving DecidableEq

/-- Bytes of the data area, if they are all inside it. -/
def peek (c : Chan) (off len : Nat) : Option (List Byte) :=
  if off + len ≤ c.conf.n * nodeSize then some (rd c.data off len) else none

/-- The line of node `i`, `src/channel_mem.cpp:940-958`, with `mem_get_node_head`
(`:282-300`) and `mem_get_block_head` (`:308-323`), which assert that the index is
below the number of nodes. -/
def row (c : Chan) (want i : Nat) : Option Row :=
  if c.conf.n ≤ i then none
  else
    let h := c.heads i
    match (if h.start then (peek c (i * nodeSize) blockHead).map fun b => some (fromLE (b.take 8), fromLE (b.drop 8))
      else some none) with
    | none => none
    | some block =>
      match (if want < nodeSize then peek c (i * nodeSize) want else peek c (i * nodeSize) nodeSize) with
      | none => none
      | some dump => some ⟨i, h.seq, block, h.written, dump⟩

/-- The loop, `src/channel_mem.cpp:939-960`: `k` more nodes from `i` on. -/
def rows (c : Chan) (want : Nat) : Nat → Nat → Option (List Row)
  | 0, _ => some []
  | k + 1, i =>
    match row c want i with
    | none => none
    | some r => (rows c want k (i + 1)).map (r :: ·)

/-- The node list, `src/channel_mem.cpp:937-960`; nothing without `need_node_status`. -/
def nodeList (c : Chan) (status : Bool) (want : Nat) : Option (List Row) :=
  if status then rows c want c.conf.n 0 else some []

/-- `mem_configure_set_write_timeout`, `src/channel_mem.cpp:419-423`. -/
def setTimeout (c : Option Chan) (v : Nat) : Option Chan × Int :=
  match c with
  | none => (none, Err.PARAMS)
  | some c => (some { c with conf := { c.conf with timeout := v } }, Err.SUCCESS)

/-- `mem_configure_get_write_timeout`, `src/channel_mem.cpp:425-428`. -/
def getTimeout : Option Chan → Nat
  | none => 0
  | some c => c.conf.timeout

/-- `mem_configure_set_write_retry_times`, `src/channel_mem.cpp:430-434`. -/
def setRetry (c : Option Chan) (v : Nat) : Option Chan × Int :=
  match c with
  | none => (none, Err.PARAMS)
  | some c => (some { c with conf := { c.conf with retry := v } }, Err.SUCCESS)

/-- `mem_configure_get_write_retry_times`, `src/channel_mem.cpp:436-439`. -/
def getRetry : Option Chan → Nat
  | none => 0
  | some c => c.conf.retry

end Verif.Mem.Show
