import Verif.Mem.Model
import Verif.Mem.Spec

/-!
Interleaved model of the shared-memory ring channel, `src/channel_mem.cpp:536-875`: any number of senders
inside `mem_send`, one receiver inside `mem_recv`, one access to shared memory per step, in any order.

* Accesses are sequentially consistent; one access reads or writes one field, or one byte of a message.
* What a sender does after it has reserved its nodes does not depend on what the memory contains, except for the
  read-modify-write of its first flag word.  It is a list of accesses (`prog`), in the order of the code.
* A sender that stops for ever is a `crash` step; it takes no further steps.
* `clock()` is a value supplied with every step of the receiver.
* Every index and address is checked; an access outside the channel or the caller's buffer sets `oob`.
* `tot`, `resv`, `who`, `fin`, `got`, `sent`, `codes` and `last` are history variables, as are the fields marked so in the
  program counters.  No decision depends on them.
-/
namespace Verif.Mem.Conc

/-- An access of a sender that has reserved nodes. -/
inductive Act where
  /-- write bytes of the data area -/
  | put (off : Nat) (bs : List Byte)
  /-- write the flag word of a node head -/
  | flag (node : Nat) (start written : Bool)
  /-- write `operation_seq` of a node head -/
  | seq (node v : Nat)
  /-- read the flag word into a register -/
  | loadF (node : Nat)
  /-- write the register with the written bit to the flag word -/
  | storeF (node : Nat)
deriving DecidableEq, Repr

/-- Nodes of the loop over the continuation nodes, `src/channel_mem.cpp:598`; `none`: the loop does not end. -/
def contNodes (n stop : Nat) : Nat → Nat → Option (List Nat)
  | 0, _ => none
  | fuel + 1, i => if i = stop then some [] else (contNodes n stop fuel (next n i 1)).map (i :: ·)

/-- `memcpy` one byte at a time. -/
def puts (off : Nat) (bs : List Byte) : List Act := (List.range bs.length).map fun i => .put (off + i) ((bs.drop i).take 1)

/-- Copy of the message, `src/channel_mem.cpp:617-626`. -/
def copyActs (n w w' : Nat) (m : Msg) : List Act :=
  let start := w * nodeSize + blockHead
  let bufLen := n * nodeSize - w * nodeSize - blockHead
  if w' ≠ 0 ∧ w' < w then
    let copyLen := if m.length > bufLen then bufLen else m.length
    puts start (m.take copyLen) ++ puts 0 (m.drop copyLen)
  else puts start m

/-- Everything a sender writes after its reservation, `src/channel_mem.cpp:583-637`. -/
def prog (hash : List Byte → Nat) (n w w' seq : Nat) (m : Msg) : Option (List Act) :=
  (contNodes n w' (n + 1) (next n w 1)).map fun is =>
    [.put (w * nodeSize) (toLE 8 0), .put (w * nodeSize + 8) (toLE 8 0), .put (w * nodeSize) (toLE 8 0),
      .flag w true false, .seq w seq] ++
    is.flatMap (fun i => [.flag i false true, .seq i seq]) ++
    (.put (w * nodeSize) (toLE 8 m.length) :: copyActs n w w' m ++
      [.put (w * nodeSize + 8) (toLE 8 (hash m % W64)), .loadF w, .storeF w])

/-- Where a sender is inside `mem_send`. `left`: attempts after this one. -/
inductive SPC where
  | idle
  /-- about to increment `atomic_operation_seq`, 384 -/
  | fetch (m : Msg) (left : Nat)
  /-- about to load `atomic_write_cur`, 554 -/
  | loadW (m : Msg) (left seq : Nat)
  /-- about to load `atomic_read_cur`, 558; `wT`: value of `tot` when `w` was read (history) -/
  | loadR (m : Msg) (left seq w wT : Nat)
  /-- about to compare and swap `atomic_write_cur`, 572 -/
  | cas (m : Msg) (left seq w wT k : Nat)
  /-- writing, 583-637; `id`: number of the reservation (history) -/
  | work (m : Msg) (left seq w id : Nat) (todo : List Act) (reg : Bool)
  /-- about to compare the sequence number of the first node, 641; `id`: history -/
  | verify (m : Msg) (left seq w id : Nat)
  /-- the loop over the nodes does not end -/
  | stuck
deriving DecidableEq, Repr

/-- Local variables of `mem_recv`. -/
structure L where
  len : Nat
  ori : Nat
  rb : Nat
  w : Nat
  ret : Int
  tseq : Nat
deriving DecidableEq, Repr

/-- Where the receiver is inside `mem_recv`: the next access. -/
inductive RPC where
  | idle
  /-- load `atomic_read_cur`, 677 -/
  | loadR (len : Nat)
  /-- load `atomic_write_cur`, 680 -/
  | loadW (len ori : Nat)
  /-- read the flag, 712 -/
  | flag (l : L)
  /-- read the flag, 714 -/
  | flag2 (l : L)
  /-- write 0 to the flag of a node that is no start node, 716; go to the next node -/
  | skip (l : L)
  /-- read the sequence number, 732 -/
  | seqT (l : L) (now : Nat)
  /-- read the flag, 733 -/
  | flagT (l : L) (now : Nat)
  /-- look at and change `first_failed_writing_time`, 742-754 -/
  | fft (l : L) (now : Nat)
  /-- read the sequence number of an abandoned message, 755 -/
  | seqTO (l : L)
  /-- write 0 to its flag and reset `first_failed_writing_time`, 758-764 -/
  | skipTO (l : L)
  /-- read the size, 777-790 -/
  | size (l : L)
  /-- write 0 to the flag of a node with a bad size, 782 -/
  | skipBad (l : L)
  /-- read the sequence number, 794 -/
  | seq0 (l : L)
  /-- read the sequence number of node `re`, 798 -/
  | clrSeq (l : L) (cs re : Nat)
  /-- read its flag, 803 -/
  | clrFlag (l : L) (cs re : Nat)
  /-- write 0 to its flag, 809 -/
  | clrSet (l : L) (cs re : Nat)
  /-- read the size, 815 -/
  | num (l : L) (re : Nat)
  /-- read byte number `acc.length`, 839-849 -/
  | copy (l : L) (re sz : Nat) (acc : List Byte)
  /-- read the check sum, 855 -/
  | check (l : L) (re : Nat) (acc : List Byte)
  /-- store `atomic_read_cur` if it changed, 864-866, and return -/
  | fin (ori re : Nat) (ret : Int) (size : Option Nat) (bytes : List Byte)
deriving DecidableEq, Repr

/-- The channel (`mem_channel`, `mem_node_head`, `src/channel_mem.cpp:92-156`), the program counters of the threads, and history. -/
structure St where
  conf : Conf
  rcur : Nat
  wcur : Nat
  fft : Nat
  oseq : Nat
  heads : Nat → Head
  data : Nat → Byte
  thr : Nat → SPC
  crashed : Nat → Bool
  rpc : RPC
  oob : Bool
  /-- nodes reserved so far -/
  tot : Nat
  /-- messages in the order of their reservations -/
  resv : List Msg
  /-- senders of the reservations -/
  who : List Nat
  /-- numbers of the reservations whose written bit was set -/
  fin : List Nat
  /-- messages returned by `mem_recv` with success -/
  got : List Msg
  /-- calls of `mem_send` that returned: sender, message, code -/
  sent : List (Nat × Msg × Int)
  /-- codes returned by `mem_recv` -/
  codes : List Int
  /-- number of the last reservation that starts at a node -/
  last : Nat → Nat

/-- After `mem_init`. -/
def St.init (conf : Conf) : St :=
  { conf, rcur := 0, wcur := 0, fft := 0, oseq := 0, heads := fun _ => ⟨false, false, 0⟩, data := fun _ => 0,
    thr := fun _ => .idle, crashed := fun _ => false, rpc := .idle, oob := false,
    tot := 0, resv := [], who := [], fin := [], got := [], sent := [], codes := [], last := fun _ => 0 }

/-- One step of the execution. -/
inductive Ev where
  /-- sender `t` calls `mem_send` -/
  | call (t : Nat) (m : Msg)
  /-- sender `t` makes its next access; `weak`: a compare and swap fails spuriously -/
  | send (t : Nat) (weak : Bool)
  /-- sender `t` stops for ever -/
  | crash (t : Nat)
  /-- the receiver calls `mem_recv` with a buffer of `len` bytes -/
  | recv (len : Nat)
  /-- the receiver makes its next access -/
  | rstep (now : Nat)
deriving DecidableEq, Repr

/-- Update of one entry (plumbing). -/
def setThr (f : Nat → SPC) (t : Nat) (p : SPC) : Nat → SPC := fun u => if u = t then p else f u

/-- Sender `t` goes to `p` (plumbing). -/
def St.pc (s : St) (t : Nat) (p : SPC) : St := { s with thr := setThr s.thr t p }

/-! ### Senders -/

/-- `mem_send` returns. -/
def St.returns (s : St) (t : Nat) (m : Msg) (code : Int) : St :=
  { s with thr := setThr s.thr t .idle, sent := s.sent ++ [(t, m, code)] }

/-- Start of `mem_send`, `src/channel_mem.cpp:649-667` and 539-547. -/
def callSend (s : St) (t : Nat) (m : Msg) : St :=
  match s.conf.retry with
  | 0 => s.returns t m Err.SUCCESS
  | left + 1 =>
    if m.length = 0 then s.returns t m Err.SUCCESS
    else if calcNodes m.length ≥ sub64 s.conf.n s.conf.prot then s.returns t m Err.BUFF_LIMIT
    else s.pc t (.fetch m left)

/-- Memory after an access, with the register. -/
def act (heads : Nat → Head) (data : Nat → Byte) (reg : Bool) : Act → (Nat → Head) × (Nat → Byte) × Bool
  | .put off bs => (heads, wr data off bs, reg)
  | .flag i st wt => (setHead heads i { heads i with start := st, written := wt }, data, reg)
  | .seq i v => (setHead heads i { heads i with seq := v }, data, reg)
  | .loadF i => (heads, data, (heads i).start)
  | .storeF i => (setHead heads i { heads i with start := reg, written := true }, data, reg)

/-- The access is inside the channel. -/
def Act.inside (n : Nat) : Act → Bool
  | .put off bs => off + bs.length ≤ n * nodeSize
  | .flag i _ _ | .seq i _ | .loadF i | .storeF i => i < n

/-- One access of sender `t`. -/
def stepSend (hash : List Byte → Nat) (s : St) (t : Nat) (weak : Bool) : Option St :=
  match s.thr t with
  | .idle | .stuck => none
  | .fetch m left =>
    let v := (s.oseq + 1) % 2 ^ 32
    let s := { s with oseq := v }
    some (if v = 0 then s else s.pc t (.loadW m left v))
  | .loadW m left seq => some (s.pc t (.loadR m left seq s.wcur s.tot))
  | .loadR m left seq w wT =>
    let k := calcNodes m.length
    if k > avail s.conf s.rcur w then some (s.returns t m Err.BUFF_LIMIT)
    else some (s.pc t (.cas m left seq w wT k))
  | .cas m left seq w _ k =>
    if s.wcur ≠ w ∨ weak = true then some (s.pc t (.loadR m left seq s.wcur s.tot))
    else
      let w' := next s.conf.n w k
      let id := s.resv.length
      let s := { s with
        wcur := w', tot := s.tot + k, resv := s.resv ++ [m], who := s.who ++ [t]
        oob := s.oob || decide (s.conf.n ≤ w)
        last := fun x => if x = w then id else s.last x }
      match prog hash s.conf.n w w' seq m with
      | none => some (s.pc t .stuck)
      | some acts => some (s.pc t (.work m left seq w id acts false))
  | .work m left seq w id todo reg =>
    match todo with
    | [] => none
    | a :: rest =>
      let r := act s.heads s.data reg a
      let s := { s with heads := r.1, data := r.2.1, oob := s.oob || !a.inside s.conf.n }
      if rest = [] then some ({ s with fin := s.fin ++ [id] }.pc t (.verify m left seq w id))
      else some (s.pc t (.work m left seq w id rest r.2.2))
  | .verify m left seq w id =>
    if seq = (s.heads w).seq then some (s.returns t m Err.SUCCESS)
    else
      match left with
      | 0 => some (s.returns t m Err.NODE_BAD_BLOCK_CSEQ_ID)
      | left + 1 => some (s.pc t (.fetch m left))

/-! ### Receiver -/

/-- Head of the search loop, `src/channel_mem.cpp:685-691`. -/
def loopHead (l : L) : RPC :=
  if l.rb = l.w then .fin l.ori l.rb (orElse l.ret Err.NO_DATA) none [] else .flag l

/-- Head of the flag-clearing loop, `src/channel_mem.cpp:795`. -/
def clrHead (l : L) (cs re : Nat) : RPC := if re = l.w then .num l re else .clrSeq l cs re

/-- Clears the flag of node `i`. -/
def clr (hs : Nat → Head) (i : Nat) : Nat → Head := setHead hs i { hs i with start := false, written := false }

/-- Address of byte `j` of the message at node `b`, `src/channel_mem.cpp:839-849`. -/
def byteAddr (n b j : Nat) : Nat :=
  let bufLen := n * nodeSize - b * nodeSize - blockHead
  if j < bufLen then b * nodeSize + blockHead + j else j - bufLen

/-- The local variables after a node was left out. -/
def L.skip (l : L) (n : Nat) : L := { l with rb := next n l.rb 1 }

/-- Byte-wise copy: the next access. -/
def copyHead (l : L) (re sz : Nat) (acc : List Byte) : RPC :=
  if acc.length = sz then .check l re acc else .copy l re sz acc

/-- The receiver goes to `p` (plumbing). -/
def St.to (s : St) (p : RPC) : St := { s with rpc := p }

/-- One access of the receiver. -/
def stepRecv (hash : List Byte → Nat) (s : St) (now : Nat) : Option St :=
  let n := s.conf.n
  match s.rpc with
  | .idle => none
  | .loadR len => some (s.to (.loadW len s.rcur))
  | .loadW len ori => some (s.to (loopHead ⟨len, ori, ori, s.wcur, 0, 0⟩))
  | .flag l =>
    let s := { s with oob := s.oob || decide (n ≤ l.rb) }
    if (s.heads l.rb).written then some (s.to (.flag2 l))
    else if l.tseq ≠ 0 then some (s.to (.seqT l now))
    else some (s.to (.fft l now))
  | .flag2 l =>
    if ¬ (s.heads l.rb).start then some (s.to (.skip l))
    else if l.ret ≠ 0 then some (s.to (.fin l.ori l.rb l.ret none []))
    else some (s.to (.size l))
  | .skip l => some ({ s with heads := clr s.heads l.rb }.to (loopHead (l.skip n)))
  | .seqT l now' => some (s.to (if l.tseq = (s.heads l.rb).seq then .flagT l now' else .fft l now'))
  | .flagT l now' => some (s.to (if (s.heads l.rb).start then .fft l now' else .skip l))
  | .fft l now' =>
    if s.fft = 0 then some ({ s with fft := now' }.to (.fin l.ori l.rb (orElse l.ret Err.NO_DATA) none []))
    else if absDiff now' s.fft > s.conf.timeout then some (s.to (.seqTO l))
    else some (s.to (.fin l.ori l.rb (orElse l.ret Err.NO_DATA) none []))
  | .seqTO l => some (s.to (.skipTO { l with tseq := (s.heads l.rb).seq }))
  | .skipTO l => some ({ s with heads := clr s.heads l.rb, fft := 0 }.to (loopHead (l.skip n)))
  | .size l =>
    let sz := bsize s.data l.rb
    if sz = 0 ∨ sz ≥ sub64 (n * nodeSize) s.conf.protMem then some (s.to (.skipBad l))
    else if sz > l.len then some (s.to (.fin l.ori l.rb (orElse l.ret Err.BUFF_LIMIT) (some sz) []))
    else some (s.to (.seq0 l))
  | .skipBad l =>
    some ({ s with heads := clr s.heads l.rb }.to
      (loopHead { l.skip n with ret := orElse l.ret Err.NODE_BAD_BLOCK_BUFF_SIZE }))
  | .seq0 l => some (s.to (clrHead l (s.heads l.rb).seq l.rb))
  | .clrSeq l cs re =>
    let s := { s with oob := s.oob || decide (n ≤ re) }
    some (s.to (if (s.heads re).seq ≠ cs then .num l re else .clrFlag l cs re))
  | .clrFlag l cs re => some (s.to (if re ≠ l.rb ∧ (s.heads re).start = true then .num l re else .clrSet l cs re))
  | .clrSet l cs re => some ({ s with heads := clr s.heads re }.to (clrHead l cs (next n re 1)))
  | .num l re =>
    let sz := bsize s.data l.rb
    if calcNodes sz ≠ rangeCount n l.rb re then
      some (s.to (loopHead { l.skip n with ret := orElse l.ret Err.NODE_BAD_BLOCK_NODE_NUM }))
    else some ({ s with fft := 0 }.to (copyHead l re sz []))
  | .copy l re sz acc =>
    let a := byteAddr n l.rb acc.length
    let s := { s with oob := s.oob || decide (n * nodeSize ≤ a) || decide (l.len ≤ acc.length) }
    some (s.to (copyHead l re sz (acc ++ [s.data a])))
  | .check l re acc =>
    some (s.to (.fin l.ori re (if hash acc % W64 ≠ bcheck s.data l.rb then Err.BAD_DATA else Err.SUCCESS)
      (some acc.length) acc))
  | .fin ori re ret _ bytes =>
    some { s with
      rcur := if ori ≠ re then re else s.rcur
      rpc := .idle
      got := if ret = Err.SUCCESS then s.got ++ [bytes] else s.got
      codes := s.codes ++ [ret] }

/-! ### Runs -/

/-- One step; `none`: not possible. -/
def step (hash : List Byte → Nat) (s : St) : Ev → Option St
  | .call t m => if s.thr t = .idle ∧ s.crashed t = false then some (callSend s t m) else none
  | .send t weak => if s.crashed t = false then stepSend hash s t weak else none
  | .crash t => some { s with crashed := fun u => if u = t then true else s.crashed u }
  | .recv len => if s.rpc = .idle then some (s.to (.loadR len)) else none
  | .rstep now => stepRecv hash s now

/-- Runs the calls in order (plumbing). -/
def run (hash : List Byte → Nat) (s : St) : List Ev → Option St
  | [] => some s
  | e :: es => match step hash s e with
    | none => none
    | some s1 => run hash s1 es

end Verif.Mem.Conc
