import Verif.Mem.Props
import Verif.Mem.Timeout
import Verif.Mem.Attach

/-!
Properties C17 - C19 of the shared-memory channel: giving up on unfinished
messages, attaching to memory, receiving from damaged memory.
-/
namespace Verif.Mem

set_option maxRecDepth 10000

/-! ### C17 timeouts -/

/-- Histories of one receiver.  `obs` lists the clock values of the calls that left the message
now at the receiver's position unfinished, `last` is the latest clock value.  Between calls the
senders may change anything except the receiver's cursor and its remembered time.  A call made
while an unfinished message is remembered must find at its position an unfinished message, a
message that it can deliver or that does not fit the buffer, or nothing. -/
inductive Hist (hash : List Byte → Nat) : Chan → List Nat → Nat → Prop
  | start (c : Chan) : c.fft = 0 → Hist hash c [] 0
  | senders {c c' : Chan} {obs : List Nat} {last : Nat} : Hist hash c obs last → c'.conf = c.conf →
      c'.rcur = c.rcur → c'.fft = c.fft → Hist hash c' obs last
  | stay {c c' : Chan} {obs : List Nat} {last now len : Nat} {code : Int} {size : Option Nat} {bytes : List Byte} :
      Hist hash c obs last → last ≤ now → recv hash c now len = .done c' code size bytes →
      (c.fft ≠ 0 → frontOpen c ∨ c.rcur = c.wcur ∨ ((c.heads c.rcur).written = true ∧ (c.heads c.rcur).start = true ∧
        (code = Err.SUCCESS ∨ code = Err.BAD_DATA ∨ code = Err.BUFF_LIMIT))) →
      c'.rcur = c.rcur → frontOpen c' → Hist hash c' (now :: obs) now
  | stayClosed {c c' : Chan} {obs : List Nat} {last now len : Nat} {code : Int} {size : Option Nat} {bytes : List Byte} :
      Hist hash c obs last → last ≤ now → recv hash c now len = .done c' code size bytes →
      (c.fft ≠ 0 → frontOpen c ∨ c.rcur = c.wcur ∨ ((c.heads c.rcur).written = true ∧ (c.heads c.rcur).start = true ∧
        (code = Err.SUCCESS ∨ code = Err.BAD_DATA ∨ code = Err.BUFF_LIMIT))) →
      c'.rcur = c.rcur → ¬ frontOpen c' → Hist hash c' obs now
  | move {c c' : Chan} {obs : List Nat} {last now len : Nat} {code : Int} {size : Option Nat} {bytes : List Byte} :
      Hist hash c obs last → last ≤ now → recv hash c now len = .done c' code size bytes →
      (c.fft ≠ 0 → frontOpen c ∨ c.rcur = c.wcur ∨ ((c.heads c.rcur).written = true ∧ (c.heads c.rcur).start = true ∧
        (code = Err.SUCCESS ∨ code = Err.BAD_DATA ∨ code = Err.BUFF_LIMIT))) →
      c'.rcur ≠ c.rcur → frontOpen c' → Hist hash c' [now] now
  | moveClosed {c c' : Chan} {obs : List Nat} {last now len : Nat} {code : Int} {size : Option Nat} {bytes : List Byte} :
      Hist hash c obs last → last ≤ now → recv hash c now len = .done c' code size bytes →
      (c.fft ≠ 0 → frontOpen c ∨ c.rcur = c.wcur ∨ ((c.heads c.rcur).written = true ∧ (c.heads c.rcur).start = true ∧
        (code = Err.SUCCESS ∨ code = Err.BAD_DATA ∨ code = Err.BUFF_LIMIT))) →
      c'.rcur ≠ c.rcur → ¬ frontOpen c' → Hist hash c' [] now

/-- What one call does to the remembered time. -/
theorem recv_remember {hash : List Byte → Nat} {c c' : Chan} {now len : Nat} {code : Int} {size : Option Nat}
    {bytes : List Byte} (h : recv hash c now len = .done c' code size bytes)
    (hc : c.fft ≠ 0 → frontOpen c ∨ c.rcur = c.wcur ∨ ((c.heads c.rcur).written = true ∧ (c.heads c.rcur).start = true ∧
        (code = Err.SUCCESS ∨ code = Err.BAD_DATA ∨ code = Err.BUFF_LIMIT))) :
    c'.fft = 0 ∨ (c'.fft = now ∧ frontOpen c') ∨ (c'.fft = c.fft ∧ c'.rcur = c.rcur) := by
  by_cases hf : c.fft = 0
  · rcases recv_fft0 hf h with h' | h'
    · exact Or.inl h'
    · exact Or.inr (Or.inl h')
  · rcases hc hf with ho | h0 | h0
    · rcases recv_open ho h with ⟨a, b, d, e | ⟨e, _⟩⟩ | ⟨_, _, e | e⟩
      · exact Or.inr (Or.inr ⟨e, a⟩)
      · exact absurd e hf
      · exact Or.inl e
      · exact Or.inr (Or.inl e)
    · rcases recv_closed h (Or.inl h0) with e | e
      · exact Or.inl e
      · exact Or.inr (Or.inr ⟨e.1, e.2.1⟩)
    · rcases recv_closed h (Or.inr h0) with e | e
      · exact Or.inl e
      · exact Or.inr (Or.inr ⟨e.1, e.2.1⟩)

theorem hist_inv {hash : List Byte → Nat} {c : Chan} {obs : List Nat} {last : Nat} (h : Hist hash c obs last) :
    (c.fft ≠ 0 → c.fft ∈ obs) ∧ ∀ t ∈ obs, t ≤ last := by
  induction h with
  | start c h => exact ⟨fun h' => absurd h h', by simp⟩
  | senders _ _ _ e ih => exact ⟨by rw [e]; exact ih.1, ih.2⟩
  | @stay c c' obs last now _ _ _ _ _ hn hr hc he ho ih =>
    refine ⟨fun hf => ?_, ?_⟩
    · rcases recv_remember hr hc with e | e | e
      · exact absurd e hf
      · rw [e.1]; simp
      · rw [e.1] at hf ⊢; exact List.mem_cons_of_mem _ (ih.1 hf)
    · intro t ht
      simp only [List.mem_cons] at ht
      rcases ht with e | ht
      · omega
      · have := ih.2 t ht; omega
  | @stayClosed c c' obs last now _ _ _ _ _ hn hr hc he ho ih =>
    refine ⟨fun hf => ?_, fun t ht => by have := ih.2 t ht; omega⟩
    rcases recv_remember hr hc with e | e | e
    · exact absurd e hf
    · exact absurd e.2 ho
    · rw [e.1] at hf ⊢; exact ih.1 hf
  | move hh hn hr hc he ho ih =>
    refine ⟨fun hf => ?_, by simp⟩
    rcases recv_remember hr hc with e | e | e
    · exact absurd e hf
    · rw [e.1]; simp
    · exact absurd e.2 he
  | moveClosed hh hn hr hc he ho ih =>
    refine ⟨fun hf => ?_, by simp⟩
    rcases recv_remember hr hc with e | e | e
    · exact absurd e hf
    · exact absurd e.2 ho
    · exact absurd e.2 he

/-- C17: with a clock that does not go back, a call that moves past an unfinished message at its
position does so only if an earlier call, more than the timeout ago, already saw that message
unfinished.  Not covered: unfinished messages behind the one at the receiver's position (false,
`C17_second_message_false`), and histories in which the ring is damaged while a message is watched. -/
theorem C17_timeout_partial (hash : List Byte → Nat) {c c' : Chan} {obs : List Nat} {last now len : Nat} {code : Int}
    {size : Option Nat} {bytes : List Byte} (h : Hist hash c obs last) (hn : last ≤ now) (ho : frontOpen c)
    (hr : recv hash c now len = .done c' code size bytes) (hm : c'.rcur ≠ c.rcur) :
    ∃ t ∈ obs, t + c.conf.timeout < now := by
  obtain ⟨h1, h2⟩ := hist_inv h
  rcases recv_open ho hr with ⟨e, _⟩ | ⟨hf, ht, _⟩
  · exact absurd e hm
  · refine ⟨c.fft, h1 hf, ?_⟩
    have := h2 _ (h1 hf)
    unfold absDiff at ht
    split at ht <;> omega

/-- A sender has reserved two nodes and written nothing yet. -/
def watched : Chan := { initChan (defaultConf 100) with wcur := 2 }

/-- The hypotheses of `C17_timeout_partial` are met: seen at time 10, abandoned at time 20. -/
example (hash : List Byte → Nat) : ∃ c c', Hist hash c [10] 10 ∧ frontOpen c ∧ frontOpen c' ∧
    recv hash c 20 100 = .done c' Err.NO_DATA none [] ∧ c'.rcur = 1 ∧ c.rcur = 0 := by
  have h0 : Hist hash watched [] 0 := .start _ rfl
  have r1 : recv hash watched 10 100 = .done { watched with fft := 10 } Err.NO_DATA none [] := rfl
  have h1 := Hist.stay h0 (by omega) r1 (fun h => absurd rfl h) rfl ⟨by decide, rfl⟩
  exact ⟨_, _, h1, ⟨by decide, rfl⟩, ⟨by decide, rfl⟩, rfl, rfl, rfl⟩

/-- C17, second half: a finished message at the receiver's position is never abandoned, whatever
the remembered time and the clock say and whatever lies behind it: it is delivered, or reported as
too large for the buffer and left in place. -/
theorem C17_finished_kept (hash : List Byte → Nat) {c : Chan} {m : Msg} {R u : Nat} (hcf : GoodConf c.conf)
    (hR : R % c.conf.n = c.rcur) (hW : (R + u) % c.conf.n = c.wcur) (hm : MsgOK hash c R m) (hfit : MsgFit c.conf m)
    (hu1 : need m.length ≤ u) (hu2 : u < c.conf.n)
    (hb : need m.length < u → (c.heads ((R + need m.length) % c.conf.n)).start = true ∨
      (c.heads ((R + need m.length) % c.conf.n)).seq ≠ (c.heads (R % c.conf.n)).seq) (now len : Nat) :
    (len < m.length → recv hash c now len = .done c Err.BUFF_LIMIT (some m.length) []) ∧
    (m.length ≤ len → ∃ c', recv hash c now len = .done c' Err.SUCCESS (some m.length) m ∧
      c'.rcur = (R + need m.length) % c.conf.n ∧ c'.fft = 0) := by
  rw [need_eq] at *
  obtain ⟨r1, r2⟩ := recv_front hcf.ok hR hW hm hfit hu1 hu2 hb now len
  refine ⟨r1, fun h => ?_⟩
  obtain ⟨hs, e, _⟩ := r2 h
  exact ⟨_, e, rfl, rfl⟩

/-- C17 is false when the clock goes back: the only earlier call that saw the message unfinished
has a later clock value, and the message is abandoned. -/
theorem C17_clock_back_false (hash : List Byte → Nat) :
    ∃ c c', recv hash watched 100 10 = .done c Err.NO_DATA none [] ∧ frontOpen watched ∧
      recv hash c 50 10 = .done c' Err.NO_DATA none [] ∧ c.rcur = 0 ∧ c'.rcur = 1 :=
  ⟨_, _, rfl, ⟨by decide, rfl⟩, rfl, rfl, rfl⟩

/-- A ring of eight nodes that has gone round once; two senders have each reserved one node
(nodes 0 and 1) and written nothing yet.  The old heads of both nodes carry the number of the
two-node message that was there before. -/
def lapOps : List Op :=
  [.send (List.replicate 300 1), .recv 1 400, .send (List.replicate 1200 2), .recv 1 1300, .send [3], .recv 1 400]

/-- C17 is false for a message behind the front one: seen by no call before, it is abandoned in the
call that gives up on the message before it, because its stale sequence number matches. -/
theorem C17_second_message_false :
    ∃ c evs c1 c2, implRun (fun _ => 0) (initChan ⟨8, 0, 0, 4, 4⟩) lapOps = some (c, evs) ∧
      c.rcur = 0 ∧ c.wcur = 0 ∧
      recv (fun _ => 0) { c with wcur := 2 } 100 10 = .done c1 Err.NO_DATA none [] ∧ c1.rcur = 0 ∧
      recv (fun _ => 0) c1 200 10 = .done c2 Err.NO_DATA none [] ∧ c2.rcur = 2 := by
  have h : (match implRun (fun _ => 0) (initChan ⟨8, 0, 0, 4, 4⟩) lapOps with
      | none => false
      | some (c, _) => c.rcur == 0 && c.wcur == 0 &&
        match recv (fun _ => 0) { c with wcur := 2 } 100 10 with
        | .done c1 code1 none [] => code1 == Err.NO_DATA && c1.rcur == 0 &&
          match recv (fun _ => 0) c1 200 10 with
          | .done c2 code2 none [] => code2 == Err.NO_DATA && c2.rcur == 2
          | _ => false
        | _ => false) = true := by decide +kernel
  split at h
  · simp at h
  · rename_i c evs hc
    split at h
    · rename_i c1 code1 h1
      split at h
      · rename_i c2 code2 h2
        simp only [Bool.and_eq_true, beq_iff_eq] at h
        obtain ⟨⟨a, b⟩, ⟨d, e⟩, f, g⟩ := h
        subst d f
        exact ⟨c, evs, c1, c2, hc, a, b, h1, e, h2, g⟩
      · simp at h
    · simp at h

/-! ### C18 attaching -/

theorem rd_wr_out {d : Nat → Byte} {o o' l : Nat} {bs : List Byte} (h : o' + l ≤ o ∨ o + bs.length ≤ o') :
    rd (wr d o bs) o' l = rd d o' l := by
  apply rd_congr
  intro i hi
  rw [wr_out (by omega)]

/-- C18: memory prepared by `mem_init` can be attached with the same length, whatever it holds
besides the header fields `mem_init` stores; and both refuse the same lengths. -/
theorem C18_attach_after_init (rest : Nat → Byte) (len : Nat) :
    (∀ mem, initMem rest len = (Err.SUCCESS, some mem) → attach mem len = ⟨Err.SUCCESS, some 0⟩) ∧
    ((initMem rest len).1 = Err.CHANNEL_SIZE_TOO_SMALL ↔ ∀ mem, attach mem len = ⟨Err.CHANNEL_SIZE_TOO_SMALL, none⟩) := by
  constructor
  · intro mem h
    unfold initMem at h
    split at h
    · simp at h
    · rename_i hl
      injection h with _ h
      injection h with h
      subst h
      have l0 : magic.length = 8 := rfl
      have l2 : ∀ v, (toLE 2 v).length = 2 := fun v => toLE_length 2 v
      have m1 : magicEq (initHeader rest) = true := by
        unfold magicEq initHeader
        rw [rd_wr_out (by omega), rd_wr_out (by omega), rd_wr_out (by omega), ← l0, rd_wr]
        simp
      have m2 : u16 (initHeader rest) 16 = 2 := by
        unfold u16 initHeader
        rw [rd_wr_out (by omega), rd_wr_out (by omega)]
        have := rd_wr (wr rest 0 magic) 16 (toLE 2 2)
        rw [l2] at this
        rw [this]; rfl
      have m3 : u16 (initHeader rest) 18 = 16 := by
        unfold u16 initHeader
        rw [rd_wr_out (by omega)]
        have := rd_wr (wr (wr rest 0 magic) 16 (toLE 2 2)) 18 (toLE 2 16)
        rw [l2] at this
        rw [this]; rfl
      have m4 : u16 (initHeader rest) 20 = 8 := by
        unfold u16 initHeader
        have := rd_wr (wr (wr (wr rest 0 magic) 16 (toLE 2 2)) 18 (toLE 2 16)) 20 (toLE 2 8)
        rw [l2] at this
        rw [this]; rfl
      unfold attach
      rw [if_neg hl, m1, m2, m3, m4]
      rfl
  · unfold initMem
    constructor
    · intro h mem
      split at h
      · rename_i hl; unfold attach; rw [if_pos hl]
      · exact absurd (show Err.SUCCESS = _ from h) (by decide)
    · intro h
      split
      · rfl
      · rename_i hl
        have := h (fun _ => 0)
        unfold attach at this
        rw [if_neg hl, if_pos (by decide)] at this
        exact absurd this (by decide)

/-- Bytes of the name, ignoring letter case. -/
def NameIs (mem : Nat → Byte) : Prop := ∀ i (h : i < magic.length), lower (mem i) = lower magic[i]

theorem magicEq_iff (mem : Nat → Byte) : magicEq mem = true ↔ NameIs mem := by
  unfold magicEq NameIs
  rw [beq_iff_eq]
  constructor
  · intro h i hi
    have hi8 : i < 8 := hi
    have := congrArg (fun l => l[i]?) h
    simpa [rd, hi8, show i < magic.length from hi] using this
  · intro h
    apply List.ext_getElem
    · simp [rd, magic]
    · intro i h1 h2
      have := h i (by simpa using h2)
      simpa [rd] using this

/-- C18: the result of attaching to arbitrary memory.  Letter case of the name is ignored, which is
weaker than the English statement (`C18_lower_case_false`), hence `_partial`. -/
theorem C18_attach_partial (mem : Nat → Byte) (len : Nat) :
    ((attach mem len).code = Err.SUCCESS ↔
      minLen ≤ len ∧ NameIs mem ∧ u16 mem 16 = 2 ∧ u16 mem 18 = 16 ∧ u16 mem 20 = 8) ∧
    (len < minLen → (attach mem len).code = Err.CHANNEL_SIZE_TOO_SMALL) ∧
    (minLen ≤ len → ¬ NameIs mem → (attach mem len).code = Err.CHANNEL_BUFFER_INVALID) ∧
    (minLen ≤ len → NameIs mem → u16 mem 16 ≠ 2 → (attach mem len).code = Err.CHANNEL_UNSUPPORTED_VERSION) ∧
    (minLen ≤ len → NameIs mem → u16 mem 16 = 2 → u16 mem 18 ≠ 16 →
      (attach mem len).code = Err.CHANNEL_ALIGN_SIZE_MISMATCH) ∧
    (minLen ≤ len → NameIs mem → u16 mem 16 = 2 → u16 mem 18 = 16 → u16 mem 20 ≠ 8 →
      (attach mem len).code = Err.CHANNEL_ARCH_SIZE_T_MISMATCH) := by
  rw [← magicEq_iff]
  unfold attach
  have e : Err.CHANNEL_SIZE_TOO_SMALL ≠ Err.SUCCESS ∧ Err.CHANNEL_BUFFER_INVALID ≠ Err.SUCCESS ∧
    Err.CHANNEL_UNSUPPORTED_VERSION ≠ Err.SUCCESS ∧ Err.CHANNEL_ALIGN_SIZE_MISMATCH ≠ Err.SUCCESS ∧
    Err.CHANNEL_ARCH_SIZE_T_MISMATCH ≠ Err.SUCCESS := by decide
  obtain ⟨e1, e2, e3, e4, e5⟩ := e
  generalize minLen = ml
  by_cases h1 : len < ml
  · have h1' : ¬ ml ≤ len := by omega
    simp only [if_pos h1, h1', e1, false_and, iff_false, true_and, false_implies, and_true, implies_true, not_false_eq_true]
  · have h1' : ml ≤ len := by omega
    rw [if_neg h1]
    by_cases h2 : magicEq mem = true
    · by_cases h3 : u16 mem 16 = 2
      · by_cases h4 : u16 mem 18 = 16
        · by_cases h5 : u16 mem 20 = 8
          · simp [h2, h3, h4, h5, h1, h1']
          · have h5' : ¬ 8 = u16 mem 20 := fun h => h5 h.symm
            simp [h2, h3, h4, h5, h5', h1, h1', e5]
        · have h4' : ¬ 16 = u16 mem 18 := fun h => h4 h.symm
          simp [h2, h3, h4, h4', h1, h1', e4]
      · have h3' : ¬ 2 = u16 mem 16 := fun h => h3 h.symm
        simp [h2, h3, h3', h1, h1', e3]
    · simp [h2, h1, h1', e2]

/-- C18 is false for a name in lower case: another magic is accepted. -/
theorem C18_lower_case_false : ∃ mem : Nat → Byte,
    rd mem 0 8 = [97, 116, 98, 117, 115, 109, 101, 109] ∧ (attach mem 8388608).code = Err.SUCCESS :=
  ⟨wr (initHeader (fun _ => 0)) 0 [97, 116, 98, 117, 115, 109, 101, 109], by decide, by decide⟩

/-- The length given to attach is not compared with the ring stored in the memory: memory initialised
with one length is accepted with any shorter acceptable length, although the ring then lies
outside the memory attached to. -/
theorem C18_shorter_length_false (rest : Nat → Byte) : ∃ len len' mem, len' < endOff (nodesFor len) ∧
    initMem rest len = (Err.SUCCESS, some mem) ∧ attach mem len' = ⟨Err.SUCCESS, some 0⟩ := by
  refine ⟨8388608, 4368, initHeader rest, by decide, rfl, ?_⟩
  exact (C18_attach_after_init rest 4368).1 _ rfl

/-! ### C19 damaged memory -/

/-- C19: whatever heads and data contain, a receive with cursors in range ends, stays inside the
channel (the model's outcome `oob` is a node index or a data range outside), changes no node head
outside the ring and no data, writes at most `len` bytes, leaves the cursor in range and reports
success only for bytes, taken from the ring, whose checksum is the stored one. -/
theorem C19_damaged (hash : List Byte → Nat) (c : Chan) (now len : Nat) (hr : c.rcur < c.conf.n)
    (hw : c.wcur < c.conf.n) (hp : c.conf.protMem ≤ c.conf.n * 256) (hn : c.conf.n * 256 < 2 ^ 64) :
    ∃ c' code size bytes, recv hash c now len = .done c' code size bytes ∧
      c'.rcur < c.conf.n ∧ c'.wcur = c.wcur ∧ c'.conf = c.conf ∧ c'.data = c.data ∧ c'.oseq = c.oseq ∧
      (∀ x, c.conf.n ≤ x → c'.heads x = c.heads x) ∧ bytes.length ≤ len ∧
      (code = Err.SUCCESS → ∃ b, b < c.conf.n ∧ bytes.length = bsize c.data b ∧ size = some bytes.length ∧
        bytes ≠ [] ∧ hash bytes % 2 ^ 64 = bcheck c.data b ∧
        ∀ i (hi : i < bytes.length), bytes[i] = c.data ((b * 256 + 16 + i) % (c.conf.n * 256))) :=
  recv_safe now len hr hw hp hn

/-- The default configuration meets the size conditions. -/
example (len : Nat) (h : minLen ≤ len) (h2 : len < 2 ^ 64) :
    (defaultConf (nodesFor len)).protMem ≤ (defaultConf (nodesFor len)).n * 256 ∧
      (defaultConf (nodesFor len)).n * 256 < 2 ^ 64 := by
  refine ⟨?_, (defaultConf_good len h h2).size⟩
  simp only [defaultConf, nodeSize]
  (repeat' split) <;> omega

/-- C19 is false for a caller's configuration whose protected size exceeds the ring: the size limit
wraps around, and a damaged size makes the receiver read outside the ring. -/
theorem C19_caller_conf_false : ∃ c : Chan, c.conf.n = 2 ∧ c.rcur < 2 ∧ c.wcur < 2 ∧ c.conf.protMem = 513 ∧
    ∀ hash, recv hash c 0 (2 ^ 64 - 1) = .oob := by
  refine ⟨{ initChan (userConf 2 0 513 4 4) with
    wcur := 1, heads := fun i => if i = 0 then ⟨true, true, 1⟩ else ⟨false, false, 0⟩,
    data := wr (fun _ => 0) 0 (toLE 8 (2 ^ 64 - 2)) }, rfl, by decide, by decide, rfl, fun hash => ?_⟩
  rfl

/-! Nodes left behind -/

/-- The head says neither that a message starts here nor that the node was written. -/
def Blank (h : Head) : Prop := h.start = false ∧ h.written = false

theorem blank_set {hs : Nat → Head} {i x : Nat} {h : Head} (hh : Blank h) (hx : x = i ∨ Blank (hs x)) : Blank (setHead hs i h x) := by
  unfold setHead
  split
  · exact hh
  · rename_i hne; exact hx.resolve_left hne

theorem next_next (n r k : Nat) : next n (next n r k) 1 = next n r (k + 1) := by
  simp only [next, Nat.mod_add_mod, Nat.add_assoc]

theorem clearNodes_blank {n seq b w r : Nat} : ∀ (fuel i k : Nat) {hs hs' : Nat → Head} {e : Nat}, i = next n r k →
    (∀ j, j < k → Blank (hs (next n r j))) → clearNodes n seq b w fuel i hs = some (hs', e) →
    (∃ k', e = next n r k' ∧ k ≤ k' ∧ ∀ j, j < k' → Blank (hs' (next n r j))) ∧ (i = b → i ≠ w → seq = (hs i).seq → Blank (hs' i)) := by
  intro fuel
  induction fuel with
  | zero => intro i k hs hs' e _ _ h; cases h
  | succ fuel ih =>
    intro i k hs hs' e hi hb h
    unfold clearNodes at h
    split at h
    · rename_i hw
      obtain ⟨rfl, rfl⟩ := Prod.mk.inj (Option.some.inj h)
      exact ⟨⟨k, hi, Nat.le_refl _, hb⟩, fun _ h => absurd hw h⟩
    · split at h
      · rename_i hne
        obtain ⟨rfl, rfl⟩ := Prod.mk.inj (Option.some.inj h)
        exact ⟨⟨k, hi, Nat.le_refl _, hb⟩, fun _ _ h => absurd h.symm hne⟩
      · split at h
        · rename_i hst
          obtain ⟨rfl, rfl⟩ := Prod.mk.inj (Option.some.inj h)
          exact ⟨⟨k, hi, Nat.le_refl _, hb⟩, fun h => absurd h hst.1⟩
        · obtain ⟨⟨k', h1, h2, h3⟩, _⟩ := ih (next n i 1) (k + 1) (by rw [hi]; exact next_next n r k)
            (fun j hj => blank_set ⟨rfl, rfl⟩ (by
              by_cases h : j = k
              · exact Or.inl (by rw [h, hi])
              · exact Or.inr (hb j (by omega)))) h
          exact ⟨⟨k', h1, by omega, h3⟩, fun _ _ _ => by rw [hi]; exact h3 k (by omega)⟩

/-- Where the search ended. -/
def LoopOut.ended : LoopOut → Option (Chan × Nat)
  | .stop c e _ _ => some (c, e)
  | .got c _ e => some (c, e)
  | _ => none

theorem recvLoop_blank (now len r : Nat) : ∀ (fuel : Nat) (c : Chan) (cur k : Nat) (ret : Int) (tseq : Nat) {c' : Chan} {e : Nat},
    cur = next c.conf.n r k → (∀ j, j < k → Blank (c.heads (next c.conf.n r j))) →
    (recvLoop now len fuel c cur ret tseq).ended = some (c', e) →
    ∃ k', e = next c.conf.n r k' ∧ ∀ j, j < k' → Blank (c'.heads (next c.conf.n r j)) := by
  intro fuel
  induction fuel with
  | zero => intro c cur k ret tseq c' e _ _ h; cases h
  | succ fuel ih =>
    intro c cur k ret tseq c' e hc hb h
    have step : ∀ {c1 : Chan} {ret : Int} {tseq : Nat}, c1.conf = c.conf → (∀ j, j < k + 1 → Blank (c1.heads (next c.conf.n r j))) →
        (recvLoop now len fuel c1 (next c.conf.n cur 1) ret tseq).ended = some (c', e) →
        ∃ k', e = next c.conf.n r k' ∧ ∀ j, j < k' → Blank (c'.heads (next c.conf.n r j)) := by
      intro c1 ret tseq h1 h2 h3
      have := ih c1 (next c.conf.n cur 1) (k + 1) ret tseq (c' := c') (e := e) (by rw [h1, hc]; exact next_next _ r k)
        (by rw [h1]; exact h2) h3
      rw [h1] at this
      exact this
    have clr : ∀ j, j < k + 1 → Blank ((clearFlag c cur).heads (next c.conf.n r j)) := fun j hj =>
      blank_set ⟨rfl, rfl⟩ (by
        by_cases h : j = k
        · exact Or.inl (by rw [h, hc])
        · exact Or.inr (hb j (by omega)))
    unfold recvLoop at h
    dsimp only at h
    split at h
    · obtain ⟨rfl, rfl⟩ := Prod.mk.inj (Option.some.inj h); exact ⟨k, hc, hb⟩
    · rename_i hcw
      split at h
      · cases h
      · split at h
        · split at h
          · exact step (c1 := clearFlag c cur) rfl clr h
          · split at h
            · obtain ⟨rfl, rfl⟩ := Prod.mk.inj (Option.some.inj h); exact ⟨k, hc, hb⟩
            · split at h
              · exact step (c1 := clearFlag c cur) rfl clr h
              · split at h
                · obtain ⟨rfl, rfl⟩ := Prod.mk.inj (Option.some.inj h); exact ⟨k, hc, hb⟩
                · split at h
                  · cases h
                  · rename_i hs e1 hcl
                    have hbl := clearNodes_blank _ cur k hc hb hcl
                    split at h
                    · refine step (c1 := { c with heads := hs }) rfl (fun j hj => ?_) h
                      by_cases hjk : j = k
                      · rw [hjk, ← hc]; exact hbl.2 rfl hcw rfl
                      · obtain ⟨k', _, hk, hh⟩ := hbl.1
                        exact hh j (by omega)
                    · obtain ⟨rfl, rfl⟩ := Prod.mk.inj (Option.some.inj h)
                      obtain ⟨k', h1, _, h3⟩ := hbl.1
                      exact ⟨k', h1, h3⟩
        · split at h
          · exact step (c1 := clearFlag c cur) rfl clr h
          · split at h
            · obtain ⟨rfl, rfl⟩ := Prod.mk.inj (Option.some.inj h); exact ⟨k, hc, hb⟩
            · split at h
              · exact step (c1 := { clearFlag c cur with fft := 0 }) rfl clr h
              · obtain ⟨rfl, rfl⟩ := Prod.mk.inj (Option.some.inj h); exact ⟨k, hc, hb⟩

/-- C19: whatever the ring contains, every node the cursor has passed is blank again - no start mark
and no written mark is left behind for a later receive. -/
theorem C19_blank (hash : List Byte → Nat) {c c' : Chan} {now len : Nat} {code : Int} {size : Option Nat} {bytes : List Byte}
    (hr : c.rcur < c.conf.n) (h : recv hash c now len = .done c' code size bytes) (i : Nat)
    (hi : i < (c'.rcur + c.conf.n - c.rcur) % c.conf.n) :
    (c'.heads ((c.rcur + i) % c.conf.n)).start = false ∧ (c'.heads ((c.rcur + i) % c.conf.n)).written = false := by
  have key : ∀ {c1 : Chan} {e : Nat}, (recvLoop now len (c.conf.n + 1) c c.rcur 0 0).ended = some (c1, e) →
      c'.heads = c1.heads → c'.rcur = e → Blank (c'.heads (next c.conf.n c.rcur i)) := by
    intro c1 e h1 h2 h3
    obtain ⟨k, hk, hb⟩ := recvLoop_blank now len c.rcur _ c c.rcur 0 0 0 (by simp [next, Nat.mod_eq_of_lt hr]) (by omega) h1
    rw [h2]
    refine hb i (Nat.lt_of_lt_of_le hi ?_)
    rw [h3, hk, next]
    have : (((c.rcur + k) % c.conf.n + c.conf.n - c.rcur) % c.conf.n) = k % c.conf.n := by
      rw [show (c.rcur + k) % c.conf.n + c.conf.n - c.rcur = (c.rcur + k) % c.conf.n + (c.conf.n - c.rcur) by omega,
        Nat.mod_add_mod, show c.rcur + k + (c.conf.n - c.rcur) = k + c.conf.n by omega, Nat.add_mod_right]
    rw [this]
    exact Nat.mod_le _ _
  unfold recv at h
  dsimp only at h
  split at h
  · cases h
  · cases h
  · rename_i c1 e ret sz hl
    injection h with h1
    subst h1
    exact @key c1 e (by rw [hl]; rfl) rfl rfl
  · rename_i c1 b e hl
    have hk := @key c1 e (by rw [hl]; rfl)
    split at h
    · split at h
      · injection h with h1; subst h1; exact hk rfl rfl
      · cases h
    · split at h
      · injection h with h1; subst h1; exact hk rfl rfl
      · cases h

/-- Leftovers of dead senders in three nodes: the first is given up after the timeout with the second, which has its number; the
third is left for later. -/
example : ∃ c' : Chan, recv (fun _ => 0) { initChan (userConf 8 0 0 4 4) with
    wcur := 5, fft := 10, heads := fun i => if i = 0 then ⟨true, false, 7⟩ else if i = 1 then ⟨false, false, 7⟩ else ⟨true, false, 8⟩ }
    100 50 = .done c' Err.NO_DATA none [] ∧ c'.rcur = 2 ∧ c'.heads 0 = ⟨false, false, 7⟩ ∧ (c'.heads 2).start = true := by
  refine ⟨_, rfl, rfl, rfl, rfl⟩

end Verif.Mem
