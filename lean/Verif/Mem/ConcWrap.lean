import Verif.Mem.ConcProps

/-!
The 32-bit operation counter wraps.

The comment in `src/channel_mem.cpp:706-708` says that operation numbers do not repeat in a channel with fewer than 2^32
nodes.  Numbers are also taken by calls that are refused because the channel is full (551, before the test in 563), so
they repeat in a channel of any size.
-/
namespace Verif.Mem.Conc

set_option maxRecDepth 10000

/-! ### The list of finished calls is history -/

/-- The calls in `l` returned before. -/
def St.after (l : List (Nat × Msg × Int)) (s : St) : St := { s with sent := l ++ s.sent }

theorem after_returns (l : List (Nat × Msg × Int)) (s : St) (t : Nat) (m : Msg) (c : Int) :
    (s.after l).returns t m c = (s.returns t m c).after l := by
  simp only [St.after, St.returns, List.append_assoc]

theorem after_call (l : List (Nat × Msg × Int)) (s : St) (t : Nat) (m : Msg) :
    callSend (s.after l) t m = (callSend s t m).after l := by
  have hr := after_returns l s t m
  unfold callSend
  show (match s.conf.retry with
    | 0 => (s.after l).returns t m Err.SUCCESS
    | left + 1 => if m.length = 0 then (s.after l).returns t m Err.SUCCESS
      else if calcNodes m.length ≥ sub64 s.conf.n s.conf.prot then (s.after l).returns t m Err.BUFF_LIMIT
      else (s.after l).pc t (.fetch m left)) = _
  rw [hr, hr]
  cases s.conf.retry with
  | zero => rfl
  | succ left =>
    simp only
    split
    · rfl
    · split <;> rfl

theorem after_send {hash : List Byte → Nat} (l : List (Nat × Msg × Int)) (s : St) (t : Nat) (weak : Bool) :
    stepSend hash (s.after l) t weak = (stepSend hash s t weak).map (St.after l) := by
  have hr := after_returns l s t
  unfold stepSend
  have e1 : (s.after l).thr t = s.thr t := rfl
  rw [e1]
  cases s.thr t with
  | idle => rfl
  | stuck => rfl
  | fetch m left =>
    simp only [Option.map_some, Option.some.injEq]
    show (if (s.oseq + 1) % 2 ^ 32 = 0 then _ else _) = _
    split <;> rfl
  | loadW m left seq => rfl
  | loadR m left seq w wT =>
    simp only
    show (if calcNodes m.length > avail s.conf s.rcur w then _ else _) = _
    rw [hr]
    split <;> rfl
  | cas m left seq w wT k =>
    simp only
    show (if s.wcur ≠ w ∨ weak = true then _ else _) = _
    split
    · rfl
    · show (match prog hash s.conf.n w (next s.conf.n w k) seq m with | none => _ | some acts => _) = _
      cases prog hash s.conf.n w (next s.conf.n w k) seq m <;> rfl
  | work m left seq w id todo reg =>
    cases todo with
    | nil => rfl
    | cons a rest =>
      simp only
      split <;> rfl
  | verify m left seq w id =>
    simp only
    show (if seq = (s.heads w).seq then _ else _) = _
    split
    · rw [hr]; rfl
    · cases left with
      | zero => simp only [hr]; rfl
      | succ left => rfl

section
attribute [local irreducible] bsize bcheck calcNodes next loopHead clrHead copyHead byteAddr rangeCount absDiff orElse sub64 clr

theorem after_recv {hash : List Byte → Nat} (l : List (Nat × Msg × Int)) (s : St) (now : Nat) :
    stepRecv hash (s.after l) now = (stepRecv hash s now).map (St.after l) := by
  unfold stepRecv
  have e1 : (s.after l).rpc = s.rpc := rfl
  rw [e1]
  cases s.rpc with
  | idle => rfl
  | loadR len => rfl
  | loadW len ori => rfl
  | flag p =>
    show (if (s.heads p.rb).written = true then _ else _) = Option.map _ (if (s.heads p.rb).written = true then _ else _)
    split
    · rfl
    · split <;> rfl
  | flag2 p =>
    show (if ¬ (s.heads p.rb).start = true then _ else _) = Option.map _ (if ¬ (s.heads p.rb).start = true then _ else _)
    split
    · rfl
    · split <;> rfl
  | skip p => rfl
  | seqT p n => rfl
  | flagT p n => rfl
  | fft p n =>
    show (if s.fft = 0 then _ else if absDiff n s.fft > s.conf.timeout then _ else _) =
      Option.map _ (if s.fft = 0 then _ else if absDiff n s.fft > s.conf.timeout then _ else _)
    split
    · rfl
    · split <;> rfl
  | seqTO p => rfl
  | skipTO p => rfl
  | size p =>
    show (if bsize s.data p.rb = 0 ∨ bsize s.data p.rb ≥ sub64 (s.conf.n * nodeSize) s.conf.protMem then _
        else if bsize s.data p.rb > p.len then _ else _) =
      Option.map _ (if bsize s.data p.rb = 0 ∨ bsize s.data p.rb ≥ sub64 (s.conf.n * nodeSize) s.conf.protMem then _
        else if bsize s.data p.rb > p.len then _ else _)
    split
    · rfl
    · split <;> rfl
  | skipBad p => rfl
  | seq0 p => rfl
  | clrSeq p cs re => rfl
  | clrFlag p cs re => rfl
  | clrSet p cs re => rfl
  | num p re =>
    show (if calcNodes (bsize s.data p.rb) ≠ rangeCount s.conf.n p.rb re then _ else _) =
      Option.map _ (if calcNodes (bsize s.data p.rb) ≠ rangeCount s.conf.n p.rb re then _ else _)
    split <;> rfl
  | copy p re sz acc => rfl
  | check p re acc => rfl
  | fin ori re ret sz bytes => rfl

end

theorem after_step {hash : List Byte → Nat} (l : List (Nat × Msg × Int)) (s : St) (e : Ev) :
    step hash (s.after l) e = (step hash s e).map (St.after l) := by
  cases e with
  | call t m =>
    simp only [step]
    show (if s.thr t = .idle ∧ s.crashed t = false then _ else _) = _
    split
    · rw [after_call]; rfl
    · rfl
  | send t weak =>
    simp only [step]
    show (if s.crashed t = false then _ else _) = _
    split
    · exact after_send l s t weak
    · rfl
  | crash t => rfl
  | recv len =>
    simp only [step]
    show (if s.rpc = .idle then _ else _) = _
    split <;> rfl
  | rstep now => exact after_recv l s now

theorem after_run {hash : List Byte → Nat} (l : List (Nat × Msg × Int)) : ∀ (es : List Ev) (s : St),
    run hash (s.after l) es = (run hash s es).map (St.after l) := by
  intro es
  induction es with
  | nil => intro s; rfl
  | cons e es ih =>
    intro s
    simp only [run, after_step]
    cases step hash s e with
    | none => rfl
    | some s1 => exact ih s1

theorem after_along {hash : List Byte → Nat} {P : St → Ev → Prop} (l : List (Nat × Msg × Int))
    (hP : ∀ s e, P s e → P (s.after l) e) : ∀ {es : List Ev} {s : St}, Along P hash s es → Along P hash (s.after l) es := by
  intro es
  induction es with
  | nil => intro s _; trivial
  | cons e es ih =>
    intro s h
    refine ⟨hP s e h.1, fun s1 hs => ?_⟩
    rw [after_step] at hs
    cases h2 : step hash s e with
    | none => rw [h2] at hs; cases hs
    | some s2 =>
      rw [h2] at hs
      simp only [Option.map_some, Option.some.injEq] at hs
      subst hs
      exact ih (h.2 s2 h2)

/-! ### Calls that are refused -/

/-- One of the three nodes is in use, and sender 0 is not in a call. -/
structure Busy (s : St) : Prop where
  conf : s.conf = conf3
  r : s.rcur = 1
  w : s.wcur = 2
  thr : s.thr 0 = .idle
  live : s.crashed 0 = false

/-- A call for a message of two nodes, which takes a number and is refused. -/
def refuse : List Ev := .call 0 big :: sends 0 3

/-- `k` such calls. -/
def refuses (k : Nat) : List Ev := (List.replicate k refuse).flatten

theorem setThr_setThr (f : Nat → SPC) (t : Nat) (a b : SPC) : setThr (setThr f t a) t b = setThr f t b := by
  funext u
  simp only [setThr]
  split <;> rfl

theorem pc_at (s : St) (t : Nat) (p : SPC) : (s.pc t p).thr t = p := by simp only [St.pc, setThr, if_true]

theorem step_send {hash : List Byte → Nat} {s : St} {t : Nat} {weak : Bool} (h : s.crashed t = false) :
    step hash s (.send t weak) = stepSend hash s t weak := if_pos h

theorem send_fetch {hash : List Byte → Nat} {s : St} {t left : Nat} {m : Msg} {weak : Bool} (h : s.thr t = .fetch m left) :
    stepSend hash s t weak = some (if (s.oseq + 1) % 2 ^ 32 = 0 then { s with oseq := (s.oseq + 1) % 2 ^ 32 }
      else { s with oseq := (s.oseq + 1) % 2 ^ 32 }.pc t (.loadW m left ((s.oseq + 1) % 2 ^ 32))) := by
  unfold stepSend
  rw [h]

theorem send_loadW {hash : List Byte → Nat} {s : St} {t left v : Nat} {m : Msg} {weak : Bool} (h : s.thr t = .loadW m left v) :
    stepSend hash s t weak = some (s.pc t (.loadR m left v s.wcur s.tot)) := by
  unfold stepSend
  rw [h]

theorem send_loadR {hash : List Byte → Nat} {s : St} {t left v w wT : Nat} {m : Msg} {weak : Bool}
    (h : s.thr t = .loadR m left v w wT) :
    stepSend hash s t weak = if calcNodes m.length > avail s.conf s.rcur w then some (s.returns t m Err.BUFF_LIMIT)
      else some (s.pc t (.cas m left v w wT (calcNodes m.length))) := by
  unfold stepSend
  rw [h]

section
variable {s : St} (h : Busy s)
include h

theorem refuse_call : step hsum s (.call 0 big) = some (s.pc 0 (.fetch big 1)) := by
  have e : step hsum s (.call 0 big) = some (callSend s 0 big) := if_pos ⟨h.thr, h.live⟩
  rw [e]
  unfold callSend
  have e1 : s.conf.retry = 2 := by rw [h.conf]; rfl
  have e2 : ¬ calcNodes big.length ≥ sub64 s.conf.n s.conf.prot := by rw [h.conf]; decide
  rw [e1]
  simp only [e2, if_false]
  rw [if_neg (by decide)]

theorem refuse_fetch {v : Nat} (hv : (s.oseq + 1) % 2 ^ 32 = v) (h0 : v ≠ 0) :
    step hsum (s.pc 0 (.fetch big 1)) (.send 0 false) = some ({ s with oseq := v }.pc 0 (.loadW big 1 v)) := by
  rw [step_send (s := s.pc 0 (.fetch big 1)) h.live, send_fetch (pc_at _ _ _)]
  have e : ((s.pc 0 (.fetch big 1)).oseq + 1) % 2 ^ 32 = v := hv
  rw [e, if_neg h0]
  simp only [St.pc, setThr_setThr]

theorem refuse_again (hv : (s.oseq + 1) % 2 ^ 32 = 0) :
    step hsum (s.pc 0 (.fetch big 1)) (.send 0 false) = some ({ s with oseq := 0 }.pc 0 (.fetch big 1)) := by
  rw [step_send (s := s.pc 0 (.fetch big 1)) h.live, send_fetch (pc_at _ _ _)]
  have e : ((s.pc 0 (.fetch big 1)).oseq + 1) % 2 ^ 32 = 0 := hv
  rw [e, if_pos rfl]
  rfl

theorem refuse_loadW (v : Nat) : step hsum (s.pc 0 (.loadW big 1 v)) (.send 0 false) = some (s.pc 0 (.loadR big 1 v 2 s.tot)) := by
  rw [step_send (s := s.pc 0 (.loadW big 1 v)) h.live, send_loadW (pc_at _ _ _)]
  have e : (s.pc 0 (.loadW big 1 v)).wcur = 2 := h.w
  rw [e]
  simp only [St.pc, setThr_setThr]

theorem refuse_loadR (v : Nat) : step hsum (s.pc 0 (.loadR big 1 v 2 s.tot)) (.send 0 false) =
    some { s with sent := s.sent ++ [(0, big, Err.BUFF_LIMIT)] } := by
  rw [step_send (s := s.pc 0 (.loadR big 1 v 2 s.tot)) h.live, send_loadR (pc_at _ _ _)]
  have e : calcNodes big.length > avail (s.pc 0 (.loadR big 1 v 2 s.tot)).conf (s.pc 0 (.loadR big 1 v 2 s.tot)).rcur 2 := by
    show calcNodes big.length > avail s.conf s.rcur 2
    rw [h.conf, h.r]; decide
  rw [if_pos e]
  have e2 : setThr s.thr 0 .idle = s.thr := by
    funext u
    simp only [setThr]
    split
    · rename_i e; rw [e, h.thr]
    · rfl
  simp only [St.returns, St.pc, setThr_setThr, e2]

end

theorem Busy.seq {s : St} (h : Busy s) (v : Nat) : Busy { s with oseq := v } := ⟨h.conf, h.r, h.w, h.thr, h.live⟩

theorem quiet_call (s : St) : LegalPrompt s (.call 0 big) :=
  ⟨⟨by show big.length + 512 ≤ 2 ^ 64; decide, trivial, trivial, trivial, trivial⟩, trivial⟩

theorem quiet_send {s : St} {p : SPC} (hp : (∃ m l, p = .fetch m l) ∨ (∃ m l v, p = .loadW m l v) ∨ ∃ m l v w k, p = .loadR m l v w k) :
    LegalPrompt (s.pc 0 p) (.send 0 false) := by
  have hat : (s.pc 0 p).thr 0 = p := pc_at _ _ _
  refine ⟨⟨trivial, ?_, ?_, trivial, trivial⟩, ?_⟩
  · simp only [NumberOK, hat]
    rcases hp with ⟨_, _, rfl⟩ | ⟨_, _, _, rfl⟩ | ⟨_, _, _, _, _, rfl⟩ <;> trivial
  · simp only [NoLap, hat]
    rcases hp with ⟨_, _, rfl⟩ | ⟨_, _, _, rfl⟩ | ⟨_, _, _, _, _, rfl⟩ <;> trivial
  · simp only [Prompt, hat]
    rcases hp with ⟨_, _, rfl⟩ | ⟨_, _, _, rfl⟩ | ⟨_, _, _, _, _, rfl⟩ <;> trivial

/-- The sequence of steps is possible and satisfies the assumptions. -/
def Does (s : St) (es : List Ev) (s1 : St) : Prop := run hsum s es = some s1 ∧ Along LegalPrompt hsum s es

theorem Does.nil (s : St) : Does s [] s := ⟨rfl, trivial⟩

theorem Does.cons {s s1 s2 : St} {e : Ev} {es : List Ev} (h : step hsum s e = some s1) (hq : LegalPrompt s e) (hd : Does s1 es s2) :
    Does s (e :: es) s2 := by
  refine ⟨by simp only [run, h]; exact hd.1, hq, fun s3 h3 => ?_⟩
  rw [h] at h3
  simp only [Option.some.injEq] at h3
  subst h3
  exact hd.2

theorem Does.append {s s1 s2 : St} {a b : List Ev} (h1 : Does s a s1) (h2 : Does s1 b s2) : Does s (a ++ b) s2 := by
  refine ⟨by rw [run_append, h1.1]; exact h2.1, along_append.2 ⟨h1.2, fun s3 h3 => ?_⟩⟩
  rw [h1.1] at h3
  simp only [Option.some.injEq] at h3
  subst h3
  exact h2.2

theorem does_tail {s : St} (h : Busy s) (v : Nat) (l : List (Nat × Msg × Int)) (hl : l = s.sent ++ [(0, big, Err.BUFF_LIMIT)]) :
    Does ({ s with oseq := v }.pc 0 (.loadW big 1 v)) (sends 0 2) { s with oseq := v, sent := l } := by
  subst hl
  refine Does.cons (refuse_loadW (h.seq v) v) (quiet_send (Or.inr (Or.inl ⟨_, _, _, rfl⟩))) ?_
  refine Does.cons (refuse_loadR (h.seq v) v) (quiet_send (Or.inr (Or.inr ⟨_, _, _, _, _, rfl⟩))) ?_
  exact Does.nil _

theorem does_refuse {s : St} (h : Busy s) (hv : s.oseq + 1 < 2 ^ 32) :
    Does s refuse { s with oseq := s.oseq + 1, sent := s.sent ++ [(0, big, Err.BUFF_LIMIT)] } := by
  refine Does.cons (refuse_call h) (quiet_call s) ?_
  refine Does.cons (refuse_fetch h (Nat.mod_eq_of_lt hv) (Nat.succ_ne_zero _)) (quiet_send (Or.inl ⟨_, _, rfl⟩)) ?_
  exact does_tail h _ _ rfl

/-- The counter wraps: 0 is left out. -/
theorem does_wrap {s : St} (h : Busy s) (hv : s.oseq + 1 = 2 ^ 32) :
    Does s (.call 0 big :: sends 0 4) { s with oseq := 1, sent := s.sent ++ [(0, big, Err.BUFF_LIMIT)] } := by
  refine Does.cons (refuse_call h) (quiet_call s) ?_
  refine Does.cons (refuse_again h (by rw [hv, Nat.mod_self])) (quiet_send (Or.inl ⟨_, _, rfl⟩)) ?_
  refine Does.cons (refuse_fetch (h.seq 0) (v := 1) rfl (by decide)) (quiet_send (Or.inl ⟨_, _, rfl⟩)) ?_
  exact does_tail h _ _ rfl

theorem does_refuses : ∀ (k : Nat) {s : St}, Busy s → s.oseq + k < 2 ^ 32 →
    Does s (refuses k) { s with oseq := s.oseq + k, sent := s.sent ++ List.replicate k (0, big, Err.BUFF_LIMIT) } := by
  intro k
  induction k with
  | zero =>
    intro s _ _
    have : ({ s with oseq := s.oseq + 0, sent := s.sent ++ List.replicate 0 (0, big, Err.BUFF_LIMIT) } : St) = s := by simp
    rw [this]
    exact Does.nil s
  | succ k ih =>
    intro s h hk
    have h1 := does_refuse h (by omega)
    have h2 := ih (s := { s with oseq := s.oseq + 1, sent := s.sent ++ [(0, big, Err.BUFF_LIMIT)] }) ⟨h.conf, h.r, h.w, h.thr, h.live⟩
      (by show s.oseq + 1 + k < 2 ^ 32; omega)
    have h3 := h1.append h2
    have e1 : refuse ++ refuses k = refuses (k + 1) := by
      simp only [refuses, List.replicate_succ, List.flatten_cons]
    have e2 : s.oseq + 1 + k = s.oseq + (k + 1) := by omega
    have e3 : (s.sent ++ [(0, big, Err.BUFF_LIMIT)]) ++ List.replicate k (0, big, Err.BUFF_LIMIT) =
        s.sent ++ List.replicate (k + 1) (0, big, Err.BUFF_LIMIT) := by
      rw [List.append_assoc]; rfl
    rw [e1] at h3
    simp only [e2, e3] at h3
    exact h3

/-! ### The witness -/

/-- Two messages are sent; one is received. -/
def wrap1 : List Ev := .call 0 [1] :: sends 0 15 ++ recvs 10 1 13 ++ (.call 0 [2] :: sends 0 15)

/-- The second is received; sender 0 sends a third with number 1; sender 1 reserves the next node; the receiver is called;
sender 1 finishes; the receiver is called again. -/
def wrap2 : List Ev := recvs 10 1 13 ++ (.call 0 [3] :: sends 0 16) ++ (.call 1 [4] :: sends 1 4) ++ recvs 10 1 16 ++ sends 1 11 ++
  recvs 10 1 13

/-- The assumptions without `NumberOK`. -/
def Others (s : St) (e : Ev) : Prop := SizeOK s e ∧ NoLap s e ∧ StopLate s e ∧ GiveUp s e ∧ Prompt s e

instance (s : St) (e : Ev) : Decidable (Others s e) := by unfold Others; infer_instance

theorem others_after (l : List (Nat × Msg × Int)) (s : St) (e : Ev) (h : Others s e) : Others (s.after l) e := by
  cases e <;> exact h

theorem noStop_refuses (k : Nat) (t : Nat) : Ev.crash t ∉ refuses k := by
  intro h
  simp only [refuses, List.mem_flatten, List.mem_replicate] at h
  obtain ⟨l, ⟨_, rfl⟩, h⟩ := h
  exact noStop (es := refuse) (by decide) t h

/-- The state from which `wrap2` runs, without history. -/
def atWrap (v : Nat) (s : St) : St := { s with oseq := v, sent := [] }

def wrapEnd (s : St) : Prop := s.sent = [(0, [3], Err.SUCCESS), (1, [4], Err.SUCCESS)] ∧ s.got = [[1], [2], [4]] ∧
  s.codes = [Err.SUCCESS, Err.SUCCESS, Err.NODE_BAD_BLOCK_NODE_NUM, Err.SUCCESS] ∧ s.rcur = s.wcur ∧ s.rpc = .idle ∧
  s.thr 0 = .idle ∧ s.thr 1 = .idle

instance (s : St) : Decidable (wrapEnd s) := by unfold wrapEnd; infer_instance

/-- C15 is false without `NumberOK`: calls that are refused because the channel is full take operation numbers, so numbers
repeat after 2^32 - 1 calls in a channel of three nodes.  A message then carries the number that the next node still has from
an older message; another sender has just reserved that node.  `mem_recv` takes the node for a part of the message, the node
count is wrong, and the message, which was reported as sent, is lost. -/
theorem C15_wrap_false : ∃ (conf : Conf) (es : List Ev) (s : St), ConfOK conf ∧
    Along (fun s e => SizeOK s e ∧ NoLap s e ∧ StopLate s e ∧ GiveUp s e ∧ Prompt s e) hsum (St.init conf) es ∧
    (∀ t, Ev.crash t ∉ es) ∧ run hsum (St.init conf) es = some s ∧
    (0, [3], Err.SUCCESS) ∈ s.sent ∧ s.got = [[1], [2], [4]] ∧
    s.codes = [Err.SUCCESS, Err.SUCCESS, Err.NODE_BAD_BLOCK_NODE_NUM, Err.SUCCESS] ∧ s.rcur = s.wcur ∧ s.rpc = .idle ∧
    s.thr 0 = .idle ∧ s.thr 1 = .idle := by
  obtain ⟨s0, h0, ⟨b1, b2, b3, b4, b5, b6⟩, hx, ha⟩ := result_of (o := run hsum (St.init conf3) wrap1)
    (P := fun s => (s.conf = conf3 ∧ s.rcur = 1 ∧ s.wcur = 2 ∧ s.thr 0 = .idle ∧ s.crashed 0 = false ∧ s.oseq = 2) ∧
      (run hsum (atWrap (2 ^ 32 - 1) s) wrap2).any (fun s => decide (wrapEnd s)) = true ∧
      alongB Others hsum (atWrap (2 ^ 32 - 1) s) wrap2 = true) (by decide +kernel)
  have hb : Busy s0 := ⟨b1, b2, b3, b4, b5⟩
  obtain ⟨d1, d2⟩ := does_refuses (2 ^ 32 - 3) hb (by rw [b6]; decide)
  obtain ⟨s2, h2, h3⟩ := result_of hx
  have e1 : ({ s0 with oseq := s0.oseq + (2 ^ 32 - 3), sent := s0.sent ++ List.replicate (2 ^ 32 - 3) (0, big, Err.BUFF_LIMIT) } : St) =
      (atWrap (2 ^ 32 - 1) s0).after (s0.sent ++ List.replicate (2 ^ 32 - 3) (0, big, Err.BUFF_LIMIT)) := by
    rw [b6]
    simp only [St.after, atWrap, List.append_nil]
  rw [e1] at d1
  generalize s0.sent ++ List.replicate (2 ^ 32 - 3) (0, big, Err.BUFF_LIMIT) = l at d1
  generalize 2 ^ 32 - 3 = k at d1 d2
  refine ⟨conf3, wrap1 ++ (refuses k ++ wrap2), s2.after l, conf3_ok, ?_, ?_, ?_, ?_, h3.2⟩
  · refine along_append.2 ⟨along_of (P := Others) (by decide +kernel), fun s1 hs1 => ?_⟩
    rw [h0] at hs1
    simp only [Option.some.injEq] at hs1
    subst hs1
    refine along_append.2 ⟨along_mono (fun s e h => ⟨h.1.1, h.1.2.2.1, h.1.2.2.2.1, h.1.2.2.2.2, h.2⟩) d2, fun s1 hs1 => ?_⟩
    rw [d1] at hs1
    simp only [Option.some.injEq] at hs1
    subst hs1
    exact after_along l (others_after l) (along_of ha)
  · intro t ht
    rcases List.mem_append.1 ht with ht | ht
    · exact noStop (es := wrap1) (by decide) t ht
    · rcases List.mem_append.1 ht with ht | ht
      · exact noStop_refuses k t ht
      · exact noStop (es := wrap2) (by decide) t ht
  · rw [run_append, h0, Option.bind_some, run_append, d1, Option.bind_some, after_run, h2]
    rfl
  · show _ ∈ l ++ s2.sent
    rw [h3.1]
    simp

/-! ### A run beyond the wrap that satisfies the assumptions -/

/-- Senders other than 0 and 1 are not in a call. -/
def Two (s : St) : Prop := ∀ u, 2 ≤ u → s.thr u = .idle

/-- The step is not one of a sender other than 0 and 1. -/
def Ev.two : Ev → Bool
  | .call t _ => t < 2
  | .send t _ => t < 2
  | _ => true

theorem two_set {f : Nat → SPC} {t : Nat} {p : SPC} (h : ∀ u, 2 ≤ u → f u = .idle) (ht : t < 2) : ∀ u, 2 ≤ u → setThr f t p u = .idle := by
  intro u hu
  simp only [setThr]
  rw [if_neg (by omega)]
  exact h u hu

theorem two_step {hash : List Byte → Nat} {s s1 : St} {e : Ev} (h : Two s) (he : e.two = true) (hs : step hash s e = some s1) : Two s1 := by
  cases e with
  | call t m =>
    have ht : t < 2 := of_decide_eq_true he
    simp only [step] at hs
    split at hs
    · simp only [Option.some.injEq] at hs
      subst hs
      unfold callSend
      split
      · exact two_set h ht
      · split
        · exact two_set h ht
        · split <;> exact two_set h ht
    · cases hs
  | send t weak =>
    have ht : t < 2 := of_decide_eq_true he
    simp only [step] at hs
    split at hs
    · unfold stepSend at hs
      split at hs
      all_goals first | (cases hs; done) | skip
      · simp only [Option.some.injEq] at hs
        subst hs
        split
        · exact h
        · exact two_set h ht
      · simp only [Option.some.injEq] at hs
        subst hs
        exact two_set h ht
      · simp only at hs
        split at hs <;> (simp only [Option.some.injEq] at hs; subst hs; exact two_set h ht)
      · split at hs
        · simp only [Option.some.injEq] at hs
          subst hs
          exact two_set h ht
        · simp only at hs
          split at hs <;> (simp only [Option.some.injEq] at hs; subst hs; exact two_set h ht)
      · split at hs
        · cases hs
        · simp only at hs
          split at hs <;> (simp only [Option.some.injEq] at hs; subst hs; exact two_set h ht)
      · split at hs
        · simp only [Option.some.injEq] at hs
          subst hs
          exact two_set h ht
        · split at hs <;> (simp only [Option.some.injEq] at hs; subst hs; exact two_set h ht)
    · cases hs
  | crash t =>
    simp only [step, Option.some.injEq] at hs
    subst hs
    exact h
  | recv len =>
    simp only [step] at hs
    split at hs
    · simp only [Option.some.injEq] at hs
      subst hs
      exact h
    · cases hs
  | rstep now =>
    intro u hu
    rw [(stepRecv_seq hs).2.1]
    exact h u hu

/-- `NumberOK` for two senders. -/
def Number2 (s : St) : Ev → Prop
  | .send t _ =>
    match s.thr t with
    | .cas _ _ seq _ _ _ => (∀ i, i < s.conf.n → (s.heads i).seq ≠ seq) ∧ (s.thr 0).number ≠ some seq ∧ (s.thr 1).number ≠ some seq
    | _ => True
  | _ => True

instance (s : St) (e : Ev) : Decidable (Number2 s e) := by
  cases e <;> simp only [Number2] <;> try infer_instance
  split <;> infer_instance

theorem number_of_two {s : St} {e : Ev} (h : Two s) (hn : Number2 s e) : NumberOK s e := by
  cases e with
  | send t weak =>
    simp only [Number2, NumberOK] at hn ⊢
    split
    · rename_i m left seq w wT k ht
      rw [ht] at hn
      simp only at hn
      refine fun _ => ⟨hn.1, fun u _ => ?_⟩
      match u with
      | 0 => exact hn.2.1
      | 1 => exact hn.2.2
      | u + 2 => rw [h (u + 2) (by omega)]; simp [SPC.number]
    · trivial
  | _ => trivial

theorem legal_of_two {hash : List Byte → Nat} : ∀ {es : List Ev} {s : St}, Two s → es.all Ev.two = true →
    Along (fun s e => Others s e ∧ Number2 s e) hash s es → Along LegalPrompt hash s es := by
  intro es
  induction es with
  | nil => intro s _ _ _; trivial
  | cons e es ih =>
    intro s h he hl
    simp only [List.all_cons, Bool.and_eq_true] at he
    obtain ⟨⟨⟨a, b, c, d, f⟩, n⟩, hl⟩ := hl
    exact ⟨⟨⟨a, number_of_two h n, b, c, d⟩, f⟩, fun s1 hs => ih (two_step h he.1 hs) he.2 (hl s1 hs)⟩

theorem two_run {hash : List Byte → Nat} : ∀ {es : List Ev} {s s1 : St}, Two s → es.all Ev.two = true → run hash s es = some s1 → Two s1 := by
  intro es
  induction es with
  | nil => intro s s1 h _ hs; simp only [run, Option.some.injEq] at hs; subst hs; exact h
  | cons e es ih =>
    intro s s1 h he hs
    simp only [List.all_cons, Bool.and_eq_true] at he
    simp only [run] at hs
    split at hs
    · cases hs
    · rename_i s2 h2
      exact ih (two_step h he.1 h2) he.2 hs

theorem number2_after (l : List (Nat × Msg × Int)) (s : St) (e : Ev) (h : Number2 s e) : Number2 (s.after l) e := by
  cases e <;> exact h

/-- The second message is received, both senders send, both messages are received. -/
def beyond : List Ev := recvs 10 1 13 ++ (.call 0 [3] :: sends 0 15) ++ (.call 1 [4] :: sends 1 15) ++ recvs 10 1 14 ++ recvs 10 1 13

def beyondEnd (s : St) : Prop := s.got = [[1], [2], [3], [4]] ∧ s.codes = [0, 0, 0, 0] ∧ s.oseq = 12

instance (s : St) : Decidable (beyondEnd s) := by unfold beyondEnd; infer_instance

/-- The counter wraps, and the assumptions hold in all steps: the theorems apply. -/
example : ∃ (es : List Ev) (s : St), Along LegalPrompt hsum (St.init conf3) es ∧ run hsum (St.init conf3) es = some s ∧
    2 ^ 32 < (es.countP fun e => match e with | .call _ _ => true | _ => false) ∧ s.got = [[1], [2], [3], [4]] ∧ s.codes = [0, 0, 0, 0] ∧
    s.oseq = 12 := by
  obtain ⟨s0, h0, ⟨b1, b2, b3, b4, b5, b6⟩, hx, ha⟩ := result_of (o := run hsum (St.init conf3) wrap1)
    (P := fun s => (s.conf = conf3 ∧ s.rcur = 1 ∧ s.wcur = 2 ∧ s.thr 0 = .idle ∧ s.crashed 0 = false ∧ s.oseq = 2) ∧
      (run hsum (atWrap 10 s) beyond).any (fun s => decide (beyondEnd s)) = true ∧
      alongB (fun s e => Others s e ∧ Number2 s e) hsum (atWrap 10 s) beyond = true) (by decide +kernel)
  have hb : Busy s0 := ⟨b1, b2, b3, b4, b5⟩
  have ht0 : Two s0 := two_run (es := wrap1) (fun _ _ => rfl) (by decide) h0
  obtain ⟨k, hk⟩ : ∃ k, k + 3 = 2 ^ 32 := ⟨2 ^ 32 - 3, by decide⟩
  have hd1 := does_refuses k hb (by rw [b6]; omega)
  have hd2 := does_wrap (s := { s0 with oseq := s0.oseq + k, sent := s0.sent ++ List.replicate k (0, big, Err.BUFF_LIMIT) })
    ⟨b1, b2, b3, b4, b5⟩ (by show s0.oseq + k + 1 = 2 ^ 32; rw [b6]; omega)
  generalize List.replicate k (0, big, Err.BUFF_LIMIT) = l1 at hd1 hd2
  have hd3 := does_refuses 9 (s := { s0 with oseq := 1, sent := s0.sent ++ l1 ++ [(0, big, Err.BUFF_LIMIT)] })
    ⟨b1, b2, b3, b4, b5⟩ (by show 1 + 9 < 2 ^ 32; decide)
  generalize List.replicate 9 (0, big, Err.BUFF_LIMIT) = l2 at hd3
  obtain ⟨s2, h2, h3⟩ := result_of hx
  have hd4 : Does ((atWrap 10 s0).after (s0.sent ++ l1 ++ [(0, big, Err.BUFF_LIMIT)] ++ l2)) beyond
      (s2.after (s0.sent ++ l1 ++ [(0, big, Err.BUFF_LIMIT)] ++ l2)) := by
    refine ⟨by rw [after_run, h2, Option.map_some], ?_⟩
    refine legal_of_two (fun u hu => ht0 u hu) (by decide) (after_along _ ?_ (along_of ha))
    exact fun s e h => ⟨others_after _ s e h.1, number2_after _ s e h.2⟩
  have e2 : ((atWrap 10 s0).after (s0.sent ++ l1 ++ [(0, big, Err.BUFF_LIMIT)] ++ l2)) =
      { s0 with oseq := 1 + 9, sent := s0.sent ++ l1 ++ [(0, big, Err.BUFF_LIMIT)] ++ l2 } := by
    simp only [St.after, atWrap, List.append_nil]
  rw [e2] at hd4
  have hd0 : Does (St.init conf3) wrap1 s0 := ⟨h0, legal_of_two (fun _ _ => rfl) (by decide) (along_of (by decide +kernel))⟩
  have hd := hd0.append ((hd1.append hd2).append (hd3.append hd4))
  refine ⟨wrap1 ++ ((refuses k ++ (.call 0 big :: sends 0 4)) ++ (refuses 9 ++ beyond)), _, hd.2, hd.1, ?_, h3⟩
  have hc : ∀ k, (refuses k).countP (fun e => match e with | .call _ _ => true | _ => false) = k := by
    intro k
    induction k with
    | zero => rfl
    | succ k ih =>
      have : refuses (k + 1) = refuse ++ refuses k := by simp only [refuses, List.replicate_succ, List.flatten_cons]
      rw [this, List.countP_append, ih]
      have : refuse.countP (fun e => match e with | .call _ _ => true | _ => false) = 1 := by decide
      omega
  have hw : wrap1.countP (fun e => match e with | .call _ _ => true | _ => false) = 2 := by decide
  rw [List.countP_append, List.countP_append, List.countP_append, List.countP_append, hc, hc, hw]
  omega

end Verif.Mem.Conc
