import Verif.Node.CommandLemmas
import Verif.Node.ForwardProps
import Verif.Node.RegistryProps

/-!
Properties C62 (custom commands and their answers) and C63 (messages from connections that are not registered).
-/
namespace Verif.Node.Command

open Verif.Node (Node remoteChannel Direct TowardsParent)
open Verif.Node.Registry (Key access keysOf Genuine access_iff C37_shared)
open Verif.Subnet (Ep Rng Hist Covers)

/-! ### C62 -/

/-- C62, for every execution of a network of nodes whose routing state changes in any way, with lost messages and failing
writes.  For every call of `send_custom_cmd`: the command is executed or refused at most once, and an accepted command
that is not under way was executed, refused or lost.  It is executed with the arguments and the id of the caller, by the node it was
given to, if this node accepts the keys.  It is refused for the version or the keys only.  At most one answer is handed to an application;
it is handed to the calling one with the sequence of the call, comes from the node the command was given to, and is what the
application there put into it, or the text of a refusal.
Missing: the node the command is given to need not have the target id (`C62_indirect_false`; it has it if it is a
neighbour, `C62_direct`), and an answer does not tell whether the command was executed (`C62_untold_false`). -/
theorem C62_history_partial {w : World} (hw : Wired w) {s : Net} (h : Exec w s) (t : Nat) :
    s.log.countP (Ev.isDone t) ≤ 1 ∧
    s.log.countP (Ev.isAnswer t) ≤ s.log.countP (Ev.isDone t) ∧
    (∀ i tid hp a q res, .called t i tid hp a q res ∈ s.log → 0 ≤ res → s.flight.countP (Pkt.isReq t) = 0 →
      (∃ j f a r, .executed t j f a r ∈ s.log) ∨ (∃ j c, .refused t j c ∈ s.log) ∨ .lost t false ∈ s.log) ∧
    (∀ j f a r, .executed t j f a r ∈ s.log → ∃ i tid q res, .called t i tid (w.conf j).id a q res ∈ s.log ∧ 0 ≤ res ∧
      f = (w.conf i).id ∧ (w.conf j).minVersion ≤ 2 ∧
      ∃ salt, access w.hash (w.conf j).tokens (keysOf w.hash (w.conf i).tokens salt) = true) ∧
    (∀ j c, .refused t j c ∈ s.log → ∃ i tid a q res, .called t i tid (w.conf j).id a q res ∈ s.log ∧ 0 ≤ res ∧
      (c = Err.UNSUPPORTED_VERSION ∧ 2 < (w.conf j).minVersion ∨
       c = Err.ACCESS_DENY ∧ ∃ salt, access w.hash (w.conf j).tokens (keysOf w.hash (w.conf i).tokens salt) = false)) ∧
    (∀ i f b q, .answered t i f b q ∈ s.log → ∃ tid a res, .called t i tid f a q res ∈ s.log ∧ 0 ≤ res ∧
      ∃ j, (w.conf j).id = f ∧
        (.executed t j (w.conf i).id a b ∈ s.log ∨
         .refused t j Err.UNSUPPORTED_VERSION ∈ s.log ∧ b = [textVersion] ∨
         .refused t j Err.ACCESS_DENY ∈ s.log ∧ b = [textToken])) := by
  have hi := inv_exec hw h
  have e1 := hi.calls t
  have e2 := hi.reqs t
  have e3 := hi.rsps t
  refine ⟨by omega, by omega, ?_, ?_, ?_, ?_⟩
  · intro i tid hp a q res hc hres hf
    have h1 : 0 < s.log.countP (Ev.isCall t) := by
      rw [List.countP_pos_iff]
      exact ⟨_, hc, by simp [Ev.isCall, hres]⟩
    by_cases hd : 0 < s.log.countP (Ev.isDone t)
    · rw [List.countP_pos_iff] at hd
      obtain ⟨e, he, hd⟩ := hd
      cases e with
      | executed t' j f a r => simp only [Ev.isDone, beq_iff_eq] at hd; subst hd; exact .inl ⟨j, f, a, r, he⟩
      | refused t' j c => simp only [Ev.isDone, beq_iff_eq] at hd; subst hd; exact .inr (.inl ⟨j, c, he⟩)
      | called => simp [Ev.isDone] at hd
      | answered => simp [Ev.isDone] at hd
      | lost => simp [Ev.isDone] at hd
    · have hl : 0 < s.log.countP (Ev.isLost t false) := by omega
      rw [List.countP_pos_iff] at hl
      obtain ⟨e, he, hl⟩ := hl
      cases e with
      | lost t' b =>
        simp only [Ev.isLost, Bool.and_eq_true, beq_iff_eq] at hl
        obtain ⟨rfl, rfl⟩ := hl
        exact .inr (.inr he)
      | called => simp [Ev.isLost] at hl
      | answered => simp [Ev.isLost] at hl
      | executed => simp [Ev.isLost] at hl
      | refused => simp [Ev.isLost] at hl
  · intro j f a r he
    obtain ⟨i, tid, hp, q, res, k1, k2, k3, k4, k5⟩ := hi.evs _ he
    subst k4
    exact ⟨i, tid, q, res, k1, k2, k3, k5⟩
  · intro j c he
    obtain ⟨i, tid, hp, a, q, res, k1, k2, k4, k5⟩ := hi.evs _ he
    subst k4
    exact ⟨i, tid, a, q, res, k1, k2, k5⟩
  · intro i f b q he
    obtain ⟨tid, hp, a, res, k1, k2, k3, k4⟩ := hi.evs _ he
    subst k3
    refine ⟨tid, a, res, k1, k2, ?_⟩
    rcases k4 with ⟨j, l1, l2⟩ | ⟨j, code, l1, l2, ⟨rfl, l3⟩ | ⟨rfl, l3⟩⟩
    · exact ⟨j, l1, .inl l2⟩
    · exact ⟨j, l1, .inr (.inl ⟨l2, l3⟩)⟩
    · exact ⟨j, l1, .inr (.inr ⟨l2, l3⟩)⟩

/-- A command for the node itself, for the parent, or for a registered endpoint is given to the node with this id. -/
theorem C62_direct (n : Node) (reg : List Ep) (hh : Hist n.routes reg) (hc : n.created = false) (tid : Nat) (ht : tid ≠ 0)
    (hd : tid = n.id ∨ (n.id ≠ 0 ∧ ∃ p, n.parent = some p ∧ p.id = tid) ∨ ∃ e ∈ reg, e.id = tid ∧ Covers e.subnets tid)
    (hok : 0 ≤ (remoteChannel n n.dataConn tid).1 ∨ tid = n.id) : hop n tid = tid := by
  unfold hop
  by_cases hs : tid = n.id
  · rw [if_pos hs]; exact hs.symm
  · rw [if_neg hs]
    have hok := hok.resolve_right hs
    rcases Verif.Node.remoteChannel_shape n n.dataConn tid with ⟨e, c, h, _⟩ | ⟨h, _⟩
    · rw [h]
      simp only
      have hop := ((Verif.Node.C34_next_hop_partial n reg hh hc n.dataConn tid ht hs).1 e c).1 h
      rcases hd with hd | ⟨h0, p, hp, hpid⟩ | ⟨e', he', hid, hcov⟩
      · exact absurd hd hs
      · have htp : TowardsParent n tid := ⟨h0, p, hp, hpid⟩
        cases hop.1 with
        | parent _ hp' => rw [hp] at hp'; cases hp'; exact hpid
        | direct hn _ => exact absurd htp hn
        | default hn _ _ _ => exact absurd htp hn
      · cases hop.1 with
        | parent htp hp' =>
          obtain ⟨_, p, hp, hpid⟩ := htp
          rw [hp] at hp'; cases hp'; exact hpid
        | direct _ hdir =>
          have a := (Verif.Node.directChild_iff n reg hh tid ht e).2 hdir
          have b := (Verif.Node.directChild_iff n reg hh tid ht e').2 ⟨he', by rw [hid]; exact ht, hcov⟩
          rw [a] at b; cases b; exact hid
        | default _ hn _ _ => exact absurd ⟨he', by rw [hid]; exact ht, hcov⟩ (hn e')
    · omega

/-- What a running node does with a command that came over a connection.  It refuses an old version and invalid keys
without executing; otherwise it executes once, and answers on the same connection, with the sequence and type of the command, exactly if
this is a stream in use or the command claims to be its own. -/
theorem C62_request (H : Nat → Nat → Nat × Nat) (cf : Conf) (n : Node) (push : Nat → Cmd → Int) (k : Link) (m : Cmd)
    (resp : List Arg) (salt : Nat → Nat) (hm : m.rsp = false) (hn : n.id = cf.id) (hc : n.created = false) :
    ∃ a : Cmd, a.rsp = true ∧ a.from_ = cf.id ∧ a.src = cf.id ∧ a.seq = m.seq ∧ a.type = m.type ∧
      (m.version < cf.minVersion → (onCmd H cf n push (some k) m resp salt).1 = [.push k.conn a] ∧
        a.ret = Err.UNSUPPORTED_VERSION) ∧
      (cf.minVersion ≤ m.version → access H cf.tokens m.keys = false →
        (onCmd H cf n push (some k) m resp salt).1 = [.push k.conn a] ∧ a.ret = Err.ACCESS_DENY) ∧
      (cf.minVersion ≤ m.version → access H cf.tokens m.keys = true →
        (onCmd H cf n push (some k) m resp salt).1 =
          (if (k.running = true ∧ k.fd = true) ∨ m.from_ = cf.id then [.exec m.from_ m.args, .push k.conn a]
           else [.exec m.from_ m.args]) ∧ a.ret = 0 ∧ a.args = resp) := by
  have hf := onReq_fst H cf n push (some k) m resp salt hn hc (by simp)
  have hcmd : onCmd H cf n push (some k) m resp salt = onReq H cf n push (some k) m resp salt := by
    unfold onCmd; rw [hm]; rfl
  rw [hcmd]
  by_cases hv : m.version < cf.minVersion
  · rw [if_pos hv] at hf
    refine ⟨rspMsg H cf [textVersion] m.type Err.UNSUPPORTED_VERSION m.seq salt, rfl, rfl, rfl, rfl, rfl, fun _ => ⟨hf, rfl⟩, ?_, ?_⟩
    · intro h; omega
    · intro h; omega
  rw [if_neg hv] at hf
  by_cases ha : access H cf.tokens m.keys = false
  · rw [if_pos ha] at hf
    refine ⟨rspMsg H cf [textToken] m.type Err.ACCESS_DENY m.seq salt, rfl, rfl, rfl, rfl, rfl, fun h => absurd h hv, fun _ _ => ⟨hf, rfl⟩, ?_⟩
    intro _ h; rw [ha] at h; cases h
  rw [if_neg ha] at hf
  refine ⟨rspMsg H cf resp m.type 0 m.seq salt, rfl, rfl, rfl, rfl, rfl, fun h => absurd h hv, fun _ h => absurd h ha, fun _ _ => ⟨?_, rfl, rfl⟩⟩
  rw [hf]
  have : (answers cf (some k) m = true) ↔ ((k.running = true ∧ k.fd = true) ∨ m.from_ = cf.id) := by
    unfold answers
    rw [Bool.or_eq_true, Bool.and_eq_true, decide_eq_true_eq, eq_comm (a := cf.id)]
  by_cases hx : answers cf (some k) m = true
  · rw [if_pos hx, if_pos (this.1 hx)]; rfl
  · rw [if_neg hx, if_neg (fun h => hx (this.2 h))]

/-- A command over a stream between nodes that share a token, or have none both: when the message and its answer arrive, the
application of the other node was handed the arguments and the caller's id, and the calling application was handed the response, the id of
the other node and the sequence of the call. -/
theorem C62_round_trip (w : World) (s : Net) (i j c d : Nat) (n n' n'' : Node) (tid : Nat) (args resp : List Arg) (seq : Nat)
    (salt salt' salt'' : Nat → Nat) (b b' : Option Nat) (resp' : List Arg) (r r' r'' : Int) (run' : Bool) (e : Ep)
    (h1 : w.peer i c = some (j, d)) (h2 : w.peer j d = some (i, c)) (h3 : w.stream j d = true)
    (hr : 0 ≤ r) (hr' : 0 ≤ r') (hn : n.created = false) (ht : tid ≠ n.id) (hlen : sumLen (w.conf i) args ≤ (w.conf i).msgSize)
    (hch : remoteChannel n n.dataConn tid = (Err.SUCCESS, some e, some c)) (hv : (w.conf j).minVersion ≤ 2)
    (htok : (∃ t, t ∈ (w.conf j).tokens ∧ t ∈ (w.conf i).tokens) ∨ ((w.conf j).tokens = [] ∧ (w.conf i).tokens = []))
    (hn'i : n'.id = (w.conf j).id) (hn'c : n'.created = false) :
    ∃ res, 0 ≤ res ∧
    run w s [.send i n tid args seq salt r, .recv s.flight.length n' true b resp salt' r',
      .recv s.flight.length n'' run' b' resp' salt'' r''] =
      { flight := s.flight, next := s.next + 1,
        log := s.log ++ [.called s.next i tid e.id args seq res, .executed s.next j (w.conf i).id args resp,
          .answered s.next i (w.conf j).id resp seq] } := by
  have s1 : step w s (.send i n tid args seq salt r) =
      { flight := s.flight ++ [{ tag := s.next, dst := j, conn := some d, msg := cmdMsg w.hash (w.conf i) args seq salt }],
        next := s.next + 1, log := s.log ++ [.called s.next i tid e.id args seq r] } := by
    have hl : ¬ sumLen (w.conf i) args > (w.conf i).msgSize := by omega
    have hr2 : ¬ r < 0 := by omega
    have hnn : ¬ (n.created = true) := by simp [hn]
    have hz : ¬ Err.SUCCESS < 0 := by decide
    simp only [step, sendCmd, sendTo, hop, if_neg hnn, if_neg hl, if_neg ht, hch, if_neg hz, emit, h1, if_neg hr2]
  have hnth : ∀ (p : Pkt), (s.flight ++ [p])[s.flight.length]? = some p := by
    intro p; simp
  have her : ∀ (p : Pkt), (s.flight ++ [p]).eraseIdx s.flight.length = s.flight := by
    intro p; rw [List.eraseIdx_append_of_length_le (Nat.le_refl _)]; simp
  refine ⟨r, hr, ?_⟩
  simp only [run, List.foldl_cons, List.foldl_nil]
  rw [s1]
  have s2 : step w (Net.mk (s.flight ++ [Pkt.mk s.next j (some d) (cmdMsg w.hash (w.conf i) args seq salt)]) (s.next + 1)
        (s.log ++ [Ev.called s.next i tid e.id args seq r])) (.recv s.flight.length n' true b resp salt' r') =
      Net.mk (s.flight ++ [Pkt.mk s.next i (some c) (rspMsg w.hash (w.conf j) resp 0 0 seq salt')]) (s.next + 1)
        (s.log ++ [.called s.next i tid e.id args seq r, .executed s.next j (w.conf i).id args resp]) := by
    simp only [step, hnth, her, Option.map_some, h3]
    have hcmd : onCmd w.hash (w.conf j) n' (fun _ _ => r') (some { conn := d, running := true, fd := true, binding := b })
        (cmdMsg w.hash (w.conf i) args seq salt) resp salt' =
        onReq w.hash (w.conf j) n' (fun _ _ => r') (some { conn := d, running := true, fd := true, binding := b })
        (cmdMsg w.hash (w.conf i) args seq salt) resp salt' := rfl
    rw [hcmd]
    have hf := onReq_fst w.hash (w.conf j) n' (fun _ _ => r') (some { conn := d, running := true, fd := true, binding := b })
        (cmdMsg w.hash (w.conf i) args seq salt) resp salt' hn'i hn'c (by simp)
    have hvv : ¬ (cmdMsg w.hash (w.conf i) args seq salt).version < (w.conf j).minVersion := by
      show ¬ (2 : Int) < _; omega
    rw [if_neg hvv] at hf
    have hacc : access w.hash (w.conf j).tokens (cmdMsg w.hash (w.conf i) args seq salt).keys = true :=
      C37_shared w.hash _ _ salt htok
    rw [if_neg (by rw [hacc]; simp), if_pos (by simp [answers])] at hf
    generalize onReq w.hash (w.conf j) n' (fun _ _ => r') (some { conn := d, running := true, fd := true, binding := b })
        (cmdMsg w.hash (w.conf i) args seq salt) resp salt' = x at hf ⊢
    obtain ⟨es, code⟩ := x
    simp only at hf ⊢
    subst hf
    have hr2 : ¬ r' < 0 := by omega
    simp only [out, emit, h2, if_neg hr2, record, List.filterMap_cons, List.filterMap_nil, rspMsg, Bool.true_and, ne_eq,
      not_true_eq_false, decide_false, Bool.false_eq_true, if_false, List.append_assoc, List.singleton_append, cmdMsg]
  rw [s2]
  simp only [step, hnth, her, Option.map_some, onCmd, rspMsg, if_true, onRsp, reduceCtorEq, false_and, if_false, emit, record,
    List.filterMap_cons, List.filterMap_nil, List.append_nil, List.append_assoc, List.cons_append, List.nil_append]

/-! A network of three nodes: 0 (id 1) has a stream to its parent 1 (id 2), which has one to 2 (id 3). -/

def exWorld : World :=
  { conf := fun i => { id := i + 1 }
    hash := fun t x => (t + x, t)
    peer := fun i c =>
      if i = 0 ∧ c = 0 then some (1, 0)
      else if i = 1 ∧ c = 0 then some (0, 0)
      else if i = 1 ∧ c = 1 then some (2, 0)
      else if i = 2 ∧ c = 0 then some (1, 1)
      else none
    stream := fun _ _ => true }

/-- Node 0, a child of the node with id 2. -/
def exChild : Node :=
  { id := 1, parent := some ⟨7, 2, []⟩, dataConn := fun e => if e = 7 then some 0 else none, ctrlConn := fun _ => none, push := fun _ _ => 0 }

/-- Any routing state of node 1. -/
def exTop : Node := { id := 2, dataConn := fun _ => none, ctrlConn := fun _ => none, push := fun _ _ => 0 }

theorem exWired : Wired exWorld := by
  intro i c j d h
  simp only [exWorld] at h ⊢
  left
  split at h
  · simp only [Option.some.injEq, Prod.mk.injEq] at h; obtain ⟨rfl, rfl⟩ := h; rename_i hh; obtain ⟨rfl, rfl⟩ := hh; rfl
  split at h
  · simp only [Option.some.injEq, Prod.mk.injEq] at h; obtain ⟨rfl, rfl⟩ := h; rename_i hh; obtain ⟨rfl, rfl⟩ := hh; rfl
  split at h
  · simp only [Option.some.injEq, Prod.mk.injEq] at h; obtain ⟨rfl, rfl⟩ := h; rename_i hh; obtain ⟨rfl, rfl⟩ := hh; rfl
  split at h
  · simp only [Option.some.injEq, Prod.mk.injEq] at h; obtain ⟨rfl, rfl⟩ := h; rename_i hh; obtain ⟨rfl, rfl⟩ := hh; rfl
  · cases h

theorem exSane (tid : Nat) (args : List Arg) (s : Net) (ht : tid = 2 ∨ tid = 3) :
    Sane exWorld s (.send 0 exChild tid args 5 (fun _ => 0) 0) := by
  refine ⟨rfl, ?_⟩
  intro e c h
  have h0 : remoteChannel exChild exChild.dataConn tid = (Err.SUCCESS, some ⟨7, 2, []⟩, some 0) := by
    rcases ht with rfl | rfl <;> rfl
  rw [h0] at h
  simp only [Prod.mk.injEq, Option.some.injEq, true_and] at h
  obtain ⟨rfl, rfl⟩ := h
  exact ⟨1, 0, rfl, rfl⟩

/-- The messages of a command from node 0 to `tid`. -/
def exOps (tid : Nat) (args resp : List Arg) : List Op :=
  [.send 0 exChild tid args 5 (fun _ => 0) 0, .recv 0 exTop true none resp (fun _ => 0) 0, .recv 0 exChild true none [] (fun _ => 0) 0]

theorem exExec (tid : Nat) (args resp : List Arg) (ht : tid = 2 ∨ tid = 3) (hl : args = [[9]]) :
    Exec exWorld (run exWorld {} (exOps tid args resp)) ∧
    (run exWorld {} (exOps tid args resp)).log =
      [.called 0 0 tid 2 args 5 0, .executed 0 1 1 args resp, .answered 0 0 2 resp 5] := by
  have rt : ∀ tid, tid = 2 ∨ tid = 3 → remoteChannel exChild exChild.dataConn tid = (Err.SUCCESS, some ⟨7, 2, []⟩, some 0) := by
    intro t h; rcases h with rfl | rfl <;> rfl
  subst hl
  constructor
  · simp only [run, exOps, List.foldl_cons, List.foldl_nil]
    refine .step (.step (.step .init (exSane _ _ _ ht)) ?_) ?_
    · intro p hp
      have : p = { tag := 0, dst := 1, conn := some 0, msg := cmdMsg exWorld.hash (exWorld.conf 0) [[9]] 5 (fun _ => 0) } := by
        rcases ht with rfl | rfl <;> exact (Option.some.inj hp).symm
      subst this; exact ⟨rfl, rfl⟩
    · intro p hp
      have : p = { tag := 0, dst := 0, conn := some 0, msg := rspMsg exWorld.hash (exWorld.conf 1) resp 0 0 5 (fun _ => 0) } := by
        rcases ht with rfl | rfl <;> exact (Option.some.inj hp).symm
      subst this; exact ⟨rfl, rfl⟩
  · rcases ht with rfl | rfl <;> rfl

/-- The history theorem speaks about a non-empty history. -/
example : ∃ s, Exec exWorld s ∧ s.log = [.called 0 0 2 2 [[9]] 5 0, .executed 0 1 1 [[9]] [[8]], .answered 0 0 2 [[8]] 5] :=
  ⟨_, (exExec 2 [[9]] [[8]] (.inl rfl) rfl).1, (exExec 2 [[9]] [[8]] (.inl rfl) rfl).2⟩

/-- C62 is false for a target that is not a neighbour: node 0 sends a command to the node with id 3, which exists and is a neighbour of the
parent; the call succeeds, the parent executes the command and answers it, and node 3 never sees it. -/
theorem C62_indirect_false : ∃ w s, Wired w ∧ Exec w s ∧ (∃ i, (w.conf i).id = 3) ∧
    .called 0 0 3 2 [[9]] 5 0 ∈ s.log ∧ s.flight = [] ∧ (∃ f a r, .executed 0 1 f a r ∈ s.log) ∧ (w.conf 1).id ≠ 3 ∧
    .answered 0 0 2 [[8]] 5 ∈ s.log ∧ ∀ i f a r, (w.conf i).id = 3 → .executed 0 i f a r ∉ s.log := by
  obtain ⟨h1, h2⟩ := exExec 3 [[9]] [[8]] (.inr rfl) rfl
  have h3 : (run exWorld {} (exOps 3 [[9]] [[8]])).flight = [] := rfl
  refine ⟨exWorld, _, exWired, h1, ⟨2, rfl⟩, ?_, h3, ?_, by decide, ?_, ?_⟩
  · rw [h2]; simp
  · exact ⟨1, [[9]], [[8]], by rw [h2]; simp⟩
  · rw [h2]; simp
  · intro i f a r hi hx
    rw [h2] at hx
    simp only [List.mem_cons, reduceCtorEq, Ev.executed.injEq, false_or, List.not_mem_nil, or_false] at hx
    obtain ⟨_, rfl, _⟩ := hx
    simp [exWorld] at hi

/-- Node 1 asks for a token that node 0 does not have. -/
def exGuarded : World := { exWorld with conf := fun i => { id := i + 1, tokens := if i = 1 then [77] else [] } }

/-- C62 is false for what the caller learns: the application of node 0 sees the same in an execution where the command was
executed and in one where it was refused. -/
theorem C62_untold_false : ∃ w s w' s', Wired w ∧ Exec w s ∧ Wired w' ∧ Exec w' s' ∧
    (∃ f a r, .executed 0 1 f a r ∈ s.log) ∧ (∀ t j f a r, .executed t j f a r ∉ s'.log) ∧
    .called 0 0 2 2 [[9]] 5 0 ∈ s.log ∧ .called 0 0 2 2 [[9]] 5 0 ∈ s'.log ∧
    .answered 0 0 2 [textToken] 5 ∈ s.log ∧ .answered 0 0 2 [textToken] 5 ∈ s'.log := by
  obtain ⟨h1, h2⟩ := exExec 2 [[9]] [textToken] (.inl rfl) rfl
  have h3 : (run exGuarded {} (exOps 2 [[9]] [])).log =
      [.called 0 0 2 2 [[9]] 5 0, .refused 0 1 Err.ACCESS_DENY, .answered 0 0 2 [textToken] 5] := rfl
  have h4 : Exec exGuarded (run exGuarded {} (exOps 2 [[9]] [])) := by
    simp only [run, exOps, List.foldl_cons, List.foldl_nil]
    have hs : Sane exGuarded {} (.send 0 exChild 2 [[9]] 5 (fun _ => 0) 0) := exSane 2 [[9]] {} (.inl rfl)
    refine .step (.step (.step .init hs) ?_) ?_
    · intro p hp
      have : p = { tag := 0, dst := 1, conn := some 0, msg := cmdMsg exGuarded.hash (exGuarded.conf 0) [[9]] 5 (fun _ => 0) } := by
        exact (Option.some.inj hp).symm
      subst this; exact ⟨rfl, rfl⟩
    · intro p hp
      have : p = { tag := 0, dst := 0, conn := some 0, msg := rspMsg exGuarded.hash (exGuarded.conf 1) [textToken] 0 Err.ACCESS_DENY 5 (fun _ => 0) } := by
        exact (Option.some.inj hp).symm
      subst this; exact ⟨rfl, rfl⟩
  refine ⟨exWorld, _, exGuarded, _, exWired, h1, exWired, h4, ⟨1, [[9]], [textToken], by rw [h2]; simp⟩, ?_, by rw [h2]; simp, by rw [h3]; simp,
    by rw [h2]; simp, by rw [h3]; simp⟩
  intro t j f a r hx
  rw [h3] at hx; simp at hx

/-- The sender named in a command is not checked: a registered peer with id 5 has a command executed in the name of any other id. -/
theorem C62_sender_false (f : Nat) : ∃ (cf : Conf) (n : Node) (k : Link) (m : Cmd), k.binding = some 5 ∧ k.connected = true ∧
    .exec f [[1]] ∈ (onCmd (fun _ _ => (0, 0)) cf n (fun _ _ => 0) (some k) m [] (fun _ => 0)).1 := by
  refine ⟨{ id := 1 }, exTop, { conn := 0, binding := some 5 }, { src := 5, from_ := f, args := [[1]] }, rfl, rfl, ?_⟩
  simp [onCmd, onReq, access, answers, sendRsp]

/-! ### C63 -/

/-- C63: on a connection that is not registered, a data message of a supported version, a sync of the node tree and a request to connect have
no effect, and a registration is handled by the registration code.
Missing: commands, answers to commands, ping and pong (`C63_command_false`, `C63_answer_false`, `C63_ping_false`), data messages of an
old version (`C38_version_false`). -/
theorem C63_gate_partial (H : Nat → Nat → Nat × Nat) (cf : Conf) (n : Node) (push : Nat → Cmd → Int) (k : Link) (version : Int)
    (b : Body) (resp : List Arg) (salt : Nat → Nat) (hk : k.connected = false) (hv : n.minVersion ≤ version) :
    (∀ m, b = .data m → dispatch H cf n push k version b resp salt = []) ∧
    (∀ a, b = .connSync a → dispatch H cf n push k version b resp salt = []) ∧
    (∀ r, b = .nodeSync r → dispatch H cf n push k version b resp salt = []) ∧
    (∀ r, b = .reg r → dispatch H cf n push k version b resp salt = [.register]) := by
  refine ⟨?_, ?_, ?_, ?_⟩
  · rintro m rfl
    have hv' : ¬ version < n.minVersion := by omega
    simp only [dispatch, hk, Verif.Node.handle]
    split
    · simp [Verif.Node.transferRsp]
    · simp [Verif.Node.transferReq, hv']
  · rintro a rfl
    simp only [dispatch, hk]
    split
    · rfl
    · simp
  · rintro r rfl; rfl
  · rintro r rfl; rfl

/-- On a node with tokens, a command is executed, whatever the connection, only with a genuine key; and a refused command has one
effect, the refusal. -/
theorem C63_command_key (H : Nat → Nat → Nat × Nat) (cf : Conf) (n : Node) (push : Nat → Cmd → Int) (k : Link) (version : Int)
    (m : Cmd) (resp : List Arg) (salt : Nat → Nat) (hr : m.rsp = false) (ht : cf.tokens ≠ []) (hn : n.id = cf.id)
    (hc : n.created = false) (hg : ¬ Genuine H cf.tokens m.keys) :
    ∃ a : Cmd, a.rsp = true ∧ a.ret < 0 ∧ dispatch H cf n push k version (.cmd m) resp salt = [.cmd (.push k.conn a)] := by
  have ha : access H cf.tokens m.keys = false := by rw [← Bool.not_eq_true, access_iff ht]; exact hg
  obtain ⟨a, h1, _, _, _, _, h2, h3, _⟩ := C62_request H cf n push k { m with version := version } resp salt hr hn hc
  by_cases hv : version < cf.minVersion
  · obtain ⟨h4, h5⟩ := h2 hv
    refine ⟨a, h1, by rw [h5]; decide, ?_⟩
    simp only [dispatch]; rw [h4]; rfl
  · obtain ⟨h4, h5⟩ := h3 (by show cf.minVersion ≤ version; omega) ha
    refine ⟨a, h1, by rw [h5]; decide, ?_⟩
    simp only [dispatch]; rw [h4]; rfl

/-- Whatever the node, its tokens and the connection, an answer to a command that was never sent is handed to the application, with any
sender and any content. -/
theorem C63_answer_false (H : Nat → Nat → Nat × Nat) (cf : Conf) (n : Node) (push : Nat → Cmd → Int) (k : Link) (version : Int)
    (f : Nat) (args : List Arg) (seq : Nat) (resp : List Arg) (salt : Nat → Nat) :
    dispatch H cf n push k version (.cmd { rsp := true, from_ := f, args := args, seq := seq }) resp salt = [.cmd (.answer f args seq)] := rfl

/-- On a node without tokens a command from a connection that is not registered is executed. -/
theorem C63_command_false (H : Nat → Nat → Nat × Nat) (cf : Conf) (n : Node) (push : Nat → Cmd → Int) (k : Link) (f : Nat)
    (args resp : List Arg) (salt : Nat → Nat) (ht : cf.tokens = []) (hn : n.id = cf.id) (hc : n.created = false) :
    .cmd (.exec f args) ∈ dispatch H cf n push k cf.minVersion (.cmd { from_ := f, args := args }) resp salt := by
  obtain ⟨a, _, _, _, _, _, _, _, h⟩ := C62_request H cf n push k { from_ := f, args := args, version := cf.minVersion } resp salt rfl hn hc
  obtain ⟨h1, _⟩ := h (Int.le_refl _) (by simp [access, ht])
  simp only [dispatch]
  rw [List.mem_map]
  refine ⟨.exec f args, ?_, rfl⟩
  have h2 : (onCmd H cf n push (some k) { from_ := f, args := args, version := cf.minVersion } resp salt).1 = _ := h1
  rw [h2]
  split <;> simp

/-- A ping and a pong from a connection that is not registered call the application, of whatever version they are; a ping is not
answered then. -/
theorem C63_ping_false (H : Nat → Nat → Nat × Nat) (cf : Conf) (n : Node) (push : Nat → Cmd → Int) (k : Link) (version t : Int)
    (resp : List Arg) (salt : Nat → Nat) (hb : k.binding = none) :
    dispatch H cf n push k version (.ping t) resp salt = [.onPing none] ∧
    dispatch H cf n push k version (.pong t) resp salt = [.onPong none 0] := by
  simp [dispatch, hb]

/-- A registered peer is answered with the time it sent. -/
theorem C63_ping_answer (H : Nat → Nat → Nat × Nat) (cf : Conf) (n : Node) (push : Nat → Cmd → Int) (k : Link) (version t : Int)
    (b : Nat) (resp : List Arg) (salt : Nat → Nat) (hb : k.binding = some b) (hv : cf.minVersion ≤ version) :
    dispatch H cf n push k version (.ping t) resp salt = [.onPing (some b), .pong k.conn 0 t] := by
  have : ¬ version < cf.minVersion := by omega
  simp [dispatch, hb, this]

/-- A connection that has not been registered, a node with a token, and a command with a key of another token. -/
example : ∃ a : Cmd, a.ret = Err.ACCESS_DENY ∧
    (dispatch (fun t x => (t + x, t)) { id := 2, tokens := [77] } exTop (fun _ _ => 0) { conn := 4, connected := false } 2
      (.cmd { from_ := 9, args := [[1]], keys := [⟨3, 79, 76⟩] }) [] (fun _ => 0)) = [.cmd (.push 4 a)] :=
  ⟨_, rfl, rfl⟩

end Verif.Node.Command
