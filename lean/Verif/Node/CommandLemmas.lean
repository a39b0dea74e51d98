import Verif.Node.Command
import Verif.Node.ForwardLemmas

/-! Lemmas about custom commands and the network of nodes. -/
namespace Verif.Node.Command

open Verif.Node (Node remoteChannel)
open Verif.Node.Registry (Key access keysOf)

/-- Where an answer is put. -/
def out (conn : Option Link) (x : Cmd) : Eff :=
  match conn with
  | some k => .push k.conn x
  | none => .toSelf x

theorem sendRsp_fst (H : Nat → Nat → Nat × Nat) (cf : Conf) (n : Node) (push : Nat → Cmd → Int) (conn : Option Link)
    (data : List Arg) (type ret : Int) (seq f : Nat) (salt : Nat → Nat) (hn : n.id = cf.id) (hc : n.created = false)
    (hf : conn = none → f = cf.id) :
    (sendRsp H cf n push conn data type ret seq f salt).1 = [out conn (rspMsg H cf data type ret seq salt)] := by
  unfold sendRsp out
  cases conn with
  | some k => rfl
  | none =>
    simp only [sendTo, hc, hf rfl, hn, Bool.false_eq_true, if_false, if_true]

/-- The three outcomes of a command. -/
theorem onReq_fst (H : Nat → Nat → Nat × Nat) (cf : Conf) (n : Node) (push : Nat → Cmd → Int) (conn : Option Link) (m : Cmd)
    (resp : List Arg) (salt : Nat → Nat) (hn : n.id = cf.id) (hc : n.created = false) (hf : conn = none → m.from_ = cf.id) :
    (onReq H cf n push conn m resp salt).1 =
      if m.version < cf.minVersion then [out conn (rspMsg H cf [textVersion] m.type Err.UNSUPPORTED_VERSION m.seq salt)]
      else if access H cf.tokens m.keys = false then [out conn (rspMsg H cf [textToken] m.type Err.ACCESS_DENY m.seq salt)]
      else if answers cf conn m then [.exec m.from_ m.args, out conn (rspMsg H cf resp m.type 0 m.seq salt)]
      else [.exec m.from_ m.args] := by
  have h2 : ¬ (conn = none ∧ m.from_ ≠ cf.id) := fun h => h.2 (hf h.1)
  unfold onReq
  rw [if_neg h2]
  split
  · exact sendRsp_fst _ _ _ _ _ _ _ _ _ _ _ hn hc hf
  split
  · exact sendRsp_fst _ _ _ _ _ _ _ _ _ _ _ hn hc hf
  split
  · have := sendRsp_fst H cf n push conn resp m.type 0 m.seq m.from_ salt hn hc hf
    generalize sendRsp H cf n push conn resp m.type 0 m.seq m.from_ salt = x at this ⊢
    obtain ⟨a, b⟩ := x
    simp only at this ⊢
    rw [this]
  · rfl

theorem getElem?_split {α : Type} {l : List α} {k : Nat} {p : α} (h : l[k]? = some p) :
    ∃ a b, l = a ++ p :: b ∧ l.eraseIdx k = a ++ b := by
  induction l generalizing k with
  | nil => simp at h
  | cons x t ih =>
    cases k with
    | zero =>
      simp only [List.getElem?_cons_zero, Option.some.injEq] at h
      subst h
      exact ⟨[], t, rfl, rfl⟩
    | succ k =>
      simp only [List.getElem?_cons_succ] at h
      obtain ⟨a, b, h1, h2⟩ := ih h
      exact ⟨x :: a, b, by rw [h1]; rfl, by rw [List.eraseIdx_cons_succ, h2]; rfl⟩

/-! ### The invariant of a network -/

/-- Requests with the tag under way. -/
def Pkt.isReq (t : Nat) (p : Pkt) : Bool := p.tag == t && !p.msg.rsp
/-- Answers with the tag under way. -/
def Pkt.isRsp (t : Nat) (p : Pkt) : Bool := p.tag == t && p.msg.rsp

/-- The event is the call `t`. -/
def Ev.isCall (t : Nat) : Ev → Bool
  | .called t' _ _ _ _ _ res => t' == t && decide (0 ≤ res)
  | _ => false

/-- The node decided about the command: executed or refused. -/
def Ev.isDone (t : Nat) : Ev → Bool
  | .executed t' _ _ _ _ => t' == t
  | .refused t' _ _ => t' == t
  | _ => false

/-- The event is an answer to `t`. -/
def Ev.isAnswer (t : Nat) : Ev → Bool
  | .answered t' _ _ _ _ => t' == t
  | _ => false

/-- The request or the answer of `t` was lost. -/
def Ev.isLost (t : Nat) (rsp : Bool) : Ev → Bool
  | .lost t' r => t' == t && r == rsp
  | _ => false

/-- The call an event belongs to. -/
def Ev.tag : Ev → Nat
  | .called t _ _ _ _ _ _ => t
  | .executed t _ _ _ _ => t
  | .refused t _ _ => t
  | .answered t _ _ _ _ => t
  | .lost t _ => t

/-- Assumptions about the connections: what is written to a connection arrives at the other end of it, and what is written at
that end, if this is possible, arrives here. -/
def Wired (w : World) : Prop := ∀ i c j d, w.peer i c = some (j, d) → w.peer j d = some (i, c) ∨ w.peer j d = none

/-- Assumptions about an event: the routing state is the one of a running node with the configured id, and the connection
chosen for an endpoint leads to a node with the id of the endpoint. -/
def Sane (w : World) (s : Net) : Op → Prop
  | .send i n tid _ _ _ _ =>
    n.id = (w.conf i).id ∧ ∀ e c, remoteChannel n n.dataConn tid = (Err.SUCCESS, some e, some c) →
      ∃ j d, w.peer i c = some (j, d) ∧ (w.conf j).id = e.id
  | .recv k n _ _ _ _ _ => ∀ p, s.flight[k]? = some p → n.id = (w.conf p.dst).id ∧ n.created = false
  | .lose _ => True

/-- Executions. -/
inductive Exec (w : World) : Net → Prop
  | init : Exec w {}
  | step {s op} : Exec w s → Sane w s op → Exec w (step w s op)

/-- What is known about a message under way. -/
def Known (w : World) (log : List Ev) (p : Pkt) : Prop :=
  ∃ i tid h args seq res, .called p.tag i tid h args seq res ∈ log ∧ 0 ≤ res ∧ p.msg.seq = seq ∧
    (p.msg.rsp = false → p.msg.from_ = (w.conf i).id ∧ p.msg.args = args ∧ p.msg.version = 2 ∧ (w.conf p.dst).id = h ∧
      (∃ salt, p.msg.keys = keysOf w.hash (w.conf i).tokens salt) ∧
      match p.conn with
      | none => p.dst = i
      | some d => ∃ c, w.peer i c = some (p.dst, d)) ∧
    (p.msg.rsp = true → p.dst = i ∧ p.msg.from_ = h ∧ (p.conn = none → h = (w.conf i).id) ∧
      ((∃ j, (w.conf j).id = h ∧ .executed p.tag j (w.conf i).id args p.msg.args ∈ log ∧ p.msg.ret = 0) ∨
       (∃ j, (w.conf j).id = h ∧ .refused p.tag j p.msg.ret ∈ log ∧
          (p.msg.ret = Err.UNSUPPORTED_VERSION ∧ p.msg.args = [textVersion] ∨
           p.msg.ret = Err.ACCESS_DENY ∧ p.msg.args = [textToken]))))

/-- What is known about an event. -/
def EvOk (w : World) (log : List Ev) : Ev → Prop
  | .executed t j f a _ =>
    ∃ i tid h seq res, .called t i tid h a seq res ∈ log ∧ 0 ≤ res ∧ f = (w.conf i).id ∧ (w.conf j).id = h ∧
      (w.conf j).minVersion ≤ 2 ∧ ∃ salt, access w.hash (w.conf j).tokens (keysOf w.hash (w.conf i).tokens salt) = true
  | .refused t j c =>
    ∃ i tid h a seq res, .called t i tid h a seq res ∈ log ∧ 0 ≤ res ∧ (w.conf j).id = h ∧
      (c = Err.UNSUPPORTED_VERSION ∧ 2 < (w.conf j).minVersion ∨
       c = Err.ACCESS_DENY ∧ ∃ salt, access w.hash (w.conf j).tokens (keysOf w.hash (w.conf i).tokens salt) = false)
  | .answered t i f a q =>
    ∃ tid h args res, .called t i tid h args q res ∈ log ∧ 0 ≤ res ∧ f = h ∧
      ((∃ j, (w.conf j).id = h ∧ .executed t j (w.conf i).id args a ∈ log) ∨
       (∃ j code, (w.conf j).id = h ∧ .refused t j code ∈ log ∧
          (code = Err.UNSUPPORTED_VERSION ∧ a = [textVersion] ∨ code = Err.ACCESS_DENY ∧ a = [textToken])))
  | _ => True

/-- Invariant of the network. -/
structure Inv (w : World) (s : Net) : Prop where
  flightTag : ∀ p ∈ s.flight, p.tag < s.next
  logTag : ∀ e ∈ s.log, e.tag < s.next
  calls : ∀ t, s.log.countP (Ev.isCall t) ≤ 1
  reqs : ∀ t, s.flight.countP (Pkt.isReq t) + s.log.countP (Ev.isDone t) + s.log.countP (Ev.isLost t false) = s.log.countP (Ev.isCall t)
  rsps : ∀ t, s.flight.countP (Pkt.isRsp t) + s.log.countP (Ev.isAnswer t) + s.log.countP (Ev.isLost t true) ≤ s.log.countP (Ev.isDone t)
  known : ∀ p ∈ s.flight, Known w s.log p
  evs : ∀ e ∈ s.log, EvOk w s.log e

theorem EvOk.mono {w : World} {l l' : List Ev} {e : Ev} (h : EvOk w l e) (hl : ∀ e ∈ l, e ∈ l') : EvOk w l' e := by
  cases e with
  | executed t j f a r => obtain ⟨i, tid, x, q, res, k1, k2⟩ := h; exact ⟨i, tid, x, q, res, hl _ k1, k2⟩
  | refused t j c => obtain ⟨i, tid, x, a, q, res, k1, k2⟩ := h; exact ⟨i, tid, x, a, q, res, hl _ k1, k2⟩
  | answered t i f a q =>
    obtain ⟨tid, x, args, res, k1, k2, k3, k4⟩ := h
    refine ⟨tid, x, args, res, hl _ k1, k2, k3, ?_⟩
    rcases k4 with ⟨j, l1, l2⟩ | ⟨j, code, l1, l2, l3⟩
    · exact .inl ⟨j, l1, hl _ l2⟩
    · exact .inr ⟨j, code, l1, hl _ l2, l3⟩
  | called => trivial
  | lost => trivial

theorem evs_add {w : World} {l l' : List Ev} (h : ∀ e ∈ l, EvOk w l e) (h' : ∀ e ∈ l', EvOk w (l ++ l') e) :
    ∀ e ∈ l ++ l', EvOk w (l ++ l') e := by
  intro e he
  rw [List.mem_append] at he
  rcases he with he | he
  · exact (h e he).mono fun x hx => List.mem_append_left _ hx
  · exact h' e he

theorem Known.mono {w : World} {l l' : List Ev} {p : Pkt} (h : Known w l p) (hl : ∀ e ∈ l, e ∈ l') : Known w l' p := by
  obtain ⟨i, tid, hp, args, seq, res, h1, h2, h3, h4, h5⟩ := h
  refine ⟨i, tid, hp, args, seq, res, hl _ h1, h2, h3, h4, fun hr => ?_⟩
  obtain ⟨a, b, c, d⟩ := h5 hr
  refine ⟨a, b, c, ?_⟩
  rcases d with ⟨j, e, f, g⟩ | ⟨j, e, f, g⟩
  · exact .inl ⟨j, e, hl _ f, g⟩
  · exact .inr ⟨j, e, hl _ f, g⟩

theorem countP_zero {α : Type} {p : α → Bool} {l : List α} (h : ∀ x ∈ l, p x = false) : l.countP p = 0 := by
  rw [List.countP_eq_zero]
  intro x hx; rw [h x hx]; decide

/-- What a call of `send_custom_cmd` puts under way. -/
theorem send_shape (w : World) (s : Net) {i : Nat} {n : Node} {tid : Nat} {args : List Arg} {seq : Nat} {salt : Nat → Nat} {r : Int}
    (hs : Sane w s (.send i n tid args seq salt r)) :
    (step w s (.send i n tid args seq salt r) =
       { s with next := s.next + 1, log := s.log ++ [.called s.next i tid (hop n tid) args seq
          (sendCmd w.hash (w.conf i) n (fun _ _ => r) tid args seq salt).2] } ∧
      (sendCmd w.hash (w.conf i) n (fun _ _ => r) tid args seq salt).2 < 0) ∨
    (∃ p : Pkt, step w s (.send i n tid args seq salt r) =
       { flight := s.flight ++ [p], next := s.next + 1, log := s.log ++ [.called s.next i tid (hop n tid) args seq
          (sendCmd w.hash (w.conf i) n (fun _ _ => r) tid args seq salt).2] } ∧
      0 ≤ (sendCmd w.hash (w.conf i) n (fun _ _ => r) tid args seq salt).2 ∧
      p.tag = s.next ∧ p.msg = cmdMsg w.hash (w.conf i) args seq salt ∧ (w.conf p.dst).id = hop n tid ∧
      match p.conn with
      | none => p.dst = i
      | some d => ∃ c, w.peer i c = some (p.dst, d)) := by
  obtain ⟨hid, hpeer⟩ := hs
  simp only [step]
  unfold sendCmd
  by_cases hc : n.created = true
  · left; rw [if_pos hc]; simp only [emit, List.append_nil]; exact ⟨trivial, by decide⟩
  rw [if_neg hc]
  by_cases hl : sumLen (w.conf i) args > (w.conf i).msgSize
  · left; rw [if_pos hl]; simp only [emit, List.append_nil]; exact ⟨trivial, by decide⟩
  rw [if_neg hl]
  unfold sendTo
  rw [if_neg hc]
  by_cases ht : tid = n.id
  · right
    rw [if_pos ht]
    refine ⟨{ tag := s.next, dst := i, conn := none, msg := cmdMsg w.hash (w.conf i) args seq salt }, ?_, Int.le_refl 0, rfl, rfl, ?_, rfl⟩
    · simp only [emit]
    · simp only [hop, if_pos ht]; exact hid.symm
  rw [if_neg ht]
  rcases remoteChannel_shape n n.dataConn tid with ⟨e, c, h, _⟩ | ⟨h, hn⟩
  · obtain ⟨j, d, h1, h2⟩ := hpeer e c h
    simp only [h]
    rw [if_neg (by decide)]
    by_cases hr : r < 0
    · left
      refine ⟨?_, hr⟩
      simp only [emit, h1, hr, if_true, List.append_nil]
    · right
      refine ⟨{ tag := s.next, dst := j, conn := some d, msg := cmdMsg w.hash (w.conf i) args seq salt }, ?_, by omega, rfl, rfl, ?_, c, h1⟩
      · simp only [emit, h1, hr, if_false]
      · simp only [hop, if_neg ht, h, h2]
  · left
    obtain ⟨⟨a, b, c⟩, hx⟩ : ∃ x, remoteChannel n n.dataConn tid = x := ⟨_, rfl⟩
    rw [hx] at h hn
    simp only at h hn
    subst hn
    simp only [hx, h, if_true, emit, List.append_nil]
    exact ⟨trivial, trivial⟩

theorem inv_send {w : World} {s : Net} (hi : Inv w s) {i : Nat} {n : Node} {tid : Nat} {args : List Arg} {seq : Nat}
    {salt : Nat → Nat} {r : Int} (hs : Sane w s (.send i n tid args seq salt r)) :
    Inv w (step w s (.send i n tid args seq salt r)) := by
  have hnew : ∀ e ∈ s.log, e.tag ≠ s.next := fun e he => Nat.ne_of_lt (hi.logTag e he)
  have z1 : s.log.countP (Ev.isCall s.next) = 0 := by
    apply countP_zero; intro e he
    have := hnew e he
    cases e <;> simp_all [Ev.isCall, Ev.tag]
  have hmono : ∀ (c : Ev) e, e ∈ s.log → e ∈ s.log ++ [c] := fun c e h => List.mem_append_left _ h
  have hout : ∀ (res : Int) (t : Nat), [Ev.called s.next i tid (hop n tid) args seq res].countP (Ev.isDone t) = 0 ∧
      [Ev.called s.next i tid (hop n tid) args seq res].countP (Ev.isLost t false) = 0 ∧
      [Ev.called s.next i tid (hop n tid) args seq res].countP (Ev.isLost t true) = 0 ∧
      [Ev.called s.next i tid (hop n tid) args seq res].countP (Ev.isAnswer t) = 0 := by
    intro res t; simp [Ev.isDone, Ev.isLost, Ev.isAnswer]
  rcases send_shape w s hs with ⟨h1, h2⟩ | ⟨p, h1, h2, h3, h4, h5, h6⟩
  all_goals rw [h1]
  · generalize (sendCmd w.hash (w.conf i) n (fun _ _ => r) tid args seq salt).2 = res at h2 ⊢
    have hcall : ∀ t, [Ev.called s.next i tid (hop n tid) args seq res].countP (Ev.isCall t) = 0 := by
      intro t
      have : ¬ (0 ≤ res) := by omega
      simp [Ev.isCall, this]
    constructor
    · intro p hp; exact Nat.lt_succ_of_lt (hi.flightTag p hp)
    · intro e he
      rw [List.mem_append] at he
      rcases he with he | he
      · exact Nat.lt_succ_of_lt (hi.logTag e he)
      · rw [List.mem_singleton] at he; subst he; exact Nat.lt_succ_self _
    · intro t; simp only [List.countP_append, hcall, Nat.add_zero]; exact hi.calls t
    · intro t; simp only [List.countP_append, hcall, hout, Nat.add_zero]; exact hi.reqs t
    · intro t; simp only [List.countP_append, hout, Nat.add_zero]; exact hi.rsps t
    · intro p hp; exact (hi.known p hp).mono (hmono _)
    · exact evs_add hi.evs (fun e he => by rw [List.mem_singleton] at he; subst he; trivial)
  · generalize (sendCmd w.hash (w.conf i) n (fun _ _ => r) tid args seq salt).2 = res at h2 ⊢
    have hcall : ∀ t, [Ev.called s.next i tid (hop n tid) args seq res].countP (Ev.isCall t) = [p].countP (Pkt.isReq t) := by
      intro t
      have h2' : decide (0 ≤ res) = true := decide_eq_true h2
      simp only [Ev.isCall, h2', Pkt.isReq, h3, h4, cmdMsg, List.countP_cons, List.countP_nil, Bool.not_false, Bool.and_true]
    have hrsp : ∀ t, [p].countP (Pkt.isRsp t) = 0 := by
      intro t; simp [Pkt.isRsp, h4, cmdMsg]
    constructor
    · intro q hq
      simp only [List.mem_append, List.mem_singleton] at hq
      rcases hq with hq | rfl
      · exact Nat.lt_succ_of_lt (hi.flightTag q hq)
      · show q.tag < s.next + 1; omega
    · intro e he
      rw [List.mem_append] at he
      rcases he with he | he
      · exact Nat.lt_succ_of_lt (hi.logTag e he)
      · rw [List.mem_singleton] at he; subst he; exact Nat.lt_succ_self _
    · intro t
      simp only [List.countP_append]
      by_cases ht : t = s.next
      · subst ht; rw [z1]
        have := List.countP_le_length (p := Ev.isCall s.next) (l := [Ev.called s.next i tid (hop n tid) args seq res])
        simpa using this
      · have : [Ev.called s.next i tid (hop n tid) args seq res].countP (Ev.isCall t) = 0 := by
          simp [Ev.isCall]; exact fun h => absurd h.symm ht
        rw [this]; exact hi.calls t
    · intro t
      have := hi.reqs t
      simp only [List.countP_append, hout, hcall, Nat.add_zero]
      omega
    · intro t
      simp only [List.countP_append, hout, hrsp, Nat.add_zero]; exact hi.rsps t
    · intro q hq
      simp only [List.mem_append, List.mem_singleton] at hq
      rcases hq with hq | rfl
      · exact (hi.known q hq).mono (hmono _)
      · refine ⟨i, tid, hop n tid, args, seq, res, ?_, h2, ?_, ?_, ?_⟩
        · rw [h3]; simp
        · rw [h4]; rfl
        · intro _
          rw [h4]
          exact ⟨rfl, rfl, rfl, h5, ⟨salt, rfl⟩, h6⟩
        · intro hr; rw [h4] at hr; simp [cmdMsg] at hr
    · exact evs_add hi.evs (fun e he => by rw [List.mem_singleton] at he; subst he; trivial)

/-- Replacing a message under way by others of the same call. -/
theorem inv_replace {w : World} {s : Net} (hi : Inv w s) {p : Pkt} {a b : List Pkt} (hf : s.flight = a ++ p :: b) (qs : List Pkt)
    (es : List Ev) (h1 : ∀ q ∈ qs, q.tag = p.tag) (h2 : ∀ e ∈ es, e.tag = p.tag) (h3 : ∀ t, es.countP (Ev.isCall t) = 0)
    (h4 : ∀ t, [p].countP (Pkt.isReq t) = qs.countP (Pkt.isReq t) + es.countP (Ev.isDone t) + es.countP (Ev.isLost t false))
    (h5 : ∀ t, qs.countP (Pkt.isRsp t) + es.countP (Ev.isAnswer t) + es.countP (Ev.isLost t true) ≤
      [p].countP (Pkt.isRsp t) + es.countP (Ev.isDone t))
    (h6 : ∀ q ∈ qs, Known w (s.log ++ es) q) (h7 : ∀ e ∈ es, EvOk w (s.log ++ es) e) :
    Inv w { s with flight := (a ++ b) ++ qs, log := s.log ++ es } := by
  have hp : p ∈ s.flight := by rw [hf]; simp
  have hmem : ∀ q ∈ a ++ b, q ∈ s.flight := by
    intro q hq; rw [hf]; simp only [List.mem_append, List.mem_cons] at hq ⊢
    rcases hq with h | h
    · exact .inl h
    · exact .inr (.inr h)
  have hc : ∀ f : Pkt → Bool, s.flight.countP f = (a ++ b).countP f + [p].countP f := by
    intro f; rw [hf]; simp only [List.countP_append, List.countP_cons, List.countP_nil]; omega
  constructor
  · intro q hq
    rw [List.mem_append] at hq
    rcases hq with hq | hq
    · exact hi.flightTag q (hmem q hq)
    · rw [h1 q hq]; exact hi.flightTag p hp
  · intro e he
    rw [List.mem_append] at he
    rcases he with he | he
    · exact hi.logTag e he
    · rw [h2 e he]; exact hi.flightTag p hp
  · intro t; simp only [List.countP_append, h3, Nat.add_zero]; exact hi.calls t
  · intro t
    have e1 := hi.reqs t
    have e2 := h4 t
    have e3 := h3 t
    rw [hc] at e1
    have e4 := List.countP_append (p := Pkt.isReq t) (l₁ := a) (l₂ := b)
    simp only [List.countP_append]
    omega
  · intro t
    have e1 := hi.rsps t
    have e2 := h5 t
    rw [hc] at e1
    have e4 := List.countP_append (p := Pkt.isRsp t) (l₁ := a) (l₂ := b)
    simp only [List.countP_append]
    omega
  · intro q hq
    rw [List.mem_append] at hq
    rcases hq with hq | hq
    · exact (hi.known q (hmem q hq)).mono fun e he => List.mem_append_left _ he
    · exact h6 q hq
  · exact evs_add hi.evs h7

theorem inv_lose {w : World} {s : Net} (hi : Inv w s) (k : Nat) : Inv w (step w s (.lose k)) := by
  simp only [step]
  cases hk : s.flight[k]? with
  | none => exact hi
  | some p =>
    obtain ⟨a, b, hf, he⟩ := getElem?_split hk
    have := inv_replace hi hf [] [.lost p.tag p.msg.rsp] (by simp) (by simp [Ev.tag]) (by simp [Ev.isCall])
      (by intro t; cases h : p.msg.rsp <;> simp [Ev.isDone, Ev.isLost, Pkt.isReq, h])
      (by intro t; cases h : p.msg.rsp <;> simp [Ev.isDone, Ev.isLost, Ev.isAnswer, Pkt.isRsp, h])
      (by simp) (by intro e he; rw [List.mem_singleton] at he; subst he; trivial)
    rw [List.append_nil] at this
    simp only [he]
    exact this

/-- Where an answer goes. -/
theorem emit_out {w : World} (hw : Wired w) {i dst tag : Nat} {r : Int} {conn : Option Nat} {f : Nat → Link}
    (hfc : ∀ d, (f d).conn = d) (x : Cmd)
    (h : match conn with
      | none => dst = i
      | some d => ∃ c, w.peer i c = some (dst, d)) :
    emit w dst r tag [out (conn.map f) x] = [] ∨
    ∃ q : Pkt, emit w dst r tag [out (conn.map f) x] = [q] ∧ q.tag = tag ∧ q.dst = i ∧ q.msg = x ∧ (q.conn = none → conn = none) := by
  cases conn with
  | none =>
    simp only at h; subst h
    right
    exact ⟨{ tag := tag, dst := dst, conn := none, msg := x }, by simp [emit, out], rfl, rfl, rfl, fun _ => rfl⟩
  | some d =>
    obtain ⟨c, hc⟩ := h
    simp only [Option.map_some, out, emit, hfc]
    rcases hw _ _ _ _ hc with h1 | h1
    · simp only [h1]
      by_cases hr : r < 0
      · left; rw [if_pos hr]
      · right; rw [if_neg hr]
        exact ⟨_, rfl, rfl, rfl, rfl, by simp⟩
    · left; simp only [h1]

theorem inv_recv {w : World} (hw : Wired w) {s : Net} (hi : Inv w s) {k : Nat} {n : Node} {running : Bool} {binding : Option Nat}
    {resp : List Arg} {salt : Nat → Nat} {r : Int} (hs : Sane w s (.recv k n running binding resp salt r)) :
    Inv w (step w s (.recv k n running binding resp salt r)) := by
  simp only [step]
  cases hk : s.flight[k]? with
  | none => exact hi
  | some p =>
    obtain ⟨hid, hcr⟩ := hs p hk
    obtain ⟨a, b, hf, hee⟩ := getElem?_split hk
    have hp : p ∈ s.flight := by rw [hf]; simp
    obtain ⟨i, tid, h, args, seq, res, k1, k2, k3, k4, k5⟩ := hi.known p hp
    simp only [hee]
    generalize hfn : (fun d => ({ conn := d, running := running, fd := w.stream p.dst d, binding := binding } : Link)) = f
    have hfc : ∀ d, (f d).conn = d := by intro d; subst hfn; rfl
    unfold onCmd
    cases hr : p.msg.rsp with
    | true =>
      obtain ⟨d1, d2, d3, d4⟩ := k5 hr
      have hnn : ¬ (p.conn.map f = none ∧ p.msg.from_ ≠ (w.conf p.dst).id) := by
        rintro ⟨x, y⟩
        rw [Option.map_eq_none_iff] at x
        rw [d1, d2] at y; exact y (d3 x)
      simp only [if_true, onRsp, if_neg hnn, emit, record, List.filterMap_cons, List.filterMap_nil, List.append_nil]
      have := inv_replace hi hf [] [.answered p.tag p.dst p.msg.from_ p.msg.args p.msg.seq] (by simp) (by simp [Ev.tag]) (by simp [Ev.isCall])
        (by intro t; simp [Ev.isDone, Ev.isLost, Pkt.isReq, hr])
        (by intro t; simp [Ev.isDone, Ev.isLost, Ev.isAnswer, Pkt.isRsp, hr])
        (by simp) (by
          intro e he; rw [List.mem_singleton] at he; subst he
          refine ⟨tid, h, args, res, ?_, k2, d2, ?_⟩
          · rw [k3, d1]; exact List.mem_append_left _ k1
          · rcases d4 with ⟨j, e1, e2, e3⟩ | ⟨j, e1, e2, e3⟩
            · exact .inl ⟨j, e1, by rw [d1]; exact List.mem_append_left _ e2⟩
            · exact .inr ⟨j, p.msg.ret, e1, List.mem_append_left _ e2, e3⟩)
      rw [List.append_nil] at this
      exact this
    | false =>
      obtain ⟨d1, d2, d3, d4, ⟨sl, d5⟩, d6⟩ := k4 hr
      have hown : p.conn.map f = none → p.msg.from_ = (w.conf p.dst).id := by
        intro x; rw [Option.map_eq_none_iff] at x
        rw [x] at d6; simp only at d6; rw [d1, d6]
      have hfst := onReq_fst w.hash (w.conf p.dst) n (fun _ _ => r) (p.conn.map f) p.msg resp salt hid hcr hown
      simp only [Bool.false_eq_true, if_false]
      generalize hx : onReq w.hash (w.conf p.dst) n (fun _ _ => r) (p.conn.map f) p.msg resp salt = x at hfst ⊢
      obtain ⟨es, code⟩ := x
      simp only at hfst ⊢
      have hempty : p.conn = none → h = (w.conf i).id := by
        intro x; rw [x] at d6; simp only at d6; rw [← d4, d6]
      -- one answer of the kind `y` after the event `e`
      have fin : ∀ (y : Cmd) (e : Ev), y.rsp = true → y.seq = seq → y.from_ = h → e.tag = p.tag →
          (∀ t, e.isCall t = false) → (∀ t, e.isDone t = (p.tag == t)) → (∀ t b, e.isLost t b = false) → (∀ t, e.isAnswer t = false) →
          EvOk w (s.log ++ [e]) e →
          ((∃ j, (w.conf j).id = h ∧ .executed p.tag j (w.conf i).id args y.args ∈ s.log ++ [e] ∧ y.ret = 0) ∨
           (∃ j, (w.conf j).id = h ∧ .refused p.tag j y.ret ∈ s.log ++ [e] ∧
            (y.ret = Err.UNSUPPORTED_VERSION ∧ y.args = [textVersion] ∨ y.ret = Err.ACCESS_DENY ∧ y.args = [textToken]))) →
          ∀ qs, (qs = [] ∨ qs = emit w p.dst r p.tag [out (p.conn.map f) y]) →
          Inv w { s with flight := a ++ b ++ qs, log := s.log ++ [e] } := by
        intro y e f1 f2 f3 f4 f5 f6 f7 f8 f9 f10 qs hqs
        have hreq : ∀ t, [p].countP (Pkt.isReq t) = [e].countP (Ev.isDone t) := by
          intro t; simp only [List.countP_cons, List.countP_nil, Pkt.isReq, hr, f6, Bool.not_false, Bool.and_true]
        have hz : ∀ t b, [e].countP (Ev.isLost t b) = 0 ∧ [e].countP (Ev.isAnswer t) = 0 ∧ [e].countP (Ev.isCall t) = 0 := by
          intro t b; simp [List.countP_cons, f5, f7, f8]
        have hq : qs = [] ∨ ∃ q : Pkt, qs = [q] ∧ q.tag = p.tag ∧ q.dst = i ∧ q.msg = y ∧ (q.conn = none → p.conn = none) := by
          rcases hqs with h | h
          · exact .inl h
          · rw [h]; exact emit_out hw hfc y d6
        rcases hq with rfl | ⟨q, rfl, g1, g2, g3, g4⟩
        · refine inv_replace hi hf [] [e] (by simp) (by simpa using f4) (fun t => (hz t true).2.2) ?_ ?_ (by simp) ?_
          · intro t; rw [hreq t, (hz t false).1]; simp
          · intro t; rw [(hz t true).1, (hz t true).2.1]; simp
          · intro e' he; rw [List.mem_singleton] at he; subst he; exact f9
        · refine inv_replace hi hf [q] [e] (by simpa using g1) (by simpa using f4) (fun t => (hz t true).2.2) ?_ ?_ ?_ ?_
          · intro t; rw [hreq t, (hz t false).1]
            have : [q].countP (Pkt.isReq t) = 0 := by simp [Pkt.isReq, g3, f1]
            omega
          · intro t; rw [(hz t true).1, (hz t true).2.1, ← hreq t]
            have : [q].countP (Pkt.isRsp t) = [p].countP (Pkt.isReq t) := by
              simp only [List.countP_cons, List.countP_nil, Pkt.isReq, Pkt.isRsp, hr, g3, f1, g1, Bool.not_false, Bool.and_true]
            omega
          · intro q' hq'; rw [List.mem_singleton] at hq'; subst hq'
            refine ⟨i, tid, h, args, seq, res, ?_, k2, by rw [g3, f2], ?_, ?_⟩
            · rw [g1]; exact List.mem_append_left _ k1
            · intro hh; rw [g3, f1] at hh; cases hh
            · intro _; rw [g1, g3]; exact ⟨g2, f3, fun x => hempty (g4 x), f10⟩
          · intro e' he; rw [List.mem_singleton] at he; subst he; exact f9
      have hrsp0 : ∀ (data : List Arg) (c : Int), (rspMsg w.hash (w.conf p.dst) data p.msg.type c p.msg.seq salt).seq = seq ∧
          (rspMsg w.hash (w.conf p.dst) data p.msg.type c p.msg.seq salt).from_ = h := by
        intro data c; exact ⟨k3, d4⟩
      have hrec : ∀ (y : Cmd), y.rsp = true → ∀ l, record p.dst p resp (out (p.conn.map f) y :: l) =
          (if y.ret ≠ 0 then [.refused p.tag p.dst y.ret] else []) ++ record p.dst p resp l := by
        intro y hy l
        unfold record out
        rw [List.filterMap_cons]
        cases p.conn.map f <;> simp only [hy, Bool.true_and, decide_eq_true_eq] <;> by_cases h0 : y.ret = 0 <;> simp [h0]
      by_cases hv : p.msg.version < (w.conf p.dst).minVersion
      · rw [if_pos hv] at hfst
        subst hfst
        rw [hrec _ rfl]
        have hne : (rspMsg w.hash (w.conf p.dst) [textVersion] p.msg.type Err.UNSUPPORTED_VERSION p.msg.seq salt).ret ≠ 0 := by
          show Err.UNSUPPORTED_VERSION ≠ 0; decide
        rw [if_pos hne]
        refine fin _ _ rfl (hrsp0 _ _).1 (hrsp0 _ _).2 rfl (fun _ => rfl) (fun _ => rfl) (fun _ _ => rfl) (fun _ => rfl) ?_ ?_ _ (.inr rfl)
        · refine ⟨i, tid, h, args, seq, res, List.mem_append_left _ k1, k2, d4, .inl ⟨rfl, ?_⟩⟩
          rw [d3] at hv; exact hv
        · refine .inr ⟨p.dst, d4, ?_, .inl ⟨rfl, rfl⟩⟩
          simp [record]
      rw [if_neg hv] at hfst
      have hv' : (w.conf p.dst).minVersion ≤ 2 := by rw [d3] at hv; omega
      by_cases ha : access w.hash (w.conf p.dst).tokens p.msg.keys = false
      · rw [if_pos ha] at hfst
        subst hfst
        rw [hrec _ rfl]
        have hne : (rspMsg w.hash (w.conf p.dst) [textToken] p.msg.type Err.ACCESS_DENY p.msg.seq salt).ret ≠ 0 := by
          show Err.ACCESS_DENY ≠ 0; decide
        rw [if_pos hne]
        refine fin _ _ rfl (hrsp0 _ _).1 (hrsp0 _ _).2 rfl (fun _ => rfl) (fun _ => rfl) (fun _ _ => rfl) (fun _ => rfl) ?_ ?_ _ (.inr rfl)
        · refine ⟨i, tid, h, args, seq, res, List.mem_append_left _ k1, k2, d4, .inr ⟨rfl, sl, ?_⟩⟩
          rw [← d5]; exact ha
        · refine .inr ⟨p.dst, d4, ?_, .inr ⟨rfl, rfl⟩⟩
          simp [record]
      rw [if_neg ha] at hfst
      have ha' : access w.hash (w.conf p.dst).tokens p.msg.keys = true := by
        cases hh : access w.hash (w.conf p.dst).tokens p.msg.keys with
        | true => rfl
        | false => exact absurd hh ha
      have hexec : EvOk w (s.log ++ [Ev.executed p.tag p.dst p.msg.from_ p.msg.args resp]) (.executed p.tag p.dst p.msg.from_ p.msg.args resp) := by
        refine ⟨i, tid, h, seq, res, ?_, k2, d1, d4, hv', sl, ?_⟩
        · rw [d2]; exact List.mem_append_left _ k1
        · rw [← d5]; exact ha'
      have hlast : ∃ j, (w.conf j).id = h ∧ Ev.executed p.tag j (w.conf i).id args resp ∈
          s.log ++ [Ev.executed p.tag p.dst p.msg.from_ p.msg.args resp] := by
        refine ⟨p.dst, d4, ?_⟩
        rw [d1, d2]; simp
      obtain ⟨jj, hj1, hj2⟩ := hlast
      by_cases han : answers (w.conf p.dst) (p.conn.map f) p.msg = true
      · rw [if_pos han] at hfst
        subst hfst
        have hr1 : record p.dst p resp [.exec p.msg.from_ p.msg.args, out (p.conn.map f) (rspMsg w.hash (w.conf p.dst) resp p.msg.type 0 p.msg.seq salt)] =
            [.executed p.tag p.dst p.msg.from_ p.msg.args resp] := by
          have := hrec (rspMsg w.hash (w.conf p.dst) resp p.msg.type 0 p.msg.seq salt) rfl []
          rw [if_neg (by simp [rspMsg])] at this
          simp only [List.nil_append] at this
          unfold record at this ⊢
          rw [List.filterMap_cons]
          simp only [this, List.filterMap_nil]
        rw [hr1]
        have he1 : emit w p.dst r p.tag [.exec p.msg.from_ p.msg.args, out (p.conn.map f) (rspMsg w.hash (w.conf p.dst) resp p.msg.type 0 p.msg.seq salt)] =
            emit w p.dst r p.tag [out (p.conn.map f) (rspMsg w.hash (w.conf p.dst) resp p.msg.type 0 p.msg.seq salt)] := rfl
        rw [he1]
        exact fin _ _ rfl (hrsp0 _ _).1 (hrsp0 _ _).2 rfl (fun _ => rfl) (fun _ => rfl) (fun _ _ => rfl) (fun _ => rfl) hexec
          (.inl ⟨jj, hj1, hj2, rfl⟩) _ (.inr rfl)
      · rw [if_neg han] at hfst
        subst hfst
        exact fin (rspMsg w.hash (w.conf p.dst) resp p.msg.type 0 p.msg.seq salt) _ rfl (hrsp0 _ _).1 (hrsp0 _ _).2 rfl
          (fun _ => rfl) (fun _ => rfl) (fun _ _ => rfl) (fun _ => rfl) hexec (.inl ⟨jj, hj1, hj2, rfl⟩) [] (.inl rfl)

theorem inv_exec {w : World} (hw : Wired w) {s : Net} (h : Exec w s) : Inv w s := by
  induction h with
  | init =>
    constructor <;> simp
  | @step s op _ hs ih =>
    cases op with
    | send i n tid args seq salt r => exact inv_send ih hs
    | recv k n running binding resp salt r => exact inv_recv hw ih hs
    | lose k => exact inv_lose ih k

end Verif.Node.Command
