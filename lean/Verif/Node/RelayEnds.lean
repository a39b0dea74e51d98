import Verif.Node.RelayExamples
import Verif.Node.ForwardProps

/-!
C93: the traffic of data messages comes to an end.
-/
namespace Verif.Node.Relay

open Verif.IoStream
open Verif.Subnet (Ep)
open Verif.Node.Lanes (over over_append)
open Verif.Node.Tree (World Next Far Whole left)

/-! ### Specification -/

/-- Something is done: a write ends, something is read, or a message that came out of a stream is handled. -/
def Moves (s : S) : Ev → Prop
  | .lane _ e => e.moves
  | .handle l _ => (s.lane l).got[s.done l]? ≠ none
  | _ => False

/-- Nothing new is sent. -/
def Ev.old : Ev → Prop
  | .send _ _ _ _ _ _ => False
  | .other _ _ _ => False
  | _ => True

/-- The hop limit of a node that handles something, as the code reads it, is at most `T`; and answers do not go in circles: for every target
the streams have a height, and a node that passes an answer on does so over a lower stream than the one it came from. -/
def Ev.limits (T : Nat) (height : Nat → Nat → Nat) : Ev → Prop
  | .handle l h => (h.n.ttl % (W64 : Int)).toNat ≤ T ∧ ∀ t e c, t ≠ 0 → t ≠ h.n.id → remoteChannel h.n h.n.dataConn t = (Err.SUCCESS, some e, some c) →
      (∀ z, h.bound = some z → z ≠ 0 → e.id ≠ z) → height c t < height l t
  | _ => True

/-- The calls of `send_data`. -/
def Ev.isSend : Ev → Bool
  | .send _ _ _ _ _ _ => true
  | _ => false

/-- The pushes of other messages. -/
def Ev.isOther : Ev → Bool
  | .other _ _ _ => true
  | _ => false

/-- No write can end, nothing can be read, and no message waits to be handled. -/
def Idle (s : S) : Prop :=
  (∀ l e, e.moves → e.writes → ¬ Stream.Can (s.lane l) e) ∧ ∀ l, (s.lane l).got[s.done l]? = none

/-! ### Work that a message causes -/

/-- How many messages are handled because of this one, at most. -/
def cost (cf : Conf) (T R : Nat) (height : Nat → Nat → Nat) (y : Nat × List Byte) : Nat :=
  match cf.unpack y.2 with
  | none => 1
  | some m => if m.rsp then height y.1 m.to + 1 else (T - m.router.length + 1) * (R + 2)

/-- The same for several messages. -/
def costs (cf : Conf) (T R : Nat) (height : Nat → Nat → Nat) (l : List (Nat × List Byte)) : Nat := (l.map (cost cf T R height)).sum

section
variable {cf : Conf} {T R : Nat} {height : Nat → Nat → Nat}

theorem costs_append (a b : List (Nat × List Byte)) : costs cf T R height (a ++ b) = costs cf T R height a + costs cf T R height b := by
  unfold costs; rw [List.map_append, List.sum_append]

theorem costs_one (y : Nat × List Byte) : costs cf T R height [y] = cost cf T R height y := by simp [costs]

theorem cost_pos (y : Nat × List Byte) : 1 ≤ cost cf T R height y := by
  unfold cost
  split
  · exact Nat.le_refl _
  · split
    · omega
    · rename_i m _ _
      have := Nat.mul_le_mul (Nat.le_add_left 1 (T - m.router.length)) (Nat.le_add_left 1 (R + 1))
      omega

/-- The sum over part of a list is not larger. -/
theorem sum_le {α : Type} [BEq α] [LawfulBEq α] (f : α → Nat) : ∀ (a b : List α), (∀ x, a.count x ≤ b.count x) → (a.map f).sum ≤ (b.map f).sum := by
  intro a
  induction a with
  | nil => intro b _; simp
  | cons x a ih =>
    intro b h
    have hx : x ∈ b := by
      have := h x
      rw [List.count_cons_self] at this
      exact List.count_pos_iff.1 (by omega)
    have := ih (b.erase x) (by
      intro y
      have := h y
      rw [List.count_erase]
      rw [List.count_cons] at this
      omega)
    have hp := (List.perm_cons_erase hx).map f
    have hsum := hp.sum_nat
    rw [List.map_cons, List.sum_cons] at hsum ⊢
    omega

theorem handled_costs {hf bf ag : Nat} {q : Prop} {s : S} (i : Base cf hf bf ag q s) : costs cf T R height s.handled ≤ costs cf T R height s.queue := by
  apply sum_le
  rintro ⟨j, b⟩
  rw [Lanes.count_over, Lanes.count_over, i.handled, i.queue]
  exact (((List.take_prefix _ _).trans (i.lane j).pre).sublist).count_le _

/-- What is pushed: requests and answers. -/
theorem pushes_costs (hcod : cf.Codec) (hR : ∀ c t, height c t ≤ R) (es : List Eff) : costs cf T R height (pushes cf es) ≤
    ((sentReqs es).map fun m => (T - m.router.length + 1) * (R + 2)).sum + (R + 1) * (answers es).length := by
  induction es with
  | nil => simp [pushes, costs, sentReqs, answers]
  | cons e es ih =>
    cases e with
    | sent e c m =>
      have h1 : pushes cf (.sent e c m :: es) = [(c, cf.pack m)] ++ pushes cf es := rfl
      rw [h1, costs_append, costs_one]
      simp only [cost, hcod.back]
      cases hr : m.rsp
      · have h2 : sentReqs (.sent e c m :: es) = m :: sentReqs es := by simp [sentReqs, hr]
        have h3 : answers (.sent e c m :: es) = answers es := by simp [answers, hr]
        rw [h2, h3, List.map_cons, List.sum_cons]
        simp only [Bool.false_eq_true, if_false]
        omega
      · have h2 : sentReqs (.sent e c m :: es) = sentReqs es := by simp [sentReqs, hr]
        have h3 : answers (.sent e c m :: es) = m :: answers es := by simp [answers, hr]
        have := hR c m.to
        have hmul : (R + 1) * ((answers es).length + 1) = (R + 1) * (answers es).length + (R + 1) := Nat.mul_succ _ _
        rw [h2, h3, List.length_cons, hmul]
        simp only [if_true]
        omega
    | _ => exact ih

/-- A request has at most one answer at each node. -/
theorem request_answers (n : Node) (conn : Option Bool) (m : Msg) (hreq : m.rsp = false) : (answers (transferReq n conn m).1).length ≤ 1 := by
  have ha : ∀ (m : Msg) code, (answers (sendTransferRsp n m code).1).length ≤ 1 := by
    intro m code
    rcases (rsp_effects n m code).2.2 with h | h <;> rw [h] <;> simp
  unfold transferReq
  split
  · exact ha _ _
  split
  · simp [answers]
  split
  · simp [answers]
  split
  · split
    · have := ha m Err.SUCCESS
      simp only [answers, List.filterMap_cons] at this ⊢
      exact this
    · simp [answers]
  split
  · exact ha _ _
  · obtain ⟨q1, q2, q3, q4⟩ := second_spec n m hreq
    obtain ⟨r1, r2, r3, r4⟩ := forward_step n m { m with router := m.router ++ [n.id] } m.to rfl hreq
    rw [forwardReq_eq n m]
    generalize forwardData n { m with router := m.router ++ [n.id] } m.src m.to = r at *
    split
    · split
      · split
        · rw [answers_append, r2]; simp [answers]
        · rw [r2]; simp
      · rw [r2]; simp
    · split
      · simp only
        rw [answers_append, q2, List.nil_append]
        exact ha _ _
      · rw [q2]; simp

/-- What a handler pushes causes less work than what it handles. -/
theorem effects_cost (hcod : cf.Codec) (hR : ∀ c t, height c t ≤ R) (l : Nat) (h : H) (hl : (Ev.handle l h).limits T height) (b : List Byte) (m : Msg)
    (hb : cf.unpack b = some m) : costs cf T R height (pushes cf (h.effects m)) + 1 ≤ cost cf T R height (l, b) := by
  obtain ⟨hT, hdown⟩ := hl
  obtain ⟨b1, b2, b3, b4⟩ := bare_unpackSrc h.bound m
  have hcost : cost cf T R height (l, b) = if m.rsp then height l m.to + 1 else (T - m.router.length + 1) * (R + 2) := by
    unfold cost; rw [hb]
  rw [hcost]
  have hsrc : ∀ z, h.bound = some z → z ≠ 0 → (unpackSrc h.bound m).src = z := by
    intro z hz h0; unfold unpackSrc; rw [hz]; simp [h0]
  unfold H.effects Node.handle
  generalize unpackSrc h.bound m = k at *
  cases hr : m.rsp with
  | true =>
    rw [hr] at b4
    rw [if_pos b4, if_pos rfl]
    have h0 : costs cf T R height (pushes cf []) + 1 ≤ height l m.to + 1 := by simp [pushes, costs]
    unfold transferRsp
    split
    · exact h0
    split
    · exact h0
    split
    · simp [pushes, costs]
    · rename_i hto
      rcases forwardData_cases h.n k k.src k.to with ⟨r, e, hf, -⟩ | ⟨e, c, ht0, -, hrc, -, hne, hf⟩
      · rw [hf]; exact h0
      · rw [hf]
        simp only
        split
        · simp [pushes, costs]
        · have hlt := hdown k.to e c ht0 hto hrc (fun z hz h0 => by rw [← hsrc z hz h0]; exact hne (by rw [hsrc z hz h0]; exact h0))
          have : pushes cf [Eff.sent e c { k with src := h.n.id }] = [(c, cf.pack { k with src := h.n.id })] := rfl
          rw [this, costs_one]
          simp only [cost, hcod.back, b4, if_true]
          rw [b3] at hlt ⊢
          omega
  | false =>
    rw [hr] at b4
    rw [if_neg (by simp [b4]), if_neg (by simp)]
    have h1 := pushes_costs (T := T) hcod hR (transferReq h.n (some h.connected) k).1
    have h2 := request_answers h.n (some h.connected) k b4
    have h3 : (R + 1) * (answers (transferReq h.n (some h.connected) k).1).length ≤ R + 1 := by
      have := Nat.mul_le_mul_left (R + 1) h2
      omega
    have h4 : (T - m.router.length + 1) * (R + 2) = (T - m.router.length) * (R + 2) + (R + 2) := Nat.succ_mul _ _
    rcases transferReq_sent h.n (some h.connected) k b4 with h5 | ⟨h5, -, h6⟩
    · rw [h5] at h1
      simp only [List.map_nil, List.sum_nil] at h1
      omega
    · rw [h6] at h1
      simp only [List.map_cons, List.map_nil, List.sum_cons, List.sum_nil, Nat.add_zero] at h1
      have hlen : (passed h.n k).router.length = m.router.length + 1 := by simp [passed, b2]
      have hlt : m.router.length < T := by
        simp only [ttlReached, b2, decide_eq_false_iff_not] at h5
        omega
      rw [hlen, show T - (m.router.length + 1) + 1 = T - m.router.length by omega] at h1
      omega

/-! ### How much is handled -/

/-- The work done and the work owed are within what the calls allow. -/
def Budget (cf : Conf) (T R : Nat) (height : Nat → Nat → Nat) (n : Nat) (s : S) : Prop :=
  costs cf T R height s.queue + s.handled.length ≤ costs cf T R height s.handled + n

theorem send_cost (hcod : cf.Codec) (hR : ∀ c t, height c t ≤ R) (n : Node) (limit tid : Nat) (content : List Nat) (seq : Nat) (nr : Bool) :
    costs cf T R height (pushes cf (sendData n limit tid content seq nr).1) ≤ (T - 1 + 1) * (R + 2) := by
  obtain ⟨b1, b2, b3, b4⟩ := sendData_spec n limit tid content seq nr
  have h1 := pushes_costs (T := T) hcod hR (sendData n limit tid content seq nr).1
  have ha : answers (sendData n limit tid content seq nr).1 = [] := by
    unfold answers
    rw [List.filterMap_eq_nil_iff]
    intro x hx
    cases x with
    | sent e c m =>
      have hm := b4 e c m (Or.inl hx)
      have : m.rsp = false := by rw [hm]; rfl
      simp [this]
    | _ => rfl
  rw [ha] at h1
  rcases b3 with b3 | b3
  · rw [b3] at h1
    simp only [List.map_nil, List.sum_nil, List.length_nil, Nat.mul_zero] at h1
    omega
  · rw [b3] at h1
    simp only [List.map_cons, List.map_nil, List.sum_cons, List.sum_nil, List.length_nil, Nat.mul_zero, Nat.add_zero] at h1
    exact h1

theorem budget_step (hcod : cf.Codec) (hR : ∀ c t, height c t ≤ R) {n : Nat} {s s' : S} {e : Ev} (hp : Budget cf T R height n s)
    (hl : e.limits T height) (hcan : Can cf True s e) (hsh : Shape cf True s s' e) :
    Budget cf T R height (n + (if e.isSend then (T - 1 + 1) * (R + 2) else 0) + (if e.isOther then R + 1 else 0)) s' := by
  unfold Budget at *
  cases e with
  | send h limit tid content seq nr =>
    obtain ⟨a1, a2, a3, a4, a5, a6⟩ := hsh
    rw [a6 trivial, a1, costs_append]
    have := send_cost (T := T) hcod hR h.n limit tid content seq nr
    simp only [Ev.isSend, Ev.isOther, if_true, Bool.false_eq_true, if_false]
    omega
  | other c b ev =>
    obtain ⟨a1, a2, a3, a4, a5⟩ := hsh
    rw [a1]
    simp only [Ev.isSend, Ev.isOther, if_true, Bool.false_eq_true, if_false]
    rcases a5 with a5 | a5
    · rw [a5]; omega
    · rw [a5, costs_append, costs_one]
      have : cost cf T R height (c, b) ≤ R + 1 := by
        unfold cost
        cases hu : cf.unpack b with
        | none => simp
        | some m =>
          have := hR c m.to
          simp only [hcan.2 m hu, if_true]
          omega
      omega
  | lane l e =>
    obtain ⟨a1, a2, a3, a4, a5⟩ := hsh
    rw [a1, a5]
    simpa [Ev.isSend, Ev.isOther] using hp
  | handle l h =>
    simp only [Ev.isSend, Ev.isOther, Bool.false_eq_true, if_false, Nat.add_zero]
    rcases hsh with ⟨-, rfl⟩ | ⟨b, -, -, a1, a2, a3, ⟨hu, a4, a5⟩ | ⟨m, hu, a4, a5, a6⟩⟩
    · exact hp
    · rw [a1, a5, costs_append, costs_one, List.length_append, List.length_singleton]
      have := cost_pos (cf := cf) (T := T) (R := R) (height := height) (l, b)
      omega
    · rw [a1, a6 trivial, costs_append, costs_append, costs_one, List.length_append, List.length_singleton]
      have := effects_cost (T := T) hcod hR l h hl b m hu
      omega

theorem budget_run (hcod : cf.Codec) (hR : ∀ c t, height c t ≤ R) {hf bf ag : Nat} (es : List Ev) : ∀ (n : Nat) (s : S), Base cf hf bf ag True s →
    Budget cf T R height n s → (∀ e ∈ es, e.limits T height) → Cans cf True s es → ∃ s', run cf s es = some s' ∧ Base cf hf bf ag True s' ∧
      Budget cf T R height (n + (T - 1 + 1) * (R + 2) * es.countP Ev.isSend + (R + 1) * es.countP Ev.isOther) s' := by
  induction es with
  | nil => intro n s i hp _ _; exact ⟨s, rfl, i, by simpa using hp⟩
  | cons e es ih =>
    intro n s i hp hl hc
    obtain ⟨s1, h1, h2, h3⟩ := step_base hcod i e hc.1
    obtain ⟨s2, k1, k2, k3⟩ := ih _ s1 h2 (budget_step hcod hR hp (hl e List.mem_cons_self) hc.1 h3)
      (fun e' he' => hl e' (List.mem_cons_of_mem _ he')) (hc.2 s1 h1)
    refine ⟨s2, by simp only [run, h1]; exact k1, k2, ?_⟩
    have : n + (T - 1 + 1) * (R + 2) * (e :: es).countP Ev.isSend + (R + 1) * (e :: es).countP Ev.isOther =
        n + (if e.isSend then (T - 1 + 1) * (R + 2) else 0) + (if e.isOther then R + 1 else 0) +
          (T - 1 + 1) * (R + 2) * es.countP Ev.isSend + (R + 1) * es.countP Ev.isOther := by
      rw [List.countP_cons, List.countP_cons]
      generalize (T - 1 + 1) * (R + 2) = a
      cases e.isSend <;> cases e.isOther <;> simp [Nat.mul_add] <;> omega
    rw [this]
    exact k3

end

/-- C93 (work): in every run, whatever the tables of the nodes are and however they change, if no request to write is refused, no hop limit is
larger than `T` and answers do not go in circles, then the number of messages handled in the whole network is bounded by the number of calls
of `send_data` and of other pushes: each call of `send_data` causes at most `T * (R + 2)` messages to be handled. -/
theorem C93_work_partial (cf : Conf) (hcod : cf.Codec) (T R : Nat) (hT : 1 ≤ T) (height : Nat → Nat → Nat) (hR : ∀ c t, height c t ≤ R) (hf bf ag : Nat)
    (hag : ∀ i, ag ≤ (cf.stream i).recv.maxAgain) (es : List Ev) (hc : Cans cf True (init hf bf ag) es) (hl : ∀ e ∈ es, e.limits T height) :
    ∃ s, run cf (init hf bf ag) es = some s ∧ s.handled.length ≤ T * (R + 2) * es.countP Ev.isSend + (R + 1) * es.countP Ev.isOther := by
  obtain ⟨s, h1, h2, h3⟩ := budget_run hcod hR es 0 (init hf bf ag) (init_base cf True hf bf ag hag) (by simp [Budget, init, costs]) hl hc
  refine ⟨s, h1, ?_⟩
  have := handled_costs (T := T) (R := R) (height := height) h2
  unfold Budget at h3
  rw [show T - 1 + 1 = T by omega] at h3
  omega

/-! ### The end -/

/-- What is left to do in the streams. -/
def left_ (s : S) : Nat := (s.queue.map fun y => Stream.todo (s.lane y.1)).sum

/-- A stream into which nothing was put does nothing. -/
theorem unused {cf : Stream.Conf} {hf bf ag : Nat} {s : Stream.S} (i : Stream.Inv cf hf bf ag True s) (h : s.queue = []) (e : Stream.Ev) (hm : e.moves) :
    ¬ Stream.Can s e := by
  obtain ⟨ses, rs, scbs, h1, h2, h3, h4, h5, h6⟩ := i.ex
  obtain ⟨c', rs', cbs', blocks, g1, g2, -⟩ := srun_ok cf.limit cf.hash ses sinit [] [] [] (sinit_ok cf.hash) h2
  rw [h1] at g1
  simp only [Option.some.injEq, Prod.mk.injEq] at g1
  obtain ⟨rfl, rfl, rfl⟩ := g1
  have hall := g2.all
  rw [← h6, h] at hall
  simp only [List.nil_append, List.append_nil, List.append_eq_nil_iff] at hall
  have hb : blocks = [] := by
    cases hbk : blocks with
    | nil => rfl
    | cons b bs =>
      have := hall.2
      rw [hbk, List.flatten_cons, List.append_eq_nil_iff] at this
      exact absurd this.1 (g2.ne b (by rw [hbk]; exact List.mem_cons_self))
  cases e with
  | written ev => exact fun hw => g2.wr hw hb
  | read n os =>
    rintro ⟨-, hn, hle, -⟩
    have hfl := (i.flow trivial).all
    have : s.sent = [] := by rw [← i.all trivial]; exact h
    rw [this] at hfl
    have := congrArg List.length hfl
    rw [List.length_append] at this
    simp only [frames, List.map_nil, List.flatten_nil, List.length_nil] at this
    omega
  | _ => exact absurd hm (by simp [Stream.Ev.moves])

/-- Other events than moves leave as much to do. -/
theorem rest_same {cf : Stream.Conf} {hf bf ag : Nat} {s s' : Stream.S} (i : Stream.Inv cf hf bf ag True s) (i' : Stream.Inv cf hf bf ag True s')
    (e : Stream.Ev) (hne : ∀ m ev, e ≠ .push m ev) (hm : ¬ e.moves) (hs : Stream.step cf s e = some s') : Stream.todo s' = Stream.todo s := by
  rw [i.todo_eq trivial, i'.todo_eq trivial, (Lanes.lane_same _ _ _ _ hne hs).1]
  have hnet : ∀ e os, Stream.net cf s e os = some s' → s'.c = s.c ∧ s'.taken = s.taken := by
    intro e os h
    unfold Stream.net at h
    split at h
    · cases h
    · rename_i r cbs _
      simp only [Option.some.injEq] at h
      rw [← h]
      obtain ⟨a1, a2, a3, a4, a5, a6⟩ := Stream.onCbs_same cf cbs os { s with r := r }
      exact ⟨by assumption, by assumption⟩
  cases e with
  | push m ev => exact absurd rfl (hne m ev)
  | written ev => exact absurd trivial hm
  | read n os => exact absurd trivial hm
  | leave =>
    simp only [Stream.step, Option.some.injEq] at hs
    rw [← hs]
    have : (disconnect false s.c).q = s.c.q := by
      unfold disconnect disconnectRun
      split
      · split <;> rfl
      · rfl
    simp only [this]
  | again => obtain ⟨h1, h2⟩ := hnet _ _ hs; rw [h1, h2]
  | fail os => obtain ⟨h1, h2⟩ := hnet _ _ hs; rw [h1, h2]
  | gone =>
    simp only [Stream.step, Option.some.injEq] at hs
    rw [← hs]
    rfl

theorem sum_lt {α : Type} (f g : α → Nat) : ∀ l : List α, (∀ x ∈ l, f x ≤ g x) → (∃ x ∈ l, f x < g x) → (l.map f).sum < (l.map g).sum := by
  intro l
  induction l with
  | nil => rintro - ⟨x, hx, -⟩; cases hx
  | cons y l ih =>
    intro h1 h2
    rw [List.map_cons, List.map_cons, List.sum_cons, List.sum_cons]
    have hle : ∀ l : List α, (∀ x ∈ l, f x ≤ g x) → (l.map f).sum ≤ (l.map g).sum := by
      intro l
      induction l with
      | nil => intro _; exact Nat.le_refl _
      | cons z l ih =>
        intro h
        rw [List.map_cons, List.map_cons, List.sum_cons, List.sum_cons]
        have := ih fun x hx => h x (List.mem_cons_of_mem _ hx)
        have := h z List.mem_cons_self
        omega
    have hl := hle l fun x hx => h1 x (List.mem_cons_of_mem _ hx)
    have hy := h1 y List.mem_cons_self
    obtain ⟨x, hx, hlt⟩ := h2
    rcases List.mem_cons.1 hx with rfl | hx
    · omega
    · have := ih (fun x hx => h1 x (List.mem_cons_of_mem _ hx)) ⟨x, hx, hlt⟩
      omega

/-- What is left: messages, then bytes. -/
def measure_ (cf : Conf) (T R : Nat) (height : Nat → Nat → Nat) (s : S) : Nat × Nat :=
  (costs cf T R height s.queue - costs cf T R height s.handled, left_ s)

/-- Less is left. -/
abbrev Less : Nat × Nat → Nat × Nat → Prop := Prod.Lex (· < ·) (· < ·)

theorem less_wf : WellFounded Less := (Prod.lex Nat.lt_wfRel Nat.lt_wfRel).wf

/-- If nothing new is sent, every move leaves less, and nothing leaves more. -/
theorem measure_step {cf : Conf} {T R : Nat} {height : Nat → Nat → Nat} (hcod : cf.Codec) (hR : ∀ c t, height c t ≤ R) {hf bf ag : Nat} {s s' : S} {e : Ev}
    (i : Base cf hf bf ag True s) (i' : Base cf hf bf ag True s') (ho : e.old) (hl : e.limits T height) (hcan : Can cf True s e)
    (hs : step cf s e = some s') (hsh : Shape cf True s s' e) :
    (Moves s e → Less (measure_ cf T R height s') (measure_ cf T R height s)) ∧
    (¬ Moves s e → measure_ cf T R height s' = measure_ cf T R height s) := by
  cases e with
  | send h limit tid content seq nr => exact absurd ho (fun h => h)
  | other c b ev => exact absurd ho (fun h => h)
  | lane l e =>
    obtain ⟨a1, a2, a3, a4, a5⟩ := hsh
    obtain ⟨hne, hc, hw⟩ := hcan
    simp only [step] at hs
    cases hx : Stream.step (cf.stream l) (s.lane l) e with
    | none => rw [hx] at hs; cases hs
    | some x =>
      rw [hx] at hs
      simp only [Option.map_some, Option.some.injEq] at hs
      have hlane : ∀ k, s'.lane k = if k = l then x else s.lane k := by intro k; rw [← hs]; rfl
      have hx' : Stream.Inv (cf.stream l) hf bf ag True x := by have := i'.lane l; rw [hlane, if_pos rfl] at this; exact this
      refine ⟨fun hm => ?_, fun hm => ?_⟩
      · have hlt := Stream.move_less (i.lane l) trivial e hm hc (hw trivial) hx
        have hin : ∃ b, (l, b) ∈ s.queue := by
          cases hq : (s.lane l).queue with
          | nil => exact absurd hc (unused (i.lane l) hq e hm)
          | cons b bs => exact ⟨b, by rw [← mem_over, i.queue, hq]; exact List.mem_cons_self⟩
        obtain ⟨b, hb⟩ := hin
        unfold measure_
        rw [a1, a5]
        apply Prod.Lex.right
        unfold left_
        rw [a5]
        apply sum_lt
        · rintro ⟨k, y⟩ -
          simp only [hlane]
          split
          · rename_i hk; rw [hk]; omega
          · exact Nat.le_refl _
        · exact ⟨(l, b), hb, by simp only [hlane, if_pos]; exact hlt⟩
      · have heq := rest_same (i.lane l) hx' e hne hm hx
        unfold measure_ left_
        rw [a1, a5]
        congr 2
        apply List.map_congr_left
        rintro ⟨k, y⟩ -
        simp only [hlane]
        split
        · rename_i hk; rw [hk]; exact heq
        · rfl
  | handle l h =>
    refine ⟨fun hm => ?_, fun hm => ?_⟩
    · rcases hsh with ⟨-, rfl⟩ | hsh
      · exfalso
        -- the message is counted as handled
        simp only [Moves] at hm
        cases hb : (s'.lane l).got[s'.done l]? with
        | none => exact hm hb
        | some b =>
          obtain ⟨s1, g1, g2, g3⟩ := step_base hcod i (.handle l h) hcan
          rw [hs] at g1
          cases g1
          simp only [step, hb] at hs
          have hd : s'.done l = s'.done l + 1 := by
            cases hu : cf.unpack b with
            | none =>
              rw [hu] at hs
              simp only [Option.some.injEq] at hs
              have := congrArg (fun s => s.done l) hs
              simpa [S.take, Endpoint.upd] using this.symm
            | some m =>
              rw [hu] at hs
              simp only [Can, hb, hu] at hcan
              obtain ⟨s2, p1, -, p3, -⟩ := perform_base hcod h.n.id _ h.evs (s'.take l b) (take_base i l b hb) hcan
              simp only at hs
              rw [hs] at p1
              cases p1
              have := congrFun p3 l
              simpa [S.take, Endpoint.upd] using this
          omega
      · obtain ⟨b, -, -, a1, a2, a3, hrest⟩ := hsh
        apply Prod.Lex.left
        have hh := handled_costs (T := T) (R := R) (height := height) i'
        have h1 := cost_pos (cf := cf) (T := T) (R := R) (height := height) (l, b)
        rw [a1, costs_append, costs_one] at hh ⊢
        rcases hrest with ⟨hu, a4, a5⟩ | ⟨m, hu, a4, a5, a6⟩
        · rw [a5] at hh ⊢
          omega
        · have := effects_cost (T := T) hcod hR l h hl b m hu
          rw [a6 trivial, costs_append] at hh ⊢
          omega
    · simp only [Moves, ne_eq, Decidable.not_not] at hm
      simp only [step, hm, Option.some.injEq] at hs
      rw [hs]

/-- C93 (end): whatever happened before, from the time on when nothing new is sent only finitely many writes end, bytes are read and messages
are handled, in whatever order things happen: if no request to write is refused, hop limits are bounded and answers do not go in circles. -/
theorem C93_ends_partial (cf : Conf) (hcod : cf.Codec) (T R : Nat) (height : Nat → Nat → Nat) (hR : ∀ c t, height c t ≤ R) (hf bf ag : Nat)
    (hag : ∀ i, ag ≤ (cf.stream i).recv.maxAgain) (es : List Ev) (hc : Cans cf True (init hf bf ag) es) (e : Nat → Ev) (t : Nat → S)
    (h0 : run cf (init hf bf ag) es = some (t 0)) (hs : ∀ i, step cf (t i) (e i) = some (t (i + 1))) (hcan : ∀ i, Can cf True (t i) (e i))
    (ho : ∀ i, (e i).old) (hl : ∀ i, (e i).limits T height) : ∃ N, ∀ i, N ≤ i → ¬ Moves (t i) (e i) := by
  have hb : ∀ i, Base cf hf bf ag True (t i) := by
    intro i
    induction i with
    | zero =>
      obtain ⟨s, h1, h2, -⟩ := run_base hcod (q := True) (fun _ => True) (fun _ => True) (fun _ _ _ _ _ _ _ _ _ => trivial) es (init hf bf ag)
        (init_base cf True hf bf ag hag) trivial (fun _ _ => trivial) hc
      rw [h0] at h1
      cases h1
      exact h2
    | succ i ih =>
      obtain ⟨s, h1, h2, -⟩ := step_base hcod ih (e i) (hcan i)
      rw [hs i] at h1
      cases h1
      exact h2
  have hstep : ∀ i, (Moves (t i) (e i) → Less (measure_ cf T R height (t (i + 1))) (measure_ cf T R height (t i))) ∧
      (¬ Moves (t i) (e i) → measure_ cf T R height (t (i + 1)) = measure_ cf T R height (t i)) := by
    intro i
    obtain ⟨s, h1, h2, h3⟩ := step_base hcod (hb i) (e i) (hcan i)
    rw [hs i] at h1
    cases h1
    exact measure_step hcod hR (hb i) (hb (i + 1)) (ho i) (hl i) (hcan i) (hs i) h3
  have main : ∀ x : Nat × Nat, ∀ i, measure_ cf T R height (t i) = x → ∃ N, ∀ j, N ≤ j → ¬ Moves (t j) (e j) := by
    intro x
    induction x using less_wf.induction with
    | _ x ih =>
      intro i hi
      by_cases hex : ∃ j, i ≤ j ∧ Moves (t j) (e j)
      · -- the first move
        have hfirst : ∀ d, (∀ k, k < d → ¬ Moves (t (i + k)) (e (i + k))) → measure_ cf T R height (t (i + d)) = x := by
          intro d
          induction d with
          | zero => intro _; exact hi
          | succ d ihd =>
            intro h
            have h1 := ihd fun k hk => h k (by omega)
            have h2 := (hstep (i + d)).2 (h d (by omega))
            rw [show i + (d + 1) = i + d + 1 by omega, h2, h1]
        obtain ⟨j, hj, hm⟩ := hex
        have hmin : ∀ d, (∃ k, k < d ∧ Moves (t (i + k)) (e (i + k))) → ∃ k, Moves (t (i + k)) (e (i + k)) ∧ ∀ k', k' < k → ¬ Moves (t (i + k')) (e (i + k')) := by
          intro d
          induction d with
          | zero => rintro ⟨k, hk, -⟩; omega
          | succ d ihd =>
            rintro ⟨k, hk, hmk⟩
            by_cases hlow : ∃ k, k < d ∧ Moves (t (i + k)) (e (i + k))
            · exact ihd hlow
            · refine ⟨k, hmk, fun k' hk' hm' => hlow ⟨k', by omega, hm'⟩⟩
        obtain ⟨k, hk1, hk2⟩ := hmin (j - i + 1) ⟨j - i, by omega, by rw [show i + (j - i) = j by omega]; exact hm⟩
        have := (hstep (i + k)).1 hk1
        rw [hfirst k hk2] at this
        exact ih _ this (i + k + 1) rfl
      · exact ⟨i, fun j hj hm => hex ⟨j, hj, hm⟩⟩
  exact main _ 0 rfl

/-- C93 (rest): when no write can end, nothing can be read and no message waits, everything that was put into a stream that is still open has
been handled. -/
theorem C93_rest_partial (cf : Conf) (hcod : cf.Codec) (hf bf ag : Nat) (hag : ∀ i, ag ≤ (cf.stream i).recv.maxAgain) (es : List Ev)
    (hc : Cans cf True (init hf bf ag) es) :
    ∃ s, run cf (init hf bf ag) es = some s ∧
      (Idle s → ∀ c, ((∃ b, (c, b) ∈ s.queue) → (s.lane c).r.closed = false) → Rest s c ∧ over c s.handled = over c s.queue) := by
  obtain ⟨s, h1, h2, -⟩ := run_base hcod (q := True) (fun _ => True) (fun _ => True) (fun _ _ _ _ _ _ _ _ _ => trivial) es (init hf bf ag)
    (init_base cf True hf bf ag hag) trivial (fun _ _ => trivial) hc
  refine ⟨s, h1, fun ⟨hi1, hi2⟩ c ho => ?_⟩
  have hrest : Rest s c := by
    intro hb
    have hcl := ho hb
    refine ⟨hcl, ?_, ?_, ?_⟩
    · cases hw : (s.lane c).c.writing with
      | false => rfl
      | true => exact absurd hw (hi1 c (.written calmEnv) trivial rfl)
    · have hle := ((h2.lane c).live hcl).2.1
      have hoff := (h2.lane c).offers trivial hcl
      rcases Nat.lt_or_ge (s.lane c).taken (s.lane c).c.wire.length with hlt | hge
      · exact absurd ⟨hcl, Nat.one_pos, by omega, hoff⟩ (hi1 c (.read 1 []) trivial trivial)
      · omega
    · have := hi2 c
      rw [List.getElem?_eq_none_iff] at this
      have := h2.done c
      omega
  exact ⟨hrest, rest_full h2 hrest⟩

section
variable {w : World} {par : Nat → Option Nat} {dep : Nat → Nat} {top : Nat} {reg : Nat → List Ep}

open Classical in
/-- How far an answer to `t` may still go from the end of stream `c`. -/
noncomputable def Wires.height (v : Wires w) (dep : Nat → Nat) (top c t : Nat) : Nat :=
  if (w.node (v.reader c)).isSome then left w dep top (v.reader c) t else 0

theorem height_le (h : Tree.Ok w par dep top reg) (v : Wires w) (c t : Nat) : v.height dep top c t ≤ 2 * top := by
  unfold Wires.height
  split
  · rename_i hx; exact h.left_le t hx
  · exact Nat.zero_le _

/-- In a tree answers do not go in circles. -/
theorem tree_limits (h : Tree.Ok w par dep top reg) (v : Wires w) (T : Nat) (hT : ∀ x n, w.node x = some n → (n.ttl % (W64 : Int)).toNat ≤ T)
    (e : Ev) (ha : v.acts e) : e.limits T (v.height dep top) := by
  cases e with
  | handle l hh =>
    obtain ⟨hn, -, -⟩ := ha
    refine ⟨hT _ _ hn, fun t e c ht hne hrc _ => ?_⟩
    · have hx : (w.node (v.reader l)).isSome := by rw [hn]; rfl
      have hid := (h.node _ _ hn).1
      have hrd := (v.wire _ _ _ _ _ hn hrc).2
      rcases h.route hn ht (by rw [← hid]; exact hne) hh.n.dataConn (fun e he => (h.conn _ _ e hn he).1) (fun e he => (h.side _ _ e hn he).1) with
        ⟨e', c', h1, -, h3, h4⟩ | ⟨e', p, h1, -⟩ | ⟨h1, -⟩
      · rw [hrc] at h1
        simp only [Prod.mk.injEq, Option.some.injEq, true_and] at h1
        obtain ⟨rfl, rfl⟩ := h1
        have := h.left_lt hx h4 h3
        unfold Wires.height
        rw [hrd, if_pos h4, if_pos hx]
        exact this
      · rw [hrc] at h1
        exact absurd (congrArg Prod.fst h1) (show ¬ Err.SUCCESS = Err.ATNODE_NO_CONNECTION by decide)
      · rw [hrc] at h1
        exact absurd h1 (show ¬ Err.SUCCESS < 0 by decide)
  | _ => trivial

/-- C93 (trees): in a network of nodes that form trees, all of whose connections are streams and work (C91), from the time on when nothing new
is sent only finitely many writes end, bytes are read and messages are handled; and when nothing more can happen and the streams are open,
every message that `send_data` accepted has been given to the application of its target, in order and once. -/
theorem C93_tree_partial (h : Tree.Ok w par dep top reg) (hwh : Whole w reg) (v : Wires w) (ttl : Nat)
    (hT : ∀ x n, w.node x = some n → (ttl : Int) ≤ n.ttl ∧ n.ttl < 2 ^ 64) (cf : Conf) (hcod : cf.Codec) (hf bf ag : Nat)
    (hag : ∀ i, ag ≤ (cf.stream i).recv.maxAgain) (es : List Ev) (hc : Cans cf True (init hf bf ag) es) (hv : ∀ e ∈ es, v.acts e) :
    ∃ s, run cf (init hf bf ag) es = some s ∧
      (∀ (e : Nat → Ev) (t : Nat → S), t 0 = s → (∀ i, step cf (t i) (e i) = some (t (i + 1))) → (∀ i, Can cf True (t i) (e i)) →
        (∀ i, (e i).old ∧ v.acts (e i)) → ∃ N, ∀ i, N ≤ i → ¬ Moves (t i) (e i)) ∧
      (Idle s → (∀ y ∈ s.queue, (s.lane y.1).r.closed = false) → ∀ a b d, (w.node a).isSome → (w.node b).isSome → a ≠ b → Far par dep a b d → d ≤ ttl →
        gotBy a b s = sentBy a b s) := by
  obtain ⟨s, h1, h2, h3⟩ := C91_tree_partial h hwh v ttl hT cf hcod hf bf ag hag es hc hv
  obtain ⟨s', g1, g2⟩ := C93_rest_partial cf hcod hf bf ag hag es hc
  rw [h1] at g1
  cases g1
  refine ⟨s, h1, fun e t h0 hs hcan ho => ?_, fun hi ho a b d ha hb hab hd hdt => (h3 a b d ha hb hab hd hdt).2 fun c => (g2 hi c fun ⟨y, hy⟩ => ho (c, y) hy).1⟩
  exact C93_ends_partial cf hcod W64 (2 * top) (v.height dep top) (height_le h v) hf bf ag hag es hc e t (by rw [h1, h0]) hs hcan
    (fun i => (ho i).1) (fun i => tree_limits h v W64 (fun x n _ => by
      have := Int.emod_lt_of_pos n.ttl (show (0 : Int) < (W64 : Int) by decide)
      omega) (e i) (ho i).2)

/-- C93 (work in trees): each call of `send_data` causes at most `T * (2 * top + 2)` messages to be handled, in a tree of height `top` with hop
limits of at most `T`. -/
theorem C93_tree_work_partial (h : Tree.Ok w par dep top reg) (v : Wires w) (T : Nat) (hT1 : 1 ≤ T)
    (hT : ∀ x n, w.node x = some n → 0 ≤ n.ttl ∧ n.ttl ≤ T) (cf : Conf) (hcod : cf.Codec) (hf bf ag : Nat)
    (hag : ∀ i, ag ≤ (cf.stream i).recv.maxAgain) (es : List Ev) (hc : Cans cf True (init hf bf ag) es) (hv : ∀ e ∈ es, v.acts e) :
    ∃ s, run cf (init hf bf ag) es = some s ∧
      s.handled.length ≤ T * (2 * top + 2) * es.countP Ev.isSend + (2 * top + 1) * es.countP Ev.isOther :=
  C93_work_partial cf hcod T (2 * top) hT1 (v.height dep top) (height_le h v) hf bf ag hag es hc fun e he =>
    tree_limits h v T (fun x n hn => by
      obtain ⟨h1, h2⟩ := hT x n hn
      obtain ⟨k, hk⟩ := Int.eq_ofNat_of_zero_le h1
      rw [hk] at h2 ⊢
      have h3 : ((k : Int) % (W64 : Int)).toNat = k % W64 := rfl
      have h4 := Nat.mod_le k W64
      omega) e (hv e he)

end

/-! ### Examples -/

/-- A network at rest is idle. -/
theorem idle_of_rest {cf : Conf} {hf bf ag : Nat} {s : S} (b : Base cf hf bf ag True s) (h : ∀ c, Rest s c) : Idle s := by
  have key : ∀ l, (∃ y, (l, y) ∈ s.queue) ∨ (s.lane l).queue = [] := by
    intro l
    cases hq : (s.lane l).queue with
    | nil => exact .inr rfl
    | cons y ys => exact .inl ⟨y, by rw [← mem_over, b.queue, hq]; exact List.mem_cons_self⟩
  refine ⟨fun l e hm _ => ?_, fun l => ?_⟩
  · rcases key l with hk | hk
    · obtain ⟨g1, g2, g3, g4⟩ := h l hk
      cases e with
      | written ev => intro hw; rw [show (s.lane l).c.writing = true from hw] at g2; cases g2
      | read n os => rintro ⟨-, h1, h2, -⟩; omega
      | _ => exact absurd hm (by simp [Stream.Ev.moves])
    · exact unused (b.lane l) hk e hm
  · rw [List.getElem?_eq_none_iff]
    rcases key l with hk | hk
    · exact Nat.le_of_eq (h l hk).2.2.2.symm
    · have := (b.lane l).pre.length_le
      rw [hk] at this
      simp only [List.length_nil] at this
      omega

/-- The theorem about trees applies to the example of C91: nothing more can happen, and 25 has got both messages. -/
example : ∃ s, run exR (init 0 0 0) (exEs false) = some s ∧ Idle s ∧ gotBy 22 25 s = sentBy 22 25 s ∧ (sentBy 22 25 s).map Msg.content = [[7], [8]] := by
  have hcans : Cans exR True (init 0 0 0) (exEs false) := cans_calm (by decide +kernel)
  obtain ⟨s, h1, -, h3⟩ := C93_tree_partial ex_ok ex_whole exV 16 (by
    intro x n h
    obtain ⟨m, hm, rfl⟩ := ex_node h
    show ((16 : Nat) : Int) ≤ m.ttl ∧ m.ttl < 2 ^ 64
    rcases Tree.ex_nodes hm with ⟨_, rfl⟩ | ⟨_, rfl⟩ | ⟨_, rfl⟩ | ⟨_, rfl⟩ | ⟨_, rfl⟩ <;> exact ⟨by decide, by decide⟩)
    exR ex_codec 0 0 0 (fun _ => Nat.zero_le _) (exEs false) hcans (ex_acts false)
  obtain ⟨s', g1, g2, -⟩ := run_base ex_codec (q := True) (fun _ => True) (fun _ => True) (fun _ _ _ _ _ _ _ _ _ => trivial) (exEs false) (init 0 0 0)
    (init_base exR True 0 0 0 fun _ => Nat.zero_le _) trivial (fun _ _ => trivial) hcans
  rw [h1] at g1
  cases g1
  have hc : ((run exR (init 0 0 0) (exEs false)).map fun s => (restB s, (sentBy 22 25 s).map Msg.content)) = some (true, [[7], [8]]) := by decide +kernel
  rw [h1] at hc
  simp only [Option.map_some, Option.some.injEq, Prod.mk.injEq] at hc
  have hi := idle_of_rest g2 (restB_ok hc.1)
  exact ⟨s, h1, hi, h3 hi (fun y hy => (restB_ok hc.1 y.1 ⟨y.2, hy⟩).1) 22 25 4 rfl rfl (by decide)
    (.inl ⟨16, .up (p := 20) rfl (.up rfl .self), .up (p := 24) rfl (.up rfl .self), by decide⟩) (by decide), hc.2⟩

/-- The bound for the same run: 22 sends two messages, and 20, 24 and 25 handle each. -/
example : ∃ s, run exR (init 0 0 0) (exEs false) = some s ∧ s.handled.length = 6 ∧ s.handled.length ≤ 16 * 8 * 2 := by
  obtain ⟨s, h1, h2⟩ := C93_tree_work_partial ex_ok exV 16 (by decide) (by
    intro x n h
    obtain ⟨m, hm, rfl⟩ := ex_node h
    show 0 ≤ m.ttl ∧ m.ttl ≤ 16
    rcases Tree.ex_nodes hm with ⟨_, rfl⟩ | ⟨_, rfl⟩ | ⟨_, rfl⟩ | ⟨_, rfl⟩ | ⟨_, rfl⟩ <;> exact ⟨by decide, by decide⟩)
    exR ex_codec 0 0 0 (fun _ => Nat.zero_le _) (exEs false) (cans_calm (by decide +kernel)) (ex_acts false)
  have hc : (run exR (init 0 0 0) (exEs false)).map (fun s => s.handled.length) = some 6 := by decide +kernel
  rw [h1] at hc
  simp only [Option.map_some, Option.some.injEq] at hc
  exact ⟨s, h1, hc, h2⟩

end Verif.Node.Relay
