import Verif.Node.RelayEnds

/-!
C93 when requests to write are refused: a node then reports the failure, or tries its parent, and the message refused is
nevertheless sent later.  The traffic still comes to an end.
-/
namespace Verif.Node.Relay

open Verif.IoStream
open Verif.Subnet (Ep)
open Verif.Node.Lanes (over over_append)

/-! ### What is put into the queues -/

/-- `connection::push` puts at most the message into the queue. -/
theorem put_sub {cf : Conf} {s s' : S} {c : Nat} {b : List Byte} {ev : Env} {r : Int} (h : put cf s c b ev = some (s', r)) :
    s'.queue = s.queue ∨ s'.queue = s.queue ++ [(c, b)] := by
  unfold put at h
  split at h
  · cases h
  next l x hp =>
    simp only [Option.some.injEq, Prod.mk.injEq] at h
    obtain ⟨rfl, -⟩ := h
    have hl : l.queue = (s.lane c).queue ∨ l.queue = (s.lane c).queue ++ [b] := by
      unfold Stream.push at hp
      split at hp
      · simp only [Option.some.injEq, Prod.mk.injEq] at hp
        rw [← hp.1]; exact Or.inl rfl
      · split at hp
        · cases hp
        · simp only [Option.some.injEq, Prod.mk.injEq] at hp
          rw [← hp.1]
          simp only
          split
          · exact Or.inr rfl
          · exact Or.inl rfl
    rcases hl with hl | hl <;> simp [hl]

/-- The effects of a handler put no more into the queues than was tried, each message once. -/
theorem perform_sub {cf : Conf} (x : Nat) : ∀ (es : List Eff) (evs : List Env) (s s' : S), perform cf x s es evs = some s' →
    ∃ ys, s'.queue = s.queue ++ ys ∧ ys.Sublist (tried cf es) := by
  intro es
  induction es with
  | nil => intro evs s s' h; cases h; exact ⟨[], by simp, List.Sublist.slnil⟩
  | cons e es ih =>
    intro evs s s' h
    have hput : ∀ c m, (match put cf s c (cf.pack m) (evs.headD calmEnv) with
        | none => none
        | some (s, _) => perform cf x s es evs.tail) = some s' → ∃ ys, s'.queue = s.queue ++ ys ∧ ys.Sublist ((c, cf.pack m) :: tried cf es) := by
      intro c m h
      split at h
      · cases h
      next s1 r hp =>
        obtain ⟨ys, h1, h2⟩ := ih evs.tail s1 s' h
        rcases put_sub hp with h3 | h3
        · exact ⟨ys, by rw [h1, h3], h2.cons _⟩
        · exact ⟨(c, cf.pack m) :: ys, by rw [h1, h3]; simp, h2.cons₂ _⟩
    cases e with
    | deliver m => exact ih evs { s with delivered := s.delivered ++ [(x, m)] } s' h
    | response m => exact ih evs s s' h
    | toSelf m => exact ih evs s s' h
    | sync a b => exact ih evs s s' h
    | sent e c m => exact hput c m h
    | refused e c m => exact hput c m h

/-! ### Work that a message causes -/

/-- How many messages are handled because of this one, at most: a request can go two ways at each node, and be answered. -/
def cost2 (cf : Conf) (T R : Nat) (height : Nat → Nat → Nat) (y : Nat × List Byte) : Nat :=
  match cf.unpack y.2 with
  | none => 1
  | some m => if m.rsp then height y.1 m.to + 1 else (2 ^ (T - m.router.length + 1) - 1) * (R + 2)

/-- The same for several messages. -/
def costs2 (cf : Conf) (T R : Nat) (height : Nat → Nat → Nat) (l : List (Nat × List Byte)) : Nat := (l.map (cost2 cf T R height)).sum

/-- Requests that a node tried to send. -/
def triedReqs (es : List Eff) : List Msg :=
  es.filterMap fun x => match x with
    | .sent _ _ m => if m.rsp then none else some m
    | .refused _ _ m => if m.rsp then none else some m
    | _ => none

/-- Answers that a node tried to send. -/
def triedAnswers (es : List Eff) : List Msg :=
  es.filterMap fun x => match x with
    | .sent _ _ m => if m.rsp then some m else none
    | .refused _ _ m => if m.rsp then some m else none
    | _ => none

theorem triedReqs_append (a b : List Eff) : triedReqs (a ++ b) = triedReqs a ++ triedReqs b := List.filterMap_append
theorem triedAnswers_append (a b : List Eff) : triedAnswers (a ++ b) = triedAnswers a ++ triedAnswers b := List.filterMap_append

section
variable {cf : Conf} {T R : Nat} {height : Nat → Nat → Nat}

theorem costs2_append (a b : List (Nat × List Byte)) : costs2 cf T R height (a ++ b) = costs2 cf T R height a + costs2 cf T R height b := by
  unfold costs2; rw [List.map_append, List.sum_append]

theorem costs2_one (y : Nat × List Byte) : costs2 cf T R height [y] = cost2 cf T R height y := by simp [costs2]

theorem costs2_sub {a b : List (Nat × List Byte)} (h : a.Sublist b) : costs2 cf T R height a ≤ costs2 cf T R height b :=
  sum_le _ _ _ fun x => h.count_le x

theorem cost2_pos (y : Nat × List Byte) : 1 ≤ cost2 cf T R height y := by
  unfold cost2
  split
  · exact Nat.le_refl _
  · split
    · omega
    · rename_i m _ _
      have h2 : 2 ≤ 2 ^ (T - m.router.length + 1) := by
        rw [Nat.pow_succ]
        have := Nat.one_le_two_pow (n := T - m.router.length)
        omega
      have := Nat.mul_le_mul (show 1 ≤ 2 ^ (T - m.router.length + 1) - 1 by omega) (Nat.le_add_left 1 (R + 1))
      omega

theorem handled_costs2 {hf bf ag : Nat} {q : Prop} {s : S} (i : Base cf hf bf ag q s) : costs2 cf T R height s.handled ≤ costs2 cf T R height s.queue := by
  apply sum_le
  rintro ⟨j, b⟩
  rw [Lanes.count_over, Lanes.count_over, i.handled, i.queue]
  exact (((List.take_prefix _ _).trans (i.lane j).pre).sublist).count_le _

/-- What is tried: requests and answers. -/
theorem tried_costs (hcod : cf.Codec) (hR : ∀ c t, height c t ≤ R) (es : List Eff) : costs2 cf T R height (tried cf es) ≤
    ((triedReqs es).map fun m => (2 ^ (T - m.router.length + 1) - 1) * (R + 2)).sum + (R + 1) * (triedAnswers es).length := by
  induction es with
  | nil => simp [tried, costs2, triedReqs, triedAnswers]
  | cons e es ih =>
    have key : ∀ c m, costs2 cf T R height ((c, cf.pack m) :: tried cf es) ≤
        (((if m.rsp then [] else [m]) ++ triedReqs es).map fun m => (2 ^ (T - m.router.length + 1) - 1) * (R + 2)).sum +
          (R + 1) * ((if m.rsp then [m] else []) ++ triedAnswers es).length := by
      intro c m
      rw [← List.singleton_append, costs2_append, costs2_one]
      simp only [cost2, hcod.back]
      cases hr : m.rsp
      · simp only [Bool.false_eq_true, if_false, List.singleton_append, List.nil_append, List.map_cons, List.sum_cons]
        omega
      · have := hR c m.to
        have hmul : (R + 1) * ((triedAnswers es).length + 1) = (R + 1) * (triedAnswers es).length + (R + 1) := Nat.mul_succ _ _
        simp only [if_true, List.singleton_append, List.nil_append, List.length_cons, hmul]
        omega
    cases e with
    | sent e c m =>
      have h1 : tried cf (.sent e c m :: es) = (c, cf.pack m) :: tried cf es := rfl
      have h2 : triedReqs (.sent e c m :: es) = (if m.rsp then [] else [m]) ++ triedReqs es := by
        cases hr : m.rsp <;> simp [triedReqs, hr]
      have h3 : triedAnswers (.sent e c m :: es) = (if m.rsp then [m] else []) ++ triedAnswers es := by
        cases hr : m.rsp <;> simp [triedAnswers, hr]
      rw [h1, h2, h3]; exact key c m
    | refused e c m =>
      have h1 : tried cf (.refused e c m :: es) = (c, cf.pack m) :: tried cf es := rfl
      have h2 : triedReqs (.refused e c m :: es) = (if m.rsp then [] else [m]) ++ triedReqs es := by
        cases hr : m.rsp <;> simp [triedReqs, hr]
      have h3 : triedAnswers (.refused e c m :: es) = (if m.rsp then [m] else []) ++ triedAnswers es := by
        cases hr : m.rsp <;> simp [triedAnswers, hr]
      rw [h1, h2, h3]; exact key c m
    | _ => exact ih

/-- An answer is tried once, and no request. -/
theorem rsp_tried (n : Node) (m : Msg) (code : Int) : triedReqs (sendTransferRsp n m code).1 = [] ∧
    (triedAnswers (sendTransferRsp n m code).1).length ≤ 1 := by
  have hr : (transferRspMsg n m code).rsp = true := rfl
  unfold sendTransferRsp
  rcases sendMsg_cases n n.ctrlConn m.from_ (transferRspMsg n m code) with ⟨r, h, _⟩ | ⟨_, h⟩ | ⟨e, c, _, _, _, h⟩
  · rw [h]; simp [triedReqs, triedAnswers]
  · rw [h]; simp [triedReqs, triedAnswers]
  · rw [h]
    simp only
    split <;> simp [triedReqs, triedAnswers, hr]

/-- Passing a request on is tried once. -/
theorem forward_tried (n : Node) (m k : Msg) (t : Nat) (hk : { k with src := n.id } = passed n m) (hreq : m.rsp = false) :
    triedAnswers (forwardData n k m.src t).1 = [] ∧
    (triedReqs (forwardData n k m.src t).1 = [] ∨ triedReqs (forwardData n k m.src t).1 = [passed n m]) := by
  have hp : (passed n m).rsp = false := hreq
  rcases forwardData_cases n k m.src t with ⟨c, e, h, -⟩ | ⟨e, c, _, _, _, _, _, h⟩
  · rw [h]; simp [triedReqs, triedAnswers]
  · rw [h, hk]
    simp only
    split <;> simp [triedReqs, triedAnswers, hp]

/-- A node tries at most two ways for a request, and one answer. -/
theorem request_tried (n : Node) (conn : Option Bool) (m : Msg) (hreq : m.rsp = false) :
    (triedAnswers (transferReq n conn m).1).length ≤ 1 ∧
    (triedReqs (transferReq n conn m).1 = [] ∨
     ttlReached n m = false ∧ (triedReqs (transferReq n conn m).1).length ≤ 2 ∧ ∀ k ∈ triedReqs (transferReq n conn m).1, k = passed n m) := by
  have ha := rsp_tried n
  unfold transferReq
  split
  · exact ⟨(ha _ _).2, Or.inl (ha _ _).1⟩
  split
  · exact ⟨by simp [triedAnswers], Or.inl rfl⟩
  split
  · exact ⟨by simp [triedAnswers], Or.inl rfl⟩
  split
  · split
    · have := ha m Err.SUCCESS
      refine ⟨?_, Or.inl ?_⟩
      · simp only [triedAnswers, List.filterMap_cons] at this ⊢; exact this.2
      · simp only [triedReqs, List.filterMap_cons] at this ⊢; exact this.1
    · exact ⟨by simp [triedAnswers], Or.inl rfl⟩
  split
  · exact ⟨(ha _ _).2, Or.inl (ha _ _).1⟩
  · rename_i httl
    have httl : ttlReached n m = false := by simpa using httl
    have h1 := forward_tried n m { m with router := m.router ++ [n.id] } m.to rfl hreq
    have h1' := (forward_step n m { m with router := m.router ++ [n.id] } m.to rfl hreq).2.2.2.1
    have hq : triedAnswers (second n m.src (forwardData n { m with router := m.router ++ [n.id] } m.src m.to)).1 = [] ∧
        (triedReqs (second n m.src (forwardData n { m with router := m.router ++ [n.id] } m.src m.to)).1).length ≤ 2 ∧
        ∀ k ∈ triedReqs (second n m.src (forwardData n { m with router := m.router ++ [n.id] } m.src m.to)).1, k = passed n m := by
      generalize forwardData n { m with router := m.router ++ [n.id] } m.src m.to = r at h1 h1'
      have base : triedAnswers r.1 = [] ∧ (triedReqs r.1).length ≤ 2 ∧ ∀ k ∈ triedReqs r.1, k = passed n m := by
        refine ⟨h1.1, ?_, ?_⟩
        · rcases h1.2 with h | h <;> rw [h] <;> simp
        · rcases h1.2 with h | h <;> rw [h] <;> simp
      unfold second
      split
      · split
        · rename_i p _
          split
          · have h2 := forward_tried n m r.2.2.2 p.id h1' hreq
            refine ⟨?_, ?_, ?_⟩
            · simp only [triedAnswers_append, h1.1, h2.1, List.append_nil]
            · simp only [triedReqs_append, List.length_append]
              rcases h1.2 with h | h <;> rcases h2.2 with h' | h' <;> rw [h, h'] <;> simp
            · simp only [triedReqs_append]
              rcases h1.2 with h | h <;> rcases h2.2 with h' | h' <;> rw [h, h'] <;> simp
          · exact base
        · exact base
      · exact base
    have hr : triedAnswers (forwardData n { m with router := m.router ++ [n.id] } m.src m.to).1 = [] ∧
        (triedReqs (forwardData n { m with router := m.router ++ [n.id] } m.src m.to).1).length ≤ 2 ∧
        ∀ k ∈ triedReqs (forwardData n { m with router := m.router ++ [n.id] } m.src m.to).1, k = passed n m := by
      refine ⟨h1.1, ?_, ?_⟩
      · rcases h1.2 with h | h <;> rw [h] <;> simp
      · rcases h1.2 with h | h <;> rw [h] <;> simp
    rw [forwardReq_eq n m]
    generalize second n m.src (forwardData n { m with router := m.router ++ [n.id] } m.src m.to) = q at *
    generalize forwardData n { m with router := m.router ++ [n.id] } m.src m.to = r at *
    split
    · split
      · split
        · refine ⟨?_, Or.inr ⟨httl, ?_, ?_⟩⟩
          · rw [triedAnswers_append, hr.1]; simp [triedAnswers]
          · rw [triedReqs_append]; simpa [triedReqs] using hr.2.1
          · rw [triedReqs_append]; simpa [triedReqs] using hr.2.2
        · exact ⟨by rw [hr.1]; simp, Or.inr ⟨httl, hr.2⟩⟩
      · exact ⟨by rw [hr.1]; simp, Or.inr ⟨httl, hr.2⟩⟩
    · split
      · refine ⟨?_, Or.inr ⟨httl, ?_, ?_⟩⟩
        · rw [triedAnswers_append, hq.1, List.nil_append]; exact (ha _ _).2
        · rw [triedReqs_append, (ha _ _).1, List.append_nil]; exact hq.2.1
        · rw [triedReqs_append, (ha _ _).1, List.append_nil]; exact hq.2.2
      · exact ⟨by rw [hq.1]; simp, Or.inr ⟨httl, hq.2⟩⟩

/-- What a handler tries causes less work than what it handles. -/
theorem effects_cost2 (hcod : cf.Codec) (hR : ∀ c t, height c t ≤ R) (l : Nat) (h : H) (hl : (Ev.handle l h).limits T height) (b : List Byte) (m : Msg)
    (hb : cf.unpack b = some m) : costs2 cf T R height (tried cf (h.effects m)) + 1 ≤ cost2 cf T R height (l, b) := by
  obtain ⟨hT, hdown⟩ := hl
  obtain ⟨b1, b2, b3, b4⟩ := bare_unpackSrc h.bound m
  have hcost : cost2 cf T R height (l, b) = if m.rsp then height l m.to + 1 else (2 ^ (T - m.router.length + 1) - 1) * (R + 2) := by
    unfold cost2; rw [hb]
  rw [hcost]
  have hsrc : ∀ z, h.bound = some z → z ≠ 0 → (unpackSrc h.bound m).src = z := by
    intro z hz h0; unfold unpackSrc; rw [hz]; simp [h0]
  unfold H.effects Node.handle
  generalize unpackSrc h.bound m = k at *
  cases hr : m.rsp with
  | true =>
    rw [hr] at b4
    rw [if_pos b4, if_pos rfl]
    have h0 : costs2 cf T R height (tried cf []) + 1 ≤ height l m.to + 1 := by simp [tried, costs2]
    unfold transferRsp
    split
    · exact h0
    split
    · exact h0
    split
    · simp [tried, costs2]
    · rename_i hto
      rcases forwardData_cases h.n k k.src k.to with ⟨r, e, hf, -⟩ | ⟨e, c, ht0, -, hrc, -, hne, hf⟩
      · rw [hf]; exact h0
      · rw [hf]
        have hlt := hdown k.to e c ht0 hto hrc (fun z hz h0 => by rw [← hsrc z hz h0]; exact hne (by rw [hsrc z hz h0]; exact h0))
        have hone : costs2 cf T R height [(c, cf.pack { k with src := h.n.id })] + 1 ≤ height l m.to + 1 := by
          rw [costs2_one]
          simp only [cost2, hcod.back, b4, if_true]
          rw [b3] at hlt ⊢
          omega
        simp only
        split
        · exact hone
        · exact hone
  | false =>
    rw [hr] at b4
    rw [if_neg (by simp [b4]), if_neg (by simp)]
    have h1 := tried_costs (T := T) hcod hR (transferReq h.n (some h.connected) k).1
    obtain ⟨h2, h5⟩ := request_tried h.n (some h.connected) k b4
    have h3 : (R + 1) * (triedAnswers (transferReq h.n (some h.connected) k).1).length ≤ R + 1 := by
      have := Nat.mul_le_mul_left (R + 1) h2
      omega
    have hp : 1 ≤ 2 ^ (T - m.router.length) := Nat.one_le_two_pow
    have h4 : (2 ^ (T - m.router.length + 1) - 1) * (R + 2) = 2 * ((2 ^ (T - m.router.length) - 1) * (R + 2)) + (R + 2) := by
      rw [Nat.pow_succ, show 2 ^ (T - m.router.length) * 2 - 1 = 2 * (2 ^ (T - m.router.length) - 1) + 1 by omega, Nat.add_mul, Nat.mul_assoc]
      omega
    rcases h5 with h5 | ⟨h5, h6, h7⟩
    · rw [h5] at h1
      simp only [List.map_nil, List.sum_nil] at h1
      omega
    · have hlt : m.router.length < T := by
        simp only [ttlReached, b2, decide_eq_false_iff_not] at h5
        omega
      have hlen : (passed h.n k).router.length = m.router.length + 1 := by simp [passed, b2]
      have hsum : ((triedReqs (transferReq h.n (some h.connected) k).1).map fun m => (2 ^ (T - m.router.length + 1) - 1) * (R + 2)).sum ≤
          2 * ((2 ^ (T - m.router.length) - 1) * (R + 2)) := by
        generalize triedReqs (transferReq h.n (some h.connected) k).1 = L at h6 h7
        have : ∀ L : List Msg, (∀ x ∈ L, x = passed h.n k) → (L.map fun m => (2 ^ (T - m.router.length + 1) - 1) * (R + 2)).sum =
            L.length * ((2 ^ (T - m.router.length) - 1) * (R + 2)) := by
          intro L
          induction L with
          | nil => intro _; simp
          | cons x L ih =>
            intro hx
            rw [List.map_cons, List.sum_cons, ih fun y hy => hx y (List.mem_cons_of_mem _ hy), hx x List.mem_cons_self, hlen,
              show T - (m.router.length + 1) + 1 = T - m.router.length by omega, List.length_cons, Nat.succ_mul]
            omega
        rw [this L h7]
        exact Nat.mul_le_mul_right _ h6
      omega

/-! ### How much is handled -/

/-- The work done and the work owed are within what the calls allow. -/
def Budget2 (cf : Conf) (T R : Nat) (height : Nat → Nat → Nat) (n : Nat) (s : S) : Prop :=
  costs2 cf T R height s.queue + s.handled.length ≤ costs2 cf T R height s.handled + n

theorem send_cost2 (hcod : cf.Codec) (n : Node) (limit tid : Nat) (content : List Nat) (seq : Nat) (nr : Bool) :
    costs2 cf T R height (tried cf (sendData n limit tid content seq nr).1) ≤ (2 ^ (T - 1 + 1) - 1) * (R + 2) := by
  have hone : ∀ c, costs2 cf T R height [(c, cf.pack (dataMsg n tid content seq nr))] ≤ (2 ^ (T - 1 + 1) - 1) * (R + 2) := by
    intro c
    rw [costs2_one]
    simp only [cost2, hcod.back]
    simp [dataMsg]
  unfold sendData
  split
  · simp [tried, costs2]
  split
  · simp [tried, costs2]
  rcases sendMsg_cases n n.dataConn tid (dataMsg n tid content seq nr) with ⟨r, h, -⟩ | ⟨-, h⟩ | ⟨e, c, -, -, -, h⟩
  · rw [h]; simp [tried, costs2]
  · rw [h]; simp [tried, costs2]
  · rw [h]
    simp only
    split
    · exact hone c
    · exact hone c

theorem budget2_step (hcod : cf.Codec) (hR : ∀ c t, height c t ≤ R) {q : Prop} {n : Nat} {s s' : S} {e : Ev} (hp : Budget2 cf T R height n s)
    (hl : e.limits T height) (hcan : Can cf q s e) (hs : step cf s e = some s') (hsh : Shape cf q s s' e) :
    Budget2 cf T R height (n + (if e.isSend then (2 ^ (T - 1 + 1) - 1) * (R + 2) else 0) + (if e.isOther then R + 1 else 0)) s' := by
  unfold Budget2 at *
  cases e with
  | send h limit tid content seq nr =>
    obtain ⟨a1, -⟩ := hsh
    obtain ⟨ys, b1, b2⟩ := perform_sub _ _ _ _ _ hs
    have hq : s'.queue = s.queue ++ ys := b1
    rw [hq, a1, costs2_append]
    have h1 := costs2_sub (cf := cf) (T := T) (R := R) (height := height) b2
    have := send_cost2 (T := T) (R := R) (height := height) hcod h.n limit tid content seq nr
    simp only [Ev.isSend, Ev.isOther, if_true, Bool.false_eq_true, if_false]
    omega
  | other c b ev =>
    obtain ⟨a1, a2, a3, a4, a5⟩ := hsh
    rw [a1]
    simp only [Ev.isSend, Ev.isOther, if_true, Bool.false_eq_true, if_false]
    rcases a5 with a5 | a5
    · rw [a5]; omega
    · rw [a5, costs2_append, costs2_one]
      have : cost2 cf T R height (c, b) ≤ R + 1 := by
        unfold cost2
        cases hu : cf.unpack b with
        | none => simp
        | some m =>
          have := hR c m.to
          simp only [hcan.2 m hu, if_true]
          omega
      omega
  | lane l e =>
    obtain ⟨a1, a2, a3, a4, a5⟩ := hsh
    rw [a1, a5]
    simpa [Ev.isSend, Ev.isOther] using hp
  | handle l h =>
    simp only [Ev.isSend, Ev.isOther, Bool.false_eq_true, if_false, Nat.add_zero]
    rcases hsh with ⟨-, rfl⟩ | ⟨b, hg, -, a1, a2, a3, ⟨hu, a4, a5⟩ | ⟨m, hu, -⟩⟩
    · exact hp
    · rw [a1, a5, costs2_append, costs2_one, List.length_append, List.length_singleton]
      have := cost2_pos (cf := cf) (T := T) (R := R) (height := height) (l, b)
      omega
    · simp only [step, hg, hu] at hs
      obtain ⟨ys, b1, b2⟩ := perform_sub _ _ _ _ _ hs
      have hq : s'.queue = s.queue ++ ys := b1
      rw [a1, hq, costs2_append, costs2_append, costs2_one, List.length_append, List.length_singleton]
      have h1 := costs2_sub (cf := cf) (T := T) (R := R) (height := height) b2
      have := effects_cost2 (T := T) hcod hR l h hl b m hu
      omega

theorem budget2_run (hcod : cf.Codec) (hR : ∀ c t, height c t ≤ R) {q : Prop} {hf bf ag : Nat} (es : List Ev) : ∀ (n : Nat) (s : S), Base cf hf bf ag q s →
    Budget2 cf T R height n s → (∀ e ∈ es, e.limits T height) → Cans cf q s es → ∃ s', run cf s es = some s' ∧ Base cf hf bf ag q s' ∧
      Budget2 cf T R height (n + (2 ^ (T - 1 + 1) - 1) * (R + 2) * es.countP Ev.isSend + (R + 1) * es.countP Ev.isOther) s' := by
  induction es with
  | nil => intro n s i hp _ _; exact ⟨s, rfl, i, by simpa using hp⟩
  | cons e es ih =>
    intro n s i hp hl hc
    obtain ⟨s1, h1, h2, h3⟩ := step_base hcod i e hc.1
    obtain ⟨s2, k1, k2, k3⟩ := ih _ s1 h2 (budget2_step hcod hR hp (hl e List.mem_cons_self) hc.1 h1 h3)
      (fun e' he' => hl e' (List.mem_cons_of_mem _ he')) (hc.2 s1 h1)
    refine ⟨s2, by simp only [run, h1]; exact k1, k2, ?_⟩
    have : n + (2 ^ (T - 1 + 1) - 1) * (R + 2) * (e :: es).countP Ev.isSend + (R + 1) * (e :: es).countP Ev.isOther =
        n + (if e.isSend then (2 ^ (T - 1 + 1) - 1) * (R + 2) else 0) + (if e.isOther then R + 1 else 0) +
          (2 ^ (T - 1 + 1) - 1) * (R + 2) * es.countP Ev.isSend + (R + 1) * es.countP Ev.isOther := by
      rw [List.countP_cons, List.countP_cons]
      generalize (2 ^ (T - 1 + 1) - 1) * (R + 2) = a
      cases e.isSend <;> cases e.isOther <;> simp [Nat.mul_add] <;> omega
    rw [this]
    exact k3

end

/-- C93 (work, refused writes): in every run, whatever the tables of the nodes are and however they change, and whatever requests to write are
refused, if no hop limit is larger than `T` and answers do not go in circles, then each call of `send_data` causes at most
`(2 ^ T - 1) * (R + 2)` messages to be handled in the whole network.  (A refused message is sent later all the same, and its node may try
another way, so it can double at each node.) -/
theorem C93_refused_work_partial (cf : Conf) (hcod : cf.Codec) (T R : Nat) (hT : 1 ≤ T) (height : Nat → Nat → Nat) (hR : ∀ c t, height c t ≤ R)
    (hf bf ag : Nat) (hag : ∀ i, ag ≤ (cf.stream i).recv.maxAgain) (es : List Ev) (hc : Cans cf False (init hf bf ag) es)
    (hl : ∀ e ∈ es, e.limits T height) :
    ∃ s, run cf (init hf bf ag) es = some s ∧
      s.handled.length ≤ (2 ^ T - 1) * (R + 2) * es.countP Ev.isSend + (R + 1) * es.countP Ev.isOther := by
  obtain ⟨s, h1, h2, h3⟩ := budget2_run hcod hR es 0 (init hf bf ag) (init_base cf False hf bf ag hag) (by simp [Budget2, init, costs2]) hl hc
  refine ⟨s, h1, ?_⟩
  have := handled_costs2 (T := T) (R := R) (height := height) h2
  unfold Budget2 at h3
  rw [show T - 1 + 1 = T by omega] at h3
  omega

/-! ### The end -/

/-- Bytes written or to be written. -/
def total (c : SConn) : Nat := c.wire.length + (if c.writing then c.q.tail else c.q).flatten.length

theorem tryWrite_total (ev : Env) : ∀ (fuel : Nat) (c c' : SConn) (x : Int) (cbs : List Cb), tryWrite ev fuel c = some (c', x, cbs) →
    total c' ≤ total c := by
  intro fuel
  induction fuel with
  | zero => intro c c' x cbs h; cases h
  | succ fuel ih =>
    intro c c' x cbs h
    unfold tryWrite at h
    split at h
    · simp only [Option.some.injEq, Prod.mk.injEq] at h; obtain ⟨rfl, -⟩ := h; exact Nat.le_refl _
    rename_i hw
    split at h
    · simp only [Option.some.injEq, Prod.mk.injEq] at h; obtain ⟨rfl, -⟩ := h; exact Nat.le_refl _
    split at h
    · split at h
      · cases h
      · simp only [Option.some.injEq, Prod.mk.injEq] at h
        obtain ⟨rfl, -⟩ := h
        simp [total]
    split at h
    · cases h
    rename_i b rest hm
    have hfl := mergeFront_flatten ev.merge c.q
    rw [hm, List.flatten_cons] at hfl
    have hlen := congrArg List.length hfl
    rw [List.length_append] at hlen
    split at h
    · have := ih _ _ _ _ h
      simp only [total, hw, Bool.false_eq_true, if_false] at this ⊢
      omega
    split at h
    · simp only [Option.some.injEq, Prod.mk.injEq] at h
      obtain ⟨rfl, -⟩ := h
      simp only [total, hw, Bool.false_eq_true, if_false, if_true, List.tail_cons, List.length_append]
      omega
    · simp only [Option.some.injEq, Prod.mk.injEq] at h
      obtain ⟨rfl, -⟩ := h
      simp only [total, hw, Bool.false_eq_true, if_false, List.flatten_cons, List.length_append]
      omega

/-- Every write that ends and every read leaves less to do, whatever is refused. -/
theorem move_less2 {cf : Stream.Conf} {s s' : Stream.S} (e : Stream.Ev) (hm : e.moves) (hcan : Stream.Can s e)
    (hs : Stream.step cf s e = some s') : Stream.todo s' < Stream.todo s := by
  have ht : ∀ s : Stream.S, Stream.todo s = s.c.q.length + (total s.c - s.taken) := fun s => rfl
  rw [ht, ht]
  cases e with
  | written ev =>
    have hwr : s.c.writing = true := hcan
    simp only [Stream.step] at hs
    cases hy : written ev s.c with
    | none => rw [hy] at hs; cases hs
    | some y =>
      rw [hy] at hs
      simp only [Option.map_some, Option.some.injEq] at hs
      have hql : y.1.q.length < s.c.q.length ∧ total y.1 ≤ total s.c := by
        unfold written at hy
        split at hy
        · cases hy
        · split at hy
          · cases hy
          · rename_i b rest hq _ cbs hrep
            cases htw : tryWrite ev (rest.length + 1) { s.c with q := rest, writing := false } with
            | none => rw [htw] at hy; cases hy
            | some z =>
              obtain ⟨c1, x1, cb1⟩ := z
              rw [htw] at hy
              simp only [Option.some.injEq] at hy
              have hl := Stream.tryWrite_length _ _ _ _ _ _ htw
              have hto := tryWrite_total _ _ _ _ _ _ htw
              simp only at hl
              have hq1 : y.1.q = c1.q ∧ total y.1 = total c1 := by
                rw [← hy]
                simp only
                split <;> exact ⟨rfl, rfl⟩
              have hto2 : total { s.c with q := rest, writing := false } = total s.c := by
                simp [total, hwr, hq]
              rw [hq1.1, hq1.2, hq, List.length_cons]
              omega
      rw [← hs]
      simp only
      omega
  | read n os =>
    obtain ⟨-, hn, hle, -⟩ := hcan
    simp only [Stream.step] at hs
    unfold Stream.net at hs
    split at hs
    · cases hs
    · rename_i r cbs _
      simp only [Option.map_some, Option.some.injEq] at hs
      rw [← hs]
      obtain ⟨a1, a2, a3, a4, a5, a6⟩ := Stream.onCbs_same cf cbs os { s with r := r }
      have hc : (Stream.onCbs cf { s with r := r } cbs os).c = s.c := by assumption
      simp only [hc]
      have : s.c.wire.length ≤ total s.c := Nat.le_add_right _ _
      omega
  | _ => exact absurd hm (by simp [Stream.Ev.moves])

/-- Other events than moves and pushes leave as much to do. -/
theorem rest_same2 {cf : Stream.Conf} {s s' : Stream.S} (e : Stream.Ev) (hne : ∀ m ev, e ≠ .push m ev) (hm : ¬ e.moves)
    (hs : Stream.step cf s e = some s') : Stream.todo s' = Stream.todo s := by
  have hnet : ∀ e os, Stream.net cf s e os = some s' → s'.c = s.c ∧ s'.taken = s.taken := by
    intro e os h
    unfold Stream.net at h
    split at h
    · cases h
    · rename_i r cbs _
      simp only [Option.some.injEq] at h
      rw [← h]
      obtain ⟨a1, a2, a3, a4, a5, a6⟩ := Stream.onCbs_same cf cbs os { s with r := r }
      exact ⟨by assumption, by assumption⟩
  cases e with
  | push m ev => exact absurd rfl (hne m ev)
  | written ev => exact absurd trivial hm
  | read n os => exact absurd trivial hm
  | leave =>
    simp only [Stream.step, Option.some.injEq] at hs
    rw [← hs]
    have : (disconnect false s.c).q = s.c.q ∧ (disconnect false s.c).wire = s.c.wire ∧ (disconnect false s.c).writing = s.c.writing := by
      unfold disconnect disconnectRun
      split
      · split <;> exact ⟨rfl, rfl, rfl⟩
      · exact ⟨rfl, rfl, rfl⟩
    simp only [Stream.todo, this.1, this.2.1, this.2.2]
  | again => obtain ⟨h1, h2⟩ := hnet _ _ hs; simp only [Stream.todo, h1, h2]
  | fail os => obtain ⟨h1, h2⟩ := hnet _ _ hs; simp only [Stream.todo, h1, h2]
  | gone =>
    simp only [Stream.step, Option.some.injEq] at hs
    rw [← hs]
    rfl

/-- A stream into which nothing was put does nothing. -/
theorem unused2 {cf : Stream.Conf} {hf bf ag : Nat} {q : Prop} {s : Stream.S} (i : Stream.Inv cf hf bf ag q s) (h : s.queue = []) (e : Stream.Ev)
    (hm : e.moves) : ¬ Stream.Can s e := by
  obtain ⟨ses, rs, scbs, h1, h2, h3, h4, h5, h6⟩ := i.ex
  obtain ⟨c', rs', cbs', blocks, g1, g2, -⟩ := srun_ok cf.limit cf.hash ses sinit [] [] [] (sinit_ok cf.hash) h2
  rw [h1] at g1
  simp only [Option.some.injEq, Prod.mk.injEq] at g1
  obtain ⟨rfl, rfl, rfl⟩ := g1
  have hall := g2.all
  rw [← h6, h] at hall
  simp only [List.nil_append, List.append_nil, List.append_eq_nil_iff] at hall
  have hb : blocks = [] := by
    cases hbk : blocks with
    | nil => rfl
    | cons b bs =>
      have := hall.2
      rw [hbk, List.flatten_cons, List.append_eq_nil_iff] at this
      exact absurd this.1 (g2.ne b (by rw [hbk]; exact List.mem_cons_self))
  cases e with
  | written ev => exact fun hw => g2.wr hw hb
  | read n os =>
    rintro ⟨-, hn, hle, -⟩
    obtain ⟨sent, dropped, w1, w2, -⟩ := g2.wire
    rw [← h6, h] at w2
    simp only [List.append_nil, List.append_eq_nil_iff] at w2
    rw [w1, w2.1.1] at hle
    simp only [frames, List.map_nil, List.flatten_nil, List.length_nil] at hle
    omega
  | _ => exact absurd hm (by simp [Stream.Ev.moves])

/-- What is left: messages, then bytes. -/
def measure2 (cf : Conf) (T R : Nat) (height : Nat → Nat → Nat) (s : S) : Nat × Nat :=
  (costs2 cf T R height s.queue - costs2 cf T R height s.handled, left_ s)

/-- If nothing new is sent, every move leaves less, and nothing leaves more. -/
theorem measure2_step {cf : Conf} {T R : Nat} {height : Nat → Nat → Nat} (hcod : cf.Codec) (hR : ∀ c t, height c t ≤ R) {q : Prop} {hf bf ag : Nat} {s s' : S} {e : Ev}
    (i : Base cf hf bf ag q s) (i' : Base cf hf bf ag q s') (ho : e.old) (hl : e.limits T height) (hcan : Can cf q s e)
    (hs : step cf s e = some s') (hsh : Shape cf q s s' e) :
    (Moves s e → Less (measure2 cf T R height s') (measure2 cf T R height s)) ∧
    (¬ Moves s e → measure2 cf T R height s' = measure2 cf T R height s) := by
  cases e with
  | send h limit tid content seq nr => exact absurd ho (fun h => h)
  | other c b ev => exact absurd ho (fun h => h)
  | lane l e =>
    obtain ⟨a1, a2, a3, a4, a5⟩ := hsh
    obtain ⟨hne, hc, hw⟩ := hcan
    simp only [step] at hs
    cases hx : Stream.step (cf.stream l) (s.lane l) e with
    | none => rw [hx] at hs; cases hs
    | some x =>
      rw [hx] at hs
      simp only [Option.map_some, Option.some.injEq] at hs
      have hlane : ∀ k, s'.lane k = if k = l then x else s.lane k := by intro k; rw [← hs]; rfl
      refine ⟨fun hm => ?_, fun hm => ?_⟩
      · have hlt := move_less2 e hm hc hx
        have hin : ∃ b, (l, b) ∈ s.queue := by
          cases hq : (s.lane l).queue with
          | nil => exact absurd hc (unused2 (i.lane l) hq e hm)
          | cons b bs => exact ⟨b, by rw [← mem_over, i.queue, hq]; exact List.mem_cons_self⟩
        obtain ⟨b, hb⟩ := hin
        unfold measure2
        rw [a1, a5]
        apply Prod.Lex.right
        unfold left_
        rw [a5]
        apply sum_lt
        · rintro ⟨k, y⟩ -
          simp only [hlane]
          split
          · rename_i hk; rw [hk]; omega
          · exact Nat.le_refl _
        · exact ⟨(l, b), hb, by simp only [hlane, if_pos]; exact hlt⟩
      · have heq := rest_same2 e hne hm hx
        unfold measure2 left_
        rw [a1, a5]
        congr 2
        apply List.map_congr_left
        rintro ⟨k, y⟩ -
        simp only [hlane]
        split
        · rename_i hk; rw [hk]; exact heq
        · rfl
  | handle l h =>
    refine ⟨fun hm => ?_, fun hm => ?_⟩
    · rcases hsh with ⟨hnone, -⟩ | ⟨b, hg, -, a1, a2, a3, hrest⟩
      · exact absurd hnone hm
      · apply Prod.Lex.left
        have hh := handled_costs2 (T := T) (R := R) (height := height) i'
        have h1 := cost2_pos (cf := cf) (T := T) (R := R) (height := height) (l, b)
        rw [a1, costs2_append, costs2_one] at hh ⊢
        rcases hrest with ⟨hu, a4, a5⟩ | ⟨m, hu, -⟩
        · rw [a5] at hh ⊢
          omega
        · simp only [step, hg, hu] at hs
          obtain ⟨ys, b1, b2⟩ := perform_sub _ _ _ _ _ hs
          have hq : s'.queue = s.queue ++ ys := b1
          have h2 := costs2_sub (cf := cf) (T := T) (R := R) (height := height) b2
          have := effects_cost2 (T := T) hcod hR l h hl b m hu
          rw [hq, costs2_append] at hh ⊢
          omega
    · simp only [Moves, ne_eq, Decidable.not_not] at hm
      simp only [step, hm, Option.some.injEq] at hs
      rw [hs]

/-- A measure that every move makes smaller allows only finitely many moves. -/
theorem moves_end {f : Nat → Nat × Nat} {P : Nat → Prop} (h : ∀ i, (P i → Less (f (i + 1)) (f i)) ∧ (¬ P i → f (i + 1) = f i)) :
    ∃ N, ∀ i, N ≤ i → ¬ P i := by
  have main : ∀ x : Nat × Nat, ∀ i, f i = x → ∃ N, ∀ j, N ≤ j → ¬ P j := by
    intro x
    induction x using less_wf.induction with
    | _ x ih =>
      intro i hi
      by_cases hex : ∃ j, i ≤ j ∧ P j
      · obtain ⟨j, hj, hm⟩ := hex
        have hmin : ∀ d, f (i + d) = x ∨ ∃ k, k < d ∧ Less (f (i + k + 1)) x := by
          intro d
          induction d with
          | zero => exact Or.inl hi
          | succ d ihd =>
            rcases ihd with h1 | ⟨k, hk, h1⟩
            · by_cases hp : P (i + d)
              · exact Or.inr ⟨d, by omega, h1 ▸ (h (i + d)).1 hp⟩
              · exact Or.inl ((h (i + d)).2 hp ▸ h1)
            · exact Or.inr ⟨k, by omega, h1⟩
        rcases hmin (j - i) with h1 | ⟨k, -, h1⟩
        · rw [show i + (j - i) = j by omega] at h1
          exact ih _ (h1 ▸ (h j).1 hm) (j + 1) rfl
        · exact ih _ h1 (i + k + 1) rfl
      · exact ⟨i, fun j hj hm => hex ⟨j, hj, hm⟩⟩
  exact main _ 0 rfl

/-- C93 (end, refused writes): whatever happened before and whatever requests to write are refused, from the time on when nothing new is sent
only finitely many writes end, bytes are read and messages are handled, if hop limits are bounded and answers do not go in circles. -/
theorem C93_refused_ends_partial (cf : Conf) (hcod : cf.Codec) (T R : Nat) (height : Nat → Nat → Nat) (hR : ∀ c t, height c t ≤ R) (hf bf ag : Nat)
    (hag : ∀ i, ag ≤ (cf.stream i).recv.maxAgain) (es : List Ev) (hc : Cans cf False (init hf bf ag) es) (e : Nat → Ev) (t : Nat → S)
    (h0 : run cf (init hf bf ag) es = some (t 0)) (hs : ∀ i, step cf (t i) (e i) = some (t (i + 1))) (hcan : ∀ i, Can cf False (t i) (e i))
    (ho : ∀ i, (e i).old) (hl : ∀ i, (e i).limits T height) : ∃ N, ∀ i, N ≤ i → ¬ Moves (t i) (e i) := by
  have hb : ∀ i, Base cf hf bf ag False (t i) := by
    intro i
    induction i with
    | zero =>
      obtain ⟨s, h1, h2, -⟩ := run_base hcod (q := False) (fun _ => True) (fun _ => True) (fun _ _ _ _ _ _ _ _ _ => trivial) es (init hf bf ag)
        (init_base cf False hf bf ag hag) trivial (fun _ _ => trivial) hc
      rw [h0] at h1
      cases h1
      exact h2
    | succ i ih =>
      obtain ⟨s, h1, h2, -⟩ := step_base hcod ih (e i) (hcan i)
      rw [hs i] at h1
      cases h1
      exact h2
  refine moves_end (f := fun i => measure2 cf T R height (t i)) fun i => ?_
  obtain ⟨s, h1, h2, h3⟩ := step_base hcod (hb i) (e i) (hcan i)
  rw [hs i] at h1
  cases h1
  exact measure2_step hcod hR (hb i) (hb (i + 1)) (ho i) (hl i) (hcan i) (hs i) h3

/-! ### Example -/

/-- The bound for the run of `C91_duplicate_false`, in which a write is refused: two messages are sent, and because one of them goes two ways
nine are handled. -/
example : ∃ s, run exR (init 0 0 0) exTwice = some s ∧ s.handled.length = 9 ∧ s.handled.length ≤ (2 ^ 16 - 1) * 8 * 2 := by
  have hlim : ∀ e, exV.acts e → e.limits 16 (exV.height Tree.exDep 3) := tree_limits ex_ok exV 16 (by
    intro x n h
    obtain ⟨m, hm, rfl⟩ := ex_node h
    show (m.ttl % (W64 : Int)).toNat ≤ 16
    rcases Tree.ex_nodes hm with ⟨_, rfl⟩ | ⟨_, rfl⟩ | ⟨_, rfl⟩ | ⟨_, rfl⟩ | ⟨_, rfl⟩ <;> decide)
  obtain ⟨s, h1, h2⟩ := C93_refused_work_partial exR ex_codec 16 6 (by decide) (exV.height Tree.exDep 3) (height_le ex_ok exV) 0 0 0
    (fun _ => Nat.zero_le _) exTwice C91_duplicate_false.1 (by
      intro e he
      simp only [exTwice, exFirst, List.cons_append, List.nil_append, List.mem_cons, List.not_mem_nil, or_false] at he
      rcases he with rfl | rfl | rfl | rfl | rfl | rfl | he
      · trivial
      · trivial
      · trivial
      · trivial
      · trivial
      · exact hlim (get 22 20) ⟨rfl, rfl, rfl⟩
      · rcases he with rfl | rfl | rfl | rfl | rfl | rfl | rfl | rfl | rfl | rfl | rfl | rfl | rfl | rfl | rfl | rfl | rfl | rfl | rfl | rfl <;>
          first | trivial | exact hlim _ ⟨rfl, rfl, rfl⟩ | exact hlim _ ⟨_, rfl, rfl⟩)
  have hc : (run exR (init 0 0 0) exTwice).map (fun s => s.handled.length) = some 9 := by decide +kernel
  rw [h1] at hc
  simp only [Option.map_some, Option.some.injEq] at hc
  exact ⟨s, h1, hc, h2⟩

/-! ### What stays behind -/

/-- Node 22 sends a message to 25, over 20 and 24; there the stream to 25 refuses the write, and an answer goes back. -/
def exStuck : List Ev :=
  [.send { n := exN 22 } 100 25 [7] 1 false, fin 22 20, read 22 20 18, get 22 20, fin 20 24, read 20 24 19,
    .handle 2024 { n := { exN 24 with push := fun c _ => if c = 2425 then Err.WRITE_FAILED else 0 }, bound := some 20, evs := [⟨none, 0, false⟩] },
    fin 24 20, read 24 20 22, get 24 20, fin 20 22, read 20 22 22, get 20 22]

/-- C93 (rest) is false of the code when a write is refused: nothing more can happen and every stream is open, but a message that was put into
a queue is still there. -/
theorem C93_refused_rest_false : Cans exR False (init 0 0 0) exStuck ∧ ∃ s, run exR (init 0 0 0) exStuck = some s ∧ Idle s ∧
    (∀ y ∈ s.queue, (s.lane y.1).r.closed = false) ∧ (over 2425 s.queue).length = 1 ∧ over 2425 s.handled = [] ∧
    (sentBy 22 25 s).map Msg.content = [[7]] ∧ gotBy 22 25 s = [] := by
  have hcans : Cans exR False (init 0 0 0) exStuck := cans_any (by decide +kernel)
  refine ⟨hcans, ?_⟩
  obtain ⟨s, h1, b, -⟩ := run_base ex_codec (q := False) (fun _ => True) (fun _ => True) (fun _ _ _ _ _ _ _ _ _ => trivial) exStuck (init 0 0 0)
    (init_base exR False 0 0 0 fun _ => Nat.zero_le _) trivial (fun _ _ => trivial) hcans
  have hc : ((run exR (init 0 0 0) exStuck).map fun s => (restB s, (over 2425 s.queue).length, (over 2425 s.handled).length,
      (sentBy 22 25 s).map Msg.content, (gotBy 22 25 s).length)) = some (true, 1, 0, [[7]], 0) := by decide +kernel
  rw [h1] at hc
  simp only [Option.map_some, Option.some.injEq, Prod.mk.injEq] at hc
  obtain ⟨c1, c2, c3, c4, c5⟩ := hc
  have hr := restB_ok c1
  have key : ∀ l, (∃ y, (l, y) ∈ s.queue) ∨ (s.lane l).queue = [] := by
    intro l
    cases hq : (s.lane l).queue with
    | nil => exact .inr rfl
    | cons y ys => exact .inl ⟨y, by rw [← mem_over, b.queue, hq]; exact List.mem_cons_self⟩
  refine ⟨s, h1, ⟨fun l e hm _ => ?_, fun l => ?_⟩, fun y hy => (hr y.1 ⟨y.2, hy⟩).1, c2, List.length_eq_zero_iff.1 c3, c4, List.length_eq_zero_iff.1 c5⟩
  · rcases key l with hk | hk
    · obtain ⟨g1, g2, g3, g4⟩ := hr l hk
      cases e with
      | written ev => intro hw; rw [show (s.lane l).c.writing = true from hw] at g2; cases g2
      | read n os => rintro ⟨-, h1, h2, -⟩; omega
      | _ => exact absurd hm (by simp [Stream.Ev.moves])
    · exact unused2 (b.lane l) hk e hm
  · rw [List.getElem?_eq_none_iff]
    rcases key l with hk | hk
    · exact Nat.le_of_eq (hr l hk).2.2.2.symm
    · have := (b.lane l).pre.length_le
      rw [hk] at this
      simp only [List.length_nil] at this
      omega

end Verif.Node.Relay
