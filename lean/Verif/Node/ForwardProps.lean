import Verif.Node.ForwardLemmas
import Verif.Subnet.Props

/-!
Properties C34 (next hop), C35 (hop limit), C36 (where a forwarded copy goes),
C38 (unregistered connections) and C48 (answers to requests).
-/
namespace Verif.Node

open Verif.Subnet (Rng Ep Table findRoute Hist Covers)

/-! ### C34 -/

/-- The node's parent has the id `tid` (a node without id has no parent in this sense). -/
def TowardsParent (n : Node) (tid : Nat) : Prop := n.id ≠ 0 ∧ ∃ p, n.parent = some p ∧ p.id = tid

/-- A registered endpoint with an id whose subnets cover `tid`. -/
def Direct (reg : List Ep) (tid : Nat) (e : Ep) : Prop := e ∈ reg ∧ e.id ≠ 0 ∧ Covers e.subnets tid

/-- The documented rule: the parent itself; a directly connected endpoint covering the id; nothing for an id of the
node's own subnets; the parent otherwise. -/
inductive Hop (n : Node) (reg : List Ep) (tid : Nat) : Ep → Prop
  | parent {p} : TowardsParent n tid → n.parent = some p → Hop n reg tid p
  | direct {e} : ¬ TowardsParent n tid → Direct reg tid e → Hop n reg tid e
  | default {p} : ¬ TowardsParent n tid → (∀ e, ¬ Direct reg tid e) → ¬ (n.id ≠ 0 ∧ Covers n.subnets tid) →
      n.parent = some p → Hop n reg tid p

theorem isParent_iff (n : Node) (tid : Nat) : n.isParent tid = true ↔ TowardsParent n tid := by
  unfold Node.isParent TowardsParent
  by_cases h : n.id = 0
  · simp [h]
  · simp only [h, if_false, ne_eq, not_false_eq_true, true_and]
    cases hp : n.parent with
    | none => simp
    | some p => simp [eq_comm]

theorem isChildNode_iff (id : Nat) (l : List Rng) (tid : Nat) (ht : tid ≠ 0) :
    Subnet.isChildNode id l tid = true ↔ id ≠ 0 ∧ Covers l tid := by
  unfold Subnet.isChildNode
  by_cases h : id = 0
  · simp [h]
  · simp only [h, if_false, List.any_eq_true, ne_eq, not_false_eq_true, true_and, Subnet.Covers, Subnet.Rng.Has,
      Subnet.Rng.contain, ht, Bool.and_eq_true, decide_eq_true_eq]
    constructor
    · rintro ⟨r, h1, h2, h3⟩; exact ⟨r, h1, h3, h2⟩
    · rintro ⟨r, h1, h2, h3⟩; exact ⟨r, h1, h3, h2⟩

theorem directChild_iff (n : Node) (reg : List Ep) (hh : Hist n.routes reg) (tid : Nat) (ht : tid ≠ 0) (e : Ep) :
    directChild n tid = some e ↔ Direct reg tid e := by
  have hr := (Subnet.C31_route_partial _ _ hh tid ht).1
  unfold directChild Direct
  cases hf : findRoute n.routes tid with
  | none =>
    simp only [reduceCtorEq, false_iff]
    rintro ⟨h1, _, h2⟩
    rw [(hr e).mpr ⟨h1, h2⟩] at hf; cases hf
  | some e' =>
    have he' := (hr e').mp hf
    simp only
    by_cases hc : Subnet.isChildNode e'.id e'.subnets tid = true
    · rw [if_pos hc]
      have := (isChildNode_iff _ _ _ ht).mp hc
      constructor
      · intro h; cases h; exact ⟨he'.1, this.1, this.2⟩
      · rintro ⟨h1, _, h2⟩
        have := (hr e).mpr ⟨h1, h2⟩
        rw [hf] at this; exact this
    · rw [if_neg hc]
      simp only [reduceCtorEq, false_iff]
      rintro ⟨h1, h0, h2⟩
      have := (hr e).mpr ⟨h1, h2⟩
      rw [hf] at this; cases this
      exact hc ((isChildNode_iff _ _ _ ht).mpr ⟨h0, h2⟩)

theorem useChannel_ok (fn : Nat → Option Nat) (e e' : Ep) (c : Nat) :
    useChannel fn e = (Err.SUCCESS, some e', some c) ↔ e = e' ∧ fn e.ref = some c := by
  unfold useChannel finishChannel
  cases h : fn e.ref with
  | none => simp [Err.SUCCESS, Err.ATNODE_NO_CONNECTION]
  | some d => simp

/-- C34, for every history of registered endpoints without nested subnets: the endpoint and connection used are the
ones of the rule, and an error is reported exactly when the rule gives no endpoint with a usable connection.
Missing: nested subnets, for which it is false (`C34_nested_false`), and the destination id 0 (`C34_zero`). -/
theorem C34_next_hop_partial (n : Node) (reg : List Ep) (hh : Hist n.routes reg) (hc : n.created = false)
    (fn : Nat → Option Nat) (tid : Nat) (ht : tid ≠ 0) (hs : tid ≠ n.id) :
    (∀ e c, remoteChannel n fn tid = (Err.SUCCESS, some e, some c) ↔ Hop n reg tid e ∧ fn e.ref = some c) ∧
    ((remoteChannel n fn tid).1 < 0 ↔ ¬ ∃ e c, Hop n reg tid e ∧ fn e.ref = some c) := by
  have key : ∀ e c, remoteChannel n fn tid = (Err.SUCCESS, some e, some c) ↔ Hop n reg tid e ∧ fn e.ref = some c := by
    intro e c
    have hd := fun e => directChild_iff n reg hh tid ht e
    have hown : n.isChild tid = true ↔ n.id ≠ 0 ∧ Covers n.subnets tid := isChildNode_iff _ _ _ ht
    unfold remoteChannel
    rw [if_neg (by simp [hc]), if_neg hs]
    by_cases hp : n.isParent tid = true
    · have hp' := (isParent_iff n tid).mp hp
      obtain ⟨h0, p, hpp, hpid⟩ := hp'
      simp only [hp, if_true, hpp, useChannel_ok]
      constructor
      · rintro ⟨rfl, h⟩; exact ⟨.parent ⟨h0, p, hpp, hpid⟩ hpp, h⟩
      · rintro ⟨h1, h2⟩
        cases h1 with
        | parent _ h => rw [hpp] at h; cases h; exact ⟨rfl, h2⟩
        | direct h _ => exact absurd ⟨h0, p, hpp, hpid⟩ h
        | default h _ _ _ => exact absurd ⟨h0, p, hpp, hpid⟩ h
    · have hp' : ¬ TowardsParent n tid := fun h => hp ((isParent_iff n tid).mpr h)
      simp only [hp, Bool.false_eq_true, if_false]
      cases hdc : directChild n tid with
      | some e' =>
        have he' := (hd e').mp hdc
        simp only [useChannel_ok]
        constructor
        · rintro ⟨rfl, h⟩; exact ⟨.direct hp' he', h⟩
        · rintro ⟨h1, h2⟩
          cases h1 with
          | parent h _ => exact absurd h hp'
          | direct _ h =>
            have := (hd e).mpr h
            rw [hdc] at this; cases this; exact ⟨rfl, h2⟩
          | default _ h _ _ => exact absurd he' (h e')
      | none =>
        have hno : ∀ e, ¬ Direct reg tid e := by
          intro e he; have := (hd e).mpr he; rw [hdc] at this; cases this
        simp only
        by_cases ho : n.isChild tid = true
        · rw [if_pos ho]
          constructor
          · intro h; simp at h
          · rintro ⟨h1, _⟩
            cases h1 with
            | parent h _ => exact absurd h hp'
            | direct _ h => exact absurd h (hno e)
            | default _ _ h _ => exact absurd (hown.mp ho) h
        · rw [if_neg ho]
          have ho' : ¬ (n.id ≠ 0 ∧ Covers n.subnets tid) := fun h => ho (hown.mpr h)
          cases hpp : n.parent with
          | some p =>
            simp only [useChannel_ok]
            constructor
            · rintro ⟨rfl, h⟩; exact ⟨.default hp' hno ho' hpp, h⟩
            · rintro ⟨h1, h2⟩
              cases h1 with
              | parent h _ => exact absurd h hp'
              | direct _ h => exact absurd h (hno e)
              | default _ _ _ h => rw [hpp] at h; cases h; exact ⟨rfl, h2⟩
          | none =>
            simp only
            constructor
            · intro h
              unfold finishChannel at h
              split at h <;> simp at h
            · rintro ⟨h1, _⟩
              cases h1 with
              | parent h _ => exact absurd h hp'
              | direct _ h => exact absurd h (hno e)
              | default _ _ _ h => rw [hpp] at h; cases h
  refine ⟨key, ?_⟩
  rcases remoteChannel_shape n fn tid with ⟨e, c, h, _⟩ | ⟨h, hn⟩
  · rw [h]
    constructor
    · intro hl; exact absurd hl (by simp [Err.SUCCESS])
    · intro hno; exact absurd ⟨e, c, (key e c).mp h⟩ hno
  · constructor
    · rintro _ ⟨e, c, hec⟩
      rw [(key e c).mpr hec] at hn; cases hn
    · intro _; exact h

/-- C34: the destination id 0 (no node has it) goes to the parent, or nowhere. -/
theorem C34_zero (n : Node) (fn : Nat → Option Nat) (hid : n.id ≠ 0) (hp : ∀ p, n.parent = some p → p.id ≠ 0) (e : Ep) (c : Nat) :
    remoteChannel n fn 0 = (Err.SUCCESS, some e, some c) ↔ n.created = false ∧ n.parent = some e ∧ fn e.ref = some c := by
  have hpar : n.isParent 0 = false := by
    rw [Bool.eq_false_iff, ne_eq, isParent_iff]
    rintro ⟨_, p, h1, h2⟩; exact hp p h1 h2
  have hch : ∀ id l, Subnet.isChildNode id l 0 = false := by
    intro id l; unfold Subnet.isChildNode; split
    · rfl
    · simp [Subnet.Rng.contain]
  have hd : directChild n 0 = none := by
    unfold directChild; split
    · rfl
    · simp [hch]
  unfold remoteChannel
  cases hcr : n.created with
  | true => simp
  | false =>
    rw [if_neg (by simp), if_neg (fun h => hid h.symm)]
    simp only [hpar, Bool.false_eq_true, if_false, hd, Node.isChild, hch, true_and]
    cases hpp : n.parent with
    | none =>
      simp only [reduceCtorEq, false_and, iff_false]
      unfold finishChannel; split <;> simp
    | some p =>
      simp only [useChannel_ok, Option.some.injEq]
      constructor
      · rintro ⟨rfl, h⟩; exact ⟨rfl, h⟩
      · rintro ⟨rfl, h⟩; exact ⟨rfl, h⟩

/-- C34: what a node sends to itself never reaches a connection. -/
theorem C34_self (n : Node) (hc : n.created = false) (m : Msg) (limit seq : Nat) (content : List Nat) (need : Bool) :
    sendMsg n n.dataConn n.id m = ([.toSelf m], Err.SUCCESS) ∧ sendMsg n n.ctrlConn n.id m = ([.toSelf m], Err.SUCCESS) ∧
    (remoteChannel n n.dataConn n.id).1 < 0 ∧
    ∀ x ∈ (sendData n limit n.id content seq need).1, ∃ k, x = .toSelf k ∧ k.content = content := by
  refine ⟨by simp [sendMsg, hc], by simp [sendMsg, hc], ?_, ?_⟩
  · simp [remoteChannel, hc, Err.ATNODE_INVALID_ID]
  · unfold sendData
    split
    · simp
    split
    · simp
    · simp [sendMsg, hc, dataMsg]

/-- A node with id 0x10, subnet 0x10-0x1f, two children and a parent. -/
def demo : Node where
  id := 16
  subnets := [⟨16, 31, 4⟩]
  parent := some ⟨9, 100, [⟨0, 255, 8⟩]⟩
  routes := [(⟨17, 17, 0⟩, ⟨1, 17, [⟨17, 17, 0⟩]⟩), (⟨20, 23, 2⟩, ⟨2, 20, [⟨20, 23, 2⟩]⟩)]
  dataConn := fun r => if r = 0 then none else some (r + 40)
  ctrlConn := fun r => if r = 0 then none else some (r + 40)
  push := fun _ _ => 0

/-- Its route table results from adding the two children, so the theorem applies to it. -/
example : ∃ reg, Hist demo.routes reg ∧ Direct reg 22 ⟨2, 20, [⟨20, 23, 2⟩]⟩ := by
  let a : Ep := ⟨1, 17, [⟨17, 17, 0⟩]⟩
  let b : Ep := ⟨2, 20, [⟨20, 23, 2⟩]⟩
  have wa : Subnet.WFEp a := ⟨by simp [a], by simp [a], ⟨⟨17, 17, 0⟩, by simp [a], by decide, by decide⟩⟩
  have wb : Subnet.WFEp b := ⟨by simp [b], by simp [b], ⟨⟨20, 23, 2⟩, by simp [b], by decide, by decide⟩⟩
  have h1 := Hist.step (op := .add a) (reg' := [a]) (b := true) .init ⟨wa, by simp⟩ (Or.inr ⟨by simp, rfl⟩)
  have h2 := Hist.step (op := .add b) (reg' := [b, a]) (b := true) h1 ⟨wb, by simp [b]⟩ (Or.inr ⟨by
    rintro ⟨e, he, id, ⟨r, hr, h3⟩, ⟨r2, hr2, h4⟩⟩
    simp only [List.mem_singleton] at he
    subst he
    simp only [a, b, List.mem_singleton] at hr hr2
    subst hr hr2
    have h3' : 17 ≤ id ∧ id ≤ 17 := h3
    have h4' : 20 ≤ id ∧ id ≤ 23 := h4
    omega, rfl⟩)
  have ht : (Subnet.step (Subnet.step [] (.add a)).1 (.add b)).1 = demo.routes := by decide
  rw [ht] at h2
  exact ⟨_, h2, by simp [b], by decide, ⟨⟨20, 23, 2⟩, by simp, by decide, by decide⟩⟩

example : remoteChannel demo demo.dataConn 22 = (Err.SUCCESS, some ⟨2, 20, [⟨20, 23, 2⟩]⟩, some 42) := by decide
example : (remoteChannel demo demo.dataConn 30).1 = Err.ATNODE_INVALID_ID := by decide
example : remoteChannel demo demo.dataConn 77 = (Err.SUCCESS, some ⟨9, 100, [⟨0, 255, 8⟩]⟩, some 49) := by decide

/-- C34 is false with nested subnets: the node has a child whose subnets cover 12, but sends to its parent. -/
theorem C34_nested_false : ∃ (l : List Rng) (n : Node) (e : Ep), Subnet.createSubnets 13 [(13, 0), (15, 0), (8, 3)] = some l ∧
    e = ⟨1, 13, l⟩ ∧ n.routes = (Subnet.step [] (.add e)).1 ∧ (Subnet.step [] (.add e)).2 = true ∧ Covers e.subnets 12 ∧
    n.dataConn e.ref = some 41 ∧ remoteChannel n n.dataConn 12 = (Err.SUCCESS, n.parent, some 49) ∧ n.parent ≠ some e := by
  refine ⟨[⟨13, 13, 0⟩, ⟨8, 15, 3⟩], { demo with routes := (Subnet.step [] (.add ⟨1, 13, [⟨13, 13, 0⟩, ⟨8, 15, 3⟩]⟩)).1 }, _,
    by decide +kernel, rfl, rfl, by decide, ⟨⟨8, 15, 3⟩, by simp, by decide, by decide⟩, rfl, by decide, by decide⟩

/-! ### C36 -/

/-- The forwarded copies among the effects of handling a request (answers are responses). -/
theorem forwardReq_attempts (n : Node) (m : Msg) (hreq : m.rsp = false) (x : Eff) (hx : x ∈ (forwardReq n m).1) :
    Attempt n m x ∨ (∃ e, x = .sync m.src e) ∨
    ∃ k, k.rsp = true ∧ (x = .toSelf k ∨ ∃ e c, x = .sent e c k ∨ x = .refused e c k) := by
  have h1 := forward_step n m { m with router := m.router ++ [n.id] } m.to rfl hreq
  have h2 := second_spec n m hreq
  simp only at h1 h2
  rw [forwardReq_eq] at hx
  split at hx
  · split at hx
    · split at hx
      · rcases List.mem_append.mp hx with hx | hx
        · exact Or.inl (h1.1 x hx)
        · rw [List.mem_singleton] at hx; exact Or.inr (Or.inl ⟨_, hx⟩)
      · exact Or.inl (h1.1 x hx)
    · exact Or.inl (h1.1 x hx)
  · split at hx
    · rcases List.mem_append.mp hx with hx | hx
      · exact Or.inl (h2.1 x hx)
      · exact Or.inr (Or.inr ⟨_, rfl, (rsp_effects n _ _).2.1 x hx⟩)
    · exact Or.inl (h2.1 x hx)

/-- C36: a message received on a connection bound to the neighbour `b`.  Every copy of it handed to a connection goes
to an endpoint that is neither the node itself nor `b`, carries the node's id as sender and leaves destination,
origin, sequence number, flags and content as they were; a message for the node itself is not passed on.
The hypothesis `hself` is what `get_data_connection` returns for the node's own endpoint.
Missing: connections bound to the node itself, for which it is false (`C36_shared_memory_false`). -/
theorem C36_forward_partial (n : Node) (conn : Option Bool) (b : Nat) (hb : b ≠ 0) (hself : n.dataConn n.selfRef = none)
    (m : Msg) (e : Ep) (c : Nat) (k : Msg)
    (hx : .sent e c k ∈ (handle n conn (unpackSrc (some b) m)).1 ∨ .refused e c k ∈ (handle n conn (unpackSrc (some b) m)).1)
    (hk : k.rsp = m.rsp) :
    e.ref ≠ n.selfRef ∧ e.id ≠ b ∧ k.src = n.id ∧ m.to ≠ n.id ∧
    k.to = m.to ∧ k.from_ = m.from_ ∧ k.seq = m.seq ∧ k.needRsp = m.needRsp ∧ k.content = m.content := by
  obtain ⟨u, hu⟩ : ∃ u, u = unpackSrc (some b) m := ⟨_, rfl⟩
  have hu' : u = { m with src := b } := by rw [hu]; simp [unpackSrc, hb]
  have hur : u.rsp = m.rsp := by rw [hu']
  rw [← hu] at hx
  have hrefs : ∀ c, n.dataConn e.ref = some c → e.ref ≠ n.selfRef := by
    intro c h h2; rw [h2, hself] at h; cases h
  have hnot : ∀ v code, m.rsp = false →
      ¬ (.sent e c k ∈ (sendTransferRsp n v code).1 ∨ .refused e c k ∈ (sendTransferRsp n v code).1) := by
    intro v code hm h
    have := (rsp_effects n v code).2.1
    rcases h with h | h
    all_goals
      rcases this _ h with h' | ⟨e', c', h' | h'⟩ <;> first | cases h' | skip
      all_goals (rw [hm] at hk; cases hk)
  unfold handle at hx
  cases hm : m.rsp with
  | true =>
    rw [if_pos (by rw [hur, hm])] at hx
    unfold transferRsp at hx
    split at hx
    · simp at hx
    split at hx
    · simp at hx
    split at hx
    · simp at hx
    rename_i _ _ hto
    have hto' : m.to ≠ n.id := by rw [hu'] at hto; exact hto
    rcases forwardData_cases n u u.src u.to with ⟨r, e', h, _⟩ | ⟨e', c', _, _, _, hc, hf, h⟩
    · rw [h] at hx; simp at hx
    · rw [h] at hx
      have hek : e = e' ∧ k = { u with src := n.id } := by
        simp only at hx
        split at hx <;> simp at hx <;> exact ⟨hx.1, hx.2.2⟩
      obtain ⟨rfl, rfl⟩ := hek
      refine ⟨hrefs _ hc, ?_, rfl, hto', ?_⟩
      · have := hf (by rw [hu']; exact hb)
        rw [hu'] at this; exact this
      · rw [hu']; exact ⟨rfl, rfl, rfl, rfl, rfl⟩
  | false =>
    rw [if_neg (by rw [hur, hm]; simp)] at hx
    unfold transferReq at hx
    split at hx
    · exact absurd hx (hnot _ _ hm)
    split at hx
    · simp at hx
    split at hx
    · simp at hx
    split at hx
    · split at hx
      · simp only [List.mem_cons, reduceCtorEq, false_or] at hx
        exact absurd hx (hnot _ _ hm)
      · simp at hx
    split at hx
    · exact absurd hx (hnot _ _ hm)
    rename_i _ _ _ hto _
    have hto' : m.to ≠ n.id := by rw [hu'] at hto; exact hto
    have hreq : u.rsp = false := by rw [hur, hm]
    have fin : ∀ x, (x = .sent e c k ∨ x = .refused e c k) → x ∈ (forwardReq n u).1 →
        k = passed n u ∧ (∃ c', n.dataConn e.ref = some c') ∧ e.id ≠ b := by
      intro x hxe hx
      rcases forwardReq_attempts n u hreq x hx with ⟨e', c', h, hc, hf⟩ | ⟨e', h⟩ | ⟨k', hk', h⟩
      · have hek : e = e' ∧ k = passed n u := by
          rcases hxe with rfl | rfl <;> rcases h with h | h <;> cases h <;> exact ⟨rfl, rfl⟩
        obtain ⟨rfl, rfl⟩ := hek
        refine ⟨rfl, ⟨c', hc⟩, ?_⟩
        have := hf (by rw [hu']; exact hb)
        rw [hu'] at this; exact this
      · rcases hxe with rfl | rfl <;> cases h
      · exfalso
        have : k = k' := by
          rcases hxe with rfl | rfl <;> rcases h with h | ⟨_, _, h | h⟩ <;> cases h <;> rfl
        rw [this, hk', hm] at hk; cases hk
    have done : k = passed n u ∧ (∃ c', n.dataConn e.ref = some c') ∧ e.id ≠ b := by
      rcases hx with hx | hx
      · exact fin _ (Or.inl rfl) hx
      · exact fin _ (Or.inr rfl) hx
    obtain ⟨rfl, ⟨c', hc⟩, he⟩ := done
    refine ⟨hrefs _ hc, he, rfl, hto', ?_⟩
    rw [hu']; exact ⟨rfl, rfl, rfl, rfl, rfl⟩

/-- A child asks for a node that is not connected; the request goes up to the parent, with the router extended. -/
example : (handle demo (some true) (unpackSrc (some 17) { from_ := 17, to := 77, src := 5, router := [17], content := [1, 2] })).1 =
    [.sent ⟨9, 100, [⟨0, 255, 8⟩]⟩ 49 { from_ := 17, to := 77, src := 16, router := [17, 16], content := [1, 2] }] := by decide

/-- C36 is false for messages received through shared memory: the listening connection is bound to the node's own
endpoint, so the sender becomes the node itself and the check does not see the neighbour.  Here a request put into
the node's channel by the child 20 for an id of its own subnet is sent back to that child. -/
theorem C36_shared_memory_false : ∃ (n : Node) (m : Msg) (e : Ep) (c : Nat) (k : Msg),
    n.dataConn n.selfRef = none ∧ m.src = 20 ∧ e.id = 20 ∧ k.rsp = m.rsp ∧
    .sent e c k ∈ (handle n (some true) (unpackSrc (some n.id) m)).1 := by
  refine ⟨demo, { src := 20, from_ := 20, to := 22, router := [20] }, ⟨2, 20, [⟨20, 23, 2⟩]⟩, 42,
    { src := 16, from_ := 20, to := 22, router := [20, 16] }, by decide, rfl, rfl, rfl, by decide⟩

/-! ### C35 -/

/-- Where a copy is handled next: node, state of the receiving connection, endpoint it is bound to. -/
structure Stop where
  node : Node
  conn : Option Bool
  bound : Option Nat

/-- All transmissions of a request: it is handled wherever `env` says (any node in any state, possibly different at each
visit), every copy handed to a connection is one transmission and is handled in turn; `path` says which copy it is. -/
def transmissions (env : List Nat → Stop) : Nat → List Nat → Msg → Nat
  | 0, _, _ => 0
  | fuel + 1, path, m =>
    let out := sentReqs (transferReq (env path).node (env path).conn (unpackSrc (env path).bound m)).1
    (out.zipIdx.map fun x => 1 + transmissions env fuel (x.2 :: path) x.1).sum

theorem unpackSrc_rsp (b : Option Nat) (m : Msg) : (unpackSrc b m).rsp = m.rsp ∧ (unpackSrc b m).router = m.router := by
  unfold unpackSrc; split
  · exact ⟨rfl, rfl⟩
  · split <;> exact ⟨rfl, rfl⟩

theorem forwardReq_sent (n : Node) (m : Msg) (hreq : m.rsp = false) :
    sentReqs (forwardReq n m).1 = [] ∨ sentReqs (forwardReq n m).1 = [passed n m] := by
  have h1 := (forward_step n m { m with router := m.router ++ [n.id] } m.to rfl hreq).2.2.1
  have h2 := (second_spec n m hreq).2.2.1
  have h1' : _ ∨ _ := h1.imp And.right And.right
  have h2' : _ ∨ _ := h2.imp And.right And.right
  rw [forwardReq_eq]
  split
  · split
    · split
      · rw [sentReqs_append]; simpa [sentReqs] using h1'
      · exact h1'
    · exact h1'
  · split
    · rw [sentReqs_append, (rsp_effects n _ _).1, List.append_nil]; exact h2'
    · exact h2'

/-- A handled request is passed on at most once, only below the limit, and with one more router. -/
theorem transferReq_sent (n : Node) (conn : Option Bool) (m : Msg) (hreq : m.rsp = false) :
    sentReqs (transferReq n conn m).1 = [] ∨
    (ttlReached n m = false ∧ m.to ≠ n.id ∧ sentReqs (transferReq n conn m).1 = [passed n m]) := by
  unfold transferReq
  split
  · left; exact (rsp_effects n _ _).1
  split
  · left; rfl
  split
  · left; rfl
  split
  · left; split
    · have := (rsp_effects n m Err.SUCCESS).1
      simpa [sentReqs] using this
    · rfl
  split
  · left; exact (rsp_effects n _ _).1
  · rename_i hto ht
    rcases forwardReq_sent n m hreq with h | h
    · left; exact h
    · right; exact ⟨by simpa using ht, hto, h⟩

/-- C35 for the request: however the network is wired and whatever happens to it on the way, a request that already
passed `m.router.length` nodes is transmitted at most `T - m.router.length` more times, if every node's limit is between
0 and `T`; counting its first transmission by the sender (`C35_origin`) that is at most `T` in all. -/
theorem C35_request_bound_partial (T : Nat) (env : List Nat → Stop) (hT : ∀ p, 0 ≤ (env p).node.ttl ∧ (env p).node.ttl ≤ T)
    (hT64 : T < W64) (fuel : Nat) (path : List Nat) (m : Msg) (hreq : m.rsp = false) :
    transmissions env fuel path m ≤ T - m.router.length := by
  induction fuel generalizing path m with
  | zero => exact Nat.zero_le _
  | succ fuel ih =>
    unfold transmissions
    obtain ⟨u, hu⟩ : ∃ u, u = unpackSrc (env path).bound m := ⟨_, rfl⟩
    have hur := unpackSrc_rsp (env path).bound m
    rw [← hu] at hur
    simp only [← hu]
    rcases transferReq_sent (env path).node (env path).conn u (by rw [hur.1, hreq]) with h | ⟨ht, _, h⟩
    · rw [h]; simp
    · rw [h]
      have := ih (0 :: path) (passed (env path).node u) (by simp [passed, hur.1, hreq])
      have hlen : (passed (env path).node u).router.length = m.router.length + 1 := by simp [passed, hur.2]
      rw [hlen] at this
      have hlt : m.router.length < T := by
        have h1 := hT path
        simp only [ttlReached, decide_eq_false_iff_not, hur.2, ge_iff_le, Nat.not_le] at ht
        have hmod : (env path).node.ttl % (W64 : Int) = (env path).node.ttl :=
          Int.emod_eq_of_lt h1.1 (by omega)
        rw [hmod] at ht
        omega
      simp only [List.zipIdx_cons, List.zipIdx_nil, List.map_cons, List.map_nil, List.sum_cons, List.sum_nil, Nat.zero_add,
        Nat.add_zero]
      omega

/-- C35: the sender's own transmission: at most one copy, and its router has one entry. -/
theorem C35_origin (n : Node) (limit tid seq : Nat) (content : List Nat) (need : Bool) :
    sentReqs (sendData n limit tid content seq need).1 = [] ∨
    ∃ k, sentReqs (sendData n limit tid content seq need).1 = [k] ∧ k.router.length = 1 ∧ k.rsp = false := by
  unfold sendData
  split
  · left; rfl
  split
  · left; rfl
  · rcases sendMsg_cases n n.dataConn tid (dataMsg n tid content seq need) with ⟨r, h, _⟩ | ⟨_, h⟩ | ⟨e, c, _, _, _, h⟩
    · rw [h]; left; rfl
    · rw [h]; left; rfl
    · rw [h]
      by_cases hp : n.push c (dataMsg n tid content seq need) < 0
      · rw [if_pos hp]; left; rfl
      · rw [if_neg hp]; right; exact ⟨_, rfl, rfl, rfl⟩

/-- C35: once the limit is reached a node that is not the destination neither delivers nor forwards the request. -/
theorem C35_limit (n : Node) (conn : Option Bool) (m : Msg) (hreq : m.rsp = false) (hto : m.to ≠ n.id) (h0 : 0 ≤ n.ttl)
    (h64 : n.ttl < W64) (hl : n.ttl ≤ m.router.length) :
    sentReqs (transferReq n conn m).1 = [] ∧ ∀ k, .deliver k ∉ (transferReq n conn m).1 := by
  have ht : ttlReached n m = true := by
    simp only [ttlReached, decide_eq_true_eq, ge_iff_le]
    rw [Int.emod_eq_of_lt h0 h64]; omega
  refine ⟨?_, ?_⟩
  · rcases transferReq_sent n conn m hreq with h | ⟨h, _⟩
    · exact h
    · rw [ht] at h; cases h
  · intro k
    have hr : ∀ code, .deliver k ∉ (sendTransferRsp n m code).1 := by
      intro code h
      rcases (rsp_effects n m code).2.1 _ h with h | ⟨_, _, h | h⟩ <;> cases h
    unfold transferReq
    rw [if_neg hto, if_pos ht]
    split
    · exact hr _
    split
    · simp
    split
    · simp
    · exact hr _

/-- Three nodes 1, 2, 3, each the parent of the previous one. -/
def ring (i : Nat) : Node where
  id := i + 1
  parent := some ⟨9, (i + 1) % 3 + 1, []⟩
  ttl := 2
  dataConn := fun r => if r = 0 then none else some r
  ctrlConn := fun r => if r = 0 then none else some r
  push := fun _ _ => 0

/-- The network made of the ring: every copy arrives from the previous node on its registered connection. -/
def ringEnv (p : List Nat) : Stop := ⟨ring (p.length % 3), some true, some ((p.length + 2) % 3 + 1)⟩

/-- The limit stops a request in the ring: two transmissions, then an error. -/
example : transmissions ringEnv 50 [] { from_ := 50, to := 60, src := 3 } = 2 := by decide +kernel

/-- All data messages accepted for transmission, requests and responses. -/
def allSent (es : List Eff) : List Msg :=
  es.filterMap fun x => match x with
    | .sent _ _ m => some m
    | _ => none

/-- All transmissions a request causes, including those of responses. -/
def traffic (env : List Nat → Stop) : Nat → List Nat → Msg → Nat
  | 0, _, _ => 0
  | fuel + 1, path, m =>
    let out := allSent (handle (env path).node (env path).conn (unpackSrc (env path).bound m)).1
    (out.zipIdx.map fun x => 1 + traffic env fuel (x.2 :: path) x.1).sum

theorem ring_rsp (p : List Nat) (m : Msg) (hr : m.rsp = true) (ht : m.to = 50) :
    ∃ k, allSent (handle (ringEnv p).node (ringEnv p).conn (unpackSrc (ringEnv p).bound m)).1 = [k] ∧ k.rsp = true ∧ k.to = 50 := by
  have h3 : p.length % 3 < 3 := Nat.mod_lt _ (by decide)
  have hadd : (p.length + 2) % 3 = (p.length % 3 + 2) % 3 := by omega
  unfold ringEnv
  rw [hadd]
  generalize p.length % 3 = j at h3
  obtain ⟨rsp, version, src, ret, seq, from_, to, router, needRsp, content⟩ := m
  simp only at hr ht
  subst hr ht
  rcases j with _ | _ | _ | j
  · exact ⟨_, rfl, rfl, rfl⟩
  · exact ⟨_, rfl, rfl, rfl⟩
  · exact ⟨_, rfl, rfl, rfl⟩
  · omega

theorem ring_traffic (fuel : Nat) (p : List Nat) (m : Msg) (hr : m.rsp = true) (ht : m.to = 50) :
    traffic ringEnv fuel p m = fuel := by
  induction fuel generalizing p m with
  | zero => rfl
  | succ fuel ih =>
    obtain ⟨k, hk, h1, h2⟩ := ring_rsp p m hr ht
    unfold traffic
    simp only [hk, List.zipIdx_cons, List.zipIdx_nil, List.map_cons, List.map_nil, List.sum_cons, List.sum_nil, Nat.zero_add,
      Nat.add_zero, ih _ k h1 h2]
    omega

/-- C35 is false as stated: responses have no hop limit.  In a ring of three nodes with limit 2 one request causes
unboundedly many transmissions, because its error response circulates for ever. -/
theorem C35_response_loop_false : ∃ (env : List Nat → Stop) (m : Msg), m.rsp = false ∧ (∀ p, (env p).node.ttl = 2) ∧
    ∀ N, ∃ fuel, N ≤ traffic env fuel [] m := by
  refine ⟨ringEnv, { from_ := 50, to := 60, src := 3, router := [3, 1] }, rfl, fun _ => rfl, fun N => ⟨N + 1, ?_⟩⟩
  have h : allSent (handle (ringEnv []).node (ringEnv []).conn (unpackSrc (ringEnv []).bound
      { from_ := 50, to := 60, src := 3, router := [3, 1] })).1 =
    [{ rsp := true, ret := Err.ATNODE_TTL, from_ := 60, to := 50, src := 1, router := [3, 1] }] := by decide
  unfold traffic
  simp only [h, List.zipIdx_cons, List.zipIdx_nil, List.map_cons, List.map_nil, List.sum_cons, List.sum_nil, Nat.zero_add,
      Nat.add_zero]
  rw [ring_traffic N [0] _ rfl rfl]
  omega

/-! ### C38 -/

/-- C38 for messages of a supported version: on a connection that has not completed registration (its state is not
CONNECTED) nothing at all happens.  Missing: requests of an unsupported version (`C38_version_false`). -/
theorem C38_unregistered_partial (n : Node) (m : Msg) (hv : m.rsp = true ∨ n.minVersion ≤ m.version) :
    handle n (some false) m = ([], Err.NOT_READY) := by
  unfold handle
  split
  · simp [transferRsp]
  · have : ¬ m.version < n.minVersion := by
      rcases hv with h | h
      · contradiction
      · omega
    simp [transferReq, this]

/-- C38: messages that come from no connection are accepted only if the node itself is the sender. -/
theorem C38_no_connection (n : Node) (m : Msg) (hs : m.src ≠ n.id) (hv : m.rsp = true ∨ n.minVersion ≤ m.version) :
    handle n none m = ([], Err.BAD_DATA) := by
  unfold handle
  split
  · simp [transferRsp, hs]
  · have : ¬ m.version < n.minVersion := by
      rcases hv with h | h
      · contradiction
      · omega
    simp [transferReq, this, hs]

/-- C38 is false: a request of an unsupported version received on an unregistered connection is answered to whatever
node it names as origin. -/
theorem C38_version_false : ∃ (n : Node) (m : Msg) (e : Ep) (c : Nat) (k : Msg), m.version < n.minVersion ∧
    .sent e c k ∈ (handle n (some false) m).1 ∧ k.content = m.content ∧ k.to = m.from_ ∧ e.id = m.from_ := by
  refine ⟨demo, { version := 1, from_ := 17, to := 20, src := 77, content := [6, 6, 6] }, ⟨1, 17, [⟨17, 17, 0⟩]⟩, 41,
    { rsp := true, ret := Err.UNSUPPORTED_VERSION, version := 1, from_ := 20, to := 17, src := 16, router := [16],
      content := [6, 6, 6] }, by decide, by decide, rfl, rfl, rfl⟩

/-! ### C48 -/

/-- Everything that happens to a request on its way: it is handled at the first stop, and the copy passed on is handled
at the next one.  `none`: the list of stops ends while a copy is still travelling. -/
def journey : List Stop → Msg → Option (List Eff)
  | [], _ => none
  | s :: ss, m =>
    let es := (transferReq s.node s.conn (unpackSrc s.bound m)).1
    match sentReqs es with
    | [] => some es
    | k :: _ => (journey ss k).map (es ++ ·)

/-- The deliveries to the application. -/
def deliveries (es : List Eff) : List Msg :=
  es.filterMap fun x => match x with
    | .deliver m => some m
    | _ => none

@[simp] theorem deliveries_append (a b : List Eff) : deliveries (a ++ b) = deliveries a ++ deliveries b := List.filterMap_append

/-- The node can answer the origin `o`: it has a control connection towards it that accepts messages. -/
def CanAnswer (n : Node) (o : Nat) : Prop :=
  n.created = false ∧ o ≠ n.id ∧ ∃ e c, remoteChannel n n.ctrlConn o = (Err.SUCCESS, some e, some c) ∧ ∀ m, 0 ≤ n.push c m

theorem answer_one (n : Node) (v : Msg) (code : Int) (h : CanAnswer n v.from_) :
    answers (sendTransferRsp n v code).1 = [transferRspMsg n v code] := by
  obtain ⟨h1, h2, e, c, h3, h4⟩ := h
  have h4' := h4 (transferRspMsg n v code)
  have : ¬ n.push c (transferRspMsg n v code) < 0 := by omega
  have hr : (transferRspMsg n v code).rsp = true := rfl
  unfold sendTransferRsp sendMsg
  rw [if_neg (by simp [h1]), if_neg h2]
  simp [h3, this, Err.SUCCESS, answers, hr]

theorem answer_deliv (n : Node) (v : Msg) (code : Int) : deliveries (sendTransferRsp n v code).1 = [] := by
  unfold deliveries
  rw [List.filterMap_eq_nil_iff]
  intro x hx
  rcases (rsp_effects n v code).2.1 x hx with rfl | ⟨_, _, rfl | rfl⟩ <;> rfl

/-- A fitting answer to the request `m`. -/
def Answers (m a : Msg) : Prop := a.rsp = true ∧ a.from_ = m.to ∧ a.to = m.from_ ∧ a.seq = m.seq

theorem forwardReq_answers (n : Node) (m : Msg) (hreq : m.rsp = false) (hans : CanAnswer n m.from_)
    (hdown : m.needRsp = true → n.isChild m.to = true) :
    deliveries (forwardReq n m).1 = [] ∧
    ((sentReqs (forwardReq n m).1 = [passed n m] ∧ answers (forwardReq n m).1 = []) ∨
     (sentReqs (forwardReq n m).1 = [] ∧ ∃ a, answers (forwardReq n m).1 = [a] ∧ a.ret < 0 ∧ Answers m a)) := by
  have h1 := forward_step n m { m with router := m.router ++ [n.id] } m.to rfl hreq
  have h2 := second_spec n m hreq
  obtain ⟨r, hr⟩ : ∃ r, r = forwardData n { m with router := m.router ++ [n.id] } m.src m.to := ⟨_, rfl⟩
  obtain ⟨q, hq⟩ : ∃ q, q = second n m.src r := ⟨_, rfl⟩
  have heq := forwardReq_eq n m
  simp only [← hr] at h1 h2 heq
  simp only [← hq] at h2 heq
  obtain ⟨a1, a2, a3, a4, _⟩ := h1
  obtain ⟨b1, b2, b3, b4⟩ := h2
  have hdel : ∀ l : List Eff, (∀ x ∈ l, Attempt n m x) → deliveries l = [] := by
    intro l hl
    unfold deliveries
    rw [List.filterMap_eq_nil_iff]
    intro x hx
    obtain ⟨_, _, h, _⟩ := hl x hx
    rcases h with rfl | rfl <;> rfl
  have hto : r.2.2.2.to = m.to := by have := congrArg Msg.to a4; exact this
  have qto : q.2.2.to = m.to := by have := congrArg Msg.to b4; exact this
  have qfrom : q.2.2.from_ = m.from_ := by have := congrArg Msg.from_ b4; exact this
  have qseq : q.2.2.seq = m.seq := by have := congrArg Msg.seq b4; exact this
  have qneed : q.2.2.needRsp = m.needRsp := by have := congrArg Msg.needRsp b4; exact this
  rw [heq, hto, qneed]
  by_cases hc : r.2.1 ≥ 0 ∧ n.isChild m.to = true
  · rw [if_pos hc]
    have hs : sentReqs r.1 = [passed n m] := by
      rcases a3 with h | h
      · omega
      · exact h.2
    split
    · split
      · exact ⟨by rw [deliveries_append, hdel _ a1]; rfl,
          Or.inl ⟨by rw [sentReqs_append, hs]; rfl, by rw [answers_append, a2]; rfl⟩⟩
      · exact ⟨hdel _ a1, Or.inl ⟨hs, a2⟩⟩
    · exact ⟨hdel _ a1, Or.inl ⟨hs, a2⟩⟩
  · rw [if_neg hc]
    -- with the flag a request that is not answered here failed
    have hneg : m.needRsp = true → q.2.1 < 0 := by
      intro hn
      have hch := hdown hn
      have : r.2.1 < 0 := by
        have : ¬ r.2.1 ≥ 0 := fun h => hc ⟨h, hch⟩
        omega
      rw [hq, second, if_neg (by rw [hto, hch]; simp)]
      exact this
    by_cases hf : q.2.1 < 0
    · rw [if_pos (Or.inl hf)]
      have hs : sentReqs q.1 = [] := by
        rcases b3 with h | h
        · exact h.2
        · omega
      refine ⟨by rw [deliveries_append, hdel _ b1, answer_deliv]; rfl, Or.inr ⟨?_, transferRspMsg n q.2.2 q.2.1, ?_, hf, rfl, ?_⟩⟩
      · rw [sentReqs_append, hs, (rsp_effects n _ _).1]; rfl
      · rw [answers_append, b2, answer_one n _ _ (by rw [qfrom]; exact hans)]; rfl
      · exact ⟨qto, qfrom, qseq⟩
    · rw [if_neg (by rintro (h | h); exact hf h; exact hf (hneg h))]
      have hs : sentReqs q.1 = [passed n m] := by
        rcases b3 with h | h
        · exact absurd h.1 hf
        · exact h.2
      exact ⟨hdel _ b1, Or.inl ⟨hs, b2⟩⟩

/-- One stop of the journey. -/
theorem stop_answers (n : Node) (m : Msg) (hreq : m.rsp = false) (hans : CanAnswer n m.from_)
    (hdown : m.needRsp = true → n.isChild m.to = true ∨ m.to = n.id) :
    (deliveries (transferReq n (some true) m).1 = [] ∧
      ((sentReqs (transferReq n (some true) m).1 = [passed n m] ∧ answers (transferReq n (some true) m).1 = []) ∨
       (sentReqs (transferReq n (some true) m).1 = [] ∧
        ∃ a, answers (transferReq n (some true) m).1 = [a] ∧ a.ret < 0 ∧ Answers m a))) ∨
    (deliveries (transferReq n (some true) m).1 = [m] ∧ sentReqs (transferReq n (some true) m).1 = [] ∧ m.to = n.id ∧
      (m.needRsp = true → ∃ a, answers (transferReq n (some true) m).1 = [a] ∧ a.ret = 0 ∧ a.src = m.to ∧ Answers m a) ∧
      (m.needRsp = false → answers (transferReq n (some true) m).1 = [])) := by
  have herr : ∀ code : Int, code < 0 → _ := fun code (hc : code < 0) =>
    (show deliveries (sendTransferRsp n m code).1 = [] ∧ (sentReqs (sendTransferRsp n m code).1 = [] ∧
      ∃ a, answers (sendTransferRsp n m code).1 = [a] ∧ a.ret < 0 ∧ Answers m a) from
      ⟨answer_deliv n m code, (rsp_effects n m code).1, _, answer_one n m code hans, hc, rfl, rfl, rfl, rfl⟩)
  unfold transferReq
  split
  · left; have := herr Err.UNSUPPORTED_VERSION (by decide); exact ⟨this.1, Or.inr this.2⟩
  rw [if_neg (by simp), if_neg (by simp)]
  split
  · rename_i hto
    right
    by_cases hn : m.needRsp = true
    · simp only [hn, if_true]
      refine ⟨?_, ?_, hto, fun _ => ⟨transferRspMsg n m Err.SUCCESS, ?_, rfl, hto.symm, rfl, rfl, rfl, rfl⟩, by simp⟩
      · have := answer_deliv n m Err.SUCCESS
        simpa [deliveries] using this
      · have := (rsp_effects n m Err.SUCCESS).1
        simpa [sentReqs] using this
      · have := answer_one n m Err.SUCCESS hans
        simpa [answers] using this
    · have hn' : m.needRsp = false := by simpa using hn
      simp [hn', hto, deliveries, sentReqs, answers]
  · rename_i hto
    left
    split
    · have := herr Err.ATNODE_TTL (by decide); exact ⟨this.1, Or.inr this.2⟩
    · exact forwardReq_answers n m hreq hans (fun h => (hdown h).resolve_right hto)

/-- C48, for requests that only travel downwards (or do not ask for a response), over connected links and with a way
back at every stop, however many stops there are and wherever it fails.  If it is delivered, there is exactly one
answer if the flag is set, from the destination and with code 0, and none otherwise; if it is not delivered there is exactly
one answer, with an error code.
Missing: requests with the flag that travel upwards, for which it is false (`C48_upward_false`). -/
theorem C48_one_answer_partial (ss : List Stop) (m : Msg) (hreq : m.rsp = false)
    (hconn : ∀ s ∈ ss, s.conn = some true) (hans : ∀ s ∈ ss, CanAnswer s.node m.from_)
    (hdown : m.needRsp = true → ∀ s ∈ ss, s.node.isChild m.to = true ∨ m.to = s.node.id)
    (es : List Eff) (hj : journey ss m = some es) :
    ((∃ k, deliveries es = [k] ∧ k.content = m.content ∧ k.seq = m.seq) ∧
      (m.needRsp = true → ∃ a, answers es = [a] ∧ a.ret = 0 ∧ a.src = m.to ∧ Answers m a) ∧
      (m.needRsp = false → answers es = [])) ∨
    (deliveries es = [] ∧ ∃ a, answers es = [a] ∧ a.ret < 0 ∧ Answers m a) := by
  induction ss generalizing m es with
  | nil => cases hj
  | cons s ss ih =>
    obtain ⟨u, hu⟩ : ∃ u, u = unpackSrc s.bound m := ⟨_, rfl⟩
    have hue : u = { m with src := u.src } := by
      rw [hu]; unfold unpackSrc; split
      · rfl
      · split <;> rfl
    have hc := hconn s (by simp)
    unfold journey at hj
    simp only [← hu, hc] at hj
    have hstop := stop_answers s.node u (by rw [hue]; exact hreq) (by rw [hue]; exact hans s (by simp))
      (by rw [hue]; exact fun h => hdown h s (by simp))
    have hA : ∀ a, Answers u a ↔ Answers m a := by intro a; rw [hue]; exact Iff.rfl
    have hto : u.to = m.to := by rw [hue]
    have hneed : u.needRsp = m.needRsp := by rw [hue]
    rcases hstop with ⟨hd, ⟨hs, ha⟩ | ⟨hs, a, ha, hlt, hfit⟩⟩ | ⟨hd, hs, _, h1, h0⟩
    · rw [hs] at hj
      simp only [Option.map_eq_some_iff] at hj
      obtain ⟨es', hj', rfl⟩ := hj
      have hp : passed s.node u = { m with src := s.node.id, router := u.router ++ [s.node.id] } := by
        unfold passed; rw [hue]
      have := ih (passed s.node u) (by rw [hp]; exact hreq) (fun t ht => hconn t (by simp [ht]))
        (by rw [hp]; exact fun t ht => hans t (by simp [ht])) (by rw [hp]; exact fun h t ht => hdown h t (by simp [ht])) es' hj'
      rw [deliveries_append, answers_append, hd, ha, List.nil_append, List.nil_append]
      rw [hp] at this
      exact this
    · rw [hs] at hj; cases hj
      right; exact ⟨hd, a, ha, hlt, (hA a).mp hfit⟩
    · rw [hs] at hj; cases hj
      left
      refine ⟨⟨u, hd, by rw [hue], by rw [hue]⟩, ?_, ?_⟩
      · intro h
        obtain ⟨a, q1, q2, q3, q4⟩ := h1 (by rw [hneed]; exact h)
        exact ⟨a, q1, q2, by rw [q3, hto], (hA a).mp q4⟩
      · intro h; exact h0 (by rw [hneed]; exact h)

/-- The node 20 under `demo`, with its own subnet. -/
def demoChild : Node where
  id := 20
  subnets := [⟨20, 23, 2⟩]
  parent := some ⟨9, 16, [⟨16, 31, 4⟩]⟩
  routes := [(⟨22, 22, 0⟩, ⟨1, 22, [⟨22, 22, 0⟩]⟩)]
  dataConn := fun r => if r = 0 then none else some (r + 40)
  ctrlConn := fun r => if r = 0 then none else some (r + 40)
  push := fun _ _ => 0

/-- The node 22 under `demoChild`. -/
def demoLeaf : Node := { demoChild with id := 22, subnets := [⟨22, 22, 0⟩], routes := [], parent := some ⟨9, 20, [⟨20, 23, 2⟩]⟩ }

/-- A request from the parent 100 down to 22 over three nodes: one delivery, one answer by the destination. -/
example : (journey [⟨demo, some true, some 100⟩, ⟨demoChild, some true, some 16⟩, ⟨demoLeaf, some true, some 20⟩]
    { from_ := 100, to := 22, seq := 5, router := [100], needRsp := true, content := [7] }).map
      (fun es => ((deliveries es).map Msg.content, (answers es).map fun a => (a.src, a.ret, a.seq))) =
    some ([[7]], [(22, 0, 5)]) := by decide

/-- The same request to a missing leaf 23: one error answer, by the node where it fails. -/
example : (journey [⟨demo, some true, some 100⟩, ⟨demoChild, some true, some 16⟩]
    { from_ := 100, to := 23, seq := 5, router := [100], needRsp := true, content := [7] }).map
      (fun es => ((deliveries es).map Msg.content, (answers es).map fun a => (a.src, a.ret, a.seq))) =
    some ([], [(20, Err.ATNODE_INVALID_ID, 5)]) := by decide

/-- C48 is false for requests that travel upwards: the node 20 passes the request of its child 22 up to its parent and
also answers it, so the sender gets two answers with code 0. -/
theorem C48_upward_false : ∃ (ss : List Stop) (m : Msg) (es : List Eff), m.needRsp = true ∧ m.rsp = false ∧
    (∀ s ∈ ss, s.conn = some true ∧ CanAnswer s.node m.from_) ∧
    journey ss m = some es ∧ (deliveries es).length = 1 ∧ (answers es).map (fun a => (a.src, a.ret)) = [(20, 0), (16, 0)] := by
  have h : (journey [⟨demoChild, some true, some 22⟩, ⟨demo, some true, some 20⟩]
      { from_ := 22, to := 16, seq := 5, router := [22], needRsp := true, content := [7] }).map
        (fun es => ((deliveries es).length, (answers es).map fun a => (a.src, a.ret))) = some (1, [(20, 0), (16, 0)]) := by decide
  rw [Option.map_eq_some_iff] at h
  obtain ⟨es, h1, h2⟩ := h
  simp only [Prod.mk.injEq] at h2
  refine ⟨_, _, es, rfl, rfl, ?_, h1, h2.1, h2.2⟩
  intro s hs
  simp only [List.mem_cons, List.not_mem_nil, or_false] at hs
  rcases hs with rfl | rfl
  · exact ⟨rfl, rfl, by decide, ⟨1, 22, [⟨22, 22, 0⟩]⟩, 41, by decide, fun _ => Int.le_refl _⟩
  · exact ⟨rfl, rfl, by decide, ⟨2, 20, [⟨20, 23, 2⟩]⟩, 42, by decide, fun _ => Int.le_refl _⟩

end Verif.Node
