import Verif.Node.Forward

/-! Lemmas about the next hop decision and the data message handlers. -/
namespace Verif.Node

open Verif.Subnet (Rng Ep Table findRoute)

/-- Every endpoint returned is looked up with the given function, and without a usable connection the code is negative. -/
theorem remoteChannel_shape (n : Node) (fn : Nat → Option Nat) (tid : Nat) :
    (∃ e c, remoteChannel n fn tid = (Err.SUCCESS, some e, some c) ∧ fn e.ref = some c) ∨
    ((remoteChannel n fn tid).1 < 0 ∧ (remoteChannel n fn tid).2.2 = none) := by
  have huse : ∀ e : Ep, (∃ e' c, useChannel fn e = (Err.SUCCESS, some e', some c) ∧ fn e'.ref = some c) ∨
      ((useChannel fn e).1 < 0 ∧ (useChannel fn e).2.2 = none) := by
    intro e
    unfold useChannel finishChannel
    cases h : fn e.ref with
    | none => right; exact ⟨(by decide : Err.ATNODE_NO_CONNECTION < 0), rfl⟩
    | some c => left; exact ⟨e, c, rfl, h⟩
  unfold remoteChannel
  split
  · right; exact ⟨by decide, rfl⟩
  split
  · right; exact ⟨by decide, rfl⟩
  split
  · exact huse _
  split
  · exact huse _
  split
  · right; exact ⟨by decide, rfl⟩
  split
  · exact huse _
  · right
    cases findRoute n.routes tid
    · exact ⟨(by decide : Err.ATNODE_INVALID_ID < 0), rfl⟩
    · exact ⟨(by decide : Err.ATNODE_NO_CONNECTION < 0), rfl⟩

/-- What `forward_data_message` does: nothing, with an error, or one attempt. -/
theorem forwardData_cases (n : Node) (m : Msg) (f t : Nat) :
    (∃ r e, forwardData n m f t = ([], r, e, m) ∧ r < 0) ∨
    (∃ e c, t ≠ 0 ∧ n.id ≠ t ∧ remoteChannel n n.dataConn t = (Err.SUCCESS, some e, some c) ∧ n.dataConn e.ref = some c ∧
      (f ≠ 0 → e.id ≠ f) ∧
      forwardData n m f t = (if n.push c { m with src := n.id } < 0 then [.refused e c { m with src := n.id }]
        else [.sent e c { m with src := n.id }], n.push c { m with src := n.id }, some e, { m with src := n.id })) := by
  unfold forwardData
  split
  · left; exact ⟨_, _, rfl, by decide⟩
  split
  · left; exact ⟨_, _, rfl, by decide⟩
  rename_i h1 h2
  rcases remoteChannel_shape n n.dataConn t with ⟨e, c, h, hc⟩ | ⟨h, hn⟩
  · simp only [h]
    split
    · left; exact ⟨_, _, rfl, by decide⟩
    · rename_i hf
      right
      refine ⟨e, c, h1, h2, rfl, hc, ?_, rfl⟩
      intro h3 h4; exact hf ⟨h3, h4⟩
  · left
    obtain ⟨⟨r, e, c⟩, hx⟩ : ∃ x, remoteChannel n n.dataConn t = x := ⟨_, rfl⟩
    rw [hx] at h hn ⊢
    simp only at h hn
    subst hn
    cases e <;> exact ⟨_, _, rfl, h⟩

/-- Effects of sending a message: an error without effect, or one attempt with exactly this message. -/
theorem sendMsg_cases (n : Node) (fn : Nat → Option Nat) (tid : Nat) (m : Msg) :
    (∃ r, sendMsg n fn tid m = ([], r) ∧ r < 0) ∨
    (tid = n.id ∧ sendMsg n fn tid m = ([.toSelf m], Err.SUCCESS)) ∨
    (∃ e c, tid ≠ n.id ∧ remoteChannel n fn tid = (Err.SUCCESS, some e, some c) ∧ fn e.ref = some c ∧
      sendMsg n fn tid m = (if n.push c m < 0 then [.refused e c m] else [.sent e c m], n.push c m)) := by
  unfold sendMsg
  split
  · left; exact ⟨_, rfl, by decide⟩
  split
  · right; left; rename_i h; exact ⟨h, rfl⟩
  rename_i h1 h2
  rcases remoteChannel_shape n fn tid with ⟨e, c, h, hc⟩ | ⟨h, hn⟩
  · right; right
    refine ⟨e, c, h2, h, hc, ?_⟩
    simp only [h]
    rw [if_neg (by decide)]
    split <;> rfl
  · left
    obtain ⟨⟨r, e, c⟩, hx⟩ : ∃ x, remoteChannel n fn tid = x := ⟨_, rfl⟩
    rw [hx] at h hn ⊢
    simp only at h hn
    subst hn
    refine ⟨r, ?_, h⟩
    cases e <;> simp [h]

/-- Requests accepted for transmission, and answers accepted for transmission.  (An answer queued for the node itself
is never delivered, see `C48_self_answer_false`.) -/
def sentReqs (es : List Eff) : List Msg :=
  es.filterMap fun x => match x with
    | .sent _ _ m => if m.rsp then none else some m
    | _ => none

/-- Answers that were sent. -/
def answers (es : List Eff) : List Msg :=
  es.filterMap fun x => match x with
    | .sent _ _ m => if m.rsp then some m else none
    | _ => none

@[simp] theorem sentReqs_append (a b : List Eff) : sentReqs (a ++ b) = sentReqs a ++ sentReqs b := List.filterMap_append
@[simp] theorem answers_append (a b : List Eff) : answers (a ++ b) = answers a ++ answers b := List.filterMap_append

/-- The copy of a request that node `n` passes on. -/
def passed (n : Node) (m : Msg) : Msg := { m with router := m.router ++ [n.id], src := n.id }

/-- The answer to a request has no request among its effects, and at most one attempt of the answer itself. -/
theorem rsp_effects (n : Node) (m : Msg) (code : Int) :
    sentReqs (sendTransferRsp n m code).1 = [] ∧
    (∀ x ∈ (sendTransferRsp n m code).1, x = .toSelf (transferRspMsg n m code) ∨
      ∃ e c, x = .sent e c (transferRspMsg n m code) ∨ x = .refused e c (transferRspMsg n m code)) ∧
    (answers (sendTransferRsp n m code).1 = [] ∨ answers (sendTransferRsp n m code).1 = [transferRspMsg n m code]) := by
  have hr : (transferRspMsg n m code).rsp = true := rfl
  unfold sendTransferRsp
  rcases sendMsg_cases n n.ctrlConn m.from_ (transferRspMsg n m code) with ⟨r, h, _⟩ | ⟨_, h⟩ | ⟨e, c, _, _, _, h⟩
  · rw [h]; simp [sentReqs, answers]
  · rw [h]; simp [sentReqs, answers, hr]
  · rw [h]
    by_cases hp : n.push c (transferRspMsg n m code) < 0
    · simp [sentReqs, answers, hr, hp]
    · simp [sentReqs, answers, hr, hp]

/-- One attempt to pass a request on. -/
structure Attempt (n : Node) (m : Msg) (x : Eff) : Prop where
  attempt : ∃ e c, (x = .sent e c (passed n m) ∨ x = .refused e c (passed n m)) ∧ n.dataConn e.ref = some c ∧
    (m.src ≠ 0 → e.id ≠ m.src)

/-- What one `forward_data_message` call of the forwarding part contributes; `k` is the message before or after an
earlier attempt. -/
theorem forward_step (n : Node) (m k : Msg) (t : Nat) (hk : { k with src := n.id } = passed n m) (hreq : m.rsp = false) :
    let r := forwardData n k m.src t
    (∀ x ∈ r.1, Attempt n m x) ∧ answers r.1 = [] ∧
    ((r.2.1 < 0 ∧ sentReqs r.1 = []) ∨ (0 ≤ r.2.1 ∧ sentReqs r.1 = [passed n m])) ∧
    { r.2.2.2 with src := n.id } = passed n m ∧ (r.2.2.2 = k ∨ r.2.2.2 = passed n m) := by
  have hp : (passed n m).rsp = false := hreq
  intro r
  rcases forwardData_cases n k m.src t with ⟨c, e, h, hlt⟩ | ⟨e, c, _, _, _, hc, hf, h⟩
  · have hr : r = ([], c, e, k) := h
    rw [hr]
    exact ⟨by simp, rfl, Or.inl ⟨hlt, rfl⟩, hk, Or.inl rfl⟩
  · rw [hk] at h
    have hr : r = _ := h
    rw [hr]
    by_cases hq : n.push c (passed n m) < 0
    · refine ⟨?_, ?_, Or.inl ⟨hq, ?_⟩, rfl, Or.inr rfl⟩
      · intro x hx
        simp only [hq, if_true, List.mem_singleton] at hx
        exact ⟨e, c, Or.inr hx, hc, hf⟩
      · simp [answers, hq]
      · simp [sentReqs, hq]
    · refine ⟨?_, ?_, Or.inr ⟨by simpa using hq, ?_⟩, rfl, Or.inr rfl⟩
      · intro x hx
        simp only [hq, if_false, List.mem_singleton] at hx
        exact ⟨e, c, Or.inl hx, hc, hf⟩
      · simp [answers, hq, hp]
      · simp [sentReqs, hq, hp]

/-- The part of `forwardReq` between the first attempt and the answer. -/
def second (n : Node) (direct : Nat) (r : List Eff × Int × Option Ep × Msg) : List Eff × Int × Msg :=
  if r.2.1 < 0 ∧ n.isParent r.2.2.2.src = false ∧ n.isChild r.2.2.2.to = false then
    match n.parent with
    | some p =>
      if notParent n r.2.2.1 then
        (r.1 ++ (forwardData n r.2.2.2 direct p.id).1, (forwardData n r.2.2.2 direct p.id).2.1,
          (forwardData n r.2.2.2 direct p.id).2.2.2)
      else (r.1, r.2.1, r.2.2.2)
    | none => (r.1, r.2.1, r.2.2.2)
  else (r.1, r.2.1, r.2.2.2)

/-- `forwardReq` in three cases. -/
theorem forwardReq_eq (n : Node) (m : Msg) :
    let r := forwardData n { m with router := m.router ++ [n.id] } m.src m.to
    let q := second n m.src r
    forwardReq n m =
      if r.2.1 ≥ 0 ∧ n.isChild r.2.2.2.to then
        match r.2.2.1 with
        | some e =>
          if n.listenFd e.ref && n.isChild m.src && n.isChild e.id then (r.1 ++ [.sync m.src e], n.sync m.src e.ref) else (r.1, r.2.1)
        | none => (r.1, r.2.1)
      else if q.2.1 < 0 ∨ q.2.2.needRsp then
        (q.1 ++ (sendTransferRsp n q.2.2 q.2.1).1, (sendTransferRsp n q.2.2 q.2.1).2)
      else (q.1, q.2.1) := by
  rfl

/-- All that is needed about `second`. -/
theorem second_spec (n : Node) (m : Msg) (hreq : m.rsp = false) :
    let r := forwardData n { m with router := m.router ++ [n.id] } m.src m.to
    let q := second n m.src r
    (∀ x ∈ q.1, Attempt n m x) ∧ answers q.1 = [] ∧
    ((q.2.1 < 0 ∧ sentReqs q.1 = []) ∨ (0 ≤ q.2.1 ∧ sentReqs q.1 = [passed n m])) ∧
    { q.2.2 with src := n.id } = passed n m := by
  intro r q
  have h1 := forward_step n m { m with router := m.router ++ [n.id] } m.to rfl hreq
  have base : ((∀ x ∈ r.1, Attempt n m x) ∧ answers r.1 = [] ∧
    ((r.2.1 < 0 ∧ sentReqs r.1 = []) ∨ (0 ≤ r.2.1 ∧ sentReqs r.1 = [passed n m])) ∧
    { r.2.2.2 with src := n.id } = passed n m) := ⟨h1.1, h1.2.1, h1.2.2.1, h1.2.2.2.1⟩
  simp only [q, second]
  split
  · rename_i hc
    split
    · rename_i p hp
      split
      · have h2 := forward_step n m r.2.2.2 p.id base.2.2.2 hreq
        have hs : sentReqs r.1 = [] := by
          rcases base.2.2.1 with h | h
          · exact h.2
          · omega
        refine ⟨?_, ?_, ?_, h2.2.2.2.1⟩
        · intro x hx
          rcases List.mem_append.mp hx with hx | hx
          · exact base.1 x hx
          · exact h2.1 x hx
        · rw [answers_append, base.2.1, h2.2.1]; rfl
        · simp only [sentReqs_append, hs, List.nil_append]; exact h2.2.2.1
      · exact base
    · exact base
  · exact base

end Verif.Node
