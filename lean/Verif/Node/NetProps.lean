import Verif.Node.TreeProps

/-! Property C72: whatever the network looks like and however it changes, no data message is delivered twice, to another
node or altered, and none that was reported as failed is delivered. -/
namespace Verif.Node.Tree

open Verif.Node
open Verif.Subnet (Ep)

/-! ### Specification -/

/-- Nodes keep their ids. -/
def Named (w : World) : Prop := ∀ x n, w.node x = some n → n.id = x

/-- What a connection refused is not sent later. -/
def OnTime (w : World) : Prop := ∀ x, w.late x = false

/-- The end of a message as the applications see it: delivered, or reported as failed: receiver, sender, number. -/
def Ev.fate : Ev → Option (Nat × Nat × Nat)
  | .delivered x m => some (x, m.from_, m.seq)
  | .answered x m => if m.ret < 0 then some (m.from_, x, m.seq) else none

/-! ### What a node does with a message -/

/-- The parts of a message that nobody changes on the way. -/
structure Inert {α : Type} (f : Msg → List α) : Prop where
  way : ∀ m r s, f { m with router := r, src := s } = f m

/-- What a list of effects carries on. -/
def carried {α : Type} (f : Msg → List α) (es : List Eff) : List α := es.flatMap fun x => match x with
  | .sent _ _ m => f m
  | .toSelf m => f m
  | .deliver m => f m
  | .response m => f m
  | _ => []

@[simp] theorem carried_append {α : Type} (f : Msg → List α) (a b : List Eff) : carried f (a ++ b) = carried f a ++ carried f b := List.flatMap_append

/-- What is delivered of a message. -/
def tokD (m : Msg) : List (Nat × Nat × Nat × List Nat) := if m.rsp then [] else [(m.to, m.from_, m.seq, m.content)]

/-- What becomes of a message. -/
def tokF (m : Msg) : List (Nat × Nat × Nat) :=
  if m.rsp then (if m.ret < 0 then [(m.from_, m.to, m.seq)] else []) else [(m.to, m.from_, m.seq)]

theorem sendRsp_carried {α : Type} (f : Msg → List α) (n : Node) (m : Msg) (code : Int) :
    carried f (sendTransferRsp n m code).1 = [] ∨ carried f (sendTransferRsp n m code).1 = f (transferRspMsg n m code) := by
  unfold sendTransferRsp
  rcases sendMsg_cases n n.ctrlConn m.from_ (transferRspMsg n m code) with ⟨r, h, _⟩ | ⟨_, h⟩ | ⟨e, c, _, _, _, h⟩
  · rw [h]; exact .inl rfl
  · rw [h]; exact .inr (by simp [carried])
  · rw [h]
    by_cases hp : n.push c (transferRspMsg n m code) < 0
    · simp [carried, hp]
    · simp [carried, hp]

/-- One attempt to pass a message on: it is passed on, or the code is negative and nothing is sent. -/
theorem forwardData_carried {α : Type} {f : Msg → List α} (hf : Inert f) (n : Node) (m : Msg) (a t : Nat) :
    let r := forwardData n m a t
    ((0 ≤ r.2.1 ∧ carried f r.1 = f m) ∨ (r.2.1 < 0 ∧ carried f r.1 = [])) ∧ ∃ s, r.2.2.2 = { m with src := s } := by
  intro r
  rcases forwardData_cases n m a t with ⟨c, e, h, hlt⟩ | ⟨e, c, _, _, _, hc, _, h⟩
  · have hr : r = _ := h
    rw [hr]
    exact ⟨.inr ⟨hlt, rfl⟩, m.src, rfl⟩
  · have hr : r = _ := h
    rw [hr]
    refine ⟨?_, n.id, rfl⟩
    by_cases hq : n.push c { m with src := n.id } < 0
    · exact .inr ⟨hq, by simp [carried, hq]⟩
    · refine .inl ⟨by simpa using hq, ?_⟩
      simp only [hq, if_false]
      simp only [carried, List.flatMap_cons, List.flatMap_nil, List.append_nil]
      exact hf.way m m.router n.id

/-- The two functions that the proof follows. -/
structure Rule {α : Type} (f : Msg → List α) : Prop extends Inert f where
  ok : ∀ n m code, m.rsp = false → 0 ≤ code → f (transferRspMsg n m code) = []
  bad : ∀ n m code, m.rsp = false → code < 0 → f (transferRspMsg n m code) = [] ∨ f (transferRspMsg n m code) = f m
  fake : ∀ m : Msg, f { m with rsp := true, ret := 0 } = []

theorem tokD_rule : Rule tokD where
  way := fun m r s => rfl
  ok := fun n m code _ _ => rfl
  bad := fun n m code _ _ => .inl rfl
  fake := fun m => rfl

theorem tokF_rule : Rule tokF where
  way := fun m r s => rfl
  ok := fun n m code _ h => by show (if code < 0 then _ else []) = _; exact if_neg (by omega)
  bad := fun n m code h k => .inr (by simp [tokF, transferRspMsg, h, k])
  fake := fun m => rfl

theorem forwardReq_carried {α : Type} {f : Msg → List α} (hf : Rule f) (n : Node) (m : Msg) (hreq : m.rsp = false) :
    carried f (forwardReq n m).1 = [] ∨ carried f (forwardReq n m).1 = f m := by
  have first := forwardData_carried hf.toInert n { m with router := m.router ++ [n.id] } m.src m.to
  rw [forwardReq_eq]
  dsimp only at first ⊢
  generalize forwardData n { m with router := m.router ++ [n.id] } m.src m.to = r at first
  have fm : f { m with router := m.router ++ [n.id] } = f m := hf.way m (m.router ++ [n.id]) m.src
  obtain ⟨f1, s, f2⟩ := first
  rw [fm] at f1
  have sec : ((0 ≤ (second n m.src r).2.1 ∧ carried f (second n m.src r).1 = f m) ∨
      ((second n m.src r).2.1 < 0 ∧ carried f (second n m.src r).1 = [])) ∧
      ∃ s, (second n m.src r).2.2 = { m with router := m.router ++ [n.id], src := s } := by
    unfold second
    split
    · rename_i hc
      split
      · rename_i p hp
        split
        · have k := forwardData_carried hf.toInert n r.2.2.2 m.src p.id
          dsimp only at k
          obtain ⟨k1, s', k2⟩ := k
          have e0 : carried f r.1 = [] := by
            rcases f1 with ⟨a, _⟩ | ⟨_, a⟩
            · omega
            · exact a
          refine ⟨?_, s', ?_⟩
          · rw [carried_append, e0, List.nil_append]
            have : f r.2.2.2 = f m := by rw [f2]; exact hf.way m (m.router ++ [n.id]) s
            rw [this] at k1
            exact k1
          · rw [k2, f2]
        · exact ⟨f1, s, f2⟩
      · exact ⟨f1, s, f2⟩
    · exact ⟨f1, s, f2⟩
  have f3 : carried f r.1 = [] ∨ carried f r.1 = f m := by
    rcases f1 with ⟨_, a⟩ | ⟨_, a⟩
    · exact .inr a
    · exact .inl a
  split
  · split
    · split
      · rw [carried_append]
        have : ∀ (d : Nat) (e : Ep), carried f [Eff.sync d e] = [] := fun _ _ => rfl
        rw [this, List.append_nil]
        exact f3
      · exact f3
    · exact f3
  · obtain ⟨s1, s', s2⟩ := sec
    have g : ∀ code, 0 ≤ code → f (transferRspMsg n (second n m.src r).2.2 code) = [] := by
      intro code hc; exact hf.ok _ _ _ (by rw [s2]; exact hreq) hc
    have b : ∀ code, code < 0 → f (transferRspMsg n (second n m.src r).2.2 code) = [] ∨ f (transferRspMsg n (second n m.src r).2.2 code) = f m := by
      intro code hc
      have := hf.bad n (second n m.src r).2.2 code (by rw [s2]; exact hreq) hc
      have e : f (second n m.src r).2.2 = f m := by rw [s2]; exact hf.way m (m.router ++ [n.id]) s'
      rw [e] at this
      exact this
    split
    · dsimp only
      rw [carried_append]
      rcases s1 with ⟨a1, a2⟩ | ⟨a1, a2⟩
      · rcases sendRsp_carried f n (second n m.src r).2.2 (second n m.src r).2.1 with k | k
        · rw [a2, k, List.append_nil]; exact .inr rfl
        · rw [a2, k, g _ a1, List.append_nil]; exact .inr rfl
      · rcases sendRsp_carried f n (second n m.src r).2.2 (second n m.src r).2.1 with k | k
        · rw [a2, k]; exact .inl rfl
        · rw [a2, k, List.nil_append]; exact b _ a1
    · rcases s1 with ⟨_, a⟩ | ⟨_, a⟩
      · exact .inr a
      · exact .inl a

theorem handle_carried {α : Type} {f : Msg → List α} (hf : Rule f) (n : Node) (c : Option Bool) (m : Msg) :
    carried f (handle n c m).1 = [] ∨ carried f (handle n c m).1 = f m := by
  unfold handle
  split
  · unfold transferRsp
    split
    · exact .inl rfl
    split
    · exact .inl rfl
    split
    · exact .inr (by simp [carried])
    · have k := forwardData_carried hf.toInert n m m.src m.to
      dsimp only at k ⊢
      rcases k.1 with ⟨_, a⟩ | ⟨_, a⟩
      · exact .inr a
      · exact .inl a
  · rename_i hr
    have hreq : m.rsp = false := by simpa using hr
    have rsp : ∀ code, code < 0 → carried f (sendTransferRsp n m code).1 = [] ∨ carried f (sendTransferRsp n m code).1 = f m := by
      intro code hc
      rcases sendRsp_carried f n m code with k | k
      · exact .inl k
      · rw [k]; exact hf.bad n m code hreq hc
    unfold transferReq
    split
    · exact rsp _ (by decide)
    split
    · exact .inl rfl
    split
    · exact .inl rfl
    split
    · split
      · have k := sendRsp_carried f n m Err.SUCCESS
        rw [hf.ok n m Err.SUCCESS hreq (by decide), or_self] at k
        refine .inr ?_
        dsimp only
        show f m ++ carried f (sendTransferRsp n m Err.SUCCESS).1 = f m
        rw [k, List.append_nil]
      · exact .inr (by simp [carried])
    split
    · exact rsp _ (by decide)
    · exact forwardReq_carried hf n m hreq

theorem own_carried {α : Type} {f : Msg → List α} (hf : Rule f) (m : Msg) : carried f (ownQueue m) = [] ∨ carried f (ownQueue m) = f m := by
  unfold ownQueue
  split
  · exact .inl rfl
  · refine .inr ?_
    split
    · simp [carried, hf.fake]
    · simp [carried]

/-- A message that a node makes of another one. -/
def Child (m k : Msg) : Prop :=
  (∃ r s, k = { m with router := r, src := s }) ∨
  (m.rsp = false ∧ k.rsp = true ∧ k.to = m.from_ ∧ k.from_ = m.to ∧ k.seq = m.seq ∧ (0 ≤ k.ret → m.needRsp = true))

/-- What is known of an effect of node `x` that handles `m`. -/
def EffOk (x : Nat) (m : Msg) : Eff → Prop
  | .sent _ _ k => Child m k
  | .toSelf k => Child m k ∧ k.rsp = true ∧ k.to = x
  | .deliver k => Child m k ∧ k.rsp = false ∧ k.to = x
  | .response k => Child m k ∧ k.rsp = true ∧ k.to = x
  | _ => True

theorem sendRsp_eff (n : Node) (m : Msg) (code : Int) (hreq : m.rsp = false) (hc : 0 ≤ code → m.needRsp = true) (x : Eff)
    (hx : x ∈ (sendTransferRsp n m code).1) : EffOk n.id m x := by
  have c : Child m (transferRspMsg n m code) := .inr ⟨hreq, rfl, rfl, rfl, rfl, hc⟩
  unfold sendTransferRsp at hx
  rcases sendMsg_cases n n.ctrlConn m.from_ (transferRspMsg n m code) with ⟨r, h, _⟩ | ⟨e, h⟩ | ⟨e, d, _, _, _, h⟩
  · rw [h] at hx; cases hx
  · rw [h] at hx
    rw [List.mem_singleton.1 hx]
    exact ⟨c, rfl, e⟩
  · rw [h] at hx
    dsimp only at hx
    split at hx
    · rw [List.mem_singleton.1 hx]; trivial
    · rw [List.mem_singleton.1 hx]; exact c

theorem forwardData_eff (n : Node) (m : Msg) (a t : Nat) :
    let r := forwardData n m a t
    (∀ x ∈ r.1, EffOk n.id m x) ∧ ∃ s, r.2.2.2 = { m with src := s } := by
  intro r
  rcases forwardData_cases n m a t with ⟨c, e, h, hlt⟩ | ⟨e, c, _, _, _, hc, _, h⟩
  · have hr : r = _ := h
    rw [hr]
    exact ⟨by simp, m.src, rfl⟩
  · have hr : r = _ := h
    rw [hr]
    refine ⟨fun x hx => ?_, n.id, rfl⟩
    dsimp only at hx
    split at hx
    · rw [List.mem_singleton.1 hx]; trivial
    · rw [List.mem_singleton.1 hx]; exact .inl ⟨m.router, n.id, rfl⟩

theorem Child.of {m k : Msg} {r : List Nat} {s : Nat} (h : Child { m with router := r, src := s } k) : Child m k := by
  rcases h with ⟨r', s', h⟩ | h
  · exact .inl ⟨r', s', h⟩
  · exact .inr h

theorem EffOk.of {x : Nat} {m : Msg} {r : List Nat} {s : Nat} {e : Eff} (h : EffOk x { m with router := r, src := s } e) : EffOk x m e := by
  cases e with
  | sent e c k => exact Child.of h
  | toSelf k => exact ⟨Child.of h.1, h.2⟩
  | deliver k => exact ⟨Child.of h.1, h.2⟩
  | response k => exact ⟨Child.of h.1, h.2⟩
  | refused e c k => trivial
  | sync d e => trivial

theorem forwardReq_eff (n : Node) (m : Msg) (hreq : m.rsp = false) (x : Eff) (hx : x ∈ (forwardReq n m).1) : EffOk n.id m x := by
  have first := forwardData_eff n { m with router := m.router ++ [n.id] } m.src m.to
  rw [forwardReq_eq] at hx
  dsimp only at first hx
  generalize forwardData n { m with router := m.router ++ [n.id] } m.src m.to = r at first hx
  obtain ⟨f1, s, f2⟩ := first
  have f1 : ∀ x ∈ r.1, EffOk n.id m x := fun x hx => EffOk.of (r := m.router ++ [n.id]) (s := m.src) (f1 x hx)
  have sec : (∀ x ∈ (second n m.src r).1, EffOk n.id m x) ∧ ∃ s, (second n m.src r).2.2 = { m with router := m.router ++ [n.id], src := s } := by
    unfold second
    split
    · split
      · rename_i p hp
        split
        · have k := forwardData_eff n r.2.2.2 m.src p.id
          dsimp only at k
          obtain ⟨k1, s', k2⟩ := k
          refine ⟨fun x hx => ?_, s', by rw [k2, f2]⟩
          rcases List.mem_append.1 hx with hx | hx
          · exact f1 x hx
          · have := k1 x hx
            rw [f2] at this
            exact EffOk.of (r := m.router ++ [n.id]) (s := s) this
        · exact ⟨f1, s, f2⟩
      · exact ⟨f1, s, f2⟩
    · exact ⟨f1, s, f2⟩
  split at hx
  · split at hx
    · split at hx
      · rcases List.mem_append.1 hx with hx | hx
        · exact f1 x hx
        · rw [List.mem_singleton.1 hx]; trivial
      · exact f1 x hx
    · exact f1 x hx
  · obtain ⟨s1, s', s2⟩ := sec
    split at hx
    · next hc =>
      dsimp only at hx
      rcases List.mem_append.1 hx with hx | hx
      · exact s1 x hx
      · have k := sendRsp_eff n (second n m.src r).2.2 (second n m.src r).2.1 (by rw [s2]; exact hreq) (by
          intro k
          rcases hc with hc | hc
          · omega
          · exact hc) x hx
        rw [s2] at k
        exact EffOk.of (r := m.router ++ [n.id]) (s := s') k
    · exact s1 x hx

theorem handle_eff (n : Node) (c : Option Bool) (m : Msg) (x : Eff) (hx : x ∈ (handle n c m).1) : EffOk n.id m x := by
  have self : Child m m := .inl ⟨m.router, m.src, rfl⟩
  unfold handle at hx
  split at hx
  · rename_i hr
    unfold transferRsp at hx
    split at hx
    · cases hx
    split at hx
    · cases hx
    split at hx
    · rename_i e
      rw [List.mem_singleton.1 hx]
      exact ⟨self, hr, e⟩
    · have k := forwardData_eff n m m.src m.to
      exact k.1 x hx
  · rename_i hr
    have hreq : m.rsp = false := by simpa using hr
    unfold transferReq at hx
    split at hx
    · exact sendRsp_eff n m _ hreq (fun k => absurd k (by decide)) x hx
    split at hx
    · cases hx
    split at hx
    · cases hx
    split at hx
    · rename_i e
      split at hx
      · rename_i hneed
        dsimp only at hx
        rcases List.mem_cons.1 hx with hx | hx
        · rw [hx]; exact ⟨self, hreq, e⟩
        · exact sendRsp_eff n m _ hreq (fun _ => hneed) x hx
      · rw [List.mem_singleton.1 hx]; exact ⟨self, hreq, e⟩
    split at hx
    · exact sendRsp_eff n m _ hreq (fun k => absurd k (by decide)) x hx
    · exact forwardReq_eff n m hreq x hx

/-! ### The invariant -/

/-- A message stems from a call. -/
def Stems (acc : List Send) (m : Msg) : Prop :=
  (m.rsp = false ∧ ⟨m.from_, m.to, m.content, m.seq, m.needRsp⟩ ∈ acc) ∨
  (m.rsp = true ∧ ∃ d ∈ acc, d.x = m.to ∧ d.t = m.from_ ∧ d.seq = m.seq ∧ (0 ≤ m.ret → d.need = true))

theorem Stems.child {acc : List Send} {m k : Msg} (h : Stems acc m) (c : Child m k) : Stems acc k := by
  rcases c with ⟨r, s, rfl⟩ | ⟨c1, c2, c3, c4, c5, c6⟩
  · exact h
  · rcases h with ⟨_, h⟩ | ⟨h, _⟩
    · exact .inr ⟨c2, _, h, c3.symm, c4.symm, c5.symm, c6⟩
    · rw [c1] at h; cases h

theorem Stems.mono {a b : List Send} {m : Msg} (h : Stems a m) (k : ∀ d ∈ a, d ∈ b) : Stems b m := by
  rcases h with ⟨h1, h2⟩ | ⟨h1, d, h2, h3⟩
  · exact .inl ⟨h1, k _ h2⟩
  · exact .inr ⟨h1, d, k _ h2, h3⟩

/-- The answer belongs to a call. -/
def Owed (acc : List Send) (a : Nat × Nat × Nat × Bool) : Prop :=
  ∃ d ∈ acc, a.1 = d.x ∧ a.2.1 = d.t ∧ a.2.2.1 = d.seq ∧ (a.2.2.2 = true → d.need = true)

/-- What holds at any time. -/
structure Safe (s : S) : Prop where
  own : ∀ p ∈ s.fly, p.conn = none → p.m.to = p.at_ ∧ (p.m.rsp = false → p.m.from_ = p.at_)
  stems : ∀ p ∈ s.fly, Stems s.accepted p.m
  ans : ∀ a ∈ s.log.filterMap Ev.ans, Owed s.accepted a
  del : ∃ rest, (s.log.filterMap Ev.got ++ s.fly.flatMap (fun p => tokD p.m) ++ rest).Perm (s.accepted.map fun d => (d.t, d.x, d.seq, d.content))
  fate : ∃ rest, (s.log.filterMap Ev.fate ++ s.fly.flatMap (fun p => tokF p.m) ++ rest).Perm (s.accepted.map fun d => (d.t, d.x, d.seq))

/-- The effects as the network and the applications see them. -/
theorem split_carried {α : Type} (f : Msg → List α) (g : Ev → Option α) (w : World) (hw : OnTime w) (x : Nat) (m : Msg)
    (hd : ∀ k, k.rsp = false → k.to = x → (g (.delivered x k)).toList = f k) (hr : ∀ k, k.rsp = true → k.to = x → (g (.answered x k)).toList = f k)
    (es : List Eff) (he : ∀ y ∈ es, EffOk x m y) :
    ((es.filterMap (seen x)).filterMap g ++ (es.filterMap (packets w x)).flatMap fun p => f p.m).Perm (carried f es) := by
  induction es with
  | nil => exact .refl _
  | cons y ys ih =>
    have ih := ih fun z hz => he z (List.mem_cons_of_mem _ hz)
    have hy := he y (List.mem_cons_self ..)
    have opt : ∀ (v : Ev) (l : List Ev), (v :: l).filterMap g = (g v).toList ++ l.filterMap g := by
      intro v l; rw [List.filterMap_cons]; cases g v <;> rfl
    cases y with
    | sent e c k =>
      show (_ ++ (f k ++ _)).Perm (f k ++ _)
      exact (List.perm_append_comm_assoc _ _ _).trans (ih.append_left _)
    | toSelf k =>
      show (_ ++ (f k ++ _)).Perm (f k ++ _)
      exact (List.perm_append_comm_assoc _ _ _).trans (ih.append_left _)
    | deliver k =>
      show (((Ev.delivered x k) :: ys.filterMap (seen x)).filterMap g ++ _).Perm (f k ++ _)
      rw [opt, hd k hy.2.1 hy.2.2, List.append_assoc]
      exact ih.append_left _
    | response k =>
      show (((Ev.answered x k) :: ys.filterMap (seen x)).filterMap g ++ _).Perm (f k ++ _)
      rw [opt, hr k hy.2.1 hy.2.2, List.append_assoc]
      exact ih.append_left _
    | refused e c k =>
      have : packets w x (.refused e c k) = none := by simp [packets, hw x]
      rw [List.filterMap_cons, List.filterMap_cons, this]
      exact ih
    | sync d e => exact ih

theorem gotD (x : Nat) (k : Msg) (h : k.rsp = false) (e : k.to = x) : (Ev.got (.delivered x k)).toList = tokD k := by
  simp [Ev.got, tokD, h, e]

theorem gotR (x : Nat) (k : Msg) (h : k.rsp = true) (_ : k.to = x) : (Ev.got (.answered x k)).toList = tokD k := by
  simp [Ev.got, tokD, h]

theorem fateD (x : Nat) (k : Msg) (h : k.rsp = false) (e : k.to = x) : (Ev.fate (.delivered x k)).toList = tokF k := by
  simp [Ev.fate, tokF, h, e]

theorem fateR (x : Nat) (k : Msg) (h : k.rsp = true) (e : k.to = x) : (Ev.fate (.answered x k)).toList = tokF k := by
  simp only [Ev.fate, tokF, h, if_true, e]
  split <;> rfl

/-- Handling a message. -/
theorem receive_ok (w : World) (hn : Named w) (p : Packet) (own : p.conn = none → p.m.to = p.at_ ∧ (p.m.rsp = false → p.m.from_ = p.at_)) :
    (∀ y ∈ receive w p, EffOk p.at_ p.m y) ∧
    ∀ {α : Type} (f : Msg → List α), Rule f → (carried f (receive w p) = [] ∨ carried f (receive w p) = f p.m) := by
  unfold receive
  cases h : w.node p.at_ with
  | none => exact ⟨by simp, fun f hf => .inl rfl⟩
  | some n =>
    have n1 := hn _ n h
    dsimp only
    cases hc : p.conn with
    | none =>
      obtain ⟨o1, o2⟩ := own hc
      refine ⟨?_, fun f hf => own_carried hf p.m⟩
      dsimp only
      intro y hy
      unfold ownQueue at hy
      split at hy
      · cases hy
      · rename_i hr
        have hr : p.m.rsp = false := by simpa using hr
        rcases List.mem_cons.1 hy with hy | hy
        · rw [hy]; exact ⟨.inl ⟨p.m.router, p.m.src, rfl⟩, hr, o1⟩
        · split at hy
          · rename_i hneed
            rw [List.mem_singleton.1 hy]
            refine ⟨.inr ⟨hr, rfl, ?_, ?_, rfl, fun _ => hneed⟩, rfl, o1⟩
            · show p.m.to = p.m.from_; rw [o1, o2 hr]
            · show p.m.from_ = p.m.to; rw [o1, o2 hr]
          · cases hy
    | some b =>
      have e : ∃ s, unpackSrc b p.m = { p.m with src := s } := by
        unfold unpackSrc
        cases b with
        | none => exact ⟨p.m.src, rfl⟩
        | some b =>
          dsimp only
          split
          · exact ⟨p.m.src, rfl⟩
          · exact ⟨b, rfl⟩
      obtain ⟨s, e⟩ := e
      dsimp only
      rw [e]
      refine ⟨fun y hy => ?_, fun f hf => ?_⟩
      · have := handle_eff n _ _ y hy
        rw [n1] at this
        exact EffOk.of (r := p.m.router) (s := s) this
      · have := handle_carried hf n (some true) { p.m with src := s }
        have k : f { p.m with src := s } = f p.m := hf.way p.m p.m.router s
        rw [k] at this
        exact this

theorem Safe.handle {w : World} (hn : Named w) (ht : OnTime w) {s : S} (i : Safe s) (j : Nat) : Safe (step w s (.handle j)) := by
  cases hp : s.fly[j]? with
  | none => simp only [step, hp]; exact i
  | some p =>
    simp only [step, hp]
    obtain ⟨hj, hpj⟩ := List.getElem?_eq_some_iff.1 hp
    have perm : (p :: s.fly.eraseIdx j).Perm s.fly := by rw [← hpj]; exact erase_perm hj
    have mem : p ∈ s.fly := by rw [← hpj]; exact List.getElem_mem hj
    obtain ⟨r1, r2⟩ := receive_ok w hn p (i.own p mem)
    have st := i.stems p mem
    have fly : (S.apply w { s with fly := s.fly.eraseIdx j } p.at_ (receive w p)).fly = s.fly.eraseIdx j ++ (receive w p).filterMap (packets w p.at_) := rfl
    have log : (S.apply w { s with fly := s.fly.eraseIdx j } p.at_ (receive w p)).log = s.log ++ (receive w p).filterMap (seen p.at_) := rfl
    have acc : (S.apply w { s with fly := s.fly.eraseIdx j } p.at_ (receive w p)).accepted = s.accepted := rfl
    have new : ∀ q ∈ (receive w p).filterMap (packets w p.at_), Stems s.accepted q.m ∧ (q.conn = none → q.m.to = q.at_ ∧ q.m.rsp = true) := by
      intro q hq
      obtain ⟨y, hy, hq⟩ := List.mem_filterMap.1 hq
      have := r1 y hy
      cases y with
      | sent e c k => cases hq; exact ⟨st.child this, fun h => nomatch h⟩
      | toSelf k => cases hq; exact ⟨st.child this.1, fun _ => ⟨this.2.2, this.2.1⟩⟩
      | refused e c k => simp [packets, ht p.at_] at hq
      | deliver k => cases hq
      | response k => cases hq
      | sync d e => cases hq
    have cons : ∀ {α : Type} [DecidableEq α] (f : Msg → List α) (g : Ev → Option α) (_ : Rule f)
        (_ : ∀ k, k.rsp = false → k.to = p.at_ → (g (.delivered p.at_ k)).toList = f k)
        (_ : ∀ k, k.rsp = true → k.to = p.at_ → (g (.answered p.at_ k)).toList = f k) (l : List α),
        (∃ rest, (s.log.filterMap g ++ s.fly.flatMap (fun p => f p.m) ++ rest).Perm l) →
        ∃ rest, ((s.log ++ (receive w p).filterMap (seen p.at_)).filterMap g ++
          (s.fly.eraseIdx j ++ (receive w p).filterMap (packets w p.at_)).flatMap (fun p => f p.m) ++ rest).Perm l := by
      intro α _ f g hf hd hr l ⟨rest, h⟩
      have k1 := perm.flatMap_right (fun q => f q.m)
      rw [List.flatMap_cons] at k1
      have k2 := split_carried f g w ht p.at_ p.m hd hr _ r1
      rcases r2 f hf with k3 | k3
      · refine ⟨f p.m ++ rest, ?_⟩
        rw [k3] at k2
        rw [List.perm_iff_count] at k1 k2 h ⊢
        intro a
        have k1 := k1 a; have k2 := k2 a; have h := h a
        simp only [List.filterMap_append, List.flatMap_append, List.count_append, List.count_nil] at k1 k2 h ⊢
        omega
      · refine ⟨rest, ?_⟩
        rw [k3] at k2
        rw [List.perm_iff_count] at k1 k2 h ⊢
        intro a
        have k1 := k1 a; have k2 := k2 a; have h := h a
        simp only [List.filterMap_append, List.flatMap_append, List.count_append] at k1 k2 h ⊢
        omega
    refine ⟨?_, ?_, ?_, ?_, ?_⟩
    · rw [fly]
      intro q hq hc
      rcases List.mem_append.1 hq with k | k
      · exact i.own q (List.mem_of_mem_eraseIdx k) hc
      · obtain ⟨a, b⟩ := (new q k).2 hc
        exact ⟨a, fun c => by rw [b] at c; cases c⟩
    · rw [fly, acc]
      intro q hq
      rcases List.mem_append.1 hq with k | k
      · exact i.stems q (List.mem_of_mem_eraseIdx k)
      · exact (new q k).1
    · rw [log, acc]
      intro a ha
      rw [List.filterMap_append] at ha
      rcases List.mem_append.1 ha with k | k
      · exact i.ans a k
      · obtain ⟨v, hv, ha⟩ := List.mem_filterMap.1 k
        obtain ⟨y, hy, hv⟩ := List.mem_filterMap.1 hv
        have e := r1 y hy
        cases y with
        | response k =>
          cases hv
          cases ha
          rcases st.child e.1 with ⟨h, _⟩ | ⟨_, d, h1, h2, h3, h4, h5⟩
          · rw [e.2.1] at h; cases h
          · exact ⟨d, h1, by rw [h2]; exact e.2.2.symm, h3.symm, h4.symm, fun h => h5 (by simpa using h)⟩
        | deliver k => cases hv; cases ha
        | sent e c k => cases hv
        | toSelf k => cases hv
        | refused e c k => cases hv
        | sync d e => cases hv
    · rw [fly, log, acc]; exact cons tokD Ev.got tokD_rule (gotD _) (gotR _) _ i.del
    · rw [fly, log, acc]; exact cons tokF Ev.fate tokF_rule (fateD _) (fateR _) _ i.fate

/-- Sending, in any network. -/
theorem send_cases (n : Node) (limit : Nat) (d : Send) :
    (∃ es code, code < 0 ∧ sendData n limit d.t d.content d.seq d.need = (es, code) ∧ ∀ y ∈ es, ∃ e c k, y = .refused e c k) ∨
    (∃ y code, 0 ≤ code ∧ sendData n limit d.t d.content d.seq d.need = ([y], code) ∧
      ((d.t = n.id ∧ y = .toSelf (dataMsg n d.t d.content d.seq d.need)) ∨ ∃ e c, y = .sent e c (dataMsg n d.t d.content d.seq d.need))) := by
  unfold sendData
  split
  · exact .inl ⟨_, _, by decide, rfl, by simp⟩
  split
  · exact .inl ⟨_, _, by decide, rfl, by simp⟩
  rcases sendMsg_cases n n.dataConn d.t (dataMsg n d.t d.content d.seq d.need) with ⟨r, h, hr⟩ | ⟨e, h⟩ | ⟨e, c, _, _, _, h⟩
  · rw [h]; exact .inl ⟨_, _, hr, rfl, by simp⟩
  · rw [h]; exact .inr ⟨_, _, by decide, rfl, .inl ⟨e, rfl⟩⟩
  · rw [h]
    by_cases hp : n.push c (dataMsg n d.t d.content d.seq d.need) < 0
    · rw [if_pos hp]
      exact .inl ⟨_, _, hp, rfl, by simp⟩
    · rw [if_neg hp]
      exact .inr ⟨_, _, by omega, rfl, .inr ⟨e, c, rfl⟩⟩

theorem Safe.send {w : World} (hn : Named w) (ht : OnTime w) {s : S} (i : Safe s) (d : Send) : Safe (step w s (.send d)) := by
  cases hx : w.node d.x with
  | none => simp only [step, hx]; exact i
  | some n =>
    simp only [step, hx]
    have n1 := hn _ n hx
    rcases send_cases n (w.limit d.x) d with ⟨es, code, c1, c2, c3⟩ | ⟨y, code, c1, c2, c3⟩
    · rw [c2]
      have acc : S.accepted { s.apply w d.x es with sends := s.sends ++ [(d, code)] } = s.accepted := by
        simp only [S.accepted, List.filter_append]
        rw [List.filter_cons_of_neg (by simp; omega)]
        simp
      have e1 : es.filterMap (packets w d.x) = [] := by
        rw [List.filterMap_eq_nil_iff]
        intro y hy
        obtain ⟨e, c, k, rfl⟩ := c3 y hy
        simp [packets, ht d.x]
      have e2 : es.filterMap (seen d.x) = [] := by
        rw [List.filterMap_eq_nil_iff]
        intro y hy
        obtain ⟨e, c, k, rfl⟩ := c3 y hy
        rfl
      have fly : (s.apply w d.x es).fly = s.fly := by simp [S.apply, e1]
      have log : (s.apply w d.x es).log = s.log := by simp [S.apply, e2]
      refine ⟨?_, ?_, ?_, ?_, ?_⟩
      · show ∀ p ∈ (s.apply w d.x es).fly, _; rw [fly]; exact i.own
      · rw [acc]; show ∀ p ∈ (s.apply w d.x es).fly, _; rw [fly]; exact i.stems
      · rw [acc]; show ∀ a ∈ (s.apply w d.x es).log.filterMap Ev.ans, _; rw [log]; exact i.ans
      · rw [acc]; dsimp only; rw [fly, log]; exact i.del
      · rw [acc]; dsimp only; rw [fly, log]; exact i.fate
    · rw [c2]
      have acc : S.accepted { s.apply w d.x [y] with sends := s.sends ++ [(d, code)] } = s.accepted ++ [d] := by
        simp only [S.accepted, List.filter_append]
        rw [List.filter_cons_of_pos (by simpa using c1)]
        simp
      have shape : ∃ p : Packet, packets w d.x y = some p ∧ seen d.x y = none ∧ p.m = dataMsg n d.t d.content d.seq d.need ∧
          (p.conn = none → d.t = d.x ∧ p.at_ = d.x) := by
        rcases c3 with ⟨a, rfl⟩ | ⟨e, c, rfl⟩
        · exact ⟨_, rfl, rfl, rfl, fun _ => ⟨a.trans n1, rfl⟩⟩
        · exact ⟨_, rfl, rfl, rfl, fun k => nomatch k⟩
      obtain ⟨p, p1, p2, p3, p4⟩ := shape
      have fly : (s.apply w d.x [y]).fly = s.fly ++ [p] := by simp [S.apply, p1]
      have log : (s.apply w d.x [y]).log = s.log := by simp [S.apply, p2]
      have st : Stems (s.accepted ++ [d]) p.m := by
        rw [p3]
        exact .inl ⟨rfl, by simp [dataMsg, n1]⟩
      refine ⟨?_, ?_, ?_, ?_, ?_⟩
      · show ∀ p ∈ (s.apply w d.x [y]).fly, _
        rw [fly]
        intro q hq hc
        rcases List.mem_append.1 hq with k | k
        · exact i.own q k hc
        · rw [List.mem_singleton.1 k] at hc ⊢
          obtain ⟨a, b⟩ := p4 hc
          rw [p3, b]
          exact ⟨a, fun _ => n1⟩
      · rw [acc]
        show ∀ p ∈ (s.apply w d.x [y]).fly, _
        rw [fly]
        intro q hq
        rcases List.mem_append.1 hq with k | k
        · exact (i.stems q k).mono fun _ h => List.mem_append_left _ h
        · rw [List.mem_singleton.1 k]; exact st
      · rw [acc]
        show ∀ a ∈ (s.apply w d.x [y]).log.filterMap Ev.ans, _
        rw [log]
        intro a ha
        obtain ⟨d', h1, h2⟩ := i.ans a ha
        exact ⟨d', List.mem_append_left _ h1, h2⟩
      · rw [acc]
        dsimp only
        rw [fly, log]
        obtain ⟨rest, h⟩ := i.del
        refine ⟨rest, ?_⟩
        have e : tokD p.m = [(d.t, d.x, d.seq, d.content)] := by rw [p3]; simp [tokD, dataMsg, n1]
        rw [List.perm_iff_count] at h ⊢
        intro a
        have h := h a
        simp only [List.flatMap_append, List.flatMap_cons, List.flatMap_nil, List.map_append, List.map_cons, List.map_nil, List.append_nil, e, List.count_append] at h ⊢
        omega
      · rw [acc]
        dsimp only
        rw [fly, log]
        obtain ⟨rest, h⟩ := i.fate
        refine ⟨rest, ?_⟩
        have e : tokF p.m = [(d.t, d.x, d.seq)] := by rw [p3]; simp [tokF, dataMsg, n1]
        rw [List.perm_iff_count] at h ⊢
        intro a
        have h := h a
        simp only [List.flatMap_append, List.flatMap_cons, List.flatMap_nil, List.map_append, List.map_cons, List.map_nil, List.append_nil, e, List.count_append] at h ⊢
        omega

theorem erase_rest {α : Type} [DecidableEq α] (f : Msg → List α) (l : List Packet) (j : Nat) (a b : List α)
    (h : ∃ rest, (a ++ l.flatMap (fun p => f p.m) ++ rest).Perm b) : ∃ rest, (a ++ (l.eraseIdx j).flatMap (fun p => f p.m) ++ rest).Perm b := by
  by_cases hj : j < l.length
  · obtain ⟨rest, h⟩ := h
    refine ⟨f l[j].m ++ rest, ?_⟩
    have k := (erase_perm hj).flatMap_right (fun p => f p.m)
    rw [List.perm_iff_count] at h k ⊢
    intro x
    have h := h x; have k := k x
    simp only [List.flatMap_cons, List.count_append] at h k ⊢
    omega
  · rw [List.eraseIdx_of_length_le (by omega)]; exact h

theorem Safe.lose {s : S} (i : Safe s) (j : Nat) : Safe (netStep s (.lose j)) where
  own := fun p hp => i.own p (List.mem_of_mem_eraseIdx hp)
  stems := fun p hp => i.stems p (List.mem_of_mem_eraseIdx hp)
  ans := i.ans
  del := erase_rest tokD s.fly j _ _ i.del
  fate := erase_rest tokF s.fly j _ _ i.fate

theorem Safe.init : Safe {} :=
  ⟨by simp, by simp, by simp, ⟨[], by simp [S.accepted]⟩, ⟨[], by simp [S.accepted]⟩⟩

theorem Safe.run (ops : List NetOp) : ∀ s, Safe s → (∀ w o, .step w o ∈ ops → Named w ∧ OnTime w) → Safe (netRun s ops) := by
  induction ops with
  | nil => exact fun s i _ => i
  | cons o os ih =>
    intro s i h
    refine ih _ ?_ fun w o ho => h w o (List.mem_cons_of_mem _ ho)
    cases o with
    | lose j => exact i.lose j
    | step w o =>
      obtain ⟨h1, h2⟩ := h w o (List.mem_cons_self ..)
      cases o with
      | send d => exact i.send h1 h2 d
      | handle j => exact i.handle h1 h2 j

/-- C72: in any network, however it changes from step to step and whatever is lost: the deliveries are a part of the
accepted calls, each once, to the node named in the call, from the node that made it and with its content.  Deliveries and
reports of failure together are at most one for each call.  Every answer belongs to a call of the node that gets it, and
one that reports success to a call that asked for it.  Assumed: nodes keep their ids, and a message that a connection
refused is not sent later (`C72_late_false` otherwise). -/
theorem C72_safe_partial (ops : List NetOp) (h : ∀ w o, .step w o ∈ ops → Named w ∧ OnTime w) (s : S) (e : s = netRun {} ops) :
    (∃ rest, (s.log.filterMap Ev.got ++ rest).Perm (s.accepted.map fun d => (d.t, d.x, d.seq, d.content))) ∧
    (∃ rest, (s.log.filterMap Ev.fate ++ rest).Perm (s.accepted.map fun d => (d.t, d.x, d.seq))) ∧
    ∀ a ∈ s.log.filterMap Ev.ans, ∃ d ∈ s.accepted, a.1 = d.x ∧ a.2.1 = d.t ∧ a.2.2.1 = d.seq ∧ (a.2.2.2 = true → d.need = true) := by
  have i := Safe.run ops {} Safe.init h
  rw [← e] at i
  obtain ⟨r1, h1⟩ := i.del
  obtain ⟨r2, h2⟩ := i.fate
  exact ⟨⟨_, by rw [← List.append_assoc]; exact h1⟩, ⟨_, by rw [← List.append_assoc]; exact h2⟩, i.ans⟩

/-- C72: if no node uses a number twice (C39), no message is delivered twice, and none is both delivered and reported as
failed, or reported twice. -/
theorem C72_once_partial (ops : List NetOp) (h : ∀ w o, .step w o ∈ ops → Named w ∧ OnTime w) (s : S) (e : s = netRun {} ops)
    (hu : (s.accepted.map fun d => (d.x, d.seq)).Nodup) : (s.log.filterMap Ev.fate).Nodup := by
  obtain ⟨_, ⟨rest, k⟩, _⟩ := C72_safe_partial ops h s e
  have : (s.accepted.map fun d => (d.t, d.x, d.seq)).Nodup := by
    rw [List.Nodup, List.pairwise_map] at hu ⊢
    exact hu.imp fun a b => a (by injection b)
  exact (List.nodup_append.1 (k.nodup_iff.2 this)).1

/-- The example where the connections of 20 refuse what they get, and send it later all the same. -/
def exLate (refused : Nat → Bool) : World :=
  { exW with
    node := fun x => (exW.node x).map fun n => if x = 20 then { n with push := fun c _ => if refused c then Err.WRITE_FAILED else 0 } else n
    late := fun x => x = 20 }

/-- C72 is false of the code when a connection refuses a message and sends it later (`C24_write_refused_false`).  First: 20
hands the message of 22 to 24 and, because that failed, to 16, and 25 gets it twice.  Second: 22 is told that its message
failed, which is delivered.  Third: `send_data` of 20 returns an error, and the message is delivered. -/
theorem C72_late_false :
    (∃ ops, (netRun {} ops).sends = [(⟨22, 25, [7], 1, false⟩, 0)] ∧ (netRun {} ops).log.filterMap Ev.got = [(25, 22, 1, [7]), (25, 22, 1, [7])]) ∧
    (∃ ops, (netRun {} ops).sends = [(⟨22, 25, [7], 1, false⟩, 0)] ∧ (netRun {} ops).log.filterMap Ev.got = [(25, 22, 1, [7])] ∧
      (netRun {} ops).log.filterMap Ev.ans = [(22, 25, 1, false)]) ∧
    ∃ ops, (netRun {} ops).accepted = [] ∧ (netRun {} ops).log.filterMap Ev.got = [(25, 20, 1, [7])] := by
  refine ⟨⟨.step (exLate (· == 24)) (.send ⟨22, 25, [7], 1, false⟩) :: (List.replicate 8 (.step (exLate (· == 24)) (.handle 0))), ?_, ?_⟩,
    ⟨[.step (exLate fun c => c == 24 || c == 16) (.send ⟨22, 25, [7], 1, false⟩), .step (exLate fun c => c == 24 || c == 16) (.handle 0),
      .step (exLate fun c => c == 24 || c == 16) (.handle 0), .lose 0, .step (exLate fun c => c == 24 || c == 16) (.handle 0),
      .step (exLate fun c => c == 24 || c == 16) (.handle 0)], ?_, ?_, ?_⟩,
    ⟨.step (exLate (· == 24)) (.send ⟨20, 25, [7], 1, false⟩) :: (List.replicate 4 (.step (exLate (· == 24)) (.handle 0))), ?_, ?_⟩⟩ <;> decide +kernel

theorem ex_named : Named exW := by
  intro x n h
  rcases ex_nodes h with ⟨rfl, rfl⟩ | ⟨rfl, rfl⟩ | ⟨rfl, rfl⟩ | ⟨rfl, rfl⟩ | ⟨rfl, rfl⟩ <;> rfl

theorem ex_broken_named : Named exBroken := by
  intro x m h
  obtain ⟨n, h1, h2, _⟩ := ex_broken_node h
  rw [h2]; exact ex_named x n h1

/-- A connection of 20 is lost and comes back between two messages, and a message is lost on the way. -/
example : let ops : List NetOp := [.step exW (.send ⟨22, 25, [7], 1, false⟩), .step exW (.handle 0), .step exBroken (.send ⟨22, 25, [8], 2, false⟩),
      .step exBroken (.handle 1), .lose 0, .step exBroken (.handle 0), .step exW (.handle 0), .step exW (.handle 0)]
    (∀ w o, .step w o ∈ ops → Named w ∧ OnTime w) ∧ (netRun {} ops).log.filterMap Ev.fate = [(25, 22, 2)] ∧
    ((netRun {} ops).accepted.map fun d => (d.x, d.seq)) = [(22, 1), (22, 2)] := by
  refine ⟨fun w o h => ?_, by decide +kernel, by decide +kernel⟩
  have : w = exW ∨ w = exBroken := by
    simp only [List.mem_cons, NetOp.step.injEq, reduceCtorEq, List.not_mem_nil, or_false, false_or] at h
    rcases h with h | h | h | h | h | h | h <;> simp [h.1]
  rcases this with rfl | rfl
  · exact ⟨ex_named, fun _ => rfl⟩
  · exact ⟨ex_broken_named, fun _ => rfl⟩

end Verif.Node.Tree
