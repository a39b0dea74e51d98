import Verif.Node.Relay
import Verif.Node.ForwardLemmas
import Verif.Node.LanesProps
import Verif.Node.PushStatProps

/-!
C91: data messages that are passed on from node to node over streams.
-/
namespace Verif.Node.Relay

open Verif.IoStream
open Verif.Subnet (Ep)
open Verif.Node.Lanes (over over_append over_tag)

/-! ### Specification -/

/-- A push can happen: as for `Stream.Can`, the message is within the limits of the receiver, and if `q`, the write is not refused. -/
def PutOk (cf : Conf) (q : Prop) (c : Nat) (b : List Byte) (ev : Env) : Prop :=
  b.length < 2 ^ 63 ∧ (∀ x, ev.push = some x → x = Err.BUFF_LIMIT ∨ x = Err.MALLOC) ∧ Fits (cf.stream c).recv b ∧ (q → ev.uvOk = true)

/-- The pushes can happen, and they end as the tables of the node say. -/
def Fine (cf : Conf) (q : Prop) (x : Nat) : S → List Eff → List Env → Prop
  | _, [], _ => True
  | s, .deliver m :: es, evs => Fine cf q x { s with delivered := s.delivered ++ [(x, m)] } es evs
  | s, .sent _ c m :: es, evs =>
    PutOk cf q c (cf.pack m) (evs.headD calmEnv) ∧
      ∀ s' r, put cf s c (cf.pack m) (evs.headD calmEnv) = some (s', r) → 0 ≤ r ∧ Fine cf q x s' es evs.tail
  | s, .refused _ c m :: es, evs =>
    PutOk cf q c (cf.pack m) (evs.headD calmEnv) ∧
      ∀ s' r, put cf s c (cf.pack m) (evs.headD calmEnv) = some (s', r) → r < 0 ∧ Fine cf q x s' es evs.tail
  | s, .response _ :: es, evs => Fine cf q x s es evs
  | s, .toSelf _ :: es, evs => Fine cf q x s es evs
  | s, .sync _ _ :: es, evs => Fine cf q x s es evs

/-- The event can happen; `q`: no write is refused. -/
def Can (cf : Conf) (q : Prop) (s : S) : Ev → Prop
  | .send h limit tid content seq needRsp =>
    let es := (sendData h.n limit tid content seq needRsp).1
    Fine cf q h.n.id (s.call (dataMsg h.n tid content seq needRsp) es) es h.evs
  | .other c b ev => PutOk cf q c b ev ∧ ∀ m, cf.unpack b = some m → m.rsp = true
  | .lane l e => (∀ m ev, e ≠ .push m ev) ∧ Stream.Can (s.lane l) e ∧ (q → e.writes)
  | .handle l h =>
    match (s.lane l).got[s.done l]? with
    | none => True
    | some b =>
      match cf.unpack b with
      | none => True
      | some m => Fine cf q h.n.id (s.take l b) (h.effects m) h.evs

/-- Every event can happen when it does. -/
def Cans (cf : Conf) (q : Prop) (s : S) : List Ev → Prop
  | [] => True
  | e :: es => Can cf q s e ∧ ∀ s', step cf s e = some s' → Cans cf q s' es

/-- What stays the same of a message on its way: everything but the source, which every connection overwrites, and the list of nodes that
passed it on. -/
def bare (m : Msg) : Msg := { m with src := 0, router := [] }

/-- A message can be read back, and its encoding is not empty. -/
structure Conf.Codec (cf : Conf) : Prop where
  back : ∀ m, cf.unpack (cf.pack m) = some m
  nil : cf.unpack [] = none

/-! ### Streams -/

/-- The streams do what C87 says, and the records agree with them. -/
structure Base (cf : Conf) (hf bf ag : Nat) (q : Prop) (s : S) : Prop where
  lane : ∀ i, Stream.Inv (cf.stream i) hf bf ag q (s.lane i)
  queue : ∀ i, over i s.queue = (s.lane i).queue
  handled : ∀ i, over i s.handled = (s.lane i).got.take (s.done i)
  done : ∀ i, s.done i ≤ (s.lane i).got.length

theorem init_base (cf : Conf) (q : Prop) (hf bf ag : Nat) (hag : ∀ i, ag ≤ (cf.stream i).recv.maxAgain) : Base cf hf bf ag q (init hf bf ag) :=
  ⟨fun i => Stream.init_inv (cf.stream i) hf bf ag _ (hag i), fun _ => rfl, fun _ => rfl, fun _ => Nat.le_refl _⟩

theorem push_ret (cf : Stream.Conf) (s s' : Stream.S) (m : List Byte) (ev : Env) (x : Int)
    (hp : ∀ x, ev.push = some x → x = Err.BUFF_LIMIT ∨ x = Err.MALLOC) (h : Stream.push cf s m ev = some (s', x)) :
    x = Err.SUCCESS ∨ x < 0 := by
  unfold Stream.push at h
  split at h
  · simp only [Option.some.injEq, Prod.mk.injEq] at h
    rw [← h.2]
    exact Or.inr (by decide)
  · split at h
    · cases h
    · rename_i c y cbs hy
      simp only [Option.some.injEq, Prod.mk.injEq] at h
      rw [← h.2]
      rcases PushStat.send_ret _ _ _ _ _ hp _ hy with h1 | h1 | h1
      · exact Or.inl h1
      · exact Or.inr (by simp only at h1; rw [h1]; decide)
      · exact Or.inr h1

/-- Only the streams and the record of what was queued differ. -/
structure Quiet (s s' : S) : Prop where
  done : s'.done = s.done
  handled : s'.handled = s.handled
  delivered : s'.delivered = s.delivered
  calls : s'.calls = s.calls
  sends : s'.sends = s.sends

/-- A push. -/
theorem put_base {cf : Conf} {hf bf ag : Nat} {q : Prop} {s : S} (i : Base cf hf bf ag q s) (c : Nat) (b : List Byte) (ev : Env)
    (hok : PutOk cf q c b ev) : ∃ s' r, put cf s c b ev = some (s', r) ∧ Base cf hf bf ag q s' ∧ Quiet s s' ∧
      (s'.queue = s.queue ∨ s'.queue = s.queue ++ [(c, b)]) ∧
      (0 ≤ r → b ≠ [] → s'.queue = s.queue ++ [(c, b)]) ∧ (q → r < 0 → s'.queue = s.queue) := by
  obtain ⟨l, e1, e2, -⟩ := Stream.step_inv (i.lane c) (.push b ev) ⟨hok.1, hok.2.1⟩ hok.2.2.2 hok.2.2.1
  simp only [Stream.step] at e1
  cases hp : Stream.push (cf.stream c) (s.lane c) b ev with
  | none => rw [hp] at e1; cases e1
  | some y =>
    obtain ⟨l', r⟩ := y
    rw [hp] at e1
    simp only [Option.map_some, Option.some.injEq] at e1
    subst e1
    obtain ⟨h1, h2, h3⟩ := Lanes.push_same _ _ _ _ _ _ hp
    have hret := push_ret _ _ _ _ _ _ hok.2.1 hp
    have hput : put cf s c b ev = some ({ s with
      lane := Endpoint.upd s.lane c l'
      queue := s.queue ++ (l'.queue.drop (s.lane c).queue.length).map fun m => (c, m) }, r) := by
      unfold put; rw [hp]
    have hq : (l'.queue.drop (s.lane c).queue.length).map (fun m => (c, m)) =
        if (r = Err.SUCCESS ∨ r = Err.WRITE_FAILED) ∧ b ≠ [] then [(c, b)] else [] := by
      rw [h3, List.drop_left]
      split <;> rfl
    refine ⟨_, r, hput, ⟨fun k => ?_, fun k => ?_, fun k => ?_, fun k => ?_⟩, ⟨rfl, rfl, rfl, rfl, rfl⟩, ?_, ?_, ?_⟩
    · show Stream.Inv _ _ _ _ _ (Endpoint.upd s.lane c l' k)
      unfold Endpoint.upd
      by_cases h : k = c
      · subst h; rw [if_pos rfl]; exact e2
      · rw [if_neg h]; exact i.lane k
    · show over k (s.queue ++ _) = (Endpoint.upd s.lane c l' k).queue
      unfold Endpoint.upd
      rw [over_append, i.queue, over_tag]
      by_cases h : k = c
      · subst h; rw [if_pos rfl, if_pos rfl, h3, List.drop_left]
      · rw [if_neg h, if_neg (fun hh => h hh.symm), List.append_nil]
    · show over k s.handled = (Endpoint.upd s.lane c l' k).got.take (s.done k)
      unfold Endpoint.upd
      rw [i.handled]
      by_cases h : k = c
      · subst h; rw [if_pos rfl, h1]
      · rw [if_neg h]
    · show s.done k ≤ (Endpoint.upd s.lane c l' k).got.length
      unfold Endpoint.upd
      by_cases h : k = c
      · subst h; rw [if_pos rfl, h1]; exact i.done k
      · rw [if_neg h]; exact i.done k
    · show s.queue ++ _ = s.queue ∨ s.queue ++ _ = s.queue ++ [(c, b)]
      rw [hq]
      split
      · exact Or.inr rfl
      · exact Or.inl (List.append_nil _)
    · intro h0 hb
      show s.queue ++ _ = s.queue ++ [(c, b)]
      have hs : r = Err.SUCCESS := by
        rcases hret with h | h
        · exact h
        · omega
      rw [hq, if_pos ⟨Or.inl hs, hb⟩]
    · intro hqq h0
      show s.queue ++ _ = s.queue
      rw [hq, if_neg, List.append_nil]
      intro hh
      have a1 := (i.lane c).all hqq
      have a2 := e2.all hqq
      have hne : r ≠ Err.SUCCESS := fun hs => absurd (show (Err.SUCCESS : Int) < 0 from hs ▸ h0) (by decide)
      rw [h2, h3, if_pos hh, if_neg (fun h => hne h.1), a1] at a2
      exact absurd a2 (by simp)

/-- What a handler puts into the streams. -/
def pushes (cf : Conf) (es : List Eff) : List (Nat × List Byte) :=
  es.filterMap fun x => match x with
    | .sent _ c m => some (c, cf.pack m)
    | _ => none

/-- What a handler gives to the application. -/
def shown (es : List Eff) : List Msg :=
  es.filterMap fun x => match x with
    | .deliver m => some m
    | _ => none

/-- What a handler tries to put into the streams. -/
def tried (cf : Conf) (es : List Eff) : List (Nat × List Byte) :=
  es.filterMap fun x => match x with
    | .sent _ c m => some (c, cf.pack m)
    | .refused _ c m => some (c, cf.pack m)
    | _ => none

/-- The effects of a handler: no undefined behaviour; messages accepted are queued, those refused are not (if no write is refused). -/
theorem perform_base {cf : Conf} (hcod : cf.Codec) {hf bf ag : Nat} {q : Prop} (x : Nat) : ∀ (es : List Eff) (evs : List Env) (s : S),
    Base cf hf bf ag q s → Fine cf q x s es evs → ∃ s', perform cf x s es evs = some s' ∧ Base cf hf bf ag q s' ∧
      s'.done = s.done ∧ s'.handled = s.handled ∧ s'.calls = s.calls ∧ s'.sends = s.sends ∧
      s'.delivered = s.delivered ++ (shown es).map (fun m => (x, m)) ∧
      (∀ y ∈ s'.queue, y ∈ s.queue ∨ y ∈ tried cf es) ∧ (q → s'.queue = s.queue ++ pushes cf es) := by
  have hne : ∀ m, cf.pack m ≠ [] := by
    intro m h
    have := hcod.back m
    rw [h, hcod.nil] at this
    cases this
  intro es
  induction es with
  | nil =>
    intro evs s i _
    exact ⟨s, rfl, i, rfl, rfl, rfl, rfl, by simp [shown], fun _ h => Or.inl h, fun _ => by simp [pushes]⟩
  | cons e es ih =>
    intro evs s i hfine
    cases e with
    | deliver m =>
      obtain ⟨s', h1, h2, h3, h4, h5, h6, h7, h8, h9⟩ := ih evs { s with delivered := s.delivered ++ [(x, m)] } ⟨i.lane, i.queue, i.handled, i.done⟩ hfine
      refine ⟨s', h1, h2, h3, h4, h5, h6, ?_, ?_, h9⟩
      · rw [h7]; simp [shown]
      · intro y hy; exact h8 y hy
    | response m => exact ih evs s i hfine
    | toSelf m => exact ih evs s i hfine
    | sync a b => exact ih evs s i hfine
    | sent e c m =>
      obtain ⟨hp, hrest⟩ := hfine
      obtain ⟨s1, r, k1, k2, k3, k4, k5, k6⟩ := put_base i c (cf.pack m) (evs.headD calmEnv) hp
      obtain ⟨hr, hfine'⟩ := hrest s1 r k1
      obtain ⟨s', h1, h2, h3, h4, h5, h6, h7, h8, h9⟩ := ih evs.tail s1 k2 hfine'
      refine ⟨s', ?_, h2, h3.trans k3.done, h4.trans k3.handled, h5.trans k3.calls, h6.trans k3.sends, ?_, ?_, ?_⟩
      · simp only [perform, k1, h1]
      · rw [h7, k3.delivered]; simp [shown]
      · intro y hy
        rcases h8 y hy with h | h
        · rcases k4 with k4 | k4
          · rw [k4] at h; exact Or.inl h
          · rw [k4] at h
            rcases List.mem_append.1 h with h | h
            · exact Or.inl h
            · rw [List.mem_singleton.1 h]; exact Or.inr (by simp [tried])
        · exact Or.inr (by simp only [tried, List.filterMap_cons]; exact List.mem_cons_of_mem _ h)
      · intro hq
        rw [h9 hq, k5 hr (hne m)]
        simp [pushes]
    | refused e c m =>
      obtain ⟨hp, hrest⟩ := hfine
      obtain ⟨s1, r, k1, k2, k3, k4, k5, k6⟩ := put_base i c (cf.pack m) (evs.headD calmEnv) hp
      obtain ⟨hr, hfine'⟩ := hrest s1 r k1
      obtain ⟨s', h1, h2, h3, h4, h5, h6, h7, h8, h9⟩ := ih evs.tail s1 k2 hfine'
      refine ⟨s', ?_, h2, h3.trans k3.done, h4.trans k3.handled, h5.trans k3.calls, h6.trans k3.sends, ?_, ?_, ?_⟩
      · simp only [perform, k1, h1]
      · rw [h7, k3.delivered]; simp [shown]
      · intro y hy
        rcases h8 y hy with h | h
        · rcases k4 with k4 | k4
          · rw [k4] at h; exact Or.inl h
          · rw [k4] at h
            rcases List.mem_append.1 h with h | h
            · exact Or.inl h
            · rw [List.mem_singleton.1 h]; exact Or.inr (by simp [tried])
        · exact Or.inr (by simp only [tried, List.filterMap_cons]; exact List.mem_cons_of_mem _ h)
      · intro hq
        rw [h9 hq, k6 hq hr]
        simp [pushes]

/-! ### Handlers -/

/-- What two messages with the same content have in common. -/
theorem bare_eq {a b : Msg} (h : bare a = bare b) : a.to = b.to ∧ a.from_ = b.from_ ∧ a.rsp = b.rsp ∧ a.version = b.version := by
  have h1 := congrArg Msg.to h
  have h2 := congrArg Msg.from_ h
  have h3 := congrArg Msg.rsp h
  have h4 := congrArg Msg.version h
  exact ⟨h1, h2, h3, h4⟩

theorem shown_nil {es : List Eff} (h : ∀ m, .deliver m ∉ es) : shown es = [] := by
  unfold shown
  rw [List.filterMap_eq_nil_iff]
  intro x hx
  cases x with
  | deliver m => exact absurd hx (h m)
  | _ => rfl

theorem sentReqs_mem {es : List Eff} {m : Msg} : m ∈ sentReqs es ↔ m.rsp = false ∧ ∃ e c, .sent e c m ∈ es := by
  unfold sentReqs
  rw [List.mem_filterMap]
  constructor
  · rintro ⟨x, hx, h⟩
    cases x with
    | sent e c k =>
      simp only at h
      split at h
      · cases h
      · rename_i hk
        cases h
        exact ⟨by simpa using hk, e, c, hx⟩
    | _ => cases h
  · rintro ⟨hr, e, c, h⟩
    exact ⟨_, h, by simp [hr]⟩

theorem bare_unpackSrc (b : Option Nat) (m : Msg) : bare (unpackSrc b m) = bare m ∧ (unpackSrc b m).router = m.router ∧
    (unpackSrc b m).to = m.to ∧ (unpackSrc b m).rsp = m.rsp := by
  unfold unpackSrc
  split
  · exact ⟨rfl, rfl, rfl, rfl⟩
  · split <;> exact ⟨rfl, rfl, rfl, rfl⟩

/-- An answer is no request. -/
theorem rsp_spec (n : Node) (m : Msg) (code : Int) : shown (sendTransferRsp n m code).1 = [] ∧ sentReqs (sendTransferRsp n m code).1 = [] ∧
    (∀ e c k, (.sent e c k ∈ (sendTransferRsp n m code).1 ∨ .refused e c k ∈ (sendTransferRsp n m code).1) → k.rsp = true) := by
  obtain ⟨h1, h2, -⟩ := rsp_effects n m code
  refine ⟨shown_nil fun k hk => ?_, h1, fun e c k hk => ?_⟩
  · rcases h2 _ hk with h | ⟨e, c, h | h⟩ <;> cases h
  · rcases hk with hk | hk
    · rcases h2 _ hk with h | ⟨e, c, h | h⟩
      · cases h
      · cases h; rfl
      · cases h
    · rcases h2 _ hk with h | ⟨e, c, h | h⟩
      · cases h
      · cases h
      · cases h; rfl

theorem shown_append (a b : List Eff) : shown (a ++ b) = shown a ++ shown b := List.filterMap_append

/-- A request that is passed on. -/
theorem forwardReq_spec (n : Node) (m : Msg) (hreq : m.rsp = false) : shown (forwardReq n m).1 = [] ∧
    (sentReqs (forwardReq n m).1 = [] ∨ sentReqs (forwardReq n m).1 = [passed n m]) ∧
    (∀ e c k, (.sent e c k ∈ (forwardReq n m).1 ∨ .refused e c k ∈ (forwardReq n m).1) → k.rsp = true ∨ k = passed n m) := by
  have hA : ∀ es : List Eff, (∀ x ∈ es, Attempt n m x) → shown es = [] ∧
      ∀ e c k, (.sent e c k ∈ es ∨ .refused e c k ∈ es) → k.rsp = true ∨ k = passed n m := by
    intro es h
    refine ⟨shown_nil fun k hk => ?_, fun e c k hk => ?_⟩
    · obtain ⟨e, c, h1 | h1, -⟩ := (h _ hk).attempt <;> cases h1
    · rcases hk with hk | hk
      · obtain ⟨e, c, h1 | h1, -⟩ := (h _ hk).attempt
        · cases h1; exact Or.inr rfl
        · cases h1
      · obtain ⟨e, c, h1 | h1, -⟩ := (h _ hk).attempt
        · cases h1
        · cases h1; exact Or.inr rfl
  obtain ⟨q1, q2, q3, q4⟩ := second_spec n m hreq
  obtain ⟨r1, r2, r3, r4⟩ := forward_step n m { m with router := m.router ++ [n.id] } m.to rfl hreq
  rw [forwardReq_eq n m]
  generalize forwardData n { m with router := m.router ++ [n.id] } m.src m.to = r at *
  have hr3 : sentReqs r.1 = [] ∨ sentReqs r.1 = [passed n m] := by
    rcases r3 with h | h
    · exact Or.inl h.2
    · exact Or.inr h.2
  have hq3 : sentReqs (second n m.src r).1 = [] ∨ sentReqs (second n m.src r).1 = [passed n m] := by
    rcases q3 with h | h
    · exact Or.inl h.2
    · exact Or.inr h.2
  split
  · split
    · rename_i e _
      split
      · refine ⟨?_, ?_, ?_⟩
        · rw [shown_append, (hA _ r1).1]; rfl
        · rw [sentReqs_append]; simpa [sentReqs] using hr3
        · intro e c k hk
          apply (hA _ r1).2 e c k
          rcases hk with hk | hk
          · rcases List.mem_append.1 hk with h | h
            · exact Or.inl h
            · cases List.mem_singleton.1 h
          · rcases List.mem_append.1 hk with h | h
            · exact Or.inr h
            · cases List.mem_singleton.1 h
      · exact ⟨(hA _ r1).1, hr3, (hA _ r1).2⟩
    · exact ⟨(hA _ r1).1, hr3, (hA _ r1).2⟩
  · split
    · obtain ⟨p1, p2, p3⟩ := rsp_spec n (second n m.src r).2.2 (second n m.src r).2.1
      refine ⟨?_, ?_, ?_⟩
      · rw [shown_append, (hA _ q1).1, p1]; rfl
      · rw [sentReqs_append, p2, List.append_nil]; exact hq3
      · intro e c k hk
        rcases hk with hk | hk
        · rcases List.mem_append.1 hk with h | h
          · exact (hA _ q1).2 e c k (Or.inl h)
          · exact Or.inl (p3 e c k (Or.inl h))
        · rcases List.mem_append.1 hk with h | h
          · exact (hA _ q1).2 e c k (Or.inr h)
          · exact Or.inl (p3 e c k (Or.inr h))
    · exact ⟨(hA _ q1).1, hq3, (hA _ q1).2⟩

/-- What a handler does with one message: it gives it to the application if it is addressed to the node, or passes it on at most once; and
what it tries to transmit is this message or an answer. -/
inductive Does (n : Node) (m : Msg) (es : List Eff) : Prop where
  | drop (h1 : shown es = []) (h2 : sentReqs es = [])
  | show_ (m' : Msg) (h0 : m.to = n.id) (hr : m'.rsp = false) (hb : bare m' = bare m) (h1 : shown es = [m']) (h2 : sentReqs es = [])
  | pass (m' : Msg) (h0 : m.to ≠ n.id) (hr : m'.rsp = false) (hb : bare m' = bare m) (hroute : m'.router = m.router ++ [n.id]) (h1 : shown es = [])
      (h2 : sentReqs es = [m'])

theorem effects_spec (h : H) (m : Msg) : Does h.n m (h.effects m) ∧
    (∀ e c k, (.sent e c k ∈ h.effects m ∨ .refused e c k ∈ h.effects m) → k.rsp = true ∨ bare k = bare m) := by
  obtain ⟨b1, b2, b3, b4⟩ := bare_unpackSrc h.bound m
  unfold H.effects
  generalize unpackSrc h.bound m = k at *
  unfold Node.handle
  split
  · rename_i hrsp
    unfold transferRsp
    split
    · exact ⟨.drop rfl rfl, by simp⟩
    split
    · exact ⟨.drop rfl rfl, by simp⟩
    split
    · exact ⟨.drop rfl rfl, by simp⟩
    · simp only
      rcases forwardData_cases h.n k k.src k.to with ⟨r, e, hf, -⟩ | ⟨e, c, -, -, -, -, -, hf⟩
      · rw [hf]; exact ⟨.drop rfl rfl, by simp⟩
      · rw [hf]
        simp only
        split
        · exact ⟨.drop rfl rfl, by intro e' c' k' hk; simp at hk; exact Or.inl (by rw [hk.2.2]; exact hrsp)⟩
        · exact ⟨.drop rfl (by simp [sentReqs, hrsp]), by intro e' c' k' hk; simp at hk; exact Or.inl (by rw [hk.2.2]; exact hrsp)⟩
  · rename_i hrsp
    have hreq : k.rsp = false := by simpa using hrsp
    have hans : ∀ code, Does h.n m (sendTransferRsp h.n k code).1 ∧
        (∀ e c k', (.sent e c k' ∈ (sendTransferRsp h.n k code).1 ∨ .refused e c k' ∈ (sendTransferRsp h.n k code).1) →
          k'.rsp = true ∨ bare k' = bare m) := by
      intro code
      obtain ⟨p1, p2, p3⟩ := rsp_spec h.n k code
      exact ⟨.drop p1 p2, fun e c k' hk => Or.inl (p3 e c k' hk)⟩
    unfold transferReq
    split
    · exact hans _
    split
    · exact ⟨.drop rfl rfl, by simp⟩
    split
    · exact ⟨.drop rfl rfl, by simp⟩
    split
    · rename_i hto
      split
      · obtain ⟨p1, p2, p3⟩ := rsp_spec h.n k Err.SUCCESS
        simp only
        refine ⟨.show_ k (by rw [← b3]; exact hto) hreq b1 ?_ ?_, ?_⟩
        · simp only [shown, List.filterMap_cons] at p1 ⊢
          rw [p1]
        · simp only [sentReqs, List.filterMap_cons] at p2 ⊢
          exact p2
        · intro e c k' hk
          rcases hk with hk | hk
          · rcases List.mem_cons.1 hk with h | h
            · cases h
            · exact Or.inl (p3 e c k' (Or.inl h))
          · rcases List.mem_cons.1 hk with h | h
            · cases h
            · exact Or.inl (p3 e c k' (Or.inr h))
      · exact ⟨.show_ k (by rw [← b3]; exact hto) hreq b1 rfl rfl, by simp⟩
    split
    · exact hans _
    · rename_i hto _
      obtain ⟨f1, f2, f3⟩ := forwardReq_spec h.n k hreq
      have hb : bare (passed h.n k) = bare m := by rw [← b1]; rfl
      refine ⟨?_, fun e c k' hk => ?_⟩
      · rcases f2 with f2 | f2
        · exact .drop f1 f2
        · exact .pass (passed h.n k) (by rw [← b3]; exact hto) hreq hb (by rw [← b2]; rfl) f1 f2
      · rcases f3 e c k' hk with h' | h'
        · exact Or.inl h'
        · exact Or.inr (by rw [h', hb])

/-- What `send_data` does. -/
theorem sendData_spec (n : Node) (limit tid : Nat) (content : List Nat) (seq : Nat) (nr : Bool) :
    shown (sendData n limit tid content seq nr).1 = [] ∧
    (accepted (sendData n limit tid content seq nr).1 = sentReqs (sendData n limit tid content seq nr).1) ∧
    (sentReqs (sendData n limit tid content seq nr).1 = [] ∨
      sentReqs (sendData n limit tid content seq nr).1 = [dataMsg n tid content seq nr]) ∧
    (∀ e c k, (.sent e c k ∈ (sendData n limit tid content seq nr).1 ∨ .refused e c k ∈ (sendData n limit tid content seq nr).1) →
      k = dataMsg n tid content seq nr) := by
  have hr : (dataMsg n tid content seq nr).rsp = false := rfl
  unfold sendData
  split
  · exact ⟨rfl, rfl, Or.inl rfl, by simp⟩
  split
  · exact ⟨rfl, rfl, Or.inl rfl, by simp⟩
  rcases sendMsg_cases n n.dataConn tid (dataMsg n tid content seq nr) with ⟨r, h, -⟩ | ⟨-, h⟩ | ⟨e, c, -, -, -, h⟩
  · rw [h]; exact ⟨rfl, rfl, Or.inl rfl, by simp⟩
  · rw [h]; exact ⟨rfl, rfl, Or.inl rfl, by simp⟩
  · rw [h]
    by_cases hp : n.push c (dataMsg n tid content seq nr) < 0
    · rw [if_pos hp]
      exact ⟨rfl, rfl, Or.inl rfl, by intro e' c' k hk; simp at hk; exact hk.2.2⟩
    · rw [if_neg hp]
      exact ⟨rfl, by simp [accepted, sentReqs, hr], Or.inr (by simp [sentReqs, hr]), by intro e' c' k hk; simp at hk; exact hk.2.2⟩

/-! ### Steps -/

/-- The records after an event. -/
def Shape (cf : Conf) (q : Prop) (s s' : S) : Ev → Prop
  | .send h limit tid content seq nr =>
    let es := (sendData h.n limit tid content seq nr).1
    s'.handled = s.handled ∧ s'.calls = s.calls ++ [dataMsg h.n tid content seq nr] ∧ s'.sends = s.sends ++ accepted es ∧
      s'.delivered = s.delivered ++ (shown es).map (fun m => (h.n.id, m)) ∧ (∀ y ∈ s'.queue, y ∈ s.queue ∨ y ∈ tried cf es) ∧
      (q → s'.queue = s.queue ++ pushes cf es)
  | .other c b _ => s'.handled = s.handled ∧ s'.calls = s.calls ∧ s'.sends = s.sends ∧ s'.delivered = s.delivered ∧
      (s'.queue = s.queue ∨ s'.queue = s.queue ++ [(c, b)])
  | .lane _ _ => s'.handled = s.handled ∧ s'.calls = s.calls ∧ s'.sends = s.sends ∧ s'.delivered = s.delivered ∧ s'.queue = s.queue
  | .handle l h => ((s.lane l).got[s.done l]? = none ∧ s' = s) ∨ ∃ b, (s.lane l).got[s.done l]? = some b ∧ (l, b) ∈ s.queue ∧ s'.handled = s.handled ++ [(l, b)] ∧ s'.calls = s.calls ∧ s'.sends = s.sends ∧
      ((cf.unpack b = none ∧ s'.delivered = s.delivered ∧ s'.queue = s.queue) ∨
       ∃ m, cf.unpack b = some m ∧ s'.delivered = s.delivered ++ (shown (h.effects m)).map (fun m => (h.n.id, m)) ∧
        (∀ y ∈ s'.queue, y ∈ s.queue ∨ y ∈ tried cf (h.effects m)) ∧ (q → s'.queue = s.queue ++ pushes cf (h.effects m)))

theorem mem_over {i : Nat} {b : List Byte} {l : List (Nat × List Byte)} : b ∈ over i l ↔ (i, b) ∈ l := by
  unfold over
  simp only [List.mem_map, List.mem_filter, beq_iff_eq]
  constructor
  · rintro ⟨⟨j, c⟩, ⟨h1, h2⟩, h3⟩
    simp only at h2 h3
    subst h2; subst h3
    exact h1
  · intro h; exact ⟨_, ⟨h, rfl⟩, rfl⟩

/-- A message is taken from a stream. -/
theorem take_base {cf : Conf} {hf bf ag : Nat} {q : Prop} {s : S} (i : Base cf hf bf ag q s) (l : Nat) (b : List Byte)
    (hb : (s.lane l).got[s.done l]? = some b) : Base cf hf bf ag q (s.take l b) := by
  obtain ⟨hlt, hb'⟩ := List.getElem?_eq_some_iff.1 hb
  refine ⟨i.lane, i.queue, fun k => ?_, fun k => ?_⟩
  · show over k (s.handled ++ [(l, b)]) = (s.lane k).got.take (Endpoint.upd s.done l (s.done l + 1) k)
    rw [over_append, i.handled]
    unfold Endpoint.upd
    by_cases h : k = l
    · subst h
      rw [if_pos rfl, List.take_add_one, hb]
      simp [over]
    · rw [if_neg h]
      have hlk : ¬ l = k := fun hh => h hh.symm
      have : over k [(l, b)] = [] := by simp [over, hlk]
      rw [this, List.append_nil]
  · show Endpoint.upd s.done l (s.done l + 1) k ≤ (s.lane k).got.length
    unfold Endpoint.upd
    by_cases h : k = l
    · subst h; rw [if_pos rfl]; omega
    · rw [if_neg h]; exact i.done k

theorem step_base {cf : Conf} (hcod : cf.Codec) {hf bf ag : Nat} {q : Prop} {s : S} (i : Base cf hf bf ag q s) (e : Ev) (hcan : Can cf q s e) :
    ∃ s', step cf s e = some s' ∧ Base cf hf bf ag q s' ∧ Shape cf q s s' e := by
  cases e with
  | send h limit tid content seq nr =>
    obtain ⟨s', h1, h2, h3, h4, h5, h6, h7, h8, h9⟩ := perform_base hcod (hf := hf) (bf := bf) (ag := ag) h.n.id _ h.evs
      (s.call (dataMsg h.n tid content seq nr) (sendData h.n limit tid content seq nr).1) ⟨i.lane, i.queue, i.handled, i.done⟩ hcan
    exact ⟨s', h1, h2, h4, h5, h6, h7, h8, h9⟩
  | other c b ev =>
    obtain ⟨s1, r, k1, k2, k3, k4, k5, k6⟩ := put_base i c b ev hcan.1
    exact ⟨s1, by simp only [step, k1, Option.map_some], k2, k3.handled, k3.calls, k3.sends, k3.delivered, k4⟩
  | lane l e =>
    obtain ⟨hne, hc, hw⟩ := hcan
    obtain ⟨x, e1, e2, -⟩ := Stream.step_inv (i.lane l) e hc hw (by
      cases e with
      | push m ev => exact absurd rfl (hne m ev)
      | _ => trivial)
    obtain ⟨h1, h2, h3⟩ := Lanes.lane_same _ _ _ _ hne e1
    refine ⟨{ s with lane := Endpoint.upd s.lane l x }, by simp only [step, e1, Option.map_some], ⟨fun k => ?_, fun k => ?_, fun k => ?_, fun k => ?_⟩,
      rfl, rfl, rfl, rfl, rfl⟩
    · show Stream.Inv _ _ _ _ _ (Endpoint.upd s.lane l x k)
      unfold Endpoint.upd
      by_cases h : k = l
      · subst h; rw [if_pos rfl]; exact e2
      · rw [if_neg h]; exact i.lane k
    · show over k s.queue = (Endpoint.upd s.lane l x k).queue
      unfold Endpoint.upd
      rw [i.queue]
      by_cases h : k = l
      · subst h; rw [if_pos rfl, h2]
      · rw [if_neg h]
    · show over k s.handled = (Endpoint.upd s.lane l x k).got.take (s.done k)
      unfold Endpoint.upd
      rw [i.handled]
      by_cases h : k = l
      · subst h
        rw [if_pos rfl]
        obtain ⟨t, ht⟩ := h3
        rw [← ht, List.take_append_of_le_length (i.done k)]
      · rw [if_neg h]
    · show s.done k ≤ (Endpoint.upd s.lane l x k).got.length
      unfold Endpoint.upd
      by_cases h : k = l
      · subst h
        rw [if_pos rfl]
        exact Nat.le_trans (i.done k) h3.length_le
      · rw [if_neg h]; exact i.done k
  | handle l h =>
    simp only [Can] at hcan
    cases hb : (s.lane l).got[s.done l]? with
    | none => exact ⟨s, by simp only [step, hb], i, Or.inl ⟨hb, rfl⟩⟩
    | some b =>
      rw [hb] at hcan
      have hmem : (l, b) ∈ s.queue := by
        rw [← mem_over, i.queue]
        exact (i.lane l).pre.subset (List.mem_of_getElem? hb)
      cases hu : cf.unpack b with
      | none =>
        exact ⟨s.take l b, by simp only [step, hb, hu], take_base i l b hb, Or.inr ⟨b, hb, hmem, rfl, rfl, rfl, Or.inl ⟨hu, rfl, rfl⟩⟩⟩
      | some m =>
        simp only [hu] at hcan
        obtain ⟨s', h1, h2, h3, h4, h5, h6, h7, h8, h9⟩ := perform_base hcod h.n.id _ h.evs (s.take l b) (take_base i l b hb) hcan
        exact ⟨s', by simp only [step, hb, hu]; exact h1, h2, Or.inr ⟨b, hb, hmem, h4, h5, h6, Or.inr ⟨m, hu, h7, h8, h9⟩⟩⟩

/-- What every step keeps holds after every run. -/
theorem run_base {cf : Conf} (hcod : cf.Codec) {hf bf ag : Nat} {q : Prop} (P : S → Prop) (Q : Ev → Prop)
    (hP : ∀ s s' e, Base cf hf bf ag q s → P s → Q e → Can cf q s e → Base cf hf bf ag q s' → Shape cf q s s' e → P s') (es : List Ev) :
    ∀ s, Base cf hf bf ag q s → P s → (∀ e ∈ es, Q e) → Cans cf q s es → ∃ s', run cf s es = some s' ∧ Base cf hf bf ag q s' ∧ P s' := by
  induction es with
  | nil => intro s i hp _ _; exact ⟨s, rfl, i, hp⟩
  | cons e es ih =>
    intro s i hp hq hc
    obtain ⟨s1, h1, h2, h3⟩ := step_base hcod i e hc.1
    obtain ⟨s2, k1, k2, k3⟩ := ih s1 h2 (hP s s1 e i hp (hq e (List.mem_cons_self ..)) hc.1 h2 h3)
      (fun e' he' => hq e' (List.mem_cons_of_mem _ he')) (hc.2 s1 h1)
    exact ⟨s2, by simp only [run, h1]; exact k1, k2, k3⟩

/-! ### Once -/

/-- A request with the given content. -/
def isReq (cf : Conf) (k : Msg) (x : Nat × List Byte) : Bool :=
  match cf.unpack x.2 with
  | some m => !m.rsp && decide (bare m = k)
  | none => false

theorem pushes_count {cf : Conf} (hcod : cf.Codec) (k : Msg) (es : List Eff) :
    (pushes cf es).countP (isReq cf k) = (sentReqs es).countP (fun m => decide (bare m = k)) := by
  induction es with
  | nil => rfl
  | cons e es ih =>
    cases e with
    | sent e c m =>
      simp only [pushes, sentReqs, List.filterMap_cons] at ih ⊢
      rw [List.countP_cons, ih]
      cases hr : m.rsp
      · simp [isReq, hcod.back, hr, List.countP_cons]
      · simp [isReq, hcod.back, hr]
    | _ => exact ih

theorem handled_count {cf : Conf} {hf bf ag : Nat} {q : Prop} {s : S} (i : Base cf hf bf ag q s) (p : Nat × List Byte → Bool) :
    s.handled.countP p ≤ s.queue.countP p := by
  apply Lanes.countP_le
  rintro ⟨j, b⟩
  rw [Lanes.count_over, Lanes.count_over, i.handled, i.queue]
  exact (((List.take_prefix _ _).trans (i.lane j).pre).sublist).count_le _

/-- The records, for one content. -/
def Once (cf : Conf) (k : Msg) (s : S) : Prop :=
  s.queue.countP (isReq cf k) + s.delivered.countP (fun x => decide (bare x.2 = k)) ≤
    s.sends.countP (fun m => decide (bare m = k)) + s.handled.countP (isReq cf k)

theorem once_step {cf : Conf} (hcod : cf.Codec) {hf bf ag : Nat} (k : Msg) (s s' : S) (e : Ev) (_ : Base cf hf bf ag True s) (hp : Once cf k s)
    (_ : True) (hcan : Can cf True s e) (_ : Base cf hf bf ag True s') (hsh : Shape cf True s s' e) : Once cf k s' := by
  unfold Once at hp ⊢
  cases e with
  | send h limit tid content seq nr =>
    obtain ⟨a1, a2, a3, a4, a5, a6⟩ := hsh
    obtain ⟨b1, b2, b3, b4⟩ := sendData_spec h.n limit tid content seq nr
    rw [a1, a3, a4, a6 trivial, b1, b2, List.map_nil, List.append_nil, List.countP_append, pushes_count hcod, List.countP_append]
    omega
  | other c b ev =>
    obtain ⟨a1, a2, a3, a4, a5⟩ := hsh
    have hz : List.countP (isReq cf k) [(c, b)] = 0 := by
      rw [List.countP_eq_zero]
      intro x hx
      rw [List.mem_singleton.1 hx]
      unfold isReq
      cases hu : cf.unpack b with
      | none => simp [hu]
      | some m => simp [hu, hcan.2 m hu]
    rw [a1, a3, a4]
    rcases a5 with a5 | a5
    · rw [a5]; exact hp
    · rw [a5, List.countP_append, hz]; exact hp
  | lane l e =>
    obtain ⟨a1, a2, a3, a4, a5⟩ := hsh
    rw [a1, a3, a4, a5]; exact hp
  | handle l h =>
    rcases hsh with ⟨-, rfl⟩ | ⟨b, -, -, a1, a2, a3, ⟨hu, a4, a5⟩ | ⟨m, hu, a4, a5, a6⟩⟩
    · exact hp
    · rw [a1, a3, a4, a5, List.countP_append]; omega
    · rw [a1, a3, a4, a6 trivial, List.countP_append, List.countP_append, List.countP_append, pushes_count hcod, List.countP_map]
      obtain ⟨hd, -⟩ := effects_spec h m
      have hone : ∀ m' : Msg, m'.rsp = false → bare m' = bare m → List.countP (fun m => decide (bare m = k)) [m'] = List.countP (isReq cf k) [(l, b)] := by
        intro m' hr hb
        have hmr : m.rsp = false := by
          exact (bare_eq hb).2.2.1.symm.trans hr
        simp [List.countP_cons, isReq, hu, hmr, hb]
      cases hd with
      | drop h1 h2 => rw [h1, h2]; simp only [List.countP_nil]; omega
      | show_ m' h0 hr hb h1 h2 =>
        rw [h1, h2]
        have := hone m' hr hb
        have h3 : List.countP ((fun x : Nat × Msg => decide (bare x.2 = k)) ∘ fun m => (h.n.id, m)) [m'] = List.countP (fun m => decide (bare m = k)) [m'] := rfl
        rw [h3]
        simp only [List.countP_nil]
        omega
      | pass m' h0 hr hb hroute h1 h2 =>
        rw [h1, h2]
        have := hone m' hr hb
        simp only [List.countP_nil]
        omega

/-- Every message shown to an application is a request addressed to its node. -/
def Addressed (s : S) : Prop := ∀ x ∈ s.delivered, x.2.to = x.1 ∧ x.2.rsp = false

theorem addressed_step {cf : Conf} {hf bf ag : Nat} {q : Prop} (s s' : S) (e : Ev) (_ : Base cf hf bf ag q s) (hp : Addressed s)
    (_ : True) (_ : Can cf q s e) (_ : Base cf hf bf ag q s') (hsh : Shape cf q s s' e) : Addressed s' := by
  unfold Addressed at hp ⊢
  cases e with
  | send h limit tid content seq nr =>
    obtain ⟨-, -, -, a4, -, -⟩ := hsh
    rw [a4, (sendData_spec h.n limit tid content seq nr).1]
    simpa using hp
  | other c b ev => rw [hsh.2.2.2.1]; exact hp
  | lane l e => rw [hsh.2.2.2.1]; exact hp
  | handle l h =>
    rcases hsh with ⟨-, rfl⟩ | ⟨b, -, -, a1, a2, a3, ⟨hu, a4, a5⟩ | ⟨m, hu, a4, a5, a6⟩⟩
    · exact hp
    · rw [a4]; exact hp
    · rw [a4]
      intro x hx
      rcases List.mem_append.1 hx with hx | hx
      · exact hp x hx
      · obtain ⟨hd, -⟩ := effects_spec h m
        cases hd with
        | drop h1 h2 => rw [h1] at hx; cases hx
        | show_ m' h0 hr hb h1 h2 =>
          rw [h1] at hx
          rw [List.mem_singleton.1 hx]
          exact ⟨(bare_eq hb).1.trans h0, hr⟩
        | pass m' h0 hr hb hroute h1 h2 => rw [h1] at hx; cases hx

/-- C91 (at most once): whatever the tables of the nodes are and however they change, if no request to write is refused there is no undefined
behaviour, every message shown to an application is addressed to its node, and every content is shown at most as often as it was accepted
from `send_data`. -/
theorem C91_once_partial (cf : Conf) (hcod : cf.Codec) (hf bf ag : Nat) (hag : ∀ i, ag ≤ (cf.stream i).recv.maxAgain) (es : List Ev)
    (hc : Cans cf True (init hf bf ag) es) :
    ∃ s, run cf (init hf bf ag) es = some s ∧ (∀ x ∈ s.delivered, x.2.to = x.1) ∧
      ∀ k, s.delivered.countP (fun x => decide (bare x.2 = k)) ≤ s.sends.countP (fun m => decide (bare m = k)) := by
  obtain ⟨s, h1, h2, h3⟩ := run_base hcod (q := True) (fun s => Addressed s ∧ ∀ k, Once cf k s) (fun _ => True)
    (fun s s' e b p _ c b' sh => ⟨addressed_step s s' e b p.1 trivial c b' sh, fun k => once_step hcod k s s' e b (p.2 k) trivial c b' sh⟩)
    es (init hf bf ag) (init_base cf True hf bf ag hag) ⟨fun _ h => (by cases h), fun k => (by simp [Once, init])⟩ (fun _ _ => trivial) hc
  refine ⟨s, h1, fun x hx => (h3.1 x hx).1, fun k => ?_⟩
  have := h3.2 k
  have := handled_count h2 (isReq cf k)
  unfold Once at *
  omega

/-! ### Origin -/

/-- Every request in a stream, and every message shown, was built by a call of `send_data`. -/
def Origin (cf : Conf) (s : S) : Prop :=
  (∀ y ∈ s.queue, ∀ m, cf.unpack y.2 = some m → m.rsp = false → ∃ k ∈ s.calls, bare k = bare m) ∧
  (∀ x ∈ s.delivered, ∃ k ∈ s.calls, bare k = bare x.2)

theorem tried_mem {cf : Conf} {es : List Eff} {y : Nat × List Byte} (h : y ∈ tried cf es) :
    ∃ e k, y.2 = cf.pack k ∧ (.sent e y.1 k ∈ es ∨ .refused e y.1 k ∈ es) := by
  unfold tried at h
  obtain ⟨x, hx, h⟩ := List.mem_filterMap.1 h
  cases x with
  | sent e c m => simp only [Option.some.injEq] at h; rw [← h]; exact ⟨e, m, rfl, Or.inl hx⟩
  | refused e c m => simp only [Option.some.injEq] at h; rw [← h]; exact ⟨e, m, rfl, Or.inr hx⟩
  | _ => cases h

theorem origin_step {cf : Conf} (hcod : cf.Codec) {hf bf ag : Nat} {q : Prop} (s s' : S) (e : Ev) (_ : Base cf hf bf ag q s) (hp : Origin cf s)
    (_ : True) (hcan : Can cf q s e) (_ : Base cf hf bf ag q s') (hsh : Shape cf q s s' e) : Origin cf s' := by
  obtain ⟨hp1, hp2⟩ := hp
  cases e with
  | send h limit tid content seq nr =>
    obtain ⟨a1, a2, a3, a4, a5, -⟩ := hsh
    obtain ⟨b1, b2, b3, b4⟩ := sendData_spec h.n limit tid content seq nr
    refine ⟨fun y hy m hm hr => ?_, fun x hx => ?_⟩
    · rcases a5 y hy with h | h
      · obtain ⟨k, k1, k2⟩ := hp1 y h m hm hr
        exact ⟨k, by rw [a2]; exact List.mem_append_left _ k1, k2⟩
      · obtain ⟨e, k, k1, k2⟩ := tried_mem h
        rw [k1, hcod.back] at hm
        cases hm
        rw [b4 e _ _ k2]
        exact ⟨_, by rw [a2]; exact List.mem_append_right _ (List.mem_singleton.2 rfl), rfl⟩
    · rw [a4, b1] at hx
      obtain ⟨k, k1, k2⟩ := hp2 x (by simpa using hx)
      exact ⟨k, by rw [a2]; exact List.mem_append_left _ k1, k2⟩
  | other c b ev =>
    obtain ⟨a1, a2, a3, a4, a5⟩ := hsh
    refine ⟨fun y hy m hm hr => ?_, fun x hx => ?_⟩
    · rw [a2]
      rcases a5 with a5 | a5
      · rw [a5] at hy; exact hp1 y hy m hm hr
      · rw [a5] at hy
        rcases List.mem_append.1 hy with hy | hy
        · exact hp1 y hy m hm hr
        · rw [List.mem_singleton.1 hy] at hm
          rw [hcan.2 m hm] at hr
          cases hr
    · rw [a4] at hx; rw [a2]; exact hp2 x hx
  | lane l e =>
    obtain ⟨a1, a2, a3, a4, a5⟩ := hsh
    exact ⟨by rw [a5, a2]; exact hp1, by rw [a4, a2]; exact hp2⟩
  | handle l h =>
    rcases hsh with ⟨-, rfl⟩ | ⟨b, -, hmem, a1, a2, a3, ⟨hu, a4, a5⟩ | ⟨m, hu, a4, a5, a6⟩⟩
    · exact ⟨hp1, hp2⟩
    · exact ⟨by rw [a5, a2]; exact hp1, by rw [a4, a2]; exact hp2⟩
    · obtain ⟨hd, hs⟩ := effects_spec h m
      refine ⟨fun y hy k hk hr => ?_, fun x hx => ?_⟩
      · rw [a2]
        rcases a5 y hy with h' | h'
        · exact hp1 y h' k hk hr
        · obtain ⟨e, k', k1, k2⟩ := tried_mem h'
          rw [k1, hcod.back] at hk
          cases hk
          rcases hs e _ _ k2 with h3 | h3
          · rw [hr] at h3; cases h3
          · rw [h3]
            exact hp1 (l, b) hmem m hu ((bare_eq h3).2.2.1.symm.trans hr)
      · rw [a2]
        rw [a4] at hx
        rcases List.mem_append.1 hx with hx | hx
        · exact hp2 x hx
        · cases hd with
          | drop h1 h2 => rw [h1] at hx; cases hx
          | show_ m' h0 hr hb h1 h2 =>
            rw [h1] at hx
            rw [List.mem_singleton.1 hx]
            rw [hb]
            exact hp1 (l, b) hmem m hu ((bare_eq hb).2.2.1.symm.trans hr)
          | pass m' h0 hr hb hroute h1 h2 => rw [h1] at hx; cases hx

/-- C91 (origin): whatever the tables of the nodes are and whatever happens, also if requests to write are refused, there is no undefined
behaviour, and every message shown to an application is addressed to its node and was built by a call of `send_data`; only its source and the
list of nodes that passed it on differ. -/
theorem C91_origin (cf : Conf) (hcod : cf.Codec) (hf bf ag : Nat) (hag : ∀ i, ag ≤ (cf.stream i).recv.maxAgain) (es : List Ev)
    (hc : Cans cf False (init hf bf ag) es) :
    ∃ s, run cf (init hf bf ag) es = some s ∧ ∀ x ∈ s.delivered, x.2.to = x.1 ∧ ∃ k ∈ s.calls, bare k = bare x.2 := by
  obtain ⟨s, h1, h2, h3⟩ := run_base hcod (q := False) (fun s => Addressed s ∧ Origin cf s) (fun _ => True)
    (fun s s' e b p _ c b' sh => ⟨addressed_step s s' e b p.1 trivial c b' sh, origin_step hcod s s' e b p.2 trivial c b' sh⟩)
    es (init hf bf ag) (init_base cf False hf bf ag hag) ⟨fun _ h => (by cases h), fun _ h => (by cases h), fun _ h => (by cases h)⟩ (fun _ _ => trivial) hc
  exact ⟨s, h1, fun x hx => ⟨(h3.1 x hx).1, h3.2.2 x hx⟩⟩

end Verif.Node.Relay
