import Verif.Node.RelayExamples

/-!
C96: the answers to data messages, over streams.
-/
namespace Verif.Node.Relay

open Verif.IoStream
open Verif.Subnet (Ep)
open Verif.Node.Lanes (over over_append)

/-! ### Specification -/

/-- What a handler tells the application with `on_forward_response`. -/
def told (es : List Eff) : List Msg :=
  es.filterMap fun x => match x with
    | .response m => some m
    | _ => none

/-- The calls of `on_forward_response` in an event, with the node. -/
def answersAt (cf : Conf) (s : S) : Ev → List (Nat × Msg)
  | .handle l h =>
    match (s.lane l).got[s.done l]? with
    | none => []
    | some b =>
      match cf.unpack b with
      | none => []
      | some m => (told (h.effects m)).map fun m => (h.n.id, m)
  | _ => []

/-- The calls of `on_forward_response` in a run. -/
def answered (cf : Conf) (s : S) : List Ev → List (Nat × Msg)
  | [] => []
  | e :: es => answersAt cf s e ++ match step cf s e with
    | none => []
    | some s => answered cf s es

/-- What a message and the answers to it have in common; an answer goes the other way. -/
def key (m : Msg) : Msg :=
  { m with
    rsp := false
    src := 0
    ret := 0
    router := []
    from_ := if m.rsp then m.to else m.from_
    to := if m.rsp then m.from_ else m.to }

/-- Messages of other kinds are no data messages. -/
def Ev.plain (cf : Conf) : Ev → Prop
  | .other _ b _ => cf.unpack b = none
  | _ => True

/-! ### Handlers -/

/-- A request, or the report of a failure. -/
def live (m : Msg) : Bool := !m.rsp || decide (m.ret < 0)

/-- Of what a handler transmits or shows, the requests and the reports of failures. -/
def lives (es : List Eff) : List Msg :=
  es.filterMap fun x => match x with
    | .deliver m => if live m then some m else none
    | .response m => if live m then some m else none
    | .sent _ _ m => if live m then some m else none
    | _ => none

theorem lives_append (a b : List Eff) : lives (a ++ b) = lives a ++ lives b := List.filterMap_append

/-- What the handler of node `x` may do with `m`. -/
def Okay (x : Nat) (m : Msg) : Eff → Prop
  | .deliver k => key k = key m
  | .response k => key k = key m ∧ k.rsp = true ∧ m.rsp = true ∧ k.to = x ∧ k.ret = m.ret
  | .sent _ _ k => key k = key m ∧ (k.rsp = true → k.needRsp = false → (m.rsp = true ∧ k.ret = m.ret) ∨ k.ret < 0)
  | .refused _ _ k => key k = key m ∧ (k.rsp = true → k.needRsp = false → (m.rsp = true ∧ k.ret = m.ret) ∨ k.ret < 0)
  | _ => True

theorem key_unpackSrc (b : Option Nat) (m : Msg) : key (unpackSrc b m) = key m ∧ (unpackSrc b m).rsp = m.rsp ∧ (unpackSrc b m).ret = m.ret := by
  unfold unpackSrc
  split
  · exact ⟨rfl, rfl, rfl⟩
  · split <;> exact ⟨rfl, rfl, rfl⟩

/-- The answer to a request. -/
theorem rsp_cases (n : Node) (k : Msg) (code : Int) (hreq : k.rsp = false) (hneed : k.needRsp = false → code < 0) :
    (∀ y ∈ (sendTransferRsp n k code).1, Okay n.id k y) ∧
    (lives (sendTransferRsp n k code).1 = [] ∨ (code < 0 ∧ ∃ m', lives (sendTransferRsp n k code).1 = [m'])) := by
  have hkey : key (transferRspMsg n k code) = key k := by
    simp only [key, transferRspMsg, hreq]
    rfl
  have hok : key (transferRspMsg n k code) = key k ∧ ((transferRspMsg n k code).rsp = true → (transferRspMsg n k code).needRsp = false →
      (k.rsp = true ∧ (transferRspMsg n k code).ret = k.ret) ∨ (transferRspMsg n k code).ret < 0) :=
    ⟨hkey, fun _ h => Or.inr (hneed h)⟩
  have hlive : live (transferRspMsg n k code) = decide (code < 0) := rfl
  unfold sendTransferRsp
  rcases sendMsg_cases n n.ctrlConn k.from_ (transferRspMsg n k code) with ⟨r, h, _⟩ | ⟨_, h⟩ | ⟨e, c, _, _, _, h⟩
  · rw [h]; exact ⟨by simp, Or.inl rfl⟩
  · rw [h]; exact ⟨by simp [Okay], Or.inl rfl⟩
  · rw [h]
    by_cases hp : n.push c (transferRspMsg n k code) < 0
    · rw [if_pos hp]
      refine ⟨fun y hy => ?_, Or.inl rfl⟩
      rw [List.mem_singleton.1 hy]; exact hok
    · rw [if_neg hp]
      refine ⟨fun y hy => ?_, ?_⟩
      · rw [List.mem_singleton.1 hy]; exact hok
      · by_cases hc : code < 0
        · exact Or.inr ⟨hc, _, by simp [lives, hlive, hc]; rfl⟩
        · exact Or.inl (by simp [lives, hlive, hc])

theorem attempt_lives (n : Node) (m : Msg) (hreq : m.rsp = false) (es : List Eff) (h : ∀ x ∈ es, Attempt n m x) :
    lives es = sentReqs es ∧ ∀ x ∈ es, Okay n.id m x := by
  have hp : (passed n m).rsp = false := hreq
  have hk : key (passed n m) = key m := rfl
  have hl : live (passed n m) = true := by simp [live, hp]
  refine ⟨?_, fun x hx => ?_⟩
  · induction es with
    | nil => rfl
    | cons x xs ih =>
      have ih := ih fun y hy => h y (List.mem_cons_of_mem _ hy)
      obtain ⟨e, c, h1 | h1, -⟩ := (h x List.mem_cons_self).attempt
      · rw [h1]
        simp only [lives, sentReqs, List.filterMap_cons, hl, hp] at ih ⊢
        simp only [if_true, Bool.false_eq_true, if_false]
        rw [ih]
      · rw [h1]
        simp only [lives, sentReqs, List.filterMap_cons] at ih ⊢
        exact ih
  · obtain ⟨e, c, h1 | h1, -⟩ := (h x hx).attempt
    · rw [h1]; exact ⟨hk, fun hh => by rw [hp] at hh; cases hh⟩
    · rw [h1]; exact ⟨hk, fun hh => by rw [hp] at hh; cases hh⟩

/-- What a handler does with a message: what it transmits or shows is the same message or an answer to it, and among this there is at most
one request or report of a failure. -/
theorem effects_answers (h : H) (m : Msg) : (∀ y ∈ h.effects m, Okay h.n.id m y) ∧
    (lives (h.effects m) = [] ∨ (live m = true ∧ ∃ m', lives (h.effects m) = [m'])) := by
  obtain ⟨b1, b2, b3⟩ := key_unpackSrc h.bound m
  unfold H.effects
  generalize unpackSrc h.bound m = k at *
  have conv : ∀ y, Okay h.n.id k y → Okay h.n.id m y := by
    intro y hy
    cases y with
    | deliver k' => exact Eq.trans hy b1
    | response k' => exact ⟨hy.1.trans b1, hy.2.1, b2 ▸ hy.2.2.1, hy.2.2.2.1, hy.2.2.2.2.trans b3⟩
    | sent e c k' => exact ⟨hy.1.trans b1, by rw [← b2, ← b3]; exact hy.2⟩
    | refused e c k' => exact ⟨hy.1.trans b1, by rw [← b2, ← b3]; exact hy.2⟩
    | toSelf _ => trivial
    | sync _ _ => trivial
  have hl : live k = live m := by unfold live; rw [b2, b3]
  rw [← hl]
  suffices hs : (∀ y ∈ (Node.handle h.n (some h.connected) k).1, Okay h.n.id k y) ∧
      (lives (Node.handle h.n (some h.connected) k).1 = [] ∨ (live k = true ∧ ∃ m', lives (Node.handle h.n (some h.connected) k).1 = [m'])) from
    ⟨fun y hy => conv y (hs.1 y hy), hs.2⟩
  have none_ : (∀ y ∈ ([] : List Eff), Okay h.n.id k y) ∧ (lives [] = [] ∨ (live k = true ∧ ∃ m', lives [] = [m'])) := ⟨by simp, Or.inl rfl⟩
  unfold Node.handle
  split
  · rename_i hrsp
    unfold transferRsp
    split
    · exact none_
    split
    · exact none_
    split
    · rename_i hto
      refine ⟨fun y hy => ?_, ?_⟩
      · rw [List.mem_singleton.1 hy]; exact ⟨rfl, hrsp, hrsp, hto, rfl⟩
      · cases hv : live k with
        | false => exact Or.inl (by simp [lives, hv])
        | true => exact Or.inr ⟨rfl, k, by simp [lives, hv]⟩
    · simp only
      have hok : key { k with src := h.n.id } = key k ∧ (({ k with src := h.n.id } : Msg).rsp = true → ({ k with src := h.n.id } : Msg).needRsp = false →
          (k.rsp = true ∧ ({ k with src := h.n.id } : Msg).ret = k.ret) ∨ ({ k with src := h.n.id } : Msg).ret < 0) :=
        ⟨rfl, fun _ _ => Or.inl ⟨hrsp, rfl⟩⟩
      have hlk : live { k with src := h.n.id } = live k := rfl
      rcases forwardData_cases h.n k k.src k.to with ⟨r, e, hf, -⟩ | ⟨e, c, -, -, -, -, -, hf⟩
      · rw [hf]; exact none_
      · rw [hf]
        simp only
        split
        · refine ⟨fun y hy => ?_, Or.inl rfl⟩
          rw [List.mem_singleton.1 hy]; exact hok
        · refine ⟨fun y hy => ?_, ?_⟩
          · rw [List.mem_singleton.1 hy]; exact hok
          · cases hv : live k with
            | false => exact Or.inl (by simp [lives, hlk, hv])
            | true => exact Or.inr ⟨rfl, _, by simp [lives, hlk, hv]; rfl⟩
  · rename_i hrsp
    have hreq : k.rsp = false := by simpa using hrsp
    have hlk : live k = true := by simp [live, hreq]
    have hans : ∀ code, code < 0 → (∀ y ∈ (sendTransferRsp h.n k code).1, Okay h.n.id k y) ∧
        (lives (sendTransferRsp h.n k code).1 = [] ∨ (live k = true ∧ ∃ m', lives (sendTransferRsp h.n k code).1 = [m'])) := by
      intro code hc
      obtain ⟨p1, p2⟩ := rsp_cases h.n k code hreq (fun _ => hc)
      refine ⟨p1, ?_⟩
      rcases p2 with p2 | p2
      · exact Or.inl p2
      · exact Or.inr ⟨hlk, p2.2⟩
    unfold transferReq
    split
    · exact hans _ (by decide)
    split
    · exact none_
    split
    · exact none_
    split
    · split
      · rename_i hneed
        obtain ⟨p1, p2⟩ := rsp_cases h.n k Err.SUCCESS hreq (fun hn => by rw [hneed] at hn; cases hn)
        simp only
        refine ⟨fun y hy => ?_, Or.inr ⟨hlk, k, ?_⟩⟩
        · rcases List.mem_cons.1 hy with rfl | hy
          · exact rfl
          · exact p1 y hy
        · have p3 : lives (sendTransferRsp h.n k Err.SUCCESS).1 = [] := by
            rcases p2 with p2 | p2
            · exact p2
            · exact absurd p2.1 (by decide)
          simp only [lives, List.filterMap_cons, hlk, if_true] at p3 ⊢
          rw [p3]
      · refine ⟨fun y hy => ?_, Or.inr ⟨hlk, k, by simp [lives, hlk]⟩⟩
        rw [List.mem_singleton.1 hy]; exact rfl
    split
    · exact hans _ (by decide)
    · obtain ⟨q1, -, q3, q4⟩ := second_spec h.n k hreq
      obtain ⟨r1, -, r3, r4⟩ := forward_step h.n k { k with router := k.router ++ [h.n.id] } k.to rfl hreq
      rw [forwardReq_eq h.n k]
      generalize forwardData h.n { k with router := k.router ++ [h.n.id] } k.src k.to = r at *
      obtain ⟨rl, ro⟩ := attempt_lives h.n k hreq r.1 r1
      obtain ⟨ql, qo⟩ := attempt_lives h.n k hreq _ q1
      have hr : lives r.1 = [] ∨ (live k = true ∧ ∃ m', lives r.1 = [m']) := by
        rw [rl]
        rcases r3 with h | h
        · exact Or.inl h.2
        · exact Or.inr ⟨hlk, _, h.2⟩
      generalize hq : second h.n k.src r = q at *
      split
      · split
        · split
          · refine ⟨fun y hy => ?_, ?_⟩
            · rcases List.mem_append.1 hy with hy | hy
              · exact ro y hy
              · rw [List.mem_singleton.1 hy]; trivial
            · rw [lives_append]
              rcases hr with hr | ⟨h1, m', h2⟩
              · exact Or.inl (by rw [hr]; rfl)
              · exact Or.inr ⟨h1, m', by rw [h2]; rfl⟩
          · exact ⟨ro, hr⟩
        · exact ⟨ro, hr⟩
      · split
        · rename_i hneed
          have hq1 : q.2.2.rsp = false := by
            have := congrArg Msg.rsp q4
            exact this.trans hreq
          have hq2 : key q.2.2 = key k := by
            have h1 : key q.2.2 = key { q.2.2 with src := h.n.id } := rfl
            rw [h1, q4]
            rfl
          obtain ⟨p1, p2⟩ := rsp_cases h.n q.2.2 q.2.1 hq1 (fun hn => by
            rcases hneed with h | h
            · exact h
            · rw [hn] at h; cases h)
          have conv2 : ∀ y, Okay h.n.id q.2.2 y → Okay h.n.id k y := by
            intro y hy
            cases y with
            | deliver k' => exact Eq.trans hy hq2
            | response k' => exact absurd (hq1.symm.trans hy.2.2.1) (by decide)
            | sent e c k' => exact ⟨hy.1.trans hq2, fun a b => by
                rcases hy.2 a b with h | h
                · rw [hq1] at h; cases h.1
                · exact Or.inr h⟩
            | refused e c k' => exact ⟨hy.1.trans hq2, fun a b => by
                rcases hy.2 a b with h | h
                · rw [hq1] at h; cases h.1
                · exact Or.inr h⟩
            | toSelf _ => trivial
            | sync _ _ => trivial
          simp only
          refine ⟨fun y hy => ?_, ?_⟩
          · rcases List.mem_append.1 hy with hy | hy
            · exact qo y hy
            · exact conv2 y (p1 y hy)
          · rw [lives_append, ql]
            rcases q3 with ⟨h1, h2⟩ | ⟨h1, h2⟩
            · rw [h2, List.nil_append]
              rcases p2 with p2 | p2
              · exact Or.inl p2
              · exact Or.inr ⟨hlk, p2.2⟩
            · rcases p2 with p2 | p2
              · exact Or.inr ⟨hlk, _, by rw [h2, p2]; rfl⟩
              · have := p2.1
                omega
        · refine ⟨qo, ?_⟩
          simp only
          rw [ql]
          rcases q3 with h | h
          · exact Or.inl h.2
          · exact Or.inr ⟨hlk, _, h.2⟩

/-! ### Runs -/

/-- What every step keeps, of the records and of the answers shown, holds after every run. -/
theorem run_answers {cf : Conf} (hcod : cf.Codec) {hf bf ag : Nat} {q : Prop} (P : S → List (Nat × Msg) → Prop) (Q : Ev → Prop)
    (hP : ∀ s s' e acc, Base cf hf bf ag q s → P s acc → Q e → Can cf q s e → Base cf hf bf ag q s' → Shape cf q s s' e →
      P s' (acc ++ answersAt cf s e)) (es : List Ev) :
    ∀ s acc, Base cf hf bf ag q s → P s acc → (∀ e ∈ es, Q e) → Cans cf q s es →
      ∃ s', run cf s es = some s' ∧ Base cf hf bf ag q s' ∧ P s' (acc ++ answered cf s es) := by
  induction es with
  | nil => intro s acc i hp _ _; exact ⟨s, rfl, i, by simpa [answered] using hp⟩
  | cons e es ih =>
    intro s acc i hp hq hc
    obtain ⟨s1, h1, h2, h3⟩ := step_base hcod i e hc.1
    obtain ⟨s2, k1, k2, k3⟩ := ih s1 (acc ++ answersAt cf s e) h2 (hP s s1 e acc i hp (hq e (List.mem_cons_self ..)) hc.1 h2 h3)
      (fun e' he' => hq e' (List.mem_cons_of_mem _ he')) (hc.2 s1 h1)
    refine ⟨s2, by simp only [run, h1]; exact k1, k2, ?_⟩
    have : answered cf s (e :: es) = answersAt cf s e ++ answered cf s1 es := by simp only [answered, h1]
    rw [this, ← List.append_assoc]
    exact k3

/-! ### At most one of delivery and report -/

/-- A request or report of a failure with the given key. -/
def hits (k m : Msg) : Bool := live m && decide (key m = k)

/-- The same for a message in a stream. -/
def isHit (cf : Conf) (k : Msg) (x : Nat × List Byte) : Bool :=
  match cf.unpack x.2 with
  | some m => hits k m
  | none => false

theorem lives_count {cf : Conf} (hcod : cf.Codec) (k : Msg) (es : List Eff) :
    (pushes cf es).countP (isHit cf k) + (shown es).countP (hits k) + (told es).countP (hits k) = (lives es).countP (hits k) := by
  induction es with
  | nil => rfl
  | cons e es ih =>
    have hz : ∀ m, live m = false → hits k m = false := fun m h => by simp [hits, h]
    cases e with
    | sent e c m =>
      simp only [pushes, shown, told, lives, List.filterMap_cons] at ih ⊢
      rw [List.countP_cons]
      have h1 : isHit cf k (c, cf.pack m) = hits k m := by simp [isHit, hcod.back]
      rw [h1]
      cases hl : live m with
      | false => simp only [hz m hl, Bool.false_eq_true, if_false]; omega
      | true => simp only [if_true, List.countP_cons]; omega
    | deliver m =>
      simp only [pushes, shown, told, lives, List.filterMap_cons] at ih ⊢
      rw [List.countP_cons]
      cases hl : live m with
      | false => simp only [hz m hl, Bool.false_eq_true, if_false]; omega
      | true => simp only [if_true, List.countP_cons]; omega
    | response m =>
      simp only [pushes, shown, told, lives, List.filterMap_cons] at ih ⊢
      rw [List.countP_cons]
      cases hl : live m with
      | false => simp only [hz m hl, Bool.false_eq_true, if_false]; omega
      | true => simp only [if_true, List.countP_cons]; omega
    | refused e c m => exact ih
    | toSelf m => exact ih
    | sync a b => exact ih

theorem told_send (n : Node) (limit tid : Nat) (content : List Nat) (seq : Nat) (nr : Bool) :
    told (sendData n limit tid content seq nr).1 = [] := by
  unfold sendData
  split
  · rfl
  split
  · rfl
  rcases sendMsg_cases n n.dataConn tid (dataMsg n tid content seq nr) with ⟨r, h, -⟩ | ⟨-, h⟩ | ⟨e, c, -, -, -, h⟩
  · rw [h]; rfl
  · rw [h]; rfl
  · rw [h]
    dsimp only
    split <;> rfl

/-- The records, for one key. -/
def Total (cf : Conf) (k : Msg) (s : S) (acc : List (Nat × Msg)) : Prop :=
  s.queue.countP (isHit cf k) + s.delivered.countP (fun x => hits k x.2) + acc.countP (fun x => hits k x.2) ≤
    s.sends.countP (hits k) + s.handled.countP (isHit cf k)

theorem total_step {cf : Conf} (hcod : cf.Codec) {hf bf ag : Nat} (k : Msg) (s s' : S) (e : Ev) (acc : List (Nat × Msg)) (_ : Base cf hf bf ag True s)
    (hp : Total cf k s acc) (hpl : e.plain cf) (_ : Can cf True s e) (_ : Base cf hf bf ag True s') (hsh : Shape cf True s s' e) :
    Total cf k s' (acc ++ answersAt cf s e) := by
  unfold Total at hp ⊢
  cases e with
  | send h limit tid content seq nr =>
    obtain ⟨a1, a2, a3, a4, a5, a6⟩ := hsh
    obtain ⟨b1, b2, b3, b4⟩ := sendData_spec h.n limit tid content seq nr
    have hl : (lives (sendData h.n limit tid content seq nr).1).countP (hits k) =
        (accepted (sendData h.n limit tid content seq nr).1).countP (hits k) := by
      rw [← lives_count hcod, b1, told_send]
      simp only [List.countP_nil, Nat.add_zero]
      clear b1 b2 b3 b4 a3 a4 a5 a6
      generalize (sendData h.n limit tid content seq nr).1 = es
      induction es with
      | nil => rfl
      | cons x xs ih =>
        cases x with
        | sent e c m =>
          simp only [pushes, accepted, List.filterMap_cons] at ih ⊢
          rw [List.countP_cons, List.countP_cons, ih]
          have h1 : isHit cf k (c, cf.pack m) = hits k m := by simp [isHit, hcod.back]
          rw [h1]
        | _ => exact ih
    have hc := lives_count hcod k (sendData h.n limit tid content seq nr).1
    rw [b1, told_send] at hc
    simp only [List.countP_nil, Nat.add_zero] at hc
    simp only [answersAt, List.append_nil]
    rw [a1, a3, a4, a6 trivial, b1, List.map_nil, List.append_nil, List.countP_append, List.countP_append]
    omega
  | other c b ev =>
    obtain ⟨a1, a2, a3, a4, a5⟩ := hsh
    have hu : cf.unpack b = none := hpl
    have hz : List.countP (isHit cf k) [(c, b)] = 0 := by simp [isHit, hu]
    rw [a1, a3, a4]
    simp only [answersAt, List.append_nil]
    rcases a5 with a5 | a5
    · rw [a5]; exact hp
    · rw [a5, List.countP_append, hz]; exact hp
  | lane l e =>
    obtain ⟨a1, a2, a3, a4, a5⟩ := hsh
    rw [a1, a3, a4, a5]
    simp only [answersAt, List.append_nil]
    exact hp
  | handle l h =>
    rcases hb : (s.lane l).got[s.done l]? with _ | b
    · have : answersAt cf s (.handle l h) = [] := by simp only [answersAt, hb]
      rw [this, List.append_nil]
      rcases hsh with ⟨-, rfl⟩ | ⟨b, hb', -⟩
      · exact hp
      · rw [hb] at hb'; cases hb'
    · rcases hsh with ⟨hb', -⟩ | ⟨b', hb', -, a1, a2, a3, a4⟩
      · rw [hb] at hb'; cases hb'
      · rw [hb] at hb'
        cases hb'
        rcases a4 with ⟨hu, a4, a5⟩ | ⟨m, hu, a4, a5, a6⟩
        · have : answersAt cf s (.handle l h) = [] := by simp only [answersAt, hb, hu]
          rw [this, List.append_nil, a1, a3, a4, a5, List.countP_append]
          omega
        · have ha : answersAt cf s (.handle l h) = (told (h.effects m)).map fun m => (h.n.id, m) := by simp only [answersAt, hb, hu]
          obtain ⟨ho, hl⟩ := effects_answers h m
          have hc := lives_count hcod k (h.effects m)
          rw [ha, a1, a3, a4, a6 trivial, List.countP_append, List.countP_append, List.countP_append, List.countP_append, List.countP_map, List.countP_map]
          have e1 : List.countP ((fun x : Nat × Msg => hits k x.2) ∘ fun m => (h.n.id, m)) (shown (h.effects m)) = (shown (h.effects m)).countP (hits k) := rfl
          have e2 : List.countP ((fun x : Nat × Msg => hits k x.2) ∘ fun m => (h.n.id, m)) (told (h.effects m)) = (told (h.effects m)).countP (hits k) := rfl
          rw [e1, e2]
          have hone : (lives (h.effects m)).countP (hits k) ≤ List.countP (isHit cf k) [(l, b)] := by
            rcases hl with hl | ⟨hl, m', h2⟩
            · rw [hl]; exact Nat.zero_le _
            · have hm' : live m' = true ∧ key m' = key m := by
                have hmem : m' ∈ lives (h.effects m) := by rw [h2]; exact List.mem_singleton.2 rfl
                obtain ⟨x, hx, hx'⟩ := List.mem_filterMap.1 hmem
                have hox := ho x hx
                cases x with
                | deliver a => simp only [Option.ite_none_right_eq_some, Option.some.injEq] at hx'; rw [← hx'.2]; exact ⟨hx'.1, hox⟩
                | response a => simp only [Option.ite_none_right_eq_some, Option.some.injEq] at hx'; rw [← hx'.2]; exact ⟨hx'.1, hox.1⟩
                | sent e c a => simp only [Option.ite_none_right_eq_some, Option.some.injEq] at hx'; rw [← hx'.2]; exact ⟨hx'.1, hox.1⟩
                | _ => cases hx'
              have : hits k m' = isHit cf k (l, b) := by simp [isHit, hu, hits, hl, hm'.1, hm'.2]
              rw [h2, List.countP_cons, List.countP_cons, this]
              exact Nat.le_refl _
          omega

/-- C96 (at most one of delivery and report): whatever the tables of the nodes are and however they change, if no request to write is refused
there is no undefined behaviour, and a message is delivered or reported as failed at most as often as it was accepted from `send_data`.  So of
a message that was sent once, never both happens. -/
theorem C96_once_partial (cf : Conf) (hcod : cf.Codec) (hf bf ag : Nat) (hag : ∀ i, ag ≤ (cf.stream i).recv.maxAgain) (es : List Ev)
    (hc : Cans cf True (init hf bf ag) es) (hpl : ∀ e ∈ es, e.plain cf) :
    ∃ s, run cf (init hf bf ag) es = some s ∧ ∀ k, s.delivered.countP (fun x => decide (key x.2 = k)) +
      (answered cf (init hf bf ag) es).countP (fun x => decide (x.2.ret < 0 ∧ key x.2 = k)) ≤ s.sends.countP (fun m => decide (key m = k)) := by
  obtain ⟨s, h1, h2, h3⟩ := run_answers hcod (q := True) (fun s acc => Addressed s ∧ ∀ k, Total cf k s acc) (Ev.plain cf)
    (fun s s' e acc b p pl c b' sh => ⟨addressed_step s s' e b p.1 trivial c b' sh, fun k => total_step hcod k s s' e acc b (p.2 k) pl c b' sh⟩)
    es (init hf bf ag) [] (init_base cf True hf bf ag hag) ⟨fun _ h => (by cases h), fun k => (by simp [Total, init])⟩ hpl hc
  rw [List.nil_append] at h3
  refine ⟨s, h1, fun k => ?_⟩
  have h4 := h3.2 k
  have h5 := handled_count h2 (isHit cf k)
  unfold Total at h4
  have e1 : s.delivered.countP (fun x => decide (key x.2 = k)) = s.delivered.countP (fun x => hits k x.2) := by
    apply List.countP_congr
    intro x hx
    simp [hits, live, (h3.1 x hx).2]
  have e2 : (answered cf (init hf bf ag) es).countP (fun x => decide (x.2.ret < 0 ∧ key x.2 = k)) ≤
      (answered cf (init hf bf ag) es).countP (fun x => hits k x.2) := by
    apply List.countP_mono_left
    intro x _ hx
    have hx := of_decide_eq_true hx
    simp [hits, live, hx.1, hx.2]
  have e3 : s.sends.countP (hits k) ≤ s.sends.countP (fun m => decide (key m = k)) := by
    apply List.countP_mono_left
    intro x _ hx
    simp only [hits, Bool.and_eq_true] at hx
    exact hx.2
  omega

/-! ### Origin of answers -/

/-- Everything in a stream or shown to an application has the key of a call of `send_data`; answers without request have failed. -/
def Source (cf : Conf) (s : S) (acc : List (Nat × Msg)) : Prop :=
  (∀ c ∈ s.calls, c.rsp = false) ∧
  (∀ y ∈ s.queue, ∀ m, cf.unpack y.2 = some m → (∃ c ∈ s.calls, key c = key m) ∧ (m.rsp = true → m.needRsp = false → m.ret < 0)) ∧
  (∀ x ∈ acc, x.2.rsp = true ∧ x.2.to = x.1 ∧ (∃ c ∈ s.calls, key c = key x.2) ∧ (x.2.needRsp = false → x.2.ret < 0))

theorem source_step {cf : Conf} (hcod : cf.Codec) {hf bf ag : Nat} {q : Prop} (s s' : S) (e : Ev) (acc : List (Nat × Msg)) (_ : Base cf hf bf ag q s)
    (hp : Source cf s acc) (hpl : e.plain cf) (_ : Can cf q s e) (_ : Base cf hf bf ag q s') (hsh : Shape cf q s s' e) :
    Source cf s' (acc ++ answersAt cf s e) := by
  obtain ⟨hp1, hp2, hp3⟩ := hp
  cases e with
  | send h limit tid content seq nr =>
    obtain ⟨a1, a2, a3, a4, a5, -⟩ := hsh
    obtain ⟨b1, b2, b3, b4⟩ := sendData_spec h.n limit tid content seq nr
    have up : ∀ {m : Msg}, (∃ c ∈ s.calls, key c = key m) → ∃ c ∈ s'.calls, key c = key m := by
      rintro m ⟨c, h1, h2⟩
      exact ⟨c, by rw [a2]; exact List.mem_append_left _ h1, h2⟩
    simp only [answersAt, List.append_nil]
    refine ⟨fun c hc => ?_, fun y hy m hm => ?_, fun x hx => ?_⟩
    · rw [a2] at hc
      rcases List.mem_append.1 hc with hc | hc
      · exact hp1 c hc
      · rw [List.mem_singleton.1 hc]; rfl
    · rcases a5 y hy with h | h
      · exact ⟨up (hp2 y h m hm).1, (hp2 y h m hm).2⟩
      · obtain ⟨e, k, k1, k2⟩ := tried_mem h
        rw [k1, hcod.back] at hm
        cases hm
        rw [b4 e _ _ k2]
        exact ⟨⟨_, by rw [a2]; exact List.mem_append_right _ (List.mem_singleton.2 rfl), rfl⟩, fun hr => by cases hr⟩
    · obtain ⟨x1, x2, x3, x4⟩ := hp3 x hx
      exact ⟨x1, x2, up x3, x4⟩
  | other c b ev =>
    obtain ⟨a1, a2, a3, a4, a5⟩ := hsh
    have hu : cf.unpack b = none := hpl
    simp only [answersAt, List.append_nil]
    refine ⟨by rw [a2]; exact hp1, fun y hy m hm => ?_, by rw [a2]; exact hp3⟩
    rw [a2]
    rcases a5 with a5 | a5
    · rw [a5] at hy; exact hp2 y hy m hm
    · rw [a5] at hy
      rcases List.mem_append.1 hy with hy | hy
      · exact hp2 y hy m hm
      · rw [List.mem_singleton.1 hy, hu] at hm
        cases hm
  | lane l e =>
    obtain ⟨a1, a2, a3, a4, a5⟩ := hsh
    simp only [answersAt, List.append_nil]
    exact ⟨by rw [a2]; exact hp1, by rw [a5, a2]; exact hp2, by rw [a2]; exact hp3⟩
  | handle l h =>
    rcases hsh with ⟨hb, hs⟩ | ⟨b, hb, hmem, a1, a2, a3, ⟨hu, a4, a5⟩ | ⟨m, hu, a4, a5, a6⟩⟩
    · have : answersAt cf s (.handle l h) = [] := by simp only [answersAt, hb]
      rw [this, List.append_nil, hs]
      exact ⟨hp1, hp2, hp3⟩
    · have : answersAt cf s (.handle l h) = [] := by simp only [answersAt, hb, hu]
      rw [this, List.append_nil]
      exact ⟨by rw [a2]; exact hp1, by rw [a5, a2]; exact hp2, by rw [a2]; exact hp3⟩
    · have ha : answersAt cf s (.handle l h) = (told (h.effects m)).map fun m => (h.n.id, m) := by simp only [answersAt, hb, hu]
      obtain ⟨ho, -⟩ := effects_answers h m
      obtain ⟨⟨c0, c1, c2⟩, hm⟩ := hp2 (l, b) hmem m hu
      rw [ha]
      refine ⟨by rw [a2]; exact hp1, fun y hy k hk => ?_, fun x hx => ?_⟩
      · rw [a2]
        rcases a5 y hy with h' | h'
        · exact hp2 y h' k hk
        · obtain ⟨e, k', k1, k2⟩ := tried_mem h'
          rw [k1, hcod.back] at hk
          simp only [Option.some.injEq] at hk
          subst hk
          have hok : key k' = key m ∧ (k'.rsp = true → k'.needRsp = false → (m.rsp = true ∧ k'.ret = m.ret) ∨ k'.ret < 0) := by
            rcases k2 with k2 | k2
            · exact ho _ k2
            · exact ho _ k2
          refine ⟨⟨c0, c1, c2.trans hok.1.symm⟩, fun r1 r2 => ?_⟩
          rcases hok.2 r1 r2 with ⟨r3, r4⟩ | r3
          · rw [r4]
            have hn : (key m).needRsp = (key k').needRsp := by rw [hok.1]
            exact hm r3 (hn.trans r2)
          · exact r3
      · rcases List.mem_append.1 hx with hx | hx
        · rw [a2]; exact hp3 x hx
        · obtain ⟨k, hk, rfl⟩ := List.mem_map.1 hx
          have hke : .response k ∈ h.effects m := by
            obtain ⟨y, hy, hy'⟩ := List.mem_filterMap.1 hk
            cases y with
            | response a => simp only [Option.some.injEq] at hy'; rw [← hy']; exact hy
            | _ => cases hy'
          obtain ⟨o1, o2, o3, o4, o5⟩ := ho _ hke
          refine ⟨o2, o4, ⟨c0, by rw [a2]; exact c1, c2.trans o1.symm⟩, fun hn => ?_⟩
          show k.ret < 0
          rw [o5]
          have hn' : (key m).needRsp = (key k).needRsp := by rw [o1]
          exact hm o3 (Eq.trans hn' hn)

/-- C96 (origin): whatever happens, also if requests to write are refused, every answer shown to an application answers a message that this
node built by a call of `send_data`: it has the sequence number and content of the message and comes from its target; and if no answer was
asked for it reports a failure. -/
theorem C96_origin (cf : Conf) (hcod : cf.Codec) (hf bf ag : Nat) (hag : ∀ i, ag ≤ (cf.stream i).recv.maxAgain) (es : List Ev)
    (hc : Cans cf False (init hf bf ag) es) (hpl : ∀ e ∈ es, e.plain cf) :
    ∃ s, run cf (init hf bf ag) es = some s ∧ ∀ x ∈ answered cf (init hf bf ag) es, x.2.to = x.1 ∧ (x.2.needRsp = false → x.2.ret < 0) ∧
      ∃ c ∈ s.calls, c.from_ = x.1 ∧ c.to = x.2.from_ ∧ c.seq = x.2.seq ∧ c.content = x.2.content ∧ c.needRsp = x.2.needRsp := by
  obtain ⟨s, h1, h2, h3⟩ := run_answers hcod (q := False) (Source cf) (Ev.plain cf)
    (fun s s' e acc b p pl c b' sh => source_step hcod s s' e acc b p pl c b' sh)
    es (init hf bf ag) [] (init_base cf False hf bf ag hag) ⟨fun _ h => (by cases h), fun _ h => (by cases h), fun _ h => (by cases h)⟩ hpl hc
  rw [List.nil_append] at h3
  refine ⟨s, h1, fun x hx => ?_⟩
  obtain ⟨x1, x2, ⟨c, c1, c2⟩, x4⟩ := h3.2.2 x hx
  have hr := h3.1 c c1
  have e1 := congrArg Msg.from_ c2
  have e2 := congrArg Msg.to c2
  simp only [key, hr, x1, if_true, Bool.false_eq_true, if_false] at e1 e2
  have e3 : (key c).seq = (key x.2).seq := by rw [c2]
  have e4 : (key c).content = (key x.2).content := by rw [c2]
  have e5 : (key c).needRsp = (key x.2).needRsp := by rw [c2]
  exact ⟨x2, x4, c, c1, e1.trans x2, e2, e3, e4, e5⟩

/-! ### Examples -/

/-- Whether messages of other kinds are no data messages. -/
def plainB (cf : Conf) (es : List Ev) : Bool :=
  es.all fun e => match e with
    | .other _ b _ => (cf.unpack b).isNone
    | _ => true

theorem plainB_ok {cf : Conf} {es : List Ev} (h : plainB cf es = true) : ∀ e ∈ es, e.plain cf := by
  intro e he
  have := List.all_eq_true.1 h e he
  cases e with
  | other c b ev => simpa [Ev.plain] using this
  | _ => trivial

/-- The answers of a run: the node, the target of its message, the result, the content, and the way. -/
def replies (cf : Conf) (es : List Ev) : List (Nat × Nat × Int × List Nat × List Nat) :=
  (answered cf (init 0 0 0) es).map fun x => (x.1, x.2.from_, x.2.ret, x.2.content, x.2.router)

/-- Node 22 sends to 26, which would be a child of 24 but does not exist; 24 reports this, over 20. -/
def exBack : List Ev :=
  [.send { n := exN 22 } 100 26 [7] 1 false, fin 22 20, read 22 20 18, get 22 20, fin 20 24, read 20 24 19, get 20 24,
    fin 24 20, read 24 20 20, get 24 20, fin 20 22, read 20 22 20, get 20 22]

example : cansB exR true (init 0 0 0) exBack = true ∧ plainB exR exBack = true ∧
    replies exR exBack = [(22, 26, Err.ATNODE_INVALID_ID, [7], [22, 20, 24])] ∧ seen exR exBack = some ([], [(26, [7])]) :=
  ⟨by decide +kernel, by decide +kernel, by decide +kernel, by decide +kernel⟩

/-- The theorems apply to this. -/
example : ∃ s, run exR (init 0 0 0) exBack = some s ∧ ∀ x ∈ answered exR (init 0 0 0) exBack, ∃ c ∈ s.calls, c.from_ = x.1 ∧ c.seq = x.2.seq := by
  obtain ⟨s, h1, h2⟩ := C96_origin exR ex_codec 0 0 0 (fun _ => Nat.zero_le _) exBack (cans_any (by decide +kernel)) (plainB_ok (by decide +kernel))
  exact ⟨s, h1, fun x hx => by obtain ⟨-, -, c, c1, c2, -, c3, -⟩ := h2 x hx; exact ⟨c, c1, c2, c3⟩⟩

example : ∃ s, run exR (init 0 0 0) (exBack ++ exBack) = some s ∧ ∀ k, s.delivered.countP (fun x => decide (key x.2 = k)) +
    (answered exR (init 0 0 0) (exBack ++ exBack)).countP (fun x => decide (x.2.ret < 0 ∧ key x.2 = k)) ≤ s.sends.countP (fun m => decide (key m = k)) :=
  C96_once_partial exR ex_codec 0 0 0 (fun _ => Nat.zero_le _) _ (cans_calm (by decide +kernel)) (plainB_ok (by decide +kernel))

/-- As `exEs`, and all answers go back. -/
def exMany : List Ev :=
  exEs true ++ [fin 20 22, read 20 22 19, get 20 22, fin 25 24, read 25 24 21, get 25 24, fin 24 20, read 24 20 21, get 24 20, fin 20 22,
    read 20 22 21, get 20 22]

/-- That there is one answer for every message for which one was asked is false of the code: a node that passes the message on to a node that
is not below it answers as well as the target, so that the sender is told twice that the message has arrived, the first time before it has. -/
theorem C96_twice_false : Cans exR True (init 0 0 0) exMany ∧ (∀ e ∈ exMany, e.plain exR) ∧
    replies exR exMany = [(22, 25, 0, [8], [22, 20]), (22, 25, 0, [8], [22, 20, 24, 25])] ∧
    seen exR exMany = some ([(25, 22, [7]), (25, 22, [8])], [(25, [7]), (25, [8])]) :=
  ⟨cans_calm (by decide +kernel), plainB_ok (by decide +kernel), by decide +kernel, by decide +kernel⟩

/-- At node 24 the write to 25 is refused; then 24 sends a message of its own. -/
def exLie : List Ev :=
  [.send { n := exN 22 } 100 25 [7] 1 false, fin 22 20, read 22 20 18, get 22 20, fin 20 24, read 20 24 19,
    .handle 2024 { n := { exN 24 with push := fun c _ => if c = 2425 then Err.WRITE_FAILED else 0 }, bound := some 20, evs := [⟨none, 0, false⟩] },
    .send { n := exN 24 } 100 25 [8] 2 false,
    fin 24 20, read 24 20 22, get 24 20, fin 20 22, read 20 22 22, get 20 22, fin 24 25, fin 24 25, read 24 25 38, get 24 25, get 24 25]

/-- Without the assumption of `C96_once_partial` it is false of the code: when a write is refused the message stays in the queue, the sender is
told that it failed, and it is delivered later. -/
theorem C96_lie_false : Cans exR False (init 0 0 0) exLie ∧ (∀ e ∈ exLie, e.plain exR) ∧
    replies exR exLie = [(22, 25, Err.WRITE_FAILED, [7], [22, 20, 24])] ∧
    seen exR exLie = some ([(25, 22, [7]), (25, 24, [8])], [(25, [7]), (25, [8])]) :=
  ⟨cans_any (by decide +kernel), plainB_ok (by decide +kernel), by decide +kernel, by decide +kernel⟩

end Verif.Node.Relay
