import Verif.Node.RelayProps

/-!
C91, continued: the messages from one node to another that all take the same way.
-/
namespace Verif.Node.Relay

open Verif.IoStream
open Verif.Subnet (Ep)
open Verif.Node.Lanes (over over_append over_tag)

/-! ### Specification -/

/-- A way from node `x 0` to node `x k`: node `x i` reaches node `x (i + 1)` over stream `p i`. -/
structure Path where
  k : Nat
  x : Nat → Nat
  p : Nat → Nat

/-- The streams are different, the target is not on the way, and it has an id. -/
structure Path.Ok (w : Path) : Prop where
  pos : 0 < w.k
  inj : ∀ i j, i < w.k → j < w.k → w.p i = w.p j → i = j
  ne : ∀ i, i < w.k → w.x i ≠ w.x w.k
  id : w.x w.k ≠ 0

/-- A request from node `a` to node `b`. -/
def between (a b : Nat) (m : Msg) : Bool := !m.rsp && decide (m.from_ = a) && decide (m.to = b)

/-- The contents of the messages from `a` to `b` that were accepted from `send_data`, in order. -/
def sentBy (a b : Nat) (s : S) : List Msg := (s.sends.filter (between a b)).map bare

/-- The contents of those that were given to an application, in order. -/
def gotBy (a b : Nat) (s : S) : List Msg := ((s.delivered.filter fun y => between a b y.2).map fun y => bare y.2)

/-- A request from the first to the last node. -/
def Path.flow (w : Path) (m : Msg) : Bool := between (w.x 0) (w.x w.k) m

/-- Node `h.n` passes on what came from stream `p i` to stream `p (i + 1)`: this is the connection that it finds for the target, it leads to
another endpoint than the one the message came from, and it accepts messages. -/
structure Relays (w : Path) (h : H) (i : Nat) : Prop where
  id : h.n.id = w.x (i + 1)
  connected : h.connected = true
  version : h.n.minVersion ≤ 2
  ttl : i + 1 < (h.n.ttl % (W64 : Int)).toNat
  route : ∃ e z, remoteChannel h.n h.n.dataConn (w.x w.k) = (Err.SUCCESS, some e, some (w.p (i + 1))) ∧ h.bound = some z ∧ z ≠ 0 ∧ e.id ≠ z
  push : ∀ m, 0 ≤ h.n.push (w.p (i + 1)) m

/-- The nodes send and pass on messages along the way. -/
def Path.follows (w : Path) : Ev → Prop
  | .send h _ tid _ _ _ => h.n.id = w.x 0 → tid = w.x w.k →
      ∀ e c, remoteChannel h.n h.n.dataConn (w.x w.k) = (Err.SUCCESS, some e, some c) → c = w.p 0
  | .handle l h => ∀ i, i < w.k → l = w.p i →
      (i + 1 < w.k → Relays w h i) ∧ (i + 1 = w.k → h.n.id = w.x w.k ∧ h.connected = true ∧ h.n.minVersion ≤ 2)
  | _ => True

/-- The contents of the messages from the first to the last node that were accepted. -/
def Path.sent (w : Path) (s : S) : List Msg := sentBy (w.x 0) (w.x w.k) s

/-- The contents of those that were given to an application. -/
def Path.got (w : Path) (s : S) : List Msg := gotBy (w.x 0) (w.x w.k) s

/-! ### Lemmas -/

theorem sent_eq (w : Path) (s : S) : w.sent s = (s.sends.filter w.flow).map bare := rfl

theorem got_eq (w : Path) (s : S) : w.got s = ((s.delivered.filter fun y => w.flow y.2).map fun y => bare y.2) := rfl

/-- The content of a message in a stream. -/
def Path.content (w : Path) (cf : Conf) (b : List Byte) : Option Msg :=
  match cf.unpack b with
  | some m => if w.flow m then some (bare m) else none
  | none => none

/-- Contents in the record of a stream. -/
def Path.at (w : Path) (cf : Conf) (c : Nat) (l : List (Nat × List Byte)) : List Msg := (over c l).filterMap (w.content cf)

theorem at_append (w : Path) (cf : Conf) (c : Nat) (a b : List (Nat × List Byte)) : w.at cf c (a ++ b) = w.at cf c a ++ w.at cf c b := by
  unfold Path.at; rw [over_append, List.filterMap_append]

theorem at_one (w : Path) (cf : Conf) (c l : Nat) (b : List Byte) :
    w.at cf c [(l, b)] = if l = c then (w.content cf b).toList else [] := by
  unfold Path.at over
  by_cases h : l = c
  · subst h
    simp only [beq_self_eq_true, List.filter_cons, if_true, List.filter_nil, List.map_cons, List.map_nil]
    cases hc : w.content cf b with
    | none => simp [hc]
    | some m => simp [hc]
  · simp [h]

theorem flow_bare {w : Path} {a b : Msg} (h : bare a = bare b) : w.flow a = w.flow b := by
  obtain ⟨h1, h2, h3, -⟩ := bare_eq h
  unfold Path.flow between
  rw [h1, h2, h3]

/-- Requests accepted, with the stream. -/
def reqs (es : List Eff) : List (Nat × Msg) :=
  es.filterMap fun x => match x with
    | .sent _ c m => if m.rsp then none else some (c, m)
    | _ => none

theorem reqs_snd (es : List Eff) : (reqs es).map Prod.snd = sentReqs es := by
  unfold reqs sentReqs
  induction es with
  | nil => rfl
  | cons e es ih =>
    cases e with
    | sent e c m =>
      simp only [List.filterMap_cons]
      cases hm : m.rsp
      · simpa using ih
      · simpa using ih
    | _ => simpa using ih

/-- What a handler adds to a stream. -/
theorem at_pushes {cf : Conf} (hcod : cf.Codec) (w : Path) (c : Nat) (es : List Eff) :
    w.at cf c (pushes cf es) = ((reqs es).filter fun y => decide (y.1 = c) && w.flow y.2).map fun y => bare y.2 := by
  induction es with
  | nil => rfl
  | cons e es ih =>
    cases e with
    | sent e c' m =>
      have h1 : pushes cf (.sent e c' m :: es) = [(c', cf.pack m)] ++ pushes cf es := rfl
      rw [h1, at_append, at_one, ih]
      have hcont : w.content cf (cf.pack m) = if w.flow m then some (bare m) else none := by
        unfold Path.content; rw [hcod.back]
      rw [hcont]
      cases hr : m.rsp
      · have h2 : reqs (.sent e c' m :: es) = (c', m) :: reqs es := by simp [reqs, hr]
        rw [h2, List.filter_cons]
        by_cases hc : c' = c
        · cases hf : w.flow m <;> simp [hc, hf]
        · simp [hc]
      · have h2 : reqs (.sent e c' m :: es) = reqs es := by simp [reqs, hr]
        have h3 : w.flow m = false := by simp [Path.flow, between, hr]
        rw [h2, h3]
        simp
    | _ => exact ih

/-- Requests of a handler with other contents do not count. -/
theorem at_none {cf : Conf} (hcod : cf.Codec) (w : Path) (c : Nat) (es : List Eff) (h : ∀ m ∈ sentReqs es, w.flow m = false) :
    w.at cf c (pushes cf es) = [] := by
  rw [at_pushes hcod, List.map_eq_nil_iff, List.filter_eq_nil_iff]
  intro y hy
  have : y.2 ∈ sentReqs es := by rw [← reqs_snd]; exact List.mem_map_of_mem hy
  simp [h _ this]

/-- A request for which a connection is found that accepts it. -/
theorem forward_ok (n : Node) (k : Msg) (e : Ep) (c : Nat) (h0 : k.to ≠ 0) (h1 : n.id ≠ k.to)
    (h2 : remoteChannel n n.dataConn k.to = (Err.SUCCESS, some e, some c)) (h3 : e.id ≠ k.src) (h4 : 0 ≤ n.push c (passed n k)) :
    ∃ rest, (forwardReq n k).1 = .sent e c (passed n k) :: rest ∧ reqs rest = [] ∧ shown rest = [] := by
  have hneg : ¬ n.push c (passed n k) < 0 := by omega
  have hfd : forwardData n { k with router := k.router ++ [n.id] } k.src k.to =
      ([.sent e c (passed n k)], n.push c (passed n k), some e, passed n k) := by
    unfold forwardData
    rw [if_neg h0, if_neg h1, h2]
    simp only
    rw [if_neg (fun hh => h3 hh.2)]
    simp only [passed] at hneg ⊢
    rw [if_neg hneg]
  rw [forwardReq_eq n k, hfd]
  simp only [second]
  rw [if_neg (c := _ ∧ _ ∧ _) (fun hh => hneg hh.1)]
  split
  · split
    · exact ⟨[_], rfl, rfl, rfl⟩
    · exact ⟨[], rfl, rfl, rfl⟩
  · split
    · obtain ⟨p1, p2, -⟩ := rsp_spec n (passed n k) (n.push c (passed n k))
      refine ⟨_, rfl, ?_, p1⟩
      have := reqs_snd (sendTransferRsp n (passed n k) (n.push c (passed n k))).1
      rw [p2] at this
      exact List.map_eq_nil_iff.1 this
    · exact ⟨[], rfl, rfl, rfl⟩

/-- A request that is passed on along the way: it is accepted, once, by the next stream, and nothing else is. -/
theorem relay_effects {w : Path} (hw : w.Ok) {h : H} {i : Nat} (hr : Relays w h i) (hi : i + 1 < w.k) (m : Msg) (hm : w.flow m = true)
    (hlen : m.router.length = i + 1) (hv : m.version = 2) :
    ∃ m', reqs (h.effects m) = [(w.p (i + 1), m')] ∧ bare m' = bare m ∧ m'.router.length = i + 2 ∧ shown (h.effects m) = [] := by
  simp only [Path.flow, between, Bool.and_eq_true, Bool.not_eq_true', decide_eq_true_eq] at hm
  obtain ⟨⟨hrsp, hfrom⟩, hto⟩ := hm
  obtain ⟨e, z, e1, e2, e3, e4⟩ := hr.route
  obtain ⟨b1, b2, b3, b4⟩ := bare_unpackSrc h.bound m
  have bv := (bare_eq b1).2.2.2
  have hsrc : (unpackSrc h.bound m).src = z := by
    rw [e2]; unfold unpackSrc; simp only; rw [if_neg e3]
  have hne : h.n.id ≠ m.to := by
    rw [hto, hr.id]
    exact hw.ne (i + 1) hi
  unfold H.effects
  generalize unpackSrc h.bound m = k at *
  have heff : Node.handle h.n (some h.connected) k = forwardReq h.n k := by
    unfold Node.handle
    rw [hr.connected, if_neg (by simp [b4, hrsp])]
    unfold transferReq
    rw [if_neg (by rw [bv, hv]; have := hr.version; omega), if_neg (by simp), if_neg (by simp), if_neg (by rw [b3]; exact fun hh => hne hh.symm), if_neg]
    simp only [ttlReached, decide_eq_true_eq, b2, hlen]
    have := hr.ttl
    omega
  obtain ⟨rest, hrest, hq, hs⟩ := forward_ok h.n k e (w.p (i + 1)) (by rw [b3, hto]; exact hw.id) (by rw [b3]; exact hne)
    (by rw [b3, hto]; exact e1) (by rw [hsrc]; exact e4) (hr.push _)
  refine ⟨passed h.n k, ?_, ?_, ?_, ?_⟩
  · rw [heff, hrest]
    have : (passed h.n k).rsp = false := b4.trans hrsp
    simp only [reqs, List.filterMap_cons, this] at hq ⊢
    simpa using hq
  · rw [← b1]; rfl
  · simp [passed, b2, hlen]
  · rw [heff, hrest]; exact hs

/-- A request that has reached its target is given to the application. -/
theorem target_effects {w : Path} {h : H} (hid : h.n.id = w.x w.k) (hcon : h.connected = true) (hver : h.n.minVersion ≤ 2) (m : Msg)
    (hm : w.flow m = true) (hv : m.version = 2) : ∃ m', shown (h.effects m) = [m'] ∧ bare m' = bare m ∧ sentReqs (h.effects m) = [] := by
  simp only [Path.flow, between, Bool.and_eq_true, Bool.not_eq_true', decide_eq_true_eq] at hm
  obtain ⟨⟨hrsp, hfrom⟩, hto⟩ := hm
  obtain ⟨b1, b2, b3, b4⟩ := bare_unpackSrc h.bound m
  have bv := (bare_eq b1).2.2.2
  unfold H.effects
  generalize unpackSrc h.bound m = k at *
  refine ⟨k, ?_, b1, ?_⟩
  · unfold Node.handle
    rw [if_neg (by simp [b4, hrsp])]
    unfold transferReq
    rw [if_neg (by rw [bv, hv]; omega), if_neg (by simp), if_neg (by simp [hcon]), if_pos (by rw [b3, hto, hid])]
    split
    · obtain ⟨p1, p2, p3⟩ := rsp_spec h.n k Err.SUCCESS
      simp only [shown, List.filterMap_cons] at p1 ⊢
      rw [p1]
    · rfl
  · unfold Node.handle
    rw [if_neg (by simp [b4, hrsp])]
    unfold transferReq
    rw [if_neg (by rw [bv, hv]; omega), if_neg (by simp), if_neg (by simp [hcon]), if_pos (by rw [b3, hto, hid])]
    split
    · obtain ⟨p1, p2, p3⟩ := rsp_spec h.n k Err.SUCCESS
      simp only [sentReqs, List.filterMap_cons] at p2 ⊢
      exact p2
    · rfl

/-! ### Invariant -/

/-- What is in one stream of the way is what was handled from the stream before. -/
structure Along (w : Path) (cf : Conf) (s : S) : Prop where
  pos : ∀ y ∈ s.queue, ∀ m, cf.unpack y.2 = some m → w.flow m = true → ∃ i, i < w.k ∧ y.1 = w.p i ∧ m.router.length = i + 1 ∧ m.version = 2
  first : w.at cf (w.p 0) s.queue = w.sent s
  next : ∀ i, i + 1 < w.k → w.at cf (w.p (i + 1)) s.queue = w.at cf (w.p i) s.handled
  last : w.got s = w.at cf (w.p (w.k - 1)) s.handled

theorem pushes_mem {cf : Conf} {es : List Eff} {y : Nat × List Byte} (h : y ∈ pushes cf es) : ∃ e k, y.2 = cf.pack k ∧ .sent e y.1 k ∈ es := by
  unfold pushes at h
  obtain ⟨x, hx, h⟩ := List.mem_filterMap.1 h
  cases x with
  | sent e c m => simp only [Option.some.injEq] at h; rw [← h]; exact ⟨e, m, rfl, hx⟩
  | _ => cases h

theorem along_step {cf : Conf} (hcod : cf.Codec) {w : Path} (hw : w.Ok) {hf bf ag : Nat} (s s' : S) (e : Ev) (_ : Base cf hf bf ag True s)
    (hp : Along w cf s) (hfo : w.follows e) (hcan : Can cf True s e) (_ : Base cf hf bf ag True s') (hsh : Shape cf True s s' e) :
    Along w cf s' := by
  obtain ⟨i1, i2, i3, i4⟩ := hp
  cases e with
  | send h limit tid content seq nr =>
    obtain ⟨a1, a2, a3, a4, a5, a6⟩ := hsh
    have a6 := a6 trivial
    obtain ⟨b1, b2, b3, b4⟩ := sendData_spec h.n limit tid content seq nr
    have hgot : w.got s' = w.got s := by
      rw [got_eq, got_eq]; rw [a4, b1, List.map_nil, List.append_nil]
    have hsent : w.sent s' = w.sent s ++ ((sentReqs (sendData h.n limit tid content seq nr).1).filter w.flow).map bare := by
      rw [sent_eq, sent_eq]; rw [a3, b2, List.filter_append, List.map_append]
    by_cases hfl : h.n.id = w.x 0 ∧ tid = w.x w.k
    · obtain ⟨hid, htid⟩ := hfl
      have hfo := hfo hid htid
      have hkey : ∀ c', w.at cf c' (pushes cf (sendData h.n limit tid content seq nr).1) =
            (if c' = w.p 0 then ((sentReqs (sendData h.n limit tid content seq nr).1).filter w.flow).map bare else []) ∧
          ∀ y ∈ pushes cf (sendData h.n limit tid content seq nr).1, y.1 = w.p 0 ∧ y.2 = cf.pack (dataMsg h.n tid content seq nr) := by
        intro c'
        unfold sendData
        split
        · exact ⟨by simp [pushes, sentReqs, Path.at, over], by simp [pushes]⟩
        split
        · exact ⟨by simp [pushes, sentReqs, Path.at, over], by simp [pushes]⟩
        rcases sendMsg_cases h.n h.n.dataConn tid (dataMsg h.n tid content seq nr) with ⟨r, h', -⟩ | ⟨-, h'⟩ | ⟨e, c, -, hrc, -, h'⟩
        · rw [h']; exact ⟨by simp [pushes, sentReqs, Path.at, over], by simp [pushes]⟩
        · rw [h']; exact ⟨by simp [pushes, sentReqs, Path.at, over], by simp [pushes]⟩
        · rw [h']
          rw [htid] at hrc
          have hc := hfo e c hrc
          split
          · exact ⟨by simp [pushes, sentReqs, Path.at, over], by simp [pushes]⟩
          · have hr : (dataMsg h.n tid content seq nr).rsp = false := rfl
            refine ⟨?_, by simp [pushes, hc]⟩
            rw [at_pushes hcod]
            simp only [reqs, sentReqs, List.filterMap_cons, List.filterMap_nil, hr, Bool.false_eq_true, if_false, hc]
            by_cases h0 : c' = w.p 0
            · subst h0
              rw [if_pos rfl, List.filter_cons, List.filter_cons]
              cases hff : w.flow (dataMsg h.n tid content seq nr) <;> simp
            · have h0' : ¬ w.p 0 = c' := fun hh => h0 hh.symm
              rw [if_neg h0, List.filter_cons_of_neg (by simp [h0'])]
              rfl
      refine ⟨?_, ?_, ?_, ?_⟩
      · intro y hy m hm hf'
        rw [a6] at hy
        rcases List.mem_append.1 hy with hy | hy
        · exact i1 y hy m hm hf'
        · obtain ⟨k1, k2⟩ := (hkey 0).2 y hy
          rw [k2, hcod.back] at hm
          cases hm
          exact ⟨0, hw.pos, k1, rfl, rfl⟩
      · rw [a6, at_append, (hkey _).1, if_pos rfl, i2, hsent]
      · intro i hi
        rw [a6, at_append, (hkey _).1, if_neg, a1, List.append_nil]
        · exact i3 i hi
        · intro hh; exact absurd (hw.inj _ _ hi hw.pos hh) (by omega)
      · rw [hgot, a1]; exact i4
    · have hnf : ∀ m ∈ sentReqs (sendData h.n limit tid content seq nr).1, w.flow m = false := by
        intro m hm
        have : m = dataMsg h.n tid content seq nr := by
          rcases b3 with b3 | b3
          · rw [b3] at hm; cases hm
          · rw [b3] at hm; exact List.mem_singleton.1 hm
        rw [this]
        simp only [Path.flow, between, dataMsg]
        by_cases h1 : h.n.id = w.x 0
        · have : tid ≠ w.x w.k := fun hh => hfl ⟨h1, hh⟩
          simp [this]
        · simp [h1]
      have hq : ∀ c', w.at cf c' s'.queue = w.at cf c' s.queue := by
        intro c'; rw [a6, at_append, at_none hcod w c' _ hnf, List.append_nil]
      refine ⟨?_, ?_, ?_, ?_⟩
      · intro y hy m hm hf'
        rw [a6] at hy
        rcases List.mem_append.1 hy with hy | hy
        · exact i1 y hy m hm hf'
        · obtain ⟨e, k, k1, k2⟩ := pushes_mem hy
          rw [k1, hcod.back] at hm
          cases hm
          have hr : m.rsp = false := by
            simp only [Path.flow, between, Bool.and_eq_true, Bool.not_eq_true', decide_eq_true_eq] at hf'
            exact hf'.1.1
          rw [hnf m (sentReqs_mem.2 ⟨hr, e, _, k2⟩)] at hf'
          cases hf'
      · rw [hq, i2, hsent, List.filter_eq_nil_iff.2 (fun m hm => by simp [hnf m hm])]; simp
      · intro i hi; rw [hq, a1]; exact i3 i hi
      · rw [hgot, a1]; exact i4
  | other c b ev =>
    obtain ⟨a1, a2, a3, a4, a5⟩ := hsh
    have hz : ∀ c', w.at cf c' [(c, b)] = [] := by
      intro c'
      rw [at_one]
      split
      · unfold Path.content
        cases hu : cf.unpack b with
        | none => rfl
        | some m => simp [Path.flow, between, hcan.2 m hu]
      · rfl
    have hq : ∀ c', w.at cf c' s'.queue = w.at cf c' s.queue := by
      intro c'
      rcases a5 with a5 | a5
      · rw [a5]
      · rw [a5, at_append, hz, List.append_nil]
    refine ⟨?_, ?_, ?_, ?_⟩
    · intro y hy m hm hfl
      rcases a5 with a5 | a5
      · rw [a5] at hy; exact i1 y hy m hm hfl
      · rw [a5] at hy
        rcases List.mem_append.1 hy with hy | hy
        · exact i1 y hy m hm hfl
        · rw [List.mem_singleton.1 hy] at hm
          rw [Path.flow, between, hcan.2 m hm] at hfl
          simp at hfl
    · rw [hq, i2, Path.sent, Path.sent, sentBy, sentBy, a3]
    · intro i hi; rw [hq, a1]; exact i3 i hi
    · rw [Path.got, gotBy, a4, a1]; exact i4
  | lane l e =>
    obtain ⟨a1, a2, a3, a4, a5⟩ := hsh
    exact ⟨by rw [a5]; exact i1, by rw [a5, i2, Path.sent, Path.sent, sentBy, sentBy, a3], by rw [a5, a1]; exact i3, by rw [Path.got, gotBy, a4, a1]; exact i4⟩
  | handle l h =>
    rcases hsh with ⟨-, rfl⟩ | ⟨b, -, hmem, a1, a2, a3, hrest⟩
    · exact ⟨i1, i2, i3, i4⟩
    have hsent : w.sent s' = w.sent s := by rw [sent_eq, sent_eq]; rw [a3]
    -- a message that does not belong to the flow
    have hother : w.content cf b = none → (∀ c', w.at cf c' s'.queue = w.at cf c' s.queue) → w.got s' = w.got s →
        (∀ y ∈ s'.queue, ∀ m, cf.unpack y.2 = some m → w.flow m = true → y ∈ s.queue) → Along w cf s' := by
      intro hc hq hg hpos
      have hh : ∀ c', w.at cf c' s'.handled = w.at cf c' s.handled := by
        intro c'; rw [a1, at_append, at_one, hc]; simp
      exact ⟨fun y hy m hm hf' => i1 y (hpos y hy m hm hf') m hm hf', by rw [hq, i2, hsent], fun i hi => by rw [hq, hh]; exact i3 i hi,
        by rw [hg, hh]; exact i4⟩
    rcases hrest with ⟨hu, a4, a5⟩ | ⟨m, hu, a4, a5, a6⟩
    · exact hother (by unfold Path.content; rw [hu]) (by rw [a5]; exact fun _ => rfl) (by rw [got_eq, got_eq]; rw [a4]) (by rw [a5]; exact fun y hy _ _ _ => hy)
    · have a6 := a6 trivial
      obtain ⟨hd, -⟩ := effects_spec h m
      have hback : ∀ y ∈ pushes cf (h.effects m), ∀ k, cf.unpack y.2 = some k → w.flow k = true → k ∈ sentReqs (h.effects m) := by
        intro y hy k hk hfk
        obtain ⟨e, k', k1, k2⟩ := pushes_mem hy
        rw [k1, hcod.back] at hk
        cases hk
        have hr : k.rsp = false := by
          simp only [Path.flow, between, Bool.and_eq_true, Bool.not_eq_true', decide_eq_true_eq] at hfk
          exact hfk.1.1
        exact sentReqs_mem.2 ⟨hr, e, _, k2⟩
      cases hfl : w.flow m with
      | false =>
        have hs0 : ∀ k ∈ sentReqs (h.effects m), w.flow k = false := by
          intro k hk
          cases hd with
          | drop h1 h2 => rw [h2] at hk; cases hk
          | show_ m' h0 hr hb h1 h2 => rw [h2] at hk; cases hk
          | pass m' h0 hr hb hroute h1 h2 => rw [h2] at hk; rw [List.mem_singleton.1 hk, flow_bare hb]; exact hfl
        apply hother
        · unfold Path.content; rw [hu]; simp [hfl]
        · intro c'; rw [a6, at_append, at_none hcod w c' _ hs0, List.append_nil]
        · rw [got_eq, got_eq]
          rw [a4, List.filter_append, List.map_append]
          have : ((shown (h.effects m)).map fun m => (h.n.id, m)).filter (fun y => w.flow y.2) = [] := by
            rw [List.filter_eq_nil_iff]
            intro y hy
            obtain ⟨k, hk, rfl⟩ := List.mem_map.1 hy
            cases hd with
            | drop h1 h2 => rw [h1] at hk; cases hk
            | show_ m' h0 hr hb h1 h2 => rw [h1] at hk; rw [List.mem_singleton.1 hk]; simp [flow_bare hb, hfl]
            | pass m' h0 hr hb hroute h1 h2 => rw [h1] at hk; cases hk
          rw [this]; simp
        · intro y hy k hk hfk
          rw [a6] at hy
          rcases List.mem_append.1 hy with hy | hy
          · exact hy
          · rw [hs0 k (hback y hy k hk hfk)] at hfk; cases hfk
      | true =>
        obtain ⟨i, hi, hl, hlen, hv⟩ := i1 (l, b) hmem m hu hfl
        simp only at hl
        subst hl
        have hcont : w.content cf b = some (bare m) := by unfold Path.content; rw [hu]; simp [hfl]
        have hh : ∀ c', w.at cf c' s'.handled = w.at cf c' s.handled ++ if w.p i = c' then [bare m] else [] := by
          intro c'; rw [a1, at_append, at_one, hcont]; rfl
        by_cases hlast : i + 1 = w.k
        · obtain ⟨r1, r2, r3⟩ := (hfo i hi rfl).2 hlast
          obtain ⟨m', t1, t2, t3⟩ := target_effects r1 r2 r3 m hfl hv
          have hq : ∀ c', w.at cf c' s'.queue = w.at cf c' s.queue := by
            intro c'; rw [a6, at_append, at_none hcod w c' _ (by rw [t3]; intro k hk; cases hk), List.append_nil]
          refine ⟨?_, by rw [hq, i2, hsent], ?_, ?_⟩
          · intro y hy k hk hfk
            rw [a6] at hy
            rcases List.mem_append.1 hy with hy | hy
            · exact i1 y hy k hk hfk
            · have := hback y hy k hk hfk
              rw [t3] at this; cases this
          · intro j hj
            rw [hq, hh, if_neg, List.append_nil]
            · exact i3 j hj
            · intro hh'; exact absurd (hw.inj _ _ hi (by omega) hh') (by omega)
          · have hg : w.got s' = w.got s ++ [bare m] := by
              rw [got_eq, got_eq]
              rw [a4, t1, List.filter_append, List.map_append]
              have : w.flow m' = true := by rw [flow_bare t2]; exact hfl
              simp [this, t2]
            rw [hg, hh, if_pos (by rw [← hlast]; rfl), i4]
        · have hi1 : i + 1 < w.k := by omega
          obtain ⟨m', t1, t2, t3, t4⟩ := relay_effects hw ((hfo i hi rfl).1 hi1) hi1 m hfl hlen hv
          have hfm : w.flow m' = true := by rw [flow_bare t2]; exact hfl
          have hq : ∀ c', w.at cf c' s'.queue = w.at cf c' s.queue ++ if w.p (i + 1) = c' then [bare m] else [] := by
            intro c'
            rw [a6, at_append, at_pushes hcod, t1]
            congr 1
            by_cases hc : w.p (i + 1) = c'
            · simp [hc, hfm, t2]
            · simp [hc]
          refine ⟨?_, ?_, ?_, ?_⟩
          · intro y hy k hk hfk
            rw [a6] at hy
            rcases List.mem_append.1 hy with hy | hy
            · exact i1 y hy k hk hfk
            · obtain ⟨e, k', k1, k2⟩ := pushes_mem hy
              rw [k1, hcod.back] at hk
              cases hk
              have hr : k.rsp = false := by
                simp only [Path.flow, between, Bool.and_eq_true, Bool.not_eq_true', decide_eq_true_eq] at hfk
                exact hfk.1.1
              have hin : (y.1, k) ∈ reqs (h.effects m) := by
                unfold reqs
                exact List.mem_filterMap.2 ⟨_, k2, by simp [hr]⟩
              rw [t1] at hin
              have := List.mem_singleton.1 hin
              simp only [Prod.mk.injEq] at this
              obtain ⟨g1, g2⟩ := this
              subst g2
              exact ⟨i + 1, hi1, g1, t3, (bare_eq t2).2.2.2.trans hv⟩
          · rw [hq, if_neg, List.append_nil, i2, hsent]
            intro hh'; exact absurd (hw.inj _ _ hi1 hw.pos hh') (by omega)
          · intro j hj
            rw [hq, hh, i3 j hj]
            by_cases hji : j = i
            · subst hji; rw [if_pos rfl, if_pos rfl]
            · rw [if_neg, if_neg]
              · intro hh'; exact hji (hw.inj _ _ (by omega) hi hh'.symm)
              · intro hh'; exact hji (by have := hw.inj _ _ hi1 hj hh'; omega)
          · have hg : w.got s' = w.got s := by
              rw [got_eq, got_eq]; rw [a4, t4, List.map_nil, List.append_nil]
            rw [hg, hh, if_neg, List.append_nil, i4]
            intro hh'; exact absurd (hw.inj _ _ hi (by have := hw.pos; omega) hh') (by omega)

/-- What is handled from a stream was put into it. -/
theorem at_prefix {cf : Conf} {hf bf ag : Nat} {q : Prop} {s : S} (w : Path) (b : Base cf hf bf ag q s) (c : Nat) :
    w.at cf c s.handled <+: w.at cf c s.queue := by
  unfold Path.at
  rw [b.handled, b.queue]
  exact ((List.take_prefix _ _).trans (b.lane c).pre).filterMap _

theorem along_prefix {cf : Conf} {hf bf ag : Nat} {q : Prop} {s : S} {w : Path} (b : Base cf hf bf ag q s) (a : Along w cf s) :
    ∀ i, i < w.k → w.at cf (w.p i) s.queue <+: w.sent s := by
  intro i
  induction i with
  | zero => intro _; rw [a.first]; exact List.prefix_rfl
  | succ i ih => intro hi; rw [a.next i hi]; exact (at_prefix w b _).trans (ih (by omega))

theorem along_run {cf : Conf} (hcod : cf.Codec) {w : Path} (hw : w.Ok) {hf bf ag : Nat} (hag : ∀ i, ag ≤ (cf.stream i).recv.maxAgain) (es : List Ev)
    (hc : Cans cf True (init hf bf ag) es) (hfo : ∀ e ∈ es, w.follows e) :
    ∃ s, run cf (init hf bf ag) es = some s ∧ Base cf hf bf ag True s ∧ Along w cf s :=
  run_base hcod (q := True) (Along w cf) w.follows (fun s s' e b p f c b' sh => along_step hcod hw s s' e b p f c b' sh)
    es (init hf bf ag) (init_base cf True hf bf ag hag) ⟨fun _ h => (by cases h), rfl, fun _ _ => rfl, rfl⟩ hfo hc

/-- C91 (order): if the nodes between two nodes always pass their messages on along the same way, then, whatever else happens in the network,
the application of the last node gets an initial part of the messages that `send_data` accepted at the first node, in order, without change,
loss or repetition. -/
theorem C91_order_partial (cf : Conf) (hcod : cf.Codec) (w : Path) (hw : w.Ok) (hf bf ag : Nat) (hag : ∀ i, ag ≤ (cf.stream i).recv.maxAgain)
    (es : List Ev) (hc : Cans cf True (init hf bf ag) es) (hfo : ∀ e ∈ es, w.follows e) :
    ∃ s, run cf (init hf bf ag) es = some s ∧ gotBy (w.x 0) (w.x w.k) s <+: sentBy (w.x 0) (w.x w.k) s := by
  obtain ⟨s, h1, h2, h3⟩ := along_run hcod hw hag es hc hfo
  refine ⟨s, h1, ?_⟩
  show w.got s <+: w.sent s
  rw [h3.last]
  exact (at_prefix w h2 _).trans (along_prefix h2 h3 _ (by have := hw.pos; omega))

/-- Stream `c`, if anything was put into it, is open, has written and read everything, and what was read has been handled. -/
def Rest (s : S) (c : Nat) : Prop :=
  (∃ b, (c, b) ∈ s.queue) →
    (s.lane c).r.closed = false ∧ (s.lane c).c.writing = false ∧ (s.lane c).taken = (s.lane c).c.wire.length ∧ s.done c = (s.lane c).got.length

theorem rest_full {cf : Conf} {hf bf ag : Nat} {s : S} (b : Base cf hf bf ag True s) {c : Nat} (h : Rest s c) : over c s.handled = over c s.queue := by
  by_cases hq : ∃ x, (c, x) ∈ s.queue
  · obtain ⟨g1, g2, g3, g4⟩ := h hq
    rw [b.handled, b.queue, g4, List.take_length, (b.lane c).full trivial g1 g3 g2, (b.lane c).all trivial]
  · have hn : over c s.queue = [] := by
      unfold over
      rw [List.map_eq_nil_iff, List.filter_eq_nil_iff]
      rintro ⟨i, x⟩ hx hi
      exact hq ⟨x, by rw [← eq_of_beq hi]; exact hx⟩
    have hp : over c s.handled <+: over c s.queue := by
      rw [b.handled, b.queue]
      exact (List.take_prefix _ _).trans (b.lane c).pre
    rw [hn] at hp ⊢
    exact List.prefix_nil.1 hp

/-- C91 (arrival): when the streams of the way have come to rest and are still open, the application of the last node has got exactly the
messages that `send_data` accepted at the first node. -/
theorem C91_arrives_partial (cf : Conf) (hcod : cf.Codec) (w : Path) (hw : w.Ok) (hf bf ag : Nat) (hag : ∀ i, ag ≤ (cf.stream i).recv.maxAgain)
    (es : List Ev) (hc : Cans cf True (init hf bf ag) es) (hfo : ∀ e ∈ es, w.follows e) :
    ∃ s, run cf (init hf bf ag) es = some s ∧ ((∀ i, i < w.k → Rest s (w.p i)) → gotBy (w.x 0) (w.x w.k) s = sentBy (w.x 0) (w.x w.k) s) := by
  obtain ⟨s, h1, h2, h3⟩ := along_run hcod hw hag es hc hfo
  refine ⟨s, h1, fun hset => ?_⟩
  have hfull : ∀ i, i < w.k → w.at cf (w.p i) s.handled = w.at cf (w.p i) s.queue := by
    intro i hi
    unfold Path.at
    rw [rest_full h2 (hset i hi)]
  have hall : ∀ i, i < w.k → w.at cf (w.p i) s.queue = w.sent s := by
    intro i
    induction i with
    | zero => intro _; exact h3.first
    | succ i ih => intro hi; rw [h3.next i hi, hfull i (by omega), ih (by omega)]
  have hk := hw.pos
  show w.got s = w.sent s
  rw [h3.last, hfull _ (by omega), hall _ (by omega)]

end Verif.Node.Relay
