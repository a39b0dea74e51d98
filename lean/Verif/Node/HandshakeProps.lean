import Verif.Node.Handshake
import Verif.Node.RegistryProps

/-! C73: when nothing is on the way any more, the two ends of a connection agree whether they are registered with each other. -/
namespace Verif.Node.Handshake

open Verif.Node.Registry

/-! ### What an operation of the registry does to one connection -/

/-- Objects keep their id, and connection `c` stays as it is or is closed. -/
structure Keeps (c : Nat) (s s' : Registry.S) : Prop where
  next : s.next ≤ s'.next
  info : ∀ r, r < s.next → (s'.info r).id = (s.info r).id
  conn : s'.conn c = s.conn c ∨ s'.conn c = {}
  mv : s'.minVersion = s.minVersion

theorem Keeps.refl (c : Nat) (s : Registry.S) : Keeps c s s := ⟨Nat.le_refl _, fun _ _ => rfl, .inl rfl, rfl⟩

theorem Keeps.trans {c : Nat} {s1 s2 s3 : Registry.S} (h : Keeps c s1 s2) (h' : Keeps c s2 s3) : Keeps c s1 s3 := by
  refine ⟨Nat.le_trans h.next h'.next, fun r hr => (h'.info r (Nat.lt_of_lt_of_le hr h.next)).trans (h.info r hr), ?_, h'.mv.trans h.mv⟩
  rcases h'.conn with e | e
  · rcases h.conn with e' | e'
    · exact .inl (e.trans e')
    · exact .inr (e.trans e')
  · exact .inr e

theorem keeps_resetConn (c d : Nat) (s : Registry.S) : Keeps c s (resetConn s d) := by
  refine ⟨Nat.le_refl _, fun _ _ => rfl, ?_, rfl⟩
  unfold resetConn upd
  dsimp only
  split
  · exact .inr rfl
  · exact .inl rfl

theorem keeps_drop (c r : Nat) (s : Registry.S) : Keeps c s (drop s r) := by
  refine ⟨Nat.le_refl _, fun _ _ => rfl, ?_, rfl⟩
  unfold drop
  dsimp only
  split
  · exact .inr rfl
  · exact .inl rfl

/-- Only the table, the parent or the log change. -/
theorem keeps_same {c : Nat} {s s' : Registry.S} (h1 : s'.next = s.next) (h2 : s'.info = s.info) (h3 : s'.conn = s.conn)
    (h4 : s'.minVersion = s.minVersion) : Keeps c s s' :=
  ⟨Nat.le_of_eq h1.symm, fun _ _ => by rw [h2], .inl (by rw [h3]), h4⟩

theorem keeps_dropChild (c : Nat) (s : Registry.S) (id : Nat) (x : Option Nat) : Keeps c s (dropChild s id x).1 := by
  unfold dropChild
  split
  · exact .refl _ _
  · split
    · refine .trans ?_ (keeps_drop _ _ _)
      exact keeps_same rfl rfl rfl rfl
    · exact .refl _ _

theorem keeps_dropParent (c : Nat) (s : Registry.S) (r : Nat) :
    Keeps c s (drop (emit { s with parent := none } (.removed r)) r) := by
  refine .trans ?_ (keeps_drop _ _ _)
  exact keeps_same rfl rfl rfl rfl

theorem keeps_disconnect (c : Nat) (s : Registry.S) (id : Nat) : Keeps c s (disconnect s id).1 := by
  have hc : Keeps c s (disconnect.child id s).1 := by
    unfold disconnect.child
    split
    · split
      · exact keeps_dropChild c s id none
      · exact .refl _ _
    · exact .refl _ _
  unfold disconnect
  split
  · split
    · exact keeps_dropParent c s _
    · exact hc
  · exact hc

theorem keeps_disconnects (c : Nat) (ids : List Nat) : ∀ s, Keeps c s (disconnects s ids) := by
  induction ids with
  | nil => exact fun s => .refl c s
  | cons id ids ih => exact fun s => .trans (keeps_disconnect c s id) (ih _)

theorem keeps_removeEndpoint (c : Nat) (s : Registry.S) (id : Nat) (x : Option Nat) : Keeps c s (removeEndpoint s id x).1 := by
  unfold removeEndpoint
  split
  · split
    · split
      · exact .refl _ _
      · exact keeps_dropParent c s _
    · exact .refl _ _
  · split
    · exact .refl _ _
    · split
      · exact keeps_dropChild c s id x
      · exact .refl _ _

theorem keeps_removeCollection (c : Nat) (s : Registry.S) : Keeps c s (removeCollection s) := by
  have H : ∀ (t : Verif.Subnet.Table) (s : Registry.S), Keeps c s (t.foldl (fun s e => drop (emit s (.removed e.2.ref)) e.2.ref) s) := by
    intro t
    induction t with
    | nil => exact fun s => .refl c s
    | cons e t ih =>
      intro s
      refine .trans (.trans ?_ (keeps_drop c e.2.ref (emit s (.removed e.2.ref)))) (ih _)
      exact keeps_same rfl rfl rfl rfl
  refine .trans ?_ (H s.table { s with table := [] })
  exact keeps_same rfl rfl rfl rfl

theorem keeps_reset (c : Nat) (s : Registry.S) (mid : List Nat) : Keeps c s (reset s mid) := by
  unfold reset
  split
  · exact .trans (.trans (keeps_removeEndpoint _ _ _ _) (keeps_disconnects _ _ _)) (keeps_removeCollection _ _)
  · exact keeps_removeCollection _ s

theorem keeps_setHash (c : Nat) (s : Registry.S) (r h : Nat) : Keeps c s (setHash s r h) := by
  obtain ⟨-, -, -, h4, h5, -⟩ := setHash_same s r h
  refine ⟨Nat.le_of_eq h4.symm, fun x _ => (setHash_info s r h x).1, .inl (by rw [h5]), ?_⟩
  unfold setHash
  split <;> rfl

theorem keeps_addEndpoint (c : Nat) (s : Registry.S) (ep : Verif.Subnet.Ep) (up : List Nat) : Keeps c s (addEndpoint s ep up).1 := by
  unfold addEndpoint
  split
  · split
    · refine .trans ?_ (.trans (keeps_disconnects c up { s with parent := some ep }) ?_)
      · exact keeps_same rfl rfl rfl rfl
      · exact keeps_same rfl rfl rfl rfl
    · exact .refl _ _
  · split
    · exact .refl _ _
    · split
      · exact keeps_same rfl rfl rfl rfl
      · exact .refl _ _

theorem keeps_addConnection {c d : Nat} (hd : d ≠ c) (s : Registry.S) (r : Nat) : Keeps c s (addConnection s d r).1 := by
  unfold addConnection
  split
  · exact .refl _ _
  · refine ⟨Nat.le_refl _, fun _ _ => rfl, .inl ?_, rfl⟩
    show upd s.conn d _ c = s.conn c
    unfold upd
    rw [if_neg (fun e => hd e.symm)]

theorem keeps_regNew {c : Nat} {s : Registry.S} {m : Req} (hm : m.conn ≠ c) {s' : Registry.S} {code : Int}
    (h : regNew s m = some (s', code)) : Keeps c s s' := by
  unfold regNew at h
  split at h
  · cases h
  · split at h
    · cases h; exact .refl _ _
    · split at h
      · cases h
      · rename_i l _
        have h1 : Keeps c s { s with next := s.next + 1, info := upd s.info s.next { id := m.busId, pid := m.pid, host := m.host, hash := m.hash } } := by
          refine ⟨Nat.le_succ _, fun r hr => ?_, .inl rfl, rfl⟩
          show (upd s.info s.next _ r).id = _
          unfold upd
          rw [if_neg (by omega)]
        simp only at h
        split at h
        · cases h; exact h1.trans (keeps_resetConn _ _ _)
        · have h2 := h1.trans (keeps_addEndpoint c _ ⟨s.next, m.busId, l⟩ m.up)
          split at h
          · simp only [Option.some.injEq] at h
            rw [h] at h2
            exact h2
          · have h3 := h2.trans (keeps_addConnection hm _ s.next)
            simp only [Option.some.injEq, Prod.mk.injEq] at h
            rw [← h.1]
            split
            · refine h3.trans ?_
              exact keeps_same rfl rfl rfl rfl
            · exact h3

theorem keeps_regBody {c : Nat} {s : Registry.S} {m : Req} (hm : m.conn ≠ c) {s' : Registry.S} {code : Int}
    (h : regBody s m = some (s', code)) : Keeps c s s' := by
  unfold regBody at h
  split at h
  · simp only [Option.some.injEq] at h
    unfold regConnected at h
    split at h
    · split at h <;> cases h
      · exact keeps_setHash _ _ _ _
      · exact keeps_resetConn _ _ _
    · cases h; exact keeps_resetConn _ _ _
  · split at h
    · cases h; exact .refl _ _
    · split at h
      · rename_i ep _
        simp only [Option.some.injEq] at h
        unfold regOld at h
        split at h
        · cases h; exact keeps_setHash _ _ _ _
        · have h1 := keeps_addConnection hm s ep.ref
          simp only at h
          split at h <;> cases h
          · refine .trans (.trans h1 ?_) (keeps_setHash _ _ _ _)
            exact keeps_same rfl rfl rfl rfl
          · exact h1.trans (keeps_setHash _ _ _ _)
      · exact keeps_regNew hm h

theorem keeps_regReq {H : Nat → Nat → Nat × Nat} {c : Nat} {s : Registry.S} {m : Req} (hm : m.conn ≠ c) {s' : Registry.S} {code : Int}
    (h : regReq H s m = some (s', code)) : Keeps c s s' := by
  have hd : Keeps c s (if m.sent then s else resetConn s m.conn) := by
    split
    · exact .refl _ _
    · exact keeps_resetConn _ _ _
  unfold regReq at h
  split at h
  · cases h; exact hd
  · split at h
    · cases h; exact hd
    · split at h
      · cases h
      · rename_i s1 code1 hb
        have h1 := keeps_regBody hm hb
        simp only [Option.some.injEq, Prod.mk.injEq] at h
        rw [← h.1]
        split
        · exact h1.trans (keeps_resetConn _ _ _)
        · exact h1

/-- Operations that do not use connection `c` leave it or close it. -/
theorem keeps_step {H : Nat → Nat → Nat × Nat} {c : Nat} {s s' : Registry.S} {op : Registry.Op} (hu : uses c op = false)
    (h : Registry.step H s op = some s') : Keeps c s s' := by
  cases op with
  | reg m =>
    simp only [Registry.step, Option.map_eq_some_iff] at h
    obtain ⟨⟨a, b⟩, h3, h4⟩ := h
    subst h4
    exact keeps_regReq (by simpa [uses] using hu) h3
  | rsp d keys ret =>
    simp only [Registry.step, Option.some.injEq] at h
    subst h
    unfold regRsp
    split
    · exact keeps_resetConn _ _ _
    · exact .refl _ _
  | remove id x => simp only [Registry.step, Option.some.injEq] at h; subst h; exact keeps_removeEndpoint _ _ _ _
  | disconnect id => simp only [Registry.step, Option.some.injEq] at h; subst h; exact keeps_disconnect _ _ _
  | reset mid => simp only [Registry.step, Option.some.injEq] at h; subst h; exact keeps_reset _ _ _
  | link d r =>
    simp only [Registry.step, Option.some.injEq] at h; subst h
    exact keeps_addConnection (by simpa [uses] using hu) _ _
  | close d => simp only [Registry.step, Option.some.injEq] at h; subst h; exact keeps_resetConn _ _ _

/-! ### A request on a connection -/

/-- The connection is new, or bound to an object that exists. -/
def Fresh (s : Registry.S) (c : Nat) : Prop := s.conn c = {} ∨ ∃ r, r < s.next ∧ s.conn c = { bound := some r, connected := true }

/-- The connection is established and bound to an object with this id. -/
def To (s : Registry.S) (c id : Nat) : Prop :=
  ∃ r, r < s.next ∧ s.conn c = { bound := some r, connected := true } ∧ (s.info r).id = id

theorem To.keeps {s s' : Registry.S} {c id : Nat} (h : To s c id) (hk : Keeps c s s') (hc : (s'.conn c).connected = true) : To s' c id := by
  obtain ⟨r, h1, h2, h3⟩ := h
  rcases hk.conn with e | e
  · exact ⟨r, Nat.lt_of_lt_of_le h1 hk.next, e.trans h2, (hk.info r h1).trans h3⟩
  · rw [e] at hc; cases hc

theorem Fresh.keeps {s s' : Registry.S} {c : Nat} (h : Fresh s c) (hk : Keeps c s s') : Fresh s' c := by
  rcases hk.conn with e | e
  · rcases h with h | ⟨r, h1, h2⟩
    · exact .inl (e.trans h)
    · exact .inr ⟨r, Nat.lt_of_lt_of_le h1 hk.next, e.trans h2⟩
  · exact .inl e

theorem addConnection_to {s : Registry.S} {c r id : Nat} (hc : s.conn c = {}) (hr : r < s.next) (hi : (s.info r).id = id) :
    To (addConnection s c r).1 c id ∧ (addConnection s c r).2 = true := by
  unfold addConnection
  rw [hc]
  refine ⟨⟨r, hr, ?_, hi⟩, rfl⟩
  show upd s.conn c _ c = _
  unfold upd
  rw [if_pos rfl]

/-- An accepted request of a node with an id binds the connection to an object with this id. -/
theorem regBody_to {s : Registry.S} {m : Req} (hi : Ident s) (h0 : m.busId ≠ 0) (hf : Fresh s m.conn) (hup : m.up = []) {s' : Registry.S} {code : Int}
    (h : regBody s m = some (s', code)) (hcode : 0 ≤ code) : To s' m.conn m.busId := by
  unfold regBody at h
  split at h
  · rename_i hcon
    rcases hf with hf | ⟨r, hr, hf⟩
    · rw [hf] at hcon; cases hcon
    · simp only [Option.some.injEq] at h
      unfold regConnected at h
      rw [hf] at h
      dsimp only at h
      split at h <;> cases h
      · rename_i hid
        refine To.keeps ⟨r, hr, hf, hid⟩ (keeps_setHash _ _ _ _) ?_
        rw [(setHash_same ..).2.2.2.2.1, hf]
      · exact absurd hcode (by decide)
  · rename_i hcon
    have hc : s.conn m.conn = {} := by
      rcases hf with hf | ⟨r, -, hf⟩
      · exact hf
      · rw [hf] at hcon; exact absurd rfl hcon
    · split at h
      · rename_i ep hg
        obtain ⟨h1, h2⟩ := getEndpoint_some hi hg
        obtain ⟨h3, h4⟩ := addConnection_to hc h1 h2
        simp only [Option.some.injEq] at h
        unfold regOld at h
        split at h
        · cases h; exact absurd hcode (by decide)
        · simp only [h4, if_true] at h
          cases h
          obtain ⟨r, h5, h6, h7⟩ := h3
          refine To.keeps (s := emit (addConnection s m.conn ep.ref).1 (.joined m.conn ep.ref m.busId m.pid m.host)) ⟨r, h5, h6, h7⟩
            (keeps_setHash _ _ _ _) ?_
          rw [(setHash_same ..).2.2.2.2.1]
          show ((addConnection s m.conn ep.ref).1.conn m.conn).connected = true
          rw [h6]
      · unfold regNew at h
        split at h
        · cases h
        · split at h
          · cases h; exact absurd hcode (by decide)
          · split at h
            · cases h
            · rename_i l _
              simp only at h
              split at h
              · cases h; exact absurd hcode (by decide)
              · split at h
                · rename_i hn
                  simp only [Option.some.injEq] at h
                  rw [h] at hn
                  exact absurd hcode (by simpa using hn)
                · rw [hup] at h
                  have hk := keeps_addEndpoint m.conn
                    { s with next := s.next + 1, info := upd s.info s.next { id := m.busId, pid := m.pid, host := m.host, hash := m.hash } }
                    ⟨s.next, m.busId, l⟩ []
                  obtain ⟨h3, h4⟩ := addConnection_to (c := m.conn) (r := s.next) (id := m.busId)
                    (s := (addEndpoint { s with next := s.next + 1, info := upd s.info s.next { id := m.busId, pid := m.pid, host := m.host, hash := m.hash } } ⟨s.next, m.busId, l⟩ []).1)
                    (by rcases hk.conn with e | e
                        · exact e.trans hc
                        · exact e)
                    (Nat.lt_of_lt_of_le (Nat.lt_succ_self _) hk.next)
                    (by rw [hk.info s.next (Nat.lt_succ_self _)]
                        show (upd s.info s.next _ s.next).id = _
                        unfold upd
                        rw [if_pos rfl])
                  simp only [h4, if_true] at h
                  cases h
                  exact h3

/-- What a request does: accepted (after the checks, and the connection is bound), or refused. -/
theorem regReq_to {H : Nat → Nat → Nat × Nat} {s : Registry.S} {m : Req} (hi : Ident s) (h0 : m.busId ≠ 0) (hf : Fresh s m.conn) (hup : m.up = [])
    {s' : Registry.S} {code : Int} (h : regReq H s m = some (s', code)) :
    (0 ≤ code → To s' m.conn m.busId ∧ s.minVersion ≤ m.version ∧ access H s.tokens m.keys = true) ∧
    (early H s m = true → m.sent = true → s' = s) := by
  unfold regReq at h
  split at h
  · rename_i hv
    cases h
    refine ⟨fun hc => absurd hc (by decide), fun _ hs => by rw [hs]; rfl⟩
  · rename_i hv
    split at h
    · cases h
      refine ⟨fun hc => absurd hc (by decide), fun _ hs => by rw [hs]; rfl⟩
    · rename_i ha
      split at h
      · cases h
      · rename_i s1 code1 hb
        simp only [Option.some.injEq, Prod.mk.injEq] at h
        obtain ⟨h1, h2⟩ := h
        subst h2
        constructor
        · intro hc
          rw [if_neg (fun hx => by have := hx.2; omega)] at h1
          subst h1
          exact ⟨regBody_to hi h0 hf hup hb hc, by omega, by simpa using ha⟩
        · intro he
          have hv' : ¬ m.version < s.minVersion := hv
          simp only [early, Bool.or_eq_true, decide_eq_true_eq, Bool.not_eq_true'] at he
          rcases he with he | he
          · exact absurd he hv'
          · exact absurd he ha

/-- The constants of a registry do not change. -/
theorem mv_regReq {H : Nat → Nat → Nat × Nat} {s : Registry.S} {m : Req} {s' : Registry.S} {code : Int}
    (h : regReq H s m = some (s', code)) : s'.minVersion = s.minVersion ∧ s'.tokens = s.tokens := by
  refine ⟨(keeps_regReq (c := m.conn + 1) (by omega) h).mv, ?_⟩
  refine step_tokens (H := H) (op := .reg m) ?_
  show (regReq H s m).map Prod.fst = _
  rw [h]; rfl

/-! ### The invariant -/

/-- What never changes at one end: `k` its configuration, `mv` the oldest version it accepts, `ks` the keys of the other end. -/
structure Base (k : Conf) (mv : Nat) (ks : List Key) (x : Side) (qx : List Msg) : Prop where
  conf : x.conf = k
  ident : Ident x.reg
  own : x.reg.own = k.id
  tokens : x.reg.tokens = k.tokens
  mv : x.reg.minVersion = mv
  reqs : ∀ keys, .req keys ∈ qx → keys = ks

/-- What holds at one end while it is open: `k'` is the configuration of the other end. -/
structure Mine (H : Nat → Nat → Nat × Nat) (k k' : Conf) (mv : Nat) (ks : List Key) (x : Side) : Prop where
  fresh : x.live = true → Fresh x.reg x.c
  ok : x.live = true → x.verdict = some true → To x.reg x.c k'.id ∧ mv ≤ k'.version ∧ access H k.tokens ks = true

/-- What end `x` waits for. -/
structure Pair (ks : List Key) (x y : Side) (qx qy : List Msg) : Prop where
  closed : x.live = true → y.live = false → .eof ∈ qx
  waits : x.live = true → x.verdict = none → .req ks ∈ qx ∨ .eof ∈ qx
  bad : x.live = true → y.live = true → x.verdict = some false →
    (∃ ret keys, ret < 0 ∧ .rsp ret keys ∈ qy) ∨ .eof ∈ qy ∨ .eof ∈ qx

structure Good (H : Nat → Nat → Nat × Nat) (k : Bool → Conf) (mv : Bool → Nat) (ks : Bool → List Key) (s : S) : Prop where
  base : ∀ b, Base (k b) (mv b) (ks b) (s.side b) (s.q b)
  mine : ∀ b, Mine H (k b) (k !b) (mv b) (ks b) (s.side b)
  pair : ∀ b, Pair (ks b) (s.side b) (s.side !b) (s.q b) (s.q !b)

@[simp] theorem updB_same {α : Type} (f : Bool → α) (b : Bool) (v : α) : updB f b v b = v := by simp [updB]
@[simp] theorem updB_other {α : Type} (f : Bool → α) (b : Bool) (v : α) : updB f b v (!b) = f (!b) := by cases b <;> simp [updB]
@[simp] theorem updB_other' {α : Type} (f : Bool → α) (b : Bool) (v : α) : updB f (!b) v b = f b := by cases b <;> simp [updB]

/-- Facts about both ends. -/
theorem both {P : Bool → Prop} (b : Bool) (h1 : P b) (h2 : P (!b)) : ∀ x, P x := by
  intro x
  cases b <;> cases x <;> simp_all

/-- Closing one end restores the invariant, whatever that end was waiting for. -/
theorem good_close {H : Nat → Nat → Nat × Nat} {k : Bool → Conf} {mv : Bool → Nat} {ks : Bool → List Key} {s : S} (b : Bool)
    (hb : ∀ b, Base (k b) (mv b) (ks b) (s.side b) (s.q b)) (hm : Mine H (k !b) (k b) (mv !b) (ks !b) (s.side !b)) :
    Good H k mv ks (close s b) := by
  have e1 : (close s b).side b = { s.side b with live := false, reg := resetConn (s.side b).reg (s.side b).c } := by
    simp [close, S.set, S.push]
  have e2 : (close s b).side (!b) = s.side (!b) := by simp [close, S.set, S.push]
  have e3 : (close s b).q b = s.q b := by simp [close, S.set, S.push]
  have e4 : (close s b).q (!b) = s.q (!b) ++ [.eof] := by simp [close, S.set, S.push]
  constructor
  · refine both b ?_ ?_
    · rw [e1, e3]
      have h := hb b
      exact ⟨h.conf, h.ident.shrinks (shrinks_resetConn _ _), h.own, h.tokens, h.mv, h.reqs⟩
    · rw [e2, e4]
      have h := hb !b
      refine ⟨h.conf, h.ident, h.own, h.tokens, h.mv, fun keys hk => ?_⟩
      simp only [List.mem_append, List.mem_singleton, reduceCtorEq, or_false] at hk
      exact h.reqs keys hk
  · refine both b ?_ ?_
    · rw [e1]
      exact ⟨fun h => (by cases h), fun h => (by cases h)⟩
    · rw [e2, Bool.not_not]; exact hm
  · refine both b ?_ ?_
    · rw [e1]
      exact ⟨fun h => (by cases h), fun h => (by cases h), fun h => (by cases h)⟩
    · rw [e4, e2, Bool.not_not]
      have he : Msg.eof ∈ s.q (!b) ++ [.eof] := by simp
      refine ⟨fun _ _ => he, fun _ _ => .inr he, fun _ hl => ?_⟩
      rw [e1] at hl; cases hl

/-- The first message for `b` is taken from the queue: what both ends know stays. -/
theorem base_pop {k : Conf} {mv : Nat} {ks : List Key} {x : Side} {m : Msg} {rest : List Msg} (h : Base k mv ks x (m :: rest)) :
    Base k mv ks x rest := ⟨h.conf, h.ident, h.own, h.tokens, h.mv, fun keys hk => h.reqs keys (List.mem_cons_of_mem _ hk)⟩

theorem good_onReq {H : Nat → Nat → Nat × Nat} {k : Bool → Conf} {mv : Bool → Nat} {ks : Bool → List Key} {s s' : S} {b : Bool} {e : Env}
    {rest : List Msg} (h0 : ∀ b, (k b).id ≠ 0) (hg : Good H k mv ks s) (hq : s.q b = .req (ks b) :: rest) (hl : (s.side b).live = true)
    (hr : onReq H { s with q := updB s.q b rest } b (ks b) e = some s') : Good H k mv ks s' := by
  have hb := hg.base
  have hm := hg.mine
  have hp := hg.pair
  have hb1 : Base (k b) (mv b) (ks b) (s.side b) rest := base_pop (by rw [← hq]; exact hb b)
  unfold onReq at hr
  simp only at hr
  split at hr
  · cases hr
  · rename_i r code hreq
    have hown : (s.side b).reg.own ≠ 0 := by rw [(hb b).own]; exact h0 b
    obtain ⟨hid, hro⟩ := (hb b).ident.regReq hown hreq
    obtain ⟨hmv, htok⟩ := mv_regReq hreq
    have hbus : (reqOf (s.side (!b)).conf (s.side b).c (ks b) e).busId = (k !b).id := by
      show (s.side (!b)).conf.id = _
      rw [(hb !b).conf]
    have hto := regReq_to (hb b).ident (by rw [hbus]; exact h0 _) ((hm b).fresh hl) rfl hreq
    obtain ⟨hok, hearly⟩ := hto
    rw [hbus] at hok
    -- the state after the answer
    have key : ∀ t : S, t.side b = { s.side b with reg := r, verdict := some (decide (0 ≤ code)) } → t.side (!b) = s.side (!b) → t.q b = rest →
        (t.q (!b) = s.q (!b) ∨ ∃ keys, t.q (!b) = s.q (!b) ++ [.rsp code keys]) →
        (∀ b, Base (k b) (mv b) (ks b) (t.side b) (t.q b)) ∧ Mine H (k !b) (k b) (mv !b) (ks !b) (t.side !b) := by
      intro t t1 t2 t3 t4
      constructor
      · refine both b ?_ ?_
        · rw [t1, t3]
          exact ⟨hb1.conf, hid, hro.trans hb1.own, htok.trans hb1.tokens, hmv.trans hb1.mv, hb1.reqs⟩
        · rw [t2]
          have h := hb !b
          refine ⟨h.conf, h.ident, h.own, h.tokens, h.mv, fun keys hk => h.reqs keys ?_⟩
          rcases t4 with t4 | ⟨keys', t4⟩
          · rwa [t4] at hk
          · rw [t4] at hk; simpa using hk
      · rw [t2]
        have := hm !b
        rw [Bool.not_not] at this
        exact this
    by_cases hs : e.sent = true
    · rw [if_pos hs] at hr
      have kk := key (S.push (S.set { s with q := updB s.q b rest } b { s.side b with reg := r, verdict := some (decide (0 ≤ code)) }) (!b)
          (.rsp code (keysOf H (s.side b).conf.tokens e.salt))) (by simp [S.push, S.set]) (by simp [S.push, S.set]) (by simp [S.push, S.set])
          (.inr ⟨_, by simp [S.push, S.set]; rfl⟩)
      split at hr
      · rename_i hc
        cases hr
        obtain ⟨k1, k2⟩ := kk
        refine ⟨k1, ?_, ?_⟩
        · refine both b ?_ ?_
          · simp only [S.push, S.set, updB_same]
            constructor
            · intro _
              show Fresh r _
              rcases hc with hc | ⟨hc, -⟩
              · obtain ⟨⟨r', h1, h2, -⟩, -⟩ := hok hc
                exact .inr ⟨r', h1, h2⟩
              · rw [hearly hc hs]; exact (hm b).fresh hl
            · intro _ hv
              simp only [Option.some.injEq, decide_eq_true_eq] at hv
              obtain ⟨h1, h2, h3⟩ := hok hv
              refine ⟨h1, ?_, ?_⟩
              · rw [← (hb b).mv, ← (hb !b).conf]; exact h2
              · rw [← (hb b).tokens]; exact h3
          · rw [Bool.not_not]; exact k2
        · refine both b ?_ ?_
          · simp only [S.push, S.set, updB_same, updB_other, updB_other']
            constructor
            · intro _ hy
              have := (hp b).closed hl hy
              rw [hq] at this
              simpa using this
            · intro _ hv; cases hv
            · intro _ _ hv
              simp only [Option.some.injEq, decide_eq_false_iff_not, Int.not_le] at hv
              exact .inl ⟨code, _, hv, List.mem_append_right _ (List.mem_singleton.2 rfl)⟩
          · have hp' := hp !b
            rw [Bool.not_not] at hp' ⊢
            simp only [S.push, S.set, updB_same, updB_other, updB_other']
            constructor
            · intro _ hy
              exact absurd (hl.symm.trans hy) (by decide)
            · intro h1 h2
              rcases hp'.waits h1 h2 with h | h
              · exact .inl (List.mem_append_left _ h)
              · exact .inr (List.mem_append_left _ h)
            · intro h1 _ h3
              rcases hp'.bad h1 hl h3 with ⟨ret, keys, h4, h5⟩ | h | h
              · rw [hq] at h5; exact .inl ⟨ret, keys, h4, by simpa using h5⟩
              · rw [hq] at h; exact .inr (.inl (by simpa using h))
              · exact .inr (.inr (List.mem_append_left _ h))
      · cases hr
        exact good_close b kk.1 kk.2
    · rw [if_neg hs] at hr
      have kk := key (S.set { s with q := updB s.q b rest } b { s.side b with reg := r, verdict := some (decide (0 ≤ code)) })
          (by simp [S.set]) (by simp [S.set]) (by simp [S.set]) (.inl (by simp [S.set]))
      split at hr
      · rename_i hc
        cases hr
        have hc : 0 ≤ code := by
          rcases hc with hc | hc
          · exact hc
          · exact absurd hc.2 hs
        obtain ⟨k1, k2⟩ := kk
        obtain ⟨h1, h2, h3⟩ := hok hc
        refine ⟨k1, ?_, ?_⟩
        · refine both b ?_ ?_
          · simp only [S.set, updB_same]
            constructor
            · intro _
              obtain ⟨r', h1, h2, -⟩ := h1
              exact .inr ⟨r', h1, h2⟩
            · intro _ _
              refine ⟨h1, ?_, ?_⟩
              · rw [← (hb b).mv, ← (hb !b).conf]; exact h2
              · rw [← (hb b).tokens]; exact h3
          · rw [Bool.not_not]; exact k2
        · refine both b ?_ ?_
          · simp only [S.set, updB_same, updB_other]
            constructor
            · intro _ hy
              have := (hp b).closed hl hy
              rw [hq] at this
              simpa using this
            · intro _ hv; cases hv
            · intro _ _ hv
              simp only [Option.some.injEq, decide_eq_false_iff_not, Int.not_le] at hv
              omega
          · have hp' := hp !b
            rw [Bool.not_not] at hp' ⊢
            simp only [S.set, updB_same, updB_other]
            constructor
            · intro _ hy
              exact absurd (hl.symm.trans hy) (by decide)
            · exact hp'.waits
            · intro h1 _ h3
              rcases hp'.bad h1 hl h3 with ⟨ret, keys, h4, h5⟩ | h | h
              · rw [hq] at h5; exact .inl ⟨ret, keys, h4, by simpa using h5⟩
              · rw [hq] at h; exact .inr (.inl (by simpa using h))
              · exact .inr (.inr h)
      · cases hr
        exact good_close b kk.1 kk.2

theorem good_deliver {H : Nat → Nat → Nat × Nat} {k : Bool → Conf} {mv : Bool → Nat} {ks : Bool → List Key} {s s' : S} {b : Bool} {e : Env}
    (h0 : ∀ b, (k b).id ≠ 0) (hg : Good H k mv ks s) (hr : deliver H s b e = some s') : Good H k mv ks s' := by
  have hb := hg.base
  have hm := hg.mine
  have hp := hg.pair
  unfold deliver at hr
  split at hr
  · cases hr; exact hg
  · rename_i m rest hq
    have hb1 : Base (k b) (mv b) (ks b) (s.side b) rest := base_pop (by rw [← hq]; exact hb b)
    have hbs : ∀ x, Base (k x) (mv x) (ks x) (s.side x) (updB s.q b rest x) :=
      both b (by rw [updB_same]; exact hb1) (by rw [updB_other]; exact hb !b)
    have hm' := hm !b
    rw [Bool.not_not] at hm'
    simp only at hr
    split at hr
    · rename_i hl
      cases m with
      | req keys =>
        have hk : keys = ks b := (hb b).reqs keys (by rw [hq]; exact List.mem_cons_self)
        subst hk
        exact good_onReq h0 hg hq hl hr
      | rsp ret keys =>
        simp only [Option.some.injEq] at hr
        subst hr
        unfold onRsp
        split
        · rename_i hrsp
          have hret : ¬ ret < 0 := by
            intro hn
            unfold regRsp at hrsp
            rw [if_pos (.inr hn)] at hrsp
            cases hrsp
          refine ⟨hbs, hm, both b ?_ ?_⟩
          · show Pair _ (s.side b) (s.side !b) (updB s.q b rest b) (updB s.q b rest (!b))
            rw [updB_same, updB_other]
            have h := hp b
            rw [hq] at h
            refine ⟨fun h1 h2 => by simpa using h.closed h1 h2, fun h1 h2 => by simpa using h.waits h1 h2, fun h1 h2 h3 => ?_⟩
            simpa using h.bad h1 h2 h3
          · show Pair _ (s.side !b) (s.side !!b) (updB s.q b rest !b) (updB s.q b rest (!!b))
            rw [Bool.not_not, updB_same, updB_other]
            have h := hp !b
            rw [Bool.not_not, hq] at h
            refine ⟨h.closed, h.waits, fun h1 h2 h3 => ?_⟩
            rcases h.bad h1 h2 h3 with ⟨ret', keys', h4, h5⟩ | h5 | h5
            · simp only [List.mem_cons, Msg.rsp.injEq] at h5
              rcases h5 with ⟨rfl, -⟩ | h5
              · exact absurd h4 hret
              · exact .inl ⟨ret', keys', h4, h5⟩
            · exact .inr (.inl (by simpa using h5))
            · exact .inr (.inr h5)
        · exact good_close b hbs hm'
      | eof =>
        simp only [Option.some.injEq] at hr
        subst hr
        exact good_close b hbs hm'
    · rename_i hl
      have hl : (s.side b).live = false := by simpa using hl
      cases hr
      refine ⟨hbs, hm, both b ?_ ?_⟩
      · show Pair _ (s.side b) _ _ _
        refine ⟨fun h1 => ?_, fun h1 => ?_, fun h1 => ?_⟩ <;> (rw [hl] at h1; cases h1)
      · show Pair _ (s.side !b) (s.side !!b) (updB s.q b rest !b) (updB s.q b rest (!!b))
        rw [Bool.not_not, updB_same, updB_other]
        have h := hp !b
        rw [Bool.not_not] at h
        exact ⟨h.closed, h.waits, fun _ h2 => absurd (hl.symm.trans h2) (by decide)⟩

theorem good_other {H : Nat → Nat → Nat × Nat} {k : Bool → Conf} {mv : Bool → Nat} {ks : Bool → List Key} {s s' : S} {b : Bool} {op : Registry.Op}
    (h0 : ∀ b, (k b).id ≠ 0) (hg : Good H k mv ks s) (hr : other H s b op = some s') : Good H k mv ks s' := by
  have hb := hg.base
  have hm := hg.mine
  have hp := hg.pair
  unfold other at hr
  simp only at hr
  split at hr
  · cases hr; exact hg
  · rename_i hu
    have hu : uses (s.side b).c op = false := by simpa using hu
    split at hr
    · cases hr
    · rename_i r hs
      have hk := keeps_step hu hs
      obtain ⟨hid, hro⟩ := (hb b).ident.step (by rw [(hb b).own]; exact h0 b) op hs
      have htok := step_tokens hs
      have hbs : ∀ x, Base (k x) (mv x) (ks x) ((s.set b { s.side b with reg := r }).side x) ((s.set b { s.side b with reg := r }).q x) := by
        refine both b ?_ ?_
        · have h := hb b
          simp only [S.set, updB_same]
          exact ⟨h.conf, hid, hro.trans h.own, htok.trans h.tokens, hk.mv.trans h.mv, h.reqs⟩
        · simp only [S.set, updB_other]
          exact hb !b
      split at hr
      · cases hr
        refine good_close b hbs ?_
        simp only [S.set, updB_other]
        have := hm !b
        rw [Bool.not_not] at this
        exact this
      · rename_i hc
        cases hr
        refine ⟨hbs, both b ?_ ?_, both b ?_ ?_⟩
        · simp only [S.set, updB_same]
          refine ⟨fun h1 => ((hm b).fresh h1).keeps hk, fun h1 h2 => ?_⟩
          obtain ⟨h3, h4, h5⟩ := (hm b).ok h1 h2
          refine ⟨h3.keeps hk ?_, h4, h5⟩
          obtain ⟨r', -, h6, -⟩ := h3
          have h1' : (s.side b).live = true := h1
          simp only [h1', h6, Bool.true_and, Bool.or_eq_true, not_or, Bool.not_eq_true, Bool.not_eq_false'] at hc
          exact hc.2
        · simp only [S.set, updB_other, Bool.not_not]
          have := hm !b
          rw [Bool.not_not] at this
          exact this
        · simp only [S.set, updB_same, updB_other]
          have h := hp b
          exact ⟨h.closed, h.waits, h.bad⟩
        · simp only [S.set, updB_other, Bool.not_not, updB_same]
          have h := hp !b
          rw [Bool.not_not] at h
          exact ⟨h.closed, h.waits, h.bad⟩

theorem good_cut {H : Nat → Nat → Nat × Nat} {k : Bool → Conf} {mv : Bool → Nat} {ks : Bool → List Key} {s : S} (n m : Nat)
    (hg : Good H k mv ks s) : Good H k mv ks { s with q := fun b => (s.q b).take (if b then n else m) ++ [.eof] } := by
  have he : ∀ b, Msg.eof ∈ (s.q b).take (if b then n else m) ++ [.eof] := fun b => by simp
  refine ⟨fun b => ?_, hg.mine, fun b => ⟨fun _ _ => he b, fun _ _ => .inr (he b), fun _ _ _ => .inr (.inr (he b))⟩⟩
  have h := hg.base b
  refine ⟨h.conf, h.ident, h.own, h.tokens, h.mv, fun keys hk => h.reqs keys ?_⟩
  simp only [List.mem_append, List.mem_singleton, reduceCtorEq, or_false] at hk
  exact List.mem_of_mem_take hk

theorem good_run {H : Nat → Nat → Nat × Nat} {k : Bool → Conf} {mv : Bool → Nat} {ks : Bool → List Key} (h0 : ∀ b, (k b).id ≠ 0) :
    ∀ (es : List Ev) {s s' : S}, Good H k mv ks s → run H s es = some s' → Good H k mv ks s' := by
  intro es
  induction es with
  | nil => intro s s' h hr; cases hr; exact h
  | cons e es ih =>
    intro s s' h hr
    simp only [run, Option.bind_eq_some_iff] at hr
    obtain ⟨s1, h1, h2⟩ := hr
    refine ih ?_ h2
    cases e with
    | deliver b e => exact good_deliver h0 h h1
    | other b op => exact good_other h0 h h1
    | cut n m => cases h1; exact good_cut n m h

/-! ### The claims -/

/-- A node after any history of its own, and a new connection of it: not bound, or bound to one of its endpoints (`node::connect` with an
endpoint). -/
structure Ready (H : Nat → Nat → Nat × Nat) (x : Side) : Prop where
  reach : ∃ subs mv ops, Registry.run H (Registry.init x.conf.id subs mv x.conf.tokens) ops = some x.reg
  conn : x.reg.conn x.c = {} ∨ ∃ ep, Entry x.reg ep ∧ x.reg.conn x.c = { bound := some ep.ref, connected := true }
  live : x.live = true
  new : x.verdict = none

/-- The connection `x` is established and belongs to an endpoint with the id of the node at the other end. -/
def Joined (x y : Side) : Prop :=
  (x.reg.conn x.c).connected = true ∧ ∃ r, (x.reg.conn x.c).bound = some r ∧ (x.reg.info r).id = y.conf.id

theorem tokens_run {H : Nat → Nat → Nat × Nat} : ∀ (ops : List Registry.Op) {s s' : Registry.S}, Registry.run H s ops = some s' → s'.tokens = s.tokens := by
  intro ops
  induction ops with
  | nil => intro s s' h; cases h; rfl
  | cons op ops ih =>
    intro s s' h
    simp only [Registry.run, Option.bind_eq_some_iff] at h
    obtain ⟨s1, h1, h2⟩ := h
    exact (ih h2).trans (step_tokens h1)

theorem good_start {H : Nat → Nat → Nat × Nat} {x y : Side} {sx sy : Nat → Nat} (hx : Ready H x) (hy : Ready H y) (hx0 : x.conf.id ≠ 0)
    (hy0 : y.conf.id ≠ 0) :
    Good H (fun b => if b then x.conf else y.conf) (fun b => if b then x.reg.minVersion else y.reg.minVersion)
      (fun b => if b then keysOf H y.conf.tokens sy else keysOf H x.conf.tokens sx) (start H x y sx sy) := by
  have hr : ∀ z : Side, Ready H z → z.conf.id ≠ 0 → Ident z.reg ∧ z.reg.own = z.conf.id ∧ z.reg.tokens = z.conf.tokens ∧ Fresh z.reg z.c := by
    intro z hz h0
    obtain ⟨subs, mv, ops, h⟩ := hz.reach
    obtain ⟨h1, h2⟩ := (ident_init z.conf.id subs mv z.conf.tokens).run ops h0 h
    refine ⟨h1, h2, tokens_run ops h, ?_⟩
    rcases hz.conn with hc | ⟨ep, he, hc⟩
    · exact .inl hc
    · refine .inr ⟨ep.ref, ?_, hc⟩
      rcases he with he | ⟨r, he⟩
      · exact (h1.par ep he).1
      · exact (h1.tab _ he).1
  obtain ⟨x1, x2, x3, x4⟩ := hr x hx hx0
  obtain ⟨y1, y2, y3, y4⟩ := hr y hy hy0
  refine ⟨both true ?_ ?_, both true ?_ ?_, both true ?_ ?_⟩
  · exact ⟨rfl, x1, x2, x3, rfl, fun keys hk => by simpa [start] using hk⟩
  · exact ⟨rfl, y1, y2, y3, rfl, fun keys hk => by simpa [start] using hk⟩
  · exact ⟨fun _ => x4, fun _ h => absurd (hx.new.symm.trans h) (by decide)⟩
  · exact ⟨fun _ => y4, fun _ h => absurd (hy.new.symm.trans h) (by decide)⟩
  · exact ⟨fun _ h => absurd (hy.live.symm.trans h) (by decide), fun _ _ => .inl (by simp [start]),
      fun _ _ h => absurd (hx.new.symm.trans h) (by decide)⟩
  · exact ⟨fun _ h => absurd (hx.live.symm.trans h) (by decide), fun _ _ => .inl (by simp [start]),
      fun _ _ h => absurd (hy.new.symm.trans h) (by decide)⟩

/-- Whatever happens on the two nodes and the connection between them: when no message is on the way any more, either both ends are
closed, or both ends are established and belong to an endpoint with the id of the node at the other end.  In the second case each
node has accepted the version of the other one and a key of its request.  Both nodes need an id: see `C73_temporary_false`. -/
theorem C73_agree_partial (H : Nat → Nat → Nat × Nat) (x y : Side) (sx sy : Nat → Nat) (es : List Ev) (s : S) (hx : Ready H x) (hy : Ready H y)
    (hx0 : x.conf.id ≠ 0) (hy0 : y.conf.id ≠ 0) (hr : run H (start H x y sx sy) es = some s) (hq : ∀ b, s.q b = []) :
    (∀ b, (s.side b).live = false) ∨
    ((∀ b, (s.side b).live = true ∧ Joined (s.side b) (s.side !b)) ∧
      x.reg.minVersion ≤ y.conf.version ∧ y.reg.minVersion ≤ x.conf.version ∧
      (x.conf.tokens ≠ [] → Genuine H x.conf.tokens (keysOf H y.conf.tokens sy)) ∧
      (y.conf.tokens ≠ [] → Genuine H y.conf.tokens (keysOf H x.conf.tokens sx))) := by
  have h := good_run (by intro b; cases b <;> assumption) es (good_start (sx := sx) (sy := sy) hx hy hx0 hy0) hr
  have hlive : ∀ b, (s.side b).live = true → (s.side !b).live = true := by
    intro b hb
    cases hl : (s.side !b).live with
    | true => rfl
    | false =>
      have := (h.pair b).closed hb hl
      rw [hq] at this; cases this
  have hver : ∀ b, (s.side b).live = true → (s.side b).verdict = some true := by
    intro b hb
    have hp := h.pair b
    rw [hq, hq] at hp
    cases hv : (s.side b).verdict with
    | none => rcases hp.waits hb hv with h | h <;> cases h
    | some v =>
      cases v with
      | true => rfl
      | false =>
        rcases hp.bad hb (hlive b hb) hv with ⟨_, _, _, h⟩ | h | h <;> cases h
  cases ht : (s.side true).live with
  | false =>
    left
    refine both true ht ?_
    cases hf : (s.side false).live with
    | false => exact hf
    | true => exact absurd ((hlive false hf).symm.trans ht) (by decide)
  | true =>
    right
    have hall : ∀ b, (s.side b).live = true := both true ht (hlive true ht)
    refine ⟨fun b => ⟨hall b, ?_⟩, ?_⟩
    · obtain ⟨⟨r, h1, h2, h3⟩, -, -⟩ := (h.mine b).ok (hall b) (hver b (hall b))
      refine ⟨by rw [h2], r, by rw [h2], h3.trans ?_⟩
      rw [(h.base !b).conf]
    · obtain ⟨-, a1, a2⟩ := (h.mine true).ok (hall true) (hver true (hall true))
      obtain ⟨-, b1, b2⟩ := (h.mine false).ok (hall false) (hver false (hall false))
      exact ⟨a1, b1, fun ht => (access_iff ht).1 a2, fun ht => (access_iff ht).1 b2⟩

/-- The number of messages that are handled (or dropped) in a run. -/
def handled (H : Nat → Nat → Nat × Nat) (s : S) : List Ev → Nat
  | [] => 0
  | e :: es =>
    (match e with
      | .deliver b _ => if s.q b = [] then 0 else 1
      | _ => 0) +
    match step H s e with
    | some s' => handled H s' es
    | none => 0

/-- How often the connection breaks. -/
def cuts (es : List Ev) : Nat := es.countP fun e => match e with
  | .cut _ _ => true
  | _ => false

def wt : Msg → Nat
  | .req _ => 2
  | _ => 1

def wts (q : List Msg) : Nat := (q.map wt).sum

def pot (s : S) : Nat := wts (s.q true) + wts (s.q false) + (if (s.side true).live then 1 else 0) + if (s.side false).live then 1 else 0

theorem pot_eq (s : S) (b : Bool) : pot s = wts (s.q b) + wts (s.q !b) + (if (s.side b).live then 1 else 0) + if (s.side !b).live then 1 else 0 := by
  unfold pot
  cases b
  · simp only [Bool.not_false]; omega
  · simp only [Bool.not_true]

theorem wts_append (q : List Msg) (m : Msg) : wts (q ++ [m]) = wts q + wt m := by simp [wts]

theorem pot_close (s : S) (b : Bool) (hl : (s.side b).live = true) : pot (close s b) = pot s := by
  rw [pot_eq _ b, pot_eq s b]
  simp only [close, S.set, S.push, updB_same, updB_other, updB_other', wts_append, hl, if_true, wt]
  simp only [Bool.false_eq_true, if_false]
  omega

theorem pot_deliver {H : Nat → Nat → Nat × Nat} {s s' : S} {b : Bool} {e : Env} (hr : deliver H s b e = some s') :
    pot s' + (if s.q b = [] then 0 else 1) ≤ pot s := by
  unfold deliver at hr
  split at hr
  · rename_i hq
    cases hr; rw [if_pos hq]; exact Nat.le_refl _
  · rename_i m rest hq
    rw [if_neg (by rw [hq]; simp)]
    have hpop : pot { s with q := updB s.q b rest } + wt m = pot s := by
      rw [pot_eq _ b, pot_eq s b]
      simp only [updB_same, updB_other, hq, wts, List.map_cons, List.sum_cons]
      omega
    simp only at hr
    split at hr
    · rename_i hl
      cases m with
      | req keys =>
        have hw : wt (.req keys) = 2 := rfl
        unfold onReq at hr
        simp only at hr
        split at hr
        · cases hr
        · rename_i r code hreq
          -- the answer
          have h2 : ∀ t : S, t = (if e.sent then ((S.set { s with q := updB s.q b rest } b
                { s.side b with reg := r, verdict := some (decide (0 ≤ code)) }).push (!b) (.rsp code (keysOf H (s.side b).conf.tokens e.salt)))
              else S.set { s with q := updB s.q b rest } b { s.side b with reg := r, verdict := some (decide (0 ≤ code)) }) →
              pot t ≤ pot { s with q := updB s.q b rest } + 1 ∧ (t.side b).live = true := by
            intro t ht
            subst ht
            split
            · constructor
              · rw [pot_eq _ b, pot_eq _ b]
                simp only [S.set, S.push, updB_same, updB_other, updB_other', wts_append, wt]
                omega
              · simp only [S.set, S.push, updB_same]; exact hl
            · constructor
              · rw [pot_eq _ b, pot_eq _ b]
                simp only [S.set, updB_same, updB_other]
                omega
              · simp only [S.set, updB_same]; exact hl
          obtain ⟨h3, h4⟩ := h2 _ rfl
          split at hr
          · cases hr
            exact Nat.le_trans (Nat.add_le_add_right h3 1) (by omega)
          · cases hr
            refine Nat.le_trans (Nat.add_le_add_right (Nat.le_of_eq (pot_close _ _ h4)) 1) ?_
            exact Nat.le_trans (Nat.add_le_add_right h3 1) (by omega)
      | rsp ret keys =>
        have hw : wt (.rsp ret keys) = 1 := rfl
        simp only [Option.some.injEq] at hr
        subst hr
        unfold onRsp
        split
        · omega
        · rw [pot_close { s with q := updB s.q b rest } b hl]; omega
      | eof =>
        have hw : wt .eof = 1 := rfl
        simp only [Option.some.injEq] at hr
        subst hr
        rw [pot_close { s with q := updB s.q b rest } b hl]; omega
    · cases hr
      have hw : 1 ≤ wt m := by cases m <;> simp [wt]
      omega

theorem pot_other {H : Nat → Nat → Nat × Nat} {s s' : S} {b : Bool} {op : Registry.Op} (hr : other H s b op = some s') : pot s' = pot s := by
  unfold other at hr
  simp only at hr
  split at hr
  · cases hr; rfl
  · split at hr
    · cases hr
    · rename_i r hs
      have h1 : pot (s.set b { s.side b with reg := r }) = pot s := by
        rw [pot_eq _ b, pot_eq s b]
        simp only [S.set, updB_same, updB_other]
      split at hr
      · rename_i hl
        cases hr
        rw [pot_close, h1]
        simp only [S.set, updB_same]
        simp only [Bool.and_eq_true] at hl
        exact hl.1
      · cases hr; exact h1

theorem wts_take (n : Nat) (q : List Msg) : wts (q.take n) ≤ wts q := by
  have h : wts q = wts (q.take n) + wts (q.drop n) := by
    rw [wts, wts, wts, ← List.sum_append, ← List.map_append, List.take_append_drop]
  omega

theorem handled_le {H : Nat → Nat → Nat × Nat} : ∀ (es : List Ev) (s : S), handled H s es ≤ pot s + 2 * cuts es := by
  intro es
  induction es with
  | nil => intro s; exact Nat.zero_le _
  | cons e es ih =>
    intro s
    cases e with
    | deliver b e =>
      have hc : cuts (.deliver b e :: es) = cuts es := by simp [cuts]
      rw [hc]
      simp only [handled]
      cases hs : step H s (.deliver b e) with
      | none =>
        -- an undefined step still takes a message from the queue
        have hne : pot s ≠ 0 ∨ s.q b = [] := by
          cases hq : s.q b with
          | nil => exact .inr rfl
          | cons m rest =>
            left
            rw [pot_eq s b, hq]
            have hw : 1 ≤ wt m := by cases m <;> simp [wt]
            simp only [wts, List.map_cons, List.sum_cons]
            omega
        dsimp only
        split
        · omega
        · rename_i hq
          rcases hne with h | h
          · omega
          · exact absurd h hq
      | some s' =>
        have h1 := pot_deliver (show deliver H s b e = some s' from hs)
        have h2 := ih s'
        dsimp only
        omega
    | other b op =>
      have hc : cuts (.other b op :: es) = cuts es := by simp [cuts]
      rw [hc]
      simp only [handled]
      cases hs : step H s (.other b op) with
      | none => simp
      | some s' =>
        have h1 := pot_other (show other H s b op = some s' from hs)
        have h2 := ih s'
        dsimp only
        omega
    | cut n m =>
      have hc : cuts (.cut n m :: es) = cuts es + 1 := by simp [cuts]
      rw [hc]
      simp only [handled, step]
      have h2 := ih { s with q := fun b => (s.q b).take (if b then n else m) ++ [.eof] }
      have h1 : pot { s with q := fun b => (s.q b).take (if b then n else m) ++ [.eof] } ≤ pot s + 2 := by
        unfold pot
        simp only [wts_append, wt, if_true, Bool.false_eq_true, if_false]
        have := wts_take n (s.q true)
        have := wts_take m (s.q false)
        omega
      omega

/-- The exchange is short: after at most six messages (and two more each time the connection breaks) nothing is on the way any more. -/
theorem C73_ends (H : Nat → Nat → Nat × Nat) (x y : Side) (sx sy : Nat → Nat) (es : List Ev) :
    handled H (start H x y sx sy) es ≤ 6 + 2 * cuts es := by
  have h := handled_le (H := H) es (start H x y sx sy)
  have hp : pot (start H x y sx sy) ≤ 6 := by
    unfold pot
    simp only [start, wts, List.map_cons, List.map_nil, wt, if_true, Bool.false_eq_true, if_false, List.sum_cons, List.sum_nil]
    split <;> split <;> omega
  omega

/-- Everything on the way is handled, the environment in its plainest form. -/
def quiet : List Ev := [.deliver true {}, .deliver false {}, .deliver true {}, .deliver false {}, .deliver true {}, .deliver false {}]

/-- The state of both ends: open, established. -/
def ends (s : S) : List (Bool × Bool × Nat) :=
  [true, false].map fun b => ((s.side b).live, ((s.side b).reg.conn (s.side b).c).connected, (s.q b).length)

/-- A node without history. -/
def node (k : Conf) (subs : List Verif.Subnet.Rng) (mv : Nat) : Side := { conf := k, reg := Registry.init k.id subs mv k.tokens, c := 1 }

theorem ready_node (H : Nat → Nat → Nat × Nat) (k : Conf) (subs : List Verif.Subnet.Rng) (mv : Nat) : Ready H (node k subs mv) :=
  ⟨⟨subs, mv, [], rfl⟩, .inl rfl, rfl, rfl⟩

/-- A temporary node (id 0) is established with its peer, but its peer does not accept it as established, and nothing is on the way: the
ends disagree.  The peer closes the connection when the time for connecting is over. -/
theorem C73_temporary_false : ∃ x y : Side, Ready (fun _ _ => (0, 0)) x ∧ Ready (fun _ _ => (0, 0)) y ∧
    ∃ s, run (fun _ _ => (0, 0)) (start (fun _ _ => (0, 0)) x y (fun _ => 0) (fun _ => 0)) quiet = some s ∧
      (∀ b, s.q b = []) ∧ (∀ b, (s.side b).live = true) ∧ Joined (s.side true) (s.side false) ∧ ¬ Joined (s.side false) (s.side true) ∧
      (run (fun _ _ => (0, 0)) s [.other false (.close 1), .deliver true {}]).map (fun s => (s.side true).live) = some false := by
  refine ⟨node { id := 0 } [] 0, node { id := 5 } [⟨5, 5, 0⟩] 0, ready_node _ _ _ _, ready_node _ _ _ _, _, rfl, ?_, ?_, ?_, ?_, rfl⟩
  · intro b; cases b <;> rfl
  · intro b; cases b <;> rfl
  · exact ⟨rfl, 0, rfl, rfl⟩
  · rintro ⟨h, -⟩; exact absurd h (by decide)

/-- Two nodes register with each other. -/
example : (run (fun _ _ => (0, 0)) (start (fun _ _ => (0, 0)) (node { id := 7, confs := [(7, 0)] } [⟨7, 7, 0⟩] 0)
    (node { id := 5, confs := [(5, 0)] } [⟨5, 5, 0⟩] 0) (fun _ => 0) (fun _ => 0)) quiet).map ends =
    some [(true, true, 0), (true, true, 0)] := rfl

/-- One of them has a token the other one does not know: the one that does accept is established for a while, in the end both are closed. -/
example : (run (fun t s => (t, s)) (start (fun t s => (t, s)) (node { id := 7, confs := [(7, 0)], tokens := [3] } [⟨7, 7, 0⟩] 0)
    (node { id := 5, confs := [(5, 0)], tokens := [4, 3] } [⟨5, 5, 0⟩] 0) (fun _ => 1) (fun _ => 2)) quiet).map ends =
    some [(true, true, 0), (true, true, 0)] ∧
  (run (fun t s => (t, s)) (start (fun t s => (t, s)) (node { id := 7, confs := [(7, 0)], tokens := [3] } [⟨7, 7, 0⟩] 0)
    (node { id := 5, confs := [(5, 0)], tokens := [4] } [⟨5, 5, 0⟩] 0) (fun _ => 1) (fun _ => 2)) quiet).map ends =
    some [(false, false, 0), (false, false, 0)] ∧
  (run (fun t s => (t, s)) (start (fun t s => (t, s)) (node { id := 7, version := 2, confs := [(7, 0)] } [⟨7, 7, 0⟩] 0)
    (node { id := 5, version := 3, confs := [(5, 0)] } [⟨5, 5, 0⟩] 3) (fun _ => 1) (fun _ => 2)) (quiet.take 1)).map ends =
    some [(true, true, 0), (true, false, 2)] ∧
  (run (fun t s => (t, s)) (start (fun t s => (t, s)) (node { id := 7, version := 2, confs := [(7, 0)] } [⟨7, 7, 0⟩] 0)
    (node { id := 5, version := 3, confs := [(5, 0)] } [⟨5, 5, 0⟩] 3) (fun _ => 1) (fun _ => 2)) (quiet ++ quiet)).map ends =
    some [(false, false, 0), (false, false, 0)] := ⟨rfl, rfl, rfl, rfl⟩

end Verif.Node.Handshake
