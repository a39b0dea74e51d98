import Verif.Node.RelayTree

/-!
C91, continued: examples and counterexamples.
-/
namespace Verif.Node.Relay

open Verif.IoStream
open Verif.Subnet (Ep Rng)
open Verif.Node.Tree (World Next Far Whole left)

/-! ### Checking that events can happen -/

instance (cf : RConf) (b : List Byte) : Decidable (Fits cf b) := by unfold Fits; infer_instance

instance (e : Stream.Ev) : Decidable e.writes := by
  cases e <;> unfold Stream.Ev.writes <;> infer_instance

/-- Whether the push can happen. -/
def putB (cf : Conf) (q : Bool) (c : Nat) (b : List Byte) (ev : Env) : Bool :=
  decide (Stream.Can (Stream.init 0 0 0) (.push b ev)) && decide (Fits (cf.stream c).recv b) && (!q || ev.uvOk)

theorem putB_ok {cf : Conf} {q : Bool} {c : Nat} {b : List Byte} {ev : Env} (h : putB cf q c b ev = true) : PutOk cf (q = true) c b ev := by
  simp only [putB, Bool.and_eq_true, decide_eq_true_eq, Bool.or_eq_true, Bool.not_eq_true'] at h
  obtain ⟨⟨h1, h2⟩, h3⟩ := h
  refine ⟨h1.1, h1.2, h2, fun hq => ?_⟩
  rcases h3 with h3 | h3
  · rw [hq] at h3; cases h3
  · exact h3

/-- Whether the pushes can happen, and end as the tables say. -/
def fineB (cf : Conf) (q : Bool) (x : Nat) : S → List Eff → List Env → Bool
  | _, [], _ => true
  | s, .deliver m :: es, evs => fineB cf q x { s with delivered := s.delivered ++ [(x, m)] } es evs
  | s, .sent _ c m :: es, evs =>
    putB cf q c (cf.pack m) (evs.headD calmEnv) && match put cf s c (cf.pack m) (evs.headD calmEnv) with
      | none => true
      | some (s', r) => decide (0 ≤ r) && fineB cf q x s' es evs.tail
  | s, .refused _ c m :: es, evs =>
    putB cf q c (cf.pack m) (evs.headD calmEnv) && match put cf s c (cf.pack m) (evs.headD calmEnv) with
      | none => true
      | some (s', r) => decide (r < 0) && fineB cf q x s' es evs.tail
  | s, .response _ :: es, evs => fineB cf q x s es evs
  | s, .toSelf _ :: es, evs => fineB cf q x s es evs
  | s, .sync _ _ :: es, evs => fineB cf q x s es evs

theorem fineB_ok {cf : Conf} {q : Bool} {x : Nat} (es : List Eff) : ∀ {s : S} {evs : List Env}, fineB cf q x s es evs = true →
    Fine cf (q = true) x s es evs := by
  induction es with
  | nil => intro _ _ _; trivial
  | cons e es ih =>
    intro s evs h
    cases e with
    | sent e c m =>
      simp only [fineB, Bool.and_eq_true] at h
      refine ⟨putB_ok h.1, fun s' r hp => ?_⟩
      rw [hp] at h
      simp only [Bool.and_eq_true, decide_eq_true_eq] at h
      exact ⟨h.2.1, ih h.2.2⟩
    | refused e c m =>
      simp only [fineB, Bool.and_eq_true] at h
      refine ⟨putB_ok h.1, fun s' r hp => ?_⟩
      rw [hp] at h
      simp only [Bool.and_eq_true, decide_eq_true_eq] at h
      exact ⟨h.2.1, ih h.2.2⟩
    | deliver m => exact ih (s := { s with delivered := s.delivered ++ [(x, m)] }) h
    | response m => exact ih (s := s) h
    | toSelf m => exact ih (s := s) h
    | sync i e => exact ih (s := s) h

/-- Whether the event can happen. -/
def canB (cf : Conf) (q : Bool) (s : S) : Ev → Bool
  | .send h limit tid content seq needRsp =>
    let es := (sendData h.n limit tid content seq needRsp).1
    fineB cf q h.n.id (s.call (dataMsg h.n tid content seq needRsp) es) es h.evs
  | .other _ _ _ => false
  | .lane _ (.push _ _) => false
  | .lane l e => decide (Stream.Can (s.lane l) e) && (!q || decide e.writes)
  | .handle l h =>
    match (s.lane l).got[s.done l]? with
    | none => true
    | some b =>
      match cf.unpack b with
      | none => true
      | some m => fineB cf q h.n.id (s.take l b) (h.effects m) h.evs

theorem canB_ok {cf : Conf} {q : Bool} {s : S} (e : Ev) (h : canB cf q s e = true) : Can cf (q = true) s e := by
  cases e with
  | send h' limit tid content seq needRsp => exact fineB_ok _ h
  | other c b ev => cases h
  | lane l e =>
    have key : (∀ m ev, e ≠ .push m ev) → decide (Stream.Can (s.lane l) e) && (!q || decide e.writes) → Can cf (q = true) s (.lane l e) := by
      intro hn h
      simp only [Bool.and_eq_true, decide_eq_true_eq, Bool.or_eq_true, Bool.not_eq_true'] at h
      refine ⟨hn, h.1, fun hq => ?_⟩
      rcases h.2 with h2 | h2
      · rw [hq] at h2; cases h2
      · exact h2
    cases e <;> first | cases h | exact key (fun _ _ hh => by cases hh) h
  | handle l h' =>
    simp only [canB] at h
    simp only [Can]
    split at h
    · next h1 => rw [h1]; trivial
    · next b h1 =>
      rw [h1]
      simp only
      split at h
      · next h2 => rw [h2]; trivial
      · next m h2 => rw [h2]; exact fineB_ok _ h

/-- Whether every event can happen. -/
def cansB (cf : Conf) (q : Bool) (s : S) : List Ev → Bool
  | [] => true
  | e :: es =>
    canB cf q s e && match step cf s e with
      | none => true
      | some s => cansB cf q s es

theorem cansB_ok {cf : Conf} {q : Bool} (es : List Ev) : ∀ {s : S}, cansB cf q s es = true → Cans cf (q = true) s es := by
  induction es with
  | nil => intro s _; trivial
  | cons e es ih =>
    intro s h
    simp only [cansB, Bool.and_eq_true] at h
    refine ⟨canB_ok e h.1, fun s' hs => ?_⟩
    rw [hs] at h
    exact ih h.2

theorem cans_calm {cf : Conf} {es : List Ev} {s : S} (h : cansB cf true s es = true) : Cans cf True s es := by
  have := cansB_ok es h
  rwa [show (true = true) = True from propext ⟨fun _ => trivial, fun _ => rfl⟩] at this

theorem cans_any {cf : Conf} {es : List Ev} {s : S} (h : cansB cf false s es = true) : Cans cf False s es := by
  have := cansB_ok es h
  rwa [show (false = true) = False from propext ⟨(fun h => by cases h), False.elim⟩] at this

/-! ### A network -/

/-- Numbers as bytes: 255 means that more follows. -/
def enc (l : List Nat) : List Byte := l.flatMap fun n => List.replicate (n / 255) 255 ++ [⟨n % 255, by omega⟩]

/-- Reads them back. -/
def dec : Nat → List Byte → List Nat
  | _, [] => []
  | a, b :: t => if b = 255 then dec (a + 255) t else (a + b.val) :: dec 0 t

def natOf (b : Bool) : Nat := if b then 1 else 0

/-- The fields of a message. -/
def toNats (m : Msg) : List Nat :=
  [natOf m.rsp, natOf (decide (m.version < 0)), m.version.natAbs, m.src, natOf (decide (m.ret < 0)), m.ret.natAbs, m.seq, m.from_, m.to,
    natOf m.needRsp, m.router.length] ++ m.router ++ m.content

def ofInt (s n : Nat) : Int := if s = 1 then - (n : Int) else n

/-- Reads them back. -/
def ofNats : List Nat → Option Msg
  | a :: b :: c :: d :: e :: f :: g :: h :: i :: j :: k :: l =>
    some { rsp := a == 1, version := ofInt b c, src := d, ret := ofInt e f, seq := g, from_ := h, to := i, needRsp := j == 1, router := l.take k,
           content := l.drop k }
  | _ => none

theorem dec_enc (l : List Nat) : dec 0 (enc l) = l := by
  have h : ∀ (n a : Nat) (b : Byte) (t : List Byte), b ≠ 255 → dec a (List.replicate n 255 ++ b :: t) = (a + 255 * n + b.val) :: dec 0 t := by
    intro n
    induction n with
    | zero => intro a b t hb; simp [dec, hb]
    | succ n ih =>
      intro a b t hb
      rw [List.replicate_succ, List.cons_append, show ∀ x, dec a (255 :: x) = dec (a + 255) x from fun _ => rfl, ih _ _ _ hb]
      congr 1
      omega
  induction l with
  | nil => rfl
  | cons n l ih =>
    have hb : (⟨n % 255, by omega⟩ : Byte) ≠ 255 := fun e => by
      have := congrArg Fin.val e
      simp at this
      omega
    have : enc (n :: l) = List.replicate (n / 255) 255 ++ (⟨n % 255, by omega⟩ : Byte) :: enc l := by simp [enc]
    rw [this, h _ _ _ _ hb, ih, Nat.zero_add, Nat.div_add_mod]

/-- An encoding of data messages, over streams as in the examples of C87. -/
def exR : Relay.Conf := ⟨fun _ => Stream.exC 1, fun m => enc (toNats m), fun b => ofNats (dec 0 b)⟩

theorem ex_codec : exR.Codec := by
  refine ⟨fun m => ?_, rfl⟩
  have hi : ∀ i : Int, ofInt (natOf (decide (i < 0))) i.natAbs = i := by
    intro i
    unfold ofInt natOf
    by_cases h : i < 0
    · simp [h]; omega
    · simp [h]; omega
  have hb : ∀ b : Bool, (natOf b == 1) = b := by intro b; cases b <;> rfl
  show ofNats (dec 0 (enc (toNats m))) = some m
  rw [dec_enc]
  simp [toNats, ofNats, hi, hb]


/-- The network of the examples of C71; stream `100 x + y` leads from node `x` to node `y`. -/
def exW : World :=
  { Tree.exW with node := fun x => (Tree.exW.node x).map fun n =>
      { n with
        dataConn := fun r => if r = 0 then none else some (100 * x + r)
        ctrlConn := fun r => if r = 0 then none else some (100 * x + r) } }

/-- The tables of a node of it. -/
def exN (x : Nat) : Node := (exW.node x).getD (Tree.exNode x ⟨x, x, 0⟩ none [])

theorem ex_node {x : Nat} {m : Node} (h : exW.node x = some m) : ∃ n, Tree.exW.node x = some n ∧
    m = { n with
        dataConn := fun r => if r = 0 then none else some (100 * x + r)
        ctrlConn := fun r => if r = 0 then none else some (100 * x + r) } := by
  simp only [exW, Option.map_eq_some_iff] at h
  obtain ⟨n, h1, h2⟩ := h
  exact ⟨n, h1, h2.symm⟩

theorem ex_some {x : Nat} {n : Node} (h : Tree.exW.node x = some n) : ∃ m, exW.node x = some m ∧ m.subnets = n.subnets :=
  ⟨{ n with
      dataConn := fun r => if r = 0 then none else some (100 * x + r)
      ctrlConn := fun r => if r = 0 then none else some (100 * x + r) }, by simp only [exW, h, Option.map_some], rfl⟩

theorem ex_push {x : Nat} {n : Node} (h : Tree.exW.node x = some n) : n.push = fun _ _ => 0 := by
  rcases Tree.ex_nodes h with ⟨_, rfl⟩ | ⟨_, rfl⟩ | ⟨_, rfl⟩ | ⟨_, rfl⟩ | ⟨_, rfl⟩ <;> rfl

/-- Every endpoint that a node knows. -/
theorem ex_known {x : Nat} {n : Node} {e : Ep} (h : Tree.exW.node x = some n) (he : n.parent = some e ∨ e ∈ Tree.exReg x ∨ ∃ r, (r, e) ∈ n.routes) :
    e.ref = e.id ∧ 0 < e.id ∧ e.id < 100 := by
  rcases Tree.ex_nodes h with ⟨rfl, rfl⟩ | ⟨rfl, rfl⟩ | ⟨rfl, rfl⟩ | ⟨rfl, rfl⟩ | ⟨rfl, rfl⟩ <;>
    simp [Tree.exNode, Tree.exReg] at he <;>
    first
      | (subst he; decide)
      | (rcases he with (he | he) | ⟨_, he | he⟩ <;> first | (subst he; decide) | (obtain ⟨_, he⟩ := he; subst he; decide))
      | (rcases he with he | (he | he) | ⟨_, he | he⟩ <;> first | (subst he; decide) | (obtain ⟨_, he⟩ := he; subst he; decide))

theorem ex_ok : Tree.Ok exW Tree.exPar Tree.exDep 3 Tree.exReg := by
  have o := Tree.ex_ok
  have conn : ∀ x m e, exW.node x = some m → (m.parent = some e ∨ e ∈ Tree.exReg x) →
      (∃ c, m.dataConn e.ref = some c ∧ ∀ k, 0 ≤ m.push c k) ∧ ∃ c, m.ctrlConn e.ref = some c ∧ ∀ k, 0 ≤ m.push c k := by
    intro x m e h he
    obtain ⟨n, hn, rfl⟩ := ex_node h
    obtain ⟨h1, h2, -⟩ := ex_known hn (he.imp id Or.inl)
    have hr : e.ref ≠ 0 := by omega
    have hp := ex_push hn
    exact ⟨⟨_, if_neg hr, fun k => by simp only [hp]; decide⟩, ⟨_, if_neg hr, fun k => by simp only [hp]; decide⟩⟩
  refine ⟨?_, ?_, ?_, ?_, ?_, ?_, ?_, ?_, ?_, fun y x => .inr (.inl rfl)⟩
  · intro x m h
    obtain ⟨n, hn, rfl⟩ := ex_node h
    exact o.node x n hn
  · intro x m h
    obtain ⟨n, hn, rfl⟩ := ex_node h
    exact o.par_ x n hn
  · intro x m p h hp
    obtain ⟨n, hn, rfl⟩ := ex_node h
    obtain ⟨q, hq, hd, hc⟩ := o.above x n p hn hp
    obtain ⟨q', hq', es⟩ := ex_some hq
    exact ⟨q', hq', hd, by rw [es]; exact hc⟩
  · intro x m h
    obtain ⟨n, hn, rfl⟩ := ex_node h
    exact o.depth x n hn
  · intro x m e h he
    obtain ⟨n, hn, rfl⟩ := ex_node h
    obtain ⟨k, hk, h1, h2⟩ := o.link x n e hn he
    obtain ⟨k', hk', es⟩ := ex_some hk
    exact ⟨k', hk', by rw [es]; exact h1, by rw [es]; exact h2⟩
  · intro x m t k h ht hc ne
    obtain ⟨n, hn, rfl⟩ := ex_node h
    obtain ⟨q, hq, _⟩ := ex_node ht
    exact o.below x n t q hn hq hc ne
  · intro x m t k h hp ht hc
    obtain ⟨n, hn, rfl⟩ := ex_node h
    obtain ⟨q, hq, _⟩ := ex_node ht
    exact o.mesh x n t q hn hp hq hc
  · exact fun x m e h he => conn x m e h (he.imp id And.left)
  · exact fun x m e h he => ⟨.inr (conn x m e h (.inr he)).1, .inr (conn x m e h (.inr he)).2⟩

theorem ex_whole : Whole exW Tree.exReg := by
  intro x m e h he
  obtain ⟨n, hn, rfl⟩ := ex_node h
  obtain ⟨h1, h2, -⟩ := ex_known hn (.inr (.inl he))
  have hr : e.ref ≠ 0 := by omega
  simp [hr]

/-- What a node finds for a target is an endpoint that it knows. -/
theorem found_known {n : Node} {fn : Nat → Option Nat} {u : Nat} {x : Int} {e : Ep} {c : Nat} (h : remoteChannel n fn u = (x, some e, some c)) :
    (n.parent = some e ∨ ∃ r, (r, e) ∈ n.routes) ∧ fn e.ref = some c := by
  have huse : ∀ p : Ep, useChannel fn p = (x, some e, some c) → p = e ∧ fn e.ref = some c := by
    intro p hp
    unfold useChannel finishChannel at hp
    simp only at hp
    split at hp
    · next hf => simp only [Prod.mk.injEq, Option.some.injEq] at hp; rw [hf] at hp; cases hp.2.2
    · next hf => simp only [Prod.mk.injEq, Option.some.injEq] at hp; exact ⟨hp.2.1, by rw [← hp.2.1]; exact hp.2.2⟩
  unfold remoteChannel at h
  split at h
  · cases h
  split at h
  · cases h
  split at h
  · next p hp =>
    obtain ⟨rfl, h2⟩ := huse p h
    split at hp
    · exact ⟨.inl hp, h2⟩
    · cases hp
  split at h
  · next p hp =>
    obtain ⟨rfl, h2⟩ := huse p h
    refine ⟨.inr ?_, h2⟩
    unfold directChild at hp
    split at hp
    · cases hp
    · next e' hf =>
      split at hp
      · cases hp
        unfold Subnet.findRoute at hf
        split at hf
        · cases hf
        · next y hy =>
          have hm : y ∈ n.routes := List.mem_of_find?_eq_some hy
          split at hf
          · cases hf; exact ⟨_, hm⟩
          · split at hf
            · cases hf; exact ⟨_, hm⟩
            · cases hf
      · cases hp
  split at h
  · cases h
  split at h
  · next p hp =>
    obtain ⟨rfl, h2⟩ := huse p h
    exact ⟨.inl hp, h2⟩
  · unfold finishChannel at h
    split at h <;> cases h

/-- The streams of the network. -/
def exV : Wires exW where
  owner c := c / 100
  reader c := c % 100
  wire x m u e c h hr := by
    obtain ⟨n, hn, rfl⟩ := ex_node h
    obtain ⟨h1, h2⟩ := found_known hr
    obtain ⟨h3, h4, h5⟩ := ex_known hn (h1.imp id .inr)
    simp only [h3] at h2
    rw [if_neg (by omega)] at h2
    cases h2
    omega

/-! ### Examples -/

/-- A write of the stream from `x` to `y` is finished. -/
def fin (x y : Nat) : Ev := .lane (100 * x + y) (.written Stream.ok1)

/-- `y` reads `n` bytes from `x`. -/
def read (x y n : Nat) : Ev := .lane (100 * x + y) (.read n [])

/-- `y` handles the next message from `x`. -/
def get (x y : Nat) : Ev := .handle (100 * x + y) { n := exN y, bound := some x }

/-- Node 22 sends two messages to 25, over 20 and 24. -/
def exEs (need : Bool) : List Ev :=
  [.send { n := exN 22 } 100 25 [7] 1 false, .send { n := exN 22 } 100 25 [8] 2 need, fin 22 20, fin 22 20, read 22 20 36, get 22 20, get 22 20,
    fin 20 24, fin 20 24, read 20 24 10, read 20 24 9, read 20 24 19, get 20 24, get 20 24, fin 24 25, fin 24 25, read 24 25 40, get 24 25, get 24 25]

/-- What the applications got. -/
def seen (cf : Conf) (es : List Ev) : Option (List (Nat × Nat × List Nat) × List (Nat × List Nat)) :=
  (run cf (init 0 0 0) es).map fun s => (s.delivered.map fun x => (x.1, x.2.from_, x.2.content), s.sends.map fun m => (m.to, m.content))

example : cansB exR true (init 0 0 0) (exEs true) = true ∧
    seen exR (exEs true) = some ([(25, 22, [7]), (25, 22, [8])], [(25, [7]), (25, [8])]) := by decide +kernel

/-- The way of these messages. -/
def exPath : Path := ⟨3, fun i => [22, 20, 24, 25].getD i 0, fun i => [2220, 2024, 2425].getD i i⟩

theorem ex_path_ok : exPath.Ok := by
  refine ⟨by decide, ?_, ?_, by decide⟩
  · intro i j hi hj
    have hi : i < 3 := hi
    have hj : j < 3 := hj
    rcases i with _ | _ | _ | i <;> rcases j with _ | _ | _ | j <;> first | omega | (intro h; exact absurd h (by decide))
  · intro i hi
    have hi : i < 3 := hi
    rcases i with _ | _ | _ | i <;> first | omega | decide

/-- The events of the example happen with the tables of the network. -/
theorem ex_acts (need : Bool) : ∀ e ∈ exEs need, exV.acts e := by
  intro e he
  simp only [exEs, List.mem_cons, List.not_mem_nil, or_false] at he
  rcases he with rfl | rfl | rfl | rfl | rfl | rfl | rfl | rfl | rfl | rfl | rfl | rfl | rfl | rfl | rfl | rfl | rfl | rfl | rfl <;>
    first | trivial | exact ⟨rfl, rfl, rfl⟩ | exact ⟨_, rfl, rfl⟩

/-- Whether the streams have come to rest. -/
def restB (s : S) : Bool :=
  s.queue.all fun x => decide ((s.lane x.1).r.closed = false ∧ (s.lane x.1).c.writing = false ∧ (s.lane x.1).taken = (s.lane x.1).c.wire.length ∧
    s.done x.1 = (s.lane x.1).got.length)

theorem restB_ok {s : S} (h : restB s = true) (c : Nat) : Rest s c := by
  rintro ⟨b, hb⟩
  exact of_decide_eq_true (List.all_eq_true.1 h _ hb)

/-- The theorem about trees applies to the example: 25 gets both messages, in order. -/
example : ∃ s, run exR (init 0 0 0) (exEs false) = some s ∧ gotBy 22 25 s = sentBy 22 25 s ∧ (sentBy 22 25 s).map Msg.content = [[7], [8]] := by
  obtain ⟨s, h1, -, h3⟩ := C91_tree_partial ex_ok ex_whole exV 16 (by
    intro x n h
    obtain ⟨m, hm, rfl⟩ := ex_node h
    show ((16 : Nat) : Int) ≤ m.ttl ∧ m.ttl < 2 ^ 64
    rcases Tree.ex_nodes hm with ⟨_, rfl⟩ | ⟨_, rfl⟩ | ⟨_, rfl⟩ | ⟨_, rfl⟩ | ⟨_, rfl⟩ <;> exact ⟨by decide, by decide⟩)
    exR ex_codec 0 0 0 (fun _ => Nat.zero_le _) (exEs false) (cans_calm (by decide +kernel)) (ex_acts false)
  have hc : ((run exR (init 0 0 0) (exEs false)).map fun s => (restB s, (sentBy 22 25 s).map Msg.content)) = some (true, [[7], [8]]) := by decide +kernel
  rw [h1] at hc
  simp only [Option.map_some, Option.some.injEq, Prod.mk.injEq] at hc
  exact ⟨s, h1, (h3 22 25 4 rfl rfl (by decide)
    (.inl ⟨16, .up (p := 20) rfl (.up rfl .self), .up (p := 24) rfl (.up rfl .self), by decide⟩) (by decide)).2 (restB_ok hc.1), hc.2⟩

/-- So do the ones about a way. -/
example : ∀ e ∈ exEs true, exPath.follows e := by
  have hr : ∀ y c, (y = 20 ∧ c = 2220) ∨ (y = 24 ∧ c = 2024) ∨ (y = 25 ∧ c = 2425) →
      exPath.follows (.handle c { n := exN y, bound := some (c / 100) }) := by
    intro y c h i hi hc
    have hi : i < 3 := hi
    rcases h with ⟨rfl, rfl⟩ | ⟨rfl, rfl⟩ | ⟨rfl, rfl⟩ <;> rcases i with _ | _ | _ | i <;>
      first
        | omega
        | exact absurd hc (by decide)
        | exact ⟨fun _ => ⟨rfl, rfl, by decide, by decide, ⟨_, _, rfl, rfl, by decide, by decide⟩, fun _ => Int.le_refl _⟩,
            fun h => absurd (show (_ : Nat) = 3 from h) (by decide)⟩
        | exact ⟨fun h => absurd (show (_ : Nat) < 3 from h) (by decide), fun _ => ⟨rfl, rfl, by decide⟩⟩
  have hs : ∀ c q b, exPath.follows (.send { n := exN 22 } 100 25 c q b) := by
    intro c q b _ _ e k h
    cases h
    rfl
  intro e he
  simp only [exEs, List.mem_cons, List.not_mem_nil, or_false] at he
  rcases he with rfl | rfl | rfl | rfl | rfl | rfl | rfl | rfl | rfl | rfl | rfl | rfl | rfl | rfl | rfl | rfl | rfl | rfl | rfl <;>
    first | trivial | exact hs _ _ _ | exact hr 20 2220 (by decide) | exact hr 24 2024 (by decide) | exact hr 25 2425 (by decide)

/-! ### Counterexamples -/

/-- The tables of node 20 when the stream to 24 answers `r`. -/
def exRefused (r : Int) : Node := { exN 20 with push := fun c _ => if c = 2024 then r else 0 }

/-- As `exEs`, but at node 20 the stream to 24 refuses the first message with `r`, `ev` being what the system does. -/
def exFirst (r : Int) (ev : Env) : List Ev :=
  [.send { n := exN 22 } 100 25 [7] 1 false, .send { n := exN 22 } 100 25 [8] 2 false, fin 22 20, fin 22 20, read 22 20 36,
    .handle 2220 { n := exRefused r, bound := some 22, evs := [ev] }, get 22 20]

/-- The write fails. -/
def exTwice : List Ev :=
  exFirst Err.WRITE_FAILED ⟨none, 0, false⟩ ++
    [fin 20 24, fin 20 24, read 20 24 38, get 20 24, get 20 24, fin 20 16, read 20 16 19, get 20 16, fin 24 25, fin 24 25, read 24 25 40, get 24 25,
      get 24 25, fin 16 24, read 16 24 20, get 16 24, fin 24 25, read 24 25 21, get 24 25]

/-- C91 (repetition) is false of the code when a write is refused: the message stays in the queue of that stream although the push is reported
to have failed, and the node passes it on over the node above as well.  The target gets twice what was sent once. -/
theorem C91_duplicate_false : Cans exR False (init 0 0 0) exTwice ∧
    seen exR exTwice = some ([(25, 22, [7]), (25, 22, [8]), (25, 22, [7])], [(25, [7]), (25, [8])]) :=
  ⟨cans_any (by decide +kernel), by decide +kernel⟩

/-- The queue is full. -/
def exFull : List Ev :=
  exFirst Err.BUFF_LIMIT ⟨some Err.BUFF_LIMIT, 0, true⟩ ++
    [fin 20 24, read 20 24 19, get 20 24, fin 20 16, read 20 16 19, get 20 16, fin 24 25, read 24 25 20, get 24 25, fin 16 24, read 16 24 20,
      get 16 24, fin 24 25, read 24 25 21, get 24 25]

/-- C91 (order) is false of the code when the queue of one stream is full for a while: that message goes over the node above, the next one does
not, and overtakes it. -/
theorem C91_overtake_false : Cans exR True (init 0 0 0) exFull ∧
    seen exR exFull = some ([(25, 22, [8]), (25, 22, [7])], [(25, [7]), (25, [8])]) :=
  ⟨cans_calm (by decide +kernel), by decide +kernel⟩

/-- `send_data` fails because the write is refused, a second call does not. -/
def exFailed : List Ev :=
  [.send { n := { exN 24 with push := fun _ _ => Err.WRITE_FAILED }, evs := [⟨none, 0, false⟩] } 100 25 [7] 1 false,
    .send { n := exN 24 } 100 25 [8] 2 false, fin 24 25, fin 24 25, read 24 25 36, get 24 25, get 24 25]

/-- C91 (refusal) is false of the code: a message that `send_data` reported as failed is delivered. -/
theorem C91_refused_false : Cans exR False (init 0 0 0) exFailed ∧
    seen exR exFailed = some ([(25, 24, [7]), (25, 24, [8])], [(25, [8])]) :=
  ⟨cans_any (by decide +kernel), by decide +kernel⟩

end Verif.Node.Relay
