import Verif.Node.RelayAnswers

/-!
C96, continued: in a network that is a tree, every message sent over streams is delivered or its failure is reported to the sender.
-/
namespace Verif.Node.Relay

open Verif.IoStream
open Verif.Subnet (Ep)
open Verif.Node.Tree (World Send Packet Far Whole Good dueD dueA)
open Verif.Node.Lanes (over over_append)

section
variable {w : World} {par : Nat → Option Nat} {dep : Nat → Nat} {top : Nat} {reg : Nat → List Ep}

/-! ### Specification -/

/-- Answers go over streams as well, and every connection is bound to the endpoint of the node on the other end. -/
structure Wires.Both (v : Wires w) : Prop where
  ctrl : ∀ x n u e c, w.node x = some n → remoteChannel n n.ctrlConn u = (Err.SUCCESS, some e, some c) → v.owner c = x ∧ v.reader c = e.id
  bound : ∀ y x, w.bound y x = some x
  late : ∀ x, w.late x = false

/-- A message built by `send_data`, as a call. -/
def callOf (m : Msg) : Send := ⟨m.from_, m.to, m.content, m.seq, m.needRsp⟩

/-- What is asked of a call of `send_data`: the target is not 0, the limit is the one of the node, and if the target exists it is not too far. -/
def Near (w : World) (par : Nat → Option Nat) (dep : Nat → Nat) (ttl : Nat) : Ev → Prop
  | .send h limit tid _ _ _ => tid ≠ 0 ∧ limit = w.limit h.n.id ∧ ((w.node tid).isSome → ∃ d, Far par dep h.n.id tid d ∧ d ≤ ttl)
  | _ => True

/-! ### Streams as messages under way -/

/-- A message in a stream, as a message under way. -/
def pk (cf : Conf) (v : Wires w) (x : Nat × List Byte) : Option Packet :=
  (cf.unpack x.2).map fun m => ⟨v.reader x.1, some (some (v.owner x.1)), m⟩

/-- The network as in C71, with the messages `U` in the streams. -/
def abs (cf : Conf) (v : Wires w) (s : S) (acc : List (Nat × Msg)) (U : List (Nat × List Byte)) : Tree.S where
  fly := U.filterMap (pk cf v)
  log := s.delivered.map (fun x => .delivered x.1 x.2) ++ acc.map (fun x => .answered x.1 x.2)
  sends := s.sends.map fun m => (callOf m, 0)

theorem abs_accepted (cf : Conf) (v : Wires w) (s : S) (acc : List (Nat × Msg)) (U : List (Nat × List Byte)) :
    (abs cf v s acc U).accepted = s.sends.map callOf := by
  have : ∀ l : List Msg, ((l.map fun m => (callOf m, (0 : Int))).filter fun d => decide (0 ≤ d.2)).map Prod.fst = l.map callOf := by
    intro l
    induction l with
    | nil => rfl
    | cons a l ih => simpa using ih
  exact this s.sends

/-- Only the order differs. -/
theorem inv_perm {ttl : Nat} {s s' : Tree.S} (i : Tree.Inv w par dep reg top ttl s) (hf : s'.fly.Perm s.fly) (hl : s'.log.Perm s.log)
    (ha : s'.accepted = s.accepted) (hk : ∀ r ∈ s'.sends, 0 ≤ r.2) : Tree.Inv w par dep reg top ttl s' := by
  refine ⟨fun p hp => ?_, ?_, ?_, fun r hr h0 => absurd (hk r hr) (by omega)⟩
  · rw [ha]; exact i.good p (hf.mem_iff.1 hp)
  · rw [ha]
    exact ((hl.filterMap _).append (hf.flatMap_right _)).trans i.del
  · rw [ha]
    obtain ⟨ex, lost, e1, e2, e3⟩ := i.ans
    exact ⟨ex, lost, (((hl.filterMap _).append (hf.flatMap_right _)).append_right _).trans e1, e2, e3⟩

/-! ### Handlers -/

/-- The connection was found for some target. -/
def Found (n : Node) : Eff → Prop
  | .sent e c _ => ∃ u, remoteChannel n n.dataConn u = (Err.SUCCESS, some e, some c) ∨ remoteChannel n n.ctrlConn u = (Err.SUCCESS, some e, some c)
  | .toSelf m => m.rsp = true
  | _ => True

theorem found_rsp (n : Node) (m : Msg) (code : Int) : ∀ x ∈ (sendTransferRsp n m code).1, Found n x := by
  unfold sendTransferRsp
  rcases sendMsg_cases n n.ctrlConn m.from_ (transferRspMsg n m code) with ⟨r, h, _⟩ | ⟨_, h⟩ | ⟨e, c, _, hr, _, h⟩
  · rw [h]; simp
  · rw [h]; intro x hx; rw [List.mem_singleton.1 hx]; rfl
  · rw [h]
    intro x hx
    dsimp only at hx
    split at hx
    · rw [List.mem_singleton.1 hx]; trivial
    · rw [List.mem_singleton.1 hx]; exact ⟨_, Or.inr hr⟩

theorem found_data (n : Node) (m : Msg) (f t : Nat) : ∀ x ∈ (forwardData n m f t).1, Found n x := by
  rcases forwardData_cases n m f t with ⟨r, e, h, _⟩ | ⟨e, c, _, _, hr, _, _, h⟩
  · rw [h]; simp
  · rw [h]
    intro x hx
    dsimp only at hx
    split at hx
    · rw [List.mem_singleton.1 hx]; trivial
    · rw [List.mem_singleton.1 hx]; exact ⟨_, Or.inl hr⟩

theorem found_req (n : Node) (m : Msg) : ∀ x ∈ (forwardReq n m).1, Found n x := by
  unfold forwardReq
  dsimp only
  have h1 := found_data n { m with router := m.router ++ [n.id] } m.src m.to
  generalize forwardData n { m with router := m.router ++ [n.id] } m.src m.to = r at h1
  obtain ⟨es, res, toEp, m2⟩ := r
  dsimp only at h1 ⊢
  split
  · split
    · split
      · intro x hx
        rcases List.mem_append.1 hx with h | h
        · exact h1 x h
        · rw [List.mem_singleton.1 h]; trivial
      · exact h1
    · exact h1
  · have h2 : ∀ x ∈ (if res < 0 ∧ n.isParent m2.src = false ∧ n.isChild m2.to = false then
          match n.parent with
          | some p =>
            if notParent n toEp then
              match forwardData n m2 m.src p.id with
              | (es', res', _, m3) => (es ++ es', res', m3)
            else (es, res, m2)
          | none => (es, res, m2)
        else (es, res, m2) : List Eff × Int × Msg).1, Found n x := by
      split
      · split
        · rename_i p _
          split
          · have h3 := found_data n m2 m.src p.id
            generalize forwardData n m2 m.src p.id = r' at h3
            obtain ⟨es', res', e', m3⟩ := r'
            intro x hx
            rcases List.mem_append.1 hx with h | h
            · exact h1 x h
            · exact h3 x h
          · exact h1
        · exact h1
      · exact h1
    generalize (if res < 0 ∧ n.isParent m2.src = false ∧ n.isChild m2.to = false then
          match n.parent with
          | some p =>
            if notParent n toEp then
              match forwardData n m2 m.src p.id with
              | (es', res', _, m3) => (es ++ es', res', m3)
            else (es, res, m2)
          | none => (es, res, m2)
        else (es, res, m2) : List Eff × Int × Msg) = r2 at h2
    split
    · intro x hx
      rcases List.mem_append.1 hx with h | h
      · exact h2 x h
      · exact found_rsp n _ _ x h
    · exact h2

theorem found_handle (n : Node) (cn : Option Bool) (m : Msg) : ∀ x ∈ (Node.handle n cn m).1, Found n x := by
  unfold Node.handle
  split
  · unfold transferRsp
    split
    · simp
    · split
      · simp
      · split
        · intro x hx; rw [List.mem_singleton.1 hx]; trivial
        · exact found_data n m m.src m.to
  · unfold transferReq
    split
    · exact found_rsp n m _
    · split
      · simp
      · split
        · simp
        · split
          · split
            · intro x hx
              rcases List.mem_cons.1 hx with h | h
              · rw [h]; trivial
              · exact found_rsp n m _ x h
            · intro x hx; rw [List.mem_singleton.1 hx]; trivial
          · split
            · exact found_rsp n m _
            · exact found_req n m

/-- What goes into the streams is what is put on its way. -/
theorem packets_pushes {cf : Conf} (hcod : cf.Codec) (v : Wires w) (hv : v.Both) {x : Nat} {n : Node} (hn : w.node x = some n) (es : List Eff)
    (hf : ∀ y ∈ es, Found n y) (hs : ∀ m, .toSelf m ∉ es) : es.filterMap (Tree.packets w x) = (pushes cf es).filterMap (pk cf v) := by
  induction es with
  | nil => rfl
  | cons e es ih =>
    have ih := ih (fun y hy => hf y (List.mem_cons_of_mem _ hy)) (fun m hm => hs m (List.mem_cons_of_mem _ hm))
    have h1 := hf e List.mem_cons_self
    cases e with
    | sent e c m =>
      have hw : v.owner c = x ∧ v.reader c = e.id := by
        obtain ⟨u, h | h⟩ := h1
        · exact v.wire x n u e c hn h
        · exact hv.ctrl x n u e c hn h
      have hp : pk cf v (c, cf.pack m) = some ⟨e.id, some (some x), m⟩ := by simp [pk, hcod.back, hw.1, hw.2]
      simp only [pushes, List.filterMap_cons, Tree.packets, hv.bound, hp] at ih ⊢
      rw [ih]
    | toSelf m => exact absurd List.mem_cons_self (hs m)
    | refused e c m =>
      simp only [pushes, List.filterMap_cons, Tree.packets, hv.late] at ih ⊢
      exact ih
    | deliver m => exact ih
    | response m => exact ih
    | sync a b => exact ih

theorem seen_perm (x : Nat) (es : List Eff) : (es.filterMap (Tree.seen x)).Perm
    ((shown es).map (fun m => .delivered x m) ++ (told es).map (fun m => .answered x m)) := by
  induction es with
  | nil => exact List.Perm.refl _
  | cons e es ih =>
    cases e with
    | deliver m =>
      simp only [shown, told, List.filterMap_cons, Tree.seen, List.map_cons, List.cons_append] at ih ⊢
      exact ih.cons _
    | response m =>
      simp only [shown, told, List.filterMap_cons, Tree.seen, List.map_cons] at ih ⊢
      exact (ih.cons _).trans (List.perm_middle.symm)
    | _ => exact ih

/-! ### The invariant -/

/-- The messages that were not handled yet, with those that were, are those queued; and the network is as C71 says. -/
def Rep (w : World) (par : Nat → Option Nat) (dep : Nat → Nat) (top : Nat) (reg : Nat → List Ep) (ttl : Nat) (cf : Conf) (v : Wires w) (s : S)
    (acc : List (Nat × Msg)) : Prop :=
  ∃ U, (s.handled ++ U).Perm s.queue ∧ Tree.Inv w par dep reg top ttl (abs cf v s acc U)

theorem abs_nonneg (cf : Conf) (v : Wires w) (s : S) (acc : List (Nat × Msg)) (U : List (Nat × List Byte)) :
    ∀ r ∈ (abs cf v s acc U).sends, 0 ≤ r.2 := by
  intro r hr
  obtain ⟨m, _, rfl⟩ := List.mem_map.1 hr
  exact Int.le_refl _

/-- A call of `send_data`: nothing is accepted, or the message is, and then the tables of the network say the same. -/
theorem send_same (n : Node) (f : Nat → Msg → Int) (limit t : Nat) (content : List Nat) (seq : Nat) (nr : Bool) :
    (accepted (sendData { n with push := f } limit t content seq nr).1 = [] ∧ ∀ cf, pushes cf (sendData { n with push := f } limit t content seq nr).1 = []) ∨
    ∃ e c, (sendData { n with push := f } limit t content seq nr).1 = [.sent e c (dataMsg n t content seq nr)] ∧
      remoteChannel n n.dataConn t = (Err.SUCCESS, some e, some c) ∧
      sendData n limit t content seq nr = (if n.push c (dataMsg n t content seq nr) < 0 then [.refused e c (dataMsg n t content seq nr)]
        else [.sent e c (dataMsg n t content seq nr)], n.push c (dataMsg n t content seq nr)) := by
  have hm : dataMsg { n with push := f } t content seq nr = dataMsg n t content seq nr := rfl
  unfold sendData
  rw [hm]
  dsimp only
  by_cases hcr : n.created = true
  · rw [if_pos hcr]; exact Or.inl ⟨rfl, fun _ => rfl⟩
  · rw [if_neg hcr]
    by_cases hl : content.length > limit
    · rw [if_pos hl]; exact Or.inl ⟨rfl, fun _ => rfl⟩
    · rw [if_neg hl, if_neg hcr, if_neg hl]
      generalize dataMsg n t content seq nr = m
      rcases sendMsg_cases { n with push := f } n.dataConn t m with ⟨r, h, _⟩ | ⟨_, h⟩ | ⟨e, c, ht, hr, hc, h⟩
      · rw [h]; exact Or.inl ⟨rfl, fun _ => rfl⟩
      · rw [h]; exact Or.inl ⟨rfl, fun _ => rfl⟩
      · rw [h]
        dsimp only
        rw [remoteChannel_push] at hr
        by_cases hp : f c m < 0
        · rw [if_pos hp]; exact Or.inl ⟨rfl, fun _ => rfl⟩
        · rw [if_neg hp]
          refine Or.inr ⟨e, c, rfl, hr, ?_⟩
          rcases sendMsg_cases n n.dataConn t m with ⟨r, h', h0⟩ | ⟨ht', _⟩ | ⟨e', c', _, hr', _, h'⟩
          · exfalso
            unfold sendMsg at h'
            rw [if_neg hcr, if_neg ht, hr] at h'
            dsimp only at h'
            rw [if_neg (by decide)] at h'
            split at h' <;> cases h'
          · exact absurd ht' ht
          · rw [hr] at hr'
            simp only [Prod.mk.injEq, Option.some.injEq, true_and] at hr'
            obtain ⟨rfl, rfl⟩ := hr'
            exact h'

theorem rep_step (h : Tree.Ok w par dep top reg) (v : Wires w) (hb : v.Both) {ttl : Nat}
    (hT : ∀ x n, w.node x = some n → (ttl : Int) ≤ n.ttl ∧ n.ttl < 2 ^ 64) {cf : Conf} (hcod : cf.Codec) {hf bf ag : Nat} (s s' : S) (e : Ev)
    (acc : List (Nat × Msg)) (hbase : Base cf hf bf ag True s) (hp : Rep w par dep top reg ttl cf v s acc)
    (hq : v.acts e ∧ e.plain cf ∧ Near w par dep ttl e) (hsh : Shape cf True s s' e) :
    Rep w par dep top reg ttl cf v s' (acc ++ answersAt cf s e) := by
  obtain ⟨U, hU, hi⟩ := hp
  obtain ⟨hact, hpl, hne⟩ := hq
  cases e with
  | send hh limit tid content seq nr =>
    obtain ⟨a1, a2, a3, a4, a5, a6⟩ := hsh
    obtain ⟨n, hn, he⟩ := hact
    obtain ⟨ht, hlim, hfar⟩ := hne
    have hsd := (sendData_spec hh.n limit tid content seq nr).1
    simp only [answersAt, List.append_nil]
    have a6 := a6 trivial
    rw [hsd, List.map_nil, List.append_nil] at a4
    have n1 := (h.node _ n hn).1
    generalize hh.n.push = f at he
    rw [he] at a3 a6
    rcases send_same n f limit tid content seq nr with ⟨g1, g2⟩ | ⟨e, c, g1, g2, g3⟩
    · rw [g1, List.append_nil] at a3
      rw [g2, List.append_nil] at a6
      refine ⟨U, by rw [a1, a6]; exact hU, ?_⟩
      have : abs cf v s' acc U = abs cf v s acc U := by simp only [abs, a3, a4]
      rw [this]; exact hi
    · rw [g1] at a3 a6
      refine ⟨U ++ [(c, cf.pack (dataMsg n tid content seq nr))], ?_, ?_⟩
      · rw [a1, a6, ← List.append_assoc]
        exact hU.append_right _
      · have hx := h.inv_send hi ⟨hh.n.id, tid, content, seq, nr⟩ ht hfar
        have hw := v.wire _ _ _ _ _ hn g2
        have hp0 : 0 ≤ n.push c (dataMsg n tid content seq nr) := by
          rcases h.send (d := ⟨hh.n.id, tid, content, seq, nr⟩) hn ht hfar limit with ⟨code, c1, c2, _⟩ | ⟨_, code, _, c1, c2, _⟩
          · rw [g3] at c2
            have := congrArg Prod.fst c2
            dsimp only at this
            split at this <;> cases this
          · rw [g3] at c2
            have := congrArg Prod.snd c2
            dsimp only at this
            omega
        have hst : Tree.step w (abs cf v s acc U) (.send ⟨hh.n.id, tid, content, seq, nr⟩) =
            { fly := (abs cf v s acc U).fly ++ [⟨e.id, some (w.bound e.id hh.n.id), dataMsg n tid content seq nr⟩]
              log := (abs cf v s acc U).log
              sends := (abs cf v s acc U).sends ++ [(⟨hh.n.id, tid, content, seq, nr⟩, n.push c (dataMsg n tid content seq nr))] } := by
          simp only [Tree.step, hn, ← hlim, g3, if_neg (Int.not_lt.2 hp0), Tree.S.apply, List.filterMap_cons, List.filterMap_nil, Tree.packets, Tree.seen,
            List.append_nil]
        rw [hst] at hx
        refine inv_perm hx ?_ ?_ ?_ (abs_nonneg _ _ _ _ _)
        · have : pk cf v (c, cf.pack (dataMsg n tid content seq nr)) = some ⟨e.id, some (some hh.n.id), dataMsg n tid content seq nr⟩ := by
            simp [pk, hcod.back, hw.1, hw.2]
          simp only [abs, List.filterMap_append, List.filterMap_cons, this, List.filterMap_nil, hb.bound]
          exact List.Perm.refl _
        · simp only [abs, a4]
          exact List.Perm.refl _
        · rw [abs_accepted, a3]
          have := abs_accepted cf v s acc U
          simp only [Tree.S.accepted] at this ⊢
          rw [List.map_append, List.filter_append, List.map_append, this, List.filter_cons_of_pos (by simpa using hp0)]
          simp [accepted, callOf, dataMsg, n1]
  | other c b ev =>
    obtain ⟨a1, a2, a3, a4, a5⟩ := hsh
    have hu : cf.unpack b = none := hpl
    simp only [answersAt, List.append_nil]
    rcases a5 with a5 | a5
    · refine ⟨U, by rw [a1, a5]; exact hU, ?_⟩
      have : abs cf v s' acc U = abs cf v s acc U := by simp only [abs, a3, a4]
      rw [this]; exact hi
    · refine ⟨U ++ [(c, b)], ?_, ?_⟩
      · rw [a1, a5, ← List.append_assoc]; exact hU.append_right _
      · have : abs cf v s' acc (U ++ [(c, b)]) = abs cf v s acc U := by
          simp only [abs, a3, a4, List.filterMap_append, List.filterMap_cons, pk, hu, Option.map_none, List.filterMap_nil, List.append_nil]
        rw [this]; exact hi
  | lane l e =>
    obtain ⟨a1, a2, a3, a4, a5⟩ := hsh
    simp only [answersAt, List.append_nil]
    refine ⟨U, by rw [a1, a5]; exact hU, ?_⟩
    have : abs cf v s' acc U = abs cf v s acc U := by simp only [abs, a3, a4]
    rw [this]; exact hi
  | handle l hh =>
    obtain ⟨p1, p2, p3⟩ := hact
    rcases hsh with ⟨hn, rfl⟩ | ⟨b, hb', -, a1, a2, a3, hrest⟩
    · simp only [answersAt, hn, List.append_nil]
      exact ⟨U, hU, hi⟩
    · have hmem : (l, b) ∈ U := by
        have hc := handled_count (take_base hbase l b hb') (fun x => decide (x = (l, b)))
        have hc2 := hU.countP_eq (fun x => decide (x = (l, b)))
        rw [List.countP_append] at hc2
        have hc3 : (s.take l b).handled.countP (fun x => decide (x = (l, b))) = s.handled.countP (fun x => decide (x = (l, b))) + 1 := by
          show (s.handled ++ [(l, b)]).countP _ = _
          rw [List.countP_append]; simp
        have hc4 : (s.take l b).queue = s.queue := rfl
        rw [hc3, hc4] at hc
        have hpos : 0 < U.countP (fun x => decide (x = (l, b))) := by omega
        obtain ⟨y, hy, hy'⟩ := List.countP_pos_iff.1 hpos
        rw [of_decide_eq_true hy'] at hy
        exact hy
      have hper := List.perm_cons_erase hmem
      have hU' : (s.handled ++ [(l, b)] ++ U.erase (l, b)).Perm s.queue := by
        rw [List.append_assoc]
        exact (hper.symm.append_left _).trans hU
      rcases hrest with ⟨hu, a4, a5⟩ | ⟨m, hu, a4, a5, a6⟩
      · have : answersAt cf s (.handle l hh) = [] := by simp only [answersAt, hb', hu]
        rw [this, List.append_nil]
        refine ⟨U.erase (l, b), by rw [a1, a5]; exact hU', ?_⟩
        refine inv_perm hi ?_ ?_ ?_ (abs_nonneg _ _ _ _ _)
        · have k := hper.filterMap (pk cf v)
          have hk : pk cf v (l, b) = none := by simp [pk, hu]
          rw [List.filterMap_cons_none hk] at k
          exact k.symm
        · simp only [abs, a4]; exact List.Perm.refl _
        · rw [abs_accepted, abs_accepted, a3]
      · have hans : answersAt cf s (.handle l hh) = (told (hh.effects m)).map fun m => (hh.n.id, m) := by simp only [answersAt, hb', hu]
        rw [hans]
        have a6 := a6 trivial
        have hk : pk cf v (l, b) = some ⟨v.reader l, some (some (v.owner l)), m⟩ := by simp [pk, hu]
        have hfly := hper.filterMap (pk cf v)
        rw [List.filterMap_cons_some hk] at hfly
        have hin : (⟨v.reader l, some (some (v.owner l)), m⟩ : Packet) ∈ (abs cf v s acc U).fly := hfly.mem_iff.2 List.mem_cons_self
        obtain ⟨j, hj, hjv⟩ := List.getElem_of_mem hin
        have hj' : (abs cf v s acc U).fly[j]? = some ⟨v.reader l, some (some (v.owner l)), m⟩ := by rw [List.getElem?_eq_getElem hj, hjv]
        have hx := (h.inv_handle (by simpa [W64] using hT) hi j).1
        have hrec : Tree.receive w ⟨v.reader l, some (some (v.owner l)), m⟩ = hh.effects m := by
          simp only [Tree.receive, p1, H.effects, p2, p3]
        have hst : Tree.step w (abs cf v s acc U) (.handle j) =
            Tree.S.apply w { abs cf v s acc U with fly := (abs cf v s acc U).fly.eraseIdx j } (v.reader l) (hh.effects m) := by
          simp only [Tree.step, hj', hrec]
        rw [hst] at hx
        have hid : hh.n.id = v.reader l := (h.node _ _ p1).1
        have hfound : ∀ y ∈ hh.effects m, Found hh.n y := found_handle hh.n _ _
        have hself : ∀ k, .toSelf k ∉ hh.effects m := by
          intro k hk'
          have hr : k.rsp = true := hfound _ hk'
          have hg := hx.good ⟨v.reader l, none, k⟩ (List.mem_append_right _ (List.mem_filterMap.2 ⟨_, hk', rfl⟩))
          rcases hg.conn with ⟨_, g, _⟩ | ⟨_, g, _⟩
          · rw [hr] at g; cases g
          · cases g
        refine ⟨U.erase (l, b) ++ pushes cf (hh.effects m), ?_, inv_perm hx ?_ ?_ ?_ (abs_nonneg _ _ _ _ _)⟩
        · rw [a1, a6, ← List.append_assoc]
          exact hU'.append_right _
        · show ((U.erase (l, b) ++ pushes cf (hh.effects m)).filterMap (pk cf v)).Perm
            ((abs cf v s acc U).fly.eraseIdx j ++ (hh.effects m).filterMap (Tree.packets w (v.reader l)))
          rw [List.filterMap_append, packets_pushes hcod v hb p1 _ hfound hself]
          refine List.Perm.append_right _ ?_
          have k1 := Tree.erase_perm hj
          rw [hjv] at k1
          exact ((k1.trans hfly).cons_inv).symm
        · show (s'.delivered.map (fun x => Tree.Ev.delivered x.1 x.2) ++ (acc ++ (told (hh.effects m)).map fun m => (hh.n.id, m)).map fun x => Tree.Ev.answered x.1 x.2).Perm
            ((s.delivered.map (fun x => Tree.Ev.delivered x.1 x.2) ++ acc.map fun x => Tree.Ev.answered x.1 x.2) ++
              (hh.effects m).filterMap (Tree.seen (v.reader l)))
          have k := seen_perm (v.reader l) (hh.effects m)
          rw [a4, hid]
          rw [List.perm_iff_count] at k ⊢
          intro a
          have k := k a
          simp only [List.map_append, List.map_map, List.count_append, Function.comp_def] at k ⊢
          omega
        · have e1 := abs_accepted cf v s acc U
          rw [abs_accepted, a3, ← e1]
          rfl

/-- At rest nothing is left. -/
theorem rest_nil {cf : Conf} {hf bf ag : Nat} {s : S} (b : Base cf hf bf ag True s) (hr : ∀ c, Rest s c) {U : List (Nat × List Byte)}
    (hU : (s.handled ++ U).Perm s.queue) : U = [] := by
  cases U with
  | nil => rfl
  | cons x U =>
    exfalso
    obtain ⟨l, y⟩ := x
    have h1 := hU.count_eq (l, y)
    rw [List.count_append, Lanes.count_over, Lanes.count_over, Lanes.count_over, rest_full b (hr l)] at h1
    have : y ∈ over l ((l, y) :: U) := mem_over.2 List.mem_cons_self
    have := List.count_pos_iff.2 this
    omega

/-- C96 (trees): in a network of nodes that form trees, over streams, whatever is sent and in whatever order things happen: the deliveries
are those that the accepted calls of `send_data` ask for, and nothing else, without those still under way, of which there are none when the
streams have come to rest.  The answers shown are: for a message to a node that does not exist one report of failure at the sender; for others
no such report, and an answer if one was asked for; then there may be more than one.  None is lost if no connection is. -/
theorem C96_tree_partial (h : Tree.Ok w par dep top reg) (v : Wires w) (hb : v.Both) (ttl : Nat)
    (hT : ∀ x n, w.node x = some n → (ttl : Int) ≤ n.ttl ∧ n.ttl < 2 ^ 64) (cf : Conf) (hcod : cf.Codec) (hf bf ag : Nat)
    (hag : ∀ i, ag ≤ (cf.stream i).recv.maxAgain) (es : List Ev) (hc : Cans cf True (init hf bf ag) es) (hv : ∀ e ∈ es, v.acts e)
    (hpl : ∀ e ∈ es, e.plain cf) (hnear : ∀ e ∈ es, Near w par dep ttl e) :
    ∃ s, run cf (init hf bf ag) es = some s ∧
      (∃ rest, (s.delivered.map (fun x => (x.1, x.2.from_, x.2.seq, x.2.content)) ++ rest).Perm ((s.sends.map callOf).flatMap (Send.expected w)) ∧
        ((∀ c, Rest s c) → rest = [])) ∧
      ∃ rest lost ex, ((answered cf (init hf bf ag) es).map (fun x => (x.1, x.2.from_, x.2.seq, decide (0 ≤ x.2.ret))) ++ rest ++ lost).Perm
          ((s.sends.map callOf).flatMap (Send.reply w) ++ ex) ∧
        ((∀ c, Rest s c) → rest = []) ∧ (Whole w reg → lost = []) ∧
        ∀ a ∈ ex, ∃ m ∈ s.sends, m.needRsp = true ∧ a = (m.from_, m.to, m.seq, true) := by
  obtain ⟨s, h1, h2, U, h3, h4⟩ := run_answers hcod (q := True) (Rep w par dep top reg ttl cf v)
    (fun e => v.acts e ∧ e.plain cf ∧ Near w par dep ttl e)
    (fun s s' e acc b p pl _ _ sh => rep_step h v hb hT hcod s s' e acc b p pl sh)
    es (init hf bf ag) [] (init_base cf True hf bf ag hag) ⟨[], List.Perm.refl _, Tree.Ok.init w par dep reg top ttl⟩
    (fun e he => ⟨hv e he, hpl e he, hnear e he⟩) hc
  rw [List.nil_append] at h4
  have hd := h4.del
  obtain ⟨ex, lost, k1, k2, k3⟩ := h4.ans
  rw [abs_accepted] at hd k1 k3
  have l1 : ∀ (a b : List (Nat × Msg)), (a.map (fun x => Tree.Ev.delivered x.1 x.2) ++ b.map fun x => Tree.Ev.answered x.1 x.2).filterMap Tree.Ev.got =
      a.map fun x => (x.1, x.2.from_, x.2.seq, x.2.content) := by
    intro a b
    rw [List.filterMap_append, List.filterMap_map, List.filterMap_map]
    simp [Function.comp_def, Tree.Ev.got]
  have l2 : ∀ (a b : List (Nat × Msg)), (a.map (fun x => Tree.Ev.delivered x.1 x.2) ++ b.map fun x => Tree.Ev.answered x.1 x.2).filterMap Tree.Ev.ans =
      b.map fun x => (x.1, x.2.from_, x.2.seq, decide (0 ≤ x.2.ret)) := by
    intro a b
    rw [List.filterMap_append, List.filterMap_map, List.filterMap_map]
    simp [Function.comp_def, Tree.Ev.ans]
  have e1 := l1 s.delivered (answered cf (init hf bf ag) es)
  have e2 := l2 s.delivered (answered cf (init hf bf ag) es)
  rw [show (abs cf v s (answered cf (init hf bf ag) es) U).log.filterMap Tree.Ev.got = _ from e1] at hd
  rw [show (abs cf v s (answered cf (init hf bf ag) es) U).log.filterMap Tree.Ev.ans = _ from e2] at k1
  refine ⟨s, h1, ⟨_, hd, fun hr => ?_⟩, _, lost, ex, k1, fun hr => ?_, k2, fun a ha => ?_⟩
  · rw [rest_nil h2 hr h3]; rfl
  · rw [rest_nil h2 hr h3]; rfl
  · obtain ⟨d, d1, d2, d3⟩ := k3 a ha
    obtain ⟨m, m1, rfl⟩ := List.mem_map.1 d1
    exact ⟨m, m1, d2, d3⟩

/-- C96 (reports): in such a network, if no connection is lost, when the streams have come to rest the failures that were reported are exactly
the messages to nodes that do not exist, each once and to the node that sent it; and exactly the others are delivered, once, at their targets. -/
theorem C96_report_partial (h : Tree.Ok w par dep top reg) (hwh : Whole w reg) (v : Wires w) (hb : v.Both) (ttl : Nat)
    (hT : ∀ x n, w.node x = some n → (ttl : Int) ≤ n.ttl ∧ n.ttl < 2 ^ 64) (cf : Conf) (hcod : cf.Codec) (hf bf ag : Nat)
    (hag : ∀ i, ag ≤ (cf.stream i).recv.maxAgain) (es : List Ev) (hc : Cans cf True (init hf bf ag) es) (hv : ∀ e ∈ es, v.acts e)
    (hpl : ∀ e ∈ es, e.plain cf) (hnear : ∀ e ∈ es, Near w par dep ttl e) :
    ∃ s, run cf (init hf bf ag) es = some s ∧ ((∀ c, Rest s c) →
      (s.delivered.map fun x => (x.1, x.2.from_, x.2.seq, x.2.content)).Perm
        ((s.sends.filter fun m => (w.node m.to).isSome).map fun m => (m.to, m.from_, m.seq, m.content)) ∧
      (((answered cf (init hf bf ag) es).filter fun x => decide (x.2.ret < 0)).map fun x => (x.1, x.2.from_, x.2.seq)).Perm
        ((s.sends.filter fun m => !(w.node m.to).isSome).map fun m => (m.from_, m.to, m.seq))) := by
  obtain ⟨s, h1, ⟨r1, h2, h3⟩, r2, lost, ex, h4, h5, h6, h7⟩ := C96_tree_partial h v hb ttl hT cf hcod hf bf ag hag es hc hv hpl hnear
  refine ⟨s, h1, fun hr => ?_⟩
  rw [h3 hr, List.append_nil] at h2
  rw [h5 hr, h6 hwh, List.append_nil, List.append_nil] at h4
  constructor
  · refine h2.trans (List.Perm.of_eq ?_)
    generalize s.sends = l
    induction l with
    | nil => rfl
    | cons m l ih =>
      rw [List.map_cons, List.flatMap_cons, ih, List.filter_cons]
      by_cases hm : (w.node m.to).isSome
      · simp [Send.expected, callOf, hm]
      · simp [Send.expected, callOf, hm]
  · let g : Nat × Nat × Nat × Bool → Option (Nat × Nat × Nat) := fun x => if x.2.2.2 then none else some (x.1, x.2.1, x.2.2.1)
    have h8 := h4.filterMap g
    have e1 : ex.filterMap g = [] := by
      rw [List.filterMap_eq_nil_iff]
      intro a ha
      obtain ⟨m, -, -, rfl⟩ := h7 a ha
      rfl
    rw [List.filterMap_append, e1, List.append_nil] at h8
    have e2 : ∀ l : List (Nat × Msg), (l.map fun x => (x.1, x.2.from_, x.2.seq, decide (0 ≤ x.2.ret))).filterMap g =
        (l.filter fun x => decide (x.2.ret < 0)).map fun x => (x.1, x.2.from_, x.2.seq) := by
      intro l
      induction l with
      | nil => rfl
      | cons x l ih =>
        rw [List.map_cons, List.filterMap_cons, ih, List.filter_cons]
        by_cases hx : x.2.ret < 0
        · simp [g, hx, show ¬ 0 ≤ x.2.ret by omega]
        · simp [g, hx, show 0 ≤ x.2.ret by omega]
    have e3 : ∀ l : List Msg, ((l.map callOf).flatMap (Send.reply w)).filterMap g =
        (l.filter fun m => !(w.node m.to).isSome).map fun m => (m.from_, m.to, m.seq) := by
      intro l
      induction l with
      | nil => rfl
      | cons m l ih =>
        rw [List.map_cons, List.flatMap_cons, List.filterMap_append, ih, List.filter_cons]
        by_cases hm : (w.node m.to).isSome
        · by_cases hn : m.needRsp
          · simp [Send.reply, callOf, hm, hn, g]
          · simp [Send.reply, callOf, hm, hn]
        · simp [Send.reply, callOf, hm, g]
    rw [e2, e3] at h8
    exact h8

end

/-! ### Examples -/

theorem ex_both : exV.Both := by
  refine ⟨fun x m u e c h hr => ?_, fun _ _ => rfl, fun _ => rfl⟩
  obtain ⟨n, hn, rfl⟩ := ex_node h
  obtain ⟨h1, h2⟩ := found_known hr
  obtain ⟨h3, h4, h5⟩ := ex_known hn (h1.imp id .inr)
  simp only [h3] at h2
  rw [if_neg (by omega)] at h2
  cases h2
  show (100 * x + e.id) / 100 = x ∧ (100 * x + e.id) % 100 = e.id
  omega

theorem ex_ttl : ∀ x n, exW.node x = some n → ((16 : Nat) : Int) ≤ n.ttl ∧ n.ttl < 2 ^ 64 := by
  intro x n h
  obtain ⟨m, hm, rfl⟩ := ex_node h
  show ((16 : Nat) : Int) ≤ m.ttl ∧ m.ttl < 2 ^ 64
  rcases Tree.ex_nodes hm with ⟨_, rfl⟩ | ⟨_, rfl⟩ | ⟨_, rfl⟩ | ⟨_, rfl⟩ | ⟨_, rfl⟩ <;> exact ⟨by decide, by decide⟩

/-- A message to a node that does not exist, and two to one that does. -/
def exAll : List Ev := exBack ++ exEs false

theorem ex_all_acts : ∀ e ∈ exAll, exV.acts e := by
  intro e he
  rcases List.mem_append.1 he with he | he
  · simp only [exBack, List.mem_cons, List.not_mem_nil, or_false] at he
    rcases he with rfl | rfl | rfl | rfl | rfl | rfl | rfl | rfl | rfl | rfl | rfl | rfl | rfl <;>
      first | trivial | exact ⟨rfl, rfl, rfl⟩ | exact ⟨_, rfl, rfl⟩
  · exact ex_acts false e he

theorem ex_all_near : ∀ e ∈ exAll, Near exW Tree.exPar Tree.exDep 16 e := by
  have h25 : ∃ d, Far Tree.exPar Tree.exDep 22 25 d ∧ d ≤ 16 :=
    ⟨4, .inl ⟨16, .up (p := 20) rfl (.up rfl .self), .up (p := 24) rfl (.up rfl .self), by decide⟩, by decide⟩
  intro e he
  rcases List.mem_append.1 he with he | he
  · simp only [exBack, List.mem_cons, List.not_mem_nil, or_false] at he
    rcases he with rfl | rfl | rfl | rfl | rfl | rfl | rfl | rfl | rfl | rfl | rfl | rfl | rfl <;>
      first | trivial | exact ⟨by decide, rfl, fun h => by cases h⟩
  · simp only [exEs, List.mem_cons, List.not_mem_nil, or_false] at he
    rcases he with rfl | rfl | rfl | rfl | rfl | rfl | rfl | rfl | rfl | rfl | rfl | rfl | rfl | rfl | rfl | rfl | rfl | rfl | rfl <;>
      first | trivial | exact ⟨by decide, rfl, fun _ => h25⟩

/-- The theorem applies: one report, two deliveries. -/
example : ∃ s, run exR (init 0 0 0) exAll = some s ∧
    (s.delivered.map fun x => (x.1, x.2.from_, x.2.seq, x.2.content)).Perm [(25, 22, 1, [7]), (25, 22, 2, [8])] ∧
    (((answered exR (init 0 0 0) exAll).filter fun x => decide (x.2.ret < 0)).map fun x => (x.1, x.2.from_, x.2.seq)).Perm [(22, 26, 1)] := by
  obtain ⟨s, h1, h2⟩ := C96_report_partial ex_ok ex_whole exV ex_both 16 ex_ttl exR ex_codec 0 0 0 (fun _ => Nat.zero_le _) exAll
    (cans_calm (by decide +kernel)) ex_all_acts (plainB_ok (by decide +kernel)) ex_all_near
  have hc : ((run exR (init 0 0 0) exAll).map restB) = some true ∧ ((run exR (init 0 0 0) exAll).map fun s => s.sends.map fun m =>
      (m.to, m.from_, m.seq, m.content)) = some [(26, 22, 1, [7]), (25, 22, 1, [7]), (25, 22, 2, [8])] :=
    ⟨by decide +kernel, by decide +kernel⟩
  rw [h1] at hc
  simp only [Option.map_some, Option.some.injEq] at hc
  obtain ⟨k1, k2⟩ := h2 (restB_ok hc.1)
  have e1 : ∀ l : List Msg, ((l.filter fun m => (exW.node m.to).isSome).map fun m => (m.to, m.from_, m.seq, m.content)) =
      (l.map fun m => (m.to, m.from_, m.seq, m.content)).filter fun x => (exW.node x.1).isSome := by
    intro l; rw [List.filter_map]; rfl
  have e2 : ∀ l : List Msg, ((l.filter fun m => !(exW.node m.to).isSome).map fun m => (m.from_, m.to, m.seq)) =
      ((l.map fun m => (m.to, m.from_, m.seq, m.content)).filter fun x => !(exW.node x.1).isSome).map fun x => (x.2.1, x.1, x.2.2.1) := by
    intro l; rw [List.filter_map, List.map_map]; rfl
  rw [e1, hc.2] at k1
  rw [e2, hc.2] at k2
  exact ⟨s, h1, k1, k2⟩

end Verif.Node.Relay
