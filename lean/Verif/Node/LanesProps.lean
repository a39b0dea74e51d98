import Verif.Node.Lanes
import Verif.Node.StreamProps

/-!
C88: messages to one endpoint over several connections.
-/
namespace Verif.Node.Lanes

open Verif.IoStream

/-! ### Specification -/

/-- The messages of a record that belong to one stream. -/
def over (i : Nat) (l : List (Nat × List Byte)) : List (List Byte) := (l.filter fun x => x.1 == i).map Prod.snd

/-- The messages of a record. -/
def msgs (l : List (Nat × List Byte)) : List (List Byte) := l.map Prod.snd

/-- No request to write is refused, and messages are within the limits of the receiver. -/
def Ev.good (cf : Conf) : Ev → Prop
  | .send m ev => ev.uvOk = true ∧ ∀ i, Fits (cf.stream i).recv m
  | .op _ => True
  | .lane _ e => e.writes

/-- Messages are within the limits of the receiver. -/
def Ev.fit (cf : Conf) : Ev → Prop
  | .send m _ => ∀ i, Fits (cf.stream i).recv m
  | _ => True

/-- No request to write is refused. -/
def Ev.taken : Ev → Prop
  | .send _ ev => ev.uvOk = true
  | .op _ => True
  | .lane _ e => e.writes

/-- The application sends this message. -/
def Ev.sends (m : List Byte) : Ev → Bool
  | .send m' _ => m' == m
  | _ => false

/-- The connections of the sending node stay as they are. -/
def Ev.still : Ev → Prop
  | .op _ => False
  | _ => True

/-- Nothing happens that makes the receiving end of a stream give up. -/
def Calms (cf : Conf) (hook : Nat → Endpoint.S → Option Endpoint.S) (d : Nat) (s : S) : List Ev → Prop
  | [] => True
  | e :: es => (match e with
      | .lane i e => Stream.Calm (cf.stream i) (s.lane i) e
      | _ => True) ∧ ∀ s', step cf hook d s e = some s' → Calms cf hook d s' es

/-- Every stream has written what was pushed and every byte was read. -/
def Drained (s : S) : Prop := ∀ i, (s.lane i).c.writing = false ∧ (s.lane i).taken = (s.lane i).c.wire.length

/-! ### Lemmas -/

theorem over_append (i : Nat) (a b : List (Nat × List Byte)) : over i (a ++ b) = over i a ++ over i b := by simp [over]

theorem over_tag (i j : Nat) (l : List (List Byte)) : over i (l.map fun m => (j, m)) = if j = i then l else [] := by
  unfold over
  induction l with
  | nil => simp
  | cons x l ih =>
    by_cases h : j = i
    · subst h
      simp only [if_true] at ih ⊢
      simp [ih]
    · rw [if_neg h] at ih ⊢
      simp only [List.map_cons, List.filter_cons, beq_iff_eq, h, if_false, ih]

theorem count_over (i : Nat) (m : List Byte) : ∀ l : List (Nat × List Byte), l.count (i, m) = (over i l).count m := by
  intro l
  induction l with
  | nil => rfl
  | cons x l ih =>
    obtain ⟨j, n⟩ := x
    unfold over at ih ⊢
    by_cases h : j = i
    · subst h
      simp only [List.count_cons, ih, List.filter_cons, beq_self_eq_true, if_true, List.map_cons]
      congr 1
      by_cases hn : n = m
      · simp [hn]
      · simp [hn]
    · rw [List.count_cons, ih, if_neg (by simp [h]), List.filter_cons_of_neg (by simpa using h)]
      rfl

theorem countP_le {α : Type} [BEq α] [LawfulBEq α] (p : α → Bool) : ∀ (a b : List α), (∀ x, a.count x ≤ b.count x) → a.countP p ≤ b.countP p := by
  intro a
  induction a with
  | nil => intro b _; simp
  | cons x a ih =>
    intro b h
    have hx : x ∈ b := by
      have := h x
      rw [List.count_cons_self] at this
      exact List.count_pos_iff.1 (by omega)
    have hp := List.perm_cons_erase hx
    rw [hp.countP_eq, List.countP_cons, List.countP_cons]
    have := ih (b.erase x) fun y => by
      have h1 := h y
      rw [hp.count_eq] at h1
      rw [List.count_cons, List.count_cons] at h1
      omega
    omega

/-- What a stream has got stays got. -/
theorem onCb_got_prefix (cf : Stream.Conf) (s : Stream.S) (cb : Cb) (o : Stream.Out) : s.got <+: (Stream.onCb cf s cb o).got := by
  unfold Stream.onCb
  split
  · exact List.prefix_rfl
  · split
    · rcases o with _ | ⟨ok, kill⟩
      · rw [(Stream.addFault_same cf s).2]; exact List.prefix_rfl
      · cases kill
        · simp only; rw [(Stream.addFault_same cf s).2]; exact List.prefix_rfl
        · exact List.prefix_rfl
    · rcases o with _ | ⟨ok, kill⟩
      · exact List.prefix_append ..
      · cases kill
        · cases ok
          · simp only; rw [(Stream.addFault_same cf _).2]; exact List.prefix_append ..
          · exact List.prefix_append ..
        · exact List.prefix_append ..

theorem onCbs_got_prefix (cf : Stream.Conf) : ∀ (cbs : List Cb) (os : List Stream.Out) (s : Stream.S), s.got <+: (Stream.onCbs cf s cbs os).got := by
  intro cbs
  induction cbs with
  | nil => intro os s; exact List.prefix_rfl
  | cons cb cbs ih => intro os s; exact (onCb_got_prefix cf s cb _).trans (ih _ _)

theorem net_same (cf : Stream.Conf) (s s' : Stream.S) (e : REv) (os : List Stream.Out) (h : Stream.net cf s e os = some s') :
    s'.sent = s.sent ∧ s'.queue = s.queue ∧ s.got <+: s'.got := by
  unfold Stream.net at h
  split at h
  · cases h
  · rename_i r cbs _
    simp only [Option.some.injEq] at h
    rw [← h]
    exact ⟨(Stream.onCbs_same cf cbs os { s with r := r }).2.2.2.2.1, (Stream.onCbs_same cf cbs os { s with r := r }).2.2.2.2.2, onCbs_got_prefix cf cbs os { s with r := r }⟩

/-- An event of a stream that is not a push. -/
theorem lane_same (cf : Stream.Conf) (s s' : Stream.S) (e : Stream.Ev) (he : ∀ m ev, e ≠ .push m ev) (h : Stream.step cf s e = some s') :
    s'.sent = s.sent ∧ s'.queue = s.queue ∧ s.got <+: s'.got := by
  cases e with
  | push m ev => exact absurd rfl (he m ev)
  | written ev =>
    simp only [Stream.step] at h
    cases hy : written ev s.c with
    | none => rw [hy] at h; cases h
    | some y => rw [hy] at h; cases h; exact ⟨rfl, rfl, List.prefix_rfl⟩
  | leave => cases h; exact ⟨rfl, rfl, List.prefix_rfl⟩
  | read n os =>
    simp only [Stream.step] at h
    cases hy : Stream.net cf s (.data ((s.c.wire.drop s.taken).take n)) os with
    | none => rw [hy] at h; cases h
    | some y =>
      rw [hy] at h
      cases h
      exact net_same cf s y _ os hy
  | again => exact net_same cf s s' _ _ h
  | fail os => exact net_same cf s s' _ _ h
  | gone => cases h; exact ⟨rfl, rfl, List.prefix_rfl⟩

/-- A push. -/
theorem push_same (cf : Stream.Conf) (s s' : Stream.S) (m : List Byte) (ev : Env) (x : Int) (h : Stream.push cf s m ev = some (s', x)) :
    s'.got = s.got ∧ s'.sent = s.sent ++ (if x = Err.SUCCESS ∧ m ≠ [] then [m] else []) ∧
      s'.queue = s.queue ++ (if (x = Err.SUCCESS ∨ x = Err.WRITE_FAILED) ∧ m ≠ [] then [m] else []) := by
  unfold Stream.push at h
  split at h
  · simp only [Option.some.injEq, Prod.mk.injEq] at h
    obtain ⟨rfl, rfl⟩ := h
    exact ⟨rfl, by rw [if_neg (by intro hh; exact absurd hh.1 (by decide))]; simp, by rw [if_neg (by intro hh; exact absurd hh.1 (by decide))]; simp⟩
  · split at h
    · cases h
    · simp only [Option.some.injEq, Prod.mk.injEq] at h
      obtain ⟨rfl, rfl⟩ := h
      refine ⟨rfl, ?_, ?_⟩
      · simp only
        split <;> simp
      · simp only
        split <;> simp

theorem Ev.good.parts {cf : Conf} {e : Ev} (h : e.good cf) : e.fit cf ∧ e.taken := by
  cases e with
  | send m ev => exact ⟨h.2, h.1⟩
  | op o => exact ⟨trivial, trivial⟩
  | lane i e => exact ⟨trivial, h⟩

/-! ### Invariant -/

/-- `q`: no write is refused. -/
structure Inv (cf : Conf) (hf bf ag : Nat) (q : Prop) (s : S) : Prop where
  lane : ∀ i, Stream.Inv (cf.stream i) hf bf ag q (s.lane i)
  sends : ∀ i, over i s.sends = (s.lane i).sent
  queue : ∀ i, over i s.queue = (s.lane i).queue
  gots : ∀ i, over i s.gots = (s.lane i).got

theorem init_inv (cf : Conf) (q : Prop) (ep : Endpoint.S) (next hf bf ag : Nat) (hag : ∀ i, ag ≤ (cf.stream i).recv.maxAgain) :
    Inv cf hf bf ag q (init ep next hf bf ag) :=
  ⟨fun i => Stream.init_inv (cf.stream i) hf bf ag _ (hag i), fun _ => rfl, fun _ => rfl, fun _ => rfl⟩

theorem drop_prefix {α : Type} {a b : List α} (h : a <+: b) : a ++ b.drop a.length = b := by
  obtain ⟨t, rfl⟩ := h
  simp

/-- A stream changes. -/
theorem setLane_inv {cf : Conf} {hf bf ag : Nat} {q : Prop} {s : S} (i : Inv cf hf bf ag q s) (j : Nat) (l : Stream.S) (new newq : List (Nat × List Byte))
    (hl : Stream.Inv (cf.stream j) hf bf ag q l) (hg : (s.lane j).got <+: l.got) (hs : l.sent = (s.lane j).sent ++ over j new)
    (hn : ∀ k, k ≠ j → over k new = []) (hsq : l.queue = (s.lane j).queue ++ over j newq)
    (hnq : ∀ k, k ≠ j → over k newq = []) : Inv cf hf bf ag q { s.setLane j l with sends := s.sends ++ new, queue := s.queue ++ newq } := by
  refine ⟨fun k => ?_, fun k => ?_, fun k => ?_, fun k => ?_⟩
  · show Stream.Inv _ _ _ _ _ (Endpoint.upd s.lane j l k)
    unfold Endpoint.upd
    by_cases h : k = j
    · subst h; rw [if_pos rfl]; exact hl
    · rw [if_neg h]; exact i.lane k
  · show over k (s.sends ++ new) = (Endpoint.upd s.lane j l k).sent
    unfold Endpoint.upd
    rw [over_append, i.sends]
    by_cases h : k = j
    · subst h; rw [if_pos rfl, hs]
    · rw [if_neg h, hn k h, List.append_nil]
  · show over k (s.queue ++ newq) = (Endpoint.upd s.lane j l k).queue
    unfold Endpoint.upd
    rw [over_append, i.queue]
    by_cases h : k = j
    · subst h; rw [if_pos rfl, hsq]
    · rw [if_neg h, hnq k h, List.append_nil]
  · show over k (s.gots ++ _) = (Endpoint.upd s.lane j l k).got
    unfold Endpoint.upd
    rw [over_append, i.gots, over_tag]
    by_cases h : k = j
    · subst h; rw [if_pos rfl, if_pos rfl, drop_prefix hg]
    · rw [if_neg h, if_neg (fun hh => h hh.symm), List.append_nil]

theorem step_inv {cf : Conf} {hook : Nat → Endpoint.S → Option Endpoint.S} {d hf bf ag : Nat} {q : Prop} {s s' : S} (i : Inv cf hf bf ag q s) (e : Ev)
    (hcan : Can cf s e) (hft : e.fit cf) (hw : q → e.taken) (hs : step cf hook d s e = some s') : Inv cf hf bf ag q s' := by
  cases e with
  | send m ev =>
    simp only [step, send] at hs
    split at hs
    · cases hs; exact ⟨i.lane, i.sends, i.queue, i.gots⟩
    · rename_i c _
      split at hs
      · cases hs
      · rename_i l x hp
        simp only [Option.map_some, Option.some.injEq] at hs
        obtain ⟨l1, e1, e2, -⟩ := Stream.step_inv (i.lane (s.cur c)) (.push m ev) hcan hw (hft (s.cur c))
        simp only [Stream.step, hp, Option.map_some, Option.some.injEq] at e1
        subst e1
        obtain ⟨h1, h2, h3⟩ := push_same _ _ _ _ _ _ hp
        have := setLane_inv (s := { s with ep := (Endpoint.dataConnection cf.me cf.to true s.ep).1 }) ⟨i.lane, i.sends, i.queue, i.gots⟩ (s.cur c) l
          (if x = Err.SUCCESS ∧ m ≠ [] then [(s.cur c, m)] else [])
          (if (x = Err.SUCCESS ∨ x = Err.WRITE_FAILED) ∧ m ≠ [] then [(s.cur c, m)] else []) e2 (by rw [h1]; exact List.prefix_rfl)
          (by
            rw [h2]
            split
            · simp [over]
            · simp [over])
          (by
            intro k hk
            split
            · simp [over, Ne.symm hk]
            · simp [over])
          (by
            rw [h3]
            split
            · simp [over]
            · simp [over])
          (by
            intro k hk
            split
            · simp [over, Ne.symm hk]
            · simp [over])
        have hq : (if (x = Err.SUCCESS ∨ x = Err.WRITE_FAILED) ∧ m ≠ [] then s.queue ++ [(s.cur c, m)] else s.queue) =
            s.queue ++ (if (x = Err.SUCCESS ∨ x = Err.WRITE_FAILED) ∧ m ≠ [] then [(s.cur c, m)] else []) := by split <;> simp
        have he : (if x = Err.SUCCESS ∧ m ≠ [] then s.sends ++ [(s.cur c, m)] else s.sends) =
            s.sends ++ (if x = Err.SUCCESS ∧ m ≠ [] then [(s.cur c, m)] else []) := by split <;> simp
        rw [← hs]
        simp only [S.setLane] at this ⊢
        rw [he, hq]
        exact this
  | op o =>
    simp only [step] at hs
    cases ho : Endpoint.step hook d s.ep o with
    | none => rw [ho] at hs; cases hs
    | some e1 =>
      rw [ho] at hs
      simp only [Option.map_some, Option.some.injEq] at hs
      rw [← hs]
      have h1 : (opened s o).lane = s.lane ∧ (opened s o).sends = s.sends ∧ (opened s o).queue = s.queue ∧ (opened s o).gots = s.gots := by
        unfold opened
        split
        · split <;> exact ⟨rfl, rfl, rfl, rfl⟩
        · exact ⟨rfl, rfl, rfl, rfl⟩
      obtain ⟨h1, h2, h4, h3⟩ := h1
      refine ⟨?_, ?_, ?_, ?_⟩
      · show ∀ k, Stream.Inv _ _ _ _ _ ((opened s o).lane k)
        rw [h1]; exact i.lane
      · show ∀ k, over k (opened s o).sends = ((opened s o).lane k).sent
        rw [h1, h2]; exact i.sends
      · show ∀ k, over k (opened s o).queue = ((opened s o).lane k).queue
        rw [h1, h4]; exact i.queue
      · show ∀ k, over k (opened s o).gots = ((opened s o).lane k).got
        rw [h1, h3]; exact i.gots
  | lane j e =>
    simp only [step] at hs
    have hfit : e.fits (cf.stream j) := by
      cases e with
      | push m ev => exact absurd rfl (hcan.1 m ev)
      | _ => trivial
    obtain ⟨l, e1, e2, -⟩ := Stream.step_inv (i.lane j) e hcan.2 hw hfit
    rw [e1] at hs
    simp only [Option.map_some, Option.some.injEq] at hs
    obtain ⟨h1, h3, h2⟩ := lane_same _ _ _ _ hcan.1 e1
    have := setLane_inv i j l [] [] e2 h2 (by rw [h1]; simp [over]) (fun _ _ => rfl) (by rw [h3]; simp [over]) (fun _ _ => rfl)
    rw [List.append_nil, List.append_nil] at this
    rw [← hs]
    exact this

theorem run_inv {cf : Conf} {hook : Nat → Endpoint.S → Option Endpoint.S} {d hf bf ag : Nat} {q : Prop} (es : List Ev) : ∀ {s s' : S}, Inv cf hf bf ag q s →
    Cans cf hook d s es → (∀ e ∈ es, e.fit cf ∧ (q → e.taken)) → run cf hook d s es = some s' → Inv cf hf bf ag q s' := by
  induction es with
  | nil => intro s s' i _ _ hr; cases hr; exact i
  | cons e es ih =>
    intro s s' i hc hg hr
    simp only [run] at hr
    cases hs : step cf hook d s e with
    | none => rw [hs] at hr; cases hr
    | some s1 =>
      rw [hs] at hr
      exact ih (step_inv i e hc.1 (hg e List.mem_cons_self).1 (hg e List.mem_cons_self).2 hs) (hc.2 _ hs) (fun x hx => hg x (List.mem_cons_of_mem _ hx)) hr

/-! ### C88 -/

/-- C88 (any write): also if writes are refused, over each stream the receiving node gets an initial part of what was put into its queue, in
order, and no message is got more often than the application sent it. -/
theorem C88_any (cf : Conf) (hook : Nat → Endpoint.S → Option Endpoint.S) (d : Nat) (ep : Endpoint.S) (next hf bf ag : Nat)
    (hag : ∀ i, ag ≤ (cf.stream i).recv.maxAgain) (es : List Ev) (hc : Cans cf hook d (init ep next hf bf ag) es) (hg : ∀ e ∈ es, e.fit cf)
    (s : S) (hr : run cf hook d (init ep next hf bf ag) es = some s) :
    (∀ i, over i s.gots <+: over i s.queue) ∧ ∀ m, (msgs s.gots).count m ≤ es.countP (Ev.sends m) := by
  have h := run_inv es (init_inv cf False ep next hf bf ag hag) hc (fun e he => ⟨hg e he, nofun⟩) hr
  have hpre : ∀ i, over i s.gots <+: over i s.queue := fun i => by
    rw [h.gots, h.queue]
    exact (h.lane i).pre
  refine ⟨hpre, fun m => ?_⟩
  have hle : ∀ x, s.gots.count x ≤ s.queue.count x := by
    intro x
    obtain ⟨i, n⟩ := x
    rw [count_over, count_over]
    exact (hpre i).sublist.count_le n
  have h1 := countP_le (fun x => x.2 == m) _ _ hle
  have h2 : ∀ (es : List Ev) (s0 s : S), run cf hook d s0 es = some s →
      s.queue.countP (fun x => x.2 == m) ≤ s0.queue.countP (fun x => x.2 == m) + es.countP (Ev.sends m) := by
    intro es
    induction es with
    | nil => intro s0 s hr; cases hr; simp
    | cons e es ih =>
      intro s0 s hr
      simp only [run] at hr
      cases hs : step cf hook d s0 e with
      | none => rw [hs] at hr; cases hr
      | some s1 =>
        rw [hs] at hr
        have hi := ih s1 s hr
        have : s1.queue.countP (fun x => x.2 == m) ≤ s0.queue.countP (fun x => x.2 == m) + if Ev.sends m e then 1 else 0 := by
          cases e with
          | send m' ev =>
            simp only [step, send] at hs
            split at hs
            · cases hs; exact Nat.le_add_right _ _
            · split at hs
              · cases hs
              · simp only [Option.map_some, Option.some.injEq] at hs
                rw [← hs]
                simp only [S.setLane, Ev.sends]
                split
                · simp only [List.countP_append, List.countP_cons, List.countP_nil]
                  refine Nat.add_le_add_left ?_ _
                  rw [Nat.zero_add]
                  exact Nat.le_refl _
                · exact Nat.le_add_right _ _
          | op o =>
            simp only [step] at hs
            cases ho : Endpoint.step hook d s0.ep o with
            | none => rw [ho] at hs; cases hs
            | some e1 =>
              rw [ho] at hs
              simp only [Option.map_some, Option.some.injEq] at hs
              rw [← hs]
              have : (opened s0 o).queue = s0.queue := by
                unfold opened
                split
                · split <;> rfl
                · rfl
              rw [this]
              exact Nat.le_add_right _ _
          | lane j e =>
            simp only [step] at hs
            cases ho : Stream.step (cf.stream j) (s0.lane j) e with
            | none => rw [ho] at hs; cases hs
            | some e1 =>
              rw [ho] at hs
              simp only [Option.map_some, Option.some.injEq] at hs
              rw [← hs]
              exact Nat.le_add_right _ _
        rw [List.countP_cons]
        omega
  have h3 := h2 es _ s hr
  unfold msgs
  rw [List.count_eq_countP, List.countP_map]
  have h4 : (init ep next hf bf ag).queue.countP (fun x => x.2 == m) = 0 := rfl
  rw [h4] at h3
  have h5 : List.countP ((fun x => x == m) ∘ Prod.snd) s.gots = List.countP (fun x : Nat × List Byte => x.2 == m) s.gots := rfl
  omega

/-- C88 (each connection): whatever happens, over each stream the receiving node gets an initial part of what was sent over it, in order. -/
theorem C88_each_partial (cf : Conf) (hook : Nat → Endpoint.S → Option Endpoint.S) (d : Nat) (ep : Endpoint.S) (next hf bf ag : Nat)
    (hag : ∀ i, ag ≤ (cf.stream i).recv.maxAgain) (es : List Ev) (hc : Cans cf hook d (init ep next hf bf ag) es) (hg : ∀ e ∈ es, e.good cf)
    (s : S) (hr : run cf hook d (init ep next hf bf ag) es = some s) (i : Nat) : over i s.gots <+: over i s.sends := by
  have h := run_inv es (init_inv cf True ep next hf bf ag hag) hc (fun e he => ⟨(hg e he).parts.1, fun _ => (hg e he).parts.2⟩) hr
  rw [h.gots, h.sends]
  exact (h.lane i).all trivial ▸ (h.lane i).pre

/-- C88 (at most once): no message is got more often than it was sent, whatever connections were chosen, lost and opened again. -/
theorem C88_once_partial (cf : Conf) (hook : Nat → Endpoint.S → Option Endpoint.S) (d : Nat) (ep : Endpoint.S) (next hf bf ag : Nat)
    (hag : ∀ i, ag ≤ (cf.stream i).recv.maxAgain) (es : List Ev) (hc : Cans cf hook d (init ep next hf bf ag) es) (hg : ∀ e ∈ es, e.good cf)
    (s : S) (hr : run cf hook d (init ep next hf bf ag) es = some s) (m : List Byte) : (msgs s.gots).count m ≤ (msgs s.sends).count m := by
  have h := C88_each_partial cf hook d ep next hf bf ag hag es hc hg s hr
  have hle : ∀ x, s.gots.count x ≤ s.sends.count x := by
    intro x
    obtain ⟨i, n⟩ := x
    rw [count_over, count_over]
    exact (h i).sublist.count_le n
  have := countP_le (fun x => x.2 == m) _ _ hle
  unfold msgs
  rw [List.count_eq_countP, List.count_eq_countP, List.countP_map, List.countP_map]
  exact this

/-- C88 (one connection): if everything was sent over one stream, it is got in order. -/
theorem C88_one_partial (cf : Conf) (hook : Nat → Endpoint.S → Option Endpoint.S) (d : Nat) (ep : Endpoint.S) (next hf bf ag : Nat)
    (hag : ∀ i, ag ≤ (cf.stream i).recv.maxAgain) (es : List Ev) (hc : Cans cf hook d (init ep next hf bf ag) es) (hg : ∀ e ∈ es, e.good cf)
    (s : S) (hr : run cf hook d (init ep next hf bf ag) es = some s) (i : Nat) (hone : ∀ x ∈ s.sends, x.1 = i) :
    msgs s.gots <+: msgs s.sends := by
  have h := C88_each_partial cf hook d ep next hf bf ag hag es hc hg s hr
  have hall : ∀ l : List (Nat × List Byte), (∀ x ∈ l, x.1 = i) → over i l = msgs l := by
    intro l hl
    unfold over msgs
    rw [List.filter_eq_self.2 fun x hx => by simpa using hl x hx]
  have hgots : ∀ x ∈ s.gots, x.1 = i := by
    intro x hx
    have hm : x.2 ∈ over x.1 s.gots := by
      unfold over
      exact List.mem_map_of_mem (List.mem_filter.2 ⟨hx, by simp⟩)
    have := (h x.1).subset hm
    unfold over at this
    obtain ⟨y, hy, -⟩ := List.mem_map.1 this
    have hy' := List.mem_filter.1 hy
    have h1 := hone y hy'.1
    have h2 : y.1 = x.1 := by simpa using hy'.2
    rw [← h2, h1]
  rw [← hall _ hgots, ← hall _ hone]
  exact h i

/-- The list of data connections, sorted. -/
def sortedEp (e : Nat) (s : Endpoint.S) : Endpoint.S :=
  if (s.ep e).sorted then s else s.setEp e { s.ep e with data := Endpoint.sortC s.conn (s.ep e).data, sorted := true }

/-- The choice from a sorted list. -/
def pick (me e : Nat) (fb : Bool) (s : Endpoint.S) : Option Nat :=
  match (s.ep e).data.find? (fun c => Endpoint.eligible
      (decide ((s.ep e).host = (s.ep me).host) && decide ((s.ep e).pid = (s.ep me).pid)) (decide ((s.ep e).host = (s.ep me).host)) (s.conn c)) with
  | some c => some c
  | none => if fb then Endpoint.ctrlConnection me e s else none

theorem choice_eq (me e : Nat) (fb : Bool) (s : Endpoint.S) (h : ¬ me = e) :
    Endpoint.dataConnection me e fb s = (sortedEp e s, pick me e fb (sortedEp e s)) := by
  have hh : ((sortedEp e s).ep e).host = (s.ep e).host ∧ ((sortedEp e s).ep e).pid = (s.ep e).pid ∧ (sortedEp e s).ep me = s.ep me := by
    unfold sortedEp
    split
    · exact ⟨rfl, rfl, rfl⟩
    · simp [Endpoint.S.setEp, Endpoint.upd, h]
  unfold Endpoint.dataConnection pick
  rw [if_neg h, hh.1, hh.2.1, hh.2.2]
  show (match ((sortedEp e s).ep e).data.find? (fun c => Endpoint.eligible
      (decide ((s.ep e).host = (s.ep me).host) && decide ((s.ep e).pid = (s.ep me).pid)) (decide ((s.ep e).host = (s.ep me).host))
      ((sortedEp e s).conn c)) with
    | some c => (sortedEp e s, some c)
    | none => (sortedEp e s, if fb = true then Endpoint.ctrlConnection me e (sortedEp e s) else none)) = _
  generalize ((sortedEp e s).ep e).data.find? (fun c => Endpoint.eligible
      (decide ((s.ep e).host = (s.ep me).host) && decide ((s.ep e).pid = (s.ep me).pid)) (decide ((s.ep e).host = (s.ep me).host))
      ((sortedEp e s).conn c)) = o
  cases o <;> rfl

theorem sortedEp_id (e : Nat) (s : Endpoint.S) (h : (s.ep e).sorted = true) : sortedEp e s = s := by
  unfold sortedEp
  rw [if_pos h]

/-- The choice of a connection is kept if nothing changes. -/
theorem choice_again (me e : Nat) (fb : Bool) (s : Endpoint.S) :
    Endpoint.dataConnection me e fb (Endpoint.dataConnection me e fb s).1 = Endpoint.dataConnection me e fb s := by
  by_cases h : me = e
  · unfold Endpoint.dataConnection
    simp only [if_pos h]
  · have hs : ((sortedEp e s).ep e).sorted = true := by
      unfold sortedEp
      split
      · assumption
      · simp [Endpoint.S.setEp, Endpoint.upd]
    rw [choice_eq me e fb s h]
    simp only
    rw [choice_eq me e fb _ h]
    rw [sortedEp_id e _ hs]

/-- While the connections of the sending node stay as they are, everything goes over the stream chosen first. -/
theorem still_one {cf : Conf} {hook : Nat → Endpoint.S → Option Endpoint.S} {d : Nat} (es : List Ev) : ∀ {s s' : S}, (∀ e ∈ es, e.still) →
    run cf hook d s es = some s' →
    ∃ more, s'.sends = s.sends ++ more ∧ ∀ x ∈ more, ∃ c, (Endpoint.dataConnection cf.me cf.to true s.ep).2 = some c ∧ x.1 = s.cur c := by
  induction es with
  | nil => intro s s' _ hr; cases hr; exact ⟨[], by simp, fun _ h => by cases h⟩
  | cons e es ih =>
    intro s s' hst hr
    simp only [run] at hr
    cases hs : step cf hook d s e with
    | none => rw [hs] at hr; cases hr
    | some s1 =>
      rw [hs] at hr
      obtain ⟨more, e1, e2⟩ := ih (fun x hx => hst x (List.mem_cons_of_mem _ hx)) hr
      have h0 := hst e List.mem_cons_self
      cases e with
      | op o => exact absurd h0 (by simp [Ev.still])
      | lane i e =>
        simp only [step] at hs
        cases hl : Stream.step (cf.stream i) (s.lane i) e with
        | none => rw [hl] at hs; cases hs
        | some l =>
          rw [hl] at hs
          simp only [Option.map_some, Option.some.injEq] at hs
          rw [← hs] at e1 e2
          exact ⟨more, e1, e2⟩
      | send m ev =>
        simp only [step, send] at hs
        have hag := choice_again cf.me cf.to true s.ep
        split at hs
        · rename_i hn
          cases hs
          refine ⟨more, e1, fun x hx => ?_⟩
          obtain ⟨c, h1, -⟩ := e2 x hx
          simp only at h1
          rw [hag, hn] at h1
          cases h1
        · rename_i c hcn
          split at hs
          · cases hs
          · rename_i l x hp
            simp only [Option.map_some, Option.some.injEq] at hs
            rw [← hs] at e1 e2
            simp only [S.setLane] at e1 e2
            rw [hag] at e2
            refine ⟨(if x = Err.SUCCESS ∧ m ≠ [] then [(s.cur c, m)] else []) ++ more, ?_, ?_⟩
            · rw [e1, ← List.append_assoc]
              congr 1
              split <;> simp
            · intro y hy
              rcases List.mem_append.1 hy with hy | hy
              · split at hy
                · simp only [List.mem_singleton] at hy
                  exact ⟨c, hcn, by rw [hy]⟩
                · cases hy
              · exact e2 y hy

/-- C88 (order): while the connections of the sending node stay as they are, the messages are got in the order in which they were sent. -/
theorem C88_still_partial (cf : Conf) (hook : Nat → Endpoint.S → Option Endpoint.S) (d : Nat) (ep : Endpoint.S) (next hf bf ag : Nat)
    (hag : ∀ i, ag ≤ (cf.stream i).recv.maxAgain) (es : List Ev) (hc : Cans cf hook d (init ep next hf bf ag) es) (hg : ∀ e ∈ es, e.good cf)
    (hst : ∀ e ∈ es, e.still) (s : S) (hr : run cf hook d (init ep next hf bf ag) es = some s) : msgs s.gots <+: msgs s.sends := by
  obtain ⟨more, e1, e2⟩ := still_one es hst hr
  simp only [init, List.nil_append] at e1
  cases hch : (Endpoint.dataConnection cf.me cf.to true ep).2 with
  | none =>
    refine C88_one_partial cf hook d ep next hf bf ag hag es hc hg s hr 0 fun x hx => ?_
    obtain ⟨c, h1, -⟩ := e2 x (by rw [← e1]; exact hx)
    rw [show (init ep next hf bf ag).ep = ep from rfl, hch] at h1
    cases h1
  | some c0 =>
    refine C88_one_partial cf hook d ep next hf bf ag hag es hc hg s hr c0 fun x hx => ?_
    obtain ⟨c, h1, h2⟩ := e2 x (by rw [← e1]; exact hx)
    rw [show (init ep next hf bf ag).ep = ep from rfl, hch] at h1
    cases h1
    exact h2

/-- The receiving ends stay open in a calm run. -/
theorem run_open {cf : Conf} {hook : Nat → Endpoint.S → Option Endpoint.S} {d hf bf ag : Nat} (es : List Ev) : ∀ {s s' : S}, Inv cf hf bf ag True s →
    Cans cf hook d s es → (∀ e ∈ es, e.good cf) → Calms cf hook d s es → (∀ i, (s.lane i).r.closed = false) → run cf hook d s es = some s' →
    ∀ i, (s'.lane i).r.closed = false := by
  induction es with
  | nil => intro s s' _ _ _ _ ho hr; cases hr; exact ho
  | cons e es ih =>
    intro s s' i hc hg hcalm ho hr
    simp only [run] at hr
    cases hs : step cf hook d s e with
    | none => rw [hs] at hr; cases hr
    | some s1 =>
      rw [hs] at hr
      refine ih (step_inv i e hc.1 (hg e List.mem_cons_self).parts.1 (fun _ => (hg e List.mem_cons_self).parts.2) hs) (hc.2 _ hs) (fun x hx => hg x (List.mem_cons_of_mem _ hx)) (hcalm.2 _ hs) ?_ hr
      have h0 := hg e List.mem_cons_self
      have hcan := hc.1
      have hq := hcalm.1
      cases e with
      | send m ev =>
        simp only [step, send] at hs
        split at hs
        · cases hs; exact ho
        · rename_i c _
          split at hs
          · cases hs
          · rename_i l x hp
            simp only [Option.map_some, Option.some.injEq] at hs
            obtain ⟨l1, e1, -, e3⟩ := Stream.step_inv (i.lane (s.cur c)) (.push m ev) hcan (fun _ => h0.1) (h0.2 (s.cur c))
            simp only [Stream.step, hp, Option.map_some, Option.some.injEq] at e1
            subst e1
            rw [← hs]
            intro k
            show (Endpoint.upd s.lane (s.cur c) l k).r.closed = false
            unfold Endpoint.upd
            split
            · exact e3 trivial (ho _)
            · exact ho k
      | op o =>
        simp only [step] at hs
        cases hoo : Endpoint.step hook d s.ep o with
        | none => rw [hoo] at hs; cases hs
        | some e1 =>
          rw [hoo] at hs
          simp only [Option.map_some, Option.some.injEq] at hs
          rw [← hs]
          intro k
          have : (opened s o).lane = s.lane := by
            unfold opened
            split
            · split <;> rfl
            · rfl
          show ((opened s o).lane k).r.closed = false
          rw [this]; exact ho k
      | lane j e =>
        simp only [step] at hs
        have hfit : e.fits (cf.stream j) := by
          cases e with
          | push m ev => exact absurd rfl (hcan.1 m ev)
          | _ => trivial
        obtain ⟨l, e1, -, e3⟩ := Stream.step_inv (i.lane j) e hcan.2 (fun _ => h0) hfit
        rw [e1] at hs
        simp only [Option.map_some, Option.some.injEq] at hs
        rw [← hs]
        intro k
        show (Endpoint.upd s.lane j l k).r.closed = false
        unfold Endpoint.upd
        split
        · exact e3 hq (ho j)
        · exact ho k

/-- C88 (arrival): if nothing makes the receiving node give up a stream, everything accepted has been got when all streams are drained, each
message as often as it was sent, whatever connections were chosen and lost at the sending node. -/
theorem C88_arrives_partial (cf : Conf) (hook : Nat → Endpoint.S → Option Endpoint.S) (d : Nat) (ep : Endpoint.S) (next hf bf ag : Nat)
    (hag : ∀ i, ag ≤ (cf.stream i).recv.maxAgain) (es : List Ev) (hc : Cans cf hook d (init ep next hf bf ag) es) (hg : ∀ e ∈ es, e.good cf)
    (hcalm : Calms cf hook d (init ep next hf bf ag) es)
    (s : S) (hr : run cf hook d (init ep next hf bf ag) es = some s) (hd : Drained s) : (msgs s.gots).Perm (msgs s.sends) := by
  have h := run_inv es (init_inv cf True ep next hf bf ag hag) hc (fun e he => ⟨(hg e he).parts.1, fun _ => (hg e he).parts.2⟩) hr
  have ho := run_open es (init_inv cf True ep next hf bf ag hag) hc hg hcalm (fun _ => rfl) hr
  have heq : ∀ i, over i s.gots = over i s.sends := by
    intro i
    rw [h.gots, h.sends]
    exact (h.lane i).full trivial (ho i) (hd i).2 (hd i).1
  have hp : s.gots.Perm s.sends := by
    rw [List.perm_iff_count]
    intro x
    obtain ⟨i, m⟩ := x
    rw [count_over, count_over, heq]
  exact hp.map _

/-! ### Witness -/

/-- The sending node 0 and the endpoint 1 with control connection 5, and data connection 6 that is still connecting. -/
def exEp : Endpoint.S :=
  { conn := fun c => if c = 5 then { st := .connected, binding := some 1 } else if c = 6 then { st := .connecting, binding := some 1 } else {},
    ep := fun e => if e = 1 then { ctrl := some 5, data := [6] } else {} }

def exCf : Conf := ⟨0, 1, fun _ => Stream.exC 2⟩

/-- Two messages, the first over the control connection, the second over the data connection, which is faster. -/
def exOvertake : List Ev :=
  [.send [1] Stream.ok1, .op (.established 6), .send [2] Stream.ok1, .lane 6 (.read 6 []), .lane 5 (.read 6 []),
    .lane 5 (.written Stream.ok1), .lane 6 (.written Stream.ok1)]

/-- Whether the event can happen. -/
def canB (s : S) : Ev → Bool
  | .send m ev => decide (Stream.Can (s.lane 0) (.push m ev))
  | .op _ => true
  | .lane _ (.push _ _) => false
  | .lane i e => decide (Stream.Can (s.lane i) e)

def cansB (cf : Conf) (s : S) : List Ev → Bool
  | [] => true
  | e :: es =>
    canB s e && match step cf (fun _ s => some s) 0 s e with
      | none => true
      | some s => cansB cf s es

theorem cansB_iff (cf : Conf) (es : List Ev) : ∀ s, cansB cf s es = true → Cans cf (fun _ s => some s) 0 s es := by
  induction es with
  | nil => intro s _; trivial
  | cons e es ih =>
    intro s h
    simp only [cansB, Bool.and_eq_true] at h
    refine ⟨?_, fun s' hs => ?_⟩
    · have h1 := h.1
      cases e with
      | send m ev =>
        simp only [canB, decide_eq_true_eq] at h1
        exact h1
      | op o => trivial
      | lane i e => cases e <;> first | exact ⟨fun _ _ hh => (by cases hh), of_decide_eq_true h1⟩ | cases h1
    · rw [hs] at h
      exact ih s' h.2

/-- Only connections with numbers below `n` are opened. -/
def Ev.below (n : Nat) : Ev → Prop
  | .op (.openConn c _ _ _) => c < n
  | _ => True

/-- C88 (streams): no two connections ever share a stream, however often they are opened again, and a connection that is opened gets a stream
that none has. -/
theorem C88_own (cf : Conf) (hook : Nat → Endpoint.S → Option Endpoint.S) (d : Nat) (ep : Endpoint.S) (n hf bf ag : Nat) (es : List Ev)
    (hb : ∀ e ∈ es, e.below n) (s : S) (hr : run cf hook d (init ep n hf bf ag) es = some s) :
    (∀ c c', c < n → c' < n → s.cur c = s.cur c' → c = c') ∧
    ∀ c w a h, c < n → (s.ep.conn c).st = .disconnected →
      ∀ c', c' < n → (opened s (.openConn c w a h)).cur c ≠ s.cur c' := by
  suffices key : ∀ (s0 : S), (∀ c c', c < n → c' < n → s0.cur c = s0.cur c' → c = c') → (∀ c, c < n → s0.cur c < s0.next) →
      run cf hook d s0 es = some s → (∀ c c', c < n → c' < n → s.cur c = s.cur c' → c = c') ∧ (∀ c, c < n → s.cur c < s.next) by
    obtain ⟨h1, h2⟩ := key (init ep n hf bf ag) (fun _ _ _ _ h => h) (fun _ h => h) hr
    refine ⟨h1, fun c w a h hc hd c' hc' he => ?_⟩
    simp only [opened, if_pos hd, Endpoint.upd, if_true] at he
    have := h2 c' hc'
    omega
  clear hr
  induction es with
  | nil => intro s0 h1 h2 hr; cases hr; exact ⟨h1, h2⟩
  | cons e es ih =>
    intro s0 h1 h2 hr
    simp only [run] at hr
    cases hs : step cf hook d s0 e with
    | none => rw [hs] at hr; cases hr
    | some s1 =>
      rw [hs] at hr
      have he := hb e List.mem_cons_self
      suffices h3 : (∀ c c', c < n → c' < n → s1.cur c = s1.cur c' → c = c') ∧ (∀ c, c < n → s1.cur c < s1.next) from
        ih (fun x hx => hb x (List.mem_cons_of_mem _ hx)) s1 h3.1 h3.2 hr
      cases e with
      | send m ev =>
        simp only [step, send] at hs
        split at hs
        · cases hs; exact ⟨h1, h2⟩
        · split at hs
          · cases hs
          · simp only [Option.map_some, Option.some.injEq] at hs
            rw [← hs]
            exact ⟨h1, h2⟩
      | lane i e =>
        simp only [step] at hs
        cases hl : Stream.step (cf.stream i) (s0.lane i) e with
        | none => rw [hl] at hs; cases hs
        | some l => rw [hl] at hs; cases hs; exact ⟨h1, h2⟩
      | op o =>
        simp only [step] at hs
        cases ho : Endpoint.step hook d s0.ep o with
        | none => rw [ho] at hs; cases hs
        | some e1 =>
          rw [ho] at hs
          simp only [Option.map_some, Option.some.injEq] at hs
          rw [← hs]
          show (∀ c c', c < n → c' < n → (opened s0 o).cur c = (opened s0 o).cur c' → c = c') ∧ (∀ c, c < n → (opened s0 o).cur c < (opened s0 o).next)
          unfold opened
          split
          · rename_i k w a h
            split
            · constructor
              · intro c c' hc hc' heq
                simp only [Endpoint.upd] at heq
                have a1 := h2 c hc
                have a2 := h2 c' hc'
                split at heq <;> split at heq
                · omega
                · omega
                · omega
                · exact h1 c c' hc hc' heq
              · intro c hc
                have a1 := h2 c hc
                simp only [Endpoint.upd]
                split <;> omega
            · exact ⟨h1, h2⟩
          · exact ⟨h1, h2⟩

/-- C88 (order) is false when the connections change: a message sent over the control connection while the data connection was being opened
is overtaken by the next one. -/
theorem C88_overtake_false :
    ∃ (cf : Conf) (ep : Endpoint.S) (es : List Ev) (s : S), Cans cf (fun _ s => some s) 0 (init ep 10 0 0 0) es ∧ (∀ e ∈ es, e.good cf) ∧
      Calms cf (fun _ s => some s) 0 (init ep 10 0 0 0) es ∧
      run cf (fun _ s => some s) 0 (init ep 10 0 0 0) es = some s ∧ msgs s.sends = [[1], [2]] ∧ msgs s.gots = [[2], [1]] := by
  have hsome : ∃ s, run exCf (fun _ s => some s) 0 (init exEp 10 0 0 0) exOvertake = some s := by
    apply Option.isSome_iff_exists.1
    decide +kernel
  obtain ⟨s, hs⟩ := hsome
  refine ⟨exCf, exEp, exOvertake, s, ?_, ?_, ?_, hs, ?_, ?_⟩
  · exact cansB_iff _ _ _ (by decide +kernel)
  · intro e he
    simp only [exOvertake, List.mem_cons, List.not_mem_nil, or_false] at he
    have hf : ∀ (m : List Byte), m.length = 1 → ∀ i, Fits (exCf.stream i).recv m := by
      intro m hm i
      simp [Fits, exCf, Stream.exC, exConf, hm]
    rcases he with rfl | rfl | rfl | rfl | rfl | rfl | rfl
    · exact ⟨rfl, hf _ rfl⟩
    · trivial
    · exact ⟨rfl, hf _ rfl⟩
    all_goals first | trivial | rfl
  · exact ⟨trivial, fun _ _ => ⟨trivial, fun _ _ => ⟨trivial, fun _ _ => ⟨trivial, fun _ _ => ⟨trivial, fun _ _ => ⟨trivial, fun _ _ =>
      ⟨trivial, fun _ _ => trivial⟩⟩⟩⟩⟩⟩⟩
  · have : (run exCf (fun _ s => some s) 0 (init exEp 10 0 0 0) exOvertake).map (fun s => msgs s.sends) = some [[1], [2]] := by decide +kernel
    rw [hs] at this
    simpa using this
  · have : (run exCf (fun _ s => some s) 0 (init exEp 10 0 0 0) exOvertake).map (fun s => msgs s.gots) = some [[2], [1]] := by decide +kernel
    rw [hs] at this
    simpa using this

/-- Both messages over the data connection, which was there from the start. -/
example : (run exCf (fun _ s => some s) 0 (init exEp 10 0 0 0)
      [.op (.established 6), .send [1] Stream.ok1, .send [2] Stream.ok1, .lane 6 (.read 4 []), .lane 6 (.written Stream.ok1), .lane 6 (.read 8 [])]).map
      (fun s => (s.sends, s.gots)) = some ([(6, [1]), (6, [2])], [(6, [1]), (6, [2])]) := by decide +kernel

/-- The connections are lost, a message is refused, and the control connection is opened again as stream 10; what was on its way in the old
stream of the data connection still arrives. -/
example : (run exCf (fun _ s => some s) 3 (init exEp 10 0 0 0)
      [.op (.established 6), .send [1] Stream.ok1, .op (.resetConn 6), .lane 6 .leave, .send [2] Stream.ok1, .op (.openConn 5 false false false),
        .op (.add 1 5 false), .send [3] Stream.ok1, .lane 10 (.read 6 []), .lane 6 (.read 6 [])]).map
      (fun s => (s.sends, s.gots)) = some ([(6, [1]), (10, [3])], [(10, [3]), (6, [1])]) := by decide +kernel

/-- A message whose write could not be started is sent again, and arrives twice. -/
example : (run exCf (fun _ s => some s) 0 (init exEp 10 0 0 0)
      [.op (.established 6), .send [1] ⟨none, 1, false⟩, .send [1] Stream.ok1, .lane 6 (.written Stream.ok1), .lane 6 (.written Stream.ok1),
        .lane 6 (.read 12 [])]).map
      (fun s => (s.sends, s.queue, s.gots)) = some ([(6, [1])], [(6, [1]), (6, [1])], [(6, [1]), (6, [1])]) := by decide +kernel

/-- Two connections opened after a reset have streams of their own. -/
example : (run exCf (fun _ s => some s) 3 (init exEp 10 0 0 0)
      [.op (.resetConn 6), .op (.openConn 5 false false false), .op (.openConn 6 false false false)]).map
      (fun s => (s.cur 5, s.cur 6)) = some (10, 11) := by decide +kernel

end Verif.Node.Lanes
