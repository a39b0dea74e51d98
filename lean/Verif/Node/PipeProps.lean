import Verif.Node.Pipe
import Verif.Mem.Props

/-!
C79: a memory channel between two nodes delivers.

The specification speaks of the messages whose push succeeded and of the messages the receiving node got.
-/
namespace Verif.Node.Pipe

open Verif.Mem

/-- Lengths a real buffer can have. -/
def fine (m : Msg) : Prop := m.length + 512 ≤ 2 ^ 64

def Out.ok : Out → Prop
  | .garbage => True
  | .handled _ ms => ∀ m ∈ ms, fine m

def Op.ok : Op → Prop
  | .push m => fine m
  | .proc _ os => ∀ o ∈ os, o.ok

/-- The messages that are not empty (an empty one is dropped by `mem_send`, which reports success). -/
def full (l : List Msg) : List Msg := l.filter fun m => m ≠ []

theorem full_append (a b : List Msg) : full (a ++ b) = full a ++ full b := List.filter_append ..

/-- The channel holds the queue of the messages sent and not yet got. -/
def Holds (hash : List Byte → Nat) (s : S) (q : List Msg) : Prop := Inv hash s.ch q ∧ full s.sent = s.got ++ q

theorem push_holds {hash : List Byte → Nat} {s : S} {q : List Msg} (h : Holds hash s q) {m : Msg} (hm : fine m) :
    ∃ s' q', push hash s m = some s' ∧ Holds hash s' q' ∧ s'.ch.conf = s.ch.conf ∧ s'.got = s.got ∧ s'.up = s.up ∧ s'.fault = s.fault ∧
      q <+: q' := by
  obtain ⟨h1, h2⟩ := h
  obtain ⟨c', e1, e2, e3⟩ := step_refines h1 (op := .send m) hm
  unfold implStep at e1
  simp only at e1
  unfold push
  cases hs : send hash s.ch m with
  | oob => rw [hs] at e1; cases e1
  | spin => rw [hs] at e1; cases e1
  | done c code =>
    rw [hs] at e1
    simp only [Option.some.injEq, Prod.mk.injEq] at e1
    obtain ⟨rfl, e1⟩ := e1
    unfold specStep at e1 e2
    simp only at e1 e2 ⊢
    by_cases h0 : m = []
    · rw [if_pos h0] at e1 e2
      have hc : code = 0 := (Ev.mk.injEq .. ▸ e1).1
      subst hc
      refine ⟨_, q, rfl, ⟨e2, ?_⟩, e3, rfl, rfl, rfl, List.prefix_refl _⟩
      have : full [m] = [] := by simp [full, h0]
      simp only [ge_iff_le, Int.le_refl, if_true, full_append, h2, this, List.append_nil]
    · rw [if_neg h0] at e1 e2
      split at e1
      · rename_i hr
        rw [if_pos hr] at e2
        have hc : code = 0 := (Ev.mk.injEq .. ▸ e1).1
        subst hc
        refine ⟨_, q ++ [m], rfl, ⟨e2, ?_⟩, e3, rfl, rfl, rfl, List.prefix_append ..⟩
        have : full [m] = [m] := by simp [full, h0]
        simp only [ge_iff_le, Int.le_refl, if_true, full_append, h2, this, List.append_assoc]
      · rename_i hr
        rw [if_neg hr] at e2
        have hc : code = Err.BUFF_LIMIT := (Ev.mk.injEq .. ▸ e1).1
        subst hc
        refine ⟨_, q, rfl, ⟨e2, ?_⟩, e3, rfl, rfl, rfl, List.prefix_refl _⟩
        have hneg : ¬ Err.BUFF_LIMIT ≥ 0 := by decide
        simp only [if_neg hneg]; exact h2

theorem pushes_holds {hash : List Byte → Nat} (ms : List Msg) : ∀ {s : S} {q : List Msg}, Holds hash s q → (∀ m ∈ ms, fine m) →
    ∃ s' q', pushes hash s ms = some s' ∧ Holds hash s' q' ∧ s'.ch.conf = s.ch.conf ∧ s'.got = s.got ∧ s'.up = s.up ∧
      s'.fault = s.fault ∧ q <+: q' := by
  induction ms with
  | nil => intro s q h _; exact ⟨s, q, rfl, h, rfl, rfl, rfl, rfl, List.prefix_refl _⟩
  | cons m ms ih =>
    intro s q h hm
    obtain ⟨s1, q1, e1, e2, e3, e4, e5, e6, e7⟩ := push_holds h (hm m List.mem_cons_self)
    obtain ⟨s2, q2, f1, f2, f3, f4, f5, f6, f7⟩ := ih e2 fun x hx => hm x (List.mem_cons_of_mem _ hx)
    exact ⟨s2, q2, by simp only [pushes, e1, f1], f2, f3.trans e3, f4.trans e4, f5.trans e5, f6.trans e6, e7.trans f7⟩

theorem addFault_ch (cf : Conf) (s : S) : (addFault cf s).ch = s.ch ∧ (addFault cf s).got = s.got ∧ (addFault cf s).sent = s.sent := by
  unfold addFault; split <;> exact ⟨rfl, rfl, rfl⟩

/-- The loop, from any state: what it gets is taken from the front of the queue. -/
theorem loop_holds {hash : List Byte → Nat} (cf : Conf) (now : Nat) : ∀ (k : Nat) (os : List Out) (s : S) (q : List Msg),
    Holds hash s q → (∀ o ∈ os, o.ok) → ∃ s' q', loop hash cf now k os s = some s' ∧ Holds hash s' q' ∧ s'.ch.conf = s.ch.conf := by
  intro k
  induction k with
  | zero => intro os s q h _; exact ⟨s, q, rfl, h, rfl⟩
  | succ k ih =>
    intro os s q h hos
    unfold loop
    split
    · refine ⟨_, q, rfl, ⟨?_, ?_⟩, ?_⟩
      · rw [(addFault_ch cf _).1]; exact h.1
      · rw [(addFault_ch cf _).2.1, (addFault_ch cf _).2.2]; exact h.2
      · rw [(addFault_ch cf _).1]
    · obtain ⟨h1, h2⟩ := h
      cases q with
      | nil =>
        rw [recv_empty h1]
        exact ⟨_, [], rfl, ⟨h1, h2⟩, rfl⟩
      | cons m q =>
        obtain ⟨r1, r2⟩ := recv_spec h1 now cf.buf
        by_cases hl : cf.buf < m.length
        · rw [r1 hl]
          refine ⟨_, m :: q, rfl, ⟨?_, ?_⟩, ?_⟩
          · rw [(addFault_ch cf _).1]; exact h1
          · rw [(addFault_ch cf _).2.1, (addFault_ch cf _).2.2]; exact h2
          · rw [(addFault_ch cf _).1]
        · obtain ⟨c', e1, e2, e3⟩ := r2 (by omega)
          rw [e1]
          have hne : ¬ Err.SUCCESS = Err.NO_DATA := by decide
          have hge : ¬ Err.SUCCESS < 0 := by decide
          simp only [if_neg hne, if_neg hge]
          have hold : ∀ f, Holds hash { s with ch := c', got := s.got ++ [m], fault := f } q := fun f =>
            ⟨e2, by show full s.sent = _; rw [h2, List.append_assoc]; rfl⟩
          cases os with
          | nil =>
            obtain ⟨s', q', a1, a2, a3⟩ := ih [] _ q (hold 0) (fun _ h => (List.not_mem_nil h).elim)
            exact ⟨s', q', a1, a2, a3.trans e3⟩
          | cons o os =>
            have hos' : ∀ o ∈ os, o.ok := fun x hx => hos x (List.mem_cons_of_mem _ hx)
            cases o with
            | garbage =>
              obtain ⟨s', q', a1, a2, a3⟩ := ih os _ q (hold s.fault) hos'
              exact ⟨s', q', a1, a2, a3.trans e3⟩
            | handled ok ms =>
              obtain ⟨s1, q1, b1, b2, b3, -⟩ := pushes_holds ms (hold s.fault) (hos _ List.mem_cons_self)
              have b1' : pushes hash { s with ch := c', got := s.got ++ [m] } ms = some s1 := b1
              simp only [b1']
              have hold1 : Holds hash (if ok = true then { s1 with fault := 0 } else addFault cf s1) q1 := by
                split
                · exact b2
                · exact ⟨by rw [(addFault_ch cf _).1]; exact b2.1, by rw [(addFault_ch cf _).2.1, (addFault_ch cf _).2.2]; exact b2.2⟩
              obtain ⟨s', q', a1, a2, a3⟩ := ih os _ q1 hold1 hos'
              refine ⟨s', q', a1, a2, ?_⟩
              rw [a3]
              have : (if ok = true then { s1 with fault := 0 } else addFault cf s1).ch = s1.ch := by
                split
                · rfl
                · exact (addFault_ch cf _).1
              rw [this, b3]; exact e3

theorem step_holds {hash : List Byte → Nat} (cf : Conf) {s : S} {q : List Msg} (h : Holds hash s q) (o : Op) (ho : o.ok) :
    ∃ s' q', step hash cf s o = some s' ∧ Holds hash s' q' ∧ s'.ch.conf = s.ch.conf := by
  cases o with
  | push m =>
    obtain ⟨s', q', a, b, c, -⟩ := push_holds h ho
    exact ⟨s', q', a, b, c⟩
  | proc now os =>
    by_cases hu : s.up = true
    · simp only [step, hu, if_true]
      exact loop_holds cf now cf.loop os s q h ho
    · exact ⟨s, q, by simp only [step, hu, Bool.false_eq_true, if_false], h, rfl⟩

theorem run_holds {hash : List Byte → Nat} (cf : Conf) (ops : List Op) : ∀ {s : S} {q : List Msg}, Holds hash s q → (∀ o ∈ ops, o.ok) →
    ∃ s' q', run hash cf s ops = some s' ∧ Holds hash s' q' ∧ s'.ch.conf = s.ch.conf := by
  induction ops with
  | nil => intro s q h _; exact ⟨s, q, rfl, h, rfl⟩
  | cons o l ih =>
    intro s q h ho
    obtain ⟨s1, q1, e1, e2, e3⟩ := step_holds cf h o (ho o List.mem_cons_self)
    obtain ⟨s2, q2, f1, f2, f3⟩ := ih e2 fun x hx => ho x (List.mem_cons_of_mem _ hx)
    exact ⟨s2, q2, by simp only [run, e1, f1], f2, f3.trans e3⟩

/-- C79 (order): after every history, whatever the handlers do, the receiving node got an initial part of the messages pushed with
success, in order, without change, loss or repetition (for calls that do not overlap; empty messages are dropped). -/
theorem C79_order_partial (hash : List Byte → Nat) (cf : Conf) (mc : Mem.Conf) (hmc : GoodConf mc) (ops : List Op) (hops : ∀ o ∈ ops, o.ok) :
    ∃ s, run hash cf (init mc) ops = some s ∧ s.got <+: full s.sent := by
  obtain ⟨s, q, h1, h2, -⟩ := run_holds cf ops (s := init mc) (q := []) ⟨inv_init (hash := hash) hmc.ok, rfl⟩ hops
  exact ⟨s, h1, by rw [h2.2]; exact List.prefix_append ..⟩

/-! ### Progress -/

/-- The handlers do not push into the channel. -/
def still : Out → Prop
  | .garbage => True
  | .handled ok ms => ok = true ∧ ms = []

theorem loop_takes {hash : List Byte → Nat} (cf : Conf) (now : Nat) : ∀ (k : Nat) (os : List Out) (s : S) (q : List Msg),
    Holds hash s q → (∀ o ∈ os, still o) → (∀ m ∈ q, m.length ≤ cf.buf) → s.up = true →
    ∃ s', loop hash cf now k os s = some s' ∧ Holds hash s' (q.drop k) ∧ s'.got = s.got ++ q.take k ∧ s'.sent = s.sent ∧ s'.up = true := by
  intro k
  induction k with
  | zero => intro os s q h _ _ hu; exact ⟨s, rfl, h, by simp, rfl, hu⟩
  | succ k ih =>
    intro os s q h hos hq hu
    unfold loop
    rw [if_neg (by rw [hu]; decide)]
    obtain ⟨h1, h2⟩ := h
    cases q with
    | nil =>
      rw [recv_empty h1]
      exact ⟨_, rfl, ⟨h1, h2⟩, by simp, rfl, hu⟩
    | cons m q =>
      have hl := hq m List.mem_cons_self
      obtain ⟨c', e1, e2, e3⟩ := (recv_spec h1 now cf.buf).2 hl
      rw [e1]
      have hne : ¬ Err.SUCCESS = Err.NO_DATA := by decide
      have hge : ¬ Err.SUCCESS < 0 := by decide
      simp only [if_neg hne, if_neg hge]
      have hold : ∀ f, Holds hash { s with ch := c', got := s.got ++ [m], fault := f } q := fun f =>
        ⟨e2, by show full s.sent = _; rw [h2, List.append_assoc]; rfl⟩
      have hq' : ∀ m ∈ q, m.length ≤ cf.buf := fun x hx => hq x (List.mem_cons_of_mem _ hx)
      have fin : ∀ (os : List Out), (∀ o ∈ os, still o) → ∀ f, ∃ s', loop hash cf now k os { s with ch := c', got := s.got ++ [m], fault := f } = some s' ∧
          Holds hash s' ((m :: q).drop (k + 1)) ∧ s'.got = s.got ++ (m :: q).take (k + 1) ∧ s'.sent = s.sent ∧ s'.up = true := by
        intro os hos f
        obtain ⟨s', a1, a2, a3, a4, a5⟩ := ih os _ q (hold f) hos hq' hu
        exact ⟨s', a1, a2, by rw [a3]; simp, a4, a5⟩
      cases os with
      | nil => exact fin [] hos 0
      | cons o os =>
        have hos' : ∀ o ∈ os, still o := fun x hx => hos x (List.mem_cons_of_mem _ hx)
        have ho := hos o List.mem_cons_self
        cases o with
        | garbage => exact fin os hos' s.fault
        | handled ok ms =>
          obtain ⟨rfl, rfl⟩ := ho
          exact fin os hos' 0

/-- A history of polls only. -/
def polls (l : List (Nat × List Out)) : List Op := l.map fun x => .proc x.1 x.2

/-- C79 (progress): if every message under way fits the buffer of the receiving node and the handlers end well, each poll gets exactly the
next `loop_times` of them, or all if there are fewer.  So everything pushed so far has arrived after enough polls. -/
theorem C79_arrives (hash : List Byte → Nat) (cf : Conf) (mc : Mem.Conf) (hmc : GoodConf mc) (ops : List Op) (hops : ∀ o ∈ ops, o.ok) (s : S)
    (hrun : run hash cf (init mc) ops = some s) (hup : s.up = true) (hfit : ∀ m ∈ s.sent, m.length ≤ cf.buf)
    (l : List (Nat × List Out)) (hl : ∀ x ∈ l, ∀ o ∈ x.2, still o) :
    ∃ s', run hash cf s (polls l) = some s' ∧ s'.got = (full s.sent).take (s.got.length + l.length * cf.loop) ∧ s'.up = true := by
  obtain ⟨s0, q, h1, h2, -⟩ := run_holds cf ops (s := init mc) (q := []) ⟨inv_init (hash := hash) hmc.ok, rfl⟩ hops
  rw [hrun, Option.some.injEq] at h1
  subst h1
  have hq : ∀ m ∈ q, m.length ≤ cf.buf := by
    intro m hm
    have : m ∈ full s.sent := by rw [h2.2]; exact List.mem_append_right _ hm
    exact hfit m (List.mem_filter.1 this).1
  clear hrun hops hfit
  revert s q
  induction l with
  | nil =>
    intro s hup q h2 _
    exact ⟨s, rfl, by rw [h2.2]; simp, hup⟩
  | cons x l ih =>
    intro s hup q h2 hq
    obtain ⟨s1, e1, e2, e3, e4, e5⟩ := loop_takes cf x.1 cf.loop x.2 s q h2 (hl x List.mem_cons_self) hq hup
    obtain ⟨s2, f1, f2, f3⟩ := ih (fun y hy => hl y (List.mem_cons_of_mem _ hy)) s1 e5 _ e2 (fun m hm => hq m (List.mem_of_mem_drop hm))
    refine ⟨s2, ?_, ?_, f3⟩
    · simp only [polls, List.map_cons, run, step, hup, if_true, e1]
      exact f1
    · rw [f2, e3, e4, h2.2, List.length_append, List.length_cons, Nat.add_mul, Nat.one_mul]
      rw [List.length_take]
      rw [List.take_append, List.take_append]
      congr 1
      · rw [List.take_of_length_le (by omega), List.take_of_length_le (by omega)]
      · by_cases hk : cf.loop ≤ q.length
        · congr 1; omega
        · rw [List.take_of_length_le (by omega), List.take_of_length_le (by omega)]

/-! ### What stops it -/

theorem closed_step {hash : List Byte → Nat} (cf : Conf) {s s' : S} (o : Op) (hu : s.up = false) (h : step hash cf s o = some s') :
    s'.up = false ∧ s'.got = s.got := by
  cases o with
  | push m =>
    simp only [step, push] at h
    split at h
    · cases h; exact ⟨hu, rfl⟩
    · cases h
  | proc now os =>
    simp only [step, hu, Bool.false_eq_true, if_false, Option.some.injEq] at h
    subst h
    exact ⟨hu, rfl⟩

/-- C79 (closed): a connection closed by faults gets nothing any more; the pushes of the other node still succeed as long as there is room
(`C79_blocked_false`). -/
theorem C79_closed {hash : List Byte → Nat} (cf : Conf) (ops : List Op) : ∀ {s s' : S}, s.up = false → run hash cf s ops = some s' →
    s'.up = false ∧ s'.got = s.got := by
  induction ops with
  | nil => intro s s' hu h; cases h; exact ⟨hu, rfl⟩
  | cons o l ih =>
    intro s s' hu h
    unfold run at h
    cases hs : step hash cf s o with
    | none => rw [hs] at h; cases h
    | some s1 =>
      rw [hs] at h
      obtain ⟨h1, h2⟩ := closed_step cf o hu hs
      obtain ⟨h3, h4⟩ := ih h1 h
      exact ⟨h3, h4.trans h2⟩

/-- Number of polls in a history. -/
def count (ops : List Op) : Nat := (ops.filter fun o => match o with | .proc .. => true | .push _ => false).length

/-- C79 (blocked): if the first message under way is larger than the static buffer of the receiving node, then nothing is got any more,
neither it nor anything behind it, and the connection is closed when more than `fault_tolerant` polls have been made. -/
theorem C79_blocked {hash : List Byte → Nat} (cf : Conf) (hloop : 0 < cf.loop) {m : Msg} (hm : cf.buf < m.length) (ops : List Op) :
    ∀ {s : S} {q : List Msg}, Holds hash s (m :: q) → (∀ o ∈ ops, o.ok) → s.fault ≤ cf.tol →
    ∃ s', run hash cf s ops = some s' ∧ s'.got = s.got ∧ (cf.tol < s.fault + count ops → s'.up = false) := by
  induction ops with
  | nil =>
    intro s q h _ hf
    exact ⟨s, rfl, rfl, fun hc => by simp only [count, List.filter_nil, List.length_nil] at hc; omega⟩
  | cons o l ih =>
    intro s q h ho hf
    have ho' : ∀ o ∈ l, o.ok := fun x hx => ho x (List.mem_cons_of_mem _ hx)
    by_cases hu : s.up = true
    · cases o with
      | push x =>
        obtain ⟨s1, q1, e1, e2, -, e4, e5, e6, e7⟩ := push_holds h (ho _ List.mem_cons_self)
        obtain ⟨r, rfl⟩ := e7
        obtain ⟨s2, f1, f2, f3⟩ := ih (s := s1) (q := q ++ r) e2 ho' (by omega)
        refine ⟨s2, by simp only [run, step, e1, f1], f2.trans e4, fun hc => f3 ?_⟩
        rw [e6]; exact hc
      | proc now os =>
        obtain ⟨k, hk⟩ : ∃ k, cf.loop = k + 1 := ⟨cf.loop - 1, by omega⟩
        have e1 : step hash cf s (.proc now os) = some (addFault cf s) := by
          simp only [step, if_pos hu, hk]
          unfold loop
          rw [if_neg (by rw [hu]; decide), (recv_spec h.1 now cf.buf).1 hm]
          rfl
        have hc0 : count (Op.proc now os :: l) = count l + 1 := by simp [count]
        by_cases hx : s.fault + 1 > cf.tol
        · have e2 : (addFault cf s).up = false := by simp [addFault, hx]
          obtain ⟨s2, q2, f1, -, -⟩ := run_holds cf l (s := addFault cf s) (q := m :: q)
            ⟨by rw [(addFault_ch cf _).1]; exact h.1, by rw [(addFault_ch cf _).2.1, (addFault_ch cf _).2.2]; exact h.2⟩ ho'
          obtain ⟨g1, g2⟩ := C79_closed cf l e2 f1
          exact ⟨s2, by simp only [run, e1, f1], g2.trans (addFault_ch cf s).2.1, fun _ => g1⟩
        · have e2 : addFault cf s = { s with fault := s.fault + 1 } := by simp [addFault, hx]
          rw [e2] at e1
          obtain ⟨s2, f1, f2, f3⟩ := ih (s := { s with fault := s.fault + 1 }) (q := q) h ho' (by show s.fault + 1 ≤ _; omega)
          refine ⟨s2, by simp only [run, e1, f1], f2, fun hc => f3 ?_⟩
          show cf.tol < s.fault + 1 + count l
          omega
    · have hu' : s.up = false := by simpa using hu
      obtain ⟨s2, q2, f1, -, -⟩ := run_holds cf (o :: l) h ho
      obtain ⟨g1, g2⟩ := C79_closed cf _ hu' f1
      exact ⟨s2, f1, g2, fun _ => g1⟩

/-- C79 (garbage): messages that `unpack` refuses are taken and dropped; they are no fault, so however many arrive the connection stays as
it is. -/
theorem C79_garbage {hash : List Byte → Nat} (cf : Conf) (now : Nat) : ∀ (k : Nat) (s : S) (q : List Msg) (os : List Out),
    Holds hash s q → (∀ m ∈ q, m.length ≤ cf.buf) → s.up = true → (∀ o ∈ os, o = Out.garbage) → k ≤ os.length →
    ∃ s', loop hash cf now k os s = some s' ∧ s'.got = s.got ++ q.take k ∧ s'.up = true ∧ s'.fault = s.fault := by
  intro k
  induction k with
  | zero => intro s q os _ _ hu _ _; exact ⟨s, rfl, by simp, hu, rfl⟩
  | succ k ih =>
    intro s q os h hq hu hos hk
    unfold loop
    rw [if_neg (by rw [hu]; decide)]
    obtain ⟨h1, h2⟩ := h
    cases q with
    | nil =>
      rw [recv_empty h1]
      exact ⟨_, rfl, by simp, hu, rfl⟩
    | cons m q =>
      obtain ⟨c', e1, e2, e3⟩ := (recv_spec h1 now cf.buf).2 (hq m List.mem_cons_self)
      rw [e1]
      have hne : ¬ Err.SUCCESS = Err.NO_DATA := by decide
      have hge : ¬ Err.SUCCESS < 0 := by decide
      simp only [if_neg hne, if_neg hge]
      cases os with
      | nil => simp at hk
      | cons o os =>
        obtain rfl := hos o List.mem_cons_self
        obtain ⟨s', a1, a2, a3, a4⟩ := ih { s with ch := c', got := s.got ++ [m] } q os
          ⟨e2, by show full s.sent = _; rw [h2, List.append_assoc]; rfl⟩ (fun x hx => hq x (List.mem_cons_of_mem _ hx)) hu
          (fun x hx => hos x (List.mem_cons_of_mem _ hx)) (by simp only [List.length_cons] at hk; omega)
        exact ⟨s', a1, by rw [a2]; simp, a3, a4⟩

/-- The faults after `n` messages, counting from `f`: failures since the last message that was handled well. -/
def tally : Nat → Nat → List Out → Nat
  | f, 0, _ => f
  | _, n + 1, [] => tally 0 n []
  | f, n + 1, .garbage :: os => tally f n os
  | _, n + 1, .handled true _ :: os => tally 0 n os
  | f, n + 1, .handled false _ :: os => tally (f + 1) n os

/-- Never more than `tol` failures in a row (counting from `f`), and no pushes by the handlers. -/
def calm (tol : Nat) : Nat → List Out → Prop
  | _, [] => True
  | f, .garbage :: os => calm tol f os
  | _, .handled true ms :: os => ms = [] ∧ calm tol 0 os
  | f, .handled false ms :: os => ms = [] ∧ f + 1 ≤ tol ∧ calm tol (f + 1) os

/-- C79 (failures): handlers may fail; as long as no more than `fault_tolerant` do so in a row, a poll gets the next `loop_times` messages,
the connection stays open, and its fault count is the number of failures since the last message that was handled well. -/
theorem C79_failures {hash : List Byte → Nat} (cf : Conf) (now : Nat) : ∀ (k : Nat) (os : List Out) (s : S) (q : List Msg),
    Holds hash s q → calm cf.tol s.fault os → (∀ m ∈ q, m.length ≤ cf.buf) → s.up = true →
    ∃ s', loop hash cf now k os s = some s' ∧ s'.got = s.got ++ q.take k ∧ s'.up = true ∧ s'.fault = tally s.fault (min k q.length) os := by
  intro k
  induction k with
  | zero => intro os s q _ _ _ hu; exact ⟨s, rfl, by simp, hu, by rw [Nat.zero_min]; cases os <;> rfl⟩
  | succ k ih =>
    intro os s q h hos hq hu
    unfold loop
    rw [if_neg (by rw [hu]; decide)]
    obtain ⟨h1, h2⟩ := h
    cases q with
    | nil =>
      rw [recv_empty h1]
      exact ⟨_, rfl, by simp, hu, by rw [List.length_nil, Nat.min_zero]; cases os <;> rfl⟩
    | cons m q =>
      obtain ⟨c', e1, e2, e3⟩ := (recv_spec h1 now cf.buf).2 (hq m List.mem_cons_self)
      rw [e1]
      have hne : ¬ Err.SUCCESS = Err.NO_DATA := by decide
      have hge : ¬ Err.SUCCESS < 0 := by decide
      simp only [if_neg hne, if_neg hge]
      have hmin : min (k + 1) (m :: q).length = min k q.length + 1 := by simp only [List.length_cons]; omega
      rw [hmin]
      have fin : ∀ (os : List Out) (f : Nat), calm cf.tol f os → ∃ s', loop hash cf now k os { s with ch := c', got := s.got ++ [m], fault := f } = some s' ∧
          s'.got = s.got ++ (m :: q).take (k + 1) ∧ s'.up = true ∧ s'.fault = tally f (min k q.length) os := by
        intro os f hc
        obtain ⟨s', a1, a2, a3, a4⟩ := ih os { s with ch := c', got := s.got ++ [m], fault := f } q
          ⟨e2, by show full s.sent = _; rw [h2, List.append_assoc]; rfl⟩ hc (fun x hx => hq x (List.mem_cons_of_mem _ hx)) hu
        exact ⟨s', a1, by rw [a2]; simp, a3, a4⟩
      cases os with
      | nil => exact fin [] 0 trivial
      | cons o os =>
        cases o with
        | garbage => exact fin os s.fault hos
        | handled ok ms =>
          cases ok with
          | true => obtain ⟨rfl, hos⟩ := hos; exact fin os 0 hos
          | false =>
            obtain ⟨rfl, hf, hos⟩ := hos
            have := fin os (s.fault + 1) hos
            have hx : ¬ s.fault + 1 > cf.tol := by omega
            have e : addFault cf { s with ch := c', got := s.got ++ [m] } = { s with ch := c', got := s.got ++ [m], fault := s.fault + 1 } := by
              simp only [addFault, if_neg hx]
            simp only [pushes, Bool.false_eq_true, if_false, e]
            exact this

example : calm 2 1 [.handled false [], .garbage, .handled true [], .handled false [], .handled false []] ∧
    tally 1 5 [.handled false [], .garbage, .handled true [], .handled false [], .handled false []] = 2 := by
  simp [calm, tally]

/-! ### Literals -/

/-- What is shown of a state. -/
def view (r : Option S) : Option (List Msg × List Msg × Bool × Nat) := r.map fun s => (s.sent, s.got, s.up, s.fault)

/-- C79 is false of larger messages: a message that `mem_send` accepts but that is longer than the static buffer of the receiving node stops
the channel.  After three polls the connection is closed; the push of the next message succeeds and nothing is ever got. -/
theorem C79_blocked_false :
    view (run (fun _ => 0) ⟨2, 3, 100⟩ (init ⟨6, 0, 0, 4, 4⟩)
      [.push (List.replicate 300 7), .push [1, 2, 3], .proc 0 [], .proc 1 [], .proc 2 [], .push [4]]) =
      some ([List.replicate 300 7, [1, 2, 3], [4]], [], false, 0) := by decide +kernel

example : ∃ s, run (fun _ => 0) ⟨2, 3, 100⟩ (init ⟨6, 0, 0, 4, 4⟩) [.push (List.replicate 300 7)] = some s ∧
    Holds (fun _ => 0) s [List.replicate 300 7] ∧ s.fault ≤ 2 := by
  obtain ⟨s', q', h1, h2, -⟩ := run_holds (hash := fun _ => 0) ⟨2, 3, 100⟩ [.push (List.replicate 300 7)] (s := init ⟨6, 0, 0, 4, 4⟩) (q := [])
    ⟨inv_init (GoodConf.ok ⟨by decide, by decide, by decide, by decide, by decide⟩), rfl⟩
    (by intro o ho; simp only [List.mem_singleton] at ho; subst ho; show fine _; unfold fine; rw [List.length_replicate]; decide)
  refine ⟨s', h1, ?_, ?_⟩
  · have hv := congrArg view h1
    have hw : view (run (fun _ => 0) ⟨2, 3, 100⟩ (init ⟨6, 0, 0, 4, 4⟩) [.push (List.replicate 300 7)]) =
        some ([List.replicate 300 7], [], true, 0) := by decide +kernel
    rw [hw] at hv
    simp only [view, Option.map_some, Option.some.injEq, Prod.mk.injEq] at hv
    have h3 := h2.2
    rw [← hv.1, ← hv.2.1] at h3
    have : q' = [List.replicate 300 7] := h3.symm
    rw [this] at h2
    exact h2
  · have hv := congrArg view h1
    have hw : view (run (fun _ => 0) ⟨2, 3, 100⟩ (init ⟨6, 0, 0, 4, 4⟩) [.push (List.replicate 300 7)]) =
        some ([List.replicate 300 7], [], true, 0) := by decide +kernel
    rw [hw] at hv
    simp only [view, Option.map_some, Option.some.injEq, Prod.mk.injEq] at hv
    omega

-- two nodes at work: a garbled message, a handler that pushes, one that fails; two messages per poll
example : view (run (fun _ => 0) ⟨2, 2, 400⟩ (init ⟨6, 0, 0, 4, 4⟩)
    [.push [1], .push (List.replicate 300 7), .push [3], .push [], .proc 0 [.garbage, .handled true [[9, 9]]], .proc 1 [.handled false []],
      .push [4], .proc 2 []]) =
    some ([[1], List.replicate 300 7, [3], [], [9, 9], [4]], [[1], List.replicate 300 7, [3], [9, 9], [4]], true, 0) := by decide +kernel

-- three handlers in a row fail: the connection is closed, the fourth message stays in the channel
example : view (run (fun _ => 0) ⟨2, 8, 400⟩ (init ⟨6, 0, 0, 4, 4⟩)
    [.push [1], .push [2], .push [3], .push [4], .proc 0 [.handled false [], .handled false [], .handled false []], .proc 1 []]) =
    some ([[1], [2], [3], [4]], [[1], [2], [3]], false, 1) := by decide +kernel

end Verif.Node.Pipe
