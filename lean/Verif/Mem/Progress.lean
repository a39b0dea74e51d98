import Verif.Mem.ConcTerm
import Verif.Mem.ConcProps

/-!
Property C82: `mem_send` (`src/channel_mem.cpp:536-672`) returns after a bounded number of its own accesses, except for accesses
that are spent because another sender has taken an operation number or reserved nodes meanwhile, or because a compare and swap
failed spuriously.  The model is `Conc.lean`; no assumption on the content of the memory, on other senders or on the receiver.
-/
namespace Verif.Mem.Conc

set_option maxRecDepth 10000

/-! ### Specification -/

/-- The step is an access of sender `t`. -/
def Ev.by (t : Nat) : Ev → Bool
  | .send u _ => u = t
  | _ => false

/-- The step holds sender `t` up: another sender takes an operation number or reserves nodes, or a compare and swap of `t` fails
spuriously. -/
def holds (t : Nat) (s s1 : St) : Ev → Bool
  | .send u weak => if u = t then weak else decide (s1.oseq ≠ s.oseq) || decide (s1.resv.length ≠ s.resv.length)
  | _ => false

/-- Number of such steps of a run. -/
def heldUp (hash : List Byte → Nat) (t : Nat) (s : St) : List Ev → Nat
  | [] => 0
  | e :: es => match step hash s e with
    | none => 0
    | some s1 => (if holds t s s1 e then 1 else 0) + heldUp hash t s1 es

/-! ### Length of the list of accesses -/

theorem contNodes_some {n stop : Nat} (hs : stop < n) : ∀ {fuel i : Nat}, i < n → dist n i stop < fuel →
    ∃ is, contNodes n stop fuel i = some is ∧ is.length = dist n i stop := by
  intro fuel
  induction fuel with
  | zero => intro i _ h; omega
  | succ fuel ih =>
    intro i hi h
    unfold contNodes
    by_cases e : i = stop
    · rw [if_pos e]
      refine ⟨[], rfl, ?_⟩
      rw [dist_eq hi hs, if_pos (by omega)]
      simp only [List.length_nil]
      omega
    · rw [if_neg e]
      have hd := dist_next hi hs e
      have hp := dist_pos hi hs e
      obtain ⟨is, h1, h2⟩ := ih (next_lt (k := 1) (i := i) (by omega)) (by omega)
      exact ⟨i :: is, by rw [h1]; rfl, by rw [List.length_cons, h2]; omega⟩

theorem puts_len (off : Nat) (bs : List Byte) : (puts off bs).length = bs.length := by simp [puts]

theorem copyActs_len (n w w' : Nat) (m : Msg) : (copyActs n w w' m).length = m.length := by
  unfold copyActs
  simp only
  split
  · rw [List.length_append, puts_len, puts_len, List.length_take, List.length_drop]
    split <;> omega
  · rw [puts_len]

theorem flatMap_len (is : List Nat) (seq : Nat) :
    (is.flatMap fun i => [Act.flag i false true, Act.seq i seq]).length = 2 * is.length := by
  induction is with
  | nil => rfl
  | cons i is ih => rw [List.flatMap_cons, List.length_append, ih]; simp only [List.length_cons, List.length_nil]; omega

theorem prog_len {hash : List Byte → Nat} {n w w' seq : Nat} {m : Msg} (hn : 0 < n) (hw : w' < n) :
    ∃ acts, prog hash n w w' seq m = some acts ∧ acts ≠ [] ∧ acts.length < m.length + 2 * n + 9 := by
  have hd := dist_lt (a := next n w 1) (b := w') hn
  obtain ⟨is, h1, h2⟩ := contNodes_some hw (next_lt (k := 1) (i := w) hn) (fuel := n + 1) (by omega)
  unfold prog
  rw [h1]
  refine ⟨_, rfl, ?_, ?_⟩
  · simp
  · simp only [List.length_append, List.length_cons, List.length_nil, flatMap_len, copyActs_len]
    omega

/-! ### Accesses left -/

/-- Bound for the accesses left without interference. -/
def ahead (s : St) : SPC → Nat
  | .idle | .stuck => 0
  | .fetch m left => left * (m.length + 2 * s.conf.n + 15) + (if (s.oseq + 1) % 2 ^ 32 = 0 then 2 else 1) + (m.length + 2 * s.conf.n + 13)
  | .loadW m left _ => left * (m.length + 2 * s.conf.n + 15) + (m.length + 2 * s.conf.n + 13)
  | .loadR m left _ w _ => left * (m.length + 2 * s.conf.n + 15) + (if s.wcur = w then 2 else 4) + (m.length + 2 * s.conf.n + 10)
  | .cas m left _ w _ _ => left * (m.length + 2 * s.conf.n + 15) + (if s.wcur = w then 1 else 3) + (m.length + 2 * s.conf.n + 10)
  | .work m left _ _ _ todo _ => left * (m.length + 2 * s.conf.n + 15) + todo.length + 1
  | .verify m left _ _ _ => left * (m.length + 2 * s.conf.n + 15) + 1

theorem two_zero (x : Nat) (h : (x + 1) % 2 ^ 32 = 0) : ((x + 1) % 2 ^ 32 + 1) % 2 ^ 32 ≠ 0 := by rw [h]; decide

/-- An access of the sender. -/
theorem ahead_own {hash : List Byte → Nat} {s s1 : St} {t : Nat} {weak : Bool} (hn : 0 < s.conf.n)
    (hs : stepSend hash s t weak = some s1) :
    s1.thr t ≠ .stuck ∧ ahead s1 (s1.thr t) + 1 ≤ ahead s (s.thr t) + (if weak then 2 else 0) := by
  unfold stepSend at hs
  cases hp : s.thr t with
  | idle => rw [hp] at hs; cases hs
  | stuck => rw [hp] at hs; cases hs
  | fetch m left =>
    rw [hp] at hs
    simp only [Option.some.injEq] at hs
    by_cases hv : (s.oseq + 1) % 2 ^ 32 = 0
    · rw [if_pos hv] at hs
      subst hs
      rw [show ({ s with oseq := (s.oseq + 1) % 2 ^ 32 } : St).thr t = .fetch m left from hp]
      refine ⟨nofun, ?_⟩
      simp only [ahead]
      rw [if_pos hv, if_neg (two_zero _ hv)]
      omega
    · rw [if_neg hv] at hs
      subst hs
      simp only [St.pc, setThr_self]
      refine ⟨nofun, ?_⟩
      simp only [ahead]
      rw [if_neg hv]
      omega
  | loadW m left seq =>
    rw [hp] at hs
    simp only [Option.some.injEq] at hs
    subst hs
    simp only [St.pc, setThr_self]
    refine ⟨nofun, ?_⟩
    simp only [ahead, if_true]
    omega
  | loadR m left seq w wT =>
    rw [hp] at hs
    simp only at hs
    split at hs
    · simp only [Option.some.injEq] at hs
      subst hs
      simp only [St.returns, setThr_self]
      refine ⟨nofun, ?_⟩
      simp only [ahead]
      split <;> omega
    · simp only [Option.some.injEq] at hs
      subst hs
      simp only [St.pc, setThr_self]
      refine ⟨nofun, ?_⟩
      simp only [ahead]
      split <;> omega
  | cas m left seq w wT k =>
    rw [hp] at hs
    simp only at hs
    split at hs
    · rename_i hc
      simp only [Option.some.injEq] at hs
      subst hs
      simp only [St.pc, setThr_self]
      refine ⟨nofun, ?_⟩
      simp only [ahead, if_true]
      rcases hc with h | h
      · rw [if_neg h]; omega
      · rw [h]; simp only [if_true]; split <;> omega
    · rename_i hc
      have hw : s.wcur = w := Decidable.of_not_not fun e => hc (Or.inl e)
      obtain ⟨acts, h1, -, h3⟩ := prog_len (hash := hash) (w := w) (seq := seq) (m := m) hn (next_lt (i := w) (k := k) hn)
      rw [h1] at hs
      simp only [Option.some.injEq] at hs
      subst hs
      simp only [St.pc, setThr_self]
      refine ⟨nofun, ?_⟩
      simp only [ahead]
      rw [if_pos hw]
      omega
  | work m left seq w id todo reg =>
    rw [hp] at hs
    cases todo with
    | nil => cases hs
    | cons a rest =>
      simp only at hs
      split at hs
      · simp only [Option.some.injEq] at hs
        subst hs
        simp only [St.pc, setThr_self]
        refine ⟨nofun, ?_⟩
        simp only [ahead, List.length_cons]
        omega
      · simp only [Option.some.injEq] at hs
        subst hs
        simp only [St.pc, setThr_self]
        refine ⟨nofun, ?_⟩
        simp only [ahead, List.length_cons]
        omega
  | verify m left seq w id =>
    rw [hp] at hs
    simp only at hs
    split at hs
    · simp only [Option.some.injEq] at hs
      subst hs
      simp only [St.returns, setThr_self]
      refine ⟨nofun, ?_⟩
      simp only [ahead]
      omega
    · cases left with
      | zero =>
        simp only [Option.some.injEq] at hs
        subst hs
        simp only [St.returns, setThr_self]
        refine ⟨nofun, ?_⟩
        simp only [ahead]
        omega
      | succ left =>
        simp only [Option.some.injEq] at hs
        subst hs
        simp only [St.pc, setThr_self]
        refine ⟨nofun, ?_⟩
        simp only [ahead, Nat.add_mul]
        split <;> omega

/-- What another step changes. -/
theorem ahead_le {s s1 : St} {p : SPC} (hc : s1.conf = s.conf) : ahead s1 p ≤ ahead s p + 2 := by
  cases p <;> simp only [ahead, hc] <;> (repeat' split) <;> omega

theorem ahead_eq {s s1 : St} {p : SPC} (hc : s1.conf = s.conf) (hw : s1.wcur = s.wcur) (ho : s1.oseq = s.oseq) :
    ahead s1 p = ahead s p := by
  cases p <;> simp only [ahead, hc, hw, ho]

/-- An access of another sender. -/
theorem send_other {hash : List Byte → Nat} {s s1 : St} {u : Nat} {weak : Bool} (hs : stepSend hash s u weak = some s1) :
    (∀ t, t ≠ u → s1.thr t = s.thr t) ∧ (s1.resv.length = s.resv.length → s1.wcur = s.wcur) := by
  have fin : ∀ {p : SPC} {s2 : St}, some (s2.pc u p) = some s1 → s2.thr = s.thr → (s2.resv.length = s.resv.length → s2.wcur = s.wcur) →
      (∀ t, t ≠ u → s1.thr t = s.thr t) ∧ (s1.resv.length = s.resv.length → s1.wcur = s.wcur) := by
    intro p s2 h1 h2 h3
    simp only [Option.some.injEq] at h1
    subst h1
    refine ⟨fun t ht => ?_, h3⟩
    show setThr s2.thr u p t = _
    rw [← h2]
    exact if_neg ht
  have ret : ∀ {m : Msg} {c : Int}, some (s.returns u m c) = some s1 →
      (∀ t, t ≠ u → s1.thr t = s.thr t) ∧ (s1.resv.length = s.resv.length → s1.wcur = s.wcur) := by
    intro m c h1
    simp only [Option.some.injEq] at h1
    subst h1
    exact ⟨fun t ht => if_neg ht, fun _ => rfl⟩
  unfold stepSend at hs
  cases hp : s.thr u with
  | idle => rw [hp] at hs; cases hs
  | stuck => rw [hp] at hs; cases hs
  | fetch m left =>
    rw [hp] at hs
    simp only at hs
    split at hs
    · simp only [Option.some.injEq] at hs
      subst hs
      exact ⟨fun t _ => rfl, fun _ => rfl⟩
    · exact fin hs rfl (fun _ => rfl)
  | loadW m left seq => rw [hp] at hs; exact fin hs rfl (fun _ => rfl)
  | loadR m left seq w wT =>
    rw [hp] at hs
    simp only at hs
    split at hs
    · exact ret hs
    · exact fin hs rfl (fun _ => rfl)
  | cas m left seq w wT k =>
    rw [hp] at hs
    simp only at hs
    split at hs
    · exact fin hs rfl (fun _ => rfl)
    · split at hs
      · exact fin hs rfl (fun e => by simp at e)
      · exact fin hs rfl (fun e => by simp at e)
  | work m left seq w id todo reg =>
    rw [hp] at hs
    cases todo with
    | nil => cases hs
    | cons a rest =>
      simp only at hs
      split at hs
      · exact fin hs rfl (fun _ => rfl)
      · exact fin hs rfl (fun _ => rfl)
  | verify m left seq w id =>
    rw [hp] at hs
    simp only at hs
    split at hs
    · exact ret hs
    · cases left with
      | zero => exact ret hs
      | succ left => exact fin hs rfl (fun _ => rfl)

theorem callSend_oseq (s : St) (t : Nat) (m : Msg) : (callSend s t m).oseq = s.oseq := by
  unfold callSend
  split
  · rfl
  · split
    · rfl
    · split <;> rfl

theorem callSend_thr (s : St) {t u : Nat} (m : Msg) (h : u ≠ t) : (callSend s t m).thr u = s.thr u := by
  unfold callSend
  split
  · exact if_neg h
  · split
    · exact if_neg h
    · split <;> exact if_neg h

theorem stepRecv_wcur {hash : List Byte → Nat} {s s1 : St} {now : Nat} (hs : stepRecv hash s now = some s1) : s1.wcur = s.wcur := by
  unfold stepRecv at hs
  simp only at hs
  cases hp : s.rpc <;> simp only [hp] at hs <;> (repeat' split at hs) <;> first | (cases hs; done) | skip
  all_goals (simp only [Option.some.injEq] at hs; subst hs; rfl)

/-- Each step. -/
theorem ahead_step {hash : List Byte → Nat} {s s1 : St} {t : Nat} {e : Ev} (hn : 0 < s.conf.n) (hne : ∀ m, e ≠ .call t m)
    (hp : s.thr t ≠ .stuck) (hs : step hash s e = some s1) :
    s1.conf = s.conf ∧ s1.thr t ≠ .stuck ∧
    ahead s1 (s1.thr t) + (if e.by t then 1 else 0) ≤ ahead s (s.thr t) + 2 * (if holds t s s1 e then 1 else 0) := by
  cases e with
  | call u m =>
    have hu : t ≠ u := fun e => hne m (by rw [e])
    simp only [step] at hs
    split at hs
    · simp only [Option.some.injEq] at hs
      subst hs
      have hc := (callSend_frame s u m).2.2.2.2.2.2.1
      refine ⟨hc, by rw [callSend_thr _ _ hu]; exact hp, ?_⟩
      rw [callSend_thr _ _ hu, ahead_eq hc (callSend_cur s u m).1 (callSend_oseq s u m)]
      exact Nat.le_refl _
    · cases hs
  | send u weak =>
    simp only [step] at hs
    split at hs
    · have hc := (stepSend_frame hs).2.2.2.2.2.1
      by_cases hu : u = t
      · subst hu
        obtain ⟨a, b⟩ := ahead_own hn hs
        refine ⟨hc, a, ?_⟩
        simp only [Ev.by, holds, if_true, decide_true]
        cases weak <;> simp only [if_true, if_false, Bool.false_eq_true] at b ⊢ <;> omega
      · obtain ⟨a, b⟩ := send_other hs
        refine ⟨hc, by rw [a t (Ne.symm hu)]; exact hp, ?_⟩
        rw [a t (Ne.symm hu)]
        simp only [Ev.by, hu, decide_false, holds, if_false, Bool.false_eq_true]
        by_cases h1 : s1.oseq = s.oseq
        · by_cases h2 : s1.resv.length = s.resv.length
          · rw [ahead_eq hc (b h2) h1]; omega
          · have := ahead_le (p := s.thr t) hc
            simp only [h2, ne_eq, not_false_eq_true, decide_true, Bool.or_true, if_true]
            omega
        · have := ahead_le (p := s.thr t) hc
          simp only [h1, ne_eq, not_false_eq_true, decide_true, Bool.true_or, if_true]
          omega
    · cases hs
  | crash u =>
    simp only [step, Option.some.injEq] at hs
    subst hs
    exact ⟨rfl, hp, Nat.le_of_eq (ahead_eq rfl rfl rfl)⟩
  | recv len =>
    simp only [step] at hs
    split at hs
    · simp only [Option.some.injEq] at hs
      subst hs
      exact ⟨rfl, hp, Nat.le_of_eq (ahead_eq rfl rfl rfl)⟩
    · cases hs
  | rstep now =>
    have hs : stepRecv hash s now = some s1 := hs
    have hc := (stepRecv_frame hs).2.2.2.2.1
    obtain ⟨-, h1, h2⟩ := stepRecv_seq hs
    refine ⟨hc, by rw [h1]; exact hp, ?_⟩
    rw [h1, ahead_eq hc (stepRecv_wcur hs) h2]
    exact Nat.le_refl _

theorem ahead_run {hash : List Byte → Nat} {t : Nat} : ∀ {es : List Ev} {s s1 : St}, 0 < s.conf.n → s.thr t ≠ .stuck →
    (∀ m, Ev.call t m ∉ es) → run hash s es = some s1 →
    s1.conf = s.conf ∧ s1.thr t ≠ .stuck ∧ ahead s1 (s1.thr t) + es.countP (Ev.by t) ≤ ahead s (s.thr t) + 2 * heldUp hash t s es := by
  intro es
  induction es with
  | nil =>
    intro s s1 _ hp _ hs
    simp only [run, Option.some.injEq] at hs
    subst hs
    exact ⟨rfl, hp, by simp [heldUp]⟩
  | cons e es ih =>
    intro s s1 hn hp hne hs
    simp only [run] at hs
    split at hs
    · cases hs
    · rename_i s2 h2
      obtain ⟨a1, a2, a3⟩ := ahead_step (t := t) hn (fun m e' => hne m (by rw [e']; exact List.mem_cons_self)) hp h2
      obtain ⟨b1, b2, b3⟩ := ih (by rw [a1]; exact hn) a2 (fun m h => hne m (List.mem_cons_of_mem _ h)) hs
      refine ⟨by rw [b1, a1], b2, ?_⟩
      simp only [heldUp, h2, List.countP_cons]
      omega

/-! ### C82 -/

theorem ahead_pos (s : St) {p : SPC} (h : p ≠ .idle) (h2 : p ≠ .stuck) : 0 < ahead s p := by
  cases p <;> simp only [ahead] <;> first | exact absurd rfl h | exact absurd rfl h2 | (repeat' split) <;> omega

/-- C82: a call of `mem_send` that has not returned has made less than `retry * (length + 2 n + 15)` accesses, and two more for
each time it was held up.  The content of the memory, the other senders and the receiver are arbitrary. -/
theorem C82_returns {hash : List Byte → Nat} {s s1 : St} {t : Nat} {m : Msg} {es : List Ev} (hn : 0 < s.conf.n)
    (hne : ∀ m', Ev.call t m' ∉ es) (hs : run hash s (.call t m :: es) = some s1) (hopen : s1.thr t ≠ .idle) :
    es.countP (Ev.by t) < s.conf.retry * (m.length + 2 * s.conf.n + 15) + 2 * heldUp hash t (callSend s t m) es := by
  simp only [run, step] at hs
  split at hs
  · cases hs
  · rename_i s2 h2
    split at h2
    case isFalse => cases h2
    rename_i hc
    simp only [Option.some.injEq] at h2
    subst h2
    have hcf := (callSend_frame s t m).2.2.2.2.2.2.1
    have hst : (callSend s t m).thr t ≠ .stuck ∧ ahead (callSend s t m) ((callSend s t m).thr t) ≤ s.conf.retry * (m.length + 2 * s.conf.n + 15) := by
      unfold callSend
      split
      · simp only [St.returns, setThr_self]; exact ⟨nofun, Nat.zero_le _⟩
      · rename_i left hr
        split
        · simp only [St.returns, setThr_self]; exact ⟨nofun, Nat.zero_le _⟩
        · split
          · simp only [St.returns, setThr_self]; exact ⟨nofun, Nat.zero_le _⟩
          · simp only [St.pc, setThr_self]
            refine ⟨nofun, ?_⟩
            rw [hr]
            simp only [ahead, Nat.succ_eq_add_one, Nat.add_mul]
            split <;> omega
    obtain ⟨-, h4, h5⟩ := ahead_run (t := t) (by rw [hcf]; exact hn) hst.1 hne hs
    have := ahead_pos s1 hopen h4
    omega

/- sender 0 loads the write cursor, sender 1 sends a message, the first compare and swap of sender 0 fails -/
example : let es := sends 0 3 ++ (.call 1 [6, 7] :: sends 1 16) ++ sends 0 8
    (run hsum (St.init conf8) (.call 0 [5] :: es)).map (fun s => (s.resv, s.sent.map (·.2.2), decide (s.thr 0 = .idle))) =
      some ([[6, 7], [5]], [Err.SUCCESS], false) ∧
    es.countP (Ev.by 0) = 11 ∧ heldUp hsum 0 (callSend (St.init conf8) 0 [5]) es = 2 := ⟨by decide +kernel, by decide +kernel, by decide +kernel⟩

theorem callSend_stuck (s : St) (t : Nat) (m : Msg) : (callSend s t m).thr t ≠ .stuck := by
  unfold callSend
  split
  · simp only [St.returns, setThr_self]; nofun
  · split
    · simp only [St.returns, setThr_self]; nofun
    · split
      · simp only [St.returns, setThr_self]; nofun
      · simp only [St.pc, setThr_self]; nofun

theorem stuck_run {hash : List Byte → Nat} {t : Nat} : ∀ {es : List Ev} {s s1 : St}, 0 < s.conf.n → s.thr t ≠ .stuck →
    run hash s es = some s1 → s1.conf = s.conf ∧ s1.thr t ≠ .stuck := by
  intro es
  induction es with
  | nil =>
    intro s s1 _ hp hs
    simp only [run, Option.some.injEq] at hs
    subst hs
    exact ⟨rfl, hp⟩
  | cons e es ih =>
    intro s s1 hn hp hs
    simp only [run] at hs
    split at hs
    · cases hs
    · rename_i s2 h2
      have h3 : s2.conf = s.conf ∧ s2.thr t ≠ .stuck := by
        by_cases he : ∃ m, e = .call t m
        · obtain ⟨m, rfl⟩ := he
          simp only [step] at h2
          split at h2
          · simp only [Option.some.injEq] at h2
            subst h2
            exact ⟨(callSend_frame s t m).2.2.2.2.2.2.1, callSend_stuck s t m⟩
          · cases h2
        · obtain ⟨a1, a2, -⟩ := ahead_step (t := t) hn (fun m e' => he ⟨m, e'⟩) hp h2
          exact ⟨a1, a2⟩
      obtain ⟨b1, b2⟩ := ih (by rw [h3.1]; exact hn) h3.2 hs
      exact ⟨by rw [b1, h3.1], b2⟩

/-- C82: a call of `mem_send` never ends in a loop over nodes that does not end. -/
theorem C82_not_stuck {hash : List Byte → Nat} {conf : Conf} {es : List Ev} {s : St} (hn : 0 < conf.n)
    (hs : run hash (St.init conf) es = some s) (t : Nat) : s.thr t ≠ .stuck :=
  (stuck_run (s := St.init conf) hn (by nofun) hs).2

example : (run hsum (St.init conf8) turns).map (fun s => (s.thr 0, s.thr 1, s.resv)) = some (.idle, .idle, [[5], [6, 7]]) := by
  decide +kernel

end Verif.Mem.Conc
