import Verif.Node.Delay

/-!
C101: the delay that is measured with a ping.
-/
namespace Verif.Node.Delay

/-! ### Specification -/

/-- Milliseconds of a clock reading. -/
def ms (sec usec : Int) : Int := sec * 1000 + (usec / 1000) % 1000

/-- A reading within the first 292 million years, with a number of microseconds that is not negative. -/
def Usual (sec usec : Int) : Prop := 0 ≤ sec ∧ sec ≤ 9223372036854774 ∧ 0 ≤ usec

/-- The number of microseconds is below a second. -/
def Normal (usec : Int) : Prop := 0 ≤ usec ∧ usec < 1000000

/-- The other end makes up no pongs. -/
def Ev.honest : Ev → Prop
  | .forge _ => False
  | _ => True

/-- The times that the application gives are usual ones. -/
def Ev.usual : Ev → Prop
  | .start sec usec | .proc sec usec => Usual sec usec
  | _ => True

/-- The node is not started again, and seconds are full. -/
def Ev.forward : Ev → Prop
  | .start _ _ => False
  | .proc _ usec => Normal usec
  | _ => True

/-- A sequence number is taken. -/
def Ev.takes : Ev → Bool
  | .ping _ | .other => true
  | _ => false

/-! ### Invariant -/

/-- Numbers of the pings, in order. -/
def Sorted (l : List (Nat × Int × Int)) : Prop := l.Pairwise fun x y => x.1 < y.1

structure Inv (s : S) : Prop where
  flight : ∀ m ∈ s.out ++ s.back, ∃ a b, (m.seq, a, b) ∈ s.sent ∧ millis a b = some m.time
  sorted : Sorted s.sent
  low : ∀ x ∈ s.sent, 0 < x.1 ∧ x.1 ≤ s.seq
  stat : s.stat = 0 ∨ ∃ a b, s.sent.getLast? = some (s.stat, a, b)

theorem inv_init : Inv {} := ⟨by simp, by simp [Sorted], by simp, .inl rfl⟩

theorem alloc_small {c : Nat} (h : c + 1 < W64) : allocSeq c = c + 1 := by
  unfold allocSeq
  rw [Nat.mod_eq_of_lt h, if_neg (by omega)]

theorem sorted_snoc {l : List (Nat × Int × Int)} {x : Nat × Int × Int} {k : Nat} (h : Sorted l) (hl : ∀ y ∈ l, 0 < y.1 ∧ y.1 ≤ k) (hx : k < x.1) :
    Sorted (l ++ [x]) := by
  unfold Sorted at h ⊢
  rw [List.pairwise_append]
  refine ⟨h, by simp, fun a ha b hb => ?_⟩
  rw [List.mem_singleton.1 hb]
  have := (hl a ha).2
  omega

/-- In a sorted list the last one is the only one with its number. -/
theorem last_unique {l : List (Nat × Int × Int)} (h : Sorted l) {q : Nat} {a b c d : Int} (h1 : (q, a, b) ∈ l) (h2 : l.getLast? = some (q, c, d)) :
    a = c ∧ b = d := by
  obtain ⟨l', rfl⟩ := List.getLast?_eq_some_iff.1 h2
  unfold Sorted at h
  rw [List.pairwise_append] at h
  rcases List.mem_append.1 h1 with h1 | h1
  · have := h.2.2 _ h1 (q, c, d) (List.mem_singleton.2 rfl)
    exact absurd this (Nat.lt_irrefl q)
  · simp at h1
    exact h1

theorem flight_sub {s s' : S} (hs : s'.sent = s.sent) (h : ∀ m ∈ s'.out ++ s'.back, m ∈ s.out ++ s.back) (i : Inv s) :
    ∀ m ∈ s'.out ++ s'.back, ∃ a b, (m.seq, a, b) ∈ s'.sent ∧ millis a b = some m.time := by
  intro m hm
  rw [hs]
  exact i.flight m (h m hm)

theorem mem_erase {m : Msg} {l : List Msg} {i : Nat} (h : m ∈ l.eraseIdx i) : m ∈ l := (List.eraseIdx_sublist l i).mem h

theorem inv_onPong {s s' : S} {m : Msg} (i : Inv s) (h : onPong s m = some s') : Inv s' := by
  unfold onPong at h
  simp only at h
  split at h
  · split at h
    · cases h
    split at h
    · cases h
    cases h
    exact ⟨i.flight, i.sorted, i.low, .inl rfl⟩
  · cases h
    exact ⟨i.flight, i.sorted, i.low, i.stat⟩

theorem inv_step {s s' : S} {e : Ev} (i : Inv s) (he : e.honest) (hb : s.seq + (if e.takes then 1 else 0) < W64) (h : step s e = some s') :
    Inv s' ∧ s'.seq = s.seq + if e.takes then 1 else 0 := by
  cases e with
  | start a b => cases h; exact ⟨⟨i.flight, i.sorted, i.low, i.stat⟩, rfl⟩
  | proc a b =>
    cases h
    unfold tick
    split
    · exact ⟨⟨i.flight, i.sorted, i.low, i.stat⟩, rfl⟩
    split
    · exact ⟨⟨i.flight, i.sorted, i.low, i.stat⟩, rfl⟩
    · exact ⟨i, rfl⟩
  | ping ok =>
    simp only [Ev.takes, if_true] at hb
    simp only [step] at h
    split at h
    · cases h
    next t ht =>
    rw [alloc_small hb] at h
    split at h
    · cases h
      refine ⟨⟨?_, sorted_snoc i.sorted i.low (Nat.lt_succ_self _), ?_, .inr ⟨s.sec, s.usec, by simp⟩⟩, rfl⟩
      · intro m hm
        simp only [List.append_assoc, List.mem_append, List.mem_cons, List.not_mem_nil, or_false] at hm
        rcases hm with hm | rfl | hm
        · obtain ⟨a, b, h1, h2⟩ := i.flight m (List.mem_append_left _ hm)
          exact ⟨a, b, List.mem_append_left _ h1, h2⟩
        · exact ⟨s.sec, s.usec, by simp, ht⟩
        · obtain ⟨a, b, h1, h2⟩ := i.flight m (List.mem_append_right _ hm)
          exact ⟨a, b, List.mem_append_left _ h1, h2⟩
      · intro x hx
        rcases List.mem_append.1 hx with hx | hx
        · have := i.low x hx
          exact ⟨this.1, Nat.le_succ_of_le this.2⟩
        · rw [List.mem_singleton.1 hx]
          exact ⟨Nat.succ_pos _, Nat.le_refl _⟩
    · cases h
      exact ⟨⟨i.flight, i.sorted, fun x hx => ⟨(i.low x hx).1, Nat.le_succ_of_le (i.low x hx).2⟩, i.stat⟩, rfl⟩
  | other =>
    simp only [Ev.takes, if_true] at hb
    cases h
    rw [alloc_small hb]
    exact ⟨⟨i.flight, i.sorted, fun x hx => ⟨(i.low x hx).1, Nat.le_succ_of_le (i.low x hx).2⟩, i.stat⟩, rfl⟩
  | answer k bound =>
    simp only [step] at h
    split at h
    · cases h; exact ⟨i, rfl⟩
    next m hm =>
    cases h
    refine ⟨⟨flight_sub (s := s) rfl ?_ i, i.sorted, i.low, i.stat⟩, rfl⟩
    intro x hx
    simp only [List.mem_append] at hx ⊢
    rcases hx with hx | hx
    · exact .inl (mem_erase hx)
    · split at hx
      · rcases List.mem_append.1 hx with hx | hx
        · exact .inr hx
        · rw [List.mem_singleton.1 hx]; exact .inl (List.mem_of_getElem? hm)
      · exact .inr hx
  | pong k =>
    simp only [step] at h
    split at h
    · cases h; exact ⟨i, rfl⟩
    next m hm =>
    have i' : Inv { s with back := s.back.eraseIdx k } := by
      refine ⟨flight_sub (s := s) rfl ?_ i, i.sorted, i.low, i.stat⟩
      intro x hx
      simp only [List.mem_append] at hx ⊢
      exact hx.imp id mem_erase
    refine ⟨inv_onPong i' h, ?_⟩
    unfold onPong at h
    simp only at h
    split at h
    · split at h
      · cases h
      split at h
      · cases h
      cases h; rfl
    · cases h; rfl
  | loseOut k =>
    cases h
    refine ⟨⟨flight_sub (s := s) rfl ?_ i, i.sorted, i.low, i.stat⟩, rfl⟩
    intro x hx
    simp only [List.mem_append] at hx ⊢
    exact hx.imp mem_erase id
  | loseBack k =>
    cases h
    refine ⟨⟨flight_sub (s := s) rfl ?_ i, i.sorted, i.low, i.stat⟩, rfl⟩
    intro x hx
    simp only [List.mem_append] at hx ⊢
    exact hx.imp id mem_erase
  | forge m => exact absurd he id

theorem inv_run : ∀ (es : List Ev) (s s' : S), Inv s → (∀ e ∈ es, e.honest) → s.seq + es.countP Ev.takes < W64 → run s es = some s' → Inv s' := by
  intro es
  induction es with
  | nil => intro s s' i _ _ h; cases h; exact i
  | cons e es ih =>
    intro s s' i he hb h
    rw [List.countP_cons] at hb
    simp only [run] at h
    split at h
    · cases h
    next s1 h1 =>
    obtain ⟨i1, e1⟩ := inv_step i (he e (by simp)) (by omega) h1
    exact ih s1 s' i1 (fun x hx => he x (List.mem_cons_of_mem _ hx)) (by rw [e1]; omega) h

/-- What the function gives when nothing overflows. -/
theorem millis_val {a b t : Int} (h : millis a b = some t) : t = a * 1000 + (b.tdiv 1000).tmod 1000 := by
  unfold millis signed at h
  split at h
  · cases h
  next x hx =>
  split at hx
  · cases hx
    split at h
    · cases h; rfl
    · cases h
  · cases hx

/-- C101 (delay): with an honest other end, a pong that answers the last ping sets the delay to the time since that ping was sent, both times
read from the own clock and in milliseconds, notes the time, and finishes the ping; a pong for any older ping, or a second one, changes
nothing.  All that for any number of pings, of messages in between, lost, late or out of order. -/
theorem C101_delay_partial (es : List Ev) (he : ∀ e ∈ es, e.honest) (hb : es.countP Ev.takes < W64) (s : S) (h : run {} es = some s) (i : Nat) (m : Msg)
    (hm : s.back[i]? = some m) (s' : S) (h' : step s (.pong i) = some s') :
    (m.seq = s.stat → ∃ a b, s.sent.getLast? = some (s.stat, a, b) ∧
      s'.delay = (s.sec * 1000 + (s.usec.tdiv 1000).tmod 1000) - (a * 1000 + (b.tdiv 1000).tmod 1000) ∧ s'.lastPong = s.sec ∧ s'.stat = 0) ∧
    (m.seq ≠ s.stat → s'.delay = s.delay ∧ s'.lastPong = s.lastPong ∧ s'.stat = s.stat) := by
  have inv := inv_run es {} s inv_init he (by simpa using hb) h
  have hmem : m ∈ s.out ++ s.back := List.mem_append_right _ (List.mem_of_getElem? hm)
  obtain ⟨a, b, h1, h2⟩ := inv.flight m hmem
  simp only [step, hm] at h'
  unfold onPong at h'
  simp only at h'
  constructor
  · intro hq
    rw [if_pos hq] at h'
    split at h'
    · cases h'
    next now hnow =>
    split at h'
    · cases h'
    next d hd =>
    cases h'
    have hd' : d = now - m.time := by
      unfold signed at hd
      split at hd
      · cases hd; rfl
      · cases hd
    rcases inv.stat with h0 | ⟨c, e, h0⟩
    · have := (inv.low _ h1).1
      omega
    · rw [hq] at h1
      obtain ⟨rfl, rfl⟩ := last_unique inv.sorted h1 h0
      refine ⟨a, b, h0, ?_, rfl, rfl⟩
      show d = _
      rw [hd', millis_val hnow, millis_val h2]
  · intro hq
    rw [if_neg hq] at h'
    cases h'
    exact ⟨rfl, rfl, rfl⟩

/-- C101 (once): while no ping is unanswered, no pong of an honest other end changes anything. -/
theorem C101_once_partial (es : List Ev) (he : ∀ e ∈ es, e.honest) (hb : es.countP Ev.takes < W64) (s : S) (h : run {} es = some s) (h0 : s.stat = 0)
    (i : Nat) : ∃ s', step s (.pong i) = some s' ∧ s'.delay = s.delay ∧ s'.lastPong = s.lastPong ∧ s'.stat = 0 := by
  have inv := inv_run es {} s inv_init he (by simpa using hb) h
  simp only [step]
  split
  · exact ⟨s, rfl, rfl, rfl, h0⟩
  next m hm =>
  obtain ⟨a, b, h1, -⟩ := inv.flight m (List.mem_append_right _ (List.mem_of_getElem? hm))
  have h2 : 0 < m.seq := (inv.low _ h1).1
  unfold onPong
  simp only
  rw [if_neg (by omega)]
  exact ⟨_, rfl, rfl, rfl, h0⟩

/-- C101 (open): a ping that is sent becomes the unanswered one, with the number and the time it carries, and only a later ping that is sent or
a pong with its number changes that. -/
theorem C101_open (s s' : S) (e : Ev) (h : step s e = some s') :
    (e = .ping true → ∃ t, s'.sent = s.sent ++ [(s'.stat, s.sec, s.usec)] ∧ s'.out = s.out ++ [⟨s'.stat, t⟩] ∧
      t = s.sec * 1000 + (s.usec.tdiv 1000).tmod 1000) ∧
    (e ≠ .ping true → s'.sent = s.sent ∧ (s'.stat = s.stat ∨ ∃ i m, e = .pong i ∧ s.back[i]? = some m ∧ m.seq = s.stat ∧ s'.stat = 0)) := by
  cases e with
  | start a b => cases h; simp
  | proc a b =>
    cases h
    unfold tick
    refine ⟨by simp, fun _ => ?_⟩
    split
    · simp
    split <;> simp
  | ping ok =>
    simp only [step] at h
    split at h
    · cases h
    next t ht =>
    cases ok with
    | true => cases h; exact ⟨fun _ => ⟨t, rfl, rfl, millis_val ht⟩, fun hn => absurd rfl hn⟩
    | false => cases h; exact ⟨by simp, fun _ => ⟨rfl, .inl rfl⟩⟩
  | other => cases h; simp
  | answer k bound =>
    simp only [step] at h
    split at h <;> (cases h; simp)
  | pong k =>
    refine ⟨by simp, fun _ => ?_⟩
    simp only [step] at h
    split at h
    · cases h; simp
    next m hm =>
    unfold onPong at h
    simp only at h
    split at h
    · next hq =>
      split at h
      · cases h
      split at h
      · cases h
      cases h
      exact ⟨rfl, .inr ⟨k, m, rfl, hm, hq, rfl⟩⟩
    · cases h; exact ⟨rfl, .inl rfl⟩
  | loseOut k => cases h; simp
  | loseBack k => cases h; simp
  | forge m => cases h; simp

/-! ### Times -/

theorem usual_ms {a b : Int} (h : Usual a b) : millis a b = some (ms a b) ∧ 0 ≤ ms a b ∧ ms a b < 2 ^ 63 := by
  obtain ⟨h1, h2, h3⟩ := h
  have e1 : b.tdiv 1000 = b / 1000 := Int.tdiv_eq_ediv_of_nonneg h3
  have e2 : (b / 1000).tmod 1000 = b / 1000 % 1000 := Int.tmod_eq_emod_of_nonneg (by omega)
  have hm : 0 ≤ ms a b ∧ ms a b < 2 ^ 63 := by unfold ms; omega
  refine ⟨?_, hm⟩
  have r1 : inRange (a * 1000) = true := by unfold inRange; rw [decide_eq_true_eq]; omega
  have r2 : inRange (a * 1000 + b / 1000 % 1000) = true := by
    unfold inRange; rw [decide_eq_true_eq]; unfold ms at hm; omega
  unfold millis signed
  rw [if_pos r1]
  simp only [e1, e2, if_pos r2]
  rfl

/-- The clock and the pings have usual times. -/
def UsualS (s : S) : Prop := Usual s.sec s.usec ∧ ∀ m ∈ s.out ++ s.back, 0 ≤ m.time ∧ m.time < 2 ^ 63

theorem usual_step {s : S} {e : Ev} (u : UsualS s) (he : e.honest) (hu : e.usual) : ∃ s', step s e = some s' ∧ UsualS s' := by
  obtain ⟨u1, u2⟩ := u
  cases e with
  | start a b => exact ⟨_, rfl, hu, u2⟩
  | proc a b =>
    refine ⟨_, rfl, ?_⟩
    obtain ⟨h1, h2, h3⟩ := hu
    obtain ⟨g1, g2, g3⟩ := u1
    unfold tick
    split
    · exact ⟨⟨h1, h2, h3⟩, u2⟩
    split
    · exact ⟨⟨g1, g2, h3⟩, u2⟩
    · exact ⟨⟨g1, g2, g3⟩, u2⟩
  | ping ok =>
    obtain ⟨h1, h2, h3⟩ := usual_ms u1
    simp only [step, h1]
    split
    · refine ⟨_, rfl, u1, fun m hm => ?_⟩
      simp only [List.append_assoc, List.mem_append, List.mem_cons, List.not_mem_nil, or_false] at hm
      rcases hm with hm | rfl | hm
      · exact u2 m (List.mem_append_left _ hm)
      · exact ⟨h2, h3⟩
      · exact u2 m (List.mem_append_right _ hm)
    · exact ⟨_, rfl, u1, u2⟩
  | other => exact ⟨_, rfl, u1, u2⟩
  | answer k bound =>
    simp only [step]
    split
    · exact ⟨s, rfl, u1, u2⟩
    next m hm =>
    refine ⟨_, rfl, u1, fun x hx => u2 x ?_⟩
    simp only [List.mem_append] at hx ⊢
    rcases hx with hx | hx
    · exact .inl (mem_erase hx)
    · split at hx
      · rcases List.mem_append.1 hx with hx | hx
        · exact .inr hx
        · rw [List.mem_singleton.1 hx]; exact .inl (List.mem_of_getElem? hm)
      · exact .inr hx
  | pong k =>
    simp only [step]
    split
    · exact ⟨s, rfl, u1, u2⟩
    next m hm =>
    have hsub : ∀ x ∈ s.out ++ s.back.eraseIdx k, 0 ≤ x.time ∧ x.time < 2 ^ 63 := by
      intro x hx
      refine u2 x ?_
      simp only [List.mem_append] at hx ⊢
      exact hx.imp id mem_erase
    have hmt := u2 m (List.mem_append_right _ (List.mem_of_getElem? hm))
    obtain ⟨h1, h2, h3⟩ := usual_ms u1
    unfold onPong
    simp only [h1]
    have r : inRange (ms s.sec s.usec - m.time) = true := by unfold inRange; rw [decide_eq_true_eq]; omega
    split
    · simp only [signed, if_pos r]
      exact ⟨_, rfl, u1, hsub⟩
    · exact ⟨_, rfl, u1, hsub⟩
  | loseOut k =>
    refine ⟨_, rfl, u1, fun x hx => u2 x ?_⟩
    simp only [List.mem_append] at hx ⊢
    exact hx.imp mem_erase id
  | loseBack k =>
    refine ⟨_, rfl, u1, fun x hx => u2 x ?_⟩
    simp only [List.mem_append] at hx ⊢
    exact hx.imp id mem_erase
  | forge m => exact absurd he id

/-- C101 (defined): with an honest other end and usual times no computation of times overflows. -/
theorem C101_defined_partial (es : List Ev) (he : ∀ e ∈ es, e.honest) (hu : ∀ e ∈ es, e.usual) : ∃ s, run {} es = some s := by
  have key : ∀ (es : List Ev) (s : S), UsualS s → (∀ e ∈ es, e.honest) → (∀ e ∈ es, e.usual) → ∃ s', run s es = some s' := by
    intro es
    induction es with
    | nil => intro s _ _ _; exact ⟨s, rfl⟩
    | cons e es ih =>
      intro s u he hu
      obtain ⟨s1, h1, u1⟩ := usual_step u (he e (by simp)) (hu e (by simp))
      obtain ⟨s2, h2⟩ := ih s1 u1 (fun x hx => he x (List.mem_cons_of_mem _ hx)) (fun x hx => hu x (List.mem_cons_of_mem _ hx))
      exact ⟨s2, by simp only [run, h1]; exact h2⟩
  exact key es {} ⟨⟨by decide, by decide, by decide⟩, by simp⟩ he hu

/-! ### The clock goes forward -/

/-- One reading is not later than another. -/
def NotAfter (a b c d : Int) : Prop := a < c ∨ (a = c ∧ b ≤ d)

theorem ms_mono {a b c d : Int} (h : NotAfter a b c d) (hb : Normal b) (hd : Normal d) : ms a b ≤ ms c d := by
  unfold NotAfter at h
  unfold Normal at hb hd
  unfold ms
  omega

/-- C101 (the clock): `proc` never sets the clock back, and sets it to the time given unless that is earlier. -/
theorem C101_clock (s : S) (sec usec : Int) : ∃ s', step s (.proc sec usec) = some s' ∧ NotAfter s.sec s.usec s'.sec s'.usec ∧
    NotAfter sec usec s'.sec s'.usec ∧ ((s'.sec, s'.usec) = (s.sec, s.usec) ∨ (s'.sec, s'.usec) = (sec, usec)) := by
  refine ⟨_, rfl, ?_⟩
  unfold tick NotAfter
  split
  · simp; omega
  split
  · simp; omega
  · simp; omega

structure Fwd (s : S) : Prop where
  clock : Normal s.usec
  flight : ∀ m ∈ s.out ++ s.back, m.time ≤ ms s.sec s.usec
  delay : 0 ≤ s.delay
  usual : UsualS s

theorem fwd_step {s s' : S} {e : Ev} (f : Fwd s) (he : e.honest) (hu : e.usual) (hf : e.forward) (h : step s e = some s') : Fwd s' := by
  obtain ⟨s2, h2, u⟩ := usual_step f.usual he hu
  rw [h] at h2
  cases h2
  cases e with
  | start a b => exact absurd hf id
  | proc a b =>
    have hmono : ∀ c d, Normal d → NotAfter s.sec s.usec c d → ∀ m ∈ s.out ++ s.back, m.time ≤ ms c d := fun c d hd hn m hm =>
      Int.le_trans (f.flight m hm) (ms_mono hn f.clock hd)
    cases h
    unfold tick at u ⊢
    unfold NotAfter at hmono
    split
    · next hlt => rw [if_pos hlt] at u; exact ⟨hf, hmono a b hf (by omega), f.delay, u⟩
    next hlt =>
    rw [if_neg hlt] at u
    split
    · next hle => rw [if_pos hle] at u; exact ⟨hf, hmono s.sec b hf (by omega), f.delay, u⟩
    · exact f
  | ping ok =>
    obtain ⟨h1, -, -⟩ := usual_ms f.usual.1
    simp only [step, h1] at h
    split at h
    · cases h
      refine ⟨f.clock, fun m hm => ?_, f.delay, u⟩
      simp only [List.append_assoc, List.mem_append, List.mem_cons, List.not_mem_nil, or_false] at hm
      rcases hm with hm | rfl | hm
      · exact f.flight m (List.mem_append_left _ hm)
      · exact Int.le_refl _
      · exact f.flight m (List.mem_append_right _ hm)
    · cases h
      exact ⟨f.clock, f.flight, f.delay, u⟩
  | other => cases h; exact ⟨f.clock, f.flight, f.delay, u⟩
  | answer k bound =>
    simp only [step] at h
    split at h
    · cases h; exact f
    next m hm =>
    cases h
    refine ⟨f.clock, fun x hx => f.flight x ?_, f.delay, u⟩
    simp only [List.mem_append] at hx ⊢
    rcases hx with hx | hx
    · exact .inl (mem_erase hx)
    · split at hx
      · rcases List.mem_append.1 hx with hx | hx
        · exact .inr hx
        · rw [List.mem_singleton.1 hx]; exact .inl (List.mem_of_getElem? hm)
      · exact .inr hx
  | pong k =>
    simp only [step] at h
    split at h
    · cases h; exact f
    next m hm =>
    have hmt := f.flight m (List.mem_append_right _ (List.mem_of_getElem? hm))
    have hsub : ∀ x ∈ s.out ++ s.back.eraseIdx k, x.time ≤ ms s.sec s.usec := by
      intro x hx
      refine f.flight x ?_
      simp only [List.mem_append] at hx ⊢
      exact hx.imp id mem_erase
    obtain ⟨h1, -, -⟩ := usual_ms f.usual.1
    unfold onPong at h
    simp only [h1] at h
    split at h
    · split at h
      · cases h
      next d hd =>
      cases h
      refine ⟨f.clock, hsub, ?_, u⟩
      unfold signed at hd
      split at hd
      · cases hd
        show 0 ≤ ms s.sec s.usec - m.time
        omega
      · cases hd
    · cases h
      exact ⟨f.clock, hsub, f.delay, u⟩
  | loseOut k =>
    cases h
    refine ⟨f.clock, fun x hx => f.flight x ?_, f.delay, u⟩
    simp only [List.mem_append] at hx ⊢
    exact hx.imp mem_erase id
  | loseBack k =>
    cases h
    refine ⟨f.clock, fun x hx => f.flight x ?_, f.delay, u⟩
    simp only [List.mem_append] at hx ⊢
    exact hx.imp id mem_erase
  | forge m => exact absurd he id

/-- C101 (not negative): if the node is started once and the microseconds given are below a second, the delay is never negative, even if the
times given go backwards. -/
theorem C101_nonneg_partial (sec usec : Int) (hs : Usual sec usec) (hn : Normal usec) (es : List Ev) (he : ∀ e ∈ es, e.honest) (hu : ∀ e ∈ es, e.usual)
    (hf : ∀ e ∈ es, e.forward) : ∃ s, run {} (.start sec usec :: es) = some s ∧ 0 ≤ s.delay := by
  have key : ∀ (es : List Ev) (s : S), Fwd s → (∀ e ∈ es, e.honest) → (∀ e ∈ es, e.usual) → (∀ e ∈ es, e.forward) →
      ∃ s', run s es = some s' ∧ 0 ≤ s'.delay := by
    intro es
    induction es with
    | nil => intro s f _ _ _; exact ⟨s, rfl, f.delay⟩
    | cons e es ih =>
      intro s f he hu hf
      obtain ⟨s1, h1, -⟩ := usual_step f.usual (he e (by simp)) (hu e (by simp))
      obtain ⟨s2, h2, h3⟩ := ih s1 (fwd_step f (he e (by simp)) (hu e (by simp)) (hf e (by simp)) h1) (fun x hx => he x (List.mem_cons_of_mem _ hx))
        (fun x hx => hu x (List.mem_cons_of_mem _ hx)) (fun x hx => hf x (List.mem_cons_of_mem _ hx))
      exact ⟨s2, by simp only [run, h1]; exact h2, h3⟩
  exact key es { sec := sec, usec := usec } ⟨hn, by simp, Int.le_refl 0, hs, by simp⟩ he hu hf

/-! ### Counterexamples -/

/-- C101 (defined) is false of the code if the other end makes up pongs: one pong that nobody asked for, with the sequence number 0 and the
smallest time, makes the subtraction overflow in every state with a usual time in which no ping is unanswered. -/
theorem C101_overflow_false (s : S) (h0 : s.stat = 0) (hu : Usual s.sec s.usec) :
    run s [.forge ⟨0, -(2 ^ 63)⟩, .pong s.back.length] = none := by
  obtain ⟨h1, h2, h3⟩ := usual_ms hu
  have r : inRange (ms s.sec s.usec + 9223372036854775808) = false := by unfold inRange; rw [decide_eq_false_iff_not]; omega
  simp [run, step, onPong, h0, h1, signed, r]

/-- C101 (once) is false of the code if the other end makes up a pong with sequence number 0: it is taken for the answer to a ping although
none was ever sent. -/
theorem C101_unasked_false : ∃ s, run {} [.start 100 0, .forge ⟨0, 40000⟩, .pong 0] = some s ∧ s.sent = [] ∧ s.delay = 60000 ∧ s.lastPong = 100 := by
  refine ⟨_, rfl, ?_⟩
  decide

/-- C101 (not negative) is false of the code for microseconds of a second or more, which `proc` takes as they are, and when the node is started
again with an earlier time. -/
theorem C101_negative_false :
    (∃ s, run {} [.start 100 1999000, .ping true, .proc 100 2000000, .answer 0 true, .pong 0] = some s ∧ s.delay = -999) ∧
      ∃ s, run {} [.start 100 0, .ping true, .start 50 0, .answer 0 true, .pong 0] = some s ∧ s.delay = -50000 := by
  refine ⟨⟨_, rfl, ?_⟩, ⟨_, rfl, ?_⟩⟩ <;> decide

/-- C101 (callback) is false of the code: what `on_pong` is given is not the time of the pong. -/
theorem C101_callback_false : ∃ s, run {} [.start 100 0, .ping true, .answer 0 true] = some s ∧ s.back = [⟨1, 100000⟩] ∧
    ∃ s', step s (.pong 0) = some s' ∧ s'.given = [0] := by
  refine ⟨_, rfl, by decide, _, rfl, by decide⟩

/-! ### Examples -/

/-- The pong of the first ping comes after the second ping and is ignored; then the second pong counts. -/
example : ∃ s, run {} [.start 100 250000, .ping true, .proc 108 1000, .other, .ping true, .answer 0 true, .pong 0, .proc 109 501999, .answer 0 true,
    .pong 0] = some s ∧ s.delay = 1500 ∧ s.lastPong = 109 ∧ s.stat = 0 ∧ s.sent = [(1, 100, 250000), (3, 108, 1000)] := by
  refine ⟨_, rfl, ?_⟩
  decide

example : Usual 1700000000 999999 ∧ Normal 999999 ∧ ms 1700000000 999999 = 1700000000999 := by
  unfold Usual Normal ms
  decide

end Verif.Node.Delay
