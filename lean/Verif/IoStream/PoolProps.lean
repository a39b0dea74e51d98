import Verif.IoStream.PoolTok
import Verif.IoStream.PoolEnd

/-!
Properties of calls, connections and messages of a stream channel with a re-entrant application: C55 to C59
and C24.
-/
namespace Verif.IoStream.Pool

/-- The log after a run. -/
def logOf (o : Out) : Option (List Ev) := match o with
  | .ok s => some s.log
  | _ => none

/-- A quiet environment. -/
def calm : Env := ⟨0, true, false⟩

/-! ### C55: calls are answered -/

/-- A call that returned an error is never answered and leaves no request; one that returned success is answered once
or has one request left; no call is answered twice. -/
theorem C55_answered_once (max : Nat) (is : List In) {s : St} (hr : run max St.init is = .ok s) (t : Tok) :
    answers t s.log ≤ 1 ∧ rets t s.log ≤ 1 ∧
    (∀ code, .ret t code ∈ s.log → code ≠ Err.SUCCESS → answers t s.log = 0 ∧ pend t s.reqs = 0) ∧
    (.ret t Err.SUCCESS ∈ s.log → answers t s.log + pend t s.reqs = 1) := by
  have h := tok_run is tok_init hr t
  have hle : okRets t s.log ≤ rets t s.log := by
    unfold okRets rets
    apply List.countP_mono_left
    intro e _ he
    cases e <;> simp_all [isOkRet, isRet]
  have h1 := h.bal
  have h2 := h.one
  refine ⟨by omega, by omega, ?_, ?_⟩
  · intro code hm hne
    have hlt : okRets t s.log < rets t s.log := by
      have : s.log.countP (isRet t) = s.log.countP (isOkRet t) + s.log.countP (fun e => isRet t e && !isOkRet t e) := by
        generalize s.log = l
        induction l with
        | nil => rfl
        | cons a l ih =>
          simp only [List.countP_cons, ih]
          cases a <;> simp [isRet, isOkRet]
          next u c => by_cases hu : u = t <;> by_cases hc : c = Err.SUCCESS <;> simp [hu, hc] <;> omega
      have hp : 0 < s.log.countP (fun e => isRet t e && !isOkRet t e) :=
        List.countP_pos_iff.2 ⟨_, hm, by simp [isRet, isOkRet, hne]⟩
      unfold okRets rets; omega
    omega
  · intro hm
    have hp : 0 < okRets t s.log := List.countP_pos_iff.2 ⟨_, hm, by simp [isOkRet]⟩
    omega

theorem closeDone_eq {max : Nat} {s t : St} (h : step max s .closeDone = .ok t) :
    s.pool = [] ∧ s.gc = [] ∧ s.active = 0 ∧ t = { s.pop with closing := false } := by
  simp only [step] at h
  split at h
  · split at h
    · next hg => cases h; exact ⟨hg.1, hg.2.1, hg.2.2, rfl⟩
    · cases h
  · cases h

theorem core_run {max : Nat} {is : List In} {s : St} (ha : Along Fresh max St.init is) (hr : run max St.init is = .ok s) :
    Core s := (run_induct (P := fun _ => True) (fun _ _ _ => trivial) is core_init trivial ha hr).1

/-- When `io_stream_close` is done, every call that returned success was answered. -/
theorem C55_closed (max : Nat) (is : List In) {s t : St} (ha : Along Fresh max St.init is)
    (hr : run max St.init is = .ok s) (hd : step max s .closeDone = .ok t) (n : Tok) (hm : .ret n Err.SUCCESS ∈ t.log) :
    answers n t.log = 1 := by
  obtain ⟨-, -, h0, rfl⟩ := closeDone_eq hd
  have hc := core_run ha hr
  have h1 := (C55_answered_once max is hr n).2.2.2 hm
  have h2 : s.reqs = [] := by
    have := hc.act
    exact List.eq_nil_of_length_eq_zero (by omega)
  rw [h2] at h1
  show answers n s.log = 1
  simpa [pend] using h1

/-- An answer of a call and a report of an arrived connection give a connection with success, and none with an
error. -/
theorem C55_answer_sound (max : Nat) (is : List In) {s : St} (ha : Along Fresh max St.init is)
    (hr : run max St.init is = .ok s) : ∀ e ∈ s.log, e.sound := by
  refine (run_induct (P := fun s => ∀ e ∈ s.log, e.sound) ?_ is core_init (by intro e h; cases h) ha hr).2
  intro re s t _ h hm
  have snoc : ∀ {e : Ev}, e.sound → ∀ f ∈ s.log ++ [e], f.sound := by
    intro e he f hf
    rcases List.mem_append.1 hf with hf | hf
    · exact h f hf
    · rw [List.mem_singleton.1 hf]; exact he
  cases hm with
  | note e he =>
    refine snoc ?_
    cases e with
    | answer t code c =>
      cases c with
      | none => simpa [Ev.sound, Ev.plain] using he
      | some c => cases he
    | accepted l code c => cases he
    | _ => trivial
  | make fd hf e he =>
    refine snoc ?_
    rcases he with ⟨t, rfl⟩ | ⟨l, rfl, -, -⟩ <;> simp [Ev.sound]
  | refused code hcode hr hs => exact snoc (by simp [Ev.sound, hcode])
  | _ => first | exact h | exact snoc trivial

/-- A name is looked up and connected to while the application starts to listen from the callback. -/
def callRun : List In := [.connectName true, .connect .fail, .resolved (.dnsConnect 0) (some (.ok 0)), .connected 0 (some 7),
  .listen (.ok 8), .ret calm, .ret calm]

example : logOf (run 4 St.init callRun) = some [.ret 0 0, .ret 1 SOCK_CONNECT_FAILED, .answer 0 0 (some 0),
  .answer 2 0 (some 1), .ret 2 0] := by decide +kernel

/-- The same, then everything is closed; the channel refuses calls meanwhile. -/
example : logOf (run 4 St.init (callRun ++ [.connect (.ok 0), .close calm, .closed (.conn 1), .connect (.ok 0), .ret calm,
    .connected 3 (some 7), .ret calm, .closed (.conn 0), .ret calm, .closeDone])) =
    some [.ret 0 0, .ret 1 SOCK_CONNECT_FAILED, .answer 0 0 (some 0), .answer 2 0 (some 1), .ret 2 0, .ret 3 0,
      .disconnected 1, .ret 4 Err.CHANNEL_CLOSING, .answer 3 Err.CHANNEL_CLOSING none, .disconnected 0] := by decide +kernel

/-! ### C57: connections are announced and reported as disconnected once -/

theorem hist_run {max : Nat} {is : List In} {s : St} (ha : Along Fresh max St.init is) (hr : run max St.init is = .ok s) :
    Core s ∧ Hist s := run_induct hist_mic is core_init hist_init ha hr

/-- Every connection is handed to the application once, before anything else about it; it is reported as disconnected at
most once, and nothing is reported for it then. -/
theorem C57_reported_once (max : Nat) (is : List In) {s : St} (ha : Along Fresh max St.init is)
    (hr : run max St.init is = .ok s) :
    Ordered s.log ∧ (∀ r, s.log.count (.disconnected r) ≤ 1) ∧ (∀ r, s.log.countP (announces r) ≤ 1) ∧
    ∀ r e, e ∈ s.log → about r e = true → s.log.countP (announces r) = 1 := by
  obtain ⟨_, h⟩ := hist_run ha hr
  refine ⟨h.ord, ?_, ?_, ?_⟩
  · intro r; rw [h.gone]; split <;> simp
  · intro r; rw [h.ann]; split <;> simp
  · intro r e hm hb; rw [h.ann, if_pos (h.abt r e hm hb)]

/-- When `io_stream_close` is done, every connection handed to the application was reported as disconnected. -/
theorem C57_closed (max : Nat) (is : List In) {s t : St} (ha : Along Fresh max St.init is)
    (hr : run max St.init is = .ok s) (hd : step max s .closeDone = .ok t) (r : Ref) :
    t.log.count (.disconnected r) = t.log.countP (announces r) := by
  obtain ⟨hp, hg, -, rfl⟩ := closeDone_eq hd
  obtain ⟨hc, h⟩ := hist_run ha hr
  show s.log.count _ = s.log.countP _
  rw [h.gone, h.ann]
  by_cases hn : r < s.next
  · rw [if_pos hn, if_pos]
    cases hcl : (s.conn r).closing with
    | false =>
      have := (hc.op r hn hcl).1
      rw [hp] at this; cases this
    | true =>
      rcases hc.sd r hn hcl with h1 | h1
      · rw [hg] at h1; cases h1.2.1
      · exact h1.1
  · rw [if_neg hn, if_neg]
    rw [hc.new r (Nat.le_of_not_lt hn)]
    simp

/-- No undefined behaviour, if the application uses no connection that is gone and the table of closing connections is
not rehashed (missing: the table is a hash table, see `C57_rehash_false`). -/
theorem C57_safe_partial (max : Nat) (is : List In)
    (ha : Along (fun s i => Fresh s i ∧ Owned s i ∧ Steady s i) max St.init is) : run max St.init is ≠ .ub := by
  have key : ∀ (is : List In) {s : St}, Core s → Valid s →
      Along (fun s i => Fresh s i ∧ Owned s i ∧ Steady s i) max s is → run max s is ≠ .ub := by
    intro is
    induction is with
    | nil => intro s _ _ _ h; cases h
    | cons i is ih =>
      intro s hc hv ha hr
      unfold run at hr
      rcases step_good (max := max) hc ha.1.1 with h1 | h1 | ⟨-, h1⟩ | ⟨t, e, -⟩
      · rw [h1] at hr; cases hr
      · rw [h1] at hr; cases hr
      · rcases h1 with h1 | ⟨r, b, h1⟩
        · exact h1 ha.1.2.1
        · exact absurd (hv _ _ _ h1) (by simp)
      · rw [e] at hr
        exact ih (core_step hc ha.1.1 e) (valid_step hc hv ha.1.1 ha.1.2.2 e) (ha.2 t e) hr
  exact key is core_init (by intro r v b h; cases h) ha

instance (P : St → In → Prop) [∀ s i, Decidable (P s i)] (max : Nat) : ∀ (is : List In) (s : St), Decidable (Along P max s is)
  | [], _ => .isTrue trivial
  | i :: is, s =>
    if hp : P s i then
      match h : step max s i with
      | .ok t =>
        match instDecidableAlong P max is t with
        | .isTrue hd => .isTrue ⟨hp, by intro s' e; rw [h] at e; cases e; exact hd⟩
        | .isFalse hd => .isFalse (fun ha => hd (ha.2 t h))
      | .ub => .isTrue ⟨hp, by intro s' e; rw [h] at e; cases e⟩
      | .abort => .isTrue ⟨hp, by intro s' e; rw [h] at e; cases e⟩
      | .no => .isTrue ⟨hp, by intro s' e; rw [h] at e; cases e⟩
    else .isFalse (fun ha => hp ha.1)

/-- Two connections; the application closes the second one when the first one is reported as disconnected. -/
def closeRun (ev : Env) : List In := [.connect (.ok 0), .connected 0 (some 7), .ret calm, .connect (.ok 0), .connected 1 (some 8),
  .ret calm, .disconnect 0 true calm, .closed (.conn 0), .disconnect 1 false ev, .ret calm, .ret calm, .closed (.conn 1), .ret calm]

example : Along (fun s i => Fresh s i ∧ Owned s i ∧ Steady s i) 4 St.init (closeRun calm) ∧
    logOf (run 4 St.init (closeRun calm)) = some [.ret 0 0, .answer 0 0 (some 0), .ret 1 0, .answer 1 0 (some 1), .disconnected 0,
      .discCb 2 0, .disconnected 1] := by decide +kernel

/-- The same run with a rehash: the iterator of `io_stream_connection_on_close` is used after it was invalidated. -/
theorem C57_rehash_false :
    ¬ ∀ (max : Nat) (is : List In), Along (fun s i => Fresh s i ∧ Owned s i) max St.init is → run max St.init is ≠ .ub := by
  intro h
  have h1 := h 4 (closeRun ⟨0, true, true⟩) (by decide +kernel)
  apply h1
  rfl

/-- A callback given to `io_stream_disconnect` is lost if the connection is disconnected again, also by an error. -/
theorem C57_callback_false :
    ¬ ∀ (max : Nat) (is : List In) (s : St), Along (fun s i => Fresh s i ∧ Owned s i ∧ Steady s i) max St.init is →
      run max St.init is = .ok s → ∀ (r : Ref) (ev : Env) (pre post : List In) (u : St), is = pre ++ .disconnect r true ev :: post →
      run max St.init pre = .ok u → (u.conn r).status = .connected → s.stack = [] → s.gc = [] → .discCb u.calls r ∈ s.log := by
  intro h
  have := h 4 ([.connect (.ok 0), .connected 0 (some 7), .ret calm] ++ .disconnect 0 true calm :: [.disconnect 0 false calm,
    .closed (.conn 0), .ret calm]) _ (by decide +kernel) rfl 0 calm _ _ _ rfl rfl (by decide +kernel) rfl rfl
  revert this
  decide +kernel

/-! ### C56: closing -/

/-- The number of reports of libuv and returning callbacks until `io_stream_close` is done is bounded (by what the
channel has to do when it is called, and by connections still arriving). -/
theorem C56_bounded (max : Nat) (is : List In) {s t : St} (ev : Env) (ha : Along Fresh max St.init is)
    (hr : run max St.init is = .ok s) (hcl : step max s (.close ev) = .ok t) :
    ∃ n, ∀ (js : List In) (u : St), Along Fresh max t js → run max t js = .ok u → .closeDone ∉ js →
      js.countP In.reports ≤ n + 2 * js.countP In.isIncoming := by
  have hc := core_run ha hr
  have hct : Core t := core_step hc (by intro fd h; cases h) hcl
  have he := ending_close hc hcl
  refine ⟨left t, ?_⟩
  intro js
  suffices ∀ {t : St}, Core t → Ending t → ∀ (u : St), Along Fresh max t js → run max t js = .ok u → .closeDone ∉ js →
      left u + js.countP In.reports ≤ left t + 2 * js.countP In.isIncoming by
    intro u h1 h2 h3
    have := this hct he u h1 h2 h3
    omega
  clear hct he hcl hc hr ha
  induction js with
  | nil => intro t _ _ u _ h _; cases h; simp
  | cons i js ih =>
    intro t hc he u ha hr hn
    unfold run at hr
    cases e : step max t i with
    | ok v =>
      rw [e] at hr
      obtain ⟨he', hl⟩ := ending_step hc he (fun h => hn (by rw [h]; exact List.mem_cons_self)) e
      have := ih (core_step hc ha.1 e) he' u (ha.2 v e) hr (fun h => hn (List.mem_cons_of_mem _ h))
      rw [List.countP_cons, List.countP_cons]
      cases h1 : i.reports <;> cases h2 : i.isIncoming <;> simp only [h1, h2, Bool.toNat_true, Bool.toNat_false] at hl <;>
        simp <;> omega
    | ub => rw [e] at hr; cases hr
    | abort => rw [e] at hr; cases hr
    | no => rw [e] at hr; cases hr

/-- Until `io_stream_close` is done there is always a report of libuv to come or a callback to return, and none of them
has undefined behaviour (missing: a rehash, see `C57_rehash_false`). -/
theorem C56_never_stuck_partial (max : Nat) (is js : List In) {s t u : St} (ev : Env) (hev : ev.rehash = false)
    (ha : Along (fun s i => Fresh s i ∧ Steady s i) max St.init is) (hr : run max St.init is = .ok s)
    (hcl : step max s (.close ev) = .ok t) (ha' : Along (fun s i => Fresh s i ∧ Steady s i) max t js)
    (hr' : run max t js = .ok u) (hn : .closeDone ∉ js) :
    ∃ i v, (i.reports = true ∨ i = .closeDone) ∧ step max u i = .ok v := by
  have mics : ∀ {re : Bool} {s t : St}, Mics re s t → Core s → Fading s → Fading t := by
    intro re s t hm
    induction hm with
    | refl => intro _ h; exact h
    | head h1 _ ih => intro hc h; exact ih (core_mic hc h1) (fading_mic hc h h1)
  have one : ∀ {i : In} {s t : St}, Core s ∧ Valid s ∧ Disc s ∧ Fading s → Fresh s i → Steady s i → step max s i = .ok t →
      Core t ∧ Valid t ∧ Disc t ∧ Fading t := by
    intro i s t h h1 h2 e
    exact ⟨core_step h.1 h1 e, valid_step h.1 h.2.1 h1 h2 e, disc_step h.1 h.2.2.1 e, mics (step_mics h.1 h1 e) h.1 h.2.2.2⟩
  have key : ∀ (is : List In) {s t : St}, Core s ∧ Valid s ∧ Disc s ∧ Fading s →
      Along (fun s i => Fresh s i ∧ Steady s i) max s is → run max s is = .ok t →
      (Core t ∧ Valid t ∧ Disc t ∧ Fading t) ∧ (Ending s → .closeDone ∉ is → Ending t) := by
    intro is
    induction is with
    | nil => intro s t h _ hr; cases hr; exact ⟨h, fun h _ => h⟩
    | cons i is ih =>
      intro s t h ha hr
      unfold run at hr
      cases e : step max s i with
      | ok w =>
        rw [e] at hr
        have := ih (one h ha.1.1 ha.1.2 e) (ha.2 w e) hr
        refine ⟨this.1, fun he hn => this.2 ?_ (fun hm => hn (List.mem_cons_of_mem _ hm))⟩
        exact (ending_step h.1 he (fun h => hn (by rw [h]; exact List.mem_cons_self)) e).1
      | ub => rw [e] at hr; cases hr
      | abort => rw [e] at hr; cases hr
      | no => rw [e] at hr; cases hr
  have h1 := (key is ⟨core_init, (by intro r v b h; cases h), disc_init, fading_init⟩ ha hr).1
  have h2 := one h1 (i := .close ev) (by intro fd h; cases h) (by intro e h; cases h; exact hev) hcl
  have h3 := key js h2 ha' hr'
  exact ending_enabled h3.1.1 h3.1.2.2.1 h3.1.2.2.2 h3.1.2.1 (h3.2 (ending_close h1.1 hcl) hn)

/-- Nothing is left when `io_stream_close` is done: no request, no connection (all handed to the application were reported
as disconnected) and no handle of one. -/
theorem C56_clean (max : Nat) (is : List In) {s t : St} (ha : Along Fresh max St.init is)
    (hr : run max St.init is = .ok s) (hd : step max s .closeDone = .ok t) :
    t.reqs = [] ∧ t.pool = [] ∧ t.gc = [] ∧ (∀ r, .conn r ∉ t.hands) ∧
    ∀ r, 0 < t.log.countP (announces r) → .disconnected r ∈ t.log := by
  have h57 := C57_closed max is ha hr hd
  obtain ⟨hp, hg, h0, rfl⟩ := closeDone_eq hd
  have hc := core_run ha hr
  refine ⟨?_, hp, hg, ?_, ?_⟩
  · have := hc.act
    exact List.eq_nil_of_length_eq_zero (by show s.reqs.length = 0; omega)
  · intro r hm
    obtain ⟨h1, h2⟩ := hc.h r hm
    rcases hc.sd r h1 h2 with h3 | h3
    · have := h3.2.1; rw [hg] at this; cases this
    · have := List.count_eq_zero.1 h3.2; exact this hm
  · intro r h
    rw [← h57 r] at h
    exact List.count_pos_iff.1 h

/-- A connection with a message to write, and the start of closing. -/
def stallRun : List In := [.connect (.ok 0), .connected 0 (some 7), .ret calm, .send 0 5 calm, .close calm]

example : logOf (run 4 St.init (stallRun ++ [.written 0 true calm, .ret calm, .closed (.conn 0), .ret calm, .closeDone])) =
    some [.ret 0 0, .answer 0 0 (some 0), .sent 0 5, .written 0 5 0 true, .disconnected 0] := by decide +kernel

example : Along (fun s i => Fresh s i ∧ Steady s i) 4 St.init stallRun ∧ stallRun.countP In.reports = 2 := by decide +kernel

theorem write_blocks {max : Nat} {r : Ref} : ∀ (js : List In) {s t : St}, Core s → .write r ∈ s.reqs →
    (∀ i ∈ js, i.isWritten = false) → Along Fresh max s js → run max s (js ++ [.closeDone]) ≠ .ok t := by
  intro js
  induction js with
  | nil =>
    intro s t hc hm _ _ hr
    rw [List.nil_append] at hr
    simp only [run] at hr
    cases e : step max s .closeDone with
    | ok u =>
      have h0 := (closeDone_eq e).2.2.1
      rw [hc.act] at h0
      rw [List.eq_nil_of_length_eq_zero h0] at hm
      cases hm
    | ub => rw [e] at hr; cases hr
    | abort => rw [e] at hr; cases hr
    | no => rw [e] at hr; cases hr
  | cons i js ih =>
    intro s t hc hm hj ha hr
    rw [List.cons_append] at hr
    unfold run at hr
    cases e : step max s i with
    | ok u =>
      rw [e] at hr
      exact ih (core_step hc ha.1 e) (write_stays (hj i List.mem_cons_self) e hm)
        (fun i hi => hj i (List.mem_cons_of_mem _ hi)) (ha.2 u e) hr
    | ub => rw [e] at hr; cases hr
    | abort => rw [e] at hr; cases hr
    | no => rw [e] at hr; cases hr

/-- `io_stream_close` does not return on its own: it waits for a write to a peer that takes no data. -/
theorem C56_stalled_false :
    ¬ ∀ (max : Nat) (is : List In) (s : St), Along Fresh max St.init is → run max St.init is = .ok s →
      .closeWait ∈ s.stack →
      ∃ js t, (∀ i ∈ js, i.isWritten = false) ∧ Along Fresh max s js ∧ run max s (js ++ [.closeDone]) = .ok t := by
  intro h
  obtain ⟨s, hs, hm, hk⟩ : ∃ s, run 4 St.init stallRun = .ok s ∧ .write 0 ∈ s.reqs ∧ .closeWait ∈ s.stack :=
    ⟨_, rfl, by decide +kernel, by decide +kernel⟩
  have hf : Along Fresh 4 St.init stallRun := by decide +kernel
  obtain ⟨js, t, hj, ha, hr⟩ := h 4 stallRun s hf hs hk
  exact write_blocks js (core_run hf hs) hm hj ha hr

/-- A handle without a connection may be left when `io_stream_close` is done (in a loop of the application). -/
theorem C56_handles_false :
    ¬ ∀ (max : Nat) (is : List In) (s t : St), Along Fresh max St.init is → run max St.init is = .ok s →
      step max s .closeDone = .ok t → t.hands = [] := by
  intro h
  have := h 4 [.connect .fail, .close calm] _ _ (by decide +kernel) rfl rfl
  revert this
  decide +kernel

/-! ### C58: an event of one connection leaves the others alone -/

theorem shutdown_other {ev : Env} {s t : St} {r : Ref} (h : shutdownConn ev s r = .ok t) : t.conn = s.conn := by
  unfold shutdownConn at h
  split at h
  · cases h
  · cases h; rfl

theorem run_other {ev : Env} {s t : St} {r x : Ref} (hx : x ≠ r) (h : disconnectRun ev s r = .ok t) : t.conn x = s.conn x := by
  unfold disconnectRun at h
  split at h
  · cases h; rfl
  · rw [shutdown_other h]; exact upd_ne _ _ hx

theorem inner_other {ev : Env} {s t : St} {r x : Ref} {cb : Option Tok} {force : Bool} (hx : x ≠ r)
    (h : disconnectInner ev s r cb force = .ok t) : t.conn x = s.conn x := by
  unfold disconnectInner at h
  simp only at h
  split at h
  · cases h; exact upd_ne _ _ hx
  · split at h
    · cases h; simp only [St.set]; rw [upd_ne _ _ hx, upd_ne _ _ hx]
    · rw [run_other hx h]; simp only [St.set]; rw [upd_ne _ _ hx, upd_ne _ _ hx]

theorem after_other {ev : Env} {s t : St} {r x : Ref} {b : Bool} (hx : x ≠ r)
    (h : (if b then afterTry ev s r else Out.ok s) = .ok t) : t.conn x = s.conn x := by
  split at h
  · unfold afterTry at h
    split at h
    · exact run_other hx h
    · cases h; rfl
  · cases h; rfl

theorem cancel_other {ev : Env} {s t : St} {r x : Ref} {b : Bool} (hx : x ≠ r) (h : cancelNext ev s r b = .ok t) :
    t.conn x = s.conn x := by
  unfold cancelNext at h
  split at h
  · rw [after_other hx h]; exact upd_ne _ _ hx
  · next bk bs hd =>
    cases bk with
    | nil => cases h
    | cons m rest => cases h; exact upd_ne _ _ hx

theorem try_other {ev : Env} {s t : St} {r x : Ref} {b : Bool} (hx : x ≠ r) (h : tryWrite ev s r b = .ok t) :
    t.conn x = s.conn x := by
  unfold tryWrite at h
  simp only at h
  split at h
  · exact after_other hx h
  · split at h
    · exact after_other hx h
    · split at h
      · exact cancel_other hx h
      · split at h
        · rw [after_other hx h]; simp only [St.set]; rw [upd_ne _ _ hx, upd_ne _ _ hx]
        · rw [after_other hx h]; simp only [St.set]; rw [upd_ne _ _ hx]

/-- Events of libuv for a connection. -/
def In.of : In → Option Ref
  | .written r _ _ | .again r _ | .readErr r _ | .data r _ _ _ | .closed (.conn r) => some r
  | _ => none

/-- An event of one connection changes no other connection (missing: the counter of fruitless reads belongs to the
channel, see `C58_shared_count_false`). -/
theorem C58_other_untouched_partial (max : Nat) (is : List In) {s t : St} (ha : Along Fresh max St.init is)
    (hr : run max St.init is = .ok s) {i : In} {r : Ref} (hi : i.of = some r) (hs : step max s i = .ok t) {x : Ref} (hx : x ≠ r) :
    t.conn x = s.conn x := by
  have hc := core_run ha hr
  cases i with
  | written c ok ev =>
    cases hi
    simp only [step] at hs
    split at hs
    · have hs := use_ok hs
      split at hs
      · cases hs; rfl
      · rw [try_other hx hs]; exact upd_ne _ _ hx
    · cases hs
  | again c ev =>
    cases hi
    simp only [step] at hs
    split at hs
    · split at hs
      · cases hs; rfl
      · split at hs
        · rw [inner_other hx hs]
        · cases hs; rfl
    · cases hs
  | readErr c f =>
    cases hi
    simp only [step] at hs
    split at hs
    · split at hs
      · cases hs; rfl
      · cases hs; rfl
    · cases hs
  | data c n f ev =>
    cases hi
    simp only [step] at hs
    split at hs
    · split at hs
      · cases hs; rfl
      · split at hs
        · cases hs; rfl
        · split at hs
          · exact inner_other hx hs
          · cases hs; rfl
    · cases hs
  | closed h =>
    cases h with
    | loose => cases hi
    | conn c =>
      cases hi
      simp only [step] at hs
      split at hs
      · split at hs
        · cases hs
        · split at hs
          · cases hs
          · next o ho =>
            have := (hc.g _ (mem_of_lookup ho)).1
            cases hs
            simp only at this
            subst this
            exact upd_ne _ _ hx
      · cases hs
  | _ => cases hi

/-- Fruitless reads of one connection close another one: with a limit of three, three of the first connection and one of
the second one. -/
theorem C58_shared_count_false :
    ¬ ∀ (max : Nat) (is : List In) (s : St), Along Fresh max St.init is → run max St.init is = .ok s →
      ∀ (r : Ref) (ev : Env) (t : St), (s.conn r).status = .connected → step max s (.again r ev) = .ok t →
      (is.countP fun i => match i with | .again c _ => c == r | _ => false) + 1 ≤ max → (t.conn r).status = .connected := by
  intro h
  have := h 3 [.connect (.ok 0), .connected 0 (some 7), .ret calm, .connect (.ok 0), .connected 1 (some 8), .ret calm,
    .again 0 calm, .again 0 calm, .again 0 calm] _ (by decide +kernel) rfl 1 calm _ (by decide +kernel) rfl (by decide +kernel)
  revert this
  decide +kernel

/-- The counter counts the fruitless reads of all connections and is never reset. -/
example : (match run 9 St.init [.connect (.ok 0), .connected 0 (some 7), .ret calm, .again 0 calm, .data 0 1 false calm, .ret calm,
    .again 0 calm] with | .ok s => some s.again | _ => none) = some 2 := by decide +kernel

example : (match run 9 St.init [.connect (.ok 0), .connected 0 (some 7), .ret calm, .listen (.ok 9), .ret calm, .readErr 0 true, .ret calm]
    with | .ok s => some ((s.conn 0).status, (s.conn 1).status) | _ => none) = some (.disconnecting, .connected) := by decide +kernel

/-! ### C59 and C24: messages -/

theorem msgs_run {max : Nat} {is : List In} {s : St} (ha : Along Fresh max St.init is) (hr : run max St.init is = .ok s) :
    Core s ∧ Msgs s := run_induct msgs_mic is core_init msgs_init ha hr

/-- A message that was written is reported with success, a cancelled one with an error (missing: one that could not be
written is reported with success, see `C59_failed_write_false`). -/
theorem C59_result_partial (max : Nat) (is : List In) {s : St} (ha : Along Fresh max St.init is)
    (hr : run max St.init is = .ok s) {r : Ref} {m : Nat} {code : Int} {ok : Bool} (hm : .written r m code ok ∈ s.log) :
    (ok = true → code = Err.SUCCESS) ∧ (code ≠ Err.SUCCESS → code = Err.CLOSING ∧ ok = false) := by
  rcases (msgs_run ha hr).2.code r m code ok hm with h | h
  · exact ⟨fun _ => h, fun hne => absurd h hne⟩
  · exact ⟨fun e => (by rw [h.2] at e; cases e), fun _ => h⟩

/-- A connection is reset while a write is pending: the write fails and is reported with success. -/
def resetRun : List In := [.connect (.ok 0), .connected 0 (some 7), .ret calm, .send 0 5 calm, .send 0 6 calm, .readErr 0 true,
  .ret calm, .written 0 false calm, .ret calm, .ret calm, .closed (.conn 0), .ret calm]

theorem C59_failed_write_false :
    ¬ ∀ (max : Nat) (is : List In) (s : St), Along (fun s i => Fresh s i ∧ Owned s i ∧ Steady s i) max St.init is →
      run max St.init is = .ok s → ∀ r m code, .written r m code false ∈ s.log → code ≠ Err.SUCCESS := by
  intro h
  exact h 4 resetRun _ (by decide +kernel) rfl 0 5 Err.SUCCESS (by decide +kernel) rfl

example : logOf (run 4 St.init resetRun) = some [.ret 0 0, .answer 0 0 (some 0), .sent 0 5, .sent 0 6, .recv 0,
    .written 0 5 Err.SUCCESS false, .written 0 6 Err.CLOSING false, .disconnected 0] := by decide +kernel

/-- With any re-entrant use: messages are reported in the order they were accepted, none twice and none that was not
accepted. -/
theorem C24_reentrant_order (max : Nat) (is : List In) {s : St} (ha : Along Fresh max St.init is)
    (hr : run max St.init is = .ok s) (r : Ref) : reportedOf r s.log <+: sentOf r s.log :=
  ⟨_, ((msgs_run ha hr).2.eq r).symm⟩

theorem flow_run {max : Nat} {is : List In} {s : St} (ha : Along (fun s i => Fresh s i ∧ Taken s i) max St.init is)
    (hr : run max St.init is = .ok s) : Flow s := by
  have key : ∀ (is : List In) {s t : St}, Core s → Flow s → Along (fun s i => Fresh s i ∧ Taken s i) max s is →
      run max s is = .ok t → Flow t := by
    intro is
    induction is with
    | nil => intro s t _ h _ hr; cases hr; exact h
    | cons i is ih =>
      intro s t hc hv ha hr
      unfold run at hr
      cases e : step max s i with
      | ok u =>
        rw [e] at hr
        exact ih (core_step hc ha.1.1 e) (flow_step hc hv ha.1.2 e) (ha.2 u e) hr
      | ub => rw [e] at hr; cases hr
      | abort => rw [e] at hr; cases hr
      | no => rw [e] at hr; cases hr
  exact key is core_init flow_init ha hr

theorem Along.mono {P Q : St → In → Prop} {max : Nat} (hpq : ∀ s i, P s i → Q s i) :
    ∀ (is : List In) {s : St}, Along P max s is → Along Q max s is := by
  intro is
  induction is with
  | nil => intro s _; trivial
  | cons i is ih => intro s ha; exact ⟨hpq _ _ ha.1, fun u e => ih (ha.2 u e)⟩

/-- With any re-entrant use: every accepted message is reported before its connection is reported as disconnected, if
`uv_write` takes every request (missing: see `C24_reentrant_refused_false`). -/
theorem C24_reentrant_all_partial (max : Nat) (is : List In) {s : St}
    (ha : Along (fun s i => Fresh s i ∧ Taken s i) max St.init is) (hr : run max St.init is = .ok s) (r : Ref)
    (hd : .disconnected r ∈ s.log) : reportedOf r s.log = sentOf r s.log := by
  have ha' := Along.mono (Q := Fresh) (fun _ _ h => h.1) is ha
  obtain ⟨hc, hh⟩ := hist_run ha' hr
  have hm := (msgs_run ha' hr).2.eq r
  have hst : (s.conn r).status = .disconnected := by
    have := hh.gone r
    have hp := List.count_pos_iff.2 hd
    split at this
    · assumption
    · omega
  have hw : (s.conn r).writing = false := by
    cases hw : (s.conn r).writing with
    | false => rfl
    | true => exact absurd hst (hc.wl r hw).1
  have hq : (s.conn r).q = [] := by
    apply Classical.byContradiction
    intro hne
    rcases flow_run ha hr r hne with h1 | ⟨x, b, h1⟩
    · rw [hw] at h1; cases h1
    · have := (hc.fr _ h1).2.1
      rw [hst] at this; cases this
  have hu : unrep s r = [] := by
    unfold unrep
    cases ht : todoOf r s.stack with
    | none => simp [hq]
    | some t =>
      rcases todo_busy hc ht with h1 | h1
      · rw [hw] at h1; cases h1
      · rw [hst] at h1; cases h1.2
  rw [hm, hu, List.append_nil]

example : Along (fun s i => Fresh s i ∧ Taken s i) 4 St.init resetRun := by decide +kernel

/-- `uv_write` does not take a request: the message is dropped without report when the connection is closed. -/
theorem C24_reentrant_refused_false :
    ¬ ∀ (max : Nat) (is : List In) (s : St), Along (fun s i => Fresh s i ∧ Owned s i ∧ Steady s i) max St.init is →
      run max St.init is = .ok s → ∀ r, .disconnected r ∈ s.log → reportedOf r s.log = sentOf r s.log := by
  intro h
  have := h 4 [.connect (.ok 0), .connected 0 (some 7), .ret calm, .send 0 5 ⟨0, false, false⟩, .disconnect 0 false calm,
    .closed (.conn 0)] _ (by decide +kernel) rfl 0 (by decide +kernel)
  revert this
  decide +kernel

/-- Messages sent from the callback that reports the first one. -/
example : logOf (run 4 St.init [.connect (.ok 0), .connected 0 (some 7), .ret calm, .send 0 5 calm, .send 0 6 calm, .send 0 7 calm,
    .written 0 true calm, .send 0 8 calm, .ret ⟨2, true, false⟩, .disconnect 0 false calm, .written 0 true calm, .send 0 9 calm,
    .ret calm, .ret calm, .ret calm, .closed (.conn 0)]) =
    some [.ret 0 0, .answer 0 0 (some 0), .sent 0 5, .sent 0 6, .sent 0 7, .written 0 5 0 true, .sent 0 8, .written 0 6 0 true,
      .written 0 7 0 true, .written 0 8 0 true, .disconnected 0] := by decide +kernel

end Verif.IoStream.Pool
