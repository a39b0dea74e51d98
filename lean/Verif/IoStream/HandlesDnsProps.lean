import Verif.IoStream.HandlesDns

/-!
C97 with resolving of names: the requests are deleted exactly once, are never used afterwards, and their reports find the channel alive; and what
happens to handles is a history of `Handles`, so that the theorems there hold with names too.
-/
namespace Verif.IoStream.HandlesDns

open Verif.IoStream.Handles

/-! ### The loop stays -/

theorem ev_release {s s' : St} {h : Nat} (hs : release s h = some s') : s'.evLoop = s.evLoop := by
  unfold release at hs
  simp only at hs
  split at hs
  · cases hs
  split at hs
  · split at hs
    · cases hs; rfl
    · cases hs
  · cases hs; rfl

theorem ev_makeStream {s s' : St} {l : Nat} (hs : makeStream s l = some s') : s'.evLoop = s.evLoop := by
  unfold makeStream at hs
  split at hs
  · cases hs
  · cases hs; rfl

theorem ev_uvClose {s s' : St} {h : Nat} {cb : Cb} (hs : uvClose s h cb = some s') : s'.evLoop = s.evLoop := by
  unfold uvClose at hs
  simp only at hs
  split at hs
  · cases hs
  · cases hs; rfl

theorem ev_makeConn {s s' : St} {h : Nat} (hs : makeConn s h = some s') : s'.evLoop = s.evLoop := by
  unfold makeConn at hs
  split at hs
  · cases hs
  · cases hs; rfl

theorem ev_shutdownConn {s s' : St} {c : Nat} (hs : shutdownConn s c = some s') : s'.evLoop = s.evLoop := by
  unfold shutdownConn at hs
  split at hs
  · exact (ev_uvClose hs).trans rfl
  · cases hs

theorem ev_shutdownAsync {s s' : St} {a : Nat} (hs : shutdownAsync s a = some s') : s'.evLoop = s.evLoop := by
  unfold shutdownAsync at hs
  split at hs
  · exact (ev_uvClose hs).trans rfl
  · cases hs

theorem ev_shutdownPtr {s s' : St} {h : Nat} (hs : shutdownPtr s h = some s') : s'.evLoop = s.evLoop := by
  unfold shutdownPtr at hs
  split at hs
  · exact (ev_uvClose hs).trans rfl
  · cases hs

theorem ev_deleteAsync {s s' : St} {a : Nat} (hs : deleteAsync s a = some s') : s'.evLoop = s.evLoop := by
  unfold deleteAsync at hs
  split at hs
  · exact (ev_release hs).trans rfl
  · cases hs

theorem ev_getLoop (s : St) : (getLoop s).evLoop ≠ none := by
  unfold getLoop
  split
  · next h => simp [h]
  · simp

theorem ev_disconnect {s s' : St} {c : Nat} (hs : disconnect s c = some s') : s'.evLoop = s.evLoop := by
  unfold disconnect at hs
  split at hs
  · split at hs
    · cases hs; rfl
    · exact ev_shutdownConn hs
  · cases hs

theorem ev_disconnectAll : ∀ (l : List Nat) {s s' : St}, disconnectAll s l = some s' → s'.evLoop = s.evLoop := by
  intro l
  induction l with
  | nil => intro s s' h; cases h; rfl
  | cons c t ih =>
    intro s s' h
    simp only [disconnectAll, Option.bind_eq_some_iff] at h
    obtain ⟨s1, h1, h2⟩ := h
    rw [ih h2, ev_disconnect h1]

theorem ev_listen {s s' : St} {ok : Bool} (h : listen s ok = some s') (he : s.evLoop ≠ none) : s'.evLoop ≠ none := by
  unfold listen at h
  split at h
  · cases h; exact he
  · cases ok <;> simp only [Option.bind_eq_bind, Option.bind_eq_some_iff, if_true, Bool.false_eq_true, if_false] at h <;> obtain ⟨s1, h1, s2, h2, h3⟩ := h <;>
      rw [ev_release h3]
    · rw [ev_shutdownPtr h2, ev_makeStream h1]; exact ev_getLoop s
    · rw [ev_makeConn h2, ev_makeStream h1]; exact ev_getLoop s

theorem ev_connect {s s' : St} {ok : Bool} (h : connect s ok = some s') (he : s.evLoop ≠ none) : s'.evLoop ≠ none := by
  unfold connect at h
  split at h
  · cases h; exact he
  · cases ok <;> simp only [Option.bind_eq_bind, Option.bind_eq_some_iff, if_true, Bool.false_eq_true, if_false] at h <;> obtain ⟨s1, h1, s3, h2, h3⟩ := h <;>
      rw [ev_release h3]
    · rw [ev_shutdownAsync h2]
      show s1.evLoop ≠ none
      rw [ev_makeStream h1]; exact ev_getLoop s
    · cases h2
      show s1.evLoop ≠ none
      rw [ev_makeStream h1]; exact ev_getLoop s

theorem ev_step {s s' : St} {e : Handles.Ev} (hc : Handles.can s e = true) (hs : Handles.step s e = some s') (hn : e ≠ .closeEnd) (he : s.evLoop ≠ none) :
    s'.evLoop ≠ none := by
  cases e with
  | init u =>
    simp only [Handles.can, Bool.and_eq_true, Option.isNone_iff_eq_none] at hc
    exact absurd hc.1 he
  | run => cases hs; exact ev_getLoop s
  | listen ok => exact ev_listen hs he
  | connect ok => exact ev_connect hs he
  | connected a ok f =>
    simp only [Handles.step, connected] at hs
    split at hs
    · split at hs
      · simp only [Option.bind_eq_bind, Option.bind_eq_some_iff] at hs
        obtain ⟨s2, h2, h3⟩ := hs
        rw [ev_deleteAsync h3, ev_makeConn h2]
        exact he
      · rw [ev_shutdownAsync hs]; exact he
    · cases hs
  | accept l ok a f =>
    simp only [Handles.step, accept] at hs
    split at hs
    · split at hs
      · simp only [Option.bind_eq_bind, Option.bind_eq_some_iff] at hs
        obtain ⟨s1, h1, h2⟩ := hs
        split at h2
        · obtain ⟨s2, h2, h3⟩ := Option.bind_eq_some_iff.1 h2
          rw [ev_release h3, ev_makeConn h2, ev_makeStream h1]; exact he
        · obtain ⟨s2, h2, h3⟩ := Option.bind_eq_some_iff.1 h2
          rw [ev_release h3, ev_shutdownPtr h2, ev_makeStream h1]; exact he
      · cases hs; exact he
    · cases hs
  | disconnect c => rw [ev_disconnect hs]; exact he
  | closed h =>
    simp only [Handles.step, onClose] at hs
    split at hs
    · cases hs
    split at hs
    · split at hs
      · rw [ev_release hs]; exact he
      · cases hs
    · cases hs; exact he
    · split at hs
      · rw [ev_deleteAsync hs]; exact he
      · cases hs
    · split at hs
      · rw [ev_release hs]; exact he
      · cases hs
    · cases hs
  | close late => rw [ev_disconnectAll _ hs]; exact he
  | closeEnd => exact absurd rfl hn

/-! ### Invariant -/

structure Inv (d : D) : Prop where
  base : ∃ es, Handles.run St.start es = some d.st
  live : ∀ q, d.obj q = true ↔ q ∈ d.dns
  fresh : ∀ q ∈ d.dns, q < d.n
  loop : d.dns ≠ [] → d.st.evLoop ≠ none
  lists : d.lists = 0

theorem run_snoc : ∀ (es : List Handles.Ev) {s s1 s2 : St} {e : Handles.Ev}, Handles.run s es = some s1 → Handles.can s1 e = true → Handles.step s1 e = some s2 →
    Handles.run s (es ++ [e]) = some s2 := by
  intro es
  induction es with
  | nil =>
    intro s s1 s2 e h hc hs
    cases h
    simp [Handles.run, hc, hs]
  | cons x t ih =>
    intro s s1 s2 e h hc hs
    simp only [Handles.run] at h
    split at h
    · next hx =>
      simp only [Option.bind_eq_some_iff] at h
      obtain ⟨s3, h3, h4⟩ := h
      simp only [List.cons_append, Handles.run, if_pos hx, h3, Option.bind_some]
      exact ih h4 hc hs
    · cases h

theorem base_step {s s' : St} {e : Handles.Ev} (h : ∃ es, Handles.run St.start es = some s) (hc : Handles.can s e = true) (hs : Handles.step s e = some s') :
    ∃ es, Handles.run St.start es = some s' := by
  obtain ⟨es, h⟩ := h
  exact ⟨es ++ [e], run_snoc es h hc hs⟩

theorem inv_start : Inv D.start := ⟨⟨[], rfl⟩, by simp [D.start], by simp [D.start], by simp [D.start], rfl⟩

/-- Which event of `Handles` follows a resolved name. -/
def follow (lst ok : Bool) : Handles.Ev := if lst then .listen ok else .connect ok

theorem follow_step (s : St) (lst ok : Bool) : Handles.step s (follow lst ok) = if lst then listen s ok else connect s ok := by
  cases lst <;> rfl

theorem follow_can (s : St) (lst ok : Bool) : Handles.can s (follow lst ok) = true := by
  cases lst <;> rfl

/-- The state after a report, with the handles as in `st`. -/
def gone (d : D) (st : St) (q : Nat) : D := { d with st := st, dns := d.dns.filter (· ≠ q), obj := upd d.obj q false }

theorem inv_gone {d : D} {st : St} {q : Nat} (i : Inv d) (hb : ∃ es, Handles.run St.start es = some st) (he : st.evLoop ≠ none) : Inv (gone d st q) := by
  refine ⟨hb, fun x => ?_, fun x hx => i.fresh x (List.mem_filter.1 hx).1, fun _ => he, i.lists⟩
  simp only [gone, upd, List.mem_filter, decide_eq_true_eq]
  by_cases hx : x = q
  · simp [hx]
  · simp [hx, i.live x]

theorem resolved_ok {d : D} (i : Inv d) {q : Nat} (hq : q ∈ d.dns) (lst : Bool) (f : Found) (ok : Bool) :
    ∃ st, resolved d q lst f ok = some (gone d st q) ∧ Inv (gone d st q) := by
  have ho : d.obj q = true := (i.live q).2 hq
  have he : d.st.evLoop ≠ none := i.loop (List.ne_nil_of_mem hq)
  have hn : ¬ (d.obj q = false ∨ d.st.evLoop = none) := by simp [ho, he]
  unfold resolved
  rw [if_neg hn]
  cases f with
  | failed => exact ⟨d.st, rfl, inv_gone i i.base he⟩
  | list ip =>
    cases ip with
    | false => exact ⟨d.st, rfl, inv_gone i i.base he⟩
    | true =>
      obtain ⟨es, hes⟩ := i.base
      obtain ⟨st, hst⟩ := C97_safe hes (follow lst ok) (follow_can _ _ _)
      have hst' := hst
      rw [follow_step] at hst'
      refine ⟨st, ?_, inv_gone i (base_step i.base (follow_can _ _ _) hst) (ev_step (follow_can _ _ _) hst (by cases lst <;> simp [follow]) he)⟩
      simp only [hst']
      rfl

theorem inv_step {d : D} {e : Ev} (i : Inv d) (hc : can d e = true) : ∃ d', step d e = some d' ∧ Inv d' := by
  cases e with
  | base e =>
    have hc' : Handles.can d.st e = true := by
      cases e <;> simp_all [can]
    obtain ⟨es, hes⟩ := i.base
    obtain ⟨st, hst⟩ := C97_safe hes e hc'
    refine ⟨{ d with st := st }, by simp [step, hst], base_step i.base hc' hst, i.live, i.fresh, fun hd => ?_, i.lists⟩
    refine ev_step hc' hst ?_ (i.loop hd)
    intro he
    subst he
    simp only [can, Bool.and_eq_true, List.isEmpty_iff] at hc
    exact hd hc.2
  | ask ok =>
    refine ⟨ask d ok, rfl, ?_⟩
    unfold ask
    split
    · exact i
    · have hb : ∃ es, Handles.run St.start es = some (getLoop d.st) := base_step i.base (e := .run) rfl rfl
      cases ok with
      | false => exact ⟨hb, i.live, fun q hq => Nat.lt_succ_of_lt (i.fresh q hq), fun _ => ev_getLoop _, i.lists⟩
      | true =>
        refine ⟨hb, fun q => ?_, fun q hq => ?_, fun _ => ev_getLoop _, i.lists⟩
        · simp only [if_true, upd, List.mem_append, List.mem_singleton]
          by_cases hq : q = d.n
          · simp [hq]
          · simp [hq, i.live q]
        · simp only [if_true, List.mem_append, List.mem_singleton] at hq
          rcases hq with hq | hq
          · exact Nat.lt_succ_of_lt (i.fresh q hq)
          · rw [hq]; exact Nat.lt_succ_self _
  | resolved q lst f ok =>
    simp only [can, List.contains_iff_mem] at hc
    obtain ⟨st, h1, h2⟩ := resolved_ok i hc lst f ok
    exact ⟨_, h1, h2⟩

theorem inv_run : ∀ (es : List Ev) {d d' : D}, Inv d → run d es = some d' → Inv d' := by
  intro es
  induction es with
  | nil => intro d d' i h; cases h; exact i
  | cons e t ih =>
    intro d d' i h
    simp only [run] at h
    split at h
    · next hc =>
      obtain ⟨d1, h1, i1⟩ := inv_step i hc
      rw [h1] at h
      exact ih i1 h
    · cases h

/-! ### Theorems -/

/-- C97 (safe, with names): after every history every possible call and report is defined: no deleted request is used or deleted again, and no
report comes for a channel that has no loop any more. -/
theorem C97_dns_safe {es : List Ev} {d : D} (hr : run D.start es = some d) (e : Ev) (hc : can d e = true) : ∃ d', step d e = some d' := by
  obtain ⟨d', h, -⟩ := inv_step (inv_run es inv_start hr) hc
  exact ⟨d', h⟩

/-- C97 (handles, with names): what happens to handles, connections and loops is a history without names. -/
theorem C97_dns_base {es : List Ev} {d : D} (hr : run D.start es = some d) : ∃ bs, Handles.run St.start bs = some d.st := (inv_run es inv_start hr).base

/-- C97 (freed, with names): a request is allocated exactly while libuv works on it, lists of addresses are all freed, and when `io_stream_close`
ends no request is left. -/
theorem C97_dns_freed {es : List Ev} {d : D} (hr : run D.start es = some d) :
    (∀ q, d.obj q = true ↔ q ∈ d.dns) ∧ d.lists = 0 ∧ (can d (.base .closeEnd) = true → ∀ q, d.obj q = false) := by
  have i := inv_run es inv_start hr
  refine ⟨i.live, i.lists, fun hc q => ?_⟩
  simp only [can, Bool.and_eq_true, List.isEmpty_iff] at hc
  cases h : d.obj q with
  | false => rfl
  | true => have := (i.live q).1 h; simp [hc.2] at this

/-! ### Example -/

/-- Two names are resolved, one while the channel is being closed. -/
example : ∃ d, run D.start [.base (.init true), .ask true, .ask true, .ask false, .resolved 1 true (.list true) true, .base (.close []),
    .resolved 0 false (.list true) true, .base (.closed 0), .base .closeEnd] = some d ∧ d.dns = [] ∧ d.n = 3 ∧ d.st.nh = 1 ∧ d.st.evLoop = none := by
  refine ⟨_, rfl, ?_⟩
  decide

end Verif.IoStream.HandlesDns
