import Verif.IoStream.PoolHist

/-!
No message waits without a request: if `uv_write` takes every request, a connection with messages is writing, or its
messages are being cancelled.
-/
namespace Verif.IoStream.Pool

/-! ### Iterators -/

theorem valid_mic {s t : St} (_ : Core s) (h : Valid s) (hm : Mic false s t) : Valid t := by
  have sub : ∀ {t : St}, (∀ f ∈ t.stack, f ∈ s.stack ∨ ∀ r v b, f ≠ .onClose r v b) → Valid t := by
    intro t hs r v b hmem
    rcases hs _ hmem with h1 | h1
    · exact h r v b h1
    · exact absurd rfl (h1 r v b)
  have tl : ∀ f ∈ s.stack.tail, f ∈ s.stack := fun f hf => List.mem_of_mem_tail hf
  cases hm with
  | shut ev he hr hc hs =>
    refine sub (fun f hf => Or.inl ?_)
    have : ev.rehash = false := by
      cases hb : ev.rehash with
      | false => rfl
      | true => exact absurd (he hb) (by simp)
    simpa [shut, this] using hf
  | @second r v' fs t hk =>
    intro x v b hmem
    have hmem : _ ∈ _ :: s.stack.tail := hmem
    rcases List.mem_cons.1 hmem with h1 | h1
    · cases h1; exact h r _ false (by rw [hk]; simp)
    · exact h x v b (tl _ h1)
  | closed hu hmem hw =>
    intro x v b hmem
    have hmem : _ ∈ _ :: s.stack := hmem
    rcases List.mem_cons.1 hmem with h1 | h1
    · cases h1; rfl
    · exact h x v b h1
  | rbegin f hu hr hs hf =>
    refine sub (fun g hg => ?_)
    have hg : g ∈ f :: s.stack := hg
    rcases List.mem_cons.1 hg with h1 | h1
    · right; rintro r v b rfl
      rcases hf with ⟨_, _, rfl⟩ | ⟨_, rfl⟩ <;> cases h1
    · exact Or.inl h1
  | push f hu hf =>
    refine sub (fun g hg => ?_)
    have hg : g ∈ f :: s.stack := hg
    rcases List.mem_cons.1 hg with h1 | h1
    · right; rintro r v b rfl
      rcases hf with rfl | rfl | rfl <;> cases h1
    · exact Or.inl h1
  | wbegin ok hu hmem hq =>
    refine sub (fun g hg => ?_)
    rcases List.mem_cons.1 hg with h1 | h1
    · right; rintro r v b rfl; cases h1
    · exact Or.inl h1
  | cbegin after hu hr hs hc' hw hq =>
    refine sub (fun g hg => ?_)
    rcases List.mem_cons.1 hg with h1 | h1
    · right; rintro r v b rfl; cases h1
    · exact Or.inl h1
  | pushL t =>
    refine sub (fun g hg => ?_)
    rcases List.mem_cons.1 hg with h1 | h1
    · right; rintro r v b rfl; cases h1
    · exact Or.inl h1
  | wmore hk =>
    refine sub (fun g hg => ?_)
    rcases List.mem_cons.1 hg with h1 | h1
    · right; rintro r v b rfl; cases h1
    · exact Or.inl (tl _ h1)
  | cmore hk =>
    refine sub (fun g hg => ?_)
    rcases List.mem_cons.1 hg with h1 | h1
    · right; rintro r v b rfl; cases h1
    · exact Or.inl (tl _ h1)
  | rmore hk =>
    refine sub (fun g hg => ?_)
    rcases List.mem_cons.1 hg with h1 | h1
    · right; rintro r v b rfl; cases h1
    · exact Or.inl (tl _ h1)
  | _ => first
    | exact sub (fun f hf => Or.inl hf)
    | exact sub (fun f hf => Or.inl (tl f hf))

theorem valid_step {max : Nat} {s t : St} {i : In} (hc : Core s) (h : Valid s) (hf : Fresh s i) (hst : Steady s i)
    (hs : step max s i = .ok t) : Valid t := by
  have hre : i.re = false := by
    unfold In.re
    match he : i.env with
    | none => rfl
    | some ev => exact hst ev he
  have hm := step_mics hc hf hs
  rw [hre] at hm
  clear hs hf hst
  induction hm with
  | refl => exact h
  | head h1 _ ih => exact ih (core_mic hc h1) (valid_mic hc h h1)

/-! ### Flow -/

/-- The messages of a connection move: it is writing, or the messages are being cancelled. -/
def Moves (s : St) (r : Ref) : Prop :=
  (s.conn r).q ≠ [] → (s.conn r).writing = true ∨ ∃ t b, .cancel r t b ∈ s.stack

/-- The above for every connection. -/
def Flow (s : St) : Prop := ∀ r, Moves s r

theorem moves_of {s t : St} {r : Ref} (h : Moves s r) (hq : (t.conn r).q = (s.conn r).q)
    (hw : (t.conn r).writing = (s.conn r).writing) (hs : ∀ x b, .cancel r x b ∈ s.stack → .cancel r x b ∈ t.stack) :
    Moves t r := by
  intro hne
  rw [hq] at hne
  rcases h hne with h1 | ⟨x, b, h1⟩
  · left; rw [hw]; exact h1
  · exact Or.inr ⟨x, b, hs x b h1⟩

/-- Neither the buffers nor the write requests nor the cancelling frames differ. -/
structure Alike (s t : St) : Prop where
  q : ∀ r, (t.conn r).q = (s.conn r).q
  w : ∀ r, (t.conn r).writing = (s.conn r).writing
  c : ∀ r x b, .cancel r x b ∈ s.stack → .cancel r x b ∈ t.stack

theorem Alike.flow {s t : St} (h : Alike s t) (hf : Flow s) : Flow t :=
  fun r => moves_of (hf r) (h.q r) (h.w r) (h.c r)

theorem Alike.refl (s : St) : Alike s s := ⟨fun _ => rfl, fun _ => rfl, fun _ _ _ h => h⟩

theorem Alike.trans {a b c : St} (h : Alike a b) (h' : Alike b c) : Alike a c :=
  ⟨fun r => (h'.q r).trans (h.q r), fun r => (h'.w r).trans (h.w r), fun r x y hm => h'.c r x y (h.c r x y hm)⟩

theorem alike_set {s : St} {r : Ref} {c : Conn} (hq : c.q = (s.conn r).q) (hw : c.writing = (s.conn r).writing) :
    Alike s (s.set r c) := by
  refine ⟨q_set hq, ?_, fun _ _ _ h => h⟩
  intro x
  simp only [St.set]
  by_cases e : x = r
  · rw [e, upd_same]; exact hw
  · rw [upd_ne _ _ e]

theorem alike_conn {s t : St} (hc : t.conn = s.conn) (hs : ∀ r x b, .cancel r x b ∈ s.stack → .cancel r x b ∈ t.stack) :
    Alike s t := ⟨fun r => by rw [hc], fun r => by rw [hc], hs⟩

theorem alike_push {s t : St} (f : Frame) (hc : t.conn = s.conn) (hs : t.stack = f :: s.stack) : Alike s t :=
  alike_conn hc (fun r x b h => by rw [hs]; exact List.mem_cons_of_mem _ h)

theorem alike_shutdown {ev : Env} {s t : St} {r : Ref} (h : shutdownConn ev s r = .ok t) : Alike s t := by
  unfold shutdownConn at h
  split at h
  · cases h
  · cases h
    refine alike_conn rfl ?_
    intro r x b hm
    simp only
    split
    · exact List.mem_map.2 ⟨_, hm, rfl⟩
    · exact hm

theorem alike_run {ev : Env} {s t : St} {r : Ref} (h : disconnectRun ev s r = .ok t) : Alike s t := by
  unfold disconnectRun at h
  split at h
  · cases h; exact .refl s
  · refine Alike.trans ?_ (alike_shutdown h)
    exact alike_set rfl rfl

theorem alike_inner {ev : Env} {s t : St} {r : Ref} {cb : Option Tok} {force : Bool}
    (h : disconnectInner ev s r cb force = .ok t) : Alike s t := by
  unfold disconnectInner at h
  simp only at h
  split at h
  · cases h; exact alike_set rfl rfl
  · split at h
    · cases h
      refine Alike.trans (b := s.set r { s.conn r with cbk := cb }) (alike_set rfl rfl) ?_
      exact alike_set rfl rfl
    · refine Alike.trans (b := s.set r { s.conn r with cbk := cb }) (alike_set rfl rfl) ?_
      refine Alike.trans ?_ (alike_run h)
      exact alike_set rfl rfl

theorem alike_all {ev : Env} (rs : List Ref) : ∀ {s t : St}, disconnectAll ev s rs = .ok t → Alike s t := by
  induction rs with
  | nil => intro s t h; cases h; exact .refl s
  | cons r rs ih =>
    intro s t h
    unfold disconnectAll at h
    match e : disconnectInner ev s r none false, h with
    | .ok u, h => exact (alike_inner e).trans (ih h)

theorem alike_after {ev : Env} {s t : St} {r : Ref} (h : afterTry ev s r = .ok t) : Alike s t := by
  unfold afterTry at h
  split at h
  · exact alike_run h
  · cases h; exact .refl s

theorem alike_after' {ev : Env} {s t : St} {r : Ref} {after : Bool}
    (h : (if after then afterTry ev s r else Out.ok s) = .ok t) : Alike s t := by
  split at h
  · exact alike_after h
  · cases h; exact .refl s

/-- The loop over a closing connection. -/
theorem flow_cancel {ev : Env} {s t : St} {r : Ref} {after : Bool} (hx : ∀ x, x ≠ r → Moves s x)
    (h : cancelNext ev s r after = .ok t) : Flow t := by
  unfold cancelNext at h
  split at h
  · simp only at h
    refine (alike_after' h).flow ?_
    intro x
    by_cases e : x = r
    · intro hq; simp [St.set, e, upd_same] at hq
    · exact moves_of (hx x e) (by simp only [St.set]; rw [upd_ne _ _ e]) (by simp only [St.set]; rw [upd_ne _ _ e])
        (fun _ _ h => h)
  · next b bs hd =>
    cases b with
    | nil => cases h
    | cons m rest =>
      cases h
      intro x
      by_cases e : x = r
      · subst e; intro _; exact Or.inr ⟨rest, after, List.mem_cons_self⟩
      · exact moves_of (hx x e) (by simp only [St.set, St.emit, St.push]; rw [upd_ne _ _ e])
          (by simp only [St.set, St.emit, St.push]; rw [upd_ne _ _ e]) (fun _ _ h => List.mem_cons_of_mem _ h)

theorem flow_try {ev : Env} {s t : St} {r : Ref} {after : Bool} (hu : ev.uvOk = true) (hx : ∀ x, x ≠ r → Moves s x)
    (h : tryWrite ev s r after = .ok t) : Flow t := by
  unfold tryWrite at h
  simp only [hu, if_true] at h
  split at h
  · next hw =>
    refine (alike_after' h).flow ?_
    intro x
    by_cases e : x = r
    · subst e; exact fun _ => Or.inl hw
    · exact hx x e
  · split at h
    · next hq =>
      refine (alike_after' h).flow ?_
      intro x
      by_cases e : x = r
      · subst e; exact fun hne => absurd hq hne
      · exact hx x e
    · split at h
      · exact flow_cancel hx h
      · refine (alike_after' h).flow ?_
        intro x
        by_cases e : x = r
        · subst e; intro _; left; simp [St.set, upd_same]
        · exact moves_of (hx x e) (by simp only [St.set]; rw [upd_ne _ _ e, upd_ne _ _ e])
            (by simp only [St.set]; rw [upd_ne _ _ e, upd_ne _ _ e]) (fun _ _ h => h)

theorem alike_call {s : St} {f : St → Tok → St × Int} (hf : Alike { s with calls := s.calls + 1 } (f { s with calls := s.calls + 1 } s.calls).1) :
    Alike s (call s f) :=
  ⟨fun r => hf.q r, fun r => hf.w r, fun r x b h => hf.c r x b h⟩

theorem alike_make {s : St} (hc : Core s) (fd : Nat) : Alike s (make s fd).1 := by
  refine ⟨?_, ?_, fun _ _ _ h => h⟩ <;> intro x <;> simp only [make] <;>
  · by_cases e : x = s.next
    · rw [e, upd_same, hc.new _ (Nat.le_refl _)]
    · rw [upd_ne _ _ e]

theorem alike_listen {s : St} (hc : Core s) (t : Tok) (sys : Sys) (f : Frame) : Alike s (listenAddr s t sys f).1 := by
  unfold listenAddr
  split
  · exact .refl s
  · split
    · exact alike_conn rfl (fun _ _ _ h => h)
    · next fd => exact (alike_make hc fd).trans (alike_push f rfl rfl)

theorem alike_connect {s : St} (t : Tok) (sys : Sys) : Alike s (connectAddr s t sys).1 := by
  unfold connectAddr
  split
  · exact .refl s
  · split <;> exact alike_conn rfl (fun _ _ _ h => h)

theorem alike_resolve {s : St} (q : Req) (ok : Bool) : Alike s (resolve s q ok).1 := by
  unfold resolve
  split
  · exact .refl s
  · split
    · exact alike_conn rfl (fun _ _ _ h => h)
    · exact .refl s

theorem use_ok {s t : St} {r : Ref} {k : Out} (h : use s r k = .ok t) : k = .ok t := by
  unfold use at h
  split at h
  · exact h
  · cases h

theorem flow_ret {ev : Env} {s t : St} (hu : ev.uvOk = true) (h : Flow s) (hs : ret ev s = .ok t) : Flow t := by
  have alike_pop : ∀ {f : Frame} {fs : List Frame}, s.stack = f :: fs → (∀ r x b, f ≠ .cancel r x b) →
      ∀ {u : St}, u.conn = s.conn → fs ⊆ u.stack → Alike s u := by
    intro f fs hk hf u hcu hsu
    refine alike_conn hcu ?_
    intro r x b hm
    rw [hk] at hm
    rcases List.mem_cons.1 hm with h1 | h1
    · exact absurd h1.symm (hf r x b)
    · exact hsu h1
  unfold ret at hs
  split at hs
  · cases hs
  · cases hs
  · next hk => cases hs; refine Alike.flow (s := s) ?_ h; exact (alike_pop hk (by simp) rfl (by simp [St.pop, St.emit, hk]))
  · next hk => cases hs; refine Alike.flow (s := s) ?_ h; exact (alike_pop hk (by simp) rfl (by simp [St.pop, hk]))
  · next hk => cases hs; refine Alike.flow (s := s) ?_ h; exact (alike_pop hk (by simp) rfl (by simp [St.pop, hk]))
  · next hk =>
    have hs := use_ok hs
    split at hs
    · cases hs; refine Alike.flow (s := s) ?_ h; exact (alike_pop hk (by simp) rfl (by simp [St.pop, St.push, St.emit, hk]))
    · unfold gcErase at hs
      split at hs
      · cases hs; refine Alike.flow (s := s) ?_ h; exact (alike_pop hk (by simp) rfl (by simp [St.pop, hk]))
      · cases hs
  · next hk =>
    unfold gcErase at hs
    split at hs
    · cases hs; refine Alike.flow (s := s) ?_ h; exact (alike_pop hk (by simp) rfl (by simp [St.pop, hk]))
    · cases hs
  · next r todo ok fs hk =>
    have hs := use_ok hs
    split at hs
    · cases hs; refine Alike.flow (s := s) ?_ h; exact (alike_pop hk (by simp) rfl (by simp [St.pop, St.push, St.emit, hk]))
    · refine flow_try hu ?_ hs
      intro x hx
      have hp : Alike s s.pop := alike_pop hk (by simp) rfl (by simp [St.pop, hk])
      exact moves_of (hp.flow h x) (by simp only [St.set]; rw [upd_ne _ _ hx]) (by simp only [St.set]; rw [upd_ne _ _ hx])
        (fun _ _ h => h)
  · next r todo after fs hk =>
    have hs := use_ok hs
    have other : ∀ x, x ≠ r → ∀ {u : St}, (u.conn x).q = (s.conn x).q → (u.conn x).writing = (s.conn x).writing → fs ⊆ u.stack →
        Moves u x := by
      intro x hx u h1 h2 h3
      refine moves_of (h x) h1 h2 ?_
      intro y b hm
      rw [hk] at hm
      rcases List.mem_cons.1 hm with h4 | h4
      · cases h4; exact absurd rfl hx
      · exact h3 h4
    split at hs
    · cases hs
      intro x
      by_cases e : x = r
      · subst e; intro _; exact Or.inr ⟨_, after, List.mem_cons_self⟩
      · exact other x e rfl rfl (by simp [St.pop, St.push, St.emit, hk])
    · refine flow_cancel ?_ hs
      intro x hx
      exact other x hx (by simp only [St.set, St.pop]; rw [upd_ne _ _ hx]) (by simp only [St.set, St.pop]; rw [upd_ne _ _ hx])
        (by simp [St.pop, St.set, hk])
  · next r left free fs hk =>
    have hs := use_ok hs
    have hp : Alike s s.pop := alike_pop hk (by simp) rfl (by simp [St.pop, hk])
    split at hs
    · cases hs; refine Alike.flow (s := s) ?_ h; exact (alike_pop hk (by simp) rfl (by simp [St.pop, St.push, St.emit, hk]))
    · split at hs
      · refine Alike.flow (s := s) ?_ h; exact (hp.trans (alike_inner hs))
      · cases hs; exact hp.flow h
  · next r force fs hk =>
    have hs := use_ok hs
    have hp : Alike s s.pop := alike_pop hk (by simp) rfl (by simp [St.pop, hk])
    refine Alike.flow (s := s) ?_ h; exact (hp.trans (alike_inner hs))

theorem flow_step {max : Nat} {s t : St} {i : In} (hc : Core s) (h : Flow s) (ht : Taken s i)
    (hs : step max s i = .ok t) : Flow t := by
  have hcall : Core { s with calls := s.calls + 1 } := core_misc hc _ _ _ _ _ (fun _ => rfl)
  have scall : Alike s { s with calls := s.calls + 1 } := alike_conn rfl (fun _ _ _ h => h)
  cases i with
  | listen sys =>
    simp only [step] at hs
    split at hs
    · cases hs
      unfold callListen
      have h1 := alike_listen hcall s.calls sys (.listenRet s.calls)
      simp only
      split
      · refine Alike.flow (s := s) ?_ h; exact (scall.trans h1)
      · refine Alike.flow (s := s) ?_ h; exact ((scall.trans h1).trans (alike_conn rfl (fun _ _ _ h => h)))
    · cases hs
  | listenName ok =>
    simp only [step] at hs
    split at hs
    · cases hs; refine Alike.flow (s := s) ?_ h; exact (alike_call (alike_resolve _ _))
    · cases hs
  | connect sys =>
    simp only [step] at hs
    split at hs
    · cases hs; refine Alike.flow (s := s) ?_ h; exact (alike_call (alike_connect _ _))
    · cases hs
  | connectName ok =>
    simp only [step] at hs
    split at hs
    · cases hs; refine Alike.flow (s := s) ?_ h; exact (alike_call (alike_resolve _ _))
    · cases hs
  | badAddr =>
    simp only [step] at hs
    split at hs
    · cases hs; refine Alike.flow (s := s) ?_ h; exact (alike_call (.refl _))
    · cases hs
  | disconnect r cb ev =>
    simp only [step] at hs
    split at hs
    · refine Alike.flow (s := s) ?_ h; exact (scall.trans (alike_inner (use_ok hs)))
    · cases hs
  | disconnectFd fd cb ev =>
    simp only [step] at hs
    split at hs
    · split at hs
      · cases hs; exact h
      · refine Alike.flow (s := s) ?_ h; exact (scall.trans (alike_inner hs))
    · cases hs
  | send r m ev =>
    simp only [step] at hs
    split at hs
    · have hs := use_ok hs
      unfold send at hs
      split at hs
      · cases hs; exact h
      · simp only at hs
        refine flow_try (ht ev rfl) ?_ hs
        intro x hx
        exact moves_of (h x) (by simp only [St.set, St.emit]; rw [upd_ne _ _ hx])
          (by simp only [St.set, St.emit]; rw [upd_ne _ _ hx]) (fun _ _ h => h)
    · cases hs
  | close ev =>
    simp only [step] at hs
    split at hs
    · split at hs
      · cases hs
      · cases e : disconnectAll ev { s with closing := true } (s.pool.map (·.2)) with
        | ok u =>
          rw [e] at hs
          cases hs
          have h1 : Alike s { s with closing := true } := alike_conn rfl (fun _ _ _ h => h)
          refine Alike.flow (s := s) ?_ h; exact ((h1.trans (alike_all _ e)).trans (alike_push .closeWait rfl rfl))
        | ub => rw [e] at hs; cases hs
        | abort => rw [e] at hs; cases hs
        | no => rw [e] at hs; cases hs
    · cases hs
  | ret ev => exact flow_ret (ht ev rfl) h hs
  | resolved req res =>
    simp only [step] at hs
    split at hs
    · next hg =>
      have hd : Alike s (s.done req) := alike_conn rfl (fun _ _ _ h => h)
      split at hs
      · next t' sys =>
        have hcd : Core (s.done (.dnsListen t')) := core_mic (re := false) hc (.done _ rfl hg.2)
        have h1 := alike_listen hcd t' sys .cbEnd
        cases hs
        split
        · refine Alike.flow (s := s) ?_ h; exact (hd.trans h1)
        · refine Alike.flow (s := s) ?_ h; exact ((hd.trans h1).trans (alike_push .cbEnd rfl rfl))
      · next t' sys =>
        have h1 := alike_connect (s := s.done (.dnsConnect t')) t' sys
        cases hs
        split
        · refine Alike.flow (s := s) ?_ h; exact (hd.trans h1)
        · refine Alike.flow (s := s) ?_ h; exact ((hd.trans h1).trans (alike_push .cbEnd rfl rfl))
      · cases hs; refine Alike.flow (s := s) ?_ h; exact (hd.trans (alike_push .cbEnd rfl rfl))
      · cases hs; refine Alike.flow (s := s) ?_ h; exact (hd.trans (alike_push .cbEnd rfl rfl))
      · cases hs
    · cases hs
  | connected t' fd =>
    simp only [step] at hs
    split at hs
    · next hg =>
      have hd : Alike s (s.done (.connect t')) := alike_conn rfl (fun _ _ _ h => h)
      have hcd : Core (s.done (.connect t')) := core_mic (re := false) hc (.done _ rfl hg.2)
      split at hs
      · cases hs; refine Alike.flow (s := s) ?_ h; exact (hd.trans (alike_push .loose rfl rfl))
      · next fd =>
        split at hs
        · cases hs; refine Alike.flow (s := s) ?_ h; exact (hd.trans (alike_push .loose rfl rfl))
        · cases hs; refine Alike.flow (s := s) ?_ h; exact ((hd.trans (alike_make hcd fd)).trans (alike_push .cbEnd rfl rfl))
    · cases hs
  | incoming l fd acc =>
    simp only [step] at hs
    split at hs
    · split at hs
      · cases hs; refine Alike.flow (s := s) ?_ h; exact (alike_push _ rfl rfl)
      · next fd =>
        split at hs
        · cases hs; refine Alike.flow (s := s) ?_ h; exact (alike_push .loose rfl rfl)
        · cases hs; refine Alike.flow (s := s) ?_ h; exact ((alike_make hc fd).trans (alike_push .cbEnd rfl rfl))
    · cases hs
  | closed hd =>
    simp only [step] at hs
    split at hs
    · split at hs
      · cases hs; refine Alike.flow (s := s) ?_ h; exact (alike_conn rfl (fun _ _ _ h => h))
      · split at hs
        · cases hs
        · split at hs
          · cases hs
          · next o ho =>
            cases hs
            have h1 : Alike s (s.set o { s.conn o with status := .disconnected }) := alike_set rfl rfl
            refine Alike.flow (s := s) ?_ h; exact (h1.trans (alike_push _ rfl rfl))
    · cases hs
  | written r ok ev =>
    simp only [step] at hs
    split at hs
    · have hs := use_ok hs
      split at hs
      · next m rest bs hq =>
        cases hs
        refine Alike.flow (s := s) ?_ h; exact (alike_push (.written r rest ok) rfl rfl)
      · refine flow_try (ht ev rfl) ?_ hs
        intro x hx
        exact moves_of (h x) (by simp only [St.set, St.done]; rw [upd_ne _ _ hx])
          (by simp only [St.set, St.done]; rw [upd_ne _ _ hx]) (fun _ _ h => h)
    · cases hs
  | again r ev =>
    simp only [step] at hs
    have h1 : Alike s { s with again := s.again + 1 } := alike_conn rfl (fun _ _ _ h => h)
    split at hs
    · split at hs
      · cases hs; exact h
      · split at hs
        · refine Alike.flow (s := s) ?_ h; exact (h1.trans (alike_inner hs))
        · cases hs; exact h1.flow h
    · cases hs
  | readErr r force =>
    simp only [step] at hs
    split at hs
    · split at hs
      · cases hs; exact h
      · cases hs; refine Alike.flow (s := s) ?_ h; exact (alike_push _ rfl rfl)
    · cases hs
  | data r n free ev =>
    simp only [step] at hs
    split at hs
    · split at hs
      · cases hs; exact h
      · split at hs
        · cases hs; refine Alike.flow (s := s) ?_ h; exact (alike_push _ rfl rfl)
        · split at hs
          · refine Alike.flow (s := s) ?_ h; exact (alike_inner hs)
          · cases hs; exact h
    · cases hs
  | closeDone =>
    simp only [step] at hs
    split at hs
    · next hk =>
      split at hs
      · cases hs
        refine Alike.flow (s := s) (alike_conn rfl ?_) h
        intro r x b hm
        rw [hk] at hm
        rcases List.mem_cons.1 hm with h4 | h4
        · cases h4
        · simpa [St.pop, hk] using h4
      · cases hs
    · cases hs

theorem flow_init : Flow St.init := fun r h => absurd rfl h

end Verif.IoStream.Pool
