import Verif.IoStream.PoolCore

namespace Verif.IoStream.Pool

/-- An outcome is a state reached by small changes. -/
def Good (re : Bool) (s : St) (o : Out) : Prop := ∃ t, o = .ok t ∧ Mics re s t

theorem Good.ok {re : Bool} {s t : St} (h : Mics re s t) : Good re s (.ok t) := ⟨t, rfl, h⟩

theorem Good.refl {re : Bool} {s : St} : Good re s (.ok s) := ⟨s, rfl, .refl s⟩

theorem Good.head {re : Bool} {s t : St} {o : Out} (h : Mic re s t) (hg : Good re t o) : Good re s o := by
  obtain ⟨u, e, hm⟩ := hg
  exact ⟨u, e, .head h hm⟩

theorem Good.head' {re : Bool} {s t : St} {o : Out} (h : Mics re s t) (hg : Good re t o) : Good re s o := by
  obtain ⟨u, e, hm⟩ := hg
  exact ⟨u, e, h.trans hm⟩

theorem mic_next {re : Bool} {s t : St} (h : Mic re s t) : s.next ≤ t.next := by
  cases h <;> first | exact Nat.le_refl _ | exact Nat.le_succ _

theorem mics_next {re : Bool} {s t : St} (h : Mics re s t) : s.next ≤ t.next := by
  induction h with
  | refl => exact Nat.le_refl _
  | head h1 _ ih => exact Nat.le_trans (mic_next h1) ih

theorem good_run {ev : Env} {s : St} {r : Ref} (h : Core s) (hr : r < s.next)
    (hs : (s.conn r).status = .disconnecting) : Good ev.rehash s (disconnectRun ev s r) := by
  cases hc : (s.conn r).closing with
  | true =>
    unfold disconnectRun
    rw [if_pos hc]
    exact .refl
  | false =>
    rw [run_shut h hr hc]
    exact .ok (.one (.shut ev id hr hc hs))

theorem good_inner {ev : Env} {s : St} {r : Ref} (h : Core s) (hr : r < s.next) (cb : Option Tok) (force : Bool) :
    Good ev.rehash s (disconnectInner ev s r cb force) := by
  have m1 : Mic ev.rehash s (s.set r { s.conn r with cbk := cb }) := .cbk cb hr
  refine .head m1 ?_
  have h1 := core_mic h m1
  unfold disconnectInner
  simp only
  split
  · exact .refl
  · next hs =>
    have hs : ((s.set r { s.conn r with cbk := cb }).conn r).status = .connected := by
      simpa using hs
    have m2 := Mic.mark (re := ev.rehash) (s := s.set r { s.conn r with cbk := cb }) (r := r) hr hs
    refine .head m2 ?_
    have h2 := core_mic h1 m2
    split
    · exact .refl
    · exact good_run h2 hr (by simp [St.set])

theorem good_after {ev : Env} {s : St} {r : Ref} (h : Core s) (hr : r < s.next) : Good ev.rehash s (afterTry ev s r) := by
  unfold afterTry
  split
  · next hc => exact good_run h hr hc.1
  · exact .refl

theorem good_after' {ev : Env} {s : St} {r : Ref} (h : Core s) (hr : r < s.next) (b : Bool) :
    Good ev.rehash s (if b then afterTry ev s r else .ok s) := by
  cases b with
  | false => exact .refl
  | true => exact good_after h hr

theorem set_self (s : St) (r : Ref) : s.set r (s.conn r) = s := by
  unfold St.set; rw [upd_self]

theorem good_cancel {ev : Env} {s : St} {r : Ref} (h : Core s) (hr : r < s.next) (hu : s.stack.any Frame.uv = false)
    (hs : (s.conn r).status = .disconnecting) (hc : (s.conn r).closing = true) (hw : (s.conn r).writing = false)
    (after : Bool) : Good ev.rehash s (cancelNext ev s r after) := by
  unfold cancelNext
  have hd : (s.conn r).q.dropWhile (fun x => decide (x = [])) = (s.conn r).q := by
    match hq : (s.conn r).q with
    | [] => rfl
    | b :: bs =>
      have := h.ne r
      rw [hq] at this
      rw [List.dropWhile_cons_of_neg]
      intro e
      apply this
      rw [← of_decide_eq_true e]
      exact List.mem_cons_self
  rw [hd]
  match hq : (s.conn r).q with
  | [] =>
    simp only
    have : s.set r { s.conn r with q := [] } = s := by
      rw [← hq]; exact set_self s r
    rw [this]
    exact good_after' h hr after
  | [] :: bs =>
    exfalso
    apply h.ne r
    rw [hq]; exact List.mem_cons_self
  | (m :: rest) :: bs =>
    simp only
    have : s.set r { s.conn r with q := (m :: rest) :: bs } = s := by
      rw [← hq]; exact set_self s r
    rw [this]
    exact .ok (.one (.cbegin after hu hr hs hc hw hq))

theorem good_try {ev : Env} {s : St} {r : Ref} (h : Core s) (hr : r < s.next)
    (hcl : (s.conn r).closing = true → s.stack.any Frame.uv = false ∧ (s.conn r).status = .disconnecting)
    (after : Bool) : Good ev.rehash s (tryWrite ev s r after) := by
  unfold tryWrite
  simp only
  split
  · exact good_after' h hr after
  · next hw =>
    have hw : (s.conn r).writing = false := by simpa using hw
    split
    · exact good_after' h hr after
    · next hq =>
      split
      · next hc => exact good_cancel h hr (hcl hc).1 (hcl hc).2 hc hw after
      · next hc =>
        have hc : (s.conn r).closing = false := by simpa using hc
        have m1 := Mic.merge (re := ev.rehash) (s := s) (r := r) ev.merge hr hw hq hc
        have h1 := core_mic h m1
        refine .head m1 ?_
        split
        · have m2 := Mic.start (re := ev.rehash) (r := r) (s := s.set r { s.conn r with
            q := ((s.conn r).q.take (ev.merge + 1)).flatten :: (s.conn r).q.drop (ev.merge + 1) }) hr
            (by simp [St.set, hw]) (by simp [St.set]) (by simp [St.set, hc])
          have h2 := core_mic h1 m2
          refine .head m2 ?_
          exact good_after' h2 hr after
        · exact good_after' h1 hr after

theorem good_send {ev : Env} {s : St} {r : Ref} (h : Core s) (hr : r < s.next) (m : Nat) :
    Good ev.rehash s (send ev s r m) := by
  unfold send
  split
  · exact .refl
  · next hs =>
    have hs : (s.conn r).status = .connected := by simpa using hs
    have m1 := Mic.accept (re := ev.rehash) (s := s) m hr hs
    have h1 := core_mic h m1
    refine .head m1 ?_
    refine good_try h1 hr ?_ false
    intro hc
    exfalso
    have hc : (s.conn r).closing = true := by simpa [St.set, St.emit] using hc
    have := h.sd r hr hc
    rw [hs] at this
    simp at this

theorem good_all {ev : Env} (rs : List Ref) : ∀ {s : St}, Core s → (∀ r ∈ rs, r < s.next) →
    Good ev.rehash s (disconnectAll ev s rs) := by
  induction rs with
  | nil => intro s _ _; exact .refl
  | cons r rs ih =>
    intro s h hr
    obtain ⟨t, e, hm⟩ := good_inner (ev := ev) h (hr r List.mem_cons_self) none false
    unfold disconnectAll
    rw [e]
    refine .head' hm (ih (core_mics h hm) ?_)
    intro x hx
    exact Nat.lt_of_lt_of_le (hr x (List.mem_cons_of_mem _ hx)) (mics_next hm)

/-- The frame on top allows what its code does next. -/
theorem Core.top {s : St} (h : Core s) {f : Frame} {fs : List Frame} (hk : s.stack = f :: fs) (hf : f.uv = true) :
    FrameOk s f ∧ fs.any Frame.uv = false := by
  have hsh := h.sh
  rw [hk] at hsh
  exact ⟨h.fr _ (by rw [hk]; exact List.mem_cons_self), shape_uv hsh hf⟩

/-- Iterators are valid. -/
def Valid (s : St) : Prop := ∀ r v b, .onClose r v b ∈ s.stack → v = true

theorem pop_stack {s : St} {f : Frame} {fs : List Frame} (hk : s.stack = f :: fs) : s.pop.stack = fs := by
  simp [St.pop, hk]

theorem good_ret {ev : Env} {s : St} (h : Core s) :
    (ret ev s = .no ∧ s.canLoop = true) ∨ (ret ev s = .ub ∧ ∃ r b, .onClose r false b ∈ s.stack) ∨
    Good ev.rehash s (ret ev s) := by
  unfold ret
  split
  · next hk => exact Or.inl ⟨rfl, by simp [St.canLoop, hk]⟩
  · next hk => exact Or.inl ⟨rfl, by simp [St.canLoop, hk]⟩
  · next t fs hk => exact Or.inr (Or.inr (.ok (.one (.lret hk))))
  · next fs hk => exact Or.inr (Or.inr (.ok (.one (.pop hk rfl))))
  · next fs hk => exact Or.inr (Or.inr (.ok (.one (.loose hk))))
  · next r v fs hk =>
    have htop := h.top hk rfl
    have hh : s.held r = true := by
      unfold St.held; rw [Bool.or_eq_true]
      exact Or.inr (List.any_eq_true.2 ⟨_, htop.1.2.1, by simp⟩)
    unfold use
    rw [if_pos hh]
    split
    · next t _ => exact Or.inr (Or.inr (.ok (.one (.second t hk))))
    · unfold gcErase
      split
      · exact Or.inr (Or.inr (.ok (.one (.free hk))))
      · next hv =>
        refine Or.inr (Or.inl ⟨rfl, r, false, ?_⟩)
        have hv : v = false := by simpa using hv
        rw [hk, hv]; exact List.mem_cons_self
  · next r v fs hk =>
    unfold gcErase
    split
    · exact Or.inr (Or.inr (.ok (.one (.free hk))))
    · next hv =>
      refine Or.inr (Or.inl ⟨rfl, r, true, ?_⟩)
      have hv : v = false := by simpa using hv
      rw [hk, hv]; exact List.mem_cons_self
  · next r todo ok fs hk =>
    have htop := h.top hk rfl
    right; right
    unfold use
    rw [if_pos (h.held htop.1.1 htop.1.2)]
    split
    · exact .ok (.one (.wmore hk))
    · have m1 := Mic.wend (re := ev.rehash) hk
      refine .head m1 ?_
      refine good_try (core_mic h m1) htop.1.1 ?_ true
      intro hc
      have hc : (s.conn r).closing = true := by simpa [St.set, St.pop] using hc
      refine ⟨by simp only [St.set]; rw [pop_stack hk]; exact htop.2, ?_⟩
      simp only [St.set, St.pop, upd_same]
      rcases h.sd r htop.1.1 hc with h1 | h1
      · exact h1.1
      · exact absurd h1.1 htop.1.2
  · next r todo after fs hk =>
    have htop := h.top hk rfl
    right; right
    unfold use
    rw [if_pos (h.held htop.1.1 (by rw [htop.1.2.1]; simp))]
    split
    · exact .ok (.one (.cmore hk))
    · have m1 := Mic.cend (re := ev.rehash) hk
      refine .head m1 ?_
      refine good_cancel (core_mic h m1) htop.1.1 ?_ ?_ ?_ ?_ after
      · simp only [St.set]; rw [pop_stack hk]; exact htop.2
      · simp [St.set, St.pop, htop.1.2.1]
      · simp [St.set, St.pop, htop.1.2.2.1]
      · simp [St.set, St.pop, htop.1.2.2.2]
  · next r left free fs hk =>
    have htop := h.top hk rfl
    right; right
    unfold use
    rw [if_pos (h.held htop.1.1 htop.1.2)]
    split
    · exact .ok (.one (.rmore hk))
    · have m1 := Mic.pop (re := ev.rehash) hk rfl
      refine .head m1 ?_
      split
      · exact good_inner (core_mic h m1) htop.1.1 _ _
      · exact .refl
  · next r force fs hk =>
    have htop := h.top hk rfl
    right; right
    unfold use
    rw [if_pos (h.held htop.1.1 htop.1.2)]
    have m1 := Mic.pop (re := ev.rehash) hk rfl
    exact .head m1 (good_inner (core_mic h m1) htop.1.1 _ _)

/-- A step may rehash the table. -/
def In.re (i : In) : Bool := match i.env with
  | some ev => ev.rehash
  | none => false

theorem mics_listen {re : Bool} {s : St} {t : Tok} {sys : Sys} (hf : ∀ fd, sys = .ok fd → ∀ p ∈ s.pool, p.1 ≠ fd) (f : Frame)
    (hp : (∃ t, f = .listenRet t) ∨ (s.stack.any Frame.uv = false ∧ f = .cbEnd)) : Mics re s (listenAddr s t sys f).1 := by
  unfold listenAddr
  split
  · exact .refl _
  · match sys, hf with
    | .fail, _ => exact .one .hand
    | .ok fd, hf =>
      refine .head (.make fd (hf fd rfl) _ (Or.inl ⟨t, rfl⟩)) ?_
      rcases hp with ⟨u, rfl⟩ | ⟨hu, rfl⟩
      · exact .one (.pushL u)
      · exact .one (.push _ hu (Or.inl rfl))

theorem mics_connect {re : Bool} {s : St} {t : Tok} {sys : Sys} : Mics re s (connectAddr s t sys).1 := by
  unfold connectAddr
  split
  · exact .refl _
  · match sys with
    | .fail => exact .one .hand
    | .ok fd => exact .one (.req _ rfl)

theorem mics_resolve {re : Bool} {s : St} {q : Req} {ok : Bool} (hq : q.plain = true) : Mics re s (resolve s q ok).1 := by
  unfold resolve
  split
  · exact .refl _
  · split
    · exact .one (.req _ hq)
    · exact .refl _

theorem mics_call {re : Bool} {s : St} {f : St → Tok → St × Int}
    (h : Mics re { s with calls := s.calls + 1 } (f { s with calls := s.calls + 1 } s.calls).1) :
    Mics re s (call s f) := by
  refine .head .call (h.trans ?_)
  exact .one (.note (.ret s.calls (f { s with calls := s.calls + 1 } s.calls).2) rfl)

theorem Good.mics {re : Bool} {s t : St} {o : Out} (h : Good re s o) (e : o = .ok t) : Mics re s t := by
  obtain ⟨u, e', hm⟩ := h
  rw [e] at e'
  cases e'
  exact hm

/-- What a step can do. -/
theorem step_good {max : Nat} {s : St} {i : In} (h : Core s) (hf : Fresh s i) :
    step max s i = .no ∨ step max s i = .abort ∨
    (step max s i = .ub ∧ (¬ Owned s i ∨ ∃ r b, .onClose r false b ∈ s.stack)) ∨ Good i.re s (step max s i) := by
  have own : ∀ {r : Ref} {k : Out}, i.uses = some r → (s.held r = true → Good i.re s k) →
      (use s r k = .ub ∧ (¬ Owned s i ∨ ∃ r b, .onClose r false b ∈ s.stack)) ∨ Good i.re s (use s r k) := by
    intro r k hi hk
    unfold use
    split
    · next hh => exact Or.inr (hk hh)
    · next hh => exact Or.inl ⟨rfl, Or.inl (fun ho => hh (ho r hi))⟩
  have hc1 : ∀ {o : Out}, Good i.re s o → o = .no ∨ o = .abort ∨
      (o = .ub ∧ (¬ Owned s i ∨ ∃ r b, .onClose r false b ∈ s.stack)) ∨ Good i.re s o := by
    intro o ho; exact Or.inr (Or.inr (Or.inr ho))
  have hcall : Core { s with calls := s.calls + 1 } := core_misc h _ _ _ _ _ (fun _ => rfl)
  cases i with
  | listen sys =>
    simp only [step]
    split
    · refine hc1 (.ok (.head .call ?_))
      unfold callListen
      have := mics_listen (re := In.re (.listen sys)) (s := { s with calls := s.calls + 1 }) (t := s.calls) (sys := sys)
        (by intro fd e; subst e; exact hf fd rfl) (.listenRet s.calls) (Or.inl ⟨_, rfl⟩)
      simp only
      split
      · exact this
      · exact this.tail (.note _ rfl)
    · exact Or.inl rfl
  | listenName ok =>
    simp only [step]
    split
    · exact hc1 (.ok (mics_call (mics_resolve rfl)))
    · exact Or.inl rfl
  | connect sys =>
    simp only [step]
    split
    · exact hc1 (.ok (mics_call mics_connect))
    · exact Or.inl rfl
  | connectName ok =>
    simp only [step]
    split
    · exact hc1 (.ok (mics_call (mics_resolve rfl)))
    · exact Or.inl rfl
  | badAddr =>
    simp only [step]
    split
    · exact hc1 (.ok (mics_call (.refl _)))
    · exact Or.inl rfl
  | disconnect r cb ev =>
    simp only [step]
    split
    · refine Or.inr (Or.inr (own rfl ?_))
      intro hh
      exact .head .call (good_inner hcall (h.of_held hh) _ _)
    · exact Or.inl rfl
  | disconnectFd fd cb ev =>
    simp only [step]
    split
    · split
      · exact hc1 .refl
      · next r hl =>
        refine hc1 (.head .call (good_inner hcall ?_ _ _))
        exact (h.p _ (mem_of_lookup hl)).1
    · exact Or.inl rfl
  | send r m ev =>
    simp only [step]
    split
    · refine Or.inr (Or.inr (own rfl ?_))
      intro hh
      exact good_send h (h.of_held hh) _
    · exact Or.inl rfl
  | close ev =>
    simp only [step]
    split
    · split
      · exact Or.inr (Or.inl rfl)
      · next hu =>
        have h1 : Core { s with closing := true } := core_misc h _ _ _ _ _ (fun _ => rfl)
        obtain ⟨t, e, hm⟩ := good_all (ev := ev) (s.pool.map (·.2)) h1 (by
          intro r hr
          obtain ⟨p, hp, rfl⟩ := List.mem_map.1 hr
          exact (h.p p hp).1)
        rw [e]
        refine hc1 (.ok (.head (.flag true) (hm.tail (.push _ ?_ (Or.inr (Or.inr rfl))))))
        have : ∀ {a b : St}, disconnectAll ev a (s.pool.map (·.2)) = .ok b →
            a.stack.any Frame.uv = false → b.stack.any Frame.uv = false := by
          intro a b e ha
          have hsd : ∀ {a b : St} {r : Ref}, shutdownConn ev a r = .ok b → a.stack.any Frame.uv = false →
              b.stack.any Frame.uv = false := by
            intro a b r e ha
            unfold shutdownConn at e
            split at e
            · cases e
            · cases e
              simp only
              split
              · rw [any_rehash]; exact ha
              · exact ha
          have hin : ∀ {a b : St} {r : Ref}, disconnectInner ev a r none false = .ok b → a.stack.any Frame.uv = false →
              b.stack.any Frame.uv = false := by
            intro a b r e ha
            unfold disconnectInner at e
            simp only at e
            split at e
            · cases e; exact ha
            · split at e
              · cases e; exact ha
              · unfold disconnectRun at e
                split at e
                · cases e; exact ha
                · exact hsd e ha
          generalize s.pool.map (·.2) = rs at e
          induction rs generalizing a with
          | nil => cases e; exact ha
          | cons r rs ih =>
            unfold disconnectAll at e
            match e' : disconnectInner ev a r none false, e with
            | .ok c, e => exact ih (hin e' ha) e
        refine this e ?_
        simpa [St.inCb] using hu
    · exact Or.inl rfl
  | ret ev =>
    simp only [step]
    rcases good_ret (ev := ev) h with h1 | h1 | h1
    · exact Or.inl h1.1
    · exact Or.inr (Or.inr (Or.inl ⟨h1.1, Or.inr h1.2⟩))
    · exact hc1 h1
  | resolved req res =>
    simp only [step]
    split
    · next hl =>
      have hu := h.canLoop hl.1
      split
      · next t sys =>
        have m1 := Mic.done (re := In.re (.resolved (.dnsListen t) (some sys))) (.dnsListen t) rfl hl.2
        have := mics_listen (re := In.re (.resolved (.dnsListen t) (some sys))) (s := s.done (.dnsListen t)) (t := t) (sys := sys)
          (by intro fd e; subst e; exact hf fd rfl) .cbEnd (Or.inr ⟨hu, rfl⟩)
        refine hc1 (.ok (.head m1 ?_))
        split
        · exact this
        · next hne =>
          have hst : (listenAddr (s.done (.dnsListen t)) t sys .cbEnd).1.stack = s.stack := by
            unfold listenAddr at hne ⊢
            split
            · rfl
            · match sys with
              | .fail => rfl
              | .ok fd => exfalso; rename_i hcl; simp [hcl] at hne
          exact (this.tail (.note _ rfl)).tail (.push _ (by simp only [St.emit]; rw [hst]; exact hu) (Or.inl rfl))
      · next t sys =>
        have m1 := Mic.done (re := In.re (.resolved (.dnsConnect t) (some sys))) (.dnsConnect t) rfl hl.2
        have := mics_connect (re := In.re (.resolved (.dnsConnect t) (some sys))) (s := s.done (.dnsConnect t)) (t := t) (sys := sys)
        refine hc1 (.ok (.head m1 ?_))
        split
        · exact this
        · have hst : (connectAddr (s.done (.dnsConnect t)) t sys).1.stack = s.stack := by
            unfold connectAddr
            split
            · rfl
            · match sys with
              | .fail => rfl
              | .ok fd => rfl
          exact (this.tail (.note _ rfl)).tail (.push _ (by simp only [St.emit]; rw [hst]; exact hu) (Or.inl rfl))
      · exact hc1 (.ok (.head (.done _ rfl hl.2) (.head (.note _ rfl) (.one (.push _ hu (Or.inl rfl))))))
      · exact hc1 (.ok (.head (.done _ rfl hl.2) (.head (.note _ rfl) (.one (.push _ hu (Or.inl rfl))))))
      · exact Or.inl rfl
    · exact Or.inl rfl
  | connected t fd =>
    simp only [step]
    split
    · next hl =>
      have hu := h.canLoop hl.1
      have m1 : Mic (In.re (.connected t fd)) s _ := Mic.done (.connect t) rfl hl.2
      match fd, hf with
      | none, _ => exact hc1 (.ok (.head m1 (.head (.note _ rfl) (.one (.push _ hu (Or.inr (Or.inl rfl)))))))
      | some fd, hf =>
        simp only
        split
        · exact hc1 (.ok (.head m1 (.head (.note _ rfl) (.one (.push _ hu (Or.inr (Or.inl rfl)))))))
        · exact hc1 (.ok (.head m1 (.head (.make (s := s.done (.connect t)) fd (hf fd rfl) _ (Or.inl ⟨t, rfl⟩)) (.one (.push _ hu (Or.inl rfl))))))
    · exact Or.inl rfl
  | incoming l fd acc =>
    simp only [step]
    split
    · next hl =>
      have hu := h.canLoop hl.1
      obtain ⟨hr, hcl⟩ := h.of_opened hl.2
      have hs : (s.conn l).status ≠ .disconnected := by
        rcases (h.op l hr hcl).2 with h1 | h1 <;> simp [h1]
      match fd, hf with
      | none, _ =>
        refine hc1 (.ok (.head (.refused _ (by decide) hr hs) (.one (.push _ hu ?_))))
        cases acc
        · exact Or.inl rfl
        · exact Or.inr (Or.inl rfl)
      | some fd, hf =>
        simp only
        split
        · exact hc1 (.ok (.head (.refused _ (by decide) hr hs) (.one (.push _ hu (Or.inr (Or.inl rfl))))))
        · exact hc1 (.ok (.head (.make fd (hf fd rfl) _ (Or.inr ⟨l, rfl, hr, hs⟩)) (.one (.push _ hu (Or.inl rfl)))))
    · exact Or.inl rfl
  | closed hd =>
    simp only [step]
    split
    · next hl =>
      have hu := h.canLoop hl.1
      match hd, hl with
      | .loose, _ => exact hc1 (.ok (.one .unhand))
      | .conn r, hl =>
        simp only
        split
        · exact Or.inl rfl
        · next hw =>
          obtain ⟨hr, hcl⟩ := h.h r hl.2
          have hd : (r, r) ∈ s.gc := by
            rcases h.sd r hr hcl with h1 | h1
            · exact h1.2.1
            · have := List.count_pos_iff.2 hl.2; omega
          rw [lookup_of_mem h.gk hd]
          exact hc1 (.ok (.one (.closed hu hl.2 hw)))
    · exact Or.inl rfl
  | written r ok ev =>
    simp only [step]
    split
    · next hl =>
      have hu := h.canLoop hl.1
      have hpos := List.count_pos_iff.2 hl.2
      have hwr := h.wr r
      rw [no_isW hu] at hwr
      have hw : (s.conn r).writing = true := by
        cases hb : (s.conn r).writing with
        | true => rfl
        | false => rw [hb] at hwr; simp only [Bool.toNat_false] at hwr; omega
      have hr := h.lt_of_write hw
      have hh : (s.done (.write r)).held r = true := h.held hr (h.wl r hw).1
      unfold use
      rw [if_pos hh]
      have hdc : (s.done (.write r)).conn r = s.conn r := rfl
      rw [hdc]
      split
      · next m rest bs hq => exact hc1 (.ok (.one (.wbegin ok hu hl.2 hq)))
      · next hq =>
        exfalso
        match hq' : (s.conn r).q with
        | [] => exact (h.wl r hw).2 hq'
        | [] :: bs => apply h.ne r; rw [hq']; exact List.mem_cons_self
        | (m :: rest) :: bs => exact hq m rest bs hq'
    · exact Or.inl rfl
  | again r ev =>
    simp only [step]
    split
    · next hl =>
      obtain ⟨hr, hcl⟩ := h.of_opened hl.2
      split
      · exact hc1 .refl
      · split
        · exact hc1 (.head .again (good_inner (core_misc h (s.again + 1) _ _ _ _ (fun _ => rfl)) hr _ _))
        · exact hc1 (.ok (.one .again))
    · exact Or.inl rfl
  | readErr r force =>
    simp only [step]
    split
    · next hl =>
      have hu := h.canLoop hl.1
      obtain ⟨hr, hcl⟩ := h.of_opened hl.2
      split
      · exact hc1 .refl
      · next hs =>
        exact hc1 (.ok (.one (.rbegin _ hu hr (by simpa using hs) (Or.inr ⟨_, rfl⟩))))
    · exact Or.inl rfl
  | data r n free ev =>
    simp only [step]
    split
    · next hl =>
      have hu := h.canLoop hl.1
      obtain ⟨hr, hcl⟩ := h.of_opened hl.2
      split
      · exact hc1 .refl
      · next hs =>
        split
        · exact hc1 (.ok (.one (.rbegin _ hu hr (by simpa using hs) (Or.inl ⟨_, _, rfl⟩))))
        · split
          · exact hc1 (good_inner h hr _ _)
          · exact hc1 .refl
    · exact Or.inl rfl
  | closeDone =>
    simp only [step]
    split
    · next fs hk =>
      split
      · exact hc1 (.ok (.head (.waitEnd hk) (.one (.flag false))))
      · exact Or.inl rfl
    · exact Or.inl rfl

theorem step_mics {max : Nat} {s t : St} {i : In} (h : Core s) (hf : Fresh s i) (hs : step max s i = .ok t) :
    Mics i.re s t := by
  rcases step_good (max := max) h hf with h1 | h1 | h1 | h1
  · rw [hs] at h1; cases h1
  · rw [hs] at h1; cases h1
  · rw [hs] at h1; cases h1.1
  · exact h1.mics hs

theorem core_step {max : Nat} {s t : St} {i : In} (h : Core s) (hf : Fresh s i) (hs : step max s i = .ok t) : Core t :=
  core_mics h (step_mics h hf hs)

/-- Properties kept by every small change hold after every run. -/
theorem run_induct {max : Nat} {P : St → Prop} (hP : ∀ {re s t}, Core s → P s → Mic re s t → P t) :
    ∀ (is : List In) {s t : St}, Core s → P s → Along Fresh max s is → run max s is = .ok t → Core t ∧ P t := by
  have hPs : ∀ {re s t}, Mics re s t → Core s → P s → P t := by
    intro re s t hm
    induction hm with
    | refl => intro _ h; exact h
    | head h1 _ ih => intro hc h; exact ih (core_mic hc h1) (hP hc h h1)
  intro is
  induction is with
  | nil => intro s t hc h _ hr; cases hr; exact ⟨hc, h⟩
  | cons i is ih =>
    intro s t hc h ha hr
    unfold run at hr
    match e : step max s i, hr with
    | .ok u, hr =>
      exact ih (core_step hc ha.1 e) (hPs (step_mics hc ha.1 e) hc h) (ha.2 u e) hr

end Verif.IoStream.Pool
