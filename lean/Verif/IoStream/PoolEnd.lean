import Verif.IoStream.PoolFlow

/-!
The end of a channel: while `io_stream_close` waits, every request and every handle libuv reports brings it nearer
to its end, and something is left to report until it is done.
-/
namespace Verif.IoStream.Pool

/-! ### Disconnecting connections are writing or closing -/

/-- A disconnecting connection is closing or still writing. -/
def Busy (s : St) (r : Ref) : Prop :=
  (s.conn r).status = .disconnecting → (s.conn r).closing = true ∨ (s.conn r).writing = true

/-- The above for every connection. -/
def Disc (s : St) : Prop := ∀ r, Busy s r

theorem busy_of {s t : St} {r : Ref} (h : Busy s r) (he : t.conn r = s.conn r) : Busy t r := by
  unfold Busy; rw [he]; exact h

theorem run_closing {ev : Env} {s t : St} {r : Ref} (h : disconnectRun ev s r = .ok t) : (t.conn r).closing = true := by
  unfold disconnectRun at h
  split at h
  · next hc => cases h; exact hc
  · unfold shutdownConn at h
    split at h
    · cases h
    · cases h; simp [St.set]

theorem run_conn {ev : Env} {s t : St} {r x : Ref} (hx : x ≠ r) (h : disconnectRun ev s r = .ok t) : t.conn x = s.conn x := by
  unfold disconnectRun at h
  split at h
  · cases h; rfl
  · unfold shutdownConn at h
    split at h
    · cases h
    · cases h; exact upd_ne _ _ hx

theorem disc_inner {ev : Env} {s t : St} {r : Ref} {cb : Option Tok} {force : Bool} (hd : Disc s)
    (h : disconnectInner ev s r cb force = .ok t) : Disc t := by
  intro x
  unfold disconnectInner at h
  simp only at h
  by_cases e : x = r
  · subst e
    split at h
    · cases h
      have := hd x
      simpa [Busy, St.set] using this
    · split at h
      · next hw => cases h; intro _; right; exact hw.2
      · intro _; left; exact run_closing h
  · refine busy_of (hd x) ?_
    split at h
    · cases h; exact upd_ne _ _ e
    · split at h
      · cases h; simp only [St.set]; rw [upd_ne _ _ e, upd_ne _ _ e]
      · rw [run_conn e h]; simp only [St.set]; rw [upd_ne _ _ e, upd_ne _ _ e]

theorem disc_all {ev : Env} (rs : List Ref) : ∀ {s t : St}, Disc s → disconnectAll ev s rs = .ok t → Disc t := by
  induction rs with
  | nil => intro s t hd h; cases h; exact hd
  | cons r rs ih =>
    intro s t hd h
    unfold disconnectAll at h
    cases e : disconnectInner ev s r none false with
    | ok u => rw [e] at h; exact ih (disc_inner hd e) h
    | ub => rw [e] at h; cases h
    | abort => rw [e] at h; cases h
    | no => rw [e] at h; cases h

/-- The end of the write callback. -/
theorem disc_after {ev : Env} {s t : St} {r : Ref} {after : Bool} (hx : ∀ x, x ≠ r → Busy s x) (ha : after = true ∨ Busy s r)
    (h : (if after then afterTry ev s r else Out.ok s) = .ok t) : Disc t := by
  intro x
  cases after with
  | false =>
    cases h
    by_cases e : x = r
    · subst e
      rcases ha with ha | ha
      · cases ha
      · exact ha
    · exact hx x e
  | true =>
    simp only [if_true] at h
    unfold afterTry at h
    by_cases e : x = r
    · subst e
      split at h
      · intro _; left; exact run_closing h
      · next hn =>
        cases h
        intro hs
        right
        cases hw : (s.conn x).writing with
        | true => rfl
        | false => exact absurd ⟨hs, hw⟩ hn
    · split at h
      · exact busy_of (hx x e) (run_conn e h)
      · cases h; exact hx x e

theorem disc_cancel {ev : Env} {s t : St} {r : Ref} {after : Bool} (hx : ∀ x, x ≠ r → Busy s x)
    (hc : (s.conn r).closing = true) (h : cancelNext ev s r after = .ok t) : Disc t := by
  unfold cancelNext at h
  split at h
  · refine disc_after (r := r) ?_ (Or.inr (fun _ => Or.inl (by simpa [St.set] using hc))) h
    intro x e; exact busy_of (hx x e) (upd_ne _ _ e)
  · next b bs hd =>
    cases b with
    | nil => cases h
    | cons m rest =>
      cases h
      intro x
      by_cases e : x = r
      · subst e; intro _; left; simpa [St.set, St.emit, St.push] using hc
      · exact busy_of (hx x e) (upd_ne _ _ e)

theorem disc_try {ev : Env} {s t : St} {r : Ref} {after : Bool} (hx : ∀ x, x ≠ r → Busy s x)
    (ha : after = true ∨ Busy s r) (h : tryWrite ev s r after = .ok t) : Disc t := by
  unfold tryWrite at h
  simp only at h
  split at h
  · exact disc_after hx ha h
  · split at h
    · exact disc_after hx ha h
    · split at h
      · next hc => exact disc_cancel hx hc h
      · split at h
        · refine disc_after (r := r) ?_ (Or.inr (fun _ => Or.inr (by simp [St.set]))) h
          intro x e; refine busy_of (hx x e) ?_
          simp only [St.set]; rw [upd_ne _ _ e, upd_ne _ _ e]
        · refine disc_after (r := r) ?_ ?_ h
          · intro x e; exact busy_of (hx x e) (upd_ne _ _ e)
          · rcases ha with ha | ha
            · exact Or.inl ha
            · right; simpa [Busy, St.set] using ha

theorem disc_ret {ev : Env} {s t : St} (hc : Core s) (hd : Disc s) (h : ret ev s = .ok t) : Disc t := by
  have same : ∀ {u : St}, u.conn = s.conn → Disc u := fun he x => busy_of (hd x) (by rw [he])
  unfold ret at h
  split at h
  · cases h
  · cases h
  · cases h; exact same rfl
  · cases h; exact same rfl
  · cases h; exact same rfl
  · have h := use_ok h
    split at h
    · cases h; exact same rfl
    · unfold gcErase at h
      split at h
      · cases h; exact same rfl
      · cases h
  · unfold gcErase at h
    split at h
    · cases h; exact same rfl
    · cases h
  · have h := use_ok h
    split at h
    · cases h; exact same rfl
    · refine disc_try ?_ (Or.inl rfl) h
      intro x e; exact busy_of (hd x) (upd_ne _ _ e)
  · next r todo after fs hk =>
    have h := use_ok h
    split at h
    · cases h; exact same rfl
    · refine disc_cancel ?_ ?_ h
      · intro x e; exact busy_of (hd x) (upd_ne _ _ e)
      · simpa [St.set, St.pop] using (hc.top hk rfl).1.2.2.1
  · have h := use_ok h
    split at h
    · cases h; exact same rfl
    · split at h
      · exact disc_inner (s := s.pop) (same rfl) h
      · cases h; exact same rfl
  · have h := use_ok h
    exact disc_inner (s := s.pop) (same rfl) h

theorem disc_make {s : St} (hd : Disc s) (fd : Nat) : Disc (make s fd).1 := by
  intro x
  by_cases e : x = s.next
  · subst e; intro hs; simp [make] at hs
  · exact busy_of (hd x) (upd_ne _ _ e)

theorem disc_listen {s : St} (hd : Disc s) (t : Tok) (sys : Sys) (f : Frame) : Disc (listenAddr s t sys f).1 := by
  unfold listenAddr
  split
  · exact hd
  · split
    · exact hd
    · next fd => exact disc_make hd fd

theorem disc_connect {s : St} (hd : Disc s) (t : Tok) (sys : Sys) : Disc (connectAddr s t sys).1 := by
  unfold connectAddr
  split
  · exact hd
  · split <;> exact hd

theorem disc_resolve {s : St} (hd : Disc s) (q : Req) (ok : Bool) : Disc (resolve s q ok).1 := by
  unfold resolve
  split
  · exact hd
  · split <;> exact hd

theorem disc_step {max : Nat} {s t : St} {i : In} (hc : Core s) (hd : Disc s) (hs : step max s i = .ok t) : Disc t := by
  have same : ∀ {u : St}, u.conn = s.conn → Disc u := fun he x => busy_of (hd x) (by rw [he])
  cases i with
  | listen sys =>
    simp only [step] at hs
    split at hs
    · cases hs
      unfold callListen
      have h1 := disc_listen (s := { s with calls := s.calls + 1 }) hd s.calls sys (.listenRet s.calls)
      simp only
      split <;> exact h1
    · cases hs
  | listenName ok =>
    simp only [step] at hs
    split at hs
    · cases hs; exact disc_resolve (s := { s with calls := s.calls + 1 }) hd _ _
    · cases hs
  | connect sys =>
    simp only [step] at hs
    split at hs
    · cases hs; exact disc_connect (s := { s with calls := s.calls + 1 }) hd _ _
    · cases hs
  | connectName ok =>
    simp only [step] at hs
    split at hs
    · cases hs; exact disc_resolve (s := { s with calls := s.calls + 1 }) hd _ _
    · cases hs
  | badAddr =>
    simp only [step] at hs
    split at hs
    · cases hs; exact hd
    · cases hs
  | disconnect r cb ev =>
    simp only [step] at hs
    split at hs
    · exact disc_inner (s := { s with calls := s.calls + 1 }) hd (use_ok hs)
    · cases hs
  | disconnectFd fd cb ev =>
    simp only [step] at hs
    split at hs
    · split at hs
      · cases hs; exact hd
      · exact disc_inner (s := { s with calls := s.calls + 1 }) hd hs
    · cases hs
  | send r m ev =>
    simp only [step] at hs
    split at hs
    · have hs := use_ok hs
      unfold send at hs
      split at hs
      · cases hs; exact hd
      · next hst =>
        refine disc_try (r := r) ?_ ?_ hs
        · intro x e; exact busy_of (hd x) (upd_ne _ _ e)
        · right; intro hx; simp [St.set, St.emit] at hx; rw [hx] at hst; simp at hst
    · cases hs
  | close ev =>
    simp only [step] at hs
    split at hs
    · split at hs
      · cases hs
      · cases e : disconnectAll ev { s with closing := true } (s.pool.map (·.2)) with
        | ok u => rw [e] at hs; cases hs; exact (disc_all _ (s := { s with closing := true }) hd e : Disc u)
        | ub => rw [e] at hs; cases hs
        | abort => rw [e] at hs; cases hs
        | no => rw [e] at hs; cases hs
    · cases hs
  | ret ev => exact disc_ret hc hd hs
  | resolved req res =>
    simp only [step] at hs
    split at hs
    · split at hs
      · next t' sys _ =>
        have h1 := disc_listen (s := s.done (.dnsListen t')) hd t' sys .cbEnd
        cases hs
        split <;> exact h1
      · next t' sys _ =>
        have h1 := disc_connect (s := s.done (.dnsConnect t')) hd t' sys
        cases hs
        split <;> exact h1
      · cases hs; exact hd
      · cases hs; exact hd
      · cases hs
    · cases hs
  | connected t' fd =>
    simp only [step] at hs
    split at hs
    · split at hs
      · cases hs; exact hd
      · next fd =>
        split at hs
        · cases hs; exact hd
        · cases hs; exact disc_make (s := s.done (.connect t')) hd fd
    · cases hs
  | incoming l fd acc =>
    simp only [step] at hs
    split at hs
    · split at hs
      · cases hs; exact hd
      · next fd =>
        split at hs
        · cases hs; exact hd
        · cases hs; exact disc_make (s := s) hd fd
    · cases hs
  | closed h =>
    simp only [step] at hs
    split at hs
    · split at hs
      · cases hs; exact hd
      · split at hs
        · cases hs
        · split at hs
          · cases hs
          · next r o ho =>
            cases hs
            intro x
            by_cases e : x = o
            · subst e; intro hx; simp [St.set, St.emit, St.push] at hx
            · exact busy_of (hd x) (upd_ne _ _ e)
    · cases hs
  | written r ok ev =>
    simp only [step] at hs
    split at hs
    · have hs := use_ok hs
      split at hs
      · cases hs; exact hd
      · refine disc_try (r := r) ?_ (Or.inl rfl) hs
        intro x e; exact busy_of (hd x) (upd_ne _ _ e)
    · cases hs
  | again r ev =>
    simp only [step] at hs
    split at hs
    · split at hs
      · cases hs; exact hd
      · split at hs
        · exact disc_inner (s := { s with again := s.again + 1 }) hd hs
        · cases hs; exact hd
    · cases hs
  | readErr r force =>
    simp only [step] at hs
    split at hs
    · split at hs
      · cases hs; exact hd
      · cases hs; exact hd
    · cases hs
  | data r n free ev =>
    simp only [step] at hs
    split at hs
    · split at hs
      · cases hs; exact hd
      · split at hs
        · cases hs; exact hd
        · split at hs
          · exact disc_inner hd hs
          · cases hs; exact hd
    · cases hs
  | closeDone =>
    simp only [step] at hs
    split at hs
    · split at hs
      · cases hs; exact hd
      · cases hs
    · cases hs

theorem disc_init : Disc St.init := by intro r h; simp [St.init] at h

/-! ### Measure -/

/-- Callbacks still to come from a request. -/
def Req.weight : Req → Nat
  | .dnsListen _ | .dnsConnect _ => 2
  | .connect _ => 4
  | .write _ => 2

/-- Callbacks still to come from a handle. -/
def Hand.weight : Hand → Nat
  | .conn _ => 3
  | .loose => 1

/-- Work still to do in a call. -/
def Frame.weight : Frame → Nat
  | .listenRet _ | .cbEnd | .recvErr _ _ | .onClose _ _ true | .written _ _ _ | .cancel _ _ _ => 1
  | .loose | .onClose _ _ false => 2
  | .recv _ n _ => n + 1
  | .closeWait => 0

/-- What a connection still has to do. -/
def cost (s : St) (r : Ref) : Nat :=
  (unrep s r).length + 2 * (s.conn r).q.length + 5 * (!(s.conn r).closing).toNat

/-- Sum over the connections below a bound. -/
def sum (f : Ref → Nat) : Nat → Nat
  | 0 => 0
  | n + 1 => sum f n + f n

theorem sum_congr {f g : Ref → Nat} : ∀ {n : Nat}, (∀ x, x < n → f x = g x) → sum f n = sum g n
  | 0, _ => rfl
  | n + 1, h => by
    unfold sum
    rw [sum_congr (fun x hx => h x (Nat.lt_succ_of_lt hx)), h n (Nat.lt_succ_self n)]

theorem sum_at {f g : Ref → Nat} {r : Ref} : ∀ {n : Nat}, r < n → (∀ x, x ≠ r → g x = f x) → sum g n + f r = sum f n + g r
  | 0, h, _ => absurd h (Nat.not_lt_zero _)
  | n + 1, h, hx => by
    unfold sum
    by_cases e : r = n
    · subst e
      rw [sum_congr (f := g) (g := f) (fun x hl => hx x (Nat.ne_of_lt hl))]
      omega
    · have := sum_at (Nat.lt_of_le_of_ne (Nat.le_of_lt_succ h) e) hx
      rw [hx n (Ne.symm e)]
      omega

/-- What is left to do. -/
def left (s : St) : Nat :=
  sum (cost s) s.next + (s.reqs.map Req.weight).sum + (s.hands.map Hand.weight).sum + (s.stack.map Frame.weight).sum

theorem cost_of {s t : St} {r : Ref} (hu : unrep t r = unrep s r) (hq : (t.conn r).q = (s.conn r).q)
    (hc : (t.conn r).closing = (s.conn r).closing) : cost t r = cost s r := by
  unfold cost; rw [hu, hq, hc]

theorem weight_rehash (l : List Frame) : ((l.map Frame.rehash).map Frame.weight).sum = (l.map Frame.weight).sum := by
  induction l with
  | nil => rfl
  | cons f l ih =>
    have : f.rehash.weight = f.weight := by
      cases f <;> try rfl
      next r v b => cases b <;> rfl
    simp only [List.map_cons, List.sum_cons, this, ih]

/-- Same buffers, same requests. -/
theorem left_of {s t : St} (hn : t.next = s.next) (hu : ∀ r, unrep t r = unrep s r) (hq : ∀ r, (t.conn r).q = (s.conn r).q)
    (hc : ∀ r, (t.conn r).closing = (s.conn r).closing) :
    left t + (s.reqs.map Req.weight).sum + (s.hands.map Hand.weight).sum + (s.stack.map Frame.weight).sum =
    left s + (t.reqs.map Req.weight).sum + (t.hands.map Hand.weight).sum + (t.stack.map Frame.weight).sum := by
  unfold left
  rw [hn, sum_congr (g := cost s) (fun x _ => cost_of (hu x) (hq x) (hc x))]
  omega

/-- One connection changes. -/
theorem left_at {s t : St} {r : Ref} (hr : r < s.next) (hn : t.next = s.next) (hx : ∀ x, x ≠ r → cost t x = cost s x) :
    left t + cost s r + (s.reqs.map Req.weight).sum + (s.hands.map Hand.weight).sum + (s.stack.map Frame.weight).sum =
    left s + cost t r + (t.reqs.map Req.weight).sum + (t.hands.map Hand.weight).sum + (t.stack.map Frame.weight).sum := by
  unfold left
  rw [hn]
  have := sum_at hr hx
  omega

theorem set_q {s : St} {r : Ref} {c : Conn} (h : c.q = (s.conn r).q) (x : Ref) : ((s.set r c).conn x).q = (s.conn x).q :=
  q_set h x

theorem set_closing {s : St} {r : Ref} {c : Conn} (h : c.closing = (s.conn r).closing) (x : Ref) :
    ((s.set r c).conn x).closing = (s.conn x).closing := by
  simp only [St.set]
  by_cases e : x = r
  · rw [e, upd_same]; exact h
  · rw [upd_ne _ _ e]

theorem left_set {s : St} {r : Ref} {c : Conn} (hq : c.q = (s.conn r).q) (hc : c.closing = (s.conn r).closing) :
    left (s.set r c) = left s := by
  have := left_of (s := s) (t := s.set r c) rfl (unrep_of (fun _ => rfl) (set_q hq)) (set_q hq) (set_closing hc)
  simp only [St.set] at this ⊢
  omega

theorem left_shut {ev : Env} {s : St} {r : Ref} (hr : r < s.next) (hc : (s.conn r).closing = false) :
    left (shut ev s r) + 2 = left s := by
  have hu : ∀ x, unrep (shut ev s r) x = unrep s x := by
    refine unrep_of ?_ (fun x => q_set (s := s) (r := r) (c := { s.conn r with closing := true }) rfl x)
    intro x
    show todoOf x (if ev.rehash then s.stack.map Frame.rehash else s.stack) = _
    split
    · exact todo_rehash x _
    · rfl
  have h := left_at (s := s) (t := shut ev s r) hr rfl (by
    intro x e
    refine cost_of (hu x) ?_ ?_
    · simp only [shut, St.set]; rw [upd_ne _ _ e]
    · simp only [shut, St.set]; rw [upd_ne _ _ e])
  have h1 : cost s r = cost (shut ev s r) r + 5 := by
    unfold cost
    rw [hu r]
    simp [shut, St.set, hc]
  have h2 : ((shut ev s r).stack.map Frame.weight).sum = (s.stack.map Frame.weight).sum := by
    show ((if ev.rehash then s.stack.map Frame.rehash else s.stack).map Frame.weight).sum = _
    split
    · exact weight_rehash _
    · rfl
  have h3 : ((shut ev s r).hands.map Hand.weight).sum = (s.hands.map Hand.weight).sum + 3 := by
    simp [shut, Hand.weight, List.sum_append]
  have h4 : (shut ev s r).reqs = s.reqs := rfl
  rw [h4] at h
  omega

theorem left_run {ev : Env} {s t : St} {r : Ref} (hc : Core s) (hr : r < s.next) (h : disconnectRun ev s r = .ok t) :
    left t ≤ left s := by
  cases hcl : (s.conn r).closing with
  | true => unfold disconnectRun at h; rw [if_pos hcl] at h; cases h; exact Nat.le_refl _
  | false =>
    rw [run_shut hc hr hcl] at h
    cases h
    have := left_shut (ev := ev) hr hcl
    omega

theorem left_inner {ev : Env} {s t : St} {r : Ref} {cb : Option Tok} {force : Bool} (hc : Core s) (hr : r < s.next)
    (h : disconnectInner ev s r cb force = .ok t) : left t ≤ left s := by
  have m1 : Mic ev.rehash s (s.set r { s.conn r with cbk := cb }) := .cbk cb hr
  have h1 := core_mic hc m1
  unfold disconnectInner at h
  simp only at h
  have e1 : left (s.set r { s.conn r with cbk := cb }) = left s := left_set rfl rfl
  split at h
  · cases h; rw [e1]; exact Nat.le_refl _
  · next hs =>
    have hs : ((s.set r { s.conn r with cbk := cb }).conn r).status = .connected := by simpa using hs
    have m2 := Mic.mark (re := ev.rehash) (s := s.set r { s.conn r with cbk := cb }) (r := r) hr hs
    have h2 := core_mic h1 m2
    have e2 : ∀ u : St, left (u.set r { u.conn r with status := .disconnecting }) = left u := fun u => left_set rfl rfl
    split at h
    · cases h; exact Nat.le_trans (Nat.le_of_eq (e2 _)) (Nat.le_of_eq e1)
    · exact Nat.le_trans (left_run h2 hr h) (Nat.le_trans (Nat.le_of_eq (e2 _)) (Nat.le_of_eq e1))

theorem left_after {ev : Env} {s t : St} {r : Ref} {after : Bool} (hc : Core s) (hr : r < s.next)
    (h : (if after then afterTry ev s r else Out.ok s) = .ok t) : left t ≤ left s := by
  split at h
  · unfold afterTry at h
    split at h
    · exact left_run hc hr h
    · cases h; exact Nat.le_refl _
  · cases h; exact Nat.le_refl _

theorem unrep_none {s : St} (hu : s.stack.any Frame.uv = false) (r : Ref) : unrep s r = (s.conn r).q.flatten := by
  unfold unrep; rw [todo_no_uv hu]

theorem left_cancel {ev : Env} {s t : St} {r : Ref} {after : Bool} (hc : Core s) (hr : r < s.next)
    (hu : s.stack.any Frame.uv = false) (h : cancelNext ev s r after = .ok t) : left t ≤ left s := by
  unfold cancelNext at h
  have hd : (s.conn r).q.dropWhile (fun x => decide (x = [])) = (s.conn r).q := by
    match hq : (s.conn r).q with
    | [] => rfl
    | b :: bs =>
      have := hc.ne r
      rw [hq] at this
      rw [List.dropWhile_cons_of_neg]
      intro e
      apply this
      rw [← of_decide_eq_true e]
      exact List.mem_cons_self
  rw [hd] at h
  match hq : (s.conn r).q with
  | [] =>
    rw [hq] at h
    simp only at h
    have : s.set r { s.conn r with q := [] } = s := by
      rw [← hq]; exact set_self s r
    rw [this] at h
    exact left_after hc hr h
  | [] :: bs =>
    exfalso
    apply hc.ne r
    rw [hq]; exact List.mem_cons_self
  | (m :: rest) :: bs =>
    rw [hq] at h
    simp only at h
    have : s.set r { s.conn r with q := (m :: rest) :: bs } = s := by
      rw [← hq]; exact set_self s r
    rw [this] at h
    cases h
    have h1 := left_at (s := s) (t := (s.emit (.written r m Err.CLOSING false)).push (.cancel r rest after)) hr rfl (by
      intro x e
      refine cost_of ?_ rfl rfl
      unfold unrep
      simp only [St.emit, St.push, todoOf, if_neg (Ne.symm e)])
    have h2 : cost s r = cost ((s.emit (.written r m Err.CLOSING false)).push (.cancel r rest after)) r + 1 := by
      unfold cost
      rw [unrep_none hu]
      simp only [unrep, St.emit, St.push, todoOf, if_pos, hq, List.flatten_cons, List.length_append, List.tail_cons, List.length_cons]
      omega
    simp only [St.emit, St.push, List.map_cons, List.sum_cons, Frame.weight] at h1 h2 ⊢
    omega

theorem left_try {ev : Env} {s t : St} {r : Ref} {after : Bool} (hc : Core s) (hr : r < s.next)
    (hu : s.stack.any Frame.uv = false) (h : tryWrite ev s r after = .ok t) : left t ≤ left s + 2 := by
  unfold tryWrite at h
  simp only at h
  split at h
  · exact Nat.le_trans (left_after hc hr h) (Nat.le_add_right _ _)
  · next hw =>
    have hw : (s.conn r).writing = false := by simpa using hw
    split at h
    · exact Nat.le_trans (left_after hc hr h) (Nat.le_add_right _ _)
    · next hq =>
      split at h
      · exact Nat.le_trans (left_cancel hc hr hu h) (Nat.le_add_right _ _)
      · next hcl =>
        have hcl : (s.conn r).closing = false := by simpa using hcl
        have m1 := Mic.merge (re := ev.rehash) (s := s) (r := r) ev.merge hr hw hq hcl
        have c1 := core_mic hc m1
        have l1 : left (s.set r { s.conn r with
            q := ((s.conn r).q.take (ev.merge + 1)).flatten :: (s.conn r).q.drop (ev.merge + 1) }) ≤ left s := by
          have h1 := left_at (s := s) (t := s.set r { s.conn r with
            q := ((s.conn r).q.take (ev.merge + 1)).flatten :: (s.conn r).q.drop (ev.merge + 1) }) hr rfl (by
            intro x e
            refine cost_of ?_ ?_ ?_
            · rw [unrep_none hu, unrep_none (s := s.set r _) hu]
              simp only [St.set]; rw [upd_ne _ _ e]
            · simp only [St.set]; rw [upd_ne _ _ e]
            · simp only [St.set]; rw [upd_ne _ _ e])
          have h2 : cost (s.set r { s.conn r with
              q := ((s.conn r).q.take (ev.merge + 1)).flatten :: (s.conn r).q.drop (ev.merge + 1) }) r ≤ cost s r := by
            unfold cost
            rw [unrep_none hu, unrep_none (s := s.set r _) hu]
            simp only [St.set, upd_same, List.flatten_cons]
            rw [← List.flatten_append, List.take_append_drop]
            have : 0 < (s.conn r).q.length := List.length_pos_iff.2 hq
            simp only [List.length_cons, List.length_drop]
            omega
          simp only [St.set] at h1 h2 ⊢
          omega
        split at h
        · have m2 := Mic.start (re := ev.rehash) (r := r) (s := s.set r { s.conn r with
            q := ((s.conn r).q.take (ev.merge + 1)).flatten :: (s.conn r).q.drop (ev.merge + 1) }) hr
            (by simp [St.set, hw]) (by simp [St.set]) (by simp [St.set, hcl])
          have c2 := core_mic c1 m2
          have l2 := left_after c2 hr h
          refine Nat.le_trans l2 ?_
          refine Nat.le_trans ?_ (Nat.add_le_add_right l1 2)
          generalize hs1 : s.set r { s.conn r with
            q := ((s.conn r).q.take (ev.merge + 1)).flatten :: (s.conn r).q.drop (ev.merge + 1) } = s1
          have h3 := left_of (s := s1) (t := { s1.set r { s1.conn r with writing := true } with
            reqs := s1.reqs ++ [.write r], active := s1.active + 1 }) rfl
            (unrep_of (fun _ => rfl) (fun x => set_q (s := s1) (r := r) (c := { s1.conn r with writing := true }) rfl x))
            (fun x => set_q (s := s1) (r := r) (c := { s1.conn r with writing := true }) rfl x)
            (fun x => set_closing (s := s1) (r := r) (c := { s1.conn r with writing := true }) rfl x)
          simp only [St.set, List.map_append, List.sum_append, List.map_cons, List.map_nil, List.sum_cons, List.sum_nil,
            Req.weight] at h3 ⊢
          omega
        · have := left_after c1 hr h
          omega

/-- A returning callback. -/
theorem left_ret {ev : Env} {s t : St} (hc : Core s) (h : ret ev s = .ok t) : left t + 1 ≤ left s := by
  have pop1 : ∀ {f : Frame} {fs : List Frame} {u : St}, s.stack = f :: fs → (∀ x l, todoOf x (f :: l) = todoOf x l) →
      u.next = s.next → u.conn = s.conn → u.reqs = s.reqs → (∀ x, todoOf x u.stack = todoOf x fs) →
      (u.hands.map Hand.weight).sum + (u.stack.map Frame.weight).sum + 1 ≤
        (s.hands.map Hand.weight).sum + (s.stack.map Frame.weight).sum → left u + 1 ≤ left s := by
    intro f fs u hk hf hn hcn hrq hst hw
    have := left_of (s := s) (t := u) hn (unrep_of (fun x => by rw [hst, hk, hf]) (fun x => by rw [hcn]))
      (fun x => by rw [hcn]) (fun x => by rw [hcn])
    rw [hrq] at this
    omega
  unfold ret at h
  split at h
  · cases h
  · cases h
  · next hk =>
    cases h
    refine pop1 hk (fun _ _ => rfl) rfl rfl rfl (fun x => by simp [St.emit, St.pop, hk]) ?_
    simp only [St.pop, St.emit, hk, List.tail_cons, List.map_cons, List.sum_cons, Frame.weight]; omega
  · next hk =>
    cases h
    refine pop1 hk (fun _ _ => rfl) rfl rfl rfl (fun x => by simp [St.pop, hk]) ?_
    simp only [St.pop, hk, List.tail_cons, List.map_cons, List.sum_cons, Frame.weight]; omega
  · next hk =>
    cases h
    refine pop1 hk (fun _ _ => rfl) rfl rfl rfl (fun x => by simp [St.pop, hk]) ?_
    simp only [St.pop, hk, List.tail_cons, List.map_cons, List.sum_cons, Frame.weight, List.map_append, List.sum_append, Hand.weight,
      List.map_nil, List.sum_nil]; omega
  · next hk =>
    have h := use_ok h
    split at h
    · cases h
      refine pop1 hk (fun _ _ => rfl) rfl rfl rfl (fun x => by simp [St.pop, St.emit, St.push, hk, todoOf]) ?_
      simp only [St.pop, St.emit, St.push, hk, List.tail_cons, List.map_cons, List.sum_cons, Frame.weight]; omega
    · unfold gcErase at h
      split at h
      · cases h
        refine pop1 hk (fun _ _ => rfl) rfl rfl rfl (fun x => by simp [St.pop, hk]) ?_
        simp only [St.pop, hk, List.tail_cons, List.map_cons, List.sum_cons, Frame.weight]; omega
      · cases h
  · next hk =>
    unfold gcErase at h
    split at h
    · cases h
      refine pop1 hk (fun _ _ => rfl) rfl rfl rfl (fun x => by simp [St.pop, hk]) ?_
      simp only [St.pop, hk, List.tail_cons, List.map_cons, List.sum_cons, Frame.weight]; omega
    · cases h
  · next r todo ok fs hk =>
    have htop := hc.top hk rfl
    have h := use_ok h
    split at h
    · next m rest _ =>
      cases h
      have h1 := left_at (s := s) (t := (s.pop.emit (.written r m Err.SUCCESS ok)).push (.written r rest ok)) htop.1.1 rfl (by
        intro x e
        refine cost_of ?_ rfl rfl
        unfold unrep
        simp only [St.pop, St.emit, St.push, hk, List.tail_cons, todoOf, if_neg (Ne.symm e)])
      have h2 : cost s r = cost ((s.pop.emit (.written r m Err.SUCCESS ok)).push (.written r rest ok)) r + 1 := by
        unfold cost unrep
        simp only [St.pop, St.emit, St.push, hk, List.tail_cons, todoOf, if_pos, List.length_append, List.length_cons]
        omega
      simp only [St.pop, St.emit, St.push, hk, List.tail_cons, List.map_cons, List.sum_cons, Frame.weight] at h1 h2 ⊢
      omega
    · have hw : (s.conn r).writing = true := by
        have := hc.wr r
        have hp : 0 < s.stack.countP (isW r) := List.countP_pos_iff.2 ⟨_, by rw [hk]; exact List.mem_cons_self, by simp [isW]⟩
        cases hb : (s.conn r).writing with
        | true => rfl
        | false => rw [hb] at this; simp only [Bool.toNat_false] at this; omega
      have hne := (hc.wl r hw).2
      have m1 := Mic.wend (re := ev.rehash) hk
      have c1 := core_mic hc m1
      have l2 := left_try c1 htop.1.1 (by simp only [St.set]; rw [pop_stack hk]; exact htop.2) h
      have h1 := left_at (s := s) (t := s.pop.set r { s.conn r with q := (s.conn r).q.tail, writing := false }) htop.1.1 rfl (by
        intro x e
        refine cost_of ?_ ?_ ?_
        · unfold unrep
          simp only [St.pop, St.set, hk, List.tail_cons, todoOf, if_neg (Ne.symm e)]
          rw [upd_ne _ _ e]
        · simp only [St.pop, St.set]; rw [upd_ne _ _ e]
        · simp only [St.pop, St.set]; rw [upd_ne _ _ e])
      have h2 : cost s r = cost (s.pop.set r { s.conn r with q := (s.conn r).q.tail, writing := false }) r + 2 := by
        unfold cost unrep
        have hn := todo_no_uv htop.2 r
        simp only [St.pop, St.set, hk, List.tail_cons, todoOf, if_pos, hn, upd_same, List.nil_append, List.length_tail]
        have : 0 < (s.conn r).q.length := List.length_pos_iff.2 hne
        omega
      simp only [St.pop, St.set, hk, List.tail_cons, List.map_cons, List.sum_cons, Frame.weight] at h1 h2 l2 ⊢
      omega
  · next r todo after fs hk =>
    have htop := hc.top hk rfl
    have h := use_ok h
    split at h
    · next m rest _ =>
      cases h
      have h1 := left_at (s := s) (t := (s.pop.emit (.written r m Err.CLOSING false)).push (.cancel r rest after)) htop.1.1 rfl (by
        intro x e
        refine cost_of ?_ rfl rfl
        unfold unrep
        simp only [St.pop, St.emit, St.push, hk, List.tail_cons, todoOf, if_neg (Ne.symm e)])
      have h2 : cost s r = cost ((s.pop.emit (.written r m Err.CLOSING false)).push (.cancel r rest after)) r + 1 := by
        unfold cost unrep
        simp only [St.pop, St.emit, St.push, hk, List.tail_cons, todoOf, if_pos, List.length_append, List.length_cons]
        omega
      simp only [St.pop, St.emit, St.push, hk, List.tail_cons, List.map_cons, List.sum_cons, Frame.weight] at h1 h2 ⊢
      omega
    · have m1 := Mic.cend (re := ev.rehash) hk
      have c1 := core_mic hc m1
      have l2 := left_cancel c1 htop.1.1 (by simp only [St.set]; rw [pop_stack hk]; exact htop.2) h
      have h1 := left_at (s := s) (t := s.pop.set r { s.conn r with q := (s.conn r).q.tail }) htop.1.1 rfl (by
        intro x e
        refine cost_of ?_ ?_ ?_
        · unfold unrep
          simp only [St.pop, St.set, hk, List.tail_cons, todoOf, if_neg (Ne.symm e)]
          rw [upd_ne _ _ e]
        · simp only [St.pop, St.set]; rw [upd_ne _ _ e]
        · simp only [St.pop, St.set]; rw [upd_ne _ _ e])
      have h2 : cost (s.pop.set r { s.conn r with q := (s.conn r).q.tail }) r ≤ cost s r := by
        unfold cost unrep
        have hn := todo_no_uv htop.2 r
        simp only [St.pop, St.set, hk, List.tail_cons, todoOf, if_pos, hn, upd_same, List.nil_append, List.length_tail]
        omega
      simp only [St.pop, St.set, hk, List.tail_cons, List.map_cons, List.sum_cons, Frame.weight] at h1 h2 l2 ⊢
      omega
  · next r n free fs hk =>
    have htop := hc.top hk rfl
    have h := use_ok h
    split at h
    · cases h
      refine pop1 hk (fun _ _ => rfl) rfl rfl rfl (fun x => by simp [St.pop, St.emit, St.push, hk, todoOf]) ?_
      simp only [St.pop, St.emit, St.push, hk, List.tail_cons, List.map_cons, List.sum_cons, Frame.weight]; omega
    · have lp : left s.pop + 1 ≤ left s := by
        refine pop1 hk (fun _ _ => rfl) rfl rfl rfl (fun x => by simp [St.pop, hk]) ?_
        simp only [St.pop, hk, List.tail_cons, List.map_cons, List.sum_cons, Frame.weight]; omega
      split at h
      · have m1 := Mic.pop (re := ev.rehash) hk rfl
        have := left_inner (core_mic hc m1) htop.1.1 h
        omega
      · cases h; exact lp
  · next r force fs hk =>
    have htop := hc.top hk rfl
    have h := use_ok h
    have lp : left s.pop + 1 ≤ left s := by
      refine pop1 hk (fun _ _ => rfl) rfl rfl rfl (fun x => by simp [St.pop, hk]) ?_
      simp only [St.pop, hk, List.tail_cons, List.map_cons, List.sum_cons, Frame.weight]; omega
    have m1 := Mic.pop (re := ev.rehash) hk rfl
    have := left_inner (core_mic hc m1) htop.1.1 h
    omega

/-! ### While `io_stream_close` waits -/

/-- A map of frames that changes no kind. -/
structure Mild (g : Frame → Frame) : Prop where
  uv : ∀ f, (g f).uv = f.uv
  wait : g .closeWait = .closeWait

theorem mild_id : Mild id := ⟨fun _ => rfl, rfl⟩

theorem mild_rehash : Mild Frame.rehash := ⟨rehash_uv, rfl⟩

theorem Mild.comp {g g' : Frame → Frame} (h : Mild g) (h' : Mild g') : Mild (g' ∘ g) :=
  ⟨fun f => (h'.uv _).trans (h.uv f), by simp [h.wait, h'.wait]⟩

/-- No connection becomes connected; at most one callback starts. -/
structure Keep (p : List Frame) (s t : St) : Prop where
  next : t.next = s.next
  cl : t.closing = s.closing
  st : ∀ x, (t.conn x).status = .connected → (s.conn x).status = .connected
  sk : ∃ g, Mild g ∧ t.stack = p ++ s.stack.map g

theorem Keep.refl (s : St) : Keep [] s s := ⟨rfl, rfl, fun _ h => h, id, mild_id, by simp⟩

theorem Keep.trans {p : List Frame} {a b c : St} (h : Keep [] a b) (h' : Keep p b c) : Keep p a c := by
  obtain ⟨g, hg, e⟩ := h.sk
  obtain ⟨g', hg', e'⟩ := h'.sk
  refine ⟨h'.next.trans h.next, h'.cl.trans h.cl, fun x hx => h.st x (h'.st x hx), g' ∘ g, hg.comp hg', ?_⟩
  rw [e', e]; simp

theorem keep_set {s : St} {r : Ref} {c : Conn} (hs : c.status = .connected → (s.conn r).status = .connected) : Keep [] s (s.set r c) := by
  refine ⟨rfl, rfl, ?_, id, mild_id, by simp [St.set]⟩
  intro x hx
  simp only [St.set] at hx
  by_cases e : x = r
  · rw [e, upd_same] at hx; rw [e]; exact hs hx
  · rw [upd_ne _ _ e] at hx; exact hx

theorem keep_run {ev : Env} {s t : St} {r : Ref} (h : disconnectRun ev s r = .ok t) : Keep [] s t := by
  unfold disconnectRun at h
  split at h
  · cases h; exact .refl s
  · refine Keep.trans (b := s.set r { s.conn r with closing := true }) (keep_set (fun h => h)) ?_
    unfold shutdownConn at h
    split at h
    · cases h
    · cases h
      refine ⟨rfl, rfl, fun _ h => h, if ev.rehash then Frame.rehash else id, ?_, ?_⟩
      · split
        · exact mild_rehash
        · exact mild_id
      · simp only [List.nil_append]
        split <;> simp

theorem keep_inner {ev : Env} {s t : St} {r : Ref} {cb : Option Tok} {force : Bool}
    (h : disconnectInner ev s r cb force = .ok t) : Keep [] s t ∧ (t.conn r).status ≠ .connected := by
  unfold disconnectInner at h
  simp only at h
  split at h
  · next hs => cases h; exact ⟨keep_set (fun h => h), hs⟩
  · split at h
    · cases h
      refine ⟨Keep.trans (b := s.set r { s.conn r with cbk := cb }) (keep_set (fun h => h)) ?_, by simp [St.set]⟩
      exact keep_set (fun h => by cases h)
    · have h1 := keep_run h
      refine ⟨Keep.trans (b := s.set r { s.conn r with cbk := cb }) (keep_set (fun h => h)) (Keep.trans ?_ h1), ?_⟩
      · exact keep_set (fun h => by cases h)
      · intro hx
        have := h1.st r hx
        simp [St.set] at this

theorem keep_all {ev : Env} (rs : List Ref) : ∀ {s t : St}, disconnectAll ev s rs = .ok t →
    Keep [] s t ∧ ∀ r ∈ rs, (t.conn r).status ≠ .connected := by
  induction rs with
  | nil => intro s t h; cases h; exact ⟨.refl s, by simp⟩
  | cons r rs ih =>
    intro s t h
    unfold disconnectAll at h
    cases e : disconnectInner ev s r none false with
    | ok u =>
      rw [e] at h
      have h1 := keep_inner e
      have h2 := ih h
      refine ⟨h1.1.trans h2.1, ?_⟩
      intro x hx
      rcases List.mem_cons.1 hx with rfl | hx
      · exact fun hc => h1.2 (h2.1.st _ hc)
      · exact h2.2 x hx
    | ub => rw [e] at h; cases h
    | abort => rw [e] at h; cases h
    | no => rw [e] at h; cases h

theorem keep_after {ev : Env} {s t : St} {r : Ref} {after : Bool} (h : (if after then afterTry ev s r else Out.ok s) = .ok t) :
    Keep [] s t := by
  split at h
  · unfold afterTry at h
    split at h
    · exact keep_run h
    · cases h; exact .refl s
  · cases h; exact .refl s

/-- At most one callback of libuv starts. -/
def Keep1 (s t : St) : Prop := Keep [] s t ∨ ∃ f, f.uv = true ∧ Keep [f] s t

theorem Keep1.after {a b c : St} (h : Keep [] a b) (h' : Keep1 b c) : Keep1 a c := by
  rcases h' with h' | ⟨f, hf, h'⟩
  · exact Or.inl (h.trans h')
  · exact Or.inr ⟨f, hf, h.trans h'⟩

theorem keep_cancel {ev : Env} {s t : St} {r : Ref} {after : Bool} (h : cancelNext ev s r after = .ok t) : Keep1 s t := by
  unfold cancelNext at h
  split at h
  · exact Or.inl (Keep.trans (b := s.set r { s.conn r with q := [] }) (keep_set (fun h => h)) (keep_after h))
  · next b bs hd =>
    cases b with
    | nil => cases h
    | cons m rest =>
      cases h
      refine Or.inr ⟨.cancel r rest after, rfl, ?_⟩
      refine Keep.trans (b := s.set r { s.conn r with q := (m :: rest) :: bs }) (keep_set (fun h => h)) ?_
      exact ⟨rfl, rfl, fun _ h => h, id, mild_id, by simp [St.push, St.emit]⟩

theorem keep_try {ev : Env} {s t : St} {r : Ref} {after : Bool} (h : tryWrite ev s r after = .ok t) : Keep1 s t := by
  unfold tryWrite at h
  simp only at h
  split at h
  · exact Or.inl (keep_after h)
  · split at h
    · exact Or.inl (keep_after h)
    · split at h
      · exact keep_cancel h
      · left
        refine Keep.trans (b := s.set r { s.conn r with
            q := ((s.conn r).q.take (ev.merge + 1)).flatten :: (s.conn r).q.drop (ev.merge + 1) }) (keep_set (fun h => h)) ?_
        split at h
        · refine Keep.trans ?_ (keep_after h)
          refine Keep.trans (keep_set (r := r) (c := { s.conn r with
            q := ((s.conn r).q.take (ev.merge + 1)).flatten :: (s.conn r).q.drop (ev.merge + 1), writing := true }) ?_) ?_
          · intro hx; simpa [St.set] using hx
          · refine ⟨rfl, rfl, ?_, id, mild_id, by simp [St.set]⟩
            intro x hx
            simpa [St.set] using hx
        · exact keep_after h

/-- `io_stream_close` waits: all connections are on their way out, and at most one callback of libuv runs. -/
structure Ending (s : St) : Prop where
  cl : s.closing = true
  st : ∀ r, r < s.next → (s.conn r).status ≠ .connected
  sk : ∃ fs, s.stack = .closeWait :: fs ∨ ∃ f, f.uv = true ∧ s.stack = f :: .closeWait :: fs

/-- The loop runs. -/
theorem Ending.loop {s : St} (h : Ending s) (hl : s.canLoop = true) : ∃ fs, s.stack = .closeWait :: fs := by
  obtain ⟨fs, h1 | ⟨f, hf, h1⟩⟩ := h.sk
  · exact ⟨fs, h1⟩
  · exfalso
    unfold St.canLoop at hl
    rw [h1] at hl
    cases f <;> simp [Frame.uv] at hf hl

/-- A callback runs. -/
theorem Ending.app {s : St} (h : Ending s) (hl : s.canCall = true) : ∃ f fs, f.uv = true ∧ s.stack = f :: .closeWait :: fs := by
  obtain ⟨fs, h1 | ⟨f, hf, h1⟩⟩ := h.sk
  · unfold St.canCall at hl
    rw [h1] at hl
    cases hl
  · exact ⟨f, fs, hf, h1⟩

theorem Ending.keep {s t : St} (h : Ending s) (hk : Keep [] s t) : Ending t := by
  obtain ⟨g, hg, e⟩ := hk.sk
  refine ⟨by rw [hk.cl]; exact h.cl, ?_, ?_⟩
  · intro r hr hx
    rw [hk.next] at hr
    exact h.st r hr (hk.st r hx)
  · obtain ⟨fs, h1 | ⟨f, hf, h1⟩⟩ := h.sk
    · exact ⟨fs.map g, Or.inl (by rw [e, h1]; simp [hg.wait])⟩
    · exact ⟨fs.map g, Or.inr ⟨g f, by rw [hg.uv]; exact hf, by rw [e, h1]; simp [hg.wait]⟩⟩

theorem Ending.keep1 {s t : St} (h : Ending s) (hl : ∃ fs, s.stack = .closeWait :: fs) (hk : Keep1 s t) : Ending t := by
  rcases hk with hk | ⟨f, hf, hk⟩
  · exact h.keep hk
  · obtain ⟨g, hg, e⟩ := hk.sk
    refine ⟨by rw [hk.cl]; exact h.cl, ?_, ?_⟩
    · intro r hr hx
      rw [hk.next] at hr
      exact h.st r hr (hk.st r hx)
    · obtain ⟨fs, h1⟩ := hl
      exact ⟨fs.map g, Or.inr ⟨f, hf, by rw [e, h1]; simp [hg.wait]⟩⟩

theorem ending_close {ev : Env} {max : Nat} {s t : St} (hc : Core s) (h : step max s (.close ev) = .ok t) : Ending t := by
  simp only [step] at h
  split at h
  · split at h
    · cases h
    · cases e : disconnectAll ev { s with closing := true } (s.pool.map (·.2)) with
      | ok u =>
        rw [e] at h
        cases h
        obtain ⟨hk, ha⟩ := keep_all _ e
        obtain ⟨g, hg, hs⟩ := hk.sk
        refine ⟨hk.cl, ?_, ⟨u.stack, Or.inl rfl⟩⟩
        intro r hr hx
        have hr : r < s.next := by
          have : r < u.next := hr
          rw [hk.next] at this; exact this
        have hx : (u.conn r).status = .connected := hx
        have h0 : (s.conn r).status = .connected := hk.st r hx
        cases hcl : (s.conn r).closing with
        | false => exact ha r (List.mem_map.2 ⟨_, (hc.op r hr hcl).1, rfl⟩) hx
        | true =>
          have := hc.sd r hr hcl
          rw [h0] at this
          simp at this
      | ub => rw [e] at h; cases h
      | abort => rw [e] at h; cases h
      | no => rw [e] at h; cases h
  · cases h

theorem ending_ret {ev : Env} {s t : St} (he : Ending s) (h : ret ev s = .ok t) : Ending t := by
  have hst : ∃ f fs, f.uv = true ∧ s.stack = f :: .closeWait :: fs := by
    obtain ⟨fs, h1 | ⟨f, hf, h1⟩⟩ := he.sk
    · unfold ret at h; rw [h1] at h; cases h
    · exact ⟨f, fs, hf, h1⟩
  obtain ⟨f, fs, hf, hk⟩ := hst
  have hp : Ending s.pop := ⟨he.cl, he.st, fs, Or.inl (by simp [St.pop, hk])⟩
  have hl : ∃ fs, s.pop.stack = .closeWait :: fs := ⟨fs, by simp [St.pop, hk]⟩
  have plain : ∀ {u : St}, u.next = s.next → u.conn = s.conn → u.closing = s.closing → u.stack = s.pop.stack → Ending u := by
    intro u h1 h2 h3 h4
    exact ⟨by rw [h3]; exact he.cl, by rw [h1, h2]; exact he.st, fs, Or.inl (by rw [h4]; simp [St.pop, hk])⟩
  have again : ∀ {u : St} (f' : Frame), f'.uv = true → u.next = s.next → u.conn = s.conn → u.closing = s.closing →
      u.stack = f' :: s.pop.stack → Ending u := by
    intro u f' hf' h1 h2 h3 h4
    exact ⟨by rw [h3]; exact he.cl, by rw [h1, h2]; exact he.st, fs, Or.inr ⟨f', hf', by rw [h4]; simp [St.pop, hk]⟩⟩
  unfold ret at h
  split at h
  · cases h
  · cases h
  · cases h; exact plain rfl rfl rfl rfl
  · cases h; exact plain rfl rfl rfl rfl
  · cases h; exact plain rfl rfl rfl rfl
  · have h := use_ok h
    split at h
    · cases h; exact again _ rfl rfl rfl rfl rfl
    · unfold gcErase at h
      split at h
      · cases h; exact plain rfl rfl rfl rfl
      · cases h
  · unfold gcErase at h
    split at h
    · cases h; exact plain rfl rfl rfl rfl
    · cases h
  · next r todo ok _ _ =>
    have h := use_ok h
    split at h
    · cases h; exact again (.written r _ ok) rfl rfl rfl rfl rfl
    · refine hp.keep1 hl (Keep1.after (b := s.pop.set r { s.conn r with q := (s.conn r).q.tail, writing := false }) ?_ (keep_try h))
      exact keep_set (fun h => h)
  · next r todo after _ _ =>
    have h := use_ok h
    split at h
    · cases h; exact again (.cancel r _ after) rfl rfl rfl rfl rfl
    · refine hp.keep1 hl (Keep1.after (b := s.pop.set r { s.conn r with q := (s.conn r).q.tail }) ?_ (keep_cancel h))
      exact keep_set (fun h => h)
  · next r n free _ _ =>
    have h := use_ok h
    split at h
    · cases h; exact again (.recv r _ free) rfl rfl rfl rfl rfl
    · split at h
      · exact hp.keep (keep_inner h).1
      · cases h; exact plain rfl rfl rfl rfl
  · have h := use_ok h
    exact hp.keep (keep_inner h).1

/-- Something is reported or a callback returns. -/
def In.reports : In → Bool
  | .ret _ | .resolved _ _ | .connected _ _ | .closed _ | .written _ _ _ => true
  | _ => false

/-- A connection comes in. -/
def In.isIncoming : In → Bool
  | .incoming _ _ _ => true
  | _ => false

theorem left_plain {s t : St} (hn : t.next = s.next) (hc : t.conn = s.conn) (hs : ∀ r, todoOf r t.stack = todoOf r s.stack) :
    left t + (s.reqs.map Req.weight).sum + (s.hands.map Hand.weight).sum + (s.stack.map Frame.weight).sum =
    left s + (t.reqs.map Req.weight).sum + (t.hands.map Hand.weight).sum + (t.stack.map Frame.weight).sum :=
  left_of hn (unrep_of hs (fun r => by rw [hc])) (fun r => by rw [hc]) (fun r => by rw [hc])

theorem sum_erase {α : Type} [BEq α] [LawfulBEq α] (f : α → Nat) {a : α} {l : List α} (h : a ∈ l) :
    ((l.erase a).map f).sum + f a = (l.map f).sum := by
  induction l with
  | nil => cases h
  | cons b l ih =>
    by_cases e : b = a
    · subst e; rw [List.erase_cons_head]; simp; omega
    · rw [List.erase_cons_tail (by simpa using e)]
      rcases List.mem_cons.1 h with h | h
      · exact absurd h.symm e
      · have := ih h
        simp only [List.map_cons, List.sum_cons]
        omega

theorem ending_step {max : Nat} {s t : St} {i : In} (hc : Core s) (he : Ending s) (hi : i ≠ .closeDone)
    (hs : step max s i = .ok t) :
    Ending t ∧ left t + i.reports.toNat ≤ left s + 2 * i.isIncoming.toNat := by
  have log : ∀ {u : St}, u.next = s.next → u.conn = s.conn → u.closing = true → u.stack = s.stack → u.reqs = s.reqs →
      u.hands = s.hands → Ending u ∧ left u ≤ left s := by
    intro u h1 h2 h3 h4 h5 h6
    refine ⟨⟨h3, by rw [h1, h2]; exact he.st, by rw [h4]; exact he.sk⟩, ?_⟩
    have := left_plain (s := s) (t := u) h1 h2 (fun r => by rw [h4])
    rw [h4, h5, h6] at this
    omega
  have pushed : ∀ {u : St} (f : Frame), s.canLoop = true → f.uv = true → (∀ r l, todoOf r (f :: l) = todoOf r l) →
      u.next = s.next → u.conn = s.conn → u.closing = true → u.stack = f :: s.stack →
      Ending u ∧ left u + (s.reqs.map Req.weight).sum + (s.hands.map Hand.weight).sum =
        left s + (u.reqs.map Req.weight).sum + (u.hands.map Hand.weight).sum + f.weight := by
    intro u f hl hf ht h1 h2 h3 h4
    obtain ⟨fs, hk⟩ := he.loop hl
    refine ⟨⟨h3, by rw [h1, h2]; exact he.st, fs, Or.inr ⟨f, hf, by rw [h4, hk]⟩⟩, ?_⟩
    have := left_plain (s := s) (t := u) h1 h2 (fun r => by rw [h4, ht])
    rw [h4] at this
    simp only [List.map_cons, List.sum_cons] at this
    omega
  have hcall : Core { s with calls := s.calls + 1 } := core_misc hc _ _ _ _ _ (fun _ => rfl)
  have ecall : Ending { s with calls := s.calls + 1 } := ⟨he.cl, he.st, he.sk⟩
  have lcall : left { s with calls := s.calls + 1 } = left s := rfl
  cases i with
  | listen sys =>
    simp only [step] at hs
    split at hs
    · cases hs
      have : callListen s sys = { s with calls := s.calls + 1 }.emit (.ret s.calls Err.CHANNEL_CLOSING) := by
        unfold callListen listenAddr
        simp only [he.cl, if_true]
        rw [if_neg (by decide)]
      rw [this]
      exact log rfl rfl (by first | exact he.cl | rfl) rfl rfl rfl
    · cases hs
  | listenName ok =>
    simp only [step] at hs
    split at hs
    · cases hs
      unfold call resolve
      simp only [he.cl, if_true]
      exact log rfl rfl (by first | exact he.cl | rfl) rfl rfl rfl
    · cases hs
  | connect sys =>
    simp only [step] at hs
    split at hs
    · cases hs
      unfold call connectAddr
      simp only [he.cl, if_true]
      exact log rfl rfl (by first | exact he.cl | rfl) rfl rfl rfl
    · cases hs
  | connectName ok =>
    simp only [step] at hs
    split at hs
    · cases hs
      unfold call resolve
      simp only [he.cl, if_true]
      exact log rfl rfl (by first | exact he.cl | rfl) rfl rfl rfl
    · cases hs
  | badAddr =>
    simp only [step] at hs
    split at hs
    · cases hs; exact log rfl rfl (by first | exact he.cl | rfl) rfl rfl rfl
    · cases hs
  | disconnect r cb ev =>
    simp only [step] at hs
    split at hs
    · unfold use at hs
      split at hs
      · next hh =>
        refine ⟨ecall.keep (keep_inner hs).1, ?_⟩
        have := left_inner hcall (r := r) (hc.of_held hh) hs
        rw [lcall] at this
        simpa [In.reports, In.isIncoming] using this
      · cases hs
    · cases hs
  | disconnectFd fd cb ev =>
    simp only [step] at hs
    split at hs
    · split at hs
      · cases hs; exact log rfl rfl (by first | exact he.cl | rfl) rfl rfl rfl
      · next r hr =>
        refine ⟨ecall.keep (keep_inner hs).1, ?_⟩
        have := left_inner hcall (r := r) (hc.p _ (mem_of_lookup hr)).1 hs
        rw [lcall] at this
        simpa [In.reports, In.isIncoming] using this
    · cases hs
  | send r m ev =>
    simp only [step] at hs
    split at hs
    · unfold use at hs
      split at hs
      · next hh =>
        unfold send at hs
        rw [if_pos (he.st r (hc.of_held hh))] at hs
        cases hs
        exact log rfl rfl (by first | exact he.cl | rfl) rfl rfl rfl
      · cases hs
    · cases hs
  | close ev =>
    exfalso
    simp only [step] at hs
    split at hs
    · next hcc =>
      obtain ⟨f, fs, hf, hk⟩ := he.app hcc
      rw [if_pos (by simp [St.inCb, hk, hf])] at hs
      cases hs
    · cases hs
  | ret ev =>
    refine ⟨ending_ret he hs, ?_⟩
    have := left_ret hc hs
    simpa [In.reports, In.isIncoming] using this
  | resolved req res =>
    simp only [step] at hs
    split at hs
    · next hg =>
      have hw := sum_erase Req.weight hg.2
      have fin : ∀ {u : St}, u.next = s.next → u.conn = s.conn → u.closing = true → u.stack = .cbEnd :: s.stack →
          u.reqs = s.reqs.erase req → u.hands = s.hands → req.weight = 2 →
          Ending u ∧ left u + 1 ≤ left s := by
        intro u h1 h2 h3 h4 h5 h6 h7
        obtain ⟨h8, h9⟩ := pushed .cbEnd hg.1 rfl (fun _ _ => rfl) h1 h2 h3 h4
        refine ⟨h8, ?_⟩
        rw [h5, h6] at h9
        have : Frame.cbEnd.weight = 1 := rfl
        omega
      split at hs
      · next t' sys _ =>
        cases hs
        unfold listenAddr
        simp only [St.done, he.cl, if_true]
        rw [if_neg (by decide)]
        exact fin rfl rfl (by first | exact he.cl | rfl) rfl rfl rfl rfl
      · next t' sys _ =>
        cases hs
        unfold connectAddr
        simp only [St.done, he.cl, if_true]
        rw [if_neg (by decide)]
        exact fin rfl rfl (by first | exact he.cl | rfl) rfl rfl rfl rfl
      · cases hs; exact fin rfl rfl (by first | exact he.cl | rfl) rfl rfl rfl rfl
      · cases hs; exact fin rfl rfl (by first | exact he.cl | rfl) rfl rfl rfl rfl
      · cases hs
    · cases hs
  | connected t' fd =>
    simp only [step] at hs
    split at hs
    · next hg =>
      have hw := sum_erase Req.weight hg.2
      have fin : ∀ {u : St}, u.next = s.next → u.conn = s.conn → u.closing = true → u.stack = .loose :: s.stack →
          u.reqs = s.reqs.erase (.connect t') → u.hands = s.hands →
          Ending u ∧ left u + 1 ≤ left s := by
        intro u h1 h2 h3 h4 h5 h6
        obtain ⟨h8, h9⟩ := pushed .loose hg.1 rfl (fun _ _ => rfl) h1 h2 h3 h4
        refine ⟨h8, ?_⟩
        rw [h5, h6] at h9
        have h10 : Frame.loose.weight = 2 := rfl
        have h11 : (Req.connect t').weight = 4 := rfl
        omega
      split at hs
      · cases hs; exact fin rfl rfl (by first | exact he.cl | rfl) rfl rfl rfl
      · next fd =>
        rw [if_pos (show (s.done (.connect t')).closing = true from he.cl)] at hs
        cases hs; exact fin rfl rfl (by first | exact he.cl | rfl) rfl rfl rfl
    · cases hs
  | incoming l fd acc =>
    simp only [step] at hs
    split at hs
    · next hg =>
      have fin : ∀ {u : St} (f : Frame), f = .loose ∨ f = .cbEnd → u.next = s.next → u.conn = s.conn → u.closing = true →
          u.stack = f :: s.stack → u.reqs = s.reqs → u.hands = s.hands →
          Ending u ∧ left u ≤ left s + 2 := by
        intro u f hf h1 h2 h3 h4 h5 h6
        obtain ⟨h8, h9⟩ := pushed f hg.1 (by rcases hf with rfl | rfl <;> rfl)
          (by rcases hf with rfl | rfl <;> exact fun _ _ => rfl) h1 h2 h3 h4
        refine ⟨h8, ?_⟩
        rw [h5, h6] at h9
        have h10 : f.weight ≤ 2 := by rcases hf with rfl | rfl <;> simp [Frame.weight]
        omega
      split at hs
      · cases hs
        refine fin (if acc then .loose else .cbEnd) ?_ rfl rfl he.cl rfl rfl rfl
        cases acc <;> simp
      · next fd =>
        rw [if_pos he.cl] at hs
        cases hs; exact fin .loose (Or.inl rfl) rfl rfl he.cl rfl rfl rfl
    · cases hs
  | closed h =>
    simp only [step] at hs
    split at hs
    · next hg =>
      have hw := sum_erase Hand.weight hg.2
      split at hs
      · cases hs
        refine ⟨⟨he.cl, he.st, he.sk⟩, ?_⟩
        have h1 := left_plain (s := s) (t := { s with hands := s.hands.erase .loose }) rfl rfl (fun _ => rfl)
        simp only [In.reports, In.isIncoming, Bool.toNat_true, Bool.toNat_false, Hand.weight] at h1 hw ⊢
        omega
      · next r =>
        split at hs
        · cases hs
        · split at hs
          · cases hs
          · next o ho =>
            cases hs
            obtain ⟨fs, hk⟩ := he.loop hg.1
            refine ⟨⟨he.cl, ?_, fs, Or.inr ⟨_, rfl, by simp [St.push, St.emit, St.set, hk]; rfl⟩⟩, ?_⟩
            · intro x hx
              simp only [St.push, St.emit, St.set]
              by_cases e : x = o
              · rw [e, upd_same]; simp
              · rw [upd_ne _ _ e]; exact he.st x hx
            · have h1 := left_of (s := s) (t := ((({ s with hands := s.hands.erase (.conn r) } : St).set o
                { s.conn o with status := .disconnected }).emit (.disconnected o)).push (.onClose r true false)) rfl
                (unrep_of (fun _ => rfl) (fun x => set_q (s := s) (r := o) (c := { s.conn o with status := .disconnected }) rfl x))
                (fun x => set_q (s := s) (r := o) (c := { s.conn o with status := .disconnected }) rfl x)
                (fun x => set_closing (s := s) (r := o) (c := { s.conn o with status := .disconnected }) rfl x)
              simp only [In.reports, In.isIncoming, Bool.toNat_true, Bool.toNat_false, Hand.weight, St.push, St.emit, St.set,
                List.map_cons, List.sum_cons, Frame.weight] at h1 hw ⊢
              omega
    · cases hs
  | written r ok ev =>
    simp only [step] at hs
    split at hs
    · next hg =>
      have hw := sum_erase Req.weight hg.2
      have hwr : (s.conn r).writing = true := by
        have hpos := List.count_pos_iff.2 hg.2
        have := hc.wr r
        cases hb : (s.conn r).writing with
        | true => rfl
        | false => rw [hb] at this; simp only [Bool.toNat_false] at this; omega
      have hr := hc.lt_of_write hwr
      have hne := (hc.wl r hwr).2
      have hu := hc.canLoop hg.1
      have hs := use_ok hs
      split at hs
      · next m rest bs hq =>
        have hq : (s.conn r).q = (m :: rest) :: bs := hq
        cases hs
        obtain ⟨fs, hk⟩ := he.loop hg.1
        refine ⟨⟨he.cl, he.st, fs, Or.inr ⟨.written r rest ok, rfl, by simp [St.push, St.emit, St.done, hk]⟩⟩, ?_⟩
        have h1 := left_at (s := s) (t := ((s.done (.write r)).emit (.written r m Err.SUCCESS ok)).push (.written r rest ok)) hr rfl (by
          intro x e
          refine cost_of ?_ rfl rfl
          unfold unrep
          simp only [St.done, St.emit, St.push, todoOf, if_neg (Ne.symm e)])
        have h2 : cost s r = cost (((s.done (.write r)).emit (.written r m Err.SUCCESS ok)).push (.written r rest ok)) r + 1 := by
          unfold cost
          rw [unrep_none hu]
          simp only [unrep, St.done, St.emit, St.push, todoOf, if_pos, hq, List.flatten_cons, List.length_append, List.tail_cons,
            List.length_cons]
          omega
        simp only [In.reports, In.isIncoming, Bool.toNat_true, Bool.toNat_false, St.done, St.emit, St.push, List.map_cons,
          List.sum_cons, Frame.weight, Req.weight] at h1 h2 hw ⊢
        omega
      · next hno =>
        exfalso
        match hq : (s.conn r).q with
        | [] => exact hne hq
        | [] :: bs => exact hc.ne r (by rw [hq]; exact List.mem_cons_self)
        | (m :: rest) :: bs => exact hno m rest bs hq
    · cases hs
  | again r ev =>
    simp only [step] at hs
    split at hs
    · next hg =>
      rw [if_pos (he.st r (hc.of_opened hg.2).1)] at hs
      cases hs; exact log rfl rfl (by first | exact he.cl | rfl) rfl rfl rfl
    · cases hs
  | readErr r force =>
    simp only [step] at hs
    split at hs
    · next hg =>
      rw [if_pos (he.st r (hc.of_opened hg.2).1)] at hs
      cases hs; exact log rfl rfl (by first | exact he.cl | rfl) rfl rfl rfl
    · cases hs
  | data r n free ev =>
    simp only [step] at hs
    split at hs
    · next hg =>
      rw [if_pos (he.st r (hc.of_opened hg.2).1)] at hs
      cases hs; exact log rfl rfl (by first | exact he.cl | rfl) rfl rfl rfl
    · cases hs
  | closeDone => exact absurd rfl hi

/-! ### Something is left to report until `io_stream_close` is done -/

/-- A connection reported as disconnected is in the table only while its callbacks run. -/
def Fading (s : St) : Prop := ∀ p ∈ s.gc, (s.conn p.2).status = .disconnected → ∃ v b, .onClose p.2 v b ∈ s.stack

theorem fading_mic {re : Bool} {s t : St} (hc : Core s) (h : Fading s) (hm : Mic re s t) : Fading t := by
  have keep : ∀ {t : St}, (∀ p ∈ t.gc, (t.conn p.2).status = .disconnected → p ∈ s.gc ∧ (s.conn p.2).status = .disconnected) →
      (∀ r v b, .onClose r v b ∈ s.stack → ∃ v' b', .onClose r v' b' ∈ t.stack) → Fading t := by
    intro t h1 h2 p hp hs
    obtain ⟨h3, h4⟩ := h1 p hp hs
    obtain ⟨v, b, h5⟩ := h p h3 h4
    exact h2 _ v b h5
  have same : ∀ {t : St}, t.gc = s.gc → t.conn = s.conn → (∀ f ∈ s.stack, f ∈ t.stack) → Fading t := by
    intro t h1 h2 h3
    refine keep (fun p hp hs => ?_) (fun r v b hm => ⟨v, b, h3 _ hm⟩)
    rw [h1] at hp; rw [h2] at hs
    exact ⟨hp, hs⟩
  have pop : ∀ {t : St} {f : Frame} {fs : List Frame}, s.stack = f :: fs → (∀ r v b, f ≠ .onClose r v b) → t.gc = s.gc →
      t.conn = s.conn → (∀ g ∈ fs, g ∈ t.stack) → Fading t := by
    intro t f fs hk hf h1 h2 h3
    refine keep (fun p hp hs => ?_) (fun r v b hm => ?_)
    · rw [h1] at hp; rw [h2] at hs
      exact ⟨hp, hs⟩
    · rw [hk] at hm
      rcases List.mem_cons.1 hm with h4 | h4
      · exact absurd h4.symm (hf r v b)
      · exact ⟨v, b, h3 _ h4⟩
  have sett : ∀ {r : Ref} {c : Conn} {t : St}, (c.status = .disconnected → (s.conn r).status = .disconnected) →
      t.conn = upd s.conn r c → t.gc = s.gc → (∀ f ∈ s.stack, f ∈ t.stack) → Fading t := by
    intro r c t h1 h2 h3 h4
    refine keep (fun p hp hs => ?_) (fun r v b hm => ⟨v, b, h4 _ hm⟩)
    rw [h3] at hp; rw [h2] at hs
    refine ⟨hp, ?_⟩
    by_cases e : p.2 = r
    · rw [e, upd_same] at hs; rw [e]; exact h1 hs
    · rw [upd_ne _ _ e] at hs; exact hs
  have poset : ∀ {r : Ref} {c : Conn} {t : St} {f : Frame} {fs : List Frame}, s.stack = f :: fs → (∀ r v b, f ≠ .onClose r v b) →
      (c.status = .disconnected → (s.conn r).status = .disconnected) →
      t.conn = upd s.conn r c → t.gc = s.gc → (∀ f ∈ fs, f ∈ t.stack) → Fading t := by
    intro r c t f fs hk hf h1 h2 h3 h4
    refine keep (fun p hp hs => ?_) (fun r v b hm => ?_)
    · rw [h3] at hp; rw [h2] at hs
      refine ⟨hp, ?_⟩
      by_cases e : p.2 = r
      · rw [e, upd_same] at hs; rw [e]; exact h1 hs
      · rw [upd_ne _ _ e] at hs; exact hs
    · rw [hk] at hm
      rcases List.mem_cons.1 hm with h5 | h5
      · exact absurd h5.symm (hf r v b)
      · exact ⟨v, b, h4 _ h5⟩
  cases hm with
  | cbk cb hr => refine sett ?_ rfl rfl (fun _ h => h); exact fun h => h
  | mark hr hs => exact sett (by simp) rfl rfl (fun _ h => h)
  | @shut r ev he hr hcl hs =>
    refine keep (fun p hp hst => ?_) (fun x v b hm => ?_)
    · have hp : p ∈ insert s.gc r r := hp
      have hst : (upd s.conn r _ p.2).status = .disconnected := hst
      rcases mem_insert.1 hp with rfl | hp
      · rw [upd_same] at hst; rw [hs] at hst; cases hst
      · by_cases e : p.2 = r
        · rw [e, upd_same] at hst; rw [hs] at hst; cases hst
        · rw [upd_ne _ _ e] at hst; exact ⟨hp.1, hst⟩
    · show ∃ v' b', _ ∈ (if ev.rehash then s.stack.map Frame.rehash else s.stack)
      split
      · exact ⟨false, b, List.mem_map.2 ⟨_, hm, rfl⟩⟩
      · exact ⟨v, b, hm⟩
  | merge n hr hw hq hc' => refine sett ?_ rfl rfl (fun _ h => h); exact fun h => h
  | start hr hw hq hc' => refine sett ?_ rfl rfl (fun _ h => h); exact fun h => h
  | accept m hr hs => refine sett ?_ rfl rfl (fun _ h => h); exact fun h => h
  | wbegin ok hu hm hq => exact same rfl rfl (fun _ h => List.mem_cons_of_mem _ h)
  | wmore hk => exact pop hk (by simp) rfl rfl (by intro g hg; rw [← pop_stack hk] at hg; exact List.mem_cons_of_mem _ hg)
  | wend hk => refine poset hk (by simp) ?_ rfl rfl (by intro g hg; rw [← pop_stack hk] at hg; exact hg); exact fun h => h
  | cbegin after hu hr hs hc' hw hq => exact same rfl rfl (fun _ h => List.mem_cons_of_mem _ h)
  | cmore hk => exact pop hk (by simp) rfl rfl (by intro g hg; rw [← pop_stack hk] at hg; exact List.mem_cons_of_mem _ hg)
  | cend hk => refine poset hk (by simp) ?_ rfl rfl (by intro g hg; rw [← pop_stack hk] at hg; exact hg); exact fun h => h
  | lret hk => exact pop hk (by simp) rfl rfl (by intro g hg; rw [← pop_stack hk] at hg; exact hg)
  | pop hk hf =>
    exact pop hk (by rintro r v b rfl; cases hf) rfl rfl (by intro g hg; rw [← pop_stack hk] at hg; exact hg)
  | loose hk => exact pop hk (by simp) rfl rfl (by intro g hg; rw [← pop_stack hk] at hg; exact hg)
  | @second r v fs t hk =>
    refine keep (fun p hp hs => ⟨hp, hs⟩) (fun x v' b' hm => ?_)
    rw [hk] at hm
    rcases List.mem_cons.1 hm with h5 | h5
    · cases h5; exact ⟨v, true, List.mem_cons_self⟩
    · refine ⟨v', b', List.mem_cons_of_mem _ ?_⟩
      show _ ∈ s.pop.stack
      rw [pop_stack hk]; exact h5
  | @free r v b fs hk =>
    intro p hp hs
    have hp := mem_erase.1 hp
    obtain ⟨v', b', h5⟩ := h p hp.1 hs
    rw [hk] at h5
    rcases List.mem_cons.1 h5 with h6 | h6
    · cases h6
      have := (hc.g p hp.1).1
      exact absurd this hp.2
    · refine ⟨v', b', ?_⟩
      show _ ∈ s.pop.stack
      rw [pop_stack hk]; exact h6
  | rmore hk => exact pop hk (by simp) rfl rfl (by intro g hg; rw [← pop_stack hk] at hg; exact List.mem_cons_of_mem _ hg)
  | rbegin f hu hr hs hf => exact same rfl rfl (fun _ h => List.mem_cons_of_mem _ h)
  | again => exact same rfl rfl (fun _ h => h)
  | flag b => exact same rfl rfl (fun _ h => h)
  | call => exact same rfl rfl (fun _ h => h)
  | note e he => exact same rfl rfl (fun _ h => h)
  | req q hq => exact same rfl rfl (fun _ h => h)
  | done q hq hm => exact same rfl rfl (fun _ h => h)
  | hand => exact same rfl rfl (fun _ h => h)
  | unhand => exact same rfl rfl (fun _ h => h)
  | make fd hf e he => exact sett (by simp) rfl rfl (fun _ h => h)
  | refused code _ hr hs => exact same rfl rfl (fun _ h => h)
  | pushL t => exact same rfl rfl (fun _ h => List.mem_cons_of_mem _ h)
  | push f hu hf => exact same rfl rfl (fun _ h => List.mem_cons_of_mem _ h)
  | waitEnd hk => exact pop hk (by simp) rfl rfl (by intro g hg; rw [← pop_stack hk] at hg; exact hg)
  | @closed r hu hm hw =>
    intro p hp hs
    have hp : p ∈ s.gc := hp
    have hs : (upd s.conn r _ p.2).status = .disconnected := hs
    by_cases e : p.2 = r
    · rw [e]; exact ⟨true, false, List.mem_cons_self⟩
    · rw [upd_ne _ _ e] at hs
      obtain ⟨v, b, h5⟩ := h p hp hs
      exact ⟨v, b, List.mem_cons_of_mem _ h5⟩

theorem fading_init : Fading St.init := by intro p hp; cases hp

theorem ending_enabled {max : Nat} {s : St} (hc : Core s) (hd : Disc s) (hf : Fading s) (hv : Valid s) (he : Ending s) :
    ∃ i t, (i.reports = true ∨ i = .closeDone) ∧ step max s i = .ok t := by
  obtain ⟨fs, hk | ⟨f, hfu, hk⟩⟩ := he.sk
  · have hl : s.canLoop = true := by simp [St.canLoop, hk]
    have hu := hc.canLoop hl
    cases hrq : s.reqs with
    | cons q qs =>
      have hq : q ∈ s.reqs := by rw [hrq]; exact List.mem_cons_self
      cases q with
      | dnsListen t =>
        refine ⟨.resolved (.dnsListen t) none, ?_, Or.inl rfl, ?_⟩
        rotate_left; simp only [step]; rw [if_pos ⟨hl, hq⟩]
      | dnsConnect t =>
        refine ⟨.resolved (.dnsConnect t) none, ?_, Or.inl rfl, ?_⟩
        rotate_left; simp only [step]; rw [if_pos ⟨hl, hq⟩]
      | connect t =>
        refine ⟨.connected t none, ?_, Or.inl rfl, ?_⟩
        rotate_left; simp only [step]; rw [if_pos ⟨hl, hq⟩]
      | write r =>
        have hwr : (s.conn r).writing = true := by
          have hpos := List.count_pos_iff.2 hq
          have := hc.wr r
          cases hb : (s.conn r).writing with
          | true => rfl
          | false => rw [hb] at this; simp only [Bool.toNat_false] at this; omega
        have hr := hc.lt_of_write hwr
        have hw := hc.wl r hwr
        match hqq : (s.conn r).q with
        | [] => exact absurd hqq hw.2
        | [] :: bs => exact absurd (by rw [hqq]; exact List.mem_cons_self) (hc.ne r)
        | (m :: rest) :: bs =>
          refine ⟨.written r true ⟨0, true, false⟩, ?_, Or.inl rfl, ?_⟩
          rotate_left; simp only [step]; rw [if_pos ⟨hl, hq⟩]
          unfold use
          rw [if_pos (show (s.done (.write r)).held r = true from hc.held hr hw.1)]
          simp only [St.done, hqq]
          rfl
    | nil =>
      cases hp : s.pool with
      | cons p ps =>
        exfalso
        have hm : p ∈ s.pool := by rw [hp]; exact List.mem_cons_self
        have h1 := hc.p p hm
        have h2 := (hc.op p.2 h1.1 h1.2.2).2
        have h3 : (s.conn p.2).status = .disconnecting := by
          rcases h2 with h2 | h2
          · exact absurd h2 (he.st _ h1.1)
          · exact h2
        rcases hd p.2 h3 with h4 | h4
        · rw [h1.2.2] at h4; cases h4
        · have := hc.wr p.2
          rw [hrq, h4, no_isW hu] at this
          simp at this
      | nil =>
        cases hg : s.gc with
        | cons p ps =>
          have hm : p ∈ s.gc := by rw [hg]; exact List.mem_cons_self
          have h1 := hc.g p hm
          rcases hc.sd p.2 h1.2.1 h1.2.2 with h2 | h2
          · have hh : .conn p.2 ∈ s.hands := List.count_pos_iff.1 (by rw [h2.2.2]; exact Nat.zero_lt_one)
            have hlk := lookup_of_mem hc.gk h2.2.1
            refine ⟨.closed (.conn p.2), ?_, Or.inl rfl, ?_⟩
            rotate_left; simp only [step]; rw [if_pos ⟨hl, hh⟩, if_neg (by rw [hrq]; simp), hlk]
          · obtain ⟨v, b, h3⟩ := hf p hm h2.1
            exact absurd (no_uv hu h3) (by simp [Frame.uv])
        | nil =>
          refine ⟨.closeDone, { s.pop with closing := false }, Or.inr rfl, ?_⟩
          simp only [step]
          rw [hk]
          simp only
          rw [if_pos ⟨hp, hg, by rw [hc.act, hrq]; rfl⟩]
  · rcases good_ret (ev := ⟨0, true, false⟩) hc with h1 | h1 | ⟨t, h1, -⟩
    · exfalso
      have := h1.2
      unfold St.canLoop at this
      rw [hk] at this
      cases f <;> simp [Frame.uv] at hfu this
    · obtain ⟨-, r, b, h2⟩ := h1
      exact absurd (hv _ _ _ h2) (by simp)
    · exact ⟨.ret _, t, Or.inl rfl, h1⟩

/-! ### Only libuv ends a write -/

theorem reqs_run {ev : Env} {s t : St} {r : Ref} (h : disconnectRun ev s r = .ok t) : t.reqs = s.reqs := by
  unfold disconnectRun at h
  split at h
  · cases h; rfl
  · unfold shutdownConn at h
    split at h
    · cases h
    · cases h; rfl

theorem reqs_inner {ev : Env} {s t : St} {r : Ref} {cb : Option Tok} {force : Bool}
    (h : disconnectInner ev s r cb force = .ok t) : t.reqs = s.reqs := by
  unfold disconnectInner at h
  simp only at h
  split at h
  · cases h; rfl
  · split at h
    · cases h; rfl
    · rw [reqs_run h]; rfl

theorem reqs_all {ev : Env} (rs : List Ref) : ∀ {s t : St}, disconnectAll ev s rs = .ok t → t.reqs = s.reqs := by
  induction rs with
  | nil => intro s t h; cases h; rfl
  | cons r rs ih =>
    intro s t h
    unfold disconnectAll at h
    cases e : disconnectInner ev s r none false with
    | ok u => rw [e] at h; rw [ih h, reqs_inner e]
    | ub => rw [e] at h; cases h
    | abort => rw [e] at h; cases h
    | no => rw [e] at h; cases h

theorem reqs_after {ev : Env} {s t : St} {r : Ref} {after : Bool} (h : (if after then afterTry ev s r else Out.ok s) = .ok t) :
    t.reqs = s.reqs := by
  split at h
  · unfold afterTry at h
    split at h
    · exact reqs_run h
    · cases h; rfl
  · cases h; rfl

theorem reqs_cancel {ev : Env} {s t : St} {r : Ref} {after : Bool} (h : cancelNext ev s r after = .ok t) : t.reqs = s.reqs := by
  unfold cancelNext at h
  split at h
  · rw [reqs_after h]; rfl
  · next b bs hd =>
    cases b with
    | nil => cases h
    | cons m rest => cases h; rfl

theorem reqs_try {ev : Env} {s t : St} {r : Ref} {after : Bool} (h : tryWrite ev s r after = .ok t) : s.reqs ⊆ t.reqs := by
  unfold tryWrite at h
  simp only at h
  split at h
  · rw [reqs_after h]; simp
  · split at h
    · rw [reqs_after h]; simp
    · split at h
      · rw [reqs_cancel h]; simp
      · split at h
        · rw [reqs_after h]; simp [St.set]
        · rw [reqs_after h]; simp [St.set]

theorem reqs_ret {ev : Env} {s t : St} (h : ret ev s = .ok t) : s.reqs ⊆ t.reqs := by
  unfold ret at h
  split at h
  · cases h
  · cases h
  · cases h; exact fun _ h => h
  · cases h; exact fun _ h => h
  · cases h; exact fun _ h => h
  · have h := use_ok h
    split at h
    · cases h; exact fun _ h => h
    · unfold gcErase at h
      split at h
      · cases h; exact fun _ h => h
      · cases h
  · unfold gcErase at h
    split at h
    · cases h; exact fun _ h => h
    · cases h
  · have h := use_ok h
    split at h
    · cases h; exact fun _ h => h
    · exact fun _ hm => reqs_try h hm
  · have h := use_ok h
    split at h
    · cases h; exact fun _ h => h
    · rw [reqs_cancel h]; exact fun _ h => h
  · have h := use_ok h
    split at h
    · cases h; exact fun _ h => h
    · split at h
      · rw [reqs_inner h]; exact fun _ h => h
      · cases h; exact fun _ h => h
  · have h := use_ok h
    rw [reqs_inner h]; exact fun _ h => h

theorem reqs_listenAddr (s : St) (t : Tok) (sys : Sys) (f : Frame) : (listenAddr s t sys f).1.reqs = s.reqs := by
  unfold listenAddr
  split
  · rfl
  · cases sys <;> rfl

theorem reqs_connectAddr (s : St) (t : Tok) (sys : Sys) : s.reqs ⊆ (connectAddr s t sys).1.reqs := by
  unfold connectAddr
  split
  · exact fun _ h => h
  · cases sys
    · exact fun _ h => h
    · exact fun _ h => List.mem_append_left _ h

/-- A write ends. -/
def In.isWritten : In → Bool
  | .written _ _ _ => true
  | _ => false

theorem write_stays {max : Nat} {s t : St} {i : In} (hi : i.isWritten = false) (hs : step max s i = .ok t) {r : Ref}
    (hm : .write r ∈ s.reqs) : .write r ∈ t.reqs := by
  have done : ∀ {q : Req} {u : St}, q ≠ .write r → u.reqs = s.reqs.erase q → .write r ∈ u.reqs := by
    intro q u hq h
    rw [h]
    exact (List.mem_erase_of_ne (Ne.symm hq)).2 hm
  cases i with
  | listen sys =>
    simp only [step] at hs
    split at hs
    · cases hs
      unfold callListen listenAddr
      simp only
      split
      · split <;> exact hm
      · cases sys <;> simp only <;> split <;> exact hm
    · cases hs
  | listenName ok =>
    simp only [step] at hs
    split at hs
    · cases hs
      unfold call resolve
      simp only
      split
      · exact hm
      · split
        · exact List.mem_append_left _ hm
        · exact hm
    · cases hs
  | connect sys =>
    simp only [step] at hs
    split at hs
    · cases hs
      unfold call connectAddr
      simp only
      split
      · exact hm
      · cases sys
        · exact hm
        · exact List.mem_append_left _ hm
    · cases hs
  | connectName ok =>
    simp only [step] at hs
    split at hs
    · cases hs
      unfold call resolve
      simp only
      split
      · exact hm
      · split
        · exact List.mem_append_left _ hm
        · exact hm
    · cases hs
  | badAddr =>
    simp only [step] at hs
    split at hs
    · cases hs; exact hm
    · cases hs
  | disconnect c cb ev =>
    simp only [step] at hs
    split at hs
    · rw [reqs_inner (use_ok hs)]; exact hm
    · cases hs
  | disconnectFd fd cb ev =>
    simp only [step] at hs
    split at hs
    · split at hs
      · cases hs; exact hm
      · rw [reqs_inner hs]; exact hm
    · cases hs
  | send c m ev =>
    simp only [step] at hs
    split at hs
    · have hs := use_ok hs
      unfold send at hs
      split at hs
      · cases hs; exact hm
      · exact reqs_try hs hm
    · cases hs
  | close ev =>
    simp only [step] at hs
    split at hs
    · split at hs
      · cases hs
      · cases e : disconnectAll ev { s with closing := true } (s.pool.map (·.2)) with
        | ok u =>
          rw [e] at hs; cases hs
          show _ ∈ u.reqs
          rw [reqs_all _ e]; exact hm
        | ub => rw [e] at hs; cases hs
        | abort => rw [e] at hs; cases hs
        | no => rw [e] at hs; cases hs
    · cases hs
  | ret ev => exact reqs_ret hs hm
  | resolved req res =>
    simp only [step] at hs
    split at hs
    · split at hs
      · next t' sys _ =>
        cases hs
        have : Req.write r ∈ (listenAddr (s.done (.dnsListen t')) t' sys .cbEnd).1.reqs := by
          rw [reqs_listenAddr]; exact done (by simp) rfl
        split
        · exact this
        · exact this
      · next t' sys _ =>
        cases hs
        have : Req.write r ∈ (connectAddr (s.done (.dnsConnect t')) t' sys).1.reqs :=
          reqs_connectAddr _ _ _ (done (by simp) rfl)
        split
        · exact this
        · exact this
      · cases hs; exact done (by simp) rfl
      · cases hs; exact done (by simp) rfl
      · cases hs
    · cases hs
  | connected t' fd =>
    simp only [step] at hs
    split at hs
    · split at hs
      · cases hs; exact done (q := .connect t') (by simp) rfl
      · next fd =>
        split at hs
        · cases hs; exact done (q := .connect t') (by simp) rfl
        · cases hs; exact done (q := .connect t') (by simp) rfl
    · cases hs
  | incoming l fd acc =>
    simp only [step] at hs
    split at hs
    · split at hs
      · cases hs; exact hm
      · split at hs
        · cases hs; exact hm
        · cases hs; exact hm
    · cases hs
  | closed h =>
    simp only [step] at hs
    split at hs
    · split at hs
      · cases hs; exact hm
      · split at hs
        · cases hs
        · split at hs
          · cases hs
          · cases hs; exact hm
    · cases hs
  | written c ok ev => cases hi
  | again c ev =>
    simp only [step] at hs
    split at hs
    · split at hs
      · cases hs; exact hm
      · split at hs
        · rw [reqs_inner hs]; exact hm
        · cases hs; exact hm
    · cases hs
  | readErr c force =>
    simp only [step] at hs
    split at hs
    · split at hs
      · cases hs; exact hm
      · cases hs; exact hm
    · cases hs
  | data c n free ev =>
    simp only [step] at hs
    split at hs
    · split at hs
      · cases hs; exact hm
      · split at hs
        · cases hs; exact hm
        · split at hs
          · rw [reqs_inner hs]; exact hm
          · cases hs; exact hm
    · cases hs
  | closeDone =>
    simp only [step] at hs
    split at hs
    · split at hs
      · cases hs; exact hm
      · cases hs
    · cases hs

end Verif.IoStream.Pool
