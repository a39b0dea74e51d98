import Verif.Node.Listen

/-!
C90: listening replaces no file but the socket's own, and the announced address of a unix socket leads to it.
-/
namespace Verif.Node.Listen

open Verif.Address (parse Parsed Addr prefixCI)

/-! Specification. -/

/-- Listening to the address uses the path: the scheme is not one of memory, and `p` is the file the host names. -/
def Hosts (abs : Text → Text) (t p : Text) : Prop :=
  ∃ a, parse t = .ok a ∧ prefixCI "mem".toList a.scheme = false ∧ prefixCI "shm".toList a.scheme = false ∧ p = real abs a.host

/-- The address is one of a unix socket. -/
def Unix (t : Text) : Prop :=
  ∃ a, parse t = .ok a ∧ prefixCI "unix".toList a.scheme = true

/-- A process with the working directory of `abs` that connects to the address uses the socket at `p`. -/
def Leads (abs : Text → Text) (t p : Text) : Prop :=
  ∃ a, parse t = .ok a ∧ prefixCI "unix".toList a.scheme = true ∧ p = real abs a.host

/-- The path in the address is absolute. -/
def Absolute (t : Text) : Prop := ∃ a, parse t = .ok a ∧ isAbs a.host = true

/-! Helpers. -/

theorem prefix_ne (p q s : List Char) (hl : p.take (min p.length q.length) ≠ q.take (min p.length q.length)) (h : prefixCI p s = true) :
    prefixCI q s = false := by
  cases hq : prefixCI q s with
  | false => rfl
  | true =>
    exfalso
    apply hl
    simp only [prefixCI, beq_iff_eq] at h hq
    have h1 : p.take (min p.length q.length) = (s.take (min p.length q.length)).map Char.toLower := by
      rw [← h, ← List.map_take, List.take_take, h]
      congr 2
      omega
    have h2 : q.take (min p.length q.length) = (s.take (min p.length q.length)).map Char.toLower := by
      rw [← hq, ← List.map_take, List.take_take, hq]
      congr 2
      omega
    rw [h1, h2]

theorem real_resolve (cf : Conf) (habs : ∀ p, isAbs (cf.abs p) = true) (h : Text) : real cf.abs (resolve cf h) = real cf.abs h := by
  unfold resolve
  split
  · rfl
  · rename_i hn
    split
    · simp [real, habs, hn]
    · rfl

/-- What one call does. -/
structure Did (cf : Conf) (s : S) (t : Text) (s' : S) (r : Int) : Prop where
  files : ∀ p ∈ s.files, p ∈ s'.files ∨ Hosts cf.abs t p
  removed : ∀ p ∈ s'.removed, p ∈ s.removed ∨ Hosts cf.abs t p
  old : ∀ x ∈ s.bound, x ∈ s'.bound
  bound : ∀ x ∈ s'.bound, x ∈ s.bound ∨ (x.1 = t ∧ Leads cf.abs t x.2 ∧ x.2 ∈ s'.files)
  new : 0 ≤ r → Unix t → ∃ p, (t, p) ∈ s'.bound ∧ Leads cf.abs t p
  ann : s'.announced = s.announced

theorem clear_files (cf : Conf) (e : Env) (s : S) (h : Text) : ∀ p ∈ s.files, p ∈ (clear cf e s h).files ∨ p = real cf.abs h := by
  intro p hp
  unfold clear
  simp only
  split
  · by_cases hh : p = real cf.abs h
    · exact Or.inr hh
    · left
      simp [hp, hh]
  · exact Or.inl hp

theorem clear_removed (cf : Conf) (e : Env) (s : S) (h : Text) : ∀ p ∈ (clear cf e s h).removed, p ∈ s.removed ∨ p = real cf.abs h := by
  intro p hp
  unfold clear at hp
  simp only at hp
  split at hp
  · simpa using hp
  · exact Or.inl hp

theorem clear_rest (cf : Conf) (e : Env) (s : S) (h : Text) : (clear cf e s h).bound = s.bound ∧ (clear cf e s h).announced = s.announced := by
  unfold clear
  simp only
  split <;> exact ⟨rfl, rfl⟩

/-- What `ioListen` does. -/
theorem io_did (cf : Conf) (e : Env) (t : Text) (s : S) (a : Addr) :
    (ioListen cf e t s a = (s, (ioListen cf e t s a).2) ∧ (0 ≤ (ioListen cf e t s a).2 → prefixCI "unix".toList a.scheme = false)) ∨
    (prefixCI "unix".toList a.scheme = true ∧
      (ioListen cf e t s a).1 = { s with files := s.files ++ [real cf.abs a.host], bound := s.bound ++ [(t, real cf.abs a.host)] }) := by
  unfold ioListen
  dsimp only
  split
  · exact Or.inl ⟨rfl, fun h => absurd (show (0 : Int) ≤ Err.CHANNEL_CLOSING from h) (by decide)⟩
  · split
    · rename_i hh
      have hu : prefixCI "unix".toList a.scheme = false := by
        simp only [Bool.or_eq_true] at hh
        rcases hh with hh | hh
        · exact prefix_ne _ _ _ (by decide) hh
        · exact prefix_ne _ _ _ (by decide) hh
      split
      · exact Or.inl ⟨rfl, fun _ => hu⟩
      · split
        · exact Or.inl ⟨rfl, fun _ => hu⟩
        · split
          · exact Or.inl ⟨rfl, fun _ => hu⟩
          · exact Or.inl ⟨rfl, fun _ => hu⟩
    · split
      · rename_i hu
        split
        · exact Or.inl ⟨rfl, fun h => absurd (show (0 : Int) ≤ Err.PIPE_ADDR_TOO_LONG from h) (by decide)⟩
        · split
          · exact Or.inl ⟨rfl, fun h => absurd (show (0 : Int) ≤ Err.PIPE_BIND_FAILED from h) (by decide)⟩
          · split
            · exact Or.inl ⟨rfl, fun h => absurd (show (0 : Int) ≤ Err.PIPE_LISTEN_FAILED from h) (by decide)⟩
            · split
              · exact Or.inl ⟨rfl, fun h => absurd (show (0 : Int) ≤ Err.MALLOC from h) (by decide)⟩
              · exact Or.inr ⟨hu, rfl⟩
      · rename_i hu
        have hu : prefixCI "unix".toList a.scheme = false := by simpa using hu
        split
        · split
          · exact Or.inl ⟨rfl, fun _ => hu⟩
          · exact Or.inl ⟨rfl, fun _ => hu⟩
        · exact Or.inl ⟨rfl, fun _ => hu⟩

theorem conn_did (cf : Conf) (habs : ∀ p, isAbs (cf.abs p) = true) (e : Env) (s : S) (t : Text) (s' : S) (r : Int)
    (h : connListen cf e s t = some (s', r)) : Did cf s t s' r := by
  have same : ∀ r, (0 ≤ r → ¬ Unix t) → Did cf s t s r := fun r hr =>
    ⟨fun _ h => Or.inl h, fun _ h => Or.inl h, fun _ h => h, fun _ h => Or.inl h, fun h hu => absurd hu (hr h), rfl⟩
  unfold connListen at h
  split at h
  · obtain ⟨rfl, rfl⟩ := Prod.mk.inj (Option.some.inj h)
    exact same _ (fun h => absurd h (by decide))
  · cases h
  · cases h
  · rename_i a ha
    have hne : ∀ q, prefixCI q a.scheme = true → q.take (min q.length "unix".toList.length) ≠ "unix".toList.take (min q.length "unix".toList.length) →
        ¬ Unix t := by
      intro q hq hd hu
      obtain ⟨b, hb, hbu⟩ := hu
      rw [ha] at hb
      cases hb
      have := prefix_ne q _ _ hd hq
      rw [hbu] at this
      cases this
    split at h
    · rename_i hm
      obtain ⟨rfl, rfl⟩ := Prod.mk.inj (Option.some.inj h)
      exact same _ (fun _ => hne _ hm (by decide))
    · rename_i hm
      split at h
      · rename_i hs
        obtain ⟨rfl, rfl⟩ := Prod.mk.inj (Option.some.inj h)
        exact same _ (fun _ => hne _ hs (by decide))
      · rename_i hs
        simp only [Option.some.injEq] at h
        have hm : prefixCI "mem".toList a.scheme = false := by simpa using hm
        have hs : prefixCI "shm".toList a.scheme = false := by simpa using hs
        generalize hh : (if prefixCI "unix".toList a.scheme then resolve cf a.host else a.host) = host at h
        have hreal : real cf.abs host = real cf.abs a.host := by
          rw [← hh]
          split
          · exact real_resolve cf habs _
          · rfl
        have hosts : Hosts cf.abs t (real cf.abs host) := ⟨a, ha, hm, hs, hreal⟩
        have c1 := clear_files cf e s host
        have c2 := clear_removed cf e s host
        obtain ⟨c3, c4⟩ := clear_rest cf e s host
        rcases io_did cf e t (clear cf e s host) { a with host := host } with ⟨h1, h2⟩ | ⟨h1, h2⟩
        · rw [h1] at h
          obtain ⟨rfl, rfl⟩ := Prod.mk.inj h
          refine ⟨fun p hp => (c1 p hp).imp_right (fun (h : p = _) => h ▸ hosts), fun p hp => (c2 p hp).imp_right (fun (h : p = _) => h ▸ hosts), ?_, ?_, ?_, c4⟩
          · rw [c3]; exact fun _ h => h
          · rw [c3]; exact fun _ h => Or.inl h
          · intro hr hu
            obtain ⟨b, hb, hbu⟩ := hu
            rw [ha] at hb
            cases hb
            have := h2 hr
            rw [hbu] at this
            cases this
        · rw [h] at h2
          subst h2
          have hl : Leads cf.abs t (real cf.abs host) := ⟨a, ha, h1, hreal⟩
          refine ⟨fun p hp => ?_, fun p hp => (c2 p hp).imp_right (fun (h : p = _) => h ▸ hosts), ?_, ?_, ?_, c4⟩
          · rcases c1 p hp with h | h
            · exact Or.inl (List.mem_append_left _ h)
            · exact Or.inr (h ▸ hosts)
          · simp only [c3]
            exact fun _ h => List.mem_append_left _ h
          · simp only [c3]
            intro x hx
            rcases List.mem_append.1 hx with h | h
            · exact Or.inl h
            · rw [List.mem_singleton] at h
              subst h
              exact Or.inr ⟨rfl, hl, List.mem_append_right _ (List.mem_singleton.2 rfl)⟩
          · intro _ _
            exact ⟨_, List.mem_append_right _ (List.mem_singleton.2 rfl), hl⟩

theorem listen_did (cf : Conf) (habs : ∀ p, isAbs (cf.abs p) = true) (e : Env) (s : S) (t : Text) (s' : S) (r : Int)
    (h : listen cf s t e = some (s', r)) :
    ∃ s1 r1, Did cf s t s1 r1 ∧ s'.files = s1.files ∧ s'.removed = s1.removed ∧ s'.bound = s1.bound ∧
      (∀ x ∈ s'.announced, x ∈ s.announced ∨ (x = t ∧ 0 ≤ r1)) := by
  unfold listen at h
  split at h
  · cases h
  · rename_i s1 r1 hc
    have hd := conn_did cf habs e s t s1 r1 hc
    refine ⟨s1, r1, hd, ?_⟩
    have ha := hd.ann
    split at h
    · obtain ⟨rfl, rfl⟩ := Prod.mk.inj (Option.some.inj h)
      exact ⟨rfl, rfl, rfl, fun x hx => Or.inl (ha ▸ hx)⟩
    · rename_i hr
      split at h
      · obtain ⟨rfl, rfl⟩ := Prod.mk.inj (Option.some.inj h)
        exact ⟨rfl, rfl, rfl, fun x hx => Or.inl (ha ▸ hx)⟩
      · obtain ⟨rfl, rfl⟩ := Prod.mk.inj (Option.some.inj h)
        refine ⟨rfl, rfl, rfl, ?_⟩
        simp only [ha]
        split
        · exact fun x hx => Or.inl hx
        · intro x hx
          rcases List.mem_append.1 hx with h | h
          · exact Or.inl h
          · exact Or.inr ⟨List.mem_singleton.1 h, by omega⟩

/-- C90 (files), partial: whatever is listened to, a file that no address names stays, and every file that was removed is named by an
address.  Missing: that the address is one of a unix socket (`C90_remove_false`). -/
theorem C90_others_partial (cf : Conf) (habs : ∀ p, isAbs (cf.abs p) = true) (cs : List (Text × Env)) :
    ∀ (s s' : S), run cf s cs = some s' →
      (∀ p ∈ s.files, (∀ c ∈ cs, ¬ Hosts cf.abs c.1 p) → p ∈ s'.files) ∧
      (∀ p ∈ s'.removed, p ∈ s.removed ∨ ∃ c ∈ cs, Hosts cf.abs c.1 p) := by
  induction cs with
  | nil => intro s s' h; cases h; exact ⟨fun _ h _ => h, fun _ h => Or.inl h⟩
  | cons c cs ih =>
    intro s s' h
    obtain ⟨t, e⟩ := c
    simp only [run] at h
    split at h
    · cases h
    · rename_i s1 r1 hl
      obtain ⟨s2, r2, hd, e1, e2, _, _⟩ := listen_did cf habs e s t s1 r1 hl
      obtain ⟨i1, i2⟩ := ih s1 s' h
      constructor
      · intro p hp hn
        rcases hd.files p hp with h | h
        · exact i1 p (e1 ▸ h) (fun c hc => hn c (List.mem_cons_of_mem _ hc))
        · exact absurd h (hn _ List.mem_cons_self)
      · intro p hp
        rcases i2 p hp with h | ⟨c, hc, h⟩
        · rw [e2] at h
          rcases hd.removed p h with h | h
          · exact Or.inl h
          · exact Or.inr ⟨_, List.mem_cons_self, h⟩
        · exact Or.inr ⟨c, List.mem_cons_of_mem _ hc, h⟩

/-- C90 (addresses), partial: after any calls every announced address of a unix socket leads this process to a socket that was opened for
it, and leads every process to it if its path is absolute.  Missing: relative paths (`C90_relative_false`). -/
theorem C90_leads_partial (cf : Conf) (habs : ∀ p, isAbs (cf.abs p) = true) (files : List Text) (cs : List (Text × Env)) (s : S)
    (h : run cf { files := files } cs = some s) :
    ∀ t ∈ s.announced, Unix t → ∃ p, (t, p) ∈ s.bound ∧ Leads cf.abs t p ∧ (Absolute t → ∀ abs, Leads abs t p) := by
  have key : ∀ (cs : List (Text × Env)) (s0 s : S), (∀ t ∈ s0.announced, Unix t → ∃ p, (t, p) ∈ s0.bound ∧ Leads cf.abs t p) →
      run cf s0 cs = some s → ∀ t ∈ s.announced, Unix t → ∃ p, (t, p) ∈ s.bound ∧ Leads cf.abs t p := by
    intro cs
    induction cs with
    | nil => intro s0 s h0 h; cases h; exact h0
    | cons c cs ih =>
      intro s0 s h0 h
      obtain ⟨t, e⟩ := c
      simp only [run] at h
      split at h
      · cases h
      · rename_i s1 r1 hl
        obtain ⟨s2, r2, hd, e1, e2, e3, e4⟩ := listen_did cf habs e s0 t s1 r1 hl
        refine ih s1 s ?_ h
        intro x hx hu
        rcases e4 x hx with h | ⟨rfl, h⟩
        · obtain ⟨p, hp, hle⟩ := h0 x h hu
          exact ⟨p, e3 ▸ hd.old _ hp, hle⟩
        · rw [e3]
          exact hd.new h hu
  intro t ht hu
  obtain ⟨p, hp, hl⟩ := key cs _ s (by nofun) h t ht hu
  refine ⟨p, hp, hl, fun ⟨a, ha, hab⟩ abs => ?_⟩
  obtain ⟨b, hb, hbu, hbp⟩ := hl
  rw [ha] at hb
  cases hb
  exact ⟨a, ha, hbu, by rw [hbp]; simp [real, hab]⟩

/-- C90 (sockets), partial: if no two calls name the same file, the file of every socket that was opened is there after all of them.  Missing:
calls with the same path (`C90_taken_false`). -/
theorem C90_serves_partial (cf : Conf) (habs : ∀ p, isAbs (cf.abs p) = true) (files : List Text) (cs : List (Text × Env)) (s : S)
    (hp : cs.Pairwise fun c d => ∀ p, Hosts cf.abs c.1 p → ¬ Hosts cf.abs d.1 p) (h : run cf { files := files } cs = some s) :
    ∀ x ∈ s.bound, x.2 ∈ s.files ∧ Leads cf.abs x.1 x.2 := by
  have key : ∀ (cs : List (Text × Env)) (s0 s : S), cs.Pairwise (fun c d => ∀ p, Hosts cf.abs c.1 p → ¬ Hosts cf.abs d.1 p) →
      (∀ x ∈ s0.bound, x.2 ∈ s0.files ∧ Leads cf.abs x.1 x.2 ∧ ∀ c ∈ cs, ¬ Hosts cf.abs c.1 x.2) →
      run cf s0 cs = some s → ∀ x ∈ s.bound, x.2 ∈ s.files ∧ Leads cf.abs x.1 x.2 := by
    intro cs
    induction cs with
    | nil => intro s0 s _ h0 h; cases h; exact fun x hx => ⟨(h0 x hx).1, (h0 x hx).2.1⟩
    | cons c cs ih =>
      intro s0 s hpw h0 h
      obtain ⟨t, e⟩ := c
      simp only [run] at h
      split at h
      · cases h
      · rename_i s1 r1 hl
        obtain ⟨s2, r2, hd, e1, e2, e3, e4⟩ := listen_did cf habs e s0 t s1 r1 hl
        obtain ⟨p1, p2⟩ := List.pairwise_cons.1 hpw
        refine ih s1 s p2 ?_ h
        intro x hx
        rw [e3] at hx
        rcases hd.bound x hx with hx | ⟨hxt, hxl, hxf⟩
        · obtain ⟨a1, a2, a3⟩ := h0 x hx
          refine ⟨?_, a2, fun c hc => a3 c (List.mem_cons_of_mem _ hc)⟩
          rcases hd.files _ a1 with h | h
          · exact e1 ▸ h
          · exact absurd h (a3 _ List.mem_cons_self)
        · refine ⟨e1 ▸ hxf, hxt ▸ hxl, fun c hc => ?_⟩
          obtain ⟨a, ha, hu, hpa⟩ := hxl
          exact p1 c hc _ ⟨a, ha, prefix_ne _ _ _ (by decide) hu, prefix_ne _ _ _ (by decide) hu, hpa⟩
  exact key cs _ s hp (by nofun) h

/-- C90 (length), partial: a path that fits into the address of a socket can be listened to, if the system refuses nothing, unless its
absolute form has exactly the greatest length (`C90_length_false`). -/
theorem C90_fits_partial (cf : Conf) (s : S) (e : Env) (t : Text) (a : Addr) (ha : parse t = .ok a)
    (hu : prefixCI "unix".toList a.scheme = true) (hl : a.host.length < cf.max) (hx : isAbs a.host = true ∨ (cf.abs a.host).length ≠ cf.max)
    (he : e.remove = true ∧ e.closing = false ∧ e.bind = true ∧ e.sys = true ∧ e.fileno = true ∧ e.add = true) :
    ∃ s', listen cf s t e = some (s', Err.SUCCESS) := by
  obtain ⟨e1, e2, e3, e4, e5, e6⟩ := he
  have hne : ∀ q, "unix".toList.take (min "unix".toList.length q.length) ≠ q.take (min "unix".toList.length q.length) →
      prefixCI q a.scheme = false := fun q hq => prefix_ne _ _ _ hq hu
  have m1 := hne "mem".toList (by decide)
  have m2 := hne "shm".toList (by decide)
  have m3 := hne "ipv4".toList (by decide)
  have m4 := hne "ipv6".toList (by decide)
  have hlen : (resolve cf a.host).length < cf.max := by
    unfold resolve
    split
    · exact hl
    · rename_i hn
      split
      · rcases hx with hx | hx
        · exact absurd hx hn
        · omega
      · exact hl
  have hfree : real cf.abs (resolve cf a.host) ∉ (clear cf e s (resolve cf a.host)).files := by
    unfold clear
    simp only [e1]
    split
    · simp
    · rename_i h
      simpa using h
  have hc : ∃ s', connListen cf e s t = some (s', Err.SUCCESS) := by
    simp only [connListen, ha, m1, m2, hu, if_true, Bool.false_eq_true, if_false, ioListen, e2, m3, m4, Bool.or_self]
    rw [if_neg (by omega)]
    simp only [e3, e4, e5, Bool.not_true, Bool.false_eq_true, or_false, if_false, hfree]
    exact ⟨_, rfl⟩
  obtain ⟨s', hs'⟩ := hc
  unfold listen
  rw [hs']
  simp only [Err.SUCCESS, e6]
  exact ⟨_, rfl⟩

/-- `get_abs_path` in the directory `/run`, and in `/tmp`. -/
def runAbs (p : Text) : Text := "/run/".toList ++ p

def tmpAbs (p : Text) : Text := "/tmp/".toList ++ p

/-- Linux, working directory `/run`. -/
def exCf : Conf := { abs := runAbs, max := 108, shm := true }

/-- C90 (files) is false for other schemes: listening to a port of the host `data` removes the file `data` of the working directory, and so
does a call that is refused because nothing knows its scheme. -/
theorem C90_remove_false :
    ∃ (cf : Conf) (s : S) (t t' : Text), (∀ p, isAbs (cf.abs p) = true) ∧ ¬ Unix t ∧ ¬ Unix t' ∧
      (∃ s1, listen cf s t {} = some (s1, Err.SUCCESS) ∧ s1.removed = ["/run/data".toList] ∧ s.files = ["/run/data".toList] ∧ s1.files = []) ∧
      (∃ s1, listen cf s t' {} = some (s1, Err.CHANNEL_NOT_SUPPORT) ∧ s1.removed = ["/run/data".toList] ∧ s1.files = []) := by
  refine ⟨exCf, { files := ["/run/data".toList] }, "dns://data:80".toList, "file:///run/data".toList, fun _ => rfl, ?_, ?_, ⟨_, rfl, ?_, rfl, ?_⟩, ⟨_, rfl, ?_, ?_⟩⟩
  · intro ⟨a, ha, hu⟩
    have : parse "dns://data:80".toList = .ok ⟨"dns".toList, "data".toList, 80⟩ := by decide +kernel
    rw [this] at ha
    cases ha
    exact absurd hu (by decide +kernel)
  · intro ⟨a, ha, hu⟩
    have : parse "file:///run/data".toList = .ok ⟨"file".toList, "/run/data".toList, 0⟩ := by decide +kernel
    rw [this] at ha
    cases ha
    exact absurd hu (by decide +kernel)
  all_goals decide +kernel

/-- C90 (addresses) is false for a relative path: the path is made absolute for the socket but not in the text that is announced, so a process
with another working directory looks for another file. -/
theorem C90_relative_false :
    ∃ (cf : Conf) (t p : Text) (s : S), (∀ p, isAbs (cf.abs p) = true) ∧ run cf {} [(t, {})] = some s ∧ s.announced = [t] ∧
      s.bound = [(t, p)] ∧ s.files = [p] ∧ Leads cf.abs t p ∧ ¬ Leads tmpAbs t p := by
  have hp : parse "unix://bus.sock".toList = .ok ⟨"unix".toList, "bus.sock".toList, 0⟩ := by decide +kernel
  refine ⟨exCf, "unix://bus.sock".toList, "/run/bus.sock".toList, _, fun _ => rfl, rfl, ?_, ?_, ?_, ⟨_, hp, ?_, ?_⟩, ?_⟩
  · decide +kernel
  · decide +kernel
  · decide +kernel
  · decide +kernel
  · decide +kernel
  · intro ⟨a, ha, _, h⟩
    rw [hp] at ha
    cases ha
    exact absurd h (by decide +kernel)

/-- C90 (sockets) is false for calls with the same path: the second call takes the name away from the first socket, and if it is refused
(here because its scheme is unknown) the announced address of the first leads nowhere. -/
theorem C90_taken_false :
    ∃ (cf : Conf) (t t' : Text) (s1 s2 s3 : S), (∀ p, isAbs (cf.abs p) = true) ∧ listen cf {} t {} = some (s1, Err.SUCCESS) ∧
      (listen cf s1 t {} = some (s2, Err.SUCCESS) ∧ s2.announced = [t, t]) ∧
      (listen cf s1 t' {} = some (s3, Err.CHANNEL_NOT_SUPPORT) ∧ s3.announced = [t] ∧ s3.bound = [(t, "/run/bus.sock".toList)] ∧ s3.files = []) := by
  refine ⟨exCf, "unix:///run/bus.sock".toList, "pipe:///run/bus.sock".toList, _, _, _, fun _ => rfl, rfl, ⟨rfl, ?_⟩, ⟨rfl, ?_, ?_, ?_⟩⟩
  all_goals decide +kernel

/-- C90 (length) is false if the absolute form has exactly the greatest length: it is used, and then refused as too long, though the path as
given would fit.  (Here with a greatest length of 13 in place of 108.) -/
theorem C90_length_false :
    ∃ (cf : Conf) (t : Text) (a : Addr) (s : S), (∀ p, isAbs (cf.abs p) = true) ∧ parse t = .ok a ∧ prefixCI "unix".toList a.scheme = true ∧
      a.host.length < cf.max ∧ listen cf {} t {} = some (s, Err.PIPE_ADDR_TOO_LONG) := by
  refine ⟨{ abs := runAbs, max := 13, shm := true }, "unix://bus.sock".toList, ⟨"unix".toList, "bus.sock".toList, 0⟩, _, fun _ => rfl, ?_, ?_, ?_, rfl⟩
  all_goals decide +kernel

/-- A stale socket is replaced, another file stays, a memory channel touches nothing, an absolute path serves everyone. -/
example : (run exCf { files := ["/run/a".toList, "/run/b".toList, "/run/16".toList] }
      [("unix://a".toList, {}), ("mem://16".toList, {}), ("ipv4://0.0.0.0:80".toList, {}), ("unix:///run/c".toList, {}), ("unix:///run/b".toList, { remove := false })]).map
      (fun s => (s.files, s.announced, s.removed)) =
    some (["/run/b".toList, "/run/16".toList, "/run/a".toList, "/run/c".toList],
      ["unix://a".toList, "mem://16".toList, "ipv4://0.0.0.0:80".toList, "unix:///run/c".toList], ["/run/a".toList]) := by decide +kernel

/-- A path whose absolute form is too long is used as it is. -/
example : resolve { abs := runAbs, max := 12, shm := true } "bus.sock".toList = "bus.sock".toList ∧ resolve exCf "bus.sock".toList = "/run/bus.sock".toList := by
  decide +kernel

end Verif.Node.Listen
