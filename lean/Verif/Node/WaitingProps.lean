import Verif.Node.Waiting

/-! C74: every unfinished connection is reported once or finished, and the list is never used through an iterator that is not valid. -/
namespace Verif.Node.Waiting

/-! ### What is expected of the application -/

/-- The frame holds the iterator of the entry of connection `c` while the application runs. -/
def Frame.holds (s : S) (c : Nat) : Frame → Bool
  | .inv d => d == c
  | .err _ a => s.chk c == some a
  | _ => false

/-- The frame is the error callback of `proc` for the entry of connection `c`. -/
def Frame.errs (s : S) (c : Nat) : Frame → Bool
  | .err _ a => s.chk c == some a
  | _ => false

/-- In the callback for an unfinished connection. -/
def Frame.hot : Frame → Bool
  | .inv _ => true
  | .err _ _ => true
  | _ => false

/-- What a polite application does not do: in the callbacks for an unfinished connection it does not call `proc` or `node::reset`
(except where these do nothing because they are running), nothing makes this connection finish, and in the error callback it is
not reset.  Addresses of list nodes are not used again. -/
def polite (s : S) : Op → Bool
  | .new a _ => !s.used.contains a
  | .done c => !s.stack.any (Frame.holds s c)
  | .reset c => !s.stack.any (Frame.errs s c)
  | .proc _ => s.inProc || !s.on || !s.stack.any Frame.hot
  | .nodeReset => s.inReset || !s.stack.any Frame.hot
  | _ => true

/-- The application is polite in the whole run. -/
def Polite : S → List Act → Prop
  | _, [] => True
  | s, .go :: acts => Polite (step s .go) acts
  | s, .app op :: acts => polite s op = true ∧ Polite (step s (.app op)) acts

/-! ### The invariant -/

/-- The connection a frame is resetting. -/
def Frame.who : Frame → Option Nat
  | .inv c => some c
  | .close c => some c
  | _ => none

/-- A loop over the list runs only where nobody else holds an entry. -/
def Frame.needs : Frame → Bool
  | .loop _ => true
  | .err _ _ => true
  | .after _ _ => true
  | .prot _ _ => true
  | .nloop => true
  | .nafter _ => true
  | _ => false

def Cold (k : List Frame) : Prop := ∀ f ∈ k, f.hot = false

def Sane : List Frame → Prop
  | [] => True
  | f :: k => (f.needs = true → Cold k) ∧ Sane k

structure Inv (s : S) : Prop where
  ub : s.ub = false
  addr : (s.list.map Prod.fst).Nodup
  mem : ∀ a c, (a, c) ∈ s.list ↔ s.chk c = some a
  lt : ∀ c a, s.chk c = some a → c < s.n
  use : ∀ c a, s.chk c = some a → a ∈ s.used
  down : ∀ c a, s.chk c = some a → s.up c = false
  sane : Sane s.stack
  nd : (s.stack.filterMap Frame.who).Nodup
  busy : ∀ c, s.busy c = true ↔ .inv c ∈ s.stack ∨ .close c ∈ s.stack
  inv : ∀ c, .inv c ∈ s.stack → s.chk c ≠ none
  close : ∀ c, .close c ∈ s.stack → s.chk c = none
  err : ∀ sec a, .err sec a ∈ s.stack → ∃ c, s.chk c = some a ∧ s.busy c = false
  after : ∀ sec a, .after sec a ∈ s.stack → a ∈ s.used ∧ ∀ c, s.chk c = some a → .inv c ∈ s.stack
  nafter : ∀ a, .nafter a ∈ s.stack → a ∈ s.used ∧ ∀ c, s.chk c = some a → .inv c ∈ s.stack
  prot : ∀ sec a, .prot sec a ∉ s.stack
  /-- the account of a connection -/
  fresh : ∀ c, s.n ≤ c → s.log.count (.listed c) = 0 ∧ s.log.count (.finished c) = 0 ∧ s.log.count (.invalid c) = 0
  wait : ∀ c, s.chk c ≠ none → .inv c ∉ s.stack → s.log.count (.listed c) = 1 ∧ s.log.count (.finished c) = 0 ∧ s.log.count (.invalid c) = 0
  told : ∀ c, .inv c ∈ s.stack → s.log.count (.listed c) = 1 ∧ s.log.count (.finished c) = 0 ∧ s.log.count (.invalid c) = 1
  ltb : ∀ c, s.busy c = true → c < s.n
  ltu : ∀ c, s.up c = true → c < s.n
  gone : ∀ c, s.chk c = none → s.log.count (.listed c) ≤ 1 ∧ s.log.count (.finished c) + s.log.count (.invalid c) = s.log.count (.listed c)

theorem entry_mem {s : S} {a c : Nat} (h : s.entry a = some c) : (a, c) ∈ s.list := by
  unfold S.entry at h
  simp only [Option.map_eq_some_iff] at h
  obtain ⟨⟨a', c'⟩, h1, h2⟩ := h
  have h3 := List.mem_of_find?_eq_some h1
  have h4 := List.find?_some h1
  simp only [beq_iff_eq] at h4 h2
  subst h4 h2
  exact h3

theorem Inv.entry {s : S} (h : Inv s) {a c : Nat} (hc : s.chk c = some a) : s.entry a = some c := by
  have hm := (h.mem a c).2 hc
  cases he : s.entry a with
  | none =>
    unfold S.entry at he
    simp only [Option.map_eq_none_iff, List.find?_eq_none, beq_iff_eq] at he
    exact absurd rfl (he _ hm)
  | some d =>
    have hd := entry_mem he
    have : ∀ (l : List (Nat × Nat)), (l.map Prod.fst).Nodup → (a, c) ∈ l → (a, d) ∈ l → d = c := by
      intro l
      induction l with
      | nil => intro _ h; cases h
      | cons e l ih =>
        intro hn h1 h2
        simp only [List.map_cons, List.nodup_cons, List.mem_map, Prod.exists, exists_and_right, exists_eq_right, not_exists] at hn
        simp only [List.mem_cons] at h1 h2
        rcases h1 with h1 | h1 <;> rcases h2 with h2 | h2
        · rw [← h1] at h2; exact (Prod.mk.inj h2).2
        · rw [← h1] at hn; exact absurd h2 (hn.1 d)
        · rw [← h2] at hn; exact absurd h1 (hn.1 c)
        · exact ih hn.2 h1 h2
    rw [this s.list h.addr hm hd]

theorem Inv.chkInj {s : S} (h : Inv s) {a c d : Nat} (hc : s.chk c = some a) (hd : s.chk d = some a) : c = d := by
  have h1 := h.entry hc
  have h2 := h.entry hd
  rw [h1] at h2
  exact Option.some.inj h2

theorem erase_eq {s : S} {a c : Nat} (h : s.entry a = some c) : s.erase a = { s with list := s.list.filter fun e => e.1 != a } := by
  unfold S.erase
  rw [h, if_neg (by simp)]

theorem upd_same {α : Type} (f : Nat → α) (k : Nat) (v : α) : upd f k v k = v := by simp [upd]
theorem upd_other {α : Type} (f : Nat → α) {k x : Nat} (v : α) (h : x ≠ k) : upd f k v x = f x := by simp [upd, h]

theorem upd_none {f : Nat → Option Nat} {k c a : Nat} : upd f k none c = some a ↔ c ≠ k ∧ f c = some a := by
  unfold upd
  split <;> simp_all

theorem filter_addr {l : List (Nat × Nat)} (a : Nat) (h : (l.map Prod.fst).Nodup) : ((l.filter fun e => e.1 != a).map Prod.fst).Nodup :=
  h.sublist (List.filter_sublist.map _)

/-- The entry of connection `c` is taken off. -/
theorem Inv.mem_erase {s : S} (h : Inv s) {a c : Nat} (hc : s.chk c = some a) (b d : Nat) :
    (b, d) ∈ (s.list.filter fun e => e.1 != a) ↔ upd s.chk c none d = some b := by
  rw [List.mem_filter, h.mem, upd_none]
  simp only [bne_iff_ne, ne_eq]
  constructor
  · rintro ⟨h1, h2⟩
    refine ⟨?_, h1⟩
    rintro rfl
    rw [hc] at h1
    exact h2 (Option.some.inj h1).symm
  · rintro ⟨h1, h2⟩
    refine ⟨h2, ?_⟩
    rintro rfl
    exact h1 (h.chkInj h2 hc)

theorem count_snoc (l : List Ev) (e f : Ev) : (l ++ [e]).count f = l.count f + if f = e then 1 else 0 := by
  rw [List.count_append]
  congr 1
  by_cases h : f = e
  · subst h; simp
  · rw [if_neg h]; simp [List.count_cons]; exact fun h' => h h'.symm

theorem cold_not {k : List Frame} (h : Cold k) : (∀ c, .inv c ∉ k) ∧ ∀ sec a, .err sec a ∉ k :=
  ⟨fun _ hm => absurd (h _ hm) (by simp [Frame.hot]), fun _ _ hm => absurd (h _ hm) (by simp [Frame.hot])⟩

theorem who_mem {k : List Frame} {c : Nat} : c ∈ k.filterMap Frame.who ↔ .inv c ∈ k ∨ .close c ∈ k := by
  rw [List.mem_filterMap]
  constructor
  · rintro ⟨f, h1, h2⟩
    cases f <;> simp only [Frame.who, Option.some.injEq, reduceCtorEq] at h2
    · subst h2; exact .inl h1
    · subst h2; exact .inr h1
  · rintro (h | h)
    · exact ⟨_, h, rfl⟩
    · exact ⟨_, h, rfl⟩

/-- The frame on top of which a reset is started: nothing, or the loop that waits for it. -/
def Under (s : S) (c : Nat) (k k' : List Frame) : Prop :=
  k' = k ∨ ∃ a, s.chk c = some a ∧ s.busy c = false ∧ Cold k ∧ ((∃ sec, k' = .after sec a :: k) ∨ k' = .nafter a :: k)

theorem Under.mem {s : S} {c : Nat} {k k' : List Frame} (h : Under s c k k') {f : Frame} (hf : f ∈ k) : f ∈ k' := by
  rcases h with rfl | ⟨a, -, -, -, ⟨sec, rfl⟩ | rfl⟩
  · exact hf
  · exact List.mem_cons_of_mem _ hf
  · exact List.mem_cons_of_mem _ hf

theorem Under.inv {s : S} {c : Nat} {k k' : List Frame} (h : Under s c k k') {f : Frame} (hf : f ∈ k') :
    f ∈ k ∨ ∃ a, s.chk c = some a ∧ s.busy c = false ∧ ((∃ sec, f = .after sec a) ∨ f = .nafter a) := by
  rcases h with rfl | ⟨a, h1, h2, -, ⟨sec, rfl⟩ | rfl⟩
  · exact .inl hf
  · simp only [List.mem_cons] at hf
    rcases hf with hf | hf
    · exact .inr ⟨a, h1, h2, .inl ⟨sec, hf⟩⟩
    · exact .inl hf
  · simp only [List.mem_cons] at hf
    rcases hf with hf | hf
    · exact .inr ⟨a, h1, h2, .inr hf⟩
    · exact .inl hf

theorem Under.who {s : S} {c : Nat} {k k' : List Frame} (h : Under s c k k') : k'.filterMap Frame.who = k.filterMap Frame.who := by
  rcases h with rfl | ⟨a, h1, h2, -, ⟨sec, rfl⟩ | rfl⟩
  · rfl
  · rw [List.filterMap_cons]; rfl
  · rw [List.filterMap_cons]; rfl

theorem Under.sane {s : S} {c : Nat} {k k' : List Frame} (h : Under s c k k') (hk : Sane k) : Sane k' := by
  rcases h with rfl | ⟨a, h1, h2, h3, ⟨sec, rfl⟩ | rfl⟩
  · exact hk
  · exact ⟨fun _ => h3, hk⟩
  · exact ⟨fun _ => h3, hk⟩

/-- Starting the reset of a connection that no error callback is for. -/
theorem inv_startReset {s : S} {c : Nat} {k k' : List Frame} (h : Inv { s with stack := k }) (hu : Under s c k k')
    (hlt : c < s.n) (he : ∀ sec a, .err sec a ∈ k → s.chk c ≠ some a) : Inv (startReset s c k') := by
  unfold startReset
  split
  · rename_i hb
    rcases hu with rfl | ⟨a, -, h2, -⟩
    · exact h
    · rw [hb] at h2; cases h2
  · rename_i hb
    have hb : s.busy c = false := by simpa using hb
    have hnew : Frame.inv c ∉ k ∧ Frame.close c ∉ k := by
      have := h.busy c
      simp only [hb, Bool.false_eq_true, false_iff, not_or] at this
      exact this
    have hnew' : Frame.inv c ∉ k' ∧ Frame.close c ∉ k' := by
      constructor
      · intro hm
        rcases hu.inv hm with h1 | ⟨a, -, -, ⟨sec, h1⟩ | h1⟩
        · exact hnew.1 h1
        · cases h1
        · cases h1
      · intro hm
        rcases hu.inv hm with h1 | ⟨a, -, -, ⟨sec, h1⟩ | h1⟩
        · exact hnew.2 h1
        · cases h1
        · cases h1
    have hltb : ∀ d, upd s.busy c true d = true → d < s.n := by
      intro d hd
      by_cases hd' : d = c
      · rw [hd']; exact hlt
      · rw [upd_other _ _ hd'] at hd; exact h.ltb d hd
    have hwho : c ∉ k'.filterMap Frame.who := by
      rw [who_mem]; rintro (h1 | h1)
      · exact hnew'.1 h1
      · exact hnew'.2 h1
    have hbusy : ∀ d (P : Prop), (P ↔ d = c) → (upd s.busy c true d = true ↔ P ∨ .inv d ∈ k ∨ .close d ∈ k) := by
      intro d P hP
      by_cases hd : d = c
      · subst hd; rw [upd_same]; simp only [true_iff]; exact .inl (hP.2 rfl)
      · rw [upd_other _ _ hd, h.busy d]
        constructor
        · exact .inr
        · rintro (hp | hp)
          · exact absurd (hP.1 hp) hd
          · exact hp
    have hkk : ∀ d, (Frame.inv d ∈ k' ↔ Frame.inv d ∈ k) ∧ (Frame.close d ∈ k' ↔ Frame.close d ∈ k) := by
      intro d
      refine ⟨⟨fun hm => ?_, hu.mem⟩, ⟨fun hm => ?_, hu.mem⟩⟩
      · rcases hu.inv hm with h1 | ⟨a, -, -, ⟨sec, h1⟩ | h1⟩
        · exact h1
        · cases h1
        · cases h1
      · rcases hu.inv hm with h1 | ⟨a, -, -, ⟨sec, h1⟩ | h1⟩
        · exact h1
        · cases h1
        · cases h1
    have herr : ∀ sec a, Frame.err sec a ∈ k' → Frame.err sec a ∈ k := by
      intro sec a hm
      rcases hu.inv hm with h1 | ⟨b, -, -, ⟨sec, h1⟩ | h1⟩
      · exact h1
      · cases h1
      · cases h1
    have hprot : ∀ sec a, Frame.prot sec a ∉ k' := by
      intro sec a hm
      rcases hu.inv hm with h1 | ⟨b, -, -, ⟨sec, h1⟩ | h1⟩
      · exact h.prot sec a h1
      · cases h1
      · cases h1
    simp only
    cases hc : s.chk c with
    | none =>
      have hu' : k' = k := by
        rcases hu with h1 | ⟨a, h1, -⟩
        · exact h1
        · rw [hc] at h1; cases h1
      subst hu'
      constructor
      · exact h.ub
      · exact h.addr
      · exact h.mem
      · exact h.lt
      · exact h.use
      · exact h.down
      · exact ⟨(fun hn => by cases hn), h.sane⟩
      · show ((Frame.close c :: k').filterMap Frame.who).Nodup
        rw [List.filterMap_cons]
        simp only [Frame.who]
        exact List.nodup_cons.2 ⟨hwho, h.nd⟩
      · intro d
        show upd s.busy c true d = true ↔ _
        rw [hbusy d (d = c) Iff.rfl]
        simp only [List.mem_cons, reduceCtorEq, false_or, Frame.close.injEq]
        constructor
        · rintro (h1 | h1 | h1)
          · exact .inr (.inl h1)
          · exact .inl h1
          · exact .inr (.inr h1)
        · rintro (h1 | h1 | h1)
          · exact .inr (.inl h1)
          · exact .inl h1
          · exact .inr (.inr h1)
      · intro d hd; exact h.inv d (by simpa using hd)
      · intro d hd
        simp only [List.mem_cons, Frame.close.injEq] at hd
        rcases hd with rfl | hd
        · exact hc
        · exact h.close d hd
      · intro sec a hd
        have he' : Frame.err sec a ∈ k' := by simpa using hd
        obtain ⟨d, h1, h2⟩ := h.err sec a he'
        refine ⟨d, h1, ?_⟩
        have hne : d ≠ c := by
          rintro rfl
          exact he sec a he' h1
        show upd s.busy c true d = false
        rw [upd_other _ _ hne]; exact h2
      · intro sec a hd
        obtain ⟨h1, h2⟩ := h.after sec a (by simpa using hd)
        exact ⟨h1, fun d hd => List.mem_cons_of_mem _ (h2 d hd)⟩
      · intro a hd
        obtain ⟨h1, h2⟩ := h.nafter a (by simpa using hd)
        exact ⟨h1, fun d hd => List.mem_cons_of_mem _ (h2 d hd)⟩
      · intro sec a hd; exact h.prot sec a (by simpa using hd)
      · exact h.fresh
      · intro d h1 h2; exact h.wait d h1 (fun hm => h2 (List.mem_cons_of_mem _ hm))
      · intro d hd; exact h.told d (by simpa using hd)
      · exact hltb
      · exact h.ltu
      · exact h.gone
    | some a =>
      have hent : S.entry { s with busy := upd s.busy c true } a = some c := h.entry hc
      have hupc : s.up c = false := h.down c a hc
      simp only [hent, hupc, Bool.false_eq_true, if_false]
      have hmemc : ∀ (f : Frame), (f ∈ Frame.inv c :: k') ↔ f = .inv c ∨ f ∈ k' := fun f => List.mem_cons
      constructor
      · exact h.ub
      · exact h.addr
      · exact h.mem
      · exact h.lt
      · exact h.use
      · exact h.down
      · exact ⟨(fun hn => by cases hn), hu.sane h.sane⟩
      · show ((Frame.inv c :: k').filterMap Frame.who).Nodup
        rw [List.filterMap_cons]
        simp only [Frame.who]
        refine List.nodup_cons.2 ⟨hwho, ?_⟩
        rw [hu.who]; exact h.nd
      · intro d
        show upd s.busy c true d = true ↔ _
        rw [hbusy d (d = c) Iff.rfl]
        simp only [List.mem_cons, reduceCtorEq, false_or, Frame.inv.injEq, (hkk d).1, (hkk d).2]
        constructor
        · rintro (h1 | h1 | h1)
          · exact .inl (.inl h1)
          · exact .inl (.inr h1)
          · exact .inr h1
        · rintro ((h1 | h1) | h1)
          · exact .inl h1
          · exact .inr (.inl h1)
          · exact .inr (.inr h1)
      · intro d hd
        simp only [List.mem_cons, Frame.inv.injEq] at hd
        rcases hd with rfl | hd
        · show s.chk d ≠ none
          rw [hc]; simp
        · exact h.inv d ((hkk d).1.1 hd)
      · intro d hd
        exact h.close d ((hkk d).2.1 (by simpa using hd))
      · intro sec b hd
        have he' := herr sec b (by simpa using hd)
        obtain ⟨d, h1, h2⟩ := h.err sec b he'
        refine ⟨d, h1, ?_⟩
        have hne : d ≠ c := by
          rintro rfl
          exact he sec b he' h1
        show upd s.busy c true d = false
        rw [upd_other _ _ hne]; exact h2
      · intro sec b hd
        have hd : Frame.after sec b ∈ k' := by simpa using hd
        rcases hu.inv hd with h1 | ⟨a', h1, -, ⟨sec', h2⟩ | h2⟩
        · obtain ⟨h2, h3⟩ := h.after sec b h1
          exact ⟨h2, fun d hd => List.mem_cons_of_mem _ (hu.mem (h3 d hd))⟩
        · cases h2
          refine ⟨h.use c b h1, fun d hd => ?_⟩
          rw [h.chkInj (show S.chk { s with stack := k } d = some b from hd) (show S.chk { s with stack := k } c = some b from h1)]
          exact List.mem_cons_self
        · cases h2
      · intro b hd
        have hd : Frame.nafter b ∈ k' := by simpa using hd
        rcases hu.inv hd with h1 | ⟨a', h1, -, ⟨sec', h2⟩ | h2⟩
        · obtain ⟨h2, h3⟩ := h.nafter b h1
          exact ⟨h2, fun d hd => List.mem_cons_of_mem _ (hu.mem (h3 d hd))⟩
        · cases h2
        · cases h2
          refine ⟨h.use c b h1, fun d hd => ?_⟩
          rw [h.chkInj (show S.chk { s with stack := k } d = some b from hd) (show S.chk { s with stack := k } c = some b from h1)]
          exact List.mem_cons_self
      · intro sec b hd; exact hprot sec b (by simpa using hd)
      · intro d hd
        have hne : d ≠ c := by have := h.lt c a hc; have hd : s.n ≤ d := hd; rintro rfl; exact absurd this (Nat.not_lt.2 hd)
        have := h.fresh d hd
        simp only [count_snoc, reduceCtorEq, if_false, Ev.invalid.injEq, hne, Nat.add_zero]
        exact this
      · intro d h1 h2
        have hne : d ≠ c := by rintro rfl; exact h2 List.mem_cons_self
        have := h.wait d h1 (fun hm => h2 (List.mem_cons_of_mem _ (hu.mem hm)))
        simp only [count_snoc, reduceCtorEq, if_false, Ev.invalid.injEq, hne, Nat.add_zero]
        exact this
      · intro d hd
        simp only [List.mem_cons, Frame.inv.injEq] at hd
        simp only [count_snoc, reduceCtorEq, if_false, Ev.invalid.injEq, Nat.add_zero]
        rcases hd with rfl | hd
        · obtain ⟨h1, h2, h3⟩ := h.wait d (show s.chk d ≠ none by rw [hc]; simp) hnew.1
          exact ⟨h1, h2, by rw [if_pos rfl]; exact congrArg (· + 1) h3⟩
        · have hd := (hkk d).1.1 hd
          have hne : d ≠ c := by rintro rfl; exact hnew.1 hd
          rw [if_neg hne]
          exact h.told d hd
      · exact hltb
      · exact h.ltu
      · intro d hd
        have hne : d ≠ c := by
          rintro rfl
          have hd : s.chk d = none := hd
          rw [hc] at hd; cases hd
        have := h.gone d hd
        simp only [count_snoc, reduceCtorEq, if_false, Ev.invalid.injEq, hne, Nat.add_zero]
        exact this

/-- The flags of the node do not matter. -/
theorem inv_flags {s : S} (h : Inv s) (a b c : Bool) : Inv { s with on := a, inProc := b, inReset := c } :=
  ⟨h.ub, h.addr, h.mem, h.lt, h.use, h.down, h.sane, h.nd, h.busy, h.inv, h.close, h.err, h.after, h.nafter, h.prot, h.fresh, h.wait,
    h.told, h.ltb, h.ltu, h.gone⟩

theorem inv_pop {s : S} {f : Frame} {k : List Frame} (h : Inv s) (hs : s.stack = f :: k) (hf : f.who = none) : Inv { s with stack := k } := by
  have hne : ∀ c, Frame.inv c ≠ f ∧ Frame.close c ≠ f := by
    intro c
    constructor
    · rintro rfl; cases hf
    · rintro rfl; cases hf
  have hi : ∀ c, Frame.inv c ∈ s.stack ↔ Frame.inv c ∈ k := by
    intro c; rw [hs, List.mem_cons]; exact ⟨fun h => h.resolve_left (hne c).1, .inr⟩
  have hc : ∀ c, Frame.close c ∈ s.stack ↔ Frame.close c ∈ k := by
    intro c; rw [hs, List.mem_cons]; exact ⟨fun h => h.resolve_left (hne c).2, .inr⟩
  have hm : ∀ g, g ∈ k → g ∈ s.stack := by intro g hg; rw [hs]; exact List.mem_cons_of_mem _ hg
  constructor
  · exact h.ub
  · exact h.addr
  · exact h.mem
  · exact h.lt
  · exact h.use
  · exact h.down
  · have := h.sane; rw [hs] at this; exact this.2
  · have := h.nd
    rw [hs, List.filterMap_cons, hf] at this
    exact this
  · intro c; rw [h.busy c, hi, hc]
  · intro c hm'; exact h.inv c (hm _ hm')
  · intro c hm'; exact h.close c (hm _ hm')
  · intro sec a hm'; exact h.err sec a (hm _ hm')
  · intro sec a hm'
    obtain ⟨h1, h2⟩ := h.after sec a (hm _ hm')
    exact ⟨h1, fun c hc => (hi c).1 (h2 c hc)⟩
  · intro a hm'
    obtain ⟨h1, h2⟩ := h.nafter a (hm _ hm')
    exact ⟨h1, fun c hc => (hi c).1 (h2 c hc)⟩
  · intro sec a hm'; exact h.prot sec a (hm _ hm')
  · exact h.fresh
  · intro c h1 h2; exact h.wait c h1 (fun h3 => h2 ((hi c).1 h3))
  · intro c h1; exact h.told c (hm _ h1)
  · exact h.ltb
  · exact h.ltu
  · exact h.gone

/-- A frame that holds nothing, or an error callback for an entry. -/
def Plain (s : S) (f : Frame) : Prop :=
  f = .nloop ∨ f = .ntail ∨ (∃ sec, f = .loop sec) ∨ ∃ sec a c, f = .err sec a ∧ s.chk c = some a ∧ s.busy c = false

theorem inv_push {s : S} {f : Frame} (h : Inv s) (hf : Plain s f) (hk : f.needs = true → Cold s.stack) :
    Inv { s with stack := f :: s.stack } := by
  have hne : ∀ c, Frame.inv c ≠ f ∧ Frame.close c ≠ f := by
    intro c
    rcases hf with rfl | rfl | ⟨sec, rfl⟩ | ⟨sec, a, d, rfl, -, -⟩ <;> exact ⟨(by intro h; cases h), (by intro h; cases h)⟩
  have hi : ∀ c, Frame.inv c ∈ f :: s.stack ↔ Frame.inv c ∈ s.stack := by
    intro c; rw [List.mem_cons]; exact ⟨fun h => h.resolve_left (hne c).1, .inr⟩
  have hc : ∀ c, Frame.close c ∈ f :: s.stack ↔ Frame.close c ∈ s.stack := by
    intro c; rw [List.mem_cons]; exact ⟨fun h => h.resolve_left (hne c).2, .inr⟩
  constructor
  · exact h.ub
  · exact h.addr
  · exact h.mem
  · exact h.lt
  · exact h.use
  · exact h.down
  · exact ⟨hk, h.sane⟩
  · have hw : f.who = none := by rcases hf with rfl | rfl | ⟨sec, rfl⟩ | ⟨sec, a, d, rfl, -, -⟩ <;> rfl
    show ((f :: s.stack).filterMap Frame.who).Nodup
    rw [List.filterMap_cons, hw]
    exact h.nd
  · intro c; rw [h.busy c]; exact or_congr (hi c).symm (hc c).symm
  · intro c hm; exact h.inv c ((hi c).1 hm)
  · intro c hm; exact h.close c ((hc c).1 hm)
  · intro sec a hm
    simp only [List.mem_cons] at hm
    rcases hm with rfl | hm
    · rcases hf with hf | hf | ⟨sec, hf⟩ | ⟨sec, a, d, hf, h1, h2⟩
      · cases hf
      · cases hf
      · cases hf
      · cases hf; exact ⟨d, h1, h2⟩
    · exact h.err sec a hm
  · intro sec a hm
    simp only [List.mem_cons] at hm
    rcases hm with rfl | hm
    · rcases hf with hf | hf | ⟨sec, hf⟩ | ⟨sec, a, d, hf, h1, h2⟩ <;> cases hf
    · obtain ⟨h1, h2⟩ := h.after sec a hm
      exact ⟨h1, fun c h3 => List.mem_cons_of_mem _ (h2 c h3)⟩
  · intro a hm
    simp only [List.mem_cons] at hm
    rcases hm with rfl | hm
    · rcases hf with hf | hf | ⟨sec, hf⟩ | ⟨sec, a, d, hf, h1, h2⟩ <;> cases hf
    · obtain ⟨h1, h2⟩ := h.nafter a hm
      exact ⟨h1, fun c h3 => List.mem_cons_of_mem _ (h2 c h3)⟩
  · intro sec a hm
    simp only [List.mem_cons] at hm
    rcases hm with rfl | hm
    · rcases hf with hf | hf | ⟨sec, hf⟩ | ⟨sec, a, d, hf, h1, h2⟩ <;> cases hf
    · exact h.prot sec a hm
  · exact h.fresh
  · intro c h1 h2; exact h.wait c h1 (fun h3 => h2 (List.mem_cons_of_mem _ h3))
  · intro c h1; exact h.told c ((hi c).1 h1)
  · exact h.ltb
  · exact h.ltu
  · exact h.gone

/-- The callback for an unfinished connection returns. -/
theorem inv_endInvalid {s : S} {c : Nat} {k : List Frame} (h : Inv s) (hs : s.stack = .inv c :: k) : Inv (endInvalid s c k) := by
  unfold endInvalid
  have hin : Frame.inv c ∈ s.stack := by rw [hs]; exact List.mem_cons_self
  have hm : ∀ g, g ∈ k → g ∈ s.stack := by intro g hg; rw [hs]; exact List.mem_cons_of_mem _ hg
  have hnd : c ∉ k.filterMap Frame.who ∧ (k.filterMap Frame.who).Nodup := by
    have := h.nd
    rw [hs, List.filterMap_cons] at this
    exact List.nodup_cons.1 this
  have hck : Frame.inv c ∉ k ∧ Frame.close c ∉ k := by
    have := hnd.1
    rw [who_mem] at this
    exact not_or.1 this
  cases hc : s.chk c with
  | none => exact absurd hc (h.inv c hin)
  | some a =>
    simp only [erase_eq (h.entry hc)]
    have hi : ∀ d, d ≠ c → (Frame.inv d ∈ s.stack ↔ Frame.inv d ∈ k) := by
      intro d hd; rw [hs, List.mem_cons]
      exact ⟨fun h => h.resolve_left (by intro h; cases h; exact hd rfl), .inr⟩
    have hn : ∀ d, upd s.chk c none d ≠ none → d ≠ c ∧ s.chk d ≠ none := by
      intro d hd
      have hne : d ≠ c := by rintro rfl; exact hd (upd_same _ _ _)
      rw [upd_other _ _ hne] at hd
      exact ⟨hne, hd⟩
    constructor
    · exact h.ub
    · exact filter_addr a h.addr
    · exact fun b d => h.mem_erase hc b d
    · intro d b hd; exact h.lt d b (upd_none.1 hd).2
    · intro d b hd; exact h.use d b (upd_none.1 hd).2
    · intro d b hd; exact h.down d b (upd_none.1 hd).2
    · have := h.sane
      rw [hs] at this
      exact ⟨(fun h => by cases h), this.2⟩
    · show ((Frame.close c :: k).filterMap Frame.who).Nodup
      rw [List.filterMap_cons]
      exact List.nodup_cons.2 hnd
    · intro d
      show s.busy d = true ↔ _
      rw [h.busy d, hs]
      simp only [List.mem_cons, Frame.inv.injEq, Frame.close.injEq, reduceCtorEq, false_or]
      constructor
      · rintro ((h1 | h1) | h1)
        · exact .inr (.inl h1)
        · exact .inl h1
        · exact .inr (.inr h1)
      · rintro (h1 | h1 | h1)
        · exact .inl (.inr h1)
        · exact .inl (.inl h1)
        · exact .inr h1
    · intro d hd
      have hk : Frame.inv d ∈ k := by simpa using hd
      have hne : d ≠ c := by rintro rfl; exact hck.1 hk
      show upd s.chk c none d ≠ none
      rw [upd_other _ _ hne]
      exact h.inv d (hm _ hk)
    · intro d hd
      simp only [List.mem_cons, Frame.close.injEq] at hd
      show upd s.chk c none d = none
      rcases hd with rfl | hd
      · exact upd_same _ _ _
      · have hne : d ≠ c := by rintro rfl; exact hck.2 hd
        rw [upd_other _ _ hne]
        exact h.close d (hm _ hd)
    · intro sec b hd
      obtain ⟨d, h1, h2⟩ := h.err sec b (hm _ (by simpa using hd))
      refine ⟨d, ?_, h2⟩
      have hne : d ≠ c := by
        rintro rfl
        rw [(h.busy d).2 (.inl hin)] at h2; cases h2
      show upd s.chk c none d = some b
      rw [upd_other _ _ hne]; exact h1
    · intro sec b hd
      obtain ⟨h1, h2⟩ := h.after sec b (hm _ (by simpa using hd))
      refine ⟨h1, fun d hd => ?_⟩
      have hd := upd_none.1 hd
      exact List.mem_cons_of_mem _ ((hi d hd.1).1 (h2 d hd.2))
    · intro b hd
      obtain ⟨h1, h2⟩ := h.nafter b (hm _ (by simpa using hd))
      refine ⟨h1, fun d hd => ?_⟩
      have hd := upd_none.1 hd
      exact List.mem_cons_of_mem _ ((hi d hd.1).1 (h2 d hd.2))
    · intro sec b hd; exact h.prot sec b (hm _ (by simpa using hd))
    · exact h.fresh
    · intro d h1 h2
      have h1 := hn d h1
      exact h.wait d h1.2 (fun h3 => h2 (List.mem_cons_of_mem _ ((hi d h1.1).1 h3)))
    · intro d hd
      exact h.told d (hm _ (by simpa using hd))
    · exact h.ltb
    · exact h.ltu
    · intro d hd
      by_cases hne : d = c
      · subst hne
        obtain ⟨h1, h2, h3⟩ := h.told d hin
        exact ⟨Nat.le_of_eq h1, by rw [h1, h2, h3]⟩
      · exact h.gone d (by have hd : upd s.chk c none d = none := hd; rw [upd_other _ _ hne] at hd; exact hd)

/-- The reset of a connection ends. -/
theorem inv_endClose {s : S} {c : Nat} {k : List Frame} (h : Inv s) (hs : s.stack = .close c :: k) (t : Nat → Bool) :
    Inv { s with busy := upd s.busy c false, up := upd s.up c false, temp := t, stack := k } := by
  have hm : ∀ g, g ∈ k → g ∈ s.stack := by intro g hg; rw [hs]; exact List.mem_cons_of_mem _ hg
  have hnd : c ∉ k.filterMap Frame.who ∧ (k.filterMap Frame.who).Nodup := by
    have := h.nd
    rw [hs, List.filterMap_cons] at this
    exact List.nodup_cons.1 this
  have hck : Frame.inv c ∉ k ∧ Frame.close c ∉ k := by
    have := hnd.1
    rw [who_mem] at this
    exact not_or.1 this
  have hi : ∀ d, Frame.inv d ∈ s.stack ↔ Frame.inv d ∈ k := by
    intro d; rw [hs, List.mem_cons]; exact ⟨fun h => h.resolve_left (by intro h; cases h), .inr⟩
  have hbf : ∀ d, s.busy d = false → upd s.busy c false d = false := by
    intro d hd; unfold upd; split
    · rfl
    · exact hd
  constructor
  · exact h.ub
  · exact h.addr
  · exact h.mem
  · exact h.lt
  · exact h.use
  · intro d a hd
    show upd s.up c false d = false
    unfold upd; split
    · rfl
    · exact h.down d a hd
  · have := h.sane; rw [hs] at this; exact this.2
  · exact hnd.2
  · intro d
    show upd s.busy c false d = true ↔ _
    by_cases hd : d = c
    · subst hd
      rw [upd_same]
      simp only [Bool.false_eq_true, false_iff, not_or]
      exact hck
    · rw [upd_other _ _ hd, h.busy d, hi, hs, List.mem_cons]
      exact or_congr Iff.rfl ⟨fun h => h.resolve_left (by intro h; cases h; exact hd rfl), .inr⟩
  · intro d hd; exact h.inv d (hm _ hd)
  · intro d hd; exact h.close d (hm _ hd)
  · intro sec a hd
    obtain ⟨d, h1, h2⟩ := h.err sec a (hm _ hd)
    exact ⟨d, h1, hbf d h2⟩
  · intro sec a hd
    obtain ⟨h1, h2⟩ := h.after sec a (hm _ hd)
    exact ⟨h1, fun d h3 => (hi d).1 (h2 d h3)⟩
  · intro a hd
    obtain ⟨h1, h2⟩ := h.nafter a (hm _ hd)
    exact ⟨h1, fun d h3 => (hi d).1 (h2 d h3)⟩
  · intro sec a hd; exact h.prot sec a (hm _ hd)
  · exact h.fresh
  · intro d h1 h2; exact h.wait d h1 (fun h3 => h2 ((hi d).1 h3))
  · intro d hd; exact h.told d (hm _ hd)
  · intro d hd
    have hd : upd s.busy c false d = true := hd
    by_cases hd' : d = c
    · subst hd'; rw [upd_same] at hd; cases hd
    · rw [upd_other _ _ hd'] at hd; exact h.ltb d hd
  · intro d hd
    have hd : upd s.up c false d = true := hd
    by_cases hd' : d = c
    · subst hd'; rw [upd_same] at hd; cases hd
    · rw [upd_other _ _ hd'] at hd; exact h.ltu d hd
  · exact h.gone

/-- What a loop that nobody disturbs finds at the head of the list. -/
theorem inv_head {s : S} {f : Frame} {k : List Frame} {a c : Nat} {rest : List (Nat × Nat)} (h : Inv s) (hs : s.stack = f :: k)
    (hf : f.needs = true) (hl : s.list = (a, c) :: rest) : s.chk c = some a ∧ s.busy c = false ∧ Cold k := by
  have h1 : s.chk c = some a := (h.mem a c).1 (by rw [hl]; exact List.mem_cons_self)
  have h2 : Cold k := by have := h.sane; rw [hs] at this; exact this.1 hf
  refine ⟨h1, ?_, h2⟩
  cases hb : s.busy c with
  | false => rfl
  | true =>
    rcases (h.busy c).1 hb with h3 | h3
    · rw [hs, List.mem_cons] at h3
      rcases h3 with rfl | h3
      · cases hf
      · exact absurd h3 ((cold_not h2).1 c)
    · rw [h.close c h3] at h1; cases h1

theorem inv_loop {s : S} {sec : Int} {k : List Frame} (h : Inv s) (hs : s.stack = .loop sec :: k) : Inv (loop s sec k) := by
  unfold loop
  have hp := inv_pop h hs rfl
  split
  · exact inv_flags hp s.on false s.inReset
  · rename_i a c rest hl
    obtain ⟨h1, h2, h3⟩ := inv_head h hs rfl hl
    rw [if_neg (by rw [h.down c a h1]; simp)]
    split
    · exact inv_flags hp s.on false s.inReset
    · split
      · exact inv_startReset hp (.inr ⟨a, h1, h2, h3, .inl ⟨sec, rfl⟩⟩) (h.lt _ _ h1) (fun sec b hm => absurd hm ((cold_not h3).2 sec b))
      · exact inv_push hp (.inr (.inr (.inr ⟨sec, a, c, rfl, h1, h2⟩))) (fun _ => h3)

/-- After the reset of the connection of an entry the entry is not on the list. -/
theorem inv_after {s : S} {f : Frame} {k : List Frame} {a c : Nat} {rest : List (Nat × Nat)} (h : Inv s) (hs : s.stack = f :: k)
    (hf : (∃ sec, f = .after sec a) ∨ f = .nafter a) (hl : s.list = (a, c) :: rest) : False := by
  have hn : f.needs = true := by rcases hf with ⟨sec, rfl⟩ | rfl <;> rfl
  have hm : f ∈ s.stack := by rw [hs]; exact List.mem_cons_self
  obtain ⟨h1, -, h3⟩ := inv_head h hs hn hl
  have hi : Frame.inv c ∈ s.stack := by
    rcases hf with ⟨sec, rfl⟩ | rfl
    · exact (h.after sec a hm).2 c h1
    · exact (h.nafter a hm).2 c h1
  rw [hs, List.mem_cons] at hi
  rcases hi with rfl | hi
  · cases hn
  · exact (cold_not h3).1 c hi

theorem inv_go {s : S} (h : Inv s) : Inv (go s) := by
  unfold go
  rw [if_neg (by rw [h.ub]; simp)]
  split
  · exact h
  · rename_i c k hs; exact inv_endInvalid h hs
  · rename_i c k hs; exact inv_endClose h hs _
  · rename_i sec k hs; exact inv_loop h hs
  · rename_i sec a k hs
    obtain ⟨c, h1, h2⟩ := h.err sec a (by rw [hs]; exact List.mem_cons_self)
    have h3 : Cold k := by have := h.sane; rw [hs] at this; exact this.1 rfl
    rw [h.entry h1]
    exact inv_startReset (inv_pop h hs rfl) (.inr ⟨a, h1, h2, h3, .inl ⟨sec, rfl⟩⟩) (h.lt _ _ h1) (fun sec b hm => absurd hm ((cold_not h3).2 sec b))
  · rename_i sec a k hs
    have h3 : Cold k := by have := h.sane; rw [hs] at this; exact this.1 rfl
    have hp := inv_push (inv_pop h hs rfl) (f := .loop sec) (.inr (.inr (.inl ⟨sec, rfl⟩))) (fun _ => h3)
    split
    · rename_i a' c rest hl
      split
      · rename_i ha
        subst ha
        exact (inv_after h hs (.inl ⟨sec, rfl⟩) hl).elim
      · exact hp
    · exact hp
  · rename_i sec a k hs
    exact absurd (by rw [hs]; exact List.mem_cons_self) (h.prot sec a)
  · rename_i k hs
    have hp := inv_pop h hs rfl
    split
    · exact inv_push hp (.inr (.inl rfl)) (fun h => by cases h)
    · rename_i a c rest hl
      obtain ⟨h1, h2, h3⟩ := inv_head h hs rfl hl
      exact inv_startReset hp (.inr ⟨a, h1, h2, h3, .inr rfl⟩) (h.lt _ _ h1) (fun sec b hm => absurd hm ((cold_not h3).2 sec b))
  · rename_i a k hs
    have h3 : Cold k := by have := h.sane; rw [hs] at this; exact this.1 rfl
    have hp := inv_push (inv_pop h hs rfl) (f := .nloop) (.inl rfl) (fun _ => h3)
    split
    · rename_i a' c rest hl
      split
      · rename_i ha
        subst ha
        exact (inv_after h hs (.inr rfl) hl).elim
      · exact hp
    · exact hp
  · rename_i k hs
    exact inv_flags (inv_pop h hs rfl) _ _ _

theorem any_false {k : List Frame} {p : Frame → Bool} (h : (!k.any p) = true) : ∀ f ∈ k, p f = false := by
  simpa using h

theorem inv_new {s : S} {a : Nat} (h : Inv s) (ha : a ∉ s.used) (lim : Nat → Int) :
    Inv { s with n := s.n + 1, list := s.list ++ [(a, s.n)], chk := upd s.chk s.n (some a), limit := lim, used := a :: s.used,
                 log := s.log ++ [.listed s.n] } := by
  have hfree : s.chk s.n = none := by
    cases hc : s.chk s.n with
    | none => rfl
    | some b => exact absurd (h.lt _ _ hc) (Nat.lt_irrefl _)
  have hne : ∀ {d b}, s.chk d = some b → d ≠ s.n := fun hd => Nat.ne_of_lt (h.lt _ _ hd)
  have hnot : Frame.inv s.n ∉ s.stack := fun hm => h.inv _ hm hfree
  have hcase : ∀ d b, upd s.chk s.n (some a) d = some b → (d = s.n ∧ b = a) ∨ s.chk d = some b := by
    intro d b hd
    by_cases hd' : d = s.n
    · subst hd'
      rw [upd_same] at hd
      exact .inl ⟨rfl, (Option.some.inj hd).symm⟩
    · rw [upd_other _ _ hd'] at hd; exact .inr hd
  have hlist : ∀ b ∈ s.list.map Prod.fst, b ∈ s.used := by
    intro b hb
    simp only [List.mem_map, Prod.exists, exists_and_right, exists_eq_right] at hb
    obtain ⟨d, hd⟩ := hb
    exact h.use d b ((h.mem b d).1 hd)
  constructor
  · exact h.ub
  · show ((s.list ++ [(a, s.n)]).map Prod.fst).Nodup
    rw [List.map_append, List.nodup_append]
    refine ⟨h.addr, by simp, ?_⟩
    intro b hb c hc
    simp only [List.map_cons, List.map_nil, List.mem_singleton] at hc
    subst hc
    rintro rfl
    exact ha (hlist _ hb)
  · intro b d
    show (b, d) ∈ s.list ++ [(a, s.n)] ↔ upd s.chk s.n (some a) d = some b
    rw [List.mem_append, List.mem_singleton, h.mem]
    constructor
    · rintro (h1 | h1)
      · rw [upd_other _ _ (hne h1)]; exact h1
      · cases h1; exact upd_same _ _ _
    · intro h1
      rcases hcase d b h1 with ⟨rfl, rfl⟩ | h1
      · exact .inr rfl
      · exact .inl h1
  · intro d b hd
    show d < s.n + 1
    rcases hcase d b hd with ⟨rfl, -⟩ | h1
    · exact Nat.lt_succ_self _
    · exact Nat.lt_succ_of_lt (h.lt d b h1)
  · intro d b hd
    rcases hcase d b hd with ⟨-, rfl⟩ | h1
    · exact List.mem_cons_self
    · exact List.mem_cons_of_mem _ (h.use d b h1)
  · intro d b hd
    rcases hcase d b hd with ⟨rfl, -⟩ | h1
    · cases hu : s.up s.n with
      | false => rfl
      | true => exact absurd (h.ltu _ hu) (Nat.lt_irrefl _)
    · exact h.down d b h1
  · exact h.sane
  · exact h.nd
  · exact h.busy
  · intro d hd
    show upd s.chk s.n (some a) d ≠ none
    by_cases hd' : d = s.n
    · subst hd'; rw [upd_same]; simp
    · rw [upd_other _ _ hd']; exact h.inv d hd
  · intro d hd
    show upd s.chk s.n (some a) d = none
    by_cases hd' : d = s.n
    · subst hd'; exact absurd (h.ltb _ ((h.busy _).2 (.inr hd))) (Nat.lt_irrefl _)
    · rw [upd_other _ _ hd']; exact h.close d hd
  · intro sec b hd
    obtain ⟨d, h1, h2⟩ := h.err sec b hd
    exact ⟨d, by show upd s.chk s.n (some a) d = some b; rw [upd_other _ _ (hne h1)]; exact h1, h2⟩
  · intro sec b hd
    obtain ⟨h1, h2⟩ := h.after sec b hd
    refine ⟨List.mem_cons_of_mem _ h1, fun d hd => ?_⟩
    rcases hcase d b hd with ⟨-, rfl⟩ | h3
    · exact absurd h1 ha
    · exact h2 d h3
  · intro b hd
    obtain ⟨h1, h2⟩ := h.nafter b hd
    refine ⟨List.mem_cons_of_mem _ h1, fun d hd => ?_⟩
    rcases hcase d b hd with ⟨-, rfl⟩ | h3
    · exact absurd h1 ha
    · exact h2 d h3
  · exact h.prot
  · intro d hd
    have hd : s.n + 1 ≤ d := hd
    have hne' : d ≠ s.n := by omega
    simp only [count_snoc, reduceCtorEq, if_false, Ev.listed.injEq, hne', Nat.add_zero]
    exact h.fresh d (by omega)
  · intro d h1 h2
    simp only [count_snoc, reduceCtorEq, if_false, Ev.listed.injEq, Nat.add_zero]
    by_cases hd' : d = s.n
    · subst hd'
      obtain ⟨h3, h4, h5⟩ := h.fresh s.n (Nat.le_refl _)
      exact ⟨by rw [if_pos rfl, h3], h4, h5⟩
    · rw [if_neg hd']
      refine h.wait d ?_ h2
      have h1 : upd s.chk s.n (some a) d ≠ none := h1
      rw [upd_other _ _ hd'] at h1; exact h1
  · intro d hd
    have hd' : d ≠ s.n := by rintro rfl; exact hnot hd
    simp only [count_snoc, reduceCtorEq, if_false, Ev.listed.injEq, hd', Nat.add_zero]
    exact h.told d hd
  · intro d hd; exact Nat.lt_succ_of_lt (h.ltb d hd)
  · intro d hd; exact Nat.lt_succ_of_lt (h.ltu d hd)
  · intro d hd
    have hd : upd s.chk s.n (some a) d = none := hd
    have hd' : d ≠ s.n := by rintro rfl; rw [upd_same] at hd; cases hd
    rw [upd_other _ _ hd'] at hd
    simp only [count_snoc, reduceCtorEq, if_false, Ev.listed.injEq, hd', Nat.add_zero]
    exact h.gone d hd

theorem inv_off {s : S} (h : Inv s) : Inv { s with n := s.n + 1 } := by
  refine ⟨h.ub, h.addr, h.mem, fun c a hc => Nat.lt_succ_of_lt (h.lt c a hc), h.use, h.down, h.sane, h.nd, h.busy, h.inv, h.close, h.err,
    h.after, h.nafter, h.prot, fun c hc => h.fresh c (Nat.le_of_succ_le hc), h.wait, h.told, fun c hc => Nat.lt_succ_of_lt (h.ltb c hc),
    fun c hc => Nat.lt_succ_of_lt (h.ltu c hc), h.gone⟩

/-- A connection without an entry is established. -/
theorem inv_up {s : S} {c : Nat} (h : Inv s) (hc : c < s.n) (hn : s.chk c = none) : Inv { s with up := upd s.up c true } := by
  refine ⟨h.ub, h.addr, h.mem, h.lt, h.use, ?_, h.sane, h.nd, h.busy, h.inv, h.close, h.err,
    h.after, h.nafter, h.prot, h.fresh, h.wait, h.told, h.ltb, ?_, h.gone⟩
  · intro d a hd
    have hne : d ≠ c := by rintro rfl; have hd : s.chk d = some a := hd; rw [hn] at hd; cases hd
    show upd s.up c true d = false
    rw [upd_other _ _ hne]; exact h.down d a hd
  · intro d hd
    by_cases hd' : d = c
    · rw [hd']; exact hc
    · have hd : upd s.up c true d = true := hd
      rw [upd_other _ _ hd'] at hd; exact h.ltu d hd

/-- An unfinished connection is established; nobody holds its entry. -/
theorem inv_done {s : S} {a c : Nat} (h : Inv s) (hc : s.chk c = some a) (hi : .inv c ∉ s.stack) (he : ∀ sec, .err sec a ∉ s.stack) :
    Inv { s with list := s.list.filter (fun e => e.1 != a), chk := upd s.chk c none, log := s.log ++ [.finished c] } := by
  have hn : ∀ d, upd s.chk c none d ≠ none → d ≠ c ∧ s.chk d ≠ none := by
    intro d hd
    have hne : d ≠ c := by rintro rfl; exact hd (upd_same _ _ _)
    rw [upd_other _ _ hne] at hd
    exact ⟨hne, hd⟩
  constructor
  · exact h.ub
  · exact filter_addr a h.addr
  · exact fun b d => h.mem_erase hc b d
  · intro d b hd; exact h.lt d b (upd_none.1 hd).2
  · intro d b hd; exact h.use d b (upd_none.1 hd).2
  · intro d b hd; exact h.down d b (upd_none.1 hd).2
  · exact h.sane
  · exact h.nd
  · exact h.busy
  · intro d hd
    have hne : d ≠ c := by rintro rfl; exact hi hd
    show upd s.chk c none d ≠ none
    rw [upd_other _ _ hne]; exact h.inv d hd
  · intro d hd
    show upd s.chk c none d = none
    by_cases hd' : d = c
    · subst hd'; exact upd_same _ _ _
    · rw [upd_other _ _ hd']; exact h.close d hd
  · intro sec b hd
    obtain ⟨d, h1, h2⟩ := h.err sec b hd
    refine ⟨d, ?_, h2⟩
    have hne : d ≠ c := by
      rintro rfl
      rw [hc] at h1
      have h1 := Option.some.inj h1
      subst h1
      exact he sec hd
    show upd s.chk c none d = some b
    rw [upd_other _ _ hne]; exact h1
  · intro sec b hd
    obtain ⟨h1, h2⟩ := h.after sec b hd
    exact ⟨h1, fun d hd => h2 d (upd_none.1 hd).2⟩
  · intro b hd
    obtain ⟨h1, h2⟩ := h.nafter b hd
    exact ⟨h1, fun d hd => h2 d (upd_none.1 hd).2⟩
  · exact h.prot
  · intro d hd
    have hne : d ≠ c := by have := h.lt c a hc; have hd : s.n ≤ d := hd; omega
    simp only [count_snoc, reduceCtorEq, if_false, Ev.finished.injEq, hne, Nat.add_zero]
    exact h.fresh d hd
  · intro d h1 h2
    obtain ⟨hne, h1⟩ := hn d h1
    simp only [count_snoc, reduceCtorEq, if_false, Ev.finished.injEq, hne, Nat.add_zero]
    exact h.wait d h1 h2
  · intro d hd
    have hne : d ≠ c := by rintro rfl; exact hi hd
    simp only [count_snoc, reduceCtorEq, if_false, Ev.finished.injEq, hne, Nat.add_zero]
    exact h.told d hd
  · exact h.ltb
  · exact h.ltu
  · intro d hd
    simp only [count_snoc, reduceCtorEq, if_false, Ev.finished.injEq, Nat.add_zero]
    by_cases hne : d = c
    · subst hne
      obtain ⟨h1, h2, h3⟩ := h.wait d (by rw [hc]; simp) hi
      rw [if_pos rfl, h1, h2, h3]
      exact ⟨Nat.le_refl _, rfl⟩
    · rw [if_neg hne]
      exact h.gone d (by have hd : upd s.chk c none d = none := hd; rw [upd_other _ _ hne] at hd; exact hd)

theorem inv_call {s : S} {op : Op} (h : Inv s) (hp : polite s op = true) (hlt : ∀ c, op = .done c ∨ op = .reset c → c < s.n) :
    Inv (call s op) := by
  cases op with
  | new a t =>
    simp only [call]
    split
    · exact inv_new h (by simpa [polite] using hp) _
    · exact inv_off h
  | done c =>
    simp only [call]
    split
    · exact h
    · have hf := any_false hp
      cases hc : s.chk c with
      | none => exact inv_up h (hlt c (.inl rfl)) hc
      | some a =>
        have hent : S.entry { s with up := upd s.up c true } a = some c := h.entry hc
        simp only [erase_eq hent]
        have h1 := inv_done h hc (fun hm => by have := hf _ hm; simp [Frame.holds] at this)
          (fun sec hm => by have := hf _ hm; simp [Frame.holds, hc] at this)
        exact inv_up h1 (hlt c (.inl rfl)) (upd_same _ _ _)
  | temporary c =>
    exact ⟨h.ub, h.addr, h.mem, h.lt, h.use, h.down, h.sane, h.nd, h.busy, h.inv, h.close, h.err, h.after, h.nafter, h.prot, h.fresh, h.wait,
      h.told, h.ltb, h.ltu, h.gone⟩
  | reset c =>
    refine inv_startReset h (.inl rfl) (hlt c (.inr rfl)) (fun sec a hm hc => ?_)
    have := any_false hp _ hm
    simp [Frame.errs, hc] at this
  | proc sec =>
    simp only [call]
    split
    · exact h
    · rename_i hc
      have hcold : Cold s.stack := by
        intro f hf
        simp only [Bool.or_eq_true, not_or] at hc
        simp only [polite, Bool.or_eq_true] at hp
        rcases hp with hp | hp
        · rcases hp with hp | hp
          · exact absurd hp hc.1
          · exact absurd hp hc.2
        · exact any_false hp f hf
      exact inv_push (inv_flags h s.on true s.inReset) (.inr (.inr (.inl ⟨sec, rfl⟩))) (fun _ => hcold)
  | nodeReset =>
    simp only [call]
    split
    · exact h
    · rename_i hc
      have hcold : Cold s.stack := by
        intro f hf
        simp only [polite, Bool.or_eq_true] at hp
        rcases hp with hp | hp
        · exact absurd hp hc
        · exact any_false hp f hf
      exact inv_push (inv_flags h s.on s.inProc true) (.inl rfl) (fun _ => hcold)
  | init => exact inv_flags h true s.inProc s.inReset

theorem inv_step {s : S} {act : Act} (h : Inv s) (hp : ∀ op, act = .app op → polite s op = true) : Inv (step s act) := by
  cases act with
  | go => exact inv_go h
  | app op =>
    simp only [step]
    split
    · rename_i hc
      simp only [S.can, Bool.and_eq_true] at hc
      refine inv_call h (hp op rfl) ?_
      rintro c (rfl | rfl)
      · simpa using hc.2
      · simpa using hc.2
    · exact h

theorem inv_run {s : S} (acts : List Act) (h : Inv s) (hp : Polite s acts) : Inv (run s acts) := by
  induction acts generalizing s with
  | nil => exact h
  | cons act acts ih =>
    cases act with
    | go => exact ih (inv_step h (fun op ho => by cases ho)) hp
    | app op => exact ih (inv_step h (fun op' ho => by cases ho; exact hp.1)) hp.2

theorem inv_init : Inv {} := by
  constructor <;> simp [Sane]

/-! ### The work is bounded -/

/-- Steps of the code a frame can still take on its own. -/
def wt : Frame → Nat
  | .inv _ => 2
  | .close _ => 1
  | .loop _ => 2
  | .err _ _ => 1
  | .after _ _ => 3
  | .prot _ _ => 3
  | .nloop => 2
  | .nafter _ => 3
  | .ntail => 1

def stackPot (k : List Frame) : Nat := (k.map wt).sum

def listPot (s : S) : Nat := 5 * (s.list.filter fun e => !s.busy e.2).length

def pot (s : S) : Nat := listPot s + stackPot s.stack

theorem stackPot_cons (f : Frame) (k : List Frame) : stackPot (f :: k) = wt f + stackPot k := by simp [stackPot]

theorem filter_busy (b : Nat → Bool) (l : List (Nat × Nat)) (c : Nat) :
    (l.filter fun e => !upd b c true e.2).length ≤ (l.filter fun e => !b e.2).length := by
  induction l with
  | nil => simp
  | cons e l ih =>
    simp only [List.filter_cons]
    by_cases he : e.2 = c
    · rw [he, upd_same]
      simp only [Bool.not_true, Bool.false_eq_true, if_false]
      split
      · simp only [List.length_cons]; omega
      · exact ih
    · rw [upd_other _ _ he]
      split
      · simp only [List.length_cons]; omega
      · exact ih

theorem filter_busy_lt (b : Nat → Bool) (l : List (Nat × Nat)) {a c : Nat} (h : (a, c) ∈ l) (hb : b c = false) :
    (l.filter fun e => !upd b c true e.2).length + 1 ≤ (l.filter fun e => !b e.2).length := by
  induction l with
  | nil => cases h
  | cons e l ih =>
    simp only [List.filter_cons]
    by_cases he : e.2 = c
    · rw [he, upd_same, hb]
      simp only [Bool.not_true, Bool.false_eq_true, if_false, Bool.not_false, if_true, List.length_cons]
      exact Nat.succ_le_succ (filter_busy b l c)
    · rw [upd_other _ _ he]
      have h : (a, c) ∈ l := by
        simp only [List.mem_cons] at h
        rcases h with rfl | h
        · exact absurd rfl he
        · exact h
      split
      · simp only [List.length_cons]; have := ih h; omega
      · exact ih h

/-- Starting a reset of a connection with an entry uses up the entry. -/
theorem pot_startReset {s : S} {c : Nat} {k : List Frame} (h : Inv s) :
    pot (startReset s c k) ≤ listPot s + stackPot k + 1 ∧
    (∀ a, s.chk c = some a → s.busy c = false → pot (startReset s c k) + 3 ≤ listPot s + stackPot k) := by
  have key : ∀ a, s.chk c = some a → s.busy c = false → pot (startReset s c k) + 3 ≤ listPot s + stackPot k := by
    intro a hc hb
    have hent : S.entry { s with busy := upd s.busy c true } a = some c := h.entry hc
    have hf := filter_busy_lt s.busy s.list ((h.mem a c).2 hc) hb
    simp only [startReset, hb, Bool.false_eq_true, if_false, hc, hent, h.down c a hc, pot, listPot, stackPot_cons, wt]
    omega
  refine ⟨?_, key⟩
  cases hb : s.busy c with
  | true => simp only [startReset, hb, if_true, pot, listPot]; omega
  | false =>
    cases hc : s.chk c with
    | none =>
      have hf := filter_busy s.busy s.list c
      simp only [startReset, hb, Bool.false_eq_true, if_false, hc, pot, listPot, stackPot_cons, wt]
      omega
    | some a => have := key a hc hb; omega

theorem filter_filter_len (p : Nat × Nat → Bool) (q : Nat × Nat → Bool) (l : List (Nat × Nat)) :
    ((l.filter q).filter p).length ≤ (l.filter p).length :=
  (List.filter_sublist.filter p).length_le

/-- A step of the code. -/
theorem pot_go {s : S} (h : Inv s) (hs : s.stack ≠ []) : pot (go s) + 1 ≤ pot s := by
  unfold go
  rw [if_neg (by rw [h.ub]; simp)]
  split
  · rename_i hs'; exact absurd hs' hs
  · rename_i c k hs'
    unfold endInvalid
    cases hc : s.chk c with
    | none => exact absurd hc (h.inv c (by rw [hs']; exact List.mem_cons_self))
    | some a =>
      simp only [erase_eq (h.entry hc), pot, listPot, hs', stackPot_cons, wt]
      have := filter_filter_len (fun e => !s.busy e.2) (fun e => e.1 != a) s.list
      omega
  · rename_i c k hs'
    simp only [pot, listPot, hs', stackPot_cons, wt]
    have : (s.list.filter fun e => !upd s.busy c false e.2) = s.list.filter fun e => !s.busy e.2 := by
      apply List.filter_congr
      rintro ⟨a, d⟩ hd
      have hne : d ≠ c := by
        rintro rfl
        have h1 := (h.mem a d).1 hd
        rw [h.close d (by rw [hs']; exact List.mem_cons_self)] at h1
        cases h1
      simp only [upd_other _ _ hne]
    rw [this]
    omega
  · rename_i sec k hs'
    unfold loop
    split
    · simp only [pot, listPot, hs', stackPot_cons, wt]; omega
    · rename_i a c rest hl
      obtain ⟨h1, h2, h3⟩ := inv_head h hs' rfl hl
      rw [if_neg (by rw [h.down c a h1]; simp)]
      split
      · simp only [pot, listPot, hs', stackPot_cons, wt]; omega
      · split
        · have := (pot_startReset h (k := .after sec a :: k)).2 a h1 h2
          rw [stackPot_cons] at this
          simp only [pot, hs', stackPot_cons, wt] at this ⊢
          omega
        · simp only [pot, listPot, hs', stackPot_cons, wt]; omega
  · rename_i sec a k hs'
    obtain ⟨c, h1, h2⟩ := h.err sec a (by rw [hs']; exact List.mem_cons_self)
    rw [h.entry h1]
    have := (pot_startReset h (k := .after sec a :: k)).2 a h1 h2
    simp only [pot, hs', stackPot_cons, wt] at this ⊢
    omega
  · rename_i sec a k hs'
    split
    · rename_i a' c rest hl
      split
      · rename_i ha
        subst ha
        exact (inv_after h hs' (.inl ⟨sec, rfl⟩) hl).elim
      · simp only [pot, listPot, hs', stackPot_cons, wt]; omega
    · simp only [pot, listPot, hs', stackPot_cons, wt]; omega
  · rename_i sec a k hs'
    exact absurd (by rw [hs']; exact List.mem_cons_self) (h.prot sec a)
  · rename_i k hs'
    split
    · simp only [pot, listPot, hs', stackPot_cons, wt]; omega
    · rename_i a c rest hl
      obtain ⟨h1, h2, h3⟩ := inv_head h hs' rfl hl
      have := (pot_startReset h (k := .nafter a :: k)).2 a h1 h2
      simp only [pot, hs', stackPot_cons, wt] at this ⊢
      omega
  · rename_i a k hs'
    split
    · rename_i a' c rest hl
      split
      · rename_i ha
        subst ha
        exact (inv_after h hs' (.inr rfl) hl).elim
      · simp only [pot, listPot, hs', stackPot_cons, wt]; omega
    · simp only [pot, listPot, hs', stackPot_cons, wt]; omega
  · rename_i k hs'
    simp only [pot, listPot, hs', stackPot_cons, wt]; omega

/-- A call of the application. -/
theorem pot_call {s : S} {op : Op} (h : Inv s) : pot (call s op) ≤ pot s + 5 := by
  cases op with
  | new a t =>
    simp only [call]
    split
    · simp only [pot, listPot, List.filter_append, List.length_append]
      have : ([(a, s.n)].filter fun e => !s.busy e.2).length ≤ 1 := List.length_filter_le _ _
      omega
    · simp only [pot, listPot]; omega
  | done c =>
    simp only [call]
    split
    · omega
    · cases hc : s.chk c with
      | none => simp only [pot, listPot]; omega
      | some a =>
        have hent : S.entry { s with up := upd s.up c true } a = some c := h.entry hc
        simp only [erase_eq hent, pot, listPot]
        have := filter_filter_len (fun e => !s.busy e.2) (fun e => e.1 != a) s.list
        omega
  | temporary c => simp only [call, pot, listPot]; omega
  | reset c =>
    have := (pot_startReset h (c := c) (k := s.stack)).1
    simp only [call, pot] at this ⊢
    omega
  | proc sec =>
    simp only [call]
    split
    · omega
    · simp only [pot, listPot, stackPot_cons, wt]; omega
  | nodeReset =>
    simp only [call]
    split
    · omega
    · simp only [pot, listPot, stackPot_cons, wt]; omega
  | init => simp only [call, pot, listPot]; omega

/-- Steps of the code in a run. -/
def goes : S → List Act → Nat
  | _, [] => 0
  | s, .go :: acts => (if s.stack = [] then 0 else 1) + goes (step s .go) acts
  | s, .app op :: acts => goes (step s (.app op)) acts

/-- Calls of the application in a run. -/
def calls : List Act → Nat
  | [] => 0
  | .go :: acts => calls acts
  | .app _ :: acts => calls acts + 1

theorem goes_le {s : S} (acts : List Act) (h : Inv s) (hp : Polite s acts) : goes s acts + pot (run s acts) ≤ 5 * calls acts + pot s := by
  induction acts generalizing s with
  | nil => simp [goes, calls, run]
  | cons act acts ih =>
    cases act with
    | go =>
      have h1 := ih (inv_step h (act := .go) (fun op ho => by cases ho)) hp
      show (if s.stack = [] then 0 else 1) + goes (step s .go) acts + pot (run (step s .go) acts) ≤ 5 * calls acts + pot s
      by_cases hs : s.stack = []
      · rw [if_pos hs]
        have : step s .go = s := by simp only [step, go, hs]; split <;> rfl
        rw [this] at h1 ⊢
        omega
      · rw [if_neg hs]
        have := pot_go h hs
        have h1 : goes (step s .go) acts + pot (run (step s .go) acts) ≤ 5 * calls acts + pot (go s) := h1
        omega
    | app op =>
      have h1 := ih (inv_step h (act := .app op) (fun op' ho => by cases ho; exact hp.1)) hp.2
      show goes (step s (.app op)) acts + pot (run (step s (.app op)) acts) ≤ 5 * (calls acts + 1) + pot s
      have : pot (step s (.app op)) ≤ pot s + 5 := by
        simp only [step]
        split
        · exact pot_call h
        · omega
      omega

/-! ### The theorems -/

/-- C74 (no iterator is used that is not valid): with an application that does not, in the callbacks for an unfinished connection, call
`proc` or `node::reset`, finish this connection or (in the error callback) reset it, and with an allocator that does not use the
address of a list node again, nothing is undefined.
Partial: see the four counterexamples below. -/
theorem C74_safe_partial (acts : List Act) (hp : Polite {} acts) : (run {} acts).ub = false := (inv_run acts inv_init hp).ub

/-- C74 (every unfinished connection is reported once or finishes): whenever no call is running, a connection that was put on the list is
still there and nothing was said about it, or it is not there and either it was established or it was reported, once.
Partial: see the counterexamples below. -/
theorem C74_once_partial (acts : List Act) (hp : Polite {} acts) (hs : (run {} acts).stack = []) (c : Nat) :
    (run {} acts).log.count (.listed c) ≤ 1 ∧
    (run {} acts).log.count (.finished c) + (run {} acts).log.count (.invalid c) +
      ((run {} acts).list.map Prod.snd).count c = (run {} acts).log.count (.listed c) := by
  have h := inv_run acts inv_init hp
  revert h hs
  generalize run {} acts = s
  intro hs h
  have hcount : ∀ (l : List (Nat × Nat)), (l.map Prod.fst).Nodup → ∀ a, (a, c) ∈ l → (∀ b, (b, c) ∈ l → b = a) → (l.map Prod.snd).count c = 1 := by
    intro l
    induction l with
    | nil => intro _ a h; cases h
    | cons e l ih =>
      intro hn a hm hu
      simp only [List.map_cons, List.nodup_cons, List.mem_map, Prod.exists, exists_and_right, exists_eq_right, not_exists] at hn
      simp only [List.map_cons, List.count_cons]
      simp only [List.mem_cons] at hm
      rcases hm with rfl | hm
      · have : (l.map Prod.snd).count c = 0 := by
          rw [List.count_eq_zero]
          simp only [List.mem_map, Prod.exists, exists_eq_right, not_exists]
          intro b hb
          have := hu b (List.mem_cons_of_mem _ hb)
          subst this
          exact hn.1 c hb
        rw [this]; simp
      · have hne : e.2 ≠ c := by
          intro he
          have h1 := hu e.1 (by rw [← he]; exact List.mem_cons_self)
          have h2 : e.1 ∉ [a] := fun _ => hn.1 c (by rw [h1]; exact hm)
          exact h2 (by rw [h1]; exact List.mem_singleton.2 rfl)
        rw [ih hn.2 a hm (fun b hb => hu b (List.mem_cons_of_mem _ hb))]
        simp [hne]
  cases hc : s.chk c with
  | none =>
    obtain ⟨h1, h2⟩ := h.gone c hc
    refine ⟨h1, ?_⟩
    have : (s.list.map Prod.snd).count c = 0 := by
      rw [List.count_eq_zero]
      simp only [List.mem_map, Prod.exists, exists_eq_right, not_exists]
      intro b hb
      have := (h.mem b c).1 hb
      rw [hc] at this; cases this
    omega
  | some a =>
    obtain ⟨h1, h2, h3⟩ := h.wait c (by rw [hc]; simp) (by rw [hs]; simp)
    have := hcount s.list h.addr a ((h.mem a c).2 hc) (fun b hb => by
      have := (h.mem b c).1 hb
      rw [hc] at this; exact (Option.some.inj this).symm)
    omega

/-- C74 (the loops end): the code takes at most five steps for each call of the application; in particular the loops of `proc` and
`node::reset` over the list end, whatever is done in the callbacks. -/
theorem C74_ends_partial (acts : List Act) (hp : Polite {} acts) : goes {} acts ≤ 5 * calls acts := by
  have := goes_le acts inv_init hp
  have h0 : pot {} = 0 := rfl
  omega

/-- No connection is made in the callbacks of the rest of `node::reset`. -/
def Quiet : S → List Act → Prop
  | _, [] => True
  | s, .go :: acts => Quiet (step s .go) acts
  | s, .app op :: acts => (∀ a t, op = .new a t → .ntail ∉ s.stack) ∧ Quiet (step s (.app op)) acts

def Dry (s : S) : Prop := s.on = false ∨ .ntail ∈ s.stack → s.list = []

theorem dry_of {s s' : S} (h : Dry s) (hl : s.list = [] → s'.list = []) (ho : s'.on = s.on) (hs : .ntail ∈ s'.stack → .ntail ∈ s.stack) : Dry s' := by
  intro h1
  apply hl
  apply h
  rcases h1 with h1 | h1
  · exact .inl (by rw [← ho]; exact h1)
  · exact .inr (hs h1)

theorem erase_keeps (s : S) (a : Nat) : (s.list = [] → (s.erase a).list = []) ∧ (s.erase a).on = s.on ∧ (s.erase a).stack = s.stack := by
  unfold S.erase
  split
  · exact ⟨id, rfl, rfl⟩
  · exact ⟨fun h => by simp [h], rfl, rfl⟩

theorem startReset_keeps (s : S) (c : Nat) (k : List Frame) :
    (s.list = [] → (startReset s c k).list = []) ∧ (startReset s c k).on = s.on ∧
    (.ntail ∈ (startReset s c k).stack → .ntail ∈ k ∨ .ntail ∈ s.stack) := by
  unfold startReset
  split
  · exact ⟨id, rfl, .inl⟩
  · simp only
    split
    · exact ⟨id, rfl, fun h => .inl (by simpa using h)⟩
    · rename_i a _
      split
      · exact ⟨id, rfl, .inr⟩
      · split
        · obtain ⟨h1, h2, -⟩ := erase_keeps { s with busy := upd s.busy c true } a
          exact ⟨h1, h2, fun h => .inl (by simpa using h)⟩
        · exact ⟨id, rfl, fun h => .inl (by simpa using h)⟩

theorem dry_startReset {s : S} {c : Nat} {k : List Frame} (h : Dry s) (hk : .ntail ∈ k → .ntail ∈ s.stack) : Dry (startReset s c k) := by
  obtain ⟨h1, h2, h3⟩ := startReset_keeps s c k
  exact dry_of h h1 h2 (fun hm => (h3 hm).elim hk id)

theorem dry_go {s : S} (h : Dry s) : Dry (go s) := by
  unfold go
  split
  · exact h
  · split
    · exact h
    · rename_i c k hs
      unfold endInvalid
      split
      · exact dry_of h id rfl id
      · rename_i a _
        obtain ⟨h1, h2, -⟩ := erase_keeps s a
        exact dry_of h h1 h2 (fun hm => by rw [hs]; simpa using hm)
    · rename_i c k hs
      exact dry_of h id rfl (fun hm => by rw [hs]; exact List.mem_cons_of_mem _ hm)
    · rename_i sec k hs
      have hk : ∀ f, f ∈ k → f ∈ s.stack := fun f hf => by rw [hs]; exact List.mem_cons_of_mem _ hf
      unfold loop
      split
      · rename_i hl; exact dry_of h id rfl (hk _)
      · rename_i a c rest hl
        split
        · split
          · exact dry_of h (fun h' => by rw [hl] at h'; cases h') rfl id
          · exact dry_of h (fun h' => by rw [hl] at h'; cases h') rfl id
        · split
          · exact dry_of h id rfl (hk _)
          · split
            · exact dry_startReset h (fun hm => hk _ (by simpa using hm))
            · exact dry_of h id rfl (fun hm => hk _ (by simpa using hm))
    · rename_i sec a k hs
      have hk : ∀ f, f ∈ k → f ∈ s.stack := fun f hf => by rw [hs]; exact List.mem_cons_of_mem _ hf
      split
      · exact dry_of h id rfl id
      · exact dry_startReset h (fun hm => hk _ (by simpa using hm))
    · rename_i sec a k hs
      have hk : ∀ f, f ∈ k → f ∈ s.stack := fun f hf => by rw [hs]; exact List.mem_cons_of_mem _ hf
      split
      · split
        · exact dry_of h id rfl (fun hm => hk _ (by simpa using hm))
        · exact dry_of h id rfl (fun hm => hk _ (by simpa using hm))
      · exact dry_of h id rfl (fun hm => hk _ (by simpa using hm))
    · rename_i sec a k hs
      have hk : ∀ f, f ∈ k → f ∈ s.stack := fun f hf => by rw [hs]; exact List.mem_cons_of_mem _ hf
      obtain ⟨h1, h2, -⟩ := erase_keeps s a
      exact dry_of h h1 h2 (fun hm => hk _ (by simpa using hm))
    · rename_i k hs
      have hk : ∀ f, f ∈ k → f ∈ s.stack := fun f hf => by rw [hs]; exact List.mem_cons_of_mem _ hf
      split
      · rename_i hl; exact fun _ => hl
      · exact dry_startReset h (fun hm => hk _ (by simpa using hm))
    · rename_i a k hs
      have hk : ∀ f, f ∈ k → f ∈ s.stack := fun f hf => by rw [hs]; exact List.mem_cons_of_mem _ hf
      split
      · rename_i a' c rest hl
        split
        · exact dry_of h (fun h' => by rw [hl] at h'; cases h') rfl (fun hm => hk _ (by simpa using hm))
        · exact dry_of h id rfl (fun hm => hk _ (by simpa using hm))
      · exact dry_of h id rfl (fun hm => hk _ (by simpa using hm))
    · rename_i k hs
      exact fun _ => h (.inr (by rw [hs]; exact List.mem_cons_self))

theorem dry_call {s : S} {op : Op} (h : Dry s) (hq : ∀ a t, op = .new a t → .ntail ∉ s.stack) : Dry (call s op) := by
  cases op with
  | new a t =>
    simp only [call]
    split
    · rename_i hon
      rintro (h1 | h1)
      · have h1 : s.on = false := h1
        rw [hon] at h1; cases h1
      · exact absurd h1 (hq a t rfl)
    · exact dry_of h id rfl id
  | done c =>
    simp only [call]
    split
    · exact h
    · split
      · exact dry_of h id rfl id
      · rename_i a _
        obtain ⟨h1, h2, h3⟩ := erase_keeps { s with up := upd s.up c true } a
        exact dry_of h h1 h2 (fun hm => by rw [← h3]; exact hm)
  | temporary c => exact dry_of h id rfl id
  | reset c => exact dry_startReset h id
  | proc sec =>
    simp only [call]
    split
    · exact h
    · exact dry_of h id rfl (fun hm => by simpa using hm)
  | nodeReset =>
    simp only [call]
    split
    · exact h
    · exact dry_of h id rfl (fun hm => by simpa using hm)
  | init =>
    rintro (h1 | h1)
    · cases h1
    · exact h (.inr h1)

theorem dry_run {s : S} (acts : List Act) (h : Dry s) (hq : Quiet s acts) : Dry (run s acts) := by
  induction acts generalizing s with
  | nil => exact h
  | cons act acts ih =>
    cases act with
    | go => exact ih (dry_go h) hq
    | app op =>
      refine ih ?_ hq.2
      simp only [step]
      split
      · exact dry_call h hq.1
      · exact h

/-- C74 (a node that was reset waits for nothing): if no connection is made in the callbacks of the rest of `node::reset`, the list of
a node that is not initialised is empty - whatever else the application does.
Partial: see `C74_left_false`. -/
theorem C74_reset_partial (acts : List Act) (hq : Quiet {} acts) (hon : (run {} acts).on = false) : (run {} acts).list = [] :=
  dry_run acts (by intro _; rfl) hq (.inl hon)

/-! ### What goes wrong otherwise -/

/-- C74 is false of an application that calls `proc` in `on_invalid_connection`: connection 0 times out while it is being
reset, is reported a second time, and its entry is erased twice. -/
theorem C74_proc_false :
    let s := run {} [.app (.new 7 10), .app (.reset 0), .app (.proc 11), .go, .go, .go, .go, .go, .go]
    s.log.count (.invalid 0) = 2 ∧ s.ub = true := by decide

/-- C74 is false of an application that resets the connection in `on_error` of its timeout: `proc` goes on with an iterator
whose node was erased. -/
theorem C74_error_false :
    (run {} [.app (.new 7 10), .app (.proc 11), .go, .app (.reset 0), .go, .go, .go]).ub = true := by decide

/-- C74 is false when a list node gets the address of one that was erased: connection 1 is made in the callbacks of the reset of connection
0 that timed out, and is reported as invalid at once, though its time is not over; its entry is erased without telling the
connection, and resetting it later is undefined. -/
theorem C74_reuse_false :
    let s := run {} [.app (.new 7 10), .app (.proc 11), .go, .go, .go, .app (.new 7 1000), .go, .go, .go, .go]
    s.log.count (.invalid 1) = 1 ∧ s.list = [] ∧ s.chk 1 = some 7 ∧ s.stack = [] ∧ s.ub = false ∧
    (run s [.app (.reset 1)]).ub = true := by decide

/-- C74 is false of an application that makes a connection in a callback of the rest of `node::reset`: the list of the node that was
reset is not empty. -/
theorem C74_left_false :
    let s := run {} [.app .nodeReset, .go, .app (.new 7 10), .go]
    s.on = false ∧ s.stack = [] ∧ s.list = [(7, 0)] := by decide

/-! ### Examples -/

/-- Three connections: one is established, one times out, one is taken away by `node::reset`. -/
def exRun : List Act :=
  [.app (.new 1 10), .app (.new 2 20), .app (.new 3 30), .app (.done 0), .app (.proc 21), .go, .go, .go, .app (.new 4 40), .go, .go, .go,
   .app .nodeReset, .go, .go, .go, .go, .go, .go, .go, .go, .go, .go]

instance : ∀ (s : S) (acts : List Act), Decidable (Polite s acts)
  | _, [] => isTrue trivial
  | s, .go :: acts => instDecidable (step s .go) acts
  | s, .app op :: acts => @instDecidableAnd _ _ _ (instDecidable (step s (.app op)) acts)
where instDecidable : ∀ (s : S) (acts : List Act), Decidable (Polite s acts)
  | _, [] => isTrue trivial
  | s, .go :: acts => instDecidable (step s .go) acts
  | s, .app op :: acts => @instDecidableAnd _ _ _ (instDecidable (step s (.app op)) acts)

example : Polite {} exRun := by decide

example : (run {} exRun).stack = [] ∧ (run {} exRun).on = false ∧
    (run {} exRun).log = [.listed 0, .listed 1, .listed 2, .finished 0, .invalid 1, .listed 3, .invalid 2, .invalid 3] ∧
    goes {} exRun = 16 ∧ calls exRun = 7 := by decide

end Verif.Node.Waiting
