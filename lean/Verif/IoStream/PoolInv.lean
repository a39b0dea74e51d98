import Verif.IoStream.PoolSpec

/-!
Invariants of the stream channel: tables, handles, frames and write requests agree.
-/
namespace Verif.IoStream.Pool

/-- At most one callback of libuv is active. -/
def shape : List Frame → Prop
  | [] => True
  | f :: fs => ((∃ t, f = .listenRet t) ∨ fs.any Frame.uv = false) ∧ shape fs

def isW (r : Ref) : Frame → Bool
  | .written c _ _ => c == r
  | _ => false

/-- What holds while a frame waits for its callback. -/
def FrameOk (s : St) : Frame → Prop
  | .onClose r _ _ => r < s.next ∧ (r, r) ∈ s.gc ∧ (s.conn r).status = .disconnected
  | .written r _ _ => r < s.next ∧ (s.conn r).status ≠ .disconnected
  | .cancel r _ _ =>
    r < s.next ∧ (s.conn r).status = .disconnecting ∧ (s.conn r).closing = true ∧ (s.conn r).writing = false
  | .recv r _ _ | .recvErr r _ => r < s.next ∧ (s.conn r).status ≠ .disconnected
  | _ => True

structure Core (s : St) : Prop where
  pk : (s.pool.map (·.1)).Nodup
  p : ∀ p ∈ s.pool, p.2 < s.next ∧ (s.conn p.2).fd = p.1 ∧ (s.conn p.2).closing = false
  gk : (s.gc.map (·.1)).Nodup
  g : ∀ p ∈ s.gc, p.1 = p.2 ∧ p.2 < s.next ∧ (s.conn p.2).closing = true
  op : ∀ r, r < s.next → (s.conn r).closing = false →
    ((s.conn r).fd, r) ∈ s.pool ∧ ((s.conn r).status = .connected ∨ (s.conn r).status = .disconnecting)
  sd : ∀ r, r < s.next → (s.conn r).closing = true →
    ((s.conn r).status = .disconnecting ∧ (r, r) ∈ s.gc ∧ s.hands.count (.conn r) = 1) ∨
    ((s.conn r).status = .disconnected ∧ s.hands.count (.conn r) = 0)
  h : ∀ r, .conn r ∈ s.hands → r < s.next ∧ (s.conn r).closing = true
  new : ∀ r, s.next ≤ r → s.conn r = ⟨0, .created, false, false, none, []⟩
  sh : shape s.stack
  fr : ∀ f ∈ s.stack, FrameOk s f
  act : s.active = s.reqs.length
  wr : ∀ r, s.reqs.count (.write r) + s.stack.countP (isW r) = (s.conn r).writing.toNat
  wl : ∀ r, (s.conn r).writing = true → (s.conn r).status ≠ .disconnected ∧ (s.conn r).q ≠ []
  ne : ∀ r, [] ∉ (s.conn r).q

theorem core_init : Core St.init := by
  constructor <;> simp [St.init, shape]

/-! ### Tables -/

theorem lookup_of_mem {m : List (Nat × Ref)} (hn : (m.map (·.1)).Nodup) {k : Nat} {v : Ref} (h : (k, v) ∈ m) :
    m.lookup k = some v := by
  induction m with
  | nil => simp at h
  | cons a m ih =>
    rw [List.map_cons, List.nodup_cons] at hn
    rcases List.mem_cons.1 h with h1 | h1
    · subst h1; simp
    · have : a.1 ≠ k := by
        intro e; apply hn.1; rw [e]; exact List.mem_map.2 ⟨_, h1, rfl⟩
      obtain ⟨x, y⟩ := a
      rw [List.lookup_cons]
      have hx : (k == x) = false := by simp; intro e; exact this e.symm
      simp only [hx]
      exact ih hn.2 h1

theorem mem_of_lookup {m : List (Nat × Ref)} {k : Nat} {v : Ref} (h : m.lookup k = some v) : (k, v) ∈ m := by
  induction m with
  | nil => simp at h
  | cons a m ih =>
    obtain ⟨x, y⟩ := a
    rw [List.lookup_cons] at h
    by_cases hx : (k == x) = true
    · simp only [hx] at h
      cases h
      rw [eq_of_beq hx]
      exact List.mem_cons_self
    · have hx : (k == x) = false := by cases hk : (k == x) <;> simp_all
      simp only [hx] at h
      exact List.mem_cons_of_mem _ (ih h)

theorem mem_erase {m : List (Nat × Ref)} {k : Nat} {p : Nat × Ref} : p ∈ erase m k ↔ p ∈ m ∧ p.1 ≠ k := by
  simp [erase, List.mem_filter]

theorem mem_insert {m : List (Nat × Ref)} {k : Nat} {v : Ref} {p : Nat × Ref} :
    p ∈ insert m k v ↔ p = (k, v) ∨ (p ∈ m ∧ p.1 ≠ k) := by
  simp [insert, mem_erase]

theorem erase_nodup {m : List (Nat × Ref)} (k : Nat) (h : (m.map (·.1)).Nodup) : ((erase m k).map (·.1)).Nodup := by
  unfold erase
  exact h.sublist (List.Sublist.map _ List.filter_sublist)

theorem insert_nodup {m : List (Nat × Ref)} (k : Nat) (v : Ref) (h : (m.map (·.1)).Nodup) :
    ((insert m k v).map (·.1)).Nodup := by
  unfold insert
  rw [List.map_cons, List.nodup_cons]
  refine ⟨?_, erase_nodup k h⟩
  intro hm
  obtain ⟨p, hp, e⟩ := List.mem_map.1 hm
  exact (mem_erase.1 hp).2 e

/-! ### Frames -/

@[simp] theorem rehash_uv (f : Frame) : f.rehash.uv = f.uv := by cases f <;> rfl

@[simp] theorem rehash_isW (r : Ref) (f : Frame) : isW r f.rehash = isW r f := by cases f <;> rfl

theorem any_rehash (l : List Frame) : (l.map Frame.rehash).any Frame.uv = l.any Frame.uv := by
  induction l with
  | nil => rfl
  | cons f l ih => simp [ih]

theorem shape_rehash {l : List Frame} (h : shape l) : shape (l.map Frame.rehash) := by
  induction l with
  | nil => trivial
  | cons f l ih =>
    refine ⟨?_, ih h.2⟩
    rcases h.1 with ⟨t, rfl⟩ | h1
    · exact Or.inl ⟨t, rfl⟩
    · exact Or.inr (by rw [any_rehash]; exact h1)

theorem count_rehash (r : Ref) (l : List Frame) : (l.map Frame.rehash).countP (isW r) = l.countP (isW r) := by
  induction l with
  | nil => rfl
  | cons f l ih => simp [List.countP_cons, ih]

theorem ok_rehash {s : St} {f : Frame} (h : FrameOk s f) : FrameOk s f.rehash := by cases f <;> exact h

theorem Core.canLoop {s : St} (h : Core s) (hl : s.canLoop = true) : s.stack.any Frame.uv = false := by
  have h1 := h.sh
  unfold St.canLoop at hl
  match hs : s.stack, hl, h1 with
  | [], _, _ => rfl
  | .closeWait :: _, _, h1 =>
    rcases h1.1 with ⟨t, ht⟩ | h2
    · cases ht
    · simpa [Frame.uv] using h2

theorem no_uv {l : List Frame} (h : l.any Frame.uv = false) {f : Frame} (hf : f ∈ l) : f.uv = false := by
  rw [List.any_eq_false] at h
  simpa using h f hf

theorem no_isW {l : List Frame} (h : l.any Frame.uv = false) (r : Ref) : l.countP (isW r) = 0 := by
  rw [List.countP_eq_zero]
  intro f hf
  have := no_uv h hf
  cases f <;> simp_all [Frame.uv, isW]

/-- Frames that say nothing. -/
theorem ok_of_no_uv {s : St} {l : List Frame} (h : l.any Frame.uv = false) : ∀ f ∈ l, FrameOk s f := by
  intro f hf
  have := no_uv h hf
  cases f <;> simp_all [Frame.uv, FrameOk]

theorem shape_tail {f : Frame} {l : List Frame} (h : shape (f :: l)) : shape l := h.2

theorem shape_uv {f : Frame} {l : List Frame} (h : shape (f :: l)) (hf : f.uv = true) : l.any Frame.uv = false := by
  rcases h.1 with ⟨t, rfl⟩ | h
  · cases hf
  · exact h

/-! ### Single changes -/

@[simp] theorem upd_same (f : Ref → Conn) (r : Ref) (c : Conn) : upd f r c r = c := by simp [upd]

theorem upd_ne (f : Ref → Conn) {r x : Ref} (c : Conn) (h : x ≠ r) : upd f r c x = f x := by simp [upd, h]

/-- The fields of one object change; tables and requests do not. -/
theorem core_set {s : St} (h : Core s) {r : Ref} (hr : r < s.next) (c : Conn) (hfd : c.fd = (s.conn r).fd)
    (hc : c.closing = (s.conn r).closing) (hw : c.writing = (s.conn r).writing)
    (hs : c.status = (s.conn r).status ∨ ((s.conn r).status = .connected ∧ c.status = .disconnecting))
    (hq : c.writing = true → c.q ≠ []) (hn : [] ∉ c.q) : Core (s.set r c) := by
  constructor
  · exact h.pk
  · intro p hp
    have := h.p p hp
    refine ⟨this.1, ?_⟩
    simp only [St.set]
    by_cases e : p.2 = r
    · rw [e, upd_same, hfd, hc]; rw [e] at this; exact this.2
    · rw [upd_ne _ _ e]; exact this.2
  · exact h.gk
  · intro p hp
    have := h.g p hp
    refine ⟨this.1, this.2.1, ?_⟩
    simp only [St.set]
    by_cases e : p.2 = r
    · rw [e, upd_same, hc]; rw [e] at this; exact this.2.2
    · rw [upd_ne _ _ e]; exact this.2.2
  · intro x hx hxc
    simp only [St.set] at hxc ⊢
    by_cases e : x = r
    · subst e
      rw [upd_same] at hxc ⊢
      rw [hc] at hxc
      have := h.op x hx hxc
      rw [hfd]
      refine ⟨this.1, ?_⟩
      rcases hs with hs | hs
      · rw [hs]; exact this.2
      · exact Or.inr hs.2
    · rw [upd_ne _ _ e] at hxc ⊢; exact h.op x hx hxc
  · intro x hx hxc
    simp only [St.set] at hxc ⊢
    by_cases e : x = r
    · subst e
      rw [upd_same] at hxc ⊢
      rw [hc] at hxc
      have := h.sd x hx hxc
      rcases hs with hs | hs
      · rw [hs]; exact this
      · rw [hs.1] at this; simp at this
    · rw [upd_ne _ _ e] at hxc ⊢; exact h.sd x hx hxc
  · intro x hx
    have := h.h x hx
    refine ⟨this.1, ?_⟩
    simp only [St.set]
    by_cases e : x = r
    · rw [e, upd_same, hc]; rw [e] at this; exact this.2
    · rw [upd_ne _ _ e]; exact this.2
  · intro x hx
    simp only [St.set] at hx ⊢
    rw [upd_ne _ _ (Nat.ne_of_gt (Nat.lt_of_lt_of_le hr hx))]; exact h.new x hx
  · exact h.sh
  · intro f hf
    have := h.fr f hf
    have key : ∀ x, (upd s.conn r c x).status = .disconnected ↔ (s.conn x).status = .disconnected := by
      intro x
      by_cases e : x = r
      · rw [e, upd_same]
        rcases hs with hs | hs
        · rw [hs]
        · rw [hs.1, hs.2]; simp
      · rw [upd_ne _ _ e]
    have key2 : ∀ x, (s.conn x).status = .disconnecting → (upd s.conn r c x).status = .disconnecting := by
      intro x hx
      by_cases e : x = r
      · rw [e, upd_same]
        rw [e] at hx
        rcases hs with hs | hs
        · rw [hs, hx]
        · rw [hs.2]
      · rw [upd_ne _ _ e]; exact hx
    have key3 : ∀ x, (upd s.conn r c x).closing = (s.conn x).closing ∧ (upd s.conn r c x).writing = (s.conn x).writing := by
      intro x
      by_cases e : x = r
      · rw [e, upd_same, hc, hw]; exact ⟨rfl, rfl⟩
      · rw [upd_ne _ _ e]; exact ⟨rfl, rfl⟩
    cases f <;> simp only [FrameOk, St.set, ne_eq, key, key3] at this ⊢
    all_goals first | exact this | exact ⟨this.1, key2 _ this.2.1, this.2.2⟩
  · exact h.act
  · intro x
    simp only [St.set]
    by_cases e : x = r
    · rw [e, upd_same, hw]; exact h.wr r
    · rw [upd_ne _ _ e]; exact h.wr x
  · intro x hx
    simp only [St.set] at hx ⊢
    by_cases e : x = r
    · rw [e, upd_same] at hx ⊢
      refine ⟨?_, hq hx⟩
      rw [hw] at hx
      rcases hs with hs | hs
      · rw [hs]; exact (h.wl r hx).1
      · rw [hs.2]; simp
    · rw [upd_ne _ _ e] at hx ⊢; exact h.wl x hx
  · intro x
    simp only [St.set]
    by_cases e : x = r
    · rw [e, upd_same]; exact hn
    · rw [upd_ne _ _ e]; exact h.ne x

/-- The object is held by a table unless it was reported as disconnected. -/
theorem Core.held {s : St} (h : Core s) {r : Ref} (hr : r < s.next) (hs : (s.conn r).status ≠ .disconnected) :
    s.held r = true := by
  unfold St.held
  rw [Bool.or_eq_true]
  cases hc : (s.conn r).closing with
  | false => exact Or.inl (List.any_eq_true.2 ⟨_, (h.op r hr hc).1, by simp⟩)
  | true =>
    rcases h.sd r hr hc with h1 | h1
    · exact Or.inr (List.any_eq_true.2 ⟨_, h1.2.1, by simp⟩)
    · exact absurd h1.1 hs

theorem Core.of_held {s : St} (h : Core s) {r : Ref} (hr : s.held r = true) : r < s.next := by
  unfold St.held at hr
  rw [Bool.or_eq_true, List.any_eq_true, List.any_eq_true] at hr
  rcases hr with ⟨p, hp, e⟩ | ⟨p, hp, e⟩
  · rw [← eq_of_beq e]; exact (h.p p hp).1
  · rw [← eq_of_beq e]; exact (h.g p hp).2.1

theorem Core.of_opened {s : St} (h : Core s) {r : Ref} (hr : s.opened r = true) :
    r < s.next ∧ (s.conn r).closing = false := by
  unfold St.opened at hr
  obtain ⟨p, hp, e⟩ := List.any_eq_true.1 hr
  rw [← eq_of_beq e]
  exact ⟨(h.p p hp).1, (h.p p hp).2.2⟩

/-- The state after the handle of an open connection was given to `uv_close`. -/
def shut (ev : Env) (s : St) (r : Ref) : St :=
  { s.set r { s.conn r with closing := true } with
    pool := erase s.pool (s.conn r).fd
    gc := insert s.gc r r
    hands := s.hands ++ [.conn r]
    stack := if ev.rehash then s.stack.map Frame.rehash else s.stack }

theorem run_shut {ev : Env} {s : St} {r : Ref} (h : Core s) (hr : r < s.next) (hc : (s.conn r).closing = false) :
    disconnectRun ev s r = .ok (shut ev s r) := by
  unfold disconnectRun
  rw [if_neg (by simp [hc])]
  unfold shutdownConn
  have := lookup_of_mem h.pk (h.op r hr hc).1
  simp only [St.set, upd_same, this, shut]

theorem core_shut {ev : Env} {s : St} {r : Ref} (h : Core s) (hr : r < s.next) (hc : (s.conn r).closing = false)
    (hs : (s.conn r).status = .disconnecting) : Core (shut ev s r) := by
  have hg : ∀ p ∈ s.gc, p.1 ≠ r := by
    intro p hp e
    have := h.g p hp
    rw [← this.1, e, hc] at this
    simp at this
  have hh : s.hands.count (.conn r) = 0 := by
    rw [List.count_eq_zero]
    intro hm
    have := (h.h r hm).2
    rw [hc] at this; cases this
  constructor
  · exact erase_nodup _ h.pk
  · intro p hp
    simp only [shut, St.set] at hp ⊢
    have hp := mem_erase.1 hp
    have := h.p p hp.1
    by_cases e : p.2 = r
    · exfalso; apply hp.2; rw [← this.2.1, e]
    · rw [upd_ne _ _ e]; exact this
  · exact insert_nodup _ _ h.gk
  · intro p hp
    simp only [shut, St.set] at hp ⊢
    rcases mem_insert.1 hp with rfl | hp
    · simp [hr]
    · have := h.g p hp.1
      rw [upd_ne _ _ (by rw [← this.1]; exact hp.2)]; exact this
  · intro x hx hxc
    simp only [shut, St.set] at hxc ⊢
    by_cases e : x = r
    · rw [e, upd_same] at hxc; simp at hxc
    · rw [upd_ne _ _ e] at hxc ⊢
      have := h.op x hx hxc
      refine ⟨mem_erase.2 ⟨this.1, ?_⟩, this.2⟩
      simp only
      intro e2
      have h1 := lookup_of_mem h.pk this.1
      have h2 := lookup_of_mem h.pk (h.op r hr hc).1
      rw [e2, h2] at h1
      exact e (Option.some.inj h1).symm
  · intro x hx hxc
    simp only [shut, St.set] at hxc ⊢
    rw [List.count_append]
    by_cases e : x = r
    · subst e
      rw [upd_same]
      left
      refine ⟨hs, mem_insert.2 (Or.inl rfl), ?_⟩
      rw [hh]; simp
    · rw [upd_ne _ _ e] at hxc ⊢
      have h0 : [Hand.conn r].count (.conn x) = 0 := by
        rw [List.count_eq_zero]; simp [e]
      rw [h0, Nat.add_zero]
      rcases h.sd x hx hxc with h1 | h1
      · exact Or.inl ⟨h1.1, mem_insert.2 (Or.inr ⟨h1.2.1, by simpa using e⟩), h1.2.2⟩
      · exact Or.inr h1
  · intro x hx
    simp only [shut, St.set] at hx ⊢
    rcases List.mem_append.1 hx with hx | hx
    · have := h.h x hx
      refine ⟨this.1, ?_⟩
      by_cases e : x = r
      · rw [e, upd_same]
      · rw [upd_ne _ _ e]; exact this.2
    · simp at hx; subst hx; simp [hr]
  · intro x hx
    simp only [shut, St.set] at hx ⊢
    rw [upd_ne _ _ (Nat.ne_of_gt (Nat.lt_of_lt_of_le hr hx))]; exact h.new x hx
  · show shape (if ev.rehash then s.stack.map Frame.rehash else s.stack)
    split
    · exact shape_rehash h.sh
    · exact h.sh
  · have key : ∀ f ∈ s.stack, FrameOk (shut ev s r) f := by
      intro f hf
      have := h.fr f hf
      have k1 : ∀ x, ((shut ev s r).conn x).status = (s.conn x).status ∧
          ((shut ev s r).conn x).writing = (s.conn x).writing := by
        intro x
        simp only [shut, St.set]
        by_cases e : x = r
        · rw [e, upd_same]; exact ⟨rfl, rfl⟩
        · rw [upd_ne _ _ e]; exact ⟨rfl, rfl⟩
      have k2 : ∀ x, (s.conn x).closing = true → ((shut ev s r).conn x).closing = true := by
        intro x hx
        simp only [shut, St.set]
        by_cases e : x = r
        · rw [e, upd_same]
        · rw [upd_ne _ _ e]; exact hx
      have k3 : ∀ x, (x, x) ∈ s.gc → (x, x) ∈ (shut ev s r).gc := by
        intro x hx
        exact mem_insert.2 (Or.inr ⟨hx, hg _ hx⟩)
      cases f <;> simp only [FrameOk, k1] at this ⊢
      all_goals first | exact this | exact ⟨this.1, k3 _ this.2.1, this.2.2⟩ | skip
      exact ⟨this.1, this.2.1, k2 _ this.2.2.1, this.2.2.2⟩
    intro f hf
    simp only [shut] at hf
    split at hf
    · obtain ⟨g, hg, rfl⟩ := List.mem_map.1 hf
      exact ok_rehash (key g hg)
    · exact key f hf
  · exact h.act
  · intro x
    have := h.wr x
    simp only [shut, St.set]
    have e1 : (if ev.rehash = true then s.stack.map Frame.rehash else s.stack).countP (isW x) = s.stack.countP (isW x) := by
      split
      · exact count_rehash x _
      · rfl
    rw [e1]
    by_cases e : x = r
    · rw [e, upd_same]; rw [e] at this; exact this
    · rw [upd_ne _ _ e]; exact this
  · intro x hx
    simp only [shut, St.set] at hx ⊢
    by_cases e : x = r
    · rw [e, upd_same] at hx ⊢; exact h.wl r hx
    · rw [upd_ne _ _ e] at hx ⊢; exact h.wl x hx
  · intro x
    simp only [shut, St.set]
    by_cases e : x = r
    · rw [e, upd_same]; exact h.ne r
    · rw [upd_ne _ _ e]; exact h.ne x

end Verif.IoStream.Pool
