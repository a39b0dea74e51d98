import Verif.Node.Poll

/-!
Property C67: polling of memory and shared memory channels.
-/
namespace Verif.Node.Poll

/-! ### Invariant of the table -/

structure Inv (s : S) : Prop where
  nodup : s.table.Nodup
  lt : ∀ x ∈ s.table, x < s.n
  keys : ∀ x ∈ s.table, ∀ y ∈ s.table, (s.conn x).key = (s.conn y).key → x = y
  up : ∀ x ∈ s.table, (s.conn x).up = true ∧ (s.conn x).reg = true
  fresh : ∀ x, s.n ≤ x → (s.conn x).up = false
  /-- without a refused address the table has every open connection -/
  all : s.dup = false → ∀ x, (s.conn x).up = true → x ∈ s.table

theorem set_conn (s : S) (c : Nat) (k : Conn) (x : Nat) : (s.set c k).conn x = if x = c then k else s.conn x := rfl

theorem inv_close {s : S} (h : Inv s) (c : Nat) : Inv (close s c) := by
  unfold close
  by_cases hk : ((s.conn c).up && (s.conn c).reg) = true
  · simp only [hk, if_true]
    constructor
    · exact h.nodup.filter _
    · intro x hx; exact h.lt x (List.mem_filter.1 hx).1
    · intro x hx y hy
      have hx := List.mem_filter.1 hx
      have hy := List.mem_filter.1 hy
      simp only [set_conn]
      intro he
      apply h.keys x hx.1 y hy.1
      by_cases e1 : x = c <;> by_cases e2 : y = c <;> simp_all
    · intro x hx
      have hx := List.mem_filter.1 hx
      simp only [set_conn]
      have : x ≠ c := by rintro rfl; simp at hx
      simpa [this] using h.up x hx.1
    · intro x hx
      simp only [set_conn]
      split
      · rfl
      · exact h.fresh x hx
    · intro hd x hx
      simp only [set_conn] at hx
      split at hx
      · cases hx
      · rename_i hne
        have hm := h.all hd x hx
        refine List.mem_filter.2 ⟨hm, ?_⟩
        simp only [bne_iff_ne, ne_eq]
        intro he
        rw [Bool.and_eq_true] at hk
        exact hne (h.keys x hm c (h.all hd c hk.1) he)
  · simp only [hk, if_false]
    have hc : c ∉ s.table := fun hm => hk (by simp [h.up c hm])
    constructor
    · exact h.nodup
    · exact h.lt
    · intro x hx y hy
      have e1 : x ≠ c := by rintro rfl; exact hc hx
      have e2 : y ≠ c := by rintro rfl; exact hc hy
      simpa [set_conn, e1, e2] using h.keys x hx y hy
    · intro x hx
      have e1 : x ≠ c := by rintro rfl; exact hc hx
      simpa [set_conn, e1] using h.up x hx
    · intro x hx
      simp only [set_conn]
      split
      · rfl
      · exact h.fresh x hx
    · intro hd x hx
      simp only [set_conn] at hx
      split at hx
      · cases hx
      · exact h.all hd x hx

theorem mem_insert {t : List Nat} {c pos x : Nat} : x ∈ t.take pos ++ c :: t.drop pos ↔ x = c ∨ x ∈ t := by
  have : x ∈ t ↔ x ∈ t.take pos ++ t.drop pos := by rw [List.take_append_drop]
  rw [this]
  simp only [List.mem_append, List.mem_cons]
  constructor
  · rintro (h | h | h)
    · exact .inr (.inl h)
    · exact .inl h
    · exact .inr (.inr h)
  · rintro (h | h | h)
    · exact .inr (.inl h)
    · exact .inl h
    · exact .inr (.inr h)

theorem nodup_insert {t : List Nat} {c pos : Nat} (h : t.Nodup) (hc : c ∉ t) : (t.take pos ++ c :: t.drop pos).Nodup := by
  have hp : (t.take pos ++ c :: t.drop pos).Perm (c :: t) := by
    have := List.perm_middle (a := c) (l₁ := t.take pos) (l₂ := t.drop pos)
    rwa [List.take_append_drop] at this
  rw [hp.nodup_iff, List.nodup_cons]
  exact ⟨hc, h⟩

theorem inv_listen {s : S} (h : Inv s) (key pos : Nat) (rehash : Bool) : Inv (listen s key pos rehash) := by
  have hn : s.n ∉ s.table := fun hm => Nat.lt_irrefl _ (h.lt _ hm)
  unfold listen
  by_cases hk : (s.table.any fun x => (s.conn x).key == key) = true
  · simp only [hk, if_true]
    constructor
    · exact h.nodup
    · intro x hx
      have := h.lt x hx
      show x < s.n + 1
      omega
    · intro x hx y hy
      have e1 : x ≠ s.n := by rintro rfl; exact hn hx
      have e2 : y ≠ s.n := by rintro rfl; exact hn hy
      simpa [set_conn, e1, e2] using h.keys x hx y hy
    · intro x hx
      have e1 : x ≠ s.n := by rintro rfl; exact hn hx
      simpa [set_conn, e1] using h.up x hx
    · intro x hx
      have hx : s.n + 1 ≤ x := hx
      have e1 : x ≠ s.n := by omega
      simpa [set_conn, e1] using h.fresh x (by omega)
    · intro hd; cases hd
  · simp only [hk]
    have hk' : ∀ x ∈ s.table, (s.conn x).key ≠ key := by
      intro x hx he
      apply hk
      rw [List.any_eq_true]
      exact ⟨x, hx, by simpa using he⟩
    constructor
    · exact nodup_insert h.nodup hn
    · intro x hx
      show x < s.n + 1
      rcases mem_insert.1 hx with e | e
      · omega
      · have := h.lt x e; omega
    · intro x hx y hy
      simp only [S.set]
      rcases mem_insert.1 hx with e1 | e1 <;> rcases mem_insert.1 hy with e2 | e2
      · intro _; rw [e1, e2]
      · have : y ≠ s.n := by rintro rfl; exact hn e2
        simp only [e1, this, if_true, if_false, Bool.false_eq_true]
        intro he; exact absurd he.symm (hk' y e2)
      · have : x ≠ s.n := by rintro rfl; exact hn e1
        simp only [e2, this, if_true, if_false, Bool.false_eq_true]
        intro he; exact absurd he (hk' x e1)
      · have n1 : x ≠ s.n := by rintro rfl; exact hn e1
        have n2 : y ≠ s.n := by rintro rfl; exact hn e2
        simpa [n1, n2] using h.keys x e1 y e2
    · intro x hx
      simp only [S.set]
      rcases mem_insert.1 hx with e1 | e1
      · simp [e1]
      · have n1 : x ≠ s.n := by rintro rfl; exact hn e1
        simpa [n1] using h.up x e1
    · intro x hx
      have hx : s.n + 1 ≤ x := hx
      have e1 : x ≠ s.n := by omega
      simp only [S.set]
      simpa [e1] using h.fresh x (by omega)
    · intro hd x hx
      simp only [S.set] at hx
      refine mem_insert.2 ?_
      by_cases e1 : x = s.n
      · exact .inl e1
      · exact .inr (h.all hd x (by simpa [e1] using hx))

theorem inv_fault {s : S} (h : Inv s) (c f : Nat) : Inv (s.set c { s.conn c with fault := f }) := by
  have hk : ∀ x, ((s.set c { s.conn c with fault := f }).conn x).key = (s.conn x).key := by
    intro x; simp only [set_conn]; split
    · rename_i e; rw [e]
    · rfl
  have hu : ∀ x, ((s.set c { s.conn c with fault := f }).conn x).up = (s.conn x).up := by
    intro x; simp only [set_conn]; split
    · rename_i e; rw [e]
    · rfl
  have hr : ∀ x, ((s.set c { s.conn c with fault := f }).conn x).reg = (s.conn x).reg := by
    intro x; simp only [set_conn]; split
    · rename_i e; rw [e]
    · rfl
  constructor
  · exact h.nodup
  · exact h.lt
  · intro x hx y hy; rw [hk, hk]; exact h.keys x hx y hy
  · intro x hx; rw [hu, hr]; exact h.up x hx
  · intro x hx; rw [hu]; exact h.fresh x hx
  · intro hd x; rw [hu]; exact h.all hd x

theorem inv_act {s : S} (h : Inv s) (a : Act) : Inv (act s a) := by
  cases a with
  | close c =>
    simp only [act]
    split
    · exact inv_close h c
    · exact h
  | listen key pos rehash => exact inv_listen h key pos rehash

theorem inv_addFault {cf : Conf} {s : S} (h : Inv s) (c : Nat) : Inv (addFault cf s c) := by
  unfold addFault
  simp only
  split
  · exact inv_close (inv_fault h c _) c
  · exact inv_fault h c _

/-- A property of states kept by what happens in the loop of one connection. -/
theorem loop_keeps {cf : Conf} {c : Nat} {P : S → Prop} (hact : ∀ s a, P s → P (act s a)) (hfault : ∀ s, P s → P (addFault cf s c))
    (hclear : ∀ s, P s → P (s.set c { s.conn c with fault := 0 })) :
    ∀ (k : Nat) (rs : List Rcv) (s : S), P s → P (recvLoop cf c k rs s) := by
  have hacts : ∀ (l : List Act) (s : S), P s → P (l.foldl act s) := by
    intro l
    induction l with
    | nil => intro s h; exact h
    | cons a t ih => intro s h; exact ih _ (hact s a h)
  intro k
  induction k with
  | zero => intro rs s h; exact h
  | succ k ih =>
    intro rs s h
    unfold recvLoop
    split
    · exact hfault s h
    · split
      · exact h
      · exact h
      · exact hfault s h
      · exact ih _ _ h
      · rename_i acts ok rs
        simp only
        apply ih
        split
        · exact hclear _ (hacts acts s h)
        · exact hfault _ (hacts acts s h)

theorem inv_proc {cf : Conf} {s : S} (h : Inv s) (c : Nat) (rs : List Rcv) : Inv (proc cf s c rs) := by
  have h' : Inv { s with polled := c :: s.polled } := ⟨h.nodup, h.lt, h.keys, h.up, h.fresh, h.all⟩
  unfold proc
  simp only
  split
  · exact loop_keeps (P := Inv) (fun s a h => inv_act h a) (fun s h => inv_addFault h c) (fun s h => inv_fault h c 0) _ _ _ h'
  · exact h'

theorem inv_advance {s : S} (h : Inv s) (c : Nat) : Inv (advance s c) := by
  unfold advance
  split
  · exact ⟨h.nodup, h.lt, h.keys, h.up, h.fresh, h.all⟩
  · exact ⟨h.nodup, h.lt, h.keys, h.up, h.fresh, h.all⟩

theorem inv_step {cf : Conf} {s : S} (h : Inv s) (o : Op) : Inv (step cf s o) := by
  cases o with
  | begin_ =>
    simp only [step]
    split
    · exact h
    · exact ⟨h.nodup, h.lt, h.keys, h.up, h.fresh, h.all⟩
  | poll rs =>
    simp only [step]
    split
    · exact h
    · exact inv_advance (inv_proc h _ rs) _
  | act a =>
    simp only [step]
    split
    · exact h
    · exact inv_act h a

theorem inv_run {cf : Conf} : ∀ (ops : List Op) (s : S), Inv s → Inv (run cf s ops)
  | [], _, h => h
  | o :: t, s, h => inv_run t (step cf s o) (inv_step h o)

theorem inv_init : Inv {} := by
  constructor
  · exact List.nodup_nil
  · intro x hx; cases hx
  · intro x hx; cases hx
  · intro x hx; cases hx
  · intro x _; rfl
  · intro _ x hx; cases hx

/-! ### The loop -/

/-- The iterator points at `c`, between the entries before it (`pre`) and the ones that follow; `T` is the table the loop began with.
Everything of `T` before is polled, nothing that follows is. -/
def Split (T : List Nat) (c : Nat) (s : S) : Prop :=
  ∃ pre post, s.table = pre ++ c :: post ∧ (∀ x ∈ pre, x ∈ T → x ∈ s.polled) ∧ (∀ x ∈ s.polled, x ∉ post)

/-- While `c` is polled: the iterator has become invalid for good, or the table is split at `c`. -/
structure Vis (T : List Nat) (c : Nat) (s : S) : Prop where
  inv : Inv s
  c_lt : c < s.n
  t_lt : ∀ x ∈ T, x < s.n
  p_lt : ∀ x ∈ s.polled, x < s.n
  p_nodup : s.polled.Nodup
  c_mem : c ∈ s.polled
  split : s.stale = true ∨ c ∉ s.table ∨ Split T c s

theorem vis_close {T : List Nat} {c : Nat} {s : S} (h : Vis T c s) (d : Nat) : Vis T c (close s d) := by
  have hinv := inv_close h.inv d
  have e : (close s d).n = s.n ∧ (close s d).polled = s.polled ∧ (close s d).stale = s.stale ∧
      ((close s d).table = s.table ∨ (close s d).table = s.table.filter fun x => (s.conn x).key != (s.conn d).key) := by
    unfold close
    simp only
    split
    · exact ⟨rfl, rfl, rfl, .inr rfl⟩
    · exact ⟨rfl, rfl, rfl, .inl rfl⟩
  obtain ⟨e1, e2, e3, e4⟩ := e
  refine ⟨hinv, by rw [e1]; exact h.c_lt, by rw [e1]; exact h.t_lt, by rw [e1, e2]; exact h.p_lt, by rw [e2]; exact h.p_nodup,
    by rw [e2]; exact h.c_mem, ?_⟩
  rw [e3]
  rcases h.split with hs | hs | ⟨pre, post, ht, ha, hb⟩
  · exact .inl hs
  · right; left
    rcases e4 with e4 | e4
    · rw [e4]; exact hs
    · rw [e4]; exact fun hm => hs (List.mem_filter.1 hm).1
  · rcases e4 with e4 | e4
    · right; right
      exact ⟨pre, post, by rw [e4, ht], by rw [e2]; exact ha, by rw [e2]; exact hb⟩
    · right
      rw [e4]
      by_cases hk : ((s.conn c).key != (s.conn d).key) = true
      · right
        refine ⟨pre.filter (fun x => (s.conn x).key != (s.conn d).key), post.filter (fun x => (s.conn x).key != (s.conn d).key), ?_, ?_, ?_⟩
        · rw [e4, ht, List.filter_append, List.filter_cons_of_pos (p := fun x => (s.conn x).key != (s.conn d).key) hk]
        · intro x hx hT; rw [e2]; exact ha x (List.mem_filter.1 hx).1 hT
        · intro x hx hm; rw [e2] at hx; exact hb x hx (List.mem_filter.1 hm).1
      · left
        exact fun hm => hk (List.mem_filter.1 hm).2

theorem vis_listen {T : List Nat} {c : Nat} {s : S} (h : Vis T c s) (key pos : Nat) (rehash : Bool) : Vis T c (listen s key pos rehash) := by
  have hinv := inv_listen h.inv key pos rehash
  have e : (listen s key pos rehash).n = s.n + 1 ∧ (listen s key pos rehash).polled = s.polled ∧
      (s.stale = true → (listen s key pos rehash).stale = true) ∧
      ((listen s key pos rehash).table = s.table ∨ (listen s key pos rehash).table = s.table.take pos ++ s.n :: s.table.drop pos) := by
    unfold listen
    simp only
    split
    · exact ⟨rfl, rfl, id, .inl rfl⟩
    · exact ⟨rfl, rfl, fun hs => by show (s.stale || rehash) = true; rw [hs]; rfl, .inr rfl⟩
  obtain ⟨e1, e2, e3, e4⟩ := e
  have hc := h.c_lt
  refine ⟨hinv, by omega, fun x hx => by have := h.t_lt x hx; omega, fun x hx => by rw [e2] at hx; have := h.p_lt x hx; omega,
    by rw [e2]; exact h.p_nodup, by rw [e2]; exact h.c_mem, ?_⟩
  rcases h.split with hs | hs | ⟨pre, post, ht, ha, hb⟩
  · exact .inl (e3 hs)
  · right; left
    rcases e4 with e4 | e4
    · rw [e4]; exact hs
    · rw [e4, mem_insert]
      rintro (he | he)
      · omega
      · exact hs he
  · right; right
    rcases e4 with e4 | e4
    · exact ⟨pre, post, by rw [e4, ht], by rw [e2]; exact ha, by rw [e2]; exact hb⟩
    · by_cases hp : pos ≤ pre.length
      · refine ⟨pre.take pos ++ s.n :: pre.drop pos, post, ?_, ?_, by rw [e2]; exact hb⟩
        · rw [e4, ht, List.take_append_of_le_length hp, List.drop_append_of_le_length hp]
          simp
        · intro x hx hT
          rw [e2]
          rcases mem_insert.1 hx with he | he
          · have := h.t_lt x hT; omega
          · exact ha x he hT
      · refine ⟨pre, post.take (pos - pre.length - 1) ++ s.n :: post.drop (pos - pre.length - 1), ?_, by rw [e2]; exact ha, ?_⟩
        · obtain ⟨k, hk⟩ : ∃ k, pos = pre.length + (k + 1) := ⟨pos - pre.length - 1, by omega⟩
          rw [e4, ht, hk]
          rw [List.take_length_add_append, List.drop_length_add_append]
          simp
        · intro x hx hm
          rw [e2] at hx
          rcases mem_insert.1 hm with he | he
          · have := h.p_lt x hx; omega
          · exact hb x hx he

theorem vis_fault {T : List Nat} {c : Nat} {s : S} (h : Vis T c s) (d f : Nat) : Vis T c (s.set d { s.conn d with fault := f }) :=
  ⟨inv_fault h.inv d f, h.c_lt, h.t_lt, h.p_lt, h.p_nodup, h.c_mem, h.split⟩

theorem vis_loop {cf : Conf} {T : List Nat} {c : Nat} (k : Nat) (rs : List Rcv) (s : S) (h : Vis T c s) : Vis T c (recvLoop cf c k rs s) := by
  refine loop_keeps (P := Vis T c) ?_ ?_ ?_ k rs s h
  · intro s a h
    cases a with
    | close d =>
      simp only [act]
      split
      · exact vis_close h d
      · exact h
    | listen key pos rehash => exact vis_listen h key pos rehash
  · intro s h
    unfold addFault
    simp only
    split
    · exact vis_close (vis_fault h c _) c
    · exact vis_fault h c _
  · intro s h; exact vis_fault h c 0

/-- Between polls. -/
structure Pass (T : List Nat) (s : S) : Prop where
  inv : Inv s
  t_lt : ∀ x ∈ T, x < s.n
  p_lt : ∀ x ∈ s.polled, x < s.n
  p_nodup : s.polled.Nodup
  at_some : ∀ c, s.at_ = some c → ∃ pre post, s.table = pre ++ c :: post ∧ (∀ x ∈ pre, x ∈ T → x ∈ s.polled) ∧
    (∀ x ∈ s.polled, x ∉ c :: post)
  at_none : s.at_ = none → s.ub = false → ∀ x ∈ s.table, x ∈ T → x ∈ s.polled
  valid : s.at_ ≠ none → s.stale = false ∧ s.ub = false

theorem dropWhile_split {pre post : List Nat} {c : Nat} (h : c ∉ pre) : ((pre ++ c :: post).dropWhile (· != c)) = c :: post := by
  induction pre with
  | nil => simp
  | cons a t ih =>
    have hne : a ≠ c := fun e => h (by simp [e])
    have ht : c ∉ t := fun hm => h (List.mem_cons_of_mem _ hm)
    simp [hne, ih ht]

theorem proc_ub (cf : Conf) (s : S) (c : Nat) (rs : List Rcv) : (proc cf s c rs).ub = s.ub := by
  have hclose : ∀ (s : S) (d : Nat), (close s d).ub = s.ub := by
    intro s d; unfold close; simp only; split <;> rfl
  unfold proc
  simp only
  split
  · refine loop_keeps (P := fun s' => s'.ub = s.ub) ?_ ?_ ?_ _ _ _ rfl
    · intro s' a h
      cases a with
      | close d =>
        simp only [act]
        split
        · rw [hclose]; exact h
        · exact h
      | listen key pos rehash =>
        simp only [act, listen]
        split <;> exact h
    · intro s' h
      unfold addFault
      simp only
      split
      · rw [hclose]; exact h
      · exact h
    · intro s' h; exact h
  · rfl

theorem pass_poll {cf : Conf} {T : List Nat} {s : S} (h : Pass T s) (rs : List Rcv) : Pass T (step cf s (.poll rs)) := by
  simp only [step]
  cases hat : s.at_ with
  | none => exact h
  | some c =>
    simp only
    obtain ⟨pre, post, ht, ha, hb⟩ := h.at_some c hat
    have hct : c ∈ s.table := by rw [ht]; simp
    have hcn : c ∉ s.polled := fun hm => hb c hm (by simp)
    have hv0 : Vis T c { s with polled := c :: s.polled } := by
      refine ⟨⟨h.inv.nodup, h.inv.lt, h.inv.keys, h.inv.up, h.inv.fresh, h.inv.all⟩, h.inv.lt c hct, h.t_lt, ?_,
        List.nodup_cons.2 ⟨hcn, h.p_nodup⟩, by simp, ?_⟩
      · intro x hx
        rcases List.mem_cons.1 hx with e | e
        · rw [e]; exact h.inv.lt c hct
        · exact h.p_lt x e
      · right; right
        refine ⟨pre, post, ht, fun x hx hT => List.mem_cons_of_mem _ (ha x hx hT), ?_⟩
        intro x hx hm
        rcases List.mem_cons.1 hx with e | e
        · have hnd := h.inv.nodup
          rw [ht, List.nodup_append, List.nodup_cons] at hnd
          exact hnd.2.1.1 (e ▸ hm)
        · exact hb x e (List.mem_cons_of_mem _ hm)
    have hv : Vis T c (proc cf s c rs) := by
      unfold proc
      simp only
      split
      · exact vis_loop _ _ _ hv0
      · exact hv0
    have hub : ∀ s' : S, s'.ub = false → Vis T c s' → Pass T (advance s' c) := by
      intro s' hu' hv
      unfold advance
      split
      · exact ⟨⟨hv.inv.nodup, hv.inv.lt, hv.inv.keys, hv.inv.up, hv.inv.fresh, hv.inv.all⟩, hv.t_lt, hv.p_lt, hv.p_nodup,
          (fun c hc => by cases hc), (fun _ hu => by cases hu), (fun hc => absurd rfl hc)⟩
      · rename_i hok
        simp only [Bool.or_eq_true, Bool.not_eq_true', not_or, Bool.not_eq_true, Bool.not_eq_false, List.contains_iff_mem] at hok
        rcases hv.split with hs | hs | ⟨pre, post, ht, ha, hb⟩
        · rw [hs] at hok; exact absurd hok.1 (by simp)
        · exact absurd hok.2 hs
        · have hnd := hv.inv.nodup
          rw [ht, List.nodup_append, List.nodup_cons] at hnd
          have hcp : c ∉ pre := fun hm => hnd.2.2 c hm c (by simp) rfl
          have hpre : ∀ x ∈ pre ++ [c], x ∈ T → x ∈ s'.polled := by
            intro x hx hT
            rcases List.mem_append.1 hx with e | e
            · exact ha x e hT
            · rw [List.mem_singleton.1 e]; exact hv.c_mem
          refine ⟨⟨hv.inv.nodup, hv.inv.lt, hv.inv.keys, hv.inv.up, hv.inv.fresh, hv.inv.all⟩, hv.t_lt, hv.p_lt, hv.p_nodup, ?_, ?_, fun _ => ⟨hok.1, hu'⟩⟩
          · intro c' hc'
            have hc' : (s'.table.dropWhile (· != c)).tail.head? = some c' := hc'
            rw [ht, dropWhile_split hcp, List.tail_cons] at hc'
            cases post with
            | nil => cases hc'
            | cons a t =>
              simp only [List.head?_cons, Option.some.injEq] at hc'
              subst hc'
              exact ⟨pre ++ [c], t, by show s'.table = _; rw [ht]; simp, hpre, hb⟩
          · intro hn _
            have hn : (s'.table.dropWhile (· != c)).tail.head? = none := hn
            rw [ht, dropWhile_split hcp, List.tail_cons, List.head?_eq_none_iff] at hn
            intro x hx hT
            have hx : x ∈ s'.table := hx
            rw [ht, hn] at hx
            exact hpre x (by simpa using hx) hT
    exact hub _ (by rw [proc_ub]; exact (h.valid (by rw [hat]; simp)).2) hv

theorem pass_run {cf : Conf} {T : List Nat} : ∀ (l : List (List Rcv)) (s : S), Pass T s → Pass T (run cf s (l.map .poll))
  | [], _, h => h
  | rs :: t, s, h => pass_run t _ (pass_poll h rs)

theorem pass_begin {cf : Conf} {s : S} (h : Inv s) (hu : s.ub = false) (hn : s.at_ = none) : Pass s.table (step cf s .begin_) := by
  have e : step cf s .begin_ = { s with at_ := s.table.head?, stale := false, polled := [] } := by
    simp [step, hu, hn]
  rw [e]
  refine ⟨⟨h.nodup, h.lt, h.keys, h.up, h.fresh, h.all⟩, h.lt, (by intro x hx; cases hx), List.nodup_nil, ?_, ?_, fun _ => ⟨rfl, hu⟩⟩
  · intro c hc
    have hc : s.table.head? = some c := hc
    cases ht : s.table with
    | nil => rw [ht] at hc; cases hc
    | cons a t =>
      rw [ht] at hc
      simp only [List.head?_cons, Option.some.injEq] at hc
      subst hc
      exact ⟨[], t, rfl, (by intro x hx; cases hx), (by intro x hx; cases hx)⟩
  · intro hn _ x hx
    have hn : s.table.head? = none := hn
    rw [List.head?_eq_none_iff] at hn
    have hx : x ∈ s.table := hx
    rw [hn] at hx; cases hx

/-- The state in which a loop begins: after any history, with no undefined behaviour and no loop running. -/
def Idle (cf : Conf) (ops : List Op) : Prop := (run cf {} ops).ub = false ∧ (run cf {} ops).at_ = none

/-- C67, the loop: after any history, if the loop ends without undefined behaviour, whatever the handlers of the messages do, no
connection was polled twice and each one that was in the table at the beginning and still is at the end was polled once. -/
theorem C67_once (cf : Conf) (ops : List Op) (h : Idle cf ops) (l : List (List Rcv)) :
    let s := run cf {} ops
    let s' := run cf s (.begin_ :: l.map .poll)
    s'.polled.Nodup ∧ (s'.at_ = none → s'.ub = false → ∀ c, c ∈ s.table → c ∈ s'.table → s'.polled.count c = 1) := by
  intro s s'
  have hi : Inv s := inv_run ops {} inv_init
  have hp : Pass s.table s' := pass_run (cf := cf) l _ (pass_begin (cf := cf) hi h.1 h.2)
  refine ⟨hp.p_nodup, fun h1 h2 c hc hc' => ?_⟩
  have hm := hp.at_none h1 h2 c hc' hc
  have h3 := List.nodup_iff_count.1 hp.p_nodup c
  have h4 := List.count_pos_iff.2 hm
  omega

/-- C67, the table: after any history without a refused address the table has exactly the open connections, each of them open and
under an address of its own. -/
theorem C67_table_partial (cf : Conf) (ops : List Op) :
    let s := run cf {} ops
    (∀ c ∈ s.table, (s.conn c).up = true) ∧ s.table.Nodup ∧
    (∀ c ∈ s.table, ∀ d ∈ s.table, (s.conn c).key = (s.conn d).key → c = d) ∧
    (s.dup = false → ∀ c, (s.conn c).up = true → c ∈ s.table) := by
  intro s
  have hi : Inv s := inv_run ops {} inv_init
  exact ⟨fun c hc => (hi.up c hc).1, hi.nodup, hi.keys, hi.all⟩

/-! ### When the loop is defined -/

/-- Number of faults in what is received. -/
def bads : List Rcv → Nat
  | [] => 0
  | .fail :: l => bads l + 1
  | .msg _ false :: l => bads l + 1
  | _ :: l => bads l

/-- The handlers of the messages received do not close the connection being polled, and no new address makes the table rehash. -/
def Calm (c : Nat) (rs : List Rcv) : Prop :=
  ∀ acts ok, Rcv.msg acts ok ∈ rs → ∀ a ∈ acts, a ≠ .close c ∧ ∀ key pos, a ≠ .listen key pos true

theorem calm_tail {c : Nat} {r : Rcv} {rs : List Rcv} (h : Calm c (r :: rs)) : Calm c rs :=
  fun acts ok hm => h acts ok (List.mem_cons_of_mem _ hm)

theorem close_dup (s : S) (d : Nat) : (close s d).dup = s.dup := by unfold close; simp only; split <;> rfl

theorem act_dup (s : S) (a : Act) (h : s.dup = true) : (act s a).dup = true := by
  cases a with
  | close d =>
    simp only [act]
    split
    · rw [close_dup]; exact h
    · exact h
  | listen key pos rehash =>
    simp only [act, listen]
    split
    · rfl
    · exact h

theorem addFault_dup (cf : Conf) (s : S) (c : Nat) : (addFault cf s c).dup = s.dup := by
  unfold addFault
  simp only
  split
  · rw [close_dup]; rfl
  · rfl

theorem loop_dup {cf : Conf} {c : Nat} (k : Nat) (rs : List Rcv) (s : S) (h : s.dup = true) : (recvLoop cf c k rs s).dup = true :=
  loop_keeps (P := fun s => s.dup = true) act_dup (fun s h => by rw [addFault_dup]; exact h) (fun _ h => h) k rs s h

theorem step_dup (cf : Conf) (s : S) (o : Op) (h : s.dup = true) : (step cf s o).dup = true := by
  cases o with
  | begin_ => simp only [step]; split <;> exact h
  | poll rs =>
    simp only [step]
    split
    · exact h
    · rename_i c _
      have : (proc cf s c rs).dup = true := by
        unfold proc
        simp only
        split
        · exact loop_dup _ _ _ h
        · exact h
      unfold advance
      split <;> exact this
  | act a =>
    simp only [step]
    split
    · exact h
    · exact act_dup s a h

theorem run_dup (cf : Conf) : ∀ (ops : List Op) (s : S), s.dup = true → (run cf s ops).dup = true
  | [], _, h => h
  | o :: t, s, h => run_dup cf t _ (step_dup cf s o h)

/-- The iterator stays valid. -/
structure Safe (c : Nat) (f : Nat) (s : S) : Prop where
  inv : Inv s
  mem : c ∈ s.table
  stale : s.stale = false
  fault : (s.conn c).fault ≤ f

theorem safe_act {c f : Nat} {s : S} (h : Safe c f s) {a : Act} (ha : a ≠ .close c ∧ ∀ key pos, a ≠ .listen key pos true)
    (hd : (act s a).dup = false) : Safe c f (act s a) := by
  have hinv := inv_act h.inv a
  have hd0 : s.dup = false := by
    cases he : s.dup with
    | false => rfl
    | true => rw [act_dup s a he] at hd; cases hd
  cases a with
  | close d =>
    have hdc : d ≠ c := fun e => ha.1 (by rw [e])
    simp only [act] at hinv ⊢
    split at hinv
    · rename_i hlt
      rw [if_pos hlt]
      refine ⟨hinv, ?_, ?_, ?_⟩
      · unfold close
        simp only
        split
        · rename_i hk
          rw [Bool.and_eq_true] at hk
          refine List.mem_filter.2 ⟨h.mem, ?_⟩
          simp only [bne_iff_ne, ne_eq]
          intro he
          exact hdc (h.inv.keys c h.mem d (h.inv.all hd0 d hk.1) he).symm
        · exact h.mem
      · unfold close; simp only; split <;> exact h.stale
      · have : (close s d).conn c = s.conn c := by
          unfold close; simp only; split <;> simp [set_conn, Ne.symm hdc]
        rw [this]; exact h.fault
    · rename_i hlt
      rw [if_neg hlt]; exact h
  | listen key pos rehash =>
    have hr : rehash = false := by
      cases rehash with
      | false => rfl
      | true => exact absurd rfl (ha.2 key pos)
    subst hr
    have hcn : c ≠ s.n := by have := h.inv.lt c h.mem; omega
    simp only [act] at hinv hd ⊢
    refine ⟨hinv, ?_, ?_, ?_⟩
    · unfold listen
      simp only
      split
      · exact h.mem
      · exact mem_insert.2 (.inr h.mem)
    · unfold listen
      simp only
      split
      · exact h.stale
      · show (s.stale || false) = false; rw [h.stale]; rfl
    · have : (listen s key pos false).conn c = s.conn c := by
        unfold listen; simp only; split <;> simp [S.set, hcn]
      rw [this]; exact h.fault

theorem acts_dup (l : List Act) : ∀ s : S, s.dup = true → (l.foldl act s).dup = true := by
  induction l with
  | nil => intro s h; exact h
  | cons a t ih => intro s h; exact ih _ (act_dup s a h)

theorem safe_acts {c f : Nat} : ∀ (l : List Act) (s : S), Safe c f s →
    (∀ a ∈ l, a ≠ .close c ∧ ∀ key pos, a ≠ .listen key pos true) → (l.foldl act s).dup = false → Safe c f (l.foldl act s)
  | [], _, h, _, _ => h
  | a :: t, s, h, ha, hd => by
    have h1 : (act s a).dup = false := by
      cases he : (act s a).dup with
      | false => rfl
      | true => rw [List.foldl_cons, acts_dup t _ he] at hd; cases hd
    exact safe_acts t _ (safe_act h (ha a (by simp)) h1) (fun b hb => ha b (List.mem_cons_of_mem _ hb)) hd

theorem safe_fault {cf : Conf} {c f : Nat} {s : S} (h : Safe c f s) (hf : f + 1 ≤ cf.tol) : Safe c (f + 1) (addFault cf s c) := by
  have hb := h.fault
  unfold addFault
  simp only
  rw [if_neg (by omega)]
  refine ⟨inv_fault h.inv c _, h.mem, h.stale, ?_⟩
  simp only [set_conn, if_true]
  omega

theorem safe_loop {cf : Conf} {c : Nat} : ∀ (k : Nat) (rs : List Rcv) (f : Nat) (s : S), Safe c f s → Calm c rs → f + bads rs ≤ cf.tol →
    (recvLoop cf c k rs s).dup = false → ∃ f', Safe c f' (recvLoop cf c k rs s) := by
  intro k
  induction k with
  | zero => intro rs f s h _ _ _; exact ⟨f, h⟩
  | succ k ih =>
    intro rs f s h hc hf hd
    unfold recvLoop at hd ⊢
    rw [if_neg (by rw [(h.inv.up c h.mem).1]; simp)] at hd ⊢
    cases rs with
    | nil => exact ⟨f, h⟩
    | cons r rs =>
      cases r with
      | none => exact ⟨f, h⟩
      | fail =>
        simp only [bads] at hf
        exact ⟨f + 1, safe_fault h (by omega)⟩
      | garbage => exact ih rs f s h (calm_tail hc) hf hd
      | msg acts ok =>
        simp only at hd ⊢
        have hd1 : (acts.foldl act s).dup = false := by
          cases he : (acts.foldl act s).dup with
          | false => rfl
          | true =>
            cases ok with
            | true => rw [if_pos rfl, loop_dup _ _ _ (by exact he)] at hd; cases hd
            | false => rw [if_neg (by simp), loop_dup _ _ _ (by rw [addFault_dup]; exact he)] at hd; cases hd
        have h1 := safe_acts acts s h (fun a ha => hc acts ok (by simp) a ha) hd1
        cases ok with
        | true =>
          rw [if_pos rfl] at hd ⊢
          simp only [bads] at hf
          refine ih rs f _ ⟨inv_fault h1.inv c 0, h1.mem, h1.stale, ?_⟩ (calm_tail hc) hf hd
          simp [set_conn]
        | false =>
          rw [if_neg (by simp)] at hd ⊢
          simp only [bads] at hf
          exact ih rs (f + 1) _ (safe_fault h1 (by omega)) (calm_tail hc) (by omega) hd

/-- One poll: the iterator stays valid. -/
theorem poll_safe {cf : Conf} {T : List Nat} {s : S} (h : Pass T s) (hu : s.ub = false) (rs : List Rcv)
    (hq : ∀ c, s.at_ = some c → Calm c rs ∧ (s.conn c).fault + bads rs ≤ cf.tol)
    (hd : (step cf s (.poll rs)).dup = false) : (step cf s (.poll rs)).ub = false := by
  simp only [step] at hd ⊢
  cases hat : s.at_ with
  | none => exact hu
  | some c =>
    rw [hat] at hd
    simp only at hd ⊢
    obtain ⟨pre, post, ht, _, _⟩ := h.at_some c hat
    have hv := h.valid (by rw [hat]; simp)
    have hct : c ∈ s.table := by rw [ht]; simp
    have hd1 : (proc cf s c rs).dup = false := by
      unfold advance at hd; split at hd <;> exact hd
    have key : (proc cf s c rs).stale = false ∧ c ∈ (proc cf s c rs).table := by
      unfold proc at hd1 ⊢
      simp only at hd1 ⊢
      rw [if_pos (h.inv.up c hct).1] at hd1 ⊢
      obtain ⟨f', hs⟩ := safe_loop cf.loop rs _ { s with polled := c :: s.polled }
        ⟨⟨h.inv.nodup, h.inv.lt, h.inv.keys, h.inv.up, h.inv.fresh, h.inv.all⟩, hct, hv.1, Nat.le_refl _⟩ (hq c hat).1 (hq c hat).2 hd1
      exact ⟨hs.stale, hs.mem⟩
    unfold advance
    rw [if_neg (by simp [key])]
    show (proc cf s c rs).ub = false
    rw [proc_ub]; exact hu

/-- Every poll of the loop is calm, and the faults of a connection stay within what is tolerated. -/
def CalmLoop (cf : Conf) : S → List (List Rcv) → Prop
  | _, [] => True
  | s, rs :: l => (∀ c, s.at_ = some c → Calm c rs ∧ (s.conn c).fault + bads rs ≤ cf.tol) ∧ CalmLoop cf (step cf s (.poll rs)) l

theorem loop_safe {cf : Conf} {T : List Nat} : ∀ (l : List (List Rcv)) (s : S), Pass T s → s.ub = false → CalmLoop cf s l →
    (run cf s (l.map .poll)).dup = false → (run cf s (l.map .poll)).ub = false
  | [], _, _, hu, _, _ => hu
  | rs :: l, s, h, hu, hc, hd => by
    have hd1 : (step cf s (.poll rs)).dup = false := by
      cases he : (step cf s (.poll rs)).dup with
      | false => rfl
      | true =>
        have := run_dup cf (l.map .poll) _ he
        rw [List.map_cons, run, List.foldl_cons] at hd
        rw [run] at this
        rw [this] at hd; cases hd
    exact loop_safe l _ (pass_poll h rs) (poll_safe h hu rs hc.1 hd1) hc.2 hd

/-- C67: after any history, if no address is listened on twice at a time, no handler closes the connection it was called for or makes
the table rehash, and no connection has more faults than tolerated, then the loop is defined, and every connection that is open from its
beginning to its end is polled exactly once.
Missing: `C67_self_false`, `C67_fault_false`, `C67_rehash_false` and `C67_twice_false` show that each condition is needed. -/
theorem C67_polled_partial (cf : Conf) (ops : List Op) (h : Idle cf ops) (l : List (List Rcv)) :
    let s := run cf {} ops
    let s' := run cf s (.begin_ :: l.map .poll)
    CalmLoop cf (step cf s .begin_) l → s'.dup = false →
    s'.ub = false ∧ (s'.at_ = none → ∀ c, (s.conn c).up = true → (s'.conn c).up = true → s'.polled.count c = 1) := by
  intro s s' hc hd
  have hi : Inv s := inv_run ops {} inv_init
  have hi' : Inv s' := inv_run _ s hi
  have hd0 : s.dup = false := by
    cases he : s.dup with
    | false => rfl
    | true => rw [run_dup cf _ s he] at hd; cases hd
  have hub0 : (step cf s .begin_).ub = false := by
    have h1 : s.ub = false := h.1
    have h2 : s.at_ = none := h.2
    simp [step, h1, h2]
  have hub : s'.ub = false := loop_safe (cf := cf) l _ (pass_begin (cf := cf) hi h.1 h.2) hub0 hc hd
  refine ⟨hub, fun hn c hu hu' => ?_⟩
  exact (C67_once cf ops h l).2 hn hub c (hi.all hd0 c hu) (hi'.all hd c hu')

/-! ### The end of the loop -/

/-- Number of addresses the handlers listen on. -/
def listens : List Act → Nat
  | [] => 0
  | .listen _ _ _ :: l => listens l + 1
  | .close _ :: l => listens l

def listensOf : List Rcv → Nat
  | [] => 0
  | .msg acts _ :: l => listens acts + listensOf l
  | _ :: l => listensOf l

/-- At most `b` entries follow `c`. -/
structure Few (c b : Nat) (s : S) : Prop where
  inv : Inv s
  lt : c < s.n
  few : c ∉ s.table ∨ ∃ pre post, s.table = pre ++ c :: post ∧ post.length ≤ b

theorem few_close {c b : Nat} {s : S} (h : Few c b s) (d : Nat) : Few c b (close s d) := by
  refine ⟨inv_close h.inv d, ?_, ?_⟩
  · unfold close; simp only; split <;> exact h.lt
  · have e : (close s d).table = s.table ∨ (close s d).table = s.table.filter fun x => (s.conn x).key != (s.conn d).key := by
      unfold close; simp only; split
      · exact .inr rfl
      · exact .inl rfl
    rcases e with e | e
    · rw [e]; exact h.few
    · rw [e]
      rcases h.few with hm | ⟨pre, post, ht, hb⟩
      · exact .inl fun hx => hm (List.mem_filter.1 hx).1
      · by_cases hk : ((s.conn c).key != (s.conn d).key) = true
        · right
          refine ⟨pre.filter (fun x => (s.conn x).key != (s.conn d).key), post.filter (fun x => (s.conn x).key != (s.conn d).key), ?_, ?_⟩
          · rw [ht, List.filter_append, List.filter_cons_of_pos (p := fun x => (s.conn x).key != (s.conn d).key) hk]
          · exact Nat.le_trans (List.length_filter_le _ _) hb
        · exact .inl fun hx => hk (List.mem_filter.1 hx).2

theorem few_listen {c b : Nat} {s : S} (h : Few c b s) (key pos : Nat) (rehash : Bool) : Few c (b + 1) (listen s key pos rehash) := by
  have hlt := h.lt
  have e : (listen s key pos rehash).n = s.n + 1 ∧
      ((listen s key pos rehash).table = s.table ∨ (listen s key pos rehash).table = s.table.take pos ++ s.n :: s.table.drop pos) := by
    unfold listen
    simp only
    split
    · exact ⟨rfl, .inl rfl⟩
    · exact ⟨rfl, .inr rfl⟩
  refine ⟨inv_listen h.inv key pos rehash, by rw [e.1]; omega, ?_⟩
  rcases e.2 with e4 | e4
  · rw [e4]
    rcases h.few with hm | ⟨pre, post, ht, hb⟩
    · exact .inl hm
    · exact .inr ⟨pre, post, ht, by omega⟩
  · rcases h.few with hm | ⟨pre, post, ht, hb⟩
    · left
      rw [e4, mem_insert]
      rintro (he | he)
      · omega
      · exact hm he
    · right
      by_cases hp : pos ≤ pre.length
      · refine ⟨pre.take pos ++ s.n :: pre.drop pos, post, ?_, by omega⟩
        rw [e4, ht, List.take_append_of_le_length hp, List.drop_append_of_le_length hp]
        simp
      · refine ⟨pre, post.take (pos - pre.length - 1) ++ s.n :: post.drop (pos - pre.length - 1), ?_, ?_⟩
        · obtain ⟨k, hk⟩ : ∃ k, pos = pre.length + (k + 1) := ⟨pos - pre.length - 1, by omega⟩
          rw [e4, ht, hk]
          rw [List.take_length_add_append, List.drop_length_add_append]
          simp
        · simp only [List.length_append, List.length_cons, List.length_take, List.length_drop]
          omega

theorem few_mono {c b b' : Nat} {s : S} (h : Few c b s) (hb : b ≤ b') : Few c b' s :=
  ⟨h.inv, h.lt, h.few.imp id fun ⟨pre, post, ht, hl⟩ => ⟨pre, post, ht, Nat.le_trans hl hb⟩⟩

theorem few_acts {c : Nat} : ∀ (l : List Act) (b : Nat) (s : S), Few c b s → Few c (b + listens l) (l.foldl act s)
  | [], _, _, h => h
  | .close d :: t, b, s, h => by
    have h1 : Few c b (act s (.close d)) := by
      simp only [act]
      split
      · exact few_close h d
      · exact h
    exact few_acts t b _ h1
  | .listen key pos rehash :: t, b, s, h => by
    have := few_acts t (b + 1) _ (few_listen h key pos rehash)
    refine few_mono this ?_
    simp only [listens]
    omega

theorem few_fault {cf : Conf} {c b : Nat} {s : S} (h : Few c b s) : Few c b (addFault cf s c) := by
  have h1 : Few c b (s.set c { s.conn c with fault := (s.conn c).fault + 1 }) := ⟨inv_fault h.inv c _, h.lt, h.few⟩
  unfold addFault
  simp only
  split
  · exact few_close h1 c
  · exact h1

theorem few_loop {cf : Conf} {c : Nat} : ∀ (k : Nat) (rs : List Rcv) (b : Nat) (s : S), Few c b s → Few c (b + listensOf rs) (recvLoop cf c k rs s) := by
  intro k
  induction k with
  | zero => intro rs b s h; exact few_mono h (Nat.le_add_right _ _)
  | succ k ih =>
    intro rs b s h
    unfold recvLoop
    split
    · exact few_mono (few_fault h) (Nat.le_add_right _ _)
    · cases rs with
      | nil => exact h
      | cons r rs =>
        cases r with
        | none => exact few_mono h (Nat.le_add_right _ _)
        | fail => exact few_mono (few_fault h) (Nat.le_add_right _ _)
        | garbage => exact ih rs b s h
        | msg acts ok =>
          simp only
          have h1 := few_acts acts b s h
          have h2 : Few c (b + listens acts) (if ok = true then (acts.foldl act s).set c { (acts.foldl act s).conn c with fault := 0 }
              else addFault cf (acts.foldl act s) c) := by
            split
            · exact ⟨inv_fault h1.inv c 0, h1.lt, h1.few⟩
            · exact few_fault h1
          refine few_mono (ih rs _ _ h2) ?_
          simp only [listensOf]; omega

/-- Number of entries from the iterator on. -/
def left (s : S) : Nat :=
  match s.at_ with
  | none => 0
  | some c => (s.table.dropWhile (· != c)).length

theorem left_poll {cf : Conf} {T : List Nat} {s : S} (h : Pass T s) (rs : List Rcv) :
    left (step cf s (.poll rs)) ≤ left s + listensOf rs - 1 ∨ left (step cf s (.poll rs)) = 0 := by
  simp only [step]
  cases hat : s.at_ with
  | none => right; simp [left, hat]
  | some c =>
    simp only
    obtain ⟨pre, post, ht, _, _⟩ := h.at_some c hat
    have hct : c ∈ s.table := by rw [ht]; simp
    have hnd := h.inv.nodup
    rw [ht, List.nodup_append, List.nodup_cons] at hnd
    have hcp : c ∉ pre := fun hm => hnd.2.2 c hm c (by simp) rfl
    have hl : left s = post.length + 1 := by
      simp only [left, hat, ht]
      rw [dropWhile_split hcp]; simp
    have hf : Few c (post.length + listensOf rs) (proc cf s c rs) := by
      have h0 : Few c post.length { s with polled := c :: s.polled } :=
        ⟨⟨h.inv.nodup, h.inv.lt, h.inv.keys, h.inv.up, h.inv.fresh, h.inv.all⟩, h.inv.lt c hct, .inr ⟨pre, post, ht, Nat.le_refl _⟩⟩
      unfold proc
      simp only
      split
      · exact few_loop _ _ _ _ h0
      · exact few_mono h0 (Nat.le_add_right _ _)
    generalize proc cf s c rs = s' at hf
    unfold advance
    split
    · right; rfl
    · rename_i hok
      simp only [Bool.or_eq_true, Bool.not_eq_true', not_or, Bool.not_eq_true, Bool.not_eq_false, List.contains_iff_mem] at hok
      rcases hf.few with hm | ⟨pre', post', ht', hb'⟩
      · exact absurd hok.2 hm
      · have hnd' := hf.inv.nodup
        rw [ht', List.nodup_append, List.nodup_cons] at hnd'
        have hcp' : c ∉ pre' := fun hm => hnd'.2.2 c hm c (by simp) rfl
        left
        rw [hl]
        simp only [left, ht', dropWhile_split hcp', List.tail_cons]
        cases post' with
        | nil => simp
        | cons a t =>
          simp only [List.head?_cons]
          have ha : a ∉ pre' ++ [c] := by
            intro hm
            rcases List.mem_append.1 hm with e | e
            · exact hnd'.2.2 a e a (by simp) rfl
            · exact hnd'.2.1.1 (by rw [← List.mem_singleton.1 e]; simp)
          rw [show pre' ++ c :: a :: t = (pre' ++ [c]) ++ a :: t by simp, dropWhile_split ha]
          simp only [List.length_cons] at hb' ⊢
          omega

/-- C67: the loop ends: it takes at most as many polls as there were entries plus addresses listened on meanwhile. -/
theorem C67_ends (cf : Conf) (ops : List Op) (h : Idle cf ops) (l : List (List Rcv)) :
    let s := run cf {} ops
    s.table.length + (l.map listensOf).sum ≤ l.length → (run cf s (.begin_ :: l.map .poll)).at_ = none := by
  intro s hl
  have hi : Inv s := inv_run ops {} inv_init
  have key : ∀ (l : List (List Rcv)) (t : S), Pass s.table t → left t + (l.map listensOf).sum ≤ l.length →
      left (run cf t (l.map .poll)) = 0 := by
    intro l
    induction l with
    | nil =>
      intro t _ hb
      simp only [List.map_nil, List.sum_nil, List.length_nil] at hb
      show left t = 0
      omega
    | cons rs l ih =>
      intro t hp hb
      simp only [List.map_cons, List.sum_cons, List.length_cons] at hb
      have hzero : ∀ (l : List (List Rcv)) (t : S), t.at_ = none → run cf t (l.map .poll) = t := by
        intro l
        induction l with
        | nil => intro t _; rfl
        | cons rs l ih =>
          intro t ht
          show run cf (step cf t (.poll rs)) (l.map .poll) = t
          have : step cf t (.poll rs) = t := by simp only [step, ht]
          rw [this]; exact ih t ht
      show left (run cf (step cf t (.poll rs)) (l.map .poll)) = 0
      have hpass := pass_poll (cf := cf) hp rs
      have hz : ∀ u : S, Pass s.table u → left u = 0 → left (run cf u (l.map .poll)) = 0 := by
        intro u hu h0
        cases hat : u.at_ with
        | none => rw [hzero l u hat]; exact h0
        | some c =>
          obtain ⟨pre, post, ht, _, _⟩ := hu.at_some c hat
          have hnd := hu.inv.nodup
          rw [ht, List.nodup_append, List.nodup_cons] at hnd
          have hcp : c ∉ pre := fun hm => hnd.2.2 c hm c (by simp) rfl
          simp only [left, hat, ht, dropWhile_split hcp, List.length_cons] at h0
          omega
      rcases left_poll (cf := cf) hp rs with hb' | hb'
      · by_cases h0 : left t = 0 ∧ listensOf rs = 0
        · apply hz _ hpass; omega
        · by_cases hne : left (step cf t (.poll rs)) = 0
          · exact hz _ hpass hne
          · apply ih _ hpass; omega
      · exact hz _ hpass hb'
  have hp := pass_begin (cf := cf) hi h.1 h.2
  have h0 : left (step cf s .begin_) ≤ s.table.length := by
    have h1 : s.ub = false := h.1
    have h2 : s.at_ = none := h.2
    have e : step cf s .begin_ = { s with at_ := s.table.head?, stale := false, polled := [] } := by simp [step, h1, h2]
    rw [e]
    unfold left
    simp only
    split
    · exact Nat.zero_le _
    · exact (List.dropWhile_sublist _).length_le
  have hfin := key l _ hp (by omega)
  have hpass := pass_run (cf := cf) l _ hp
  show (run cf (step cf s .begin_) (l.map .poll)).at_ = none
  cases hat : (run cf (step cf s .begin_) (l.map .poll)).at_ with
  | none => rfl
  | some c =>
    obtain ⟨pre, post, ht, _, _⟩ := hpass.at_some c hat
    have hnd := hpass.inv.nodup
    rw [ht, List.nodup_append, List.nodup_cons] at hnd
    have hcp : c ∉ pre := fun hm => hnd.2.2 c hm c (by simp) rfl
    simp only [left, hat, ht, dropWhile_split hcp, List.length_cons] at hfin
    omega

/-! ### Other connections -/

/-- C67: what is received from one connection does not change another one, if the handlers do not. -/
theorem C67_isolated (cf : Conf) (s : S) (c : Nat) (rs : List Rcv) (h : ∀ acts ok, Rcv.msg acts ok ∈ rs → acts = []) (d : Nat) (hd : d ≠ c) :
    (proc cf s c rs).conn d = s.conn d := by
  have hclose : ∀ s : S, (close s c).conn d = s.conn d := by
    intro s; unfold close; simp only; split <;> simp [set_conn, hd]
  have hfault : ∀ s : S, (addFault cf s c).conn d = s.conn d := by
    intro s
    unfold addFault
    simp only
    split
    · rw [hclose]; simp [set_conn, hd]
    · simp [set_conn, hd]
  have key : ∀ (k : Nat) (rs : List Rcv) (s : S), (∀ acts ok, Rcv.msg acts ok ∈ rs → acts = []) → (recvLoop cf c k rs s).conn d = s.conn d := by
    intro k
    induction k with
    | zero => intro rs s _; rfl
    | succ k ih =>
      intro rs s hr
      unfold recvLoop
      split
      · exact hfault s
      · split
        · rfl
        · rfl
        · exact hfault s
        · exact ih _ _ fun acts ok hm => hr acts ok (List.mem_cons_of_mem _ hm)
        · rename_i acts ok rs
          have ha := hr acts ok (by simp)
          subst ha
          simp only [List.foldl_nil]
          rw [ih _ _ fun acts ok hm => hr acts ok (List.mem_cons_of_mem _ hm)]
          split
          · simp [set_conn, hd]
          · exact hfault s
  unfold proc
  simp only
  split
  · exact key _ _ _ h
  · rfl

/-! ### Counterexamples -/

/-- A handler closes the connection its message came from: the loop goes on with an iterator of an erased entry. -/
theorem C67_self_false : ∃ (cf : Conf) (ops : List Op), Idle cf ops ∧
    (run cf (run cf {} ops) [.begin_, .poll [.msg [.close 0] true]]).ub = true :=
  ⟨⟨3, 16⟩, [.act (.listen 7 0 false)], ⟨rfl, rfl⟩, rfl⟩

/-- Messages that cannot be handled do the same without any application, whatever the number of tolerated faults is: after one fault
too many the connection is closed inside the loop. -/
theorem C67_fault_false (tol : Nat) : ∃ (ops : List Op), Idle ⟨tol, tol + 1⟩ ops ∧
    (run ⟨tol, tol + 1⟩ (run ⟨tol, tol + 1⟩ {} ops) [.begin_, .poll (List.replicate (tol + 1) (.msg [] false))]).ub = true := by
  refine ⟨[.act (.listen 7 0 false)], ⟨rfl, rfl⟩, ?_⟩
  have key : ∀ (k f : Nat) (s : S), f + k = tol + 1 → k ≠ 0 → s.n = 1 → s.table = [0] → s.conn 0 = ⟨7, true, true, f⟩ →
      (recvLoop ⟨tol, tol + 1⟩ 0 k (List.replicate k (.msg [] false)) s).table = [] := by
    intro k
    induction k with
    | zero => intro f s _ h; exact absurd rfl h
    | succ k ih =>
      intro f s hk _ hn ht hc
      unfold recvLoop
      rw [if_neg (by rw [hc]; simp), List.replicate_succ]
      simp only [List.foldl_nil, Bool.false_eq_true, if_false]
      by_cases h0 : k = 0
      · subst h0
        unfold recvLoop addFault
        simp only [hc]
        rw [if_pos (by omega)]
        simp [close, S.set, ht]
      · have e : addFault ⟨tol, tol + 1⟩ s 0 = s.set 0 ⟨7, true, true, f + 1⟩ := by
          unfold addFault
          simp only [hc]
          rw [if_neg (by omega)]
        rw [e]
        exact ih (f + 1) _ (by omega) h0 hn ht (by simp [set_conn])
  have h1 := key (tol + 1) 0 { (run ⟨tol, tol + 1⟩ {} [.act (.listen 7 0 false)]) with at_ := some 0, stale := false, polled := [0] }
    (by omega) (by omega) rfl rfl rfl
  show (advance (recvLoop ⟨tol, tol + 1⟩ 0 (tol + 1) (List.replicate (tol + 1) (.msg [] false))
    { (run ⟨tol, tol + 1⟩ {} [.act (.listen 7 0 false)]) with at_ := some 0, stale := false, polled := [0] }) 0).ub = true
  generalize recvLoop _ _ _ _ _ = s at h1
  unfold advance
  rw [h1]
  simp

/-- A handler that listens on a further address makes a hash table rehash. -/
theorem C67_rehash_false : ∃ (cf : Conf) (ops : List Op), Idle cf ops ∧
    (run cf (run cf {} ops) [.begin_, .poll [.msg [.listen 8 0 true] true]]).ub = true :=
  ⟨⟨3, 16⟩, [.act (.listen 7 0 false)], ⟨rfl, rfl⟩, rfl⟩

/-- Listening on an address a second time and closing this second connection ends the polling of the first, which stays open. -/
theorem C67_twice_false : ∃ (cf : Conf) (ops : List Op), Idle cf ops ∧
    ((run cf {} ops).conn 0).up = true ∧ (run cf {} ops).table = [] ∧
    (run cf (run cf {} ops) [.begin_]).at_ = none :=
  ⟨⟨3, 16⟩, [.act (.listen 7 0 false), .act (.listen 7 0 false), .act (.close 1)], ⟨rfl, rfl⟩, rfl, rfl, rfl⟩

/-- A loop over three connections in which the handler of a message closes the next one and opens a further one. -/
example : (run ⟨3, 16⟩ {} [.act (.listen 7 0 false), .act (.listen 8 1 false), .act (.listen 9 2 false), .begin_,
    .poll [.garbage, .msg [.close 1, .listen 5 9 false] true], .poll [.fail], .poll []]).polled = [3, 2, 0] := by decide +kernel

end Verif.Node.Poll
