import Verif.IoStream.PoolStep

/-!
The log of the channel: connections are announced once, reported as disconnected at most once and silent then;
messages are reported in the order they were accepted.
-/
namespace Verif.IoStream.Pool

/-! ### Connections -/

theorem ordered_snoc {l : List Ev} {e : Ev} : Ordered (l ++ [e]) ↔ Ordered l ∧
    (∀ r, .disconnected r ∈ l → about r e = false) ∧ (∀ r f, f ∈ l → about r f = true → announces r e = false) := by
  induction l with
  | nil => simp [Ordered]
  | cons a l ih =>
    simp only [List.cons_append, Ordered, ih]
    constructor
    · intro ⟨h1, h2, h3, h4, h5⟩
      refine ⟨⟨fun r hr f hf => h1 r hr f (List.mem_append_left _ hf), fun r hr f hf => h2 r hr f (List.mem_append_left _ hf), h3⟩,
        ?_, ?_⟩
      · intro r hr
        rcases List.mem_cons.1 hr with hr | hr
        · exact h1 r hr.symm e (by simp)
        · exact h4 r hr
      · intro r f hf ha
        rcases List.mem_cons.1 hf with hf | hf
        · subst hf; exact h2 r ha e (by simp)
        · exact h5 r f hf ha
    · intro ⟨⟨h1, h2, h3⟩, h4, h5⟩
      refine ⟨?_, ?_, h3, fun r hr => h4 r (List.mem_cons_of_mem _ hr), fun r f hf => h5 r f (List.mem_cons_of_mem _ hf)⟩
      · intro r hr f hf
        rcases List.mem_append.1 hf with hf | hf
        · exact h1 r hr f hf
        · simp at hf; subst hf; exact h4 r (by simp [hr])
      · intro r hr f hf
        rcases List.mem_append.1 hf with hf | hf
        · exact h2 r hr f hf
        · simp at hf; subst hf; exact h5 r a (by simp) hr

/-- Invariant on the history of every connection. -/
structure Hist (s : St) : Prop where
  ord : Ordered s.log
  gone : ∀ r, s.log.count (.disconnected r) = if (s.conn r).status = .disconnected then 1 else 0
  ann : ∀ r, s.log.countP (announces r) = if r < s.next then 1 else 0
  abt : ∀ r e, e ∈ s.log → about r e = true → r < s.next

theorem hist_init : Hist St.init := by
  constructor <;> simp [St.init, Ordered]

theorem hist_quiet {s t : St} (h : Hist s) (hl : t.log = s.log) (hn : t.next = s.next)
    (hs : ∀ r, (t.conn r).status = .disconnected ↔ (s.conn r).status = .disconnected) : Hist t := by
  constructor
  · rw [hl]; exact h.ord
  · intro r; rw [hl, h.gone]; simp only [hs]
  · intro r; rw [hl, hn]; exact h.ann r
  · intro r e; rw [hl, hn]; exact h.abt r e

/-- An event is added. -/
theorem hist_emit {s t : St} (h : Hist s) (e : Ev) (hl : t.log = s.log ++ [e]) (hn : t.next = s.next)
    (hs : ∀ r, (t.conn r).status = .disconnected ↔ (s.conn r).status = .disconnected)
    (ha : ∀ r, about r e = true → r < s.next ∧ (s.conn r).status ≠ .disconnected) (hd : ∀ r, e ≠ .disconnected r)
    (hann : ∀ r, announces r e = false) : Hist t := by
  constructor
  · rw [hl, ordered_snoc]
    refine ⟨h.ord, ?_, fun r f _ _ => hann r⟩
    intro r hr
    cases hb : about r e with
    | false => rfl
    | true =>
      have := h.gone r
      rw [if_neg (ha r hb).2] at this
      rw [List.count_eq_zero] at this
      exact absurd hr this
  · intro r
    rw [hl, List.count_append, h.gone]
    have : [e].count (.disconnected r) = 0 := by
      rw [List.count_eq_zero]; simp; exact fun x => hd r x.symm
    simp only [hs, this, Nat.add_zero]
  · intro r
    rw [hl, List.countP_append, h.ann, hn]
    simp [hann r]
  · intro r f hf hb
    rw [hl] at hf
    rw [hn]
    rcases List.mem_append.1 hf with hf | hf
    · exact h.abt r f hf hb
    · simp at hf; subst hf; exact (ha r hb).1

theorem status_set {s : St} {r : Ref} {c : Conn} (hs : c.status = .disconnected ↔ (s.conn r).status = .disconnected) (x : Ref) :
    ((s.set r c).conn x).status = .disconnected ↔ (s.conn x).status = .disconnected := by
  simp only [St.set]
  by_cases e : x = r
  · rw [e, upd_same]; exact hs
  · rw [upd_ne _ _ e]

theorem hist_mic {re : Bool} {s t : St} (hc : Core s) (h : Hist s) (hm : Mic re s t) : Hist t := by
  cases hm with
  | cbk cb hr => exact hist_quiet h rfl rfl (status_set Iff.rfl)
  | mark hr hs => exact hist_quiet h rfl rfl (status_set (by simp [hs]))
  | @shut r ev he hr hc' hs =>
    exact hist_quiet h rfl rfl (fun x => status_set (s := s) (r := r) (c := { s.conn r with closing := true }) Iff.rfl x)
  | merge n hr hw hq hc' => exact hist_quiet h rfl rfl (status_set Iff.rfl)
  | @start r hr hw hq hc' =>
    exact hist_quiet h rfl rfl (fun x => status_set (s := s) (r := r) (c := { s.conn r with writing := true }) Iff.rfl x)
  | @accept r m hr hs =>
    refine hist_emit h _ rfl rfl (fun x => status_set (s := s) (r := r) (c := { s.conn r with q := (s.conn r).q ++ [[m]] }) Iff.rfl x)
      ?_ (by simp) (by simp [announces])
    intro x hx
    simp only [about, beq_iff_eq] at hx
    subst hx
    exact ⟨hr, by simp [hs]⟩
  | @wbegin r m rest bs ok hu hmem hq =>
    refine hist_emit h _ rfl rfl (fun x => Iff.rfl) ?_ (by simp) (by simp [announces])
    intro x hx
    simp only [about, beq_iff_eq] at hx
    subst hx
    have hpos := List.count_pos_iff.2 hmem
    have hwr := hc.wr r
    have hw : (s.conn r).writing = true := by
      cases hb : (s.conn r).writing with
      | true => rfl
      | false => rw [hb] at hwr; simp only [Bool.toNat_false] at hwr; omega
    exact ⟨hc.lt_of_write hw, (hc.wl r hw).1⟩
  | @wmore r m rest ok fs hk =>
    refine hist_emit h _ rfl rfl (fun x => Iff.rfl) ?_ (by simp) (by simp [announces])
    intro x hx
    simp only [about, beq_iff_eq] at hx
    subst hx
    exact (hc.top hk rfl).1
  | @wend r ok fs hk =>
    exact hist_quiet h rfl rfl (fun x => status_set (s := s.pop) (r := r)
      (c := { s.conn r with q := (s.conn r).q.tail, writing := false }) Iff.rfl x)
  | @cbegin r m rest bs after hu hr hs hc' hw hq =>
    refine hist_emit h _ rfl rfl (fun x => Iff.rfl) ?_ (by simp) (by simp [announces])
    intro x hx
    simp only [about, beq_iff_eq] at hx
    subst hx
    exact ⟨hr, by simp [hs]⟩
  | @cmore r m rest after fs hk =>
    refine hist_emit h _ rfl rfl (fun x => Iff.rfl) ?_ (by simp) (by simp [announces])
    intro x hx
    simp only [about, beq_iff_eq] at hx
    subst hx
    have := (hc.top hk rfl).1
    exact ⟨this.1, by simp [this.2.1]⟩
  | @cend r after fs hk =>
    exact hist_quiet h rfl rfl (fun x => status_set (s := s.pop) (r := r)
      (c := { s.conn r with q := (s.conn r).q.tail }) Iff.rfl x)
  | lret hk => exact hist_emit h _ rfl rfl (fun x => Iff.rfl) (by simp [about]) (by simp) (by simp [announces])
  | pop hk hf => exact hist_quiet h rfl rfl (fun _ => Iff.rfl)
  | loose hk => exact hist_quiet h rfl rfl (fun _ => Iff.rfl)
  | second t hk => exact hist_emit h _ rfl rfl (fun x => Iff.rfl) (by simp [about]) (by simp) (by simp [announces])
  | free hk => exact hist_quiet h rfl rfl (fun _ => Iff.rfl)
  | @rmore r n b fs hk =>
    refine hist_emit h _ rfl rfl (fun x => Iff.rfl) ?_ (by simp) (by simp [announces])
    intro x hx
    simp only [about, beq_iff_eq] at hx
    subst hx
    exact (hc.top hk rfl).1
  | @rbegin r f hu hr hs hf =>
    refine hist_emit h _ rfl rfl (fun x => Iff.rfl) ?_ (by simp) (by simp [announces])
    intro x hx
    simp only [about, beq_iff_eq] at hx
    subst hx
    exact ⟨hr, by simp [hs]⟩
  | again => exact hist_quiet h rfl rfl (fun _ => Iff.rfl)
  | flag b => exact hist_quiet h rfl rfl (fun _ => Iff.rfl)
  | call => exact hist_quiet h rfl rfl (fun _ => Iff.rfl)
  | note e he =>
    refine hist_emit h e rfl rfl (fun x => Iff.rfl) ?_ ?_ ?_
    · intro r; cases e <;> simp_all [Ev.plain, about]
    · intro r; rintro rfl; cases he
    · intro r
      match e, he with
      | .ret _ _, _ => rfl
      | .answer _ _ none, _ => rfl
  | req q hq => exact hist_quiet h rfl rfl (fun _ => Iff.rfl)
  | done q hq hmem => exact hist_quiet h rfl rfl (fun _ => Iff.rfl)
  | hand => exact hist_quiet h rfl rfl (fun _ => Iff.rfl)
  | unhand => exact hist_quiet h rfl rfl (fun _ => Iff.rfl)
  | make fd hf e he =>
    have hlog : ((make s fd).1.emit e).log = s.log ++ [e] := rfl
    have hnext : ((make s fd).1.emit e).next = s.next + 1 := rfl
    have hst : ∀ x, (((make s fd).1.emit e).conn x).status = .disconnected ↔ (s.conn x).status = .disconnected := by
      intro x
      simp only [make, St.emit]
      by_cases ex : x = s.next
      · rw [ex, upd_same, hc.new _ (Nat.le_refl _)]; simp
      · rw [upd_ne _ _ ex]
    have hann : ∀ x, announces x e = (s.next == x) := by
      intro x
      rcases he with ⟨t, rfl⟩ | ⟨l, rfl, -⟩ <;> rfl
    have habt : ∀ x, about x e = true → x < s.next ∧ (s.conn x).status ≠ .disconnected := by
      intro x hx
      rcases he with ⟨t, rfl⟩ | ⟨l, rfl, h1, h2⟩
      · simp [about] at hx
      · simp only [about, beq_iff_eq] at hx
        subst hx; exact ⟨h1, h2⟩
    constructor
    · rw [hlog, ordered_snoc]
      refine ⟨h.ord, ?_, ?_⟩
      · intro r hr
        cases hb : about r e with
        | false => rfl
        | true =>
          have := h.gone r
          rw [if_neg (habt r hb).2, List.count_eq_zero] at this
          exact absurd hr this
      · intro r f hf hb
        rw [hann]
        have := h.abt r f hf hb
        simp; exact Nat.ne_of_gt this
    · intro r
      rw [hlog, List.count_append, h.gone]
      have : [e].count (.disconnected r) = 0 := by
        rw [List.count_eq_zero]; simp
        rcases he with ⟨t, rfl⟩ | ⟨l, rfl, -⟩ <;> simp
      simp only [hst, this, Nat.add_zero]
    · intro r
      rw [hlog, List.countP_append, h.ann, hnext]
      simp only [List.countP_cons, List.countP_nil, hann]
      by_cases ex : s.next = r
      · subst ex; simp
      · have : (s.next == r) = false := by simp [ex]
        rw [this]
        have e1 : (r < s.next + 1) ↔ r < s.next := by
          constructor
          · intro hh; exact Nat.lt_of_le_of_ne (Nat.le_of_lt_succ hh) (fun e' => ex e'.symm)
          · intro hh; exact Nat.lt_succ_of_lt hh
        simp only [e1]; simp
    · intro r f hf hb
      rw [hlog] at hf
      rw [hnext]
      rcases List.mem_append.1 hf with hf | hf
      · exact Nat.lt_succ_of_lt (h.abt r f hf hb)
      · simp at hf; subst hf; exact Nat.lt_succ_of_lt (habt r hb).1
  | @refused l code _ hr hs =>
    refine hist_emit h _ rfl rfl (fun x => Iff.rfl) ?_ (by simp) (by simp [announces])
    intro x hx
    simp only [about, beq_iff_eq] at hx
    subst hx
    exact ⟨hr, hs⟩
  | pushL t => exact hist_quiet h rfl rfl (fun _ => Iff.rfl)
  | push f hu hf => exact hist_quiet h rfl rfl (fun _ => Iff.rfl)
  | waitEnd hk => exact hist_quiet h rfl rfl (fun _ => Iff.rfl)
  | @closed r hu hmem hw =>
    obtain ⟨hr, hcl⟩ := hc.h r hmem
    have hnd : (s.conn r).status ≠ .disconnected := by
      rcases hc.sd r hr hcl with h1 | h1
      · simp [h1.1]
      · have := List.count_pos_iff.2 hmem; omega
    have h0 := h.gone r
    rw [if_neg hnd] at h0
    constructor
    · show Ordered (s.log ++ [.disconnected r])
      rw [ordered_snoc]
      refine ⟨h.ord, ?_, by simp [announces]⟩
      intro x hx
      simp only [about]
      have : x ≠ r := by rintro rfl; exact List.count_eq_zero.1 h0 hx
      simp; exact fun e => this e.symm
    · intro x
      show (s.log ++ [Ev.disconnected r]).count (.disconnected x) = if (upd s.conn r _ x).status = .disconnected then 1 else 0
      rw [List.count_append]
      by_cases e : x = r
      · rw [e, h0, upd_same]; simp
      · have h1 : [Ev.disconnected r].count (.disconnected x) = 0 := by
          rw [List.count_eq_zero]; simp [e]
        rw [h1, h.gone, upd_ne _ _ e]; rfl
    · intro x
      show (s.log ++ [Ev.disconnected r]).countP (announces x) = _
      rw [List.countP_append, h.ann]; simp [announces]; rfl
    · intro x f hf hb
      have hf : f ∈ s.log ++ [Ev.disconnected r] := hf
      rcases List.mem_append.1 hf with hf | hf
      · exact h.abt x f hf hb
      · simp at hf; subst hf
        simp only [about, beq_iff_eq] at hb
        subst hb; exact hr

/-! ### Messages -/

/-- Messages of the block in work that are not reported yet. -/
def todoOf (r : Ref) : List Frame → Option (List Nat)
  | [] => none
  | .written c t _ :: fs => if c = r then some t else todoOf r fs
  | .cancel c t _ :: fs => if c = r then some t else todoOf r fs
  | _ :: fs => todoOf r fs

/-- Messages of a connection that are not reported yet. -/
def unrep (s : St) (r : Ref) : List Nat :=
  match todoOf r s.stack with
  | some t => t ++ (s.conn r).q.tail.flatten
  | none => (s.conn r).q.flatten

/-- Invariant on the messages of every connection. -/
structure Msgs (s : St) : Prop where
  eq : ∀ r, sentOf r s.log = reportedOf r s.log ++ unrep s r
  code : ∀ r m c ok, .written r m c ok ∈ s.log → (c = Err.SUCCESS ∨ (c = Err.CLOSING ∧ ok = false))

theorem msgs_init : Msgs St.init := by
  constructor <;> simp [St.init, sentOf, reportedOf, unrep, todoOf]

theorem todo_no_uv {l : List Frame} (h : l.any Frame.uv = false) (r : Ref) : todoOf r l = none := by
  induction l with
  | nil => rfl
  | cons f l ih =>
    rw [List.any_cons, Bool.or_eq_false_iff] at h
    cases f <;> first | exact ih h.2 | (exact absurd h.1 (by simp [Frame.uv]))

theorem todo_rehash (r : Ref) (l : List Frame) : todoOf r (l.map Frame.rehash) = todoOf r l := by
  induction l with
  | nil => rfl
  | cons f l ih => cases f <;> simp [Frame.rehash, todoOf, ih]

theorem todo_mem {r : Ref} {l : List Frame} {t : List Nat} (h : todoOf r l = some t) :
    (∃ ok, .written r t ok ∈ l) ∨ ∃ b, .cancel r t b ∈ l := by
  induction l with
  | nil => cases h
  | cons f l ih =>
    cases f with
    | written c t' ok =>
      simp only [todoOf] at h
      split at h
      · next e => cases h; subst e; exact Or.inl ⟨ok, List.mem_cons_self⟩
      · rcases ih h with ⟨k, h1⟩ | ⟨k, h1⟩
        · exact Or.inl ⟨k, List.mem_cons_of_mem _ h1⟩
        · exact Or.inr ⟨k, List.mem_cons_of_mem _ h1⟩
    | cancel c t' b =>
      simp only [todoOf] at h
      split at h
      · next e => cases h; subst e; exact Or.inr ⟨b, List.mem_cons_self⟩
      · rcases ih h with ⟨k, h1⟩ | ⟨k, h1⟩
        · exact Or.inl ⟨k, List.mem_cons_of_mem _ h1⟩
        · exact Or.inr ⟨k, List.mem_cons_of_mem _ h1⟩
    | _ =>
      rcases ih h with ⟨k, h1⟩ | ⟨k, h1⟩
      · exact Or.inl ⟨k, List.mem_cons_of_mem _ h1⟩
      · exact Or.inr ⟨k, List.mem_cons_of_mem _ h1⟩

/-- A block in work belongs to a connection that is writing or closing. -/
theorem todo_busy {s : St} (h : Core s) {r : Ref} {t : List Nat} (ht : todoOf r s.stack = some t) :
    (s.conn r).writing = true ∨ ((s.conn r).closing = true ∧ (s.conn r).status = .disconnecting) := by
  rcases todo_mem ht with ⟨ok, hm⟩ | ⟨b, hm⟩
  · left
    have := h.wr r
    have hp : 0 < s.stack.countP (isW r) := List.countP_pos_iff.2 ⟨_, hm, by simp [isW]⟩
    cases hb : (s.conn r).writing with
    | true => rfl
    | false => rw [hb] at this; simp only [Bool.toNat_false] at this; omega
  · right
    have := h.fr _ hm
    exact ⟨this.2.2.1, this.2.1⟩

theorem sent_snoc (r : Ref) (l : List Ev) (e : Ev) : sentOf r (l ++ [e]) = sentOf r l ++ sentOf r [e] := by
  simp [sentOf, List.filterMap_append]

theorem rep_snoc (r : Ref) (l : List Ev) (e : Ev) : reportedOf r (l ++ [e]) = reportedOf r l ++ reportedOf r [e] := by
  simp [reportedOf, List.filterMap_append]

/-- Nothing about messages changes. -/
theorem msgs_same {s t : St} (h : Msgs s) (hl : ∃ es, t.log = s.log ++ es ∧ ∀ e ∈ es, ∀ r, sentOf r [e] = [] ∧
    (∀ m c ok, e ≠ .written r m c ok)) (hu : ∀ r, unrep t r = unrep s r) : Msgs t := by
  obtain ⟨es, hl, he⟩ := hl
  have h1 : ∀ r, sentOf r es = [] := by
    intro r
    unfold sentOf
    rw [List.filterMap_eq_nil_iff]
    intro e hm
    have := (he e hm r).1
    unfold sentOf at this
    rw [List.filterMap_eq_nil_iff] at this
    exact this e (by simp)
  have h2 : ∀ r, reportedOf r es = [] := by
    intro r
    unfold reportedOf
    rw [List.filterMap_eq_nil_iff]
    intro e hm
    have := (he e hm r).2
    cases e with
    | written c m k ok =>
      simp only
      rw [if_neg]
      rintro rfl
      exact this m k ok rfl
    | _ => rfl
  constructor
  · intro r
    have := h.eq r
    have e1 : sentOf r t.log = sentOf r s.log := by
      rw [hl]; unfold sentOf at h1 ⊢; rw [List.filterMap_append, h1, List.append_nil]
    have e2 : reportedOf r t.log = reportedOf r s.log := by
      rw [hl]; unfold reportedOf at h2 ⊢; rw [List.filterMap_append, h2, List.append_nil]
    rw [e1, e2, hu]; exact this
  · intro r m c ok hm
    rw [hl] at hm
    rcases List.mem_append.1 hm with hm | hm
    · exact h.code r m c ok hm
    · exact absurd rfl ((he _ hm r).2 m c ok)

theorem unrep_of {s t : St} (hs : ∀ r, todoOf r t.stack = todoOf r s.stack) (hq : ∀ r, (t.conn r).q = (s.conn r).q) (r : Ref) :
    unrep t r = unrep s r := by
  unfold unrep; rw [hs, hq]

/-- A message is reported. -/
theorem msgs_rep {s t : St} (h : Msgs s) {r : Ref} {m : Nat} {c : Int} {ok : Bool}
    (hcode : c = Err.SUCCESS ∨ (c = Err.CLOSING ∧ ok = false)) (hl : t.log = s.log ++ [.written r m c ok])
    (hu : unrep s r = m :: unrep t r) (ho : ∀ x, x ≠ r → unrep t x = unrep s x) : Msgs t := by
  constructor
  · intro x
    have := h.eq x
    rw [hl, sent_snoc, rep_snoc]
    by_cases e : x = r
    · subst e
      have e1 : sentOf x [Ev.written x m c ok] = [] := rfl
      have e2 : reportedOf x [Ev.written x m c ok] = [m] := by simp [reportedOf]
      rw [e1, e2, this, hu]; simp
    · have e1 : sentOf x [Ev.written r m c ok] = [] := rfl
      have e2 : reportedOf x [Ev.written r m c ok] = [] := by
        simp [reportedOf]; exact fun e' => e e'.symm
      rw [e1, e2, this, ho x e]; simp
  · intro x m' c' ok' hm
    rw [hl] at hm
    rcases List.mem_append.1 hm with hm | hm
    · exact h.code x m' c' ok' hm
    · simp at hm
      obtain ⟨rfl, rfl, rfl, rfl⟩ := hm
      exact hcode

theorem q_set {s : St} {r : Ref} {c : Conn} (hq : c.q = (s.conn r).q) (x : Ref) : ((s.set r c).conn x).q = (s.conn x).q := by
  simp only [St.set]
  by_cases e : x = r
  · rw [e, upd_same]; exact hq
  · rw [upd_ne _ _ e]

theorem msgs_mic {re : Bool} {s t : St} (hc : Core s) (h : Msgs s) (hm : Mic re s t) : Msgs t := by
  have nolog : ∀ {t : St}, t.log = s.log → (∀ r, unrep t r = unrep s r) → Msgs t :=
    fun hl hu => msgs_same h ⟨[], by simp [hl], by simp⟩ hu
  cases hm with
  | cbk cb hr => exact nolog rfl (unrep_of (fun _ => rfl) (q_set rfl))
  | mark hr hs => exact nolog rfl (unrep_of (fun _ => rfl) (q_set rfl))
  | @shut r ev he hr hc' hs =>
    refine nolog rfl (unrep_of ?_ (fun x => q_set (s := s) (r := r) (c := { s.conn r with closing := true }) rfl x))
    intro x
    show todoOf x (if ev.rehash then s.stack.map Frame.rehash else s.stack) = _
    split
    · exact todo_rehash x _
    · rfl
  | @merge r n hr hw hq hc' =>
    refine nolog rfl ?_
    intro x
    unfold unrep
    show (match todoOf x s.stack with
      | some t => t ++ ((upd s.conn r _) x).q.tail.flatten
      | none => ((upd s.conn r _) x).q.flatten) = _
    by_cases e : x = r
    · subst e
      rw [upd_same]
      cases ht : todoOf x s.stack with
      | some t =>
        rcases todo_busy hc ht with h1 | h1
        · rw [hw] at h1; cases h1
        · rw [hc'] at h1; cases h1.1
      | none =>
        simp only [List.flatten_cons]
        rw [← List.flatten_append, List.take_append_drop]
    · rw [upd_ne _ _ e]
  | @start r hr hw hq hc' =>
    exact nolog rfl (unrep_of (fun _ => rfl) (fun x => q_set (s := s) (r := r) (c := { s.conn r with writing := true }) rfl x))
  | @accept r m hr hs =>
    constructor
    · intro x
      show sentOf x (s.log ++ [.sent r m]) = reportedOf x (s.log ++ [.sent r m]) ++ _
      rw [sent_snoc, rep_snoc, h.eq x]
      have e2 : reportedOf x [Ev.sent r m] = [] := rfl
      rw [e2, List.append_nil, List.append_assoc]
      congr 1
      by_cases e : x = r
      · subst e
        have e1 : sentOf x [Ev.sent x m] = [m] := by simp [sentOf]
        rw [e1]
        unfold unrep
        show (match todoOf x s.stack with
          | some t => t ++ (s.conn x).q.tail.flatten
          | none => (s.conn x).q.flatten) ++ [m] = match todoOf x s.stack with
          | some t => t ++ ((upd s.conn x _) x).q.tail.flatten
          | none => ((upd s.conn x _) x).q.flatten
        rw [upd_same]
        cases ht : todoOf x s.stack with
        | none => simp
        | some t =>
          rcases todo_busy hc ht with h1 | h1
          · have hne := (hc.wl x h1).2
            match hq : (s.conn x).q, hne with
            | b :: bs, _ => simp
          · rw [hs] at h1; cases h1.2
      · have e1 : sentOf x [Ev.sent r m] = [] := by
          simp [sentOf]; exact fun e' => e e'.symm
        rw [e1, List.append_nil]
        unfold unrep
        show _ = match todoOf x s.stack with
          | some t => t ++ ((upd s.conn r _) x).q.tail.flatten
          | none => ((upd s.conn r _) x).q.flatten
        rw [upd_ne _ _ e]
    · intro x m' c ok hmem
      have hmem : _ ∈ s.log ++ [Ev.sent r m] := hmem
      rcases List.mem_append.1 hmem with h1 | h1
      · exact h.code x m' c ok h1
      · simp at h1
  | @wbegin r m rest bs ok hu hmem hq =>
    refine msgs_rep h (Or.inl rfl) rfl ?_ ?_
    · unfold unrep
      rw [todo_no_uv hu]
      show (s.conn r).q.flatten = m :: (match todoOf r (.written r rest ok :: s.stack) with
        | some t => t ++ (s.conn r).q.tail.flatten
        | none => (s.conn r).q.flatten)
      rw [hq]; simp [todoOf]
    · intro x hx
      unfold unrep
      show (match todoOf x (.written r rest ok :: s.stack) with
        | some t => t ++ (s.conn x).q.tail.flatten
        | none => (s.conn x).q.flatten) = _
      simp only [todoOf, if_neg (Ne.symm hx)]
  | @wmore r m rest ok fs hk =>
    refine msgs_rep h (Or.inl rfl) rfl ?_ ?_
    · unfold unrep
      rw [hk]
      show _ = m :: (match todoOf r (.written r rest ok :: s.pop.stack) with
        | some t => t ++ (s.conn r).q.tail.flatten
        | none => (s.conn r).q.flatten)
      simp [todoOf]
    · intro x hx
      unfold unrep
      show (match todoOf x (.written r rest ok :: s.pop.stack) with
        | some t => t ++ (s.conn x).q.tail.flatten
        | none => (s.conn x).q.flatten) = _
      rw [hk, pop_stack hk]
      simp only [todoOf, if_neg (Ne.symm hx)]
  | @wend r ok fs hk =>
    refine nolog rfl ?_
    intro x
    have hn := todo_no_uv (hc.top hk rfl).2 x
    unfold unrep
    show (match todoOf x s.pop.stack with
      | some t => t ++ ((upd s.conn r _) x).q.tail.flatten
      | none => ((upd s.conn r _) x).q.flatten) = _
    rw [pop_stack hk, hn, hk]
    by_cases e : x = r
    · subst e; rw [upd_same]; simp [todoOf]
    · rw [upd_ne _ _ e]; simp only [todoOf, if_neg (Ne.symm e), hn]
  | @cbegin r m rest bs after hu hr hs hc' hw hq =>
    refine msgs_rep h (Or.inr ⟨rfl, rfl⟩) rfl ?_ ?_
    · unfold unrep
      rw [todo_no_uv hu]
      show (s.conn r).q.flatten = m :: (match todoOf r (.cancel r rest after :: s.stack) with
        | some t => t ++ (s.conn r).q.tail.flatten
        | none => (s.conn r).q.flatten)
      rw [hq]; simp [todoOf]
    · intro x hx
      unfold unrep
      show (match todoOf x (.cancel r rest after :: s.stack) with
        | some t => t ++ (s.conn x).q.tail.flatten
        | none => (s.conn x).q.flatten) = _
      simp only [todoOf, if_neg (Ne.symm hx)]
  | @cmore r m rest after fs hk =>
    refine msgs_rep h (Or.inr ⟨rfl, rfl⟩) rfl ?_ ?_
    · unfold unrep
      rw [hk]
      show _ = m :: (match todoOf r (.cancel r rest after :: s.pop.stack) with
        | some t => t ++ (s.conn r).q.tail.flatten
        | none => (s.conn r).q.flatten)
      simp [todoOf]
    · intro x hx
      unfold unrep
      show (match todoOf x (.cancel r rest after :: s.pop.stack) with
        | some t => t ++ (s.conn x).q.tail.flatten
        | none => (s.conn x).q.flatten) = _
      rw [hk, pop_stack hk]
      simp only [todoOf, if_neg (Ne.symm hx)]
  | @cend r after fs hk =>
    refine nolog rfl ?_
    intro x
    have hn := todo_no_uv (hc.top hk rfl).2 x
    unfold unrep
    show (match todoOf x s.pop.stack with
      | some t => t ++ ((upd s.conn r _) x).q.tail.flatten
      | none => ((upd s.conn r _) x).q.flatten) = _
    rw [pop_stack hk, hn, hk]
    by_cases e : x = r
    · subst e; rw [upd_same]; simp [todoOf]
    · rw [upd_ne _ _ e]; simp only [todoOf, if_neg (Ne.symm e), hn]
  | lret hk =>
    exact msgs_same h ⟨_, rfl, by simp [sentOf]⟩ (unrep_of (fun x => by
      show todoOf x s.pop.stack = _; rw [pop_stack hk, hk]; rfl) (fun _ => rfl))
  | @pop f fs hk hf =>
    refine nolog rfl (unrep_of (fun x => ?_) (fun _ => rfl))
    rw [pop_stack hk, hk]
    cases f <;> first | rfl | cases hf
  | loose hk =>
    refine nolog rfl (unrep_of (fun x => ?_) (fun _ => rfl))
    show todoOf x s.pop.stack = _
    rw [pop_stack hk, hk]; rfl
  | second t hk =>
    refine msgs_same h ⟨_, rfl, by simp [sentOf]⟩ (unrep_of (fun x => ?_) (fun _ => rfl))
    show todoOf x (_ :: s.pop.stack) = _
    rw [pop_stack hk, hk]; rfl
  | free hk =>
    refine nolog rfl (unrep_of (fun x => ?_) (fun _ => rfl))
    show todoOf x s.pop.stack = _
    rw [pop_stack hk, hk]; rfl
  | rmore hk =>
    refine msgs_same h ⟨_, rfl, by simp [sentOf]⟩ (unrep_of (fun x => ?_) (fun _ => rfl))
    show todoOf x (_ :: s.pop.stack) = _
    rw [pop_stack hk, hk]; rfl
  | @rbegin r f hu hr hs hf =>
    refine msgs_same h ⟨_, rfl, by simp [sentOf]⟩ (unrep_of (fun x => ?_) (fun _ => rfl))
    rcases hf with ⟨n, b, rfl⟩ | ⟨b, rfl⟩ <;> rfl
  | again => exact nolog rfl (fun _ => rfl)
  | flag b => exact nolog rfl (fun _ => rfl)
  | call => exact nolog rfl (fun _ => rfl)
  | note e he =>
    refine msgs_same h ⟨_, rfl, ?_⟩ (fun _ => rfl)
    intro f hf r
    simp at hf; subst hf
    match f, he with
    | .ret _ _, _ => exact ⟨rfl, by simp⟩
    | .answer _ _ none, _ => exact ⟨rfl, by simp⟩
  | req q hq => exact nolog rfl (fun _ => rfl)
  | done q hq hmem => exact nolog rfl (fun _ => rfl)
  | hand => exact nolog rfl (fun _ => rfl)
  | unhand => exact nolog rfl (fun _ => rfl)
  | make fd hf e he =>
    refine msgs_same h ⟨_, rfl, ?_⟩ (unrep_of (fun x => rfl) ?_)
    · intro f hf r
      simp at hf; subst hf
      rcases he with ⟨t, rfl⟩ | ⟨l, rfl, -⟩ <;> exact ⟨rfl, by simp⟩
    · intro x
      simp only [make, St.emit]
      by_cases e : x = s.next
      · rw [e, upd_same, hc.new _ (Nat.le_refl _)]
      · rw [upd_ne _ _ e]
  | refused code _ hr hs => exact msgs_same h ⟨_, rfl, by simp [sentOf]⟩ (fun _ => rfl)
  | pushL t => exact nolog rfl (unrep_of (fun _ => rfl) (fun _ => rfl))
  | push f hu hf =>
    refine nolog rfl (unrep_of (fun x => ?_) (fun _ => rfl))
    rcases hf with rfl | rfl | rfl <;> rfl
  | waitEnd hk =>
    refine nolog rfl (unrep_of (fun x => ?_) (fun _ => rfl))
    rw [pop_stack hk, hk]; rfl
  | @closed r hu hmem hw =>
    exact msgs_same h ⟨_, rfl, by simp [sentOf]⟩ (unrep_of (fun _ => rfl) (fun x =>
      q_set (s := s) (r := r) (c := { s.conn r with status := .disconnected }) rfl x))

end Verif.IoStream.Pool
