import Verif.IoStream.PoolMic

namespace Verif.IoStream.Pool

/-- Write flag, write buffer, requests and stack change. -/
theorem core_wr {s t : St} (h : Core s) {r : Ref} (hr : r < s.next) (c : Conn) (hcn : t.conn = upd s.conn r c)
    (hfd : c.fd = (s.conn r).fd) (hc : c.closing = (s.conn r).closing) (hs : c.status = (s.conn r).status)
    (hn : t.next = s.next) (hp : t.pool = s.pool) (hg : t.gc = s.gc) (hh : t.hands = s.hands)
    (hq : c.writing = true → (s.conn r).status ≠ .disconnected ∧ c.q ≠ []) (hne : [] ∉ c.q)
    (hsh : shape t.stack) (hf : ∀ f ∈ t.stack, FrameOk t f) (ha : t.active = t.reqs.length)
    (hw : ∀ x, t.reqs.count (.write x) + t.stack.countP (isW x) = (t.conn x).writing.toNat) : Core t := by
  have key : ∀ x, (t.conn x).fd = (s.conn x).fd ∧ (t.conn x).closing = (s.conn x).closing ∧
      (t.conn x).status = (s.conn x).status := by
    intro x
    rw [hcn]
    by_cases e : x = r
    · rw [e, upd_same]; exact ⟨hfd, hc, hs⟩
    · rw [upd_ne _ _ e]; exact ⟨rfl, rfl, rfl⟩
  constructor
  · rw [hp]; exact h.pk
  · intro p; rw [hp, hn, (key _).1, (key _).2.1]; exact h.p p
  · rw [hg]; exact h.gk
  · intro p; rw [hg, hn, (key _).2.1]; exact h.g p
  · intro x; rw [hp, hn, (key _).1, (key _).2.1, (key _).2.2]; exact h.op x
  · intro x; rw [hg, hn, hh, (key _).2.1, (key _).2.2]; exact h.sd x
  · intro x; rw [hh, hn, (key _).2.1]; exact h.h x
  · intro x hx
    rw [hn] at hx
    rw [hcn, upd_ne _ _ (Nat.ne_of_gt (Nat.lt_of_lt_of_le hr hx))]; exact h.new x hx
  · exact hsh
  · exact hf
  · exact ha
  · exact hw
  · intro x hx
    rw [(key x).2.2]
    rw [hcn] at hx ⊢
    by_cases e : x = r
    · rw [e, upd_same] at hx ⊢; exact hq hx
    · rw [upd_ne _ _ e] at hx ⊢; exact h.wl x hx
  · intro x
    rw [hcn]
    by_cases e : x = r
    · rw [e, upd_same]; exact hne
    · rw [upd_ne _ _ e]; exact h.ne x

theorem upd_self (f : Ref → Conn) (r : Ref) : upd f r (f r) = f := by
  funext x; unfold upd; split
  · next h => rw [h]
  · rfl

theorem count_one {a b : Ref} : [Req.write a].count (.write b) = if a = b then 1 else 0 := by
  by_cases h : a = b
  · subst h; simp
  · rw [List.count_eq_zero.2 (by simp; exact fun e => h e.symm), if_neg h]

theorem core_start {s : St} (h : Core s) {r : Ref} (hr : r < s.next) (hw : (s.conn r).writing = false)
    (hq : (s.conn r).q ≠ []) (hc : (s.conn r).closing = false) :
    Core { s.set r { s.conn r with writing := true } with reqs := s.reqs ++ [.write r], active := s.active + 1 } := by
  refine core_wr h hr { s.conn r with writing := true } rfl rfl rfl rfl rfl rfl rfl rfl ?_ (h.ne r) h.sh ?_ ?_ ?_
  · intro _
    refine ⟨?_, hq⟩
    rcases (h.op r hr hc).2 with h1 | h1 <;> simp [h1]
  · intro f hf
    have := h.fr f hf
    have k1 : ∀ x, (upd s.conn r { s.conn r with writing := true } x).status = (s.conn x).status ∧
        (upd s.conn r { s.conn r with writing := true } x).closing = (s.conn x).closing := by
      intro x
      by_cases e : x = r
      · rw [e, upd_same]; exact ⟨rfl, rfl⟩
      · rw [upd_ne _ _ e]; exact ⟨rfl, rfl⟩
    cases f <;> simp only [FrameOk, St.set, k1] at this ⊢
    all_goals first | exact this | skip
    refine ⟨this.1, this.2.1, this.2.2.1, ?_⟩
    rw [upd_ne _ _ ?_]
    · exact this.2.2.2
    · intro e; rw [e, hc] at this; cases this.2.2.1
  · simp [h.act]
  · intro x
    have := h.wr x
    show (s.reqs ++ [Req.write r]).count (Req.write x) + s.stack.countP (isW x) = _
    rw [List.count_append, count_one]
    simp only [St.set]
    by_cases e : x = r
    · subst e
      rw [hw] at this
      rw [upd_same, if_pos rfl]
      simp only [Bool.toNat_false] at this
      simp only [Bool.toNat_true]; omega
    · rw [upd_ne _ _ e, if_neg (fun e' => e e'.symm)]; omega

theorem count_erase_plain {l : List Req} {q : Req} (x : Ref) (hq : q.plain = true) :
    (l.erase q).count (.write x) = l.count (.write x) := by
  rw [List.count_erase_of_ne]
  intro e; subst e; cases hq

theorem Core.lt_of_write {s : St} (h : Core s) {r : Ref} (hw : (s.conn r).writing = true) : r < s.next := by
  rcases Nat.lt_or_ge r s.next with h1 | h1
  · exact h1
  · rw [h.new r h1] at hw; cases hw

theorem core_wbegin {s : St} (h : Core s) {r : Ref} (hu : s.stack.any Frame.uv = false) (hm : .write r ∈ s.reqs)
    (todo : List Nat) (ok : Bool) (log : List Ev) :
    Core { s with reqs := s.reqs.erase (.write r), active := s.active - 1, log := log,
                  stack := .written r todo ok :: s.stack } := by
  have hc := List.count_pos_iff.2 hm
  have hwr := h.wr r
  rw [no_isW hu] at hwr
  have hw : (s.conn r).writing = true := by
    cases hb : (s.conn r).writing with
    | true => rfl
    | false => rw [hb] at hwr; simp only [Bool.toNat_false] at hwr; omega
  have hr := h.lt_of_write hw
  refine core_wr h hr (s.conn r) (upd_self _ _).symm rfl rfl rfl rfl rfl rfl rfl (fun _ => h.wl r hw) (h.ne r)
    ⟨Or.inr hu, h.sh⟩ ?_ ?_ ?_
  · intro f hf
    rcases List.mem_cons.1 hf with rfl | hf
    · exact ⟨hr, (h.wl r hw).1⟩
    · have := h.fr f hf
      cases f <;> exact this
  · simp only [List.length_erase_of_mem hm, h.act]
  · intro x
    have hx := h.wr x
    rw [no_isW hu] at hx
    simp only [List.countP_cons, no_isW hu, isW]
    by_cases e : x = r
    · subst e
      rw [List.count_erase_self]
      simp only [beq_self_eq_true, if_true]; omega
    · rw [List.count_erase_of_ne (by simp; exact fun e' => e e')]
      have : (r == x) = false := by simp; exact fun e' => e e'.symm
      simp only [this]
      simpa using hx

theorem core_wend {s : St} (h : Core s) {r : Ref} {todo : List Nat} {ok : Bool} {fs : List Frame}
    (hk : s.stack = .written r todo ok :: fs) :
    Core (s.pop.set r { s.conn r with q := (s.conn r).q.tail, writing := false }) := by
  have hsh := h.sh
  rw [hk] at hsh
  have hu := shape_uv hsh rfl
  have hfr : FrameOk s (.written r todo ok) := h.fr _ (by rw [hk]; exact List.mem_cons_self)
  refine core_wr h hfr.1 { s.conn r with q := (s.conn r).q.tail, writing := false } rfl rfl rfl rfl rfl rfl rfl rfl
    (fun e => by cases e) ?_ ?_ ?_ h.act ?_
  · intro hm; exact h.ne r (List.mem_of_mem_tail hm)
  · simp only [St.pop, St.set, hk]; exact hsh.2
  · simp only [St.pop, St.set, hk]
    exact ok_of_no_uv hu
  · intro x
    have hx := h.wr x
    rw [hk, List.countP_cons] at hx
    show s.reqs.count (.write x) + (s.stack.tail).countP (isW x) = _
    rw [hk]
    simp only [List.tail_cons, St.pop, St.set, isW] at hx ⊢
    by_cases e : x = r
    · subst e
      rw [upd_same]
      have := (s.conn x).writing.toNat_le
      simp only [beq_self_eq_true, if_true, Bool.toNat_false] at hx ⊢
      omega
    · rw [upd_ne _ _ e]
      have : (r == x) = false := by simp; exact fun e' => e e'.symm
      simp only [this] at hx
      simpa using hx

theorem core_make {s : St} (h : Core s) {fd : Nat} (hf : ∀ p ∈ s.pool, p.1 ≠ fd) : Core (make s fd).1 := by
  have hold : ∀ x, x < s.next → (make s fd).1.conn x = s.conn x := by
    intro x hx
    simp only [make]; exact upd_ne _ _ (Nat.ne_of_lt hx)
  have hnew : (make s fd).1.conn s.next = ⟨fd, .connected, false, false, none, []⟩ := by simp [make]
  have hother : ∀ x, s.next < x → (make s fd).1.conn x = s.conn x := by
    intro x hx
    simp only [make]; exact upd_ne _ _ (Nat.ne_of_gt hx)
  have hcase : ∀ x, x < s.next + 1 → x < s.next ∨ x = s.next := by intro x hx; exact Nat.lt_succ_iff_lt_or_eq.1 hx
  have hcn : ∀ x, x ≠ s.next → (make s fd).1.conn x = s.conn x := by
    intro x hx; simp only [make]; exact upd_ne _ _ hx
  constructor
  · exact insert_nodup _ _ h.pk
  · intro p hp
    rcases mem_insert.1 hp with rfl | hp
    · rw [hnew]; exact ⟨Nat.lt_succ_self _, rfl, rfl⟩
    · have := h.p p hp.1
      rw [hold _ this.1]; exact ⟨Nat.lt_succ_of_lt this.1, this.2⟩
  · exact h.gk
  · intro p hp
    have := h.g p hp
    rw [hold _ this.2.1]; exact ⟨this.1, Nat.lt_succ_of_lt this.2.1, this.2.2⟩
  · intro x hx hc
    rcases hcase x hx with h1 | rfl
    · rw [hold x h1] at hc ⊢
      have := h.op x h1 hc
      exact ⟨mem_insert.2 (Or.inr ⟨this.1, hf _ this.1⟩), this.2⟩
    · rw [hnew]; exact ⟨mem_insert.2 (Or.inl rfl), Or.inl rfl⟩
  · intro x hx hc
    rcases hcase x hx with h1 | rfl
    · rw [hold x h1] at hc ⊢; exact h.sd x h1 hc
    · rw [hnew] at hc; cases hc
  · intro x hx
    have := h.h x hx
    rw [hold x this.1]; exact ⟨Nat.lt_succ_of_lt this.1, this.2⟩
  · intro x hx
    have hx : s.next + 1 ≤ x := hx
    rw [hother x hx]; exact h.new x (Nat.le_of_succ_le hx)
  · exact h.sh
  · intro f hm
    have := h.fr f hm
    cases f <;> simp only [FrameOk] at this ⊢
    all_goals first | exact this | (rw [hold _ this.1]; exact ⟨Nat.lt_succ_of_lt this.1, this.2⟩)
  · exact h.act
  · intro x
    have := h.wr x
    by_cases e : x = s.next
    · subst e
      rw [h.new _ (Nat.le_refl _)] at this
      rw [hnew]; exact this
    · rw [hcn x e]; exact this
  · intro x hx
    by_cases e : x = s.next
    · subst e; rw [hnew] at hx; cases hx
    · rw [hcn x e] at hx ⊢; exact h.wl x hx
  · intro x
    by_cases e : x = s.next
    · subst e; rw [hnew]; simp
    · rw [hcn x e]; exact h.ne x

theorem core_closed {s : St} (h : Core s) {r : Ref} (hu : s.stack.any Frame.uv = false) (hm : .conn r ∈ s.hands)
    (hw : .write r ∉ s.reqs) (log : List Ev) :
    Core { s with hands := s.hands.erase (.conn r), conn := upd s.conn r { s.conn r with status := .disconnected },
                  log := log, stack := .onClose r true false :: s.stack } := by
  obtain ⟨hr, hc⟩ := h.h r hm
  have hpos := List.count_pos_iff.2 hm
  have hd : (s.conn r).status = .disconnecting ∧ (r, r) ∈ s.gc ∧ s.hands.count (.conn r) = 1 := by
    rcases h.sd r hr hc with h1 | h1
    · exact h1
    · omega
  have hwf : (s.conn r).writing = false := by
    have := h.wr r
    rw [no_isW hu, List.count_eq_zero.2 hw] at this
    cases hb : (s.conn r).writing with
    | false => rfl
    | true => rw [hb] at this; simp at this
  have key : ∀ x, (upd s.conn r { s.conn r with status := Status.disconnected } x).fd = (s.conn x).fd ∧
      (upd s.conn r { s.conn r with status := Status.disconnected } x).closing = (s.conn x).closing ∧
      (upd s.conn r { s.conn r with status := Status.disconnected } x).writing = (s.conn x).writing ∧
      (upd s.conn r { s.conn r with status := Status.disconnected } x).q = (s.conn x).q := by
    intro x
    by_cases e : x = r
    · rw [e, upd_same]; exact ⟨rfl, rfl, rfl, rfl⟩
    · rw [upd_ne _ _ e]; exact ⟨rfl, rfl, rfl, rfl⟩
  constructor
  · exact h.pk
  · intro p hp
    have := h.p p hp
    simp only [key]; exact this
  · exact h.gk
  · intro p hp
    have := h.g p hp
    simp only [key]; exact this
  · intro x hx hxc
    simp only [key] at hxc ⊢
    have := h.op x hx hxc
    refine ⟨this.1, ?_⟩
    rw [upd_ne _ _ (by intro e; rw [e, hc] at hxc; cases hxc)]; exact this.2
  · intro x hx hxc
    simp only [key] at hxc ⊢
    by_cases e : x = r
    · right
      rw [e, upd_same, List.count_erase_self]
      exact ⟨rfl, by omega⟩
    · rw [upd_ne _ _ e, List.count_erase_of_ne (by simp; exact fun e' => e e')]; exact h.sd x hx hxc
  · intro x hx
    simp only [key]
    exact h.h x (List.mem_of_mem_erase hx)
  · intro x hx
    have hx : s.next ≤ x := hx
    show upd s.conn r _ x = _
    rw [upd_ne _ _ (Nat.ne_of_gt (Nat.lt_of_lt_of_le hr hx))]; exact h.new x hx
  · exact ⟨Or.inr hu, h.sh⟩
  · intro f hf
    rcases List.mem_cons.1 hf with rfl | hf
    · refine ⟨hr, hd.2.1, ?_⟩
      simp only; rw [upd_same]
    · exact ok_of_no_uv hu f hf
  · exact h.act
  · intro x
    have := h.wr x
    simp only [key, List.countP_cons, isW]
    simpa using this
  · intro x hx
    simp only [key] at hx ⊢
    by_cases e : x = r
    · rw [e, hwf] at hx; cases hx
    · rw [upd_ne _ _ e]; exact h.wl x hx
  · intro x
    simp only [key]; exact h.ne x

theorem core_free {s : St} (h : Core s) {r : Ref} {v b : Bool} {fs : List Frame}
    (hk : s.stack = .onClose r v b :: fs) : Core { s.pop with gc := erase s.gc r } := by
  have hsh := h.sh
  rw [hk] at hsh
  have hu := shape_uv hsh rfl
  have hfr : FrameOk s (.onClose r v b) := h.fr _ (by rw [hk]; exact List.mem_cons_self)
  constructor
  · exact h.pk
  · exact h.p
  · exact erase_nodup _ h.gk
  · intro p hp; exact h.g p (mem_erase.1 hp).1
  · exact h.op
  · intro x hx hxc
    rcases h.sd x hx hxc with h1 | h1
    · refine Or.inl ⟨h1.1, mem_erase.2 ⟨h1.2.1, ?_⟩, h1.2.2⟩
      simp only
      intro e
      have h2 := h1.1
      rw [e] at h2
      rw [hfr.2.2] at h2; cases h2
    · exact Or.inr h1
  · exact h.h
  · exact h.new
  · simp only [St.pop, hk]; exact hsh.2
  · simp only [St.pop, hk]; exact ok_of_no_uv hu
  · exact h.act
  · intro x
    have := h.wr x
    rw [hk, List.countP_cons] at this
    simp only [St.pop, hk, List.tail_cons]
    simpa [isW] using this
  · exact h.wl
  · exact h.ne

theorem core_reqs {s : St} (h : Core s) (reqs : List Req) (n : Nat) (hn : n = reqs.length)
    (hc : ∀ x, reqs.count (.write x) = s.reqs.count (.write x)) : Core { s with reqs := reqs, active := n } := by
  constructor
  · exact h.pk
  · exact h.p
  · exact h.gk
  · exact h.g
  · exact h.op
  · exact h.sd
  · exact h.h
  · exact h.new
  · exact h.sh
  · intro f hf
    have := h.fr f hf
    cases f <;> exact this
  · exact hn
  · intro x; rw [hc]; exact h.wr x
  · exact h.wl
  · exact h.ne

theorem core_misc {s : St} (h : Core s) (again calls : Nat) (closing : Bool) (log : List Ev) (hands : List Hand)
    (hh : ∀ r, hands.count (.conn r) = s.hands.count (.conn r)) :
    Core { s with again := again, calls := calls, closing := closing, log := log, hands := hands } :=
  core_stack h rfl rfl rfl rfl rfl rfl hh h.sh h.fr (fun _ => rfl)

theorem core_mic {re : Bool} {s t : St} (h : Core s) (hm : Mic re s t) : Core t := by
  cases hm with
  | @cbk r cb hr =>
    exact core_set h hr _ rfl rfl rfl (Or.inl rfl) (fun hw => (h.wl r hw).2) (h.ne r)
  | @mark r hr hs =>
    exact core_set h hr _ rfl rfl rfl (Or.inr ⟨hs, rfl⟩) (fun hw => (h.wl r hw).2) (h.ne r)
  | shut ev he hr hc hs => exact core_shut h hr hc hs
  | @merge r n hr hw hq hc =>
    refine core_set h hr _ rfl rfl rfl (Or.inl rfl) (fun _ => by simp) ?_
    intro hm
    rcases List.mem_cons.1 hm with h1 | h1
    · match hq' : (s.conn r).q, hq with
      | b :: bs, _ =>
        rw [hq'] at h1
        simp only [List.take_succ_cons, List.flatten_cons] at h1
        have h2 : b = [] := (List.append_eq_nil_iff.1 h1.symm).1
        apply h.ne r
        rw [hq', h2]; exact List.mem_cons_self
    · exact h.ne r (List.mem_of_mem_drop h1)
  | start hr hw hq hc => exact core_start h hr hw hq hc
  | @accept r m hr hs =>
    have := core_set h hr { s.conn r with q := (s.conn r).q ++ [[m]] } rfl rfl rfl (Or.inl rfl) (fun _ => by simp)
      (by simp; exact h.ne r)
    exact core_misc this _ _ _ _ _ (fun _ => rfl)
  | wbegin ok hu hm hq => exact core_wbegin h hu hm _ _ _
  | @wmore r m rest ok fs hk =>
    have hsh := h.sh
    rw [hk] at hsh
    have hfr : FrameOk s (.written r (m :: rest) ok) := h.fr _ (by rw [hk]; exact List.mem_cons_self)
    have := core_swap h (g := .written r rest ok) hk (shape_uv hsh rfl) hfr (fun _ => rfl)
      (s.log ++ [.written r m Err.SUCCESS ok])
    simpa only [St.push, St.emit, St.pop, hk, List.tail_cons] using this
  | wend hk => exact core_wend h hk
  | @cbegin r m rest bs after hu hr hs hc hw hq =>
    exact core_push h (f := .cancel r rest after) hu ⟨hr, hs, hc, hw⟩ (fun _ => rfl) _
  | @cmore r m rest after fs hk =>
    have hsh := h.sh
    rw [hk] at hsh
    have hfr : FrameOk s (.cancel r (m :: rest) after) := h.fr _ (by rw [hk]; exact List.mem_cons_self)
    have := core_swap h (g := .cancel r rest after) hk (shape_uv hsh rfl) hfr (fun _ => rfl)
      (s.log ++ [.written r m Err.CLOSING false])
    simpa only [St.push, St.emit, St.pop, hk, List.tail_cons] using this
  | @cend r after fs hk =>
    have hfr : FrameOk s (.cancel r [] after) := h.fr _ (by rw [hk]; exact List.mem_cons_self)
    have h1 := core_pop h hk (fun _ => rfl) s.hands (fun _ => rfl) s.log
    have h2 := core_set h1 (r := r) hfr.1 { s.conn r with q := (s.conn r).q.tail } rfl rfl rfl (Or.inl rfl)
      (fun e => by rw [hfr.2.2.2] at e; cases e) (fun hm => h.ne r (List.mem_of_mem_tail hm))
    simpa only [St.set, St.pop, hk, List.tail_cons] using h2
  | @lret t fs hk =>
    have := core_pop h hk (fun _ => rfl) s.hands (fun _ => rfl) (s.log ++ [.ret t Err.SUCCESS])
    simpa only [St.emit, St.pop, hk, List.tail_cons] using this
  | @pop f fs hk hf =>
    have := core_pop h hk (by intro r; cases f <;> first | rfl | cases hf) s.hands (fun _ => rfl) s.log
    simpa only [St.pop, hk, List.tail_cons] using this
  | @loose fs hk =>
    have := core_pop h hk (fun _ => rfl) (s.hands ++ [.loose]) (by intro r; simp) s.log
    simpa only [St.pop, hk, List.tail_cons] using this
  | @second r v fs t hk =>
    have hsh := h.sh
    rw [hk] at hsh
    have hfr : FrameOk s (.onClose r v false) := h.fr _ (by rw [hk]; exact List.mem_cons_self)
    have := core_swap h (g := .onClose r v true) hk (shape_uv hsh rfl) hfr (fun _ => rfl) (s.log ++ [.discCb t r])
    simpa only [St.push, St.emit, St.pop, hk, List.tail_cons] using this
  | free hk => exact core_free h hk
  | @rmore r n b fs hk =>
    have hsh := h.sh
    rw [hk] at hsh
    have hfr : FrameOk s (.recv r (n + 1) b) := h.fr _ (by rw [hk]; exact List.mem_cons_self)
    have := core_swap h (g := .recv r n b) hk (shape_uv hsh rfl) hfr (fun _ => rfl) (s.log ++ [.recv r])
    simpa only [St.push, St.emit, St.pop, hk, List.tail_cons] using this
  | @rbegin r f hu hr hs hf =>
    have hd : (s.conn r).status ≠ .disconnected := by rw [hs]; simp
    rcases hf with ⟨n, b, rfl⟩ | ⟨b, rfl⟩
    · exact core_push h (f := .recv r n b) hu ⟨hr, hd⟩ (fun _ => rfl) _
    · exact core_push h (f := .recvErr r b) hu ⟨hr, hd⟩ (fun _ => rfl) _
  | again => exact core_misc h _ _ _ _ _ (fun _ => rfl)
  | flag b => exact core_misc h _ _ _ _ _ (fun _ => rfl)
  | call => exact core_misc h _ _ _ _ _ (fun _ => rfl)
  | note e he => exact core_misc h _ _ _ _ _ (fun _ => rfl)
  | req q hq =>
    refine core_reqs h _ _ (by simp [h.act]) ?_
    intro x
    have : [q].count (.write x) = 0 := by
      rw [List.count_eq_zero]; simp; intro e; subst e; cases hq
    rw [List.count_append, this]; rfl
  | done q hq hm => exact core_reqs h _ _ (by simp [h.act, List.length_erase_of_mem hm]) (fun x => count_erase_plain x hq)
  | hand => exact core_misc h _ _ _ _ _ (by intro r; simp)
  | unhand => exact core_misc h _ _ _ _ _ (by intro r; rw [List.count_erase_of_ne]; simp)
  | make fd hf e he => exact core_misc (core_make h hf) _ _ _ _ _ (fun _ => rfl)
  | refused code _ hr hs => exact core_misc h _ _ _ _ _ (fun _ => rfl)
  | pushL t =>
    refine core_stack h rfl rfl rfl rfl rfl rfl (fun _ => rfl) ⟨Or.inl ⟨t, rfl⟩, h.sh⟩ ?_ ?_
    · intro g hg
      rcases List.mem_cons.1 hg with rfl | hg
      · trivial
      · exact h.fr g hg
    · intro r; simp [St.push, List.countP_cons, isW]
  | push f hu hf =>
    rcases hf with rfl | rfl | rfl
    · exact core_push h (f := .cbEnd) hu trivial (fun _ => rfl) _
    · exact core_push h (f := .loose) hu trivial (fun _ => rfl) _
    · exact core_push h (f := .closeWait) hu trivial (fun _ => rfl) _
  | waitEnd hk =>
    have := core_pop h hk (fun _ => rfl) s.hands (fun _ => rfl) s.log
    simpa only [St.pop, hk, List.tail_cons] using this
  | closed hu hm hw => exact core_closed h hu hm hw _

theorem core_mics {re : Bool} {s t : St} (h : Core s) (hm : Mics re s t) : Core t := by
  induction hm with
  | refl => exact h
  | head h1 _ ih => exact ih (core_mic h h1)

end Verif.IoStream.Pool
