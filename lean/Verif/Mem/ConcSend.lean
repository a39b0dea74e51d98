import Verif.Mem.ConcInv

/-! Steps of the senders keep the invariant. -/
namespace Verif.Mem.Conc

set_option maxRecDepth 10000

theorem CInv.fits {hash : List Byte → Nat} {s : St} {g : G} (h : CInv hash s g) {j : Nat} {r : Res}
    (hr : g.rs[j]? = some r) : MsgFit s.conf r.msg := h.fit r (List.mem_of_getElem? hr)

theorem CInv.klt {hash : List Byte → Nat} {s : St} {g : G} (h : CInv hash s g) {j : Nat} {r : Res}
    (hr : g.rs[j]? = some r) : nodes r.msg.length < s.conf.n := by
  have := (h.fits hr).2.2; omega

theorem CInv.dead {hash : List Byte → Nat} {s : St} {g : G} (h : CInv hash s g) {j : Nat} (hl : Lost s j) :
    ∃ r, g.rs[j]? = some r ∧ Dead hash s g j r := by
  obtain ⟨hf, t, hw, hc⟩ := hl
  rw [h.who, List.getElem?_map] at hw
  cases hr : g.rs[j]? with
  | none => rw [hr] at hw; cases hw
  | some r =>
    rw [hr] at hw
    simp only [Option.map_some, Option.some.injEq] at hw
    have hlt : g.cnt j < (planOf hash s.conf.n g j r).length := by
      apply Nat.lt_of_le_of_ne (h.cnt j r hr)
      intro e
      exact hf ((h.fin j).2 ⟨r, hr, e⟩)
    exact ⟨r, rfl, by rw [hw]; exact hc, hlt, h.late j r hr (by rw [hw]; exact hc) hlt⟩

/-- A reservation that is not taken lies in the window. -/
theorem CInv.window {hash : List Byte → Nat} {s : St} {g : G} (h : CInv hash s g) {j : Nat} {r : Res}
    (hr : g.rs[j]? = some r) (hd : g.d ≤ j) :
    pos g.rs g.d ≤ pos g.rs j ∧ pos g.rs j + nodes r.msg.length ≤ s.tot := by
  have := idx_lt hr
  have h1 := pos_le hd (Nat.le_of_lt this)
  have h2 := pos_le (i := j + 1) (j := g.rs.length) (by omega) (Nat.le_refl _)
  rw [pos_succ hr] at h2
  have := h.tot
  omega

/-- Positions of different reservations. -/
theorem pos_sep {rs : List Res} {j j' : Nat} {r r' : Res} (hr : rs[j]? = some r) (hr' : rs[j']? = some r') (hne : j ≠ j') :
    pos rs j + nodes r.msg.length ≤ pos rs j' ∨ pos rs j' + nodes r'.msg.length ≤ pos rs j := by
  have l1 := idx_lt hr
  have l2 := idx_lt hr'
  rcases Nat.lt_or_gt_of_ne hne with h | h
  · left
    have := pos_le (rs := rs) (i := j + 1) (j := j') h (by omega)
    rw [pos_succ hr] at this; exact this
  · right
    have := pos_le (rs := rs) (i := j' + 1) (j := j) h (by omega)
    rw [pos_succ hr'] at this; exact this

/-- The nodes of different reservations in the window are different. -/
theorem CInv.disj {hash : List Byte → Nat} {s : St} {g : G} (h : CInv hash s g) {j j' : Nat} {r r' : Res}
    (hr : g.rs[j]? = some r) (hr' : g.rs[j']? = some r') (hd : g.d ≤ j) (hd' : g.d ≤ j') (hne : j ≠ j') {x : Nat}
    (hx : Reg s.conf.n (pos g.rs j) (nodes r.msg.length) x) :
    ¬ Reg s.conf.n (pos g.rs j') (nodes r'.msg.length) x := by
  rintro ⟨i', hi', e'⟩
  obtain ⟨i, hi, e⟩ := hx
  have w1 := h.window hr hd
  have w2 := h.window hr' hd'
  have := h.room
  have := ring_inj (L := s.conf.n) (x := pos g.rs j + i) (y := pos g.rs j' + i') (by omega) (by omega) (by rw [← e, e'])
  have := pos_sep hr hr' hne
  omega

/-- What the receiver relies on. -/
structure Ext (hash : List Byte → Nat) (s s' : St) (g g' : G) : Prop where
  conf : s'.conf = s.conf
  rcur : s'.rcur = s.rcur
  d : g'.d = g.d
  x : g'.x = g.x
  rs : ∃ l, g'.rs = g.rs ++ l
  cnt : ∀ (j : Nat) (r : Res), g.rs[j]? = some r → (Full hash s.conf.n g j r ∨ s.crashed r.t = true) → g'.cnt j = g.cnt j
  crashed : ∀ t, s.crashed t = true → s'.crashed t = true

section
variable {hash : List Byte → Nat} {s s' : St} {g g' : G} (E : Ext hash s s' g g')
include E

theorem Ext.get {j : Nat} {r : Res} (h : g.rs[j]? = some r) : g'.rs[j]? = some r := by
  obtain ⟨l, hl⟩ := E.rs
  rw [hl, List.getElem?_append_left (idx_lt h), h]

theorem Ext.getLt {j : Nat} {r : Res} (h : g'.rs[j]? = some r) (hj : j < g.rs.length) : g.rs[j]? = some r := by
  obtain ⟨l, hl⟩ := E.rs
  rw [hl, List.getElem?_append_left hj] at h
  exact h

theorem Ext.pos {j : Nat} (h : j ≤ g.rs.length) : pos g'.rs j = pos g.rs j := by
  obtain ⟨l, hl⟩ := E.rs
  rw [hl, pos_append l h]

theorem Ext.plan {j : Nat} (r : Res) (h : j ≤ g.rs.length) (n : Nat) : planOf hash n g' j r = planOf hash n g j r := by
  unfold planOf; rw [E.pos h]

theorem Ext.full {j : Nat} {r : Res} (hr : g.rs[j]? = some r) (h : Full hash s.conf.n g j r) :
    Full hash s'.conf.n g' j r := by
  unfold Full
  rw [E.conf, E.plan r (Nat.le_of_lt (idx_lt hr)), E.cnt j r hr (Or.inl h)]
  exact h

theorem Ext.dead {j : Nat} {r : Res} (hr : g.rs[j]? = some r) (h : Dead hash s g j r) : Dead hash s' g' j r := by
  unfold Dead
  rw [E.conf, E.plan r (Nat.le_of_lt (idx_lt hr)), E.cnt j r hr (Or.inr h.1)]
  exact ⟨E.crashed _ h.1, h.2⟩

theorem Ext.skipped {q : Nat} (hq : q ≤ g.rs.length)
    (h : ∀ (j : Nat) (r' : Res), g.d ≤ j → j < q → g.rs[j]? = some r' → Dead hash s g j r') :
    ∀ (j : Nat) (r' : Res), g'.d ≤ j → j < q → g'.rs[j]? = some r' → Dead hash s' g' j r' := by
  intro j r' h1 h2 h3
  rw [E.d] at h1
  have := E.getLt h3 (by omega)
  exact E.dead this (h j r' h1 h2 this)

theorem Ext.wend {q w : Nat} (h : ∃ e, e ≤ g.rs.length ∧ q < e ∧ w = Conc.pos g.rs e % s.conf.n) :
    ∃ e, e ≤ g'.rs.length ∧ q < e ∧ w = Conc.pos g'.rs e % s'.conf.n := by
  obtain ⟨e, h1, h2, h3⟩ := h
  refine ⟨e, ?_, h2, ?_⟩
  · obtain ⟨l, hl⟩ := E.rs
    rw [hl, List.length_append]; omega
  · rw [E.pos h1, E.conf]; exact h3

theorem Ext.at {l : L} {q i : Nat} {r : Res} (h : At hash s g l q r i) : At hash s' g' l q r i := by
  have hq := idx_lt h.res
  refine ⟨?_, h.ret, ?_, E.get h.res, ?_, E.wend h.w, ?_, h.ilt, E.skipped (Nat.le_of_lt hq) h.skipped, fun hi => E.dead h.res (h.inside hi), ?_⟩
  · rw [E.rcur]; exact h.ori
  · rw [E.x, E.conf]; exact h.rb
  · rw [E.d]; exact h.dq
  · rw [E.x, E.pos (Nat.le_of_lt hq)]; exact h.xeq
  · rcases h.tseq with ht | ⟨j, r', h1, h2, h3, h4⟩
    · exact Or.inl ht
    · exact Or.inr ⟨j, r', E.get h1, h2, by rw [E.d]; exact h3, by rw [E.x, E.pos (Nat.le_of_lt (idx_lt h1))]; exact h4⟩

theorem Ext.cl {l : L} {q i : Nat} {r : Res} (h : Cl hash s g l q r i) : Cl hash s' g' l q r i := by
  have hq := idx_lt h.res
  refine ⟨?_, h.ret, ?_, E.get h.res, ?_, E.wend h.w, ?_, h.ile, E.skipped (Nat.le_of_lt hq) h.skipped, E.full h.res h.full, h.len⟩
  · rw [E.rcur]; exact h.ori
  · rw [E.pos (Nat.le_of_lt hq), E.conf]; exact h.rb
  · rw [E.d]; exact h.dq
  · rw [E.x, E.pos (Nat.le_of_lt hq)]; exact h.xeq

theorem Ext.rinv (hdle : g.d ≤ g.rs.length) : ∀ pc, RInv hash s g pc → RInv hash s' g' pc := by
  intro pc h
  cases pc with
  | idle => simp only [RInv] at h ⊢; rw [E.x, E.d, E.pos hdle]; exact h
  | loadR _ => simp only [RInv] at h ⊢; rw [E.x, E.d, E.pos hdle]; exact h
  | loadW _ _ => simp only [RInv] at h ⊢; rw [E.x, E.d, E.pos hdle, E.rcur]; exact h
  | flag l => obtain ⟨q, r, i, h⟩ := h; exact ⟨q, r, i, E.at h⟩
  | flag2 l => obtain ⟨q, r, i, h, h2⟩ := h; exact ⟨q, r, i, E.at h, fun hi => E.full h.res (h2 hi)⟩
  | skip l => obtain ⟨q, r, i, h, h2⟩ := h; exact ⟨q, r, i, E.at h, h2⟩
  | seqT l _ => obtain ⟨q, r, h, h2⟩ := h; exact ⟨q, r, E.at h, h2⟩
  | flagT _ _ => exact h
  | fft l _ => obtain ⟨q, r, h⟩ := h; exact ⟨q, r, E.at h⟩
  | seqTO l => obtain ⟨q, r, h, h2⟩ := h; exact ⟨q, r, E.at h, E.dead h.res h2⟩
  | skipTO l => obtain ⟨q, r, l0, h, h2, h3⟩ := h; exact ⟨q, r, l0, E.at h, E.dead h.res h2, h3⟩
  | size l => obtain ⟨q, r, h, h2⟩ := h; exact ⟨q, r, E.at h, E.full h.res h2⟩
  | skipBad _ => exact h
  | seq0 l => obtain ⟨q, r, h⟩ := h; exact ⟨q, r, E.cl h⟩
  | clrSeq l cs re => obtain ⟨q, r, i, h, h2, h3, h4⟩ := h; exact ⟨q, r, i, E.cl h, h2, by rw [E.x, E.conf]; exact h3, h4⟩
  | clrFlag l cs re => obtain ⟨q, r, i, h, h2, h3, h4⟩ := h; exact ⟨q, r, i, E.cl h, h2, by rw [E.x, E.conf]; exact h3, h4⟩
  | clrSet l cs re => obtain ⟨q, r, i, h, h2, h3, h4⟩ := h; exact ⟨q, r, i, E.cl h, h2, by rw [E.x, E.conf]; exact h3, h4⟩
  | num l re => obtain ⟨q, r, h, h2⟩ := h; exact ⟨q, r, E.cl h, by rw [E.x, E.conf]; exact h2⟩
  | copy l re sz acc => obtain ⟨q, r, h, h2, h3⟩ := h; exact ⟨q, r, E.cl h, by rw [E.x, E.conf]; exact h2, h3⟩
  | check l re acc => obtain ⟨q, r, h, h2, h3⟩ := h; exact ⟨q, r, E.cl h, by rw [E.x, E.conf]; exact h2, h3⟩
  | fin ori re ret size bytes =>
    obtain ⟨h1, h2, q, h3, h4, h5, h6⟩ := h
    refine ⟨by rw [E.rcur]; exact h1, by rw [E.x, E.conf]; exact h2, q, by rw [E.x, E.pos h5]; exact h3,
      by rw [E.d]; exact h4, ?_, ?_⟩
    · obtain ⟨l, hl⟩ := E.rs
      rw [hl, List.length_append]; omega
    · rcases h6 with ⟨e, q0, r, a1, a2, a3, a4, a5, a6⟩ | ⟨e, a⟩
      · exact Or.inl ⟨e, q0, r, a1, by rw [E.d]; exact a2, E.get a3, E.full a3 a4, a5, E.skipped (by omega) a6⟩
      · exact Or.inr ⟨e, E.skipped h5 a⟩
end

/-! ### Steps that only change a program counter -/

/-- The thread holds no reservation. -/
def NoWork (p : SPC) : Prop := ∀ m left seq w id todo reg, p ≠ .work m left seq w id todo reg

theorem ext_refl {hash : List Byte → Nat} {s s' : St} {g : G} (h1 : s'.conf = s.conf) (h2 : s'.rcur = s.rcur)
    (h3 : ∀ t, s.crashed t = true → s'.crashed t = true) : Ext hash s s' g g :=
  ⟨h1, h2, rfl, rfl, ⟨[], (List.append_nil _).symm⟩, fun _ _ _ _ => rfl, h3⟩

theorem CInv.thrOnly {hash : List Byte → Nat} {s : St} {g : G} (h : CInv hash s g) {t : Nat} {p : SPC}
    (sn : List (Nat × Msg × Int)) (hw : NoWork (s.thr t)) (hp : TInv hash s g t p) :
    CInv hash { s with thr := setThr s.thr t p, sent := sn } g where
  conf := h.conf
  resv := h.resv
  who := h.who
  tot := h.tot
  rcur := h.rcur
  wcur := h.wcur
  dle := h.dle
  room := h.room
  fit := h.fit
  seqd := h.seqd
  dist := h.dist
  thr := by
    intro u
    simp only [setThr]
    by_cases e : u = t
    · subst e; rw [if_pos rfl]; revert hp; cases p <;> exact id
    · rw [if_neg e]
      have := h.thr u
      revert this
      cases s.thr u <;> exact id
  cnt := h.cnt
  own := by
    intro j r hr hc
    obtain ⟨left, hl⟩ := h.own j r hr hc
    refine ⟨left, ?_⟩
    simp only [setThr]
    have : r.t ≠ t := fun e => by
      rw [e] at hl
      exact hw _ _ _ _ _ _ _ hl
    rw [if_neg this]
    exact hl
  late := h.late
  fin := h.fin
  touched := h.touched
  xlo := h.xlo
  xhi := h.xhi
  last := h.last
  free := h.free
  cleared := h.cleared
  hd := h.hd
  dt := h.dt
  base := h.base
  keep := h.keep
  got := h.got
  codes := h.codes
  oob := h.oob
  rpc := by
    refine Ext.rinv (s := s) (g := g) ?_ h.dle _ h.rpc
    exact ext_refl rfl rfl (fun _ => id)

theorem CInv.returns {hash : List Byte → Nat} {s : St} {g : G} (h : CInv hash s g) {t : Nat} {m : Msg} {c : Int}
    (hw : NoWork (s.thr t)) : CInv hash (s.returns t m c) g :=
  h.thrOnly _ hw trivial

theorem CInv.toPc {hash : List Byte → Nat} {s : St} {g : G} (h : CInv hash s g) {t : Nat} {p : SPC}
    (hw : NoWork (s.thr t)) (hp : TInv hash s g t p) :
    CInv hash (s.pc t p) g :=
  h.thrOnly _ hw hp

theorem CInv.oseqUp {hash : List Byte → Nat} {s : St} {g : G} (h : CInv hash s g) (v : Nat) :
    CInv hash { s with oseq := v } g where
  conf := h.conf
  resv := h.resv
  who := h.who
  tot := h.tot
  rcur := h.rcur
  wcur := h.wcur
  dle := h.dle
  room := h.room
  fit := h.fit
  seqd := h.seqd
  dist := h.dist
  thr := by
    intro u
    have := h.thr u
    revert this
    show TInv hash s g u (s.thr u) → TInv hash { s with oseq := v } g u (s.thr u)
    cases s.thr u <;> exact id
  cnt := h.cnt
  own := h.own
  late := h.late
  fin := h.fin
  touched := h.touched
  xlo := h.xlo
  xhi := h.xhi
  last := h.last
  free := h.free
  cleared := h.cleared
  hd := h.hd
  dt := h.dt
  base := h.base
  keep := h.keep
  got := h.got
  codes := h.codes
  oob := h.oob
  rpc := by
    refine Ext.rinv (s := s) (g := g) ?_ h.dle _ h.rpc
    exact ext_refl rfl rfl (fun _ => id)

theorem noWork_of {p : SPC} (h : ∀ m left seq w id todo reg, p = .work m left seq w id todo reg → False) : NoWork p :=
  fun m left seq w id todo reg e => h m left seq w id todo reg e

theorem inv_call {hash : List Byte → Nat} {s : St} {g : G} (h : CInv hash s g) {t : Nat} {m : Msg}
    (hi : s.thr t = .idle) (hl : m.length + 512 ≤ 2 ^ 64) : CInv hash (callSend s t m) g := by
  have hw : NoWork (s.thr t) := by intro _ _ _ _ _ _ _ e; rw [hi] at e; cases e
  unfold callSend
  split
  · exact h.returns hw
  · split
    · exact h.returns hw
    · split
      · exact h.returns hw
      · rename_i h1 _
        refine h.toPc hw ⟨?_, ?_⟩
        · intro e; rw [e] at h1; exact h1 rfl
        · show m.length + 271 < 2 ^ 64; omega

theorem inv_crash {hash : List Byte → Nat} {s : St} {g : G} (h : CInv hash s g) {t : Nat} (hl : Legal s (.crash t)) :
    CInv hash { s with crashed := fun u => if u = t then true else s.crashed u } g where
  conf := h.conf
  resv := h.resv
  who := h.who
  tot := h.tot
  rcur := h.rcur
  wcur := h.wcur
  dle := h.dle
  room := h.room
  fit := h.fit
  seqd := h.seqd
  dist := h.dist
  thr := by
    intro u
    have := h.thr u
    revert this
    show TInv hash s g u (s.thr u) → TInv hash _ g u (s.thr u)
    cases s.thr u <;> exact id
  cnt := h.cnt
  own := h.own
  late := by
    intro j r hr hc hlt
    simp only at hc hlt
    by_cases e : r.t = t
    · obtain ⟨left, ho⟩ := h.own j r hr hlt
      rw [e] at ho
      have hl := hl.2.2.2.1
      simp only [StopLate, ho] at hl
      by_cases hcl : lateCnt r.msg ≤ g.cnt j
      · exact hcl
      exfalso
      have hP : planOf hash s.conf.n g j r = (init5 s.conf.n (pos g.rs j) r.seq ++
          marks s.conf.n (pos g.rs j) (nodes r.msg.length) r.seq) ++ (body hash s.conf.n (pos g.rs j) (nodes r.msg.length) r.msg ++
          [.storeF (pos g.rs j % s.conf.n)]) := by
        simp [planOf, plan]
      have hlen : (init5 s.conf.n (pos g.rs j) r.seq ++
          marks s.conf.n (pos g.rs j) (nodes r.msg.length) r.seq).length = lateCnt r.msg := by
        rw [List.length_append, marks_length]; simp [init5, lateCnt]
      have hlast : ∃ i v, (init5 s.conf.n (pos g.rs j) r.seq ++
          marks s.conf.n (pos g.rs j) (nodes r.msg.length) r.seq).getLast? = some (.seq i v) := by
        rw [List.getLast?_append]
        unfold marks
        rcases hk : nodes r.msg.length - 1 with _ | k
        · simp [init5]
        · rw [List.range_succ, List.map_append, List.flatMap_append]
          simp
      obtain ⟨i, v, hlast⟩ := hlast
      rw [List.getLast?_eq_getElem?, hlen] at hlast
      have hget : (planOf hash s.conf.n g j r)[lateCnt r.msg - 1]? = some (.seq i v) := by
        rw [hP, List.getElem?_append_left (by rw [hlen]; unfold lateCnt; omega)]
        exact hlast
      have hmem : Act.seq i v ∈ (planOf hash s.conf.n g j r).drop (g.cnt j) := by
        refine List.mem_of_getElem? (i := lateCnt r.msg - 1 - g.cnt j) ?_
        rw [List.getElem?_drop, show g.cnt j + (lateCnt r.msg - 1 - g.cnt j) = lateCnt r.msg - 1 by omega]
        exact hget
      have := hl _ hmem
      simp [Act.marks] at this
    · rw [if_neg e] at hc
      exact h.late j r hr hc hlt
  fin := h.fin
  touched := by
    intro j r hr hx
    rcases h.touched j r hr hx with a | ⟨a, b⟩
    · exact Or.inl a
    · refine Or.inr ⟨?_, b⟩
      show (if r.t = t then true else s.crashed r.t) = true
      rw [a]; simp
  xlo := h.xlo
  xhi := h.xhi
  last := h.last
  free := h.free
  cleared := h.cleared
  hd := h.hd
  dt := h.dt
  base := h.base
  keep := h.keep
  got := h.got
  codes := h.codes
  oob := h.oob
  rpc := by
    refine Ext.rinv (s := s) (g := g) ?_ h.dle _ h.rpc
    exact ext_refl rfl rfl (fun u hu => by simp [hu])

/-! ### Reservation -/

theorem filterMap_ext {α β : Type} {f f' : α → Option β} : ∀ {l : List α}, (∀ a ∈ l, f a = f' a) →
    l.filterMap f = l.filterMap f' := by
  intro l
  induction l with
  | nil => intro _; rfl
  | cons a l ih =>
    intro h
    rw [List.filterMap_cons, List.filterMap_cons, h a List.mem_cons_self, ih (fun b hb => h b (List.mem_cons_of_mem _ hb))]

theorem takenOf_append {resv : List Msg} {l : List Msg} {fin : List Nat} {d : Nat} (h : d ≤ resv.length) :
    takenOf (resv ++ l) fin d = takenOf resv fin d := by
  unfold takenOf
  apply filterMap_ext
  intro j hj
  rw [List.mem_range] at hj
  rw [List.getElem?_append_left (by omega)]

/-- Ghost state after a reservation. -/
def G.add (g : G) (s : St) (r : Res) : G :=
  { g with
    rs := g.rs ++ [r]
    cnt := fun j => if j = g.rs.length then 0 else g.cnt j
    bh := fun j => if j = g.rs.length then s.heads else g.bh j
    bd := fun j => if j = g.rs.length then s.data else g.bd j }

theorem add_get {g : G} {s : St} {r0 : Res} {j : Nat} {r : Res} (h : (g.add s r0).rs[j]? = some r) :
    (j < g.rs.length ∧ g.rs[j]? = some r) ∨ (j = g.rs.length ∧ r = r0) := by
  have hlt := idx_lt h
  simp only [G.add, List.length_append, List.length_singleton] at hlt
  by_cases e : j < g.rs.length
  · left
    simp only [G.add] at h
    rw [List.getElem?_append_left e] at h
    exact ⟨e, h⟩
  · right
    have : j = g.rs.length := by omega
    subst this
    simp only [G.add, List.getElem?_concat_length, Option.some.injEq] at h
    exact ⟨rfl, h.symm⟩

theorem Stale.add {g : G} {s : St} {r : Res} {v : Nat} (h : Stale g v) (hv : v ≠ r.seq) : Stale (g.add s r) v := by
  intro j r' hd hr
  rcases add_get hr with ⟨_, hr⟩ | ⟨_, rfl⟩
  · exact h j r' hd hr
  · exact hv

theorem add_memOf {hash : List Byte → Nat} {n : Nat} {g : G} {s : St} {r0 r : Res} {j : Nat} (h : j < g.rs.length) :
    memOf hash n (g.add s r0) j r = memOf hash n g j r := by
  unfold memOf planOf
  simp only [G.add]
  rw [if_neg (by omega), if_neg (by omega), if_neg (by omega), pos_append _ (by omega)]

theorem add_plan {hash : List Byte → Nat} {n : Nat} {g : G} {s : St} {r0 r : Res} {j : Nat} (h : j ≤ g.rs.length) :
    planOf hash n (g.add s r0) j r = planOf hash n g j r := by
  unfold planOf
  simp only [G.add]
  rw [pos_append _ h]

theorem add_cnt {g : G} {s : St} {r0 : Res} {j : Nat} (h : j < g.rs.length) : (g.add s r0).cnt j = g.cnt j := by
  simp only [G.add]; rw [if_neg (by omega)]

theorem add_cnt_new {g : G} {s : St} {r0 : Res} : (g.add s r0).cnt g.rs.length = 0 := by
  simp only [G.add, if_true]

theorem add_pos {g : G} {s : St} {r0 : Res} {j : Nat} (h : j ≤ g.rs.length) : pos (g.add s r0).rs j = pos g.rs j := by
  simp only [G.add]; rw [pos_append _ h]

theorem inv_cas {hash : List Byte → Nat} {s : St} {g : G} (h : CInv hash s g) {t : Nat} {m : Msg} {left seq : Nat}
    {wT k : Nat} (ht : s.thr t = .cas m left seq s.wcur wT k) (hc : s.crashed t = false) (htot : s.tot = wT)
    (hnew : ∀ (j : Nat) (r : Res), g.d ≤ j → g.rs[j]? = some r → r.seq ≠ seq) (hfresh : ∀ y, (s.heads (y % s.conf.n)).seq ≠ seq) :
    CInv hash { s with
        wcur := next s.conf.n s.wcur k, tot := s.tot + k, resv := s.resv ++ [m], who := s.who ++ [t],
        oob := s.oob || decide (s.conf.n ≤ s.wcur),
        last := fun x => if x = s.wcur then s.resv.length else s.last x,
        thr := setThr s.thr t (.work m left seq s.wcur s.resv.length (plan hash s.conf.n s.tot seq m) false) }
      (g.add s ⟨m, seq, t⟩) := by
  obtain ⟨hsm, hw, -, hk, rA, hA1, hA2, hA3⟩ : TInv hash s g t _ := ht ▸ h.thr t
  have hlen : s.resv.length = g.rs.length := by rw [h.resv, List.length_map]
  have hdle := h.dle
  have hxlo := h.xlo
  have hxhi := h.xhi
  have hroom0 := h.room
  have hn1 := h.conf.n1
  have hA3 := hA3 (by omega)
  have hk1 := nodes_pos m.length
  subst htot
  have hnw : ∀ (j : Nat) (r : Res), g.rs[j]? = some r → g.cnt j < (planOf hash s.conf.n g j r).length → r.t ≠ t := by
    intro j r hr hlt e
    obtain ⟨l, hl⟩ := h.own j r hr hlt
    rw [e, ht] at hl
    cases hl
  have hposN : pos g.rs g.rs.length = s.tot := h.tot.symm
  have E : Ext hash s { s with
        wcur := next s.conf.n s.wcur k, tot := s.tot + k, resv := s.resv ++ [m], who := s.who ++ [t],
        oob := s.oob || decide (s.conf.n ≤ s.wcur),
        last := fun x => if x = s.wcur then s.resv.length else s.last x,
        thr := setThr s.thr t (.work m left seq s.wcur s.resv.length (plan hash s.conf.n s.tot seq m) false) }
      g (g.add s ⟨m, seq, t⟩) :=
    ⟨rfl, rfl, rfl, rfl, ⟨_, rfl⟩, fun j r hr _ => add_cnt (idx_lt hr), fun _ => id⟩
  have hpl : planOf hash s.conf.n (g.add s ⟨m, seq, t⟩) g.rs.length ⟨m, seq, t⟩ = plan hash s.conf.n s.tot seq m := by
    rw [add_plan (Nat.le_refl _), planOf, hposN]
  have hplen : 0 < (plan hash s.conf.n s.tot seq m).length := Nat.lt_of_le_of_lt (Nat.zero_le _) plan_late_lt
  exact {
    conf := h.conf
    resv := by simp only [G.add, List.map_append, List.map_cons, List.map_nil]; rw [h.resv]
    who := by simp only [G.add, List.map_append, List.map_cons, List.map_nil]; rw [h.who]
    tot := by
      show s.tot + k = pos (g.rs ++ [(⟨m, seq, t⟩ : Res)]) (g.rs ++ [(⟨m, seq, t⟩ : Res)]).length
      rw [List.length_append, List.length_singleton, pos_succ (r := ⟨m, seq, t⟩) (by simp), pos_append _ (Nat.le_refl _), hposN, hk]
    rcur := by
      show s.rcur = pos (g.add s ⟨m, seq, t⟩).rs g.d % s.conf.n
      rw [add_pos hdle]; exact h.rcur
    wcur := by
      show next s.conf.n s.wcur k = (s.tot + k) % s.conf.n
      rw [hw, next_mod]
    dle := by
      show g.d ≤ (g.rs ++ [_]).length
      rw [List.length_append]; omega
    room := by
      show s.tot + k < pos (g.add s ⟨m, seq, t⟩).rs g.d + s.conf.n
      rw [add_pos hdle]
      omega
    fit := by
      intro r hr
      rcases List.mem_append.1 hr with hr | hr
      · exact h.fit r hr
      · rw [List.mem_singleton.1 hr]
        refine ⟨hsm.1, hsm.2, ?_⟩
        show nodes m.length + s.conf.prot < s.conf.n
        omega
    seqd := by
      intro i j r r' hi hj hr hr' e
      rcases add_get hr with ⟨l1, hr⟩ | ⟨l1, rfl⟩ <;> rcases add_get hr' with ⟨l2, hr'⟩ | ⟨l2, rfl⟩
      · exact h.seqd i j r r' hi hj hr hr' e
      · exact absurd e (hnew i r hi hr)
      · exact absurd e.symm (hnew j r' hj hr')
      · omega
    dist := by
      intro q j r r' hr hr' hd hj hx
      show (s.heads (pos (g.add s ⟨m, seq, t⟩).rs q % s.conf.n)).seq ≠ r'.seq
      rcases add_get hr' with ⟨l2, hr'⟩ | ⟨l2, rfl⟩
      · rcases add_get hr with ⟨l1, hr⟩ | ⟨l1, rfl⟩
        · rw [add_pos (Nat.le_of_lt l1)] at hx ⊢
          exact h.dist q j r r' hr hr' hd hj hx
        · rw [l1, add_pos (Nat.le_refl _), hposN]
          exact (h.free s.tot (Nat.le_refl _) hroom0).2 j r' hd hr'
      · exact hfresh _
    thr := by
      intro u
      simp only [setThr]
      by_cases e : u = t
      · rw [if_pos e]
        refine ⟨⟨m, seq, t⟩, by rw [hlen]; simp [G.add], e.symm, ?_⟩
        show (g.add s ⟨m, seq, t⟩).cnt s.resv.length < (planOf hash s.conf.n _ s.resv.length _).length
        rw [hlen, add_cnt_new, hpl]
        exact hplen
      · rw [if_neg e]
        have := h.thr u
        revert this
        cases s.thr u with
        | loadR m' l' s' w' wT' => exact fun ⟨a, b, c⟩ => ⟨a, b, Nat.le_trans c (Nat.le_add_right _ _)⟩
        | cas m' l' s' w' wT' k' =>
          rintro ⟨a, b, c, d, rB, e1, e2, e3⟩
          exact ⟨a, b, Nat.le_trans c (Nat.le_add_right _ _), d, rB,
            by show rB ≤ pos (g.add s ⟨m, seq, t⟩).rs g.d; rw [add_pos hdle]; exact e1, e2, e3⟩
        | work m' l' s' w' id' td' rg' =>
          rintro ⟨r, a, b, c⟩
          refine ⟨r, E.get a, b, ?_⟩
          show (g.add s ⟨m, seq, t⟩).cnt id' < (planOf hash s.conf.n _ id' r).length
          rw [add_cnt (idx_lt a), add_plan (Nat.le_of_lt (idx_lt a))]
          exact c
        | verify m' l' s' w' id' =>
          rintro ⟨a, r, b1, b2, b3, b4, b5, b6⟩
          exact ⟨a, r, E.get b1, b2, E.full b1 b3, b4, b5,
            by show w' = pos (g.add s ⟨m, seq, t⟩).rs id' % s.conf.n; rw [add_pos (Nat.le_of_lt (idx_lt b1))]; exact b6⟩
        | _ => exact id
    cnt := by
      intro j r hr
      show (g.add s ⟨m, seq, t⟩).cnt j ≤ (planOf hash s.conf.n _ j r).length
      rcases add_get hr with ⟨l, hr⟩ | ⟨rfl, rfl⟩
      · rw [add_cnt l, add_plan (Nat.le_of_lt l)]; exact h.cnt j r hr
      · rw [add_cnt_new]; exact Nat.zero_le _
    own := by
      intro j r hr hlt
      replace hlt : (g.add s ⟨m, seq, t⟩).cnt j < (planOf hash s.conf.n (g.add s ⟨m, seq, t⟩) j r).length := hlt
      show ∃ left', setThr s.thr t _ r.t = .work r.msg left' r.seq (pos (g.add s ⟨m, seq, t⟩).rs j % s.conf.n) j
        ((planOf hash s.conf.n (g.add s ⟨m, seq, t⟩) j r).drop ((g.add s ⟨m, seq, t⟩).cnt j)) (memOf hash s.conf.n (g.add s ⟨m, seq, t⟩) j r).2.2
      rcases add_get hr with ⟨l, hr⟩ | ⟨rfl, rfl⟩
      · rw [add_cnt l, add_plan (Nat.le_of_lt l)] at hlt
        rw [add_cnt l, add_plan (Nat.le_of_lt l), add_memOf l, add_pos (Nat.le_of_lt l)]
        simp only [setThr]
        rw [if_neg (hnw j r hr hlt)]
        exact h.own j r hr hlt
      · refine ⟨left, ?_⟩
        simp only [setThr, if_true]
        rw [hpl, add_cnt_new, add_pos (Nat.le_refl _), hposN, List.drop_zero, hlen, ← h.wcur, memOf, add_cnt_new]
        rfl
    late := by
      intro j r hr hcr hlt
      replace hlt : (g.add s ⟨m, seq, t⟩).cnt j < (planOf hash s.conf.n (g.add s ⟨m, seq, t⟩) j r).length := hlt
      rcases add_get hr with ⟨l, hr⟩ | ⟨rfl, rfl⟩
      · rw [add_cnt l, add_plan (Nat.le_of_lt l)] at hlt
        rw [add_cnt l]
        exact h.late j r hr hcr hlt
      · exact absurd hcr (by show ¬ s.crashed t = true; rw [hc]; simp)
    fin := by
      intro j
      show j ∈ s.fin ↔ ∃ r, (g.add s ⟨m, seq, t⟩).rs[j]? = some r ∧ (g.add s ⟨m, seq, t⟩).cnt j = (planOf hash s.conf.n (g.add s ⟨m, seq, t⟩) j r).length
      rw [h.fin j]
      constructor
      · rintro ⟨r, a, b⟩
        exact ⟨r, E.get a, E.full a b⟩
      · rintro ⟨r, a, b⟩
        rcases add_get a with ⟨l, hr⟩ | ⟨rfl, rfl⟩
        · rw [add_cnt l, add_plan (Nat.le_of_lt l)] at b
          exact ⟨r, hr, b⟩
        · rw [add_cnt_new, hpl] at b
          omega
    touched := by
      intro j r hr hx
      rcases add_get hr with ⟨l, hr⟩ | ⟨rfl, rfl⟩
      · rw [add_pos (Nat.le_of_lt l)] at hx
        rcases h.touched j r hr hx with a | a
        · exact Or.inl (E.full hr a)
        · exact Or.inr (E.dead hr a)
      · rw [add_pos (Nat.le_refl _), hposN] at hx
        exact absurd hx (by show ¬ s.tot < g.x; omega)
    xlo := by
      show pos (g.add s ⟨m, seq, t⟩).rs g.d ≤ g.x
      rw [add_pos hdle]; exact h.xlo
    xhi := by show g.x ≤ s.tot + k; omega
    last := by
      intro j r hr hd
      show (if pos (g.add s ⟨m, seq, t⟩).rs j % s.conf.n = s.wcur then s.resv.length else s.last (pos (g.add s ⟨m, seq, t⟩).rs j % s.conf.n)) = j
      rcases add_get hr with ⟨l, hr⟩ | ⟨rfl, rfl⟩
      · rw [add_pos (Nat.le_of_lt l), if_neg]
        · exact h.last j r hr hd
        · intro e
          rw [hw] at e
          have w1 := h.window hr hd
          have := nodes_pos r.msg.length
          have := ring_inj (L := s.conf.n) (x := pos g.rs j) (y := s.tot) (by omega) (by omega) e
          omega
      · rw [add_pos (Nat.le_refl _), hposN, if_pos hw.symm, hlen]
    free := by
      intro y h1 h2
      replace h1 : s.tot + k ≤ y := h1
      replace h2 : y < pos (g.add s ⟨m, seq, t⟩).rs g.d + s.conf.n := h2
      rw [add_pos hdle] at h2
      obtain ⟨a, b⟩ := h.free y (by omega) h2
      exact ⟨a, b.add (hfresh y)⟩
    cleared := by
      intro y h1 h2
      replace h1 : pos (g.add s ⟨m, seq, t⟩).rs g.d ≤ y := h1
      rw [add_pos hdle] at h1
      obtain ⟨a, j, r, b1, b2, b3, b4⟩ := h.cleared y h1 h2
      have := idx_lt b1
      refine ⟨a, j, r, E.get b1, ?_, ?_, b4⟩
      · rw [add_pos (by omega)]; exact b2
      · rw [add_pos (by omega)]; exact b3
    hd := by
      intro j r hr hd i hi hx
      show s.heads ((pos (g.add s ⟨m, seq, t⟩).rs j + i) % s.conf.n) = (memOf hash s.conf.n _ j r).1 ((pos (g.add s ⟨m, seq, t⟩).rs j + i) % s.conf.n)
      rcases add_get hr with ⟨l, hr⟩ | ⟨rfl, rfl⟩
      · rw [add_pos (Nat.le_of_lt l)] at hx ⊢
        rw [add_memOf l]
        exact h.hd j r hr hd i hi hx
      · rw [memOf, add_cnt_new]
        simp only [List.take_zero, exec]
        simp only [G.add, if_true]
    dt := by
      intro j r hr hd a ha
      show s.data a = (memOf hash s.conf.n _ j r).2.1 a
      rcases add_get hr with ⟨l, hr⟩ | ⟨rfl, rfl⟩
      · rw [add_pos (Nat.le_of_lt l)] at ha
        rw [add_memOf l]
        exact h.dt j r hr hd a ha
      · rw [memOf, add_cnt_new]
        simp only [List.take_zero, exec]
        simp only [G.add, if_true]
    base := by
      intro j r hr hd i hi
      show Clear ((g.add s ⟨m, seq, t⟩).bh j ((pos (g.add s ⟨m, seq, t⟩).rs j + i) % s.conf.n))
      rcases add_get hr with ⟨l, hr⟩ | ⟨rfl, rfl⟩
      · rw [add_pos (Nat.le_of_lt l)]
        have hb : (g.add s ⟨m, seq, t⟩).bh j = g.bh j := by simp only [G.add]; rw [if_neg (by omega)]
        rw [hb]
        exact h.base j r hr hd i hi
      · rw [add_pos (Nat.le_refl _), hposN]
        have hb : (g.add s ⟨m, seq, t⟩).bh g.rs.length = s.heads := by simp only [G.add, if_true]
        rw [hb]
        have hi' : i < nodes m.length := hi
        exact (h.free (s.tot + i) (by omega) (by omega)).1
    keep := by
      intro j r hr hcnt ht'
      replace ht' : s.tot + k ≤ pos (g.add s ⟨m, seq, t⟩).rs j + s.conf.n := ht'
      show (s.heads (pos (g.add s ⟨m, seq, t⟩).rs j % s.conf.n)).seq = r.seq
      rcases add_get hr with ⟨l, hr⟩ | ⟨rfl, rfl⟩
      · rw [add_pos (Nat.le_of_lt l)] at ht' ⊢
        rw [add_cnt l] at hcnt
        exact h.keep j r hr hcnt (by omega)
      · rw [add_cnt_new] at hcnt
        omega
    got := by
      show s.got = takenOf (s.resv ++ [m]) s.fin g.d
      rw [takenOf_append (by omega)]
      exact h.got
    codes := h.codes
    oob := by
      show (s.oob || decide (s.conf.n ≤ s.wcur)) = false
      have := Nat.mod_lt s.tot (show 0 < s.conf.n by omega)
      rw [h.oob, Bool.false_or, decide_eq_false_iff_not, hw]
      omega
    rpc := E.rinv h.dle _ h.rpc }

/-! ### An access to the reserved memory -/

/-- Counts one access. -/
def G.tick (g : G) (id : Nat) : G := { g with cnt := fun j => if j = id then g.cnt id + 1 else g.cnt j }

/-- A reservation whose sender runs and is not finished is not touched by the receiver. -/
theorem CInv.live {hash : List Byte → Nat} {s : St} {g : G} (h : CInv hash s g) {j : Nat} {r : Res}
    (hr : g.rs[j]? = some r) (hlt : g.cnt j < (planOf hash s.conf.n g j r).length) (hc : s.crashed r.t = false) :
    g.d ≤ j ∧ g.x ≤ pos g.rs j := by
  have hx : g.x ≤ pos g.rs j := by
    apply Nat.le_of_not_lt
    intro hx
    rcases h.touched j r hr hx with a | a
    · unfold Full at a; omega
    · have a1 := a.1; rw [hc] at a1; exact absurd a1 (by simp)
  refine ⟨?_, hx⟩
  apply Nat.le_of_not_lt
  intro hd
  have := pos_lt hd h.dle
  have := h.xlo
  omega

theorem tick_other {hash : List Byte → Nat} {n : Nat} {g : G} {id j : Nat} {r : Res} (h : j ≠ id) :
    memOf hash n (g.tick id) j r = memOf hash n g j r := by
  unfold memOf planOf
  simp only [G.tick]
  rw [if_neg h]

theorem takenOf_fin {resv : List Msg} {fin : List Nat} {d id : Nat} (h : d ≤ id) :
    takenOf resv (fin ++ [id]) d = takenOf resv fin d := by
  unfold takenOf
  apply filterMap_ext
  intro j hj
  rw [List.mem_range] at hj
  have : (j ∈ fin ++ [id]) = (j ∈ fin) := by
    rw [List.mem_append, List.mem_singleton]
    simp; omega
  simp only [this]

theorem inv_work {hash : List Byte → Nat} {s : St} {g : G} (h : CInv hash s g) {t : Nat} {m : Msg} {left seq w id : Nat}
    {a : Act} {rest : List Act} {reg : Bool} {p : SPC} {f : List Nat}
    (ht : s.thr t = .work m left seq w id (a :: rest) reg) (hc : s.crashed t = false)
    (hA : rest ≠ [] → p = .work m left seq w id rest (act s.heads s.data reg a).2.2 ∧ f = s.fin)
    (hB : rest = [] → p = .verify m left seq w id ∧ f = s.fin ++ [id]) :
    CInv hash { s with
        heads := (act s.heads s.data reg a).1, data := (act s.heads s.data reg a).2.1,
        oob := s.oob || !a.inside s.conf.n, fin := f, thr := setThr s.thr t p } (g.tick id) := by
  obtain ⟨r, hr, hrt, hlt⟩ : TInv hash s g t _ := ht ▸ h.thr t
  obtain ⟨left', ho⟩ := h.own id r hr hlt
  rw [hrt, ht] at ho
  simp only [SPC.work.injEq] at ho
  obtain ⟨rfl, rfl, rfl, rfl, -, htodo, hreg⟩ := ho
  obtain ⟨hd, hx⟩ := h.live hr hlt (by rw [hrt]; exact hc)
  have hkn := h.klt hr
  have hk1 := nodes_pos r.msg.length
  have hwin := h.window hr hd
  have hroom := h.room
  have hxlo := h.xlo
  have hn1 := h.conf.n1
  have hdrop : rest = (planOf hash s.conf.n g id r).drop (g.cnt id + 1) := by
    have := congrArg List.tail htodo
    simpa using this
  have hmem : a ∈ planOf hash s.conf.n g id r := by
    have : a ∈ (planOf hash s.conf.n g id r).drop (g.cnt id) := by rw [← htodo]; exact List.mem_cons_self
    exact List.mem_of_mem_drop this
  have hget : (planOf hash s.conf.n g id r)[g.cnt id]? = some a := by
    have := congrArg List.head? htodo
    rw [List.head?_drop] at this
    simpa using this.symm
  obtain ⟨hon, hins⟩ := plan_on (hash := hash) hkn a hmem
  have hMo : memOf hash s.conf.n (g.tick id) id r =
      act (memOf hash s.conf.n g id r).1 (memOf hash s.conf.n g id r).2.1 (memOf hash s.conf.n g id r).2.2 a := by
    have e : (planOf hash s.conf.n g id r).take (g.cnt id + 1) = (planOf hash s.conf.n g id r).take (g.cnt id) ++ [a] := by
      rw [List.take_add_one, hget]; rfl
    have e2 : memOf hash s.conf.n (g.tick id) id r =
        exec (g.bh id, g.bd id, false) ((planOf hash s.conf.n g id r).take (g.cnt id + 1)) := by
      unfold memOf planOf
      simp only [G.tick, if_true]
    rw [e2, e, exec_append]
    rfl
  obtain ⟨f1, f2⟩ := act_frame (h := s.heads) (d := s.data) (r := reg) hon
  obtain ⟨g1, g2, g3⟩ := act_agree (h := s.heads) (d := s.data) (r := reg)
    (h' := (memOf hash s.conf.n g id r).1) (d' := (memOf hash s.conf.n g id r).2.1) hon
    (by
      rintro y ⟨i, hi, rfl⟩
      exact h.hd id r hr hd i hi (by omega))
    (fun y hy => h.dt id r hr hd y hy)
  rw [hreg, ← hMo] at g1 g2 g3
  rw [← hreg] at g1 g2 g3
  have hnotin : ∀ y, (pos g.rs g.d ≤ y ∧ y < pos g.rs id ∨ s.tot ≤ y ∧ y < pos g.rs g.d + s.conf.n) →
      ¬ Reg s.conf.n (pos g.rs id) (nodes r.msg.length) (y % s.conf.n) := by
    rintro y hy ⟨i, hi, e⟩
    have := ring_inj (L := s.conf.n) (x := y) (y := pos g.rs id + i) (by omega) (by omega) e
    omega
  have hseq : ∀ y, ((act s.heads s.data reg a).1 y).seq = (s.heads y).seq ∨ ((act s.heads s.data reg a).1 y).seq = r.seq :=
    fun y => act_seq (fun i v e => plan_seq (hash := hash) (by rw [← e]; exact hmem)) y
  have hrest : rest = [] ↔ g.cnt id + 1 = (planOf hash s.conf.n g id r).length := by
    rw [hdrop, List.drop_eq_nil_iff]; omega
  have E : Ext hash s { s with
        heads := (act s.heads s.data reg a).1, data := (act s.heads s.data reg a).2.1,
        oob := s.oob || !a.inside s.conf.n, fin := f, thr := setThr s.thr t p } g (g.tick id) := by
    refine ⟨rfl, rfl, rfl, rfl, ⟨[], (List.append_nil _).symm⟩, fun j r' hr' hh => ?_, fun _ hx => hx⟩
    simp only [G.tick]
    split
    · rename_i e
      subst e
      rw [hr] at hr'
      simp only [Option.some.injEq] at hr'
      subst hr'
      rcases hh with hh | hh
      · unfold Full at hh; omega
      · rw [hrt, hc] at hh; exact absurd hh (by simp)
    · rfl
  have hpl : ∀ (j : Nat) (r' : Res), planOf hash s.conf.n (g.tick id) j r' = planOf hash s.conf.n g j r' := fun _ _ => rfl
  have hcid : (g.tick id).cnt id = g.cnt id + 1 := by simp [G.tick]
  have hcne : ∀ j, j ≠ id → (g.tick id).cnt j = g.cnt j := by intro j hj; simp [G.tick, hj]
  have hothers : ∀ (j : Nat) (r' : Res), g.rs[j]? = some r' → j ≠ id → g.cnt j < (planOf hash s.conf.n g j r').length → r'.t ≠ t := by
    intro j r' hr' hj hlt' e
    obtain ⟨l, hl⟩ := h.own j r' hr' hlt'
    rw [e, ht] at hl
    simp only [SPC.work.injEq] at hl
    exact hj hl.2.2.2.2.1.symm
  exact {
    conf := h.conf
    resv := h.resv
    who := h.who
    tot := h.tot
    rcur := h.rcur
    wcur := h.wcur
    dle := h.dle
    room := h.room
    fit := h.fit
    seqd := h.seqd
    dist := by
      intro q j r1 r2 hq hj hdj hjq hxq
      replace hq : g.rs[q]? = some r1 := hq
      replace hj : g.rs[j]? = some r2 := hj
      show ((act s.heads s.data reg a).1 (pos g.rs q % s.conf.n)).seq ≠ r2.seq
      by_cases e : q = id
      · subst e
        rcases hseq (pos g.rs q % s.conf.n) with e1 | e1
        · rw [e1]; exact h.dist q j r1 r2 hq hj hdj hjq hxq
        · rw [e1]; intro e2
          have := h.seqd q j r r2 hd hdj hr hj e2
          omega
      · rw [f1 _ (h.disj hq hr (Nat.le_trans hdj (Nat.le_of_lt hjq)) hd e (show Reg s.conf.n (pos g.rs q) (nodes r1.msg.length) (pos g.rs q % s.conf.n) from ⟨0, nodes_pos _, rfl⟩))]
        exact h.dist q j r1 r2 hq hj hdj hjq hxq
    thr := by
      intro u
      simp only [setThr]
      by_cases e : u = t
      · rw [if_pos e]
        by_cases er : rest = []
        · rw [(hB er).1]
          refine ⟨⟨(h.fits hr).1, (h.fits hr).2.1⟩, r, hr, hrt.trans e.symm, ?_, rfl, rfl, rfl⟩
          show (g.tick id).cnt id = (planOf hash s.conf.n g id r).length
          rw [hcid]; exact hrest.1 er
        · rw [(hA er).1]
          refine ⟨r, hr, hrt.trans e.symm, ?_⟩
          show (g.tick id).cnt id < (planOf hash s.conf.n g id r).length
          rw [hcid]
          have := mt hrest.2 er
          omega
      · rw [if_neg e]
        have := h.thr u
        revert this
        cases hu : s.thr u with
        | work m' l' s' w' id' td' rg' =>
          rintro ⟨r', x1, x2, x3⟩
          refine ⟨r', x1, x2, ?_⟩
          show (g.tick id).cnt id' < (planOf hash s.conf.n g id' r').length
          rw [hcne id' (fun e' => ?_)]
          · exact x3
          · subst e'
            rw [hr] at x1
            simp only [Option.some.injEq] at x1
            subst x1
            exact e (x2.symm.trans hrt)
        | verify m' l' s' w' id' =>
          rintro ⟨x0, r', x1, x2, x3, x4⟩
          exact ⟨x0, r', x1, x2, E.full x1 x3, x4⟩
        | _ => exact fun hx => hx
    cnt := by
      intro j r' hr'
      show (g.tick id).cnt j ≤ (planOf hash s.conf.n g j r').length
      by_cases e : j = id
      · subst e
        replace hr' : g.rs[j]? = some r' := hr'
        rw [hr] at hr'
        simp only [Option.some.injEq] at hr'
        subst hr'
        rw [hcid]; omega
      · rw [hcne j e]; exact h.cnt j r' hr'
    own := by
      intro j r' hr' hlt'
      replace hlt' : (g.tick id).cnt j < (planOf hash s.conf.n g j r').length := hlt'
      show ∃ left, setThr s.thr t p r'.t = .work r'.msg left r'.seq (pos g.rs j % s.conf.n) j
        ((planOf hash s.conf.n g j r').drop ((g.tick id).cnt j)) (memOf hash s.conf.n (g.tick id) j r').2.2
      by_cases e : j = id
      · subst e
        replace hr' : g.rs[j]? = some r' := hr'
        rw [hr] at hr'
        simp only [Option.some.injEq] at hr'
        subst hr'
        rw [hcid] at hlt' ⊢
        refine ⟨left, ?_⟩
        simp only [setThr, hrt, if_true]
        have er : rest ≠ [] := fun er => by have := hrest.1 er; omega
        rw [(hA er).1, ← hdrop, ← g3]
      · rw [hcne j e] at hlt' ⊢
        rw [tick_other e]
        simp only [setThr]
        rw [if_neg (hothers j r' hr' e hlt')]
        exact h.own j r' hr' hlt'
    late := by
      intro j r' hr' hcr hlt'
      replace hlt' : (g.tick id).cnt j < (planOf hash s.conf.n g j r').length := hlt'
      by_cases e : j = id
      · subst e
        replace hr' : g.rs[j]? = some r' := hr'
        rw [hr] at hr'
        simp only [Option.some.injEq] at hr'
        subst hr'
        exact absurd hcr (by show ¬ s.crashed r.t = true; rw [hrt, hc]; simp)
      · rw [hcne j e] at hlt' ⊢
        exact h.late j r' hr' hcr hlt'
    fin := by
      intro j
      show j ∈ f ↔ ∃ r', g.rs[j]? = some r' ∧ (g.tick id).cnt j = (planOf hash s.conf.n g j r').length
      have hfid : j ≠ id → (j ∈ f ↔ j ∈ s.fin) := by
        intro hj
        by_cases er : rest = []
        · rw [(hB er).2, List.mem_append, List.mem_singleton]
          exact ⟨fun x => x.resolve_right hj, Or.inl⟩
        · rw [(hA er).2]
      by_cases e : j = id
      · subst e
        constructor
        · intro hj
          refine ⟨r, hr, ?_⟩
          rw [hcid]
          by_cases er : rest = []
          · exact hrest.1 er
          · rw [(hA er).2] at hj
            obtain ⟨r', x1, x2⟩ := (h.fin j).1 hj
            rw [hr] at x1
            simp only [Option.some.injEq] at x1
            subst x1
            unfold Full at x2
            omega
        · rintro ⟨r', x1, x2⟩
          rw [hr] at x1
          simp only [Option.some.injEq] at x1
          subst x1
          rw [hcid] at x2
          rw [(hB (hrest.2 x2)).2]
          simp
      · rw [hfid e, hcne j e]
        exact h.fin j
    touched := by
      intro j r' hr' hx'
      rcases h.touched j r' hr' hx' with x1 | x1
      · exact Or.inl (E.full hr' x1)
      · exact Or.inr (E.dead hr' x1)
    xlo := h.xlo
    xhi := h.xhi
    last := h.last
    free := by
      intro y h1 h2
      show Clear ((act s.heads s.data reg a).1 (y % s.conf.n)) ∧ Stale g ((act s.heads s.data reg a).1 (y % s.conf.n)).seq
      rw [f1 _ (hnotin y (Or.inr ⟨h1, h2⟩))]
      exact h.free y h1 h2
    cleared := by
      intro y h1 h2
      replace h2 : y < g.x := h2
      show Clear ((act s.heads s.data reg a).1 (y % s.conf.n)) ∧ ∃ (j : Nat) (r : Res), g.rs[j]? = some r ∧ pos g.rs j ≤ y ∧
        y < pos g.rs (j + 1) ∧ ((act s.heads s.data reg a).1 (y % s.conf.n)).seq = r.seq
      rw [f1 _ (hnotin y (Or.inl ⟨h1, by omega⟩))]
      exact h.cleared y h1 h2
    hd := by
      intro j r' hr' hd' i hi hx'
      show (act s.heads s.data reg a).1 ((pos g.rs j + i) % s.conf.n) =
        (memOf hash s.conf.n (g.tick id) j r').1 ((pos g.rs j + i) % s.conf.n)
      by_cases e : j = id
      · subst e
        replace hr' : g.rs[j]? = some r' := hr'
        rw [hr] at hr'
        simp only [Option.some.injEq] at hr'
        subst hr'
        exact g1 _ ⟨i, hi, rfl⟩
      · rw [tick_other e, f1 _ (h.disj hr' hr hd' hd e ⟨i, hi, rfl⟩)]
        exact h.hd j r' hr' hd' i hi hx'
    dt := by
      intro j r' hr' hd' y hy
      show (act s.heads s.data reg a).2.1 y = (memOf hash s.conf.n (g.tick id) j r').2.1 y
      by_cases e : j = id
      · subst e
        replace hr' : g.rs[j]? = some r' := hr'
        rw [hr] at hr'
        simp only [Option.some.injEq] at hr'
        subst hr'
        exact g2 _ hy
      · rw [tick_other e, f2 _ (h.disj hr' hr hd' hd e hy)]
        exact h.dt j r' hr' hd' y hy
    base := h.base
    keep := by
      intro j r' hr' hcnt ht'
      replace ht' : s.tot ≤ pos g.rs j + s.conf.n := ht'
      show ((act s.heads s.data reg a).1 (pos g.rs j % s.conf.n)).seq = r'.seq
      by_cases e : j = id
      · subst e
        replace hr' : g.rs[j]? = some r' := hr'
        rw [hr] at hr'
        simp only [Option.some.injEq] at hr'
        subst hr'
        rw [hcid] at hcnt
        rw [g1 (pos g.rs j % s.conf.n) ⟨0, by omega, rfl⟩, memOf, hcid]
        obtain ⟨c1, c2⟩ := h.base j r hr hd 0 hk1
        rw [Nat.add_zero] at c1 c2
        have := plan_head (hash := hash) (seq := r.seq) (pos := pos g.rs j) hkn (g.bh j, g.bd j, false) (by
          show g.bh j (pos g.rs j % s.conf.n) = ⟨false, false, (g.bh j (pos g.rs j % s.conf.n)).seq⟩
          generalize g.bh j (pos g.rs j % s.conf.n) = b at c1 c2 ⊢
          cases b; simp only at c1 c2; rw [c1, c2]) (g.cnt j + 1)
        have e3 : (exec (g.bh j, g.bd j, false) ((planOf hash s.conf.n g j r).take (g.cnt j + 1))).1 (pos g.rs j % s.conf.n) = _ := this
        show ((exec (g.bh j, g.bd j, false) ((planOf hash s.conf.n g j r).take (g.cnt j + 1))).1 (pos g.rs j % s.conf.n)).seq = r.seq
        rw [e3, if_neg (by omega), if_neg (by omega)]
        split <;> rfl
      · rw [hcne j e] at hcnt
        rw [f1]
        · exact h.keep j r' hr' hcnt ht'
        · rintro ⟨i, hi, e2⟩
          have hj := idx_lt (rs := g.rs) hr'
          have hsep := pos_sep (rs := g.rs) hr' hr e
          have := nodes_pos r'.msg.length
          have := pos_le (rs := g.rs) (i := j + 1) (j := g.rs.length) hj (Nat.le_refl _)
          rw [pos_succ (rs := g.rs) hr', ← h.tot] at this
          have := ring_inj (L := s.conf.n) (x := pos g.rs j) (y := pos g.rs id + i) (by omega) (by omega) e2
          omega
    got := by
      show s.got = takenOf s.resv f g.d
      by_cases er : rest = []
      · rw [(hB er).2, takenOf_fin hd]; exact h.got
      · rw [(hA er).2]; exact h.got
    codes := h.codes
    oob := by
      show (s.oob || !a.inside s.conf.n) = false
      rw [h.oob, hins]; rfl
    rpc := E.rinv h.dle _ h.rpc }

/-- Every step of a sender. -/
theorem inv_send {hash : List Byte → Nat} {s s1 : St} {g : G} (h : CInv hash s g) {t : Nat} {weak : Bool}
    (hc : s.crashed t = false) (hl : Legal s (.send t weak)) (hs : stepSend hash s t weak = some s1) :
    ∃ g1, CInv hash s1 g1 ∧ g1.d = g.d := by
  have hti := h.thr t
  have hdle := h.dle
  have hxlo := h.xlo
  have hxhi := h.xhi
  have hroom := h.room
  unfold stepSend at hs
  obtain ⟨-, hl1, hl2, -⟩ := hl
  simp only [NumberOK] at hl1
  simp only [NoLap] at hl2
  split at hs
  · cases hs
  · cases hs
  · rename_i m left ht
    rw [ht] at hti
    simp only [Option.some.injEq] at hs
    generalize (s.oseq + 1) % 2 ^ 32 = v at hs
    split at hs
    · subst hs
      exact ⟨g, h.oseqUp v, rfl⟩
    · subst hs
      refine ⟨g, (h.oseqUp v).thrOnly _ ?_ hti, rfl⟩
      intro _ _ _ _ _ _ _ e; rw [show s.thr t = _ from ht] at e; cases e
  · rename_i m left seq ht
    rw [ht] at hti
    simp only [Option.some.injEq] at hs
    subst hs
    refine ⟨g, h.toPc ?_ ⟨hti, h.wcur, Nat.le_refl _⟩, rfl⟩
    intro _ _ _ _ _ _ _ e; rw [ht] at e; cases e
  · rename_i m left seq w wT ht
    rw [ht] at hti
    have hnw : NoWork (s.thr t) := by intro _ _ _ _ _ _ _ e; rw [ht] at e; cases e
    simp only at hs
    split at hs
    · simp only [Option.some.injEq] at hs
      subst hs
      exact ⟨g, h.returns hnw, rfl⟩
    · rename_i hav
      simp only [Option.some.injEq] at hs
      subst hs
      obtain ⟨hsm, hw, hwT⟩ := hti
      refine ⟨g, h.toPc hnw ⟨hsm, hw, hwT, calcNodes_eq hsm.2, pos g.rs g.d, Nat.le_refl _, by omega, ?_⟩, rfl⟩
      intro hle
      rw [calcNodes_eq hsm.2] at hav ⊢
      rw [h.rcur, hw, show wT = pos g.rs g.d + (wT - pos g.rs g.d) by omega,
        avail_iff (by omega) (nodes_pos _)] at hav
      exact hav
  · rename_i m left seq w wT k ht
    rw [ht] at hti hl2 hl1
    have hl := hl2
    simp only at hl hl1
    have hnw : NoWork (s.thr t) := by intro _ _ _ _ _ _ _ e; rw [ht] at e; cases e
    split at hs
    · simp only [Option.some.injEq] at hs
      subst hs
      exact ⟨g, h.toPc hnw ⟨hti.1, h.wcur, Nat.le_refl _⟩, rfl⟩
    · rename_i hcas
      have hwc : s.wcur = w := Classical.byContradiction fun hne => hcas (Or.inl hne)
      subst hwc
      have htot := hl rfl
      obtain ⟨hsm, hw, -, hk, rA, hA1, hA2, hA3⟩ := hti
      have hA3' := hA3 (by omega)
      have hprog : prog hash s.conf.n s.wcur (next s.conf.n s.wcur k) seq m = some (plan hash s.conf.n s.tot seq m) := by
        rw [h.wcur, next_mod, hk]
        exact prog_eq (by omega)
      simp only [hprog, Option.some.injEq] at hs
      subst hs
      have hn : 0 < s.conf.n := h.conf.n1
      obtain ⟨hf1, hf2⟩ := hl1 rfl
      refine ⟨_, inv_cas h ht hc htot ?_ (fun y => hf1 _ (Nat.mod_lt y hn)), rfl⟩
      intro j r hj hr e
      have hwin := h.window hr hj
      have hk1 := nodes_pos r.msg.length
      by_cases hlt : g.cnt j < (planOf hash s.conf.n g j r).length
      · by_cases hcr : s.crashed r.t = true
        · have hla := h.late j r hr hcr hlt
          refine hf1 _ (Nat.mod_lt (pos g.rs j) hn) ((h.keep j r hr ?_ ?_).trans e)
          · unfold lateCnt at hla; omega
          · omega
        · obtain ⟨lf, ho⟩ := h.own j r hr hlt
          exact hf2 r.t (by simpa using hcr) (by rw [ho]; simp only [SPC.number, e])
      · refine hf1 _ (Nat.mod_lt (pos g.rs j) hn) ((h.keep j r hr ?_ ?_).trans e)
        · have : (planOf hash s.conf.n g j r).length > lateCnt r.msg := plan_late_lt
          unfold lateCnt at this; omega
        · omega
  · rename_i m left seq w id todo reg ht
    cases todo with
    | nil => simp at hs
    | cons a rest =>
      simp only at hs
      by_cases er : rest = []
      · rw [if_pos er] at hs
        simp only [Option.some.injEq] at hs
        subst hs
        exact ⟨_, inv_work h ht hc (fun hne => absurd er hne) (fun _ => ⟨rfl, rfl⟩), rfl⟩
      · rw [if_neg er] at hs
        simp only [Option.some.injEq] at hs
        subst hs
        exact ⟨_, inv_work h ht hc (fun _ => ⟨rfl, rfl⟩) (fun e => absurd e er), rfl⟩
  · rename_i m left seq w id ht
    rw [ht] at hti
    have hnw : NoWork (s.thr t) := by intro _ _ _ _ _ _ _ e; rw [ht] at e; cases e
    split at hs
    · simp only [Option.some.injEq] at hs
      subst hs
      exact ⟨g, h.returns hnw, rfl⟩
    · split at hs
      · simp only [Option.some.injEq] at hs
        subst hs
        exact ⟨g, h.returns hnw, rfl⟩
      · simp only [Option.some.injEq] at hs
        subst hs
        exact ⟨g, h.toPc hnw hti.1, rfl⟩

end Verif.Mem.Conc
