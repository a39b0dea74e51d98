import Verif.Mem.ConcSend

/-! Steps of the receiver keep the invariant. -/
namespace Verif.Mem.Conc

set_option maxRecDepth 10000

section
variable {hash : List Byte → Nat} {s : St} {g : G} (h : CInv hash s g)
include h

/-- Head of the first node of a reservation that is not cleared yet. -/
theorem CInv.head0 {q : Nat} {r : Res} (hr : g.rs[q]? = some r) (hd : g.d ≤ q) (hx : g.x ≤ pos g.rs q) :
    s.heads (pos g.rs q % s.conf.n) =
      if g.cnt q ≤ 3 then g.bh q (pos g.rs q % s.conf.n)
      else if g.cnt q = 4 then ⟨true, false, (g.bh q (pos g.rs q % s.conf.n)).seq⟩
      else if g.cnt q < (planOf hash s.conf.n g q r).length then ⟨true, false, r.seq⟩ else ⟨true, true, r.seq⟩ := by
  have h1 := nodes_pos r.msg.length
  have e := h.hd q r hr hd 0 h1 hx
  rw [Nat.add_zero] at e
  obtain ⟨c1, c2⟩ := h.base q r hr hd 0 h1
  rw [Nat.add_zero] at c1 c2
  rw [e, memOf]
  exact plan_head (h.klt hr) (g.bh q, g.bd q, false) (by
    show g.bh q (pos g.rs q % s.conf.n) = ⟨false, false, (g.bh q (pos g.rs q % s.conf.n)).seq⟩
    generalize g.bh q (pos g.rs q % s.conf.n) = b at c1 c2 ⊢
    cases b; simp only at c1 c2; rw [c1, c2]) (g.cnt q)

theorem CInv.headi {q i : Nat} {r : Res} (hr : g.rs[q]? = some r) (hd : g.d ≤ q) (hl : lateCnt r.msg ≤ g.cnt q)
    (h1 : 1 ≤ i) (hi : i < nodes r.msg.length) (hx : g.x ≤ pos g.rs q + i) :
    s.heads ((pos g.rs q + i) % s.conf.n) = ⟨false, true, r.seq⟩ := by
  rw [h.hd q r hr hd i hi hx, memOf]
  exact plan_cont (h.klt hr) _ hl h1 hi

/-- Sequence number at the first node of a later reservation. -/
theorem CInv.seq0 {q j : Nat} {r r' : Res} (hr : g.rs[q]? = some r) (hr' : g.rs[j]? = some r') (hd : g.d ≤ j) (hj : j < q)
    (hx : g.x ≤ pos g.rs q) : (s.heads (pos g.rs q % s.conf.n)).seq ≠ r'.seq :=
  h.dist q j r r' hr hr' hd hj hx

theorem CInv.full_late {q : Nat} {r : Res} (hf : Full hash s.conf.n g q r) : lateCnt r.msg ≤ g.cnt q := by
  unfold Full planOf at hf
  rw [hf]; exact Nat.le_of_lt plan_late_lt

/-- The message of a finished reservation. -/
theorem CInv.block {q : Nat} {r : Res} (hr : g.rs[q]? = some r) (hd : g.d ≤ q) (hf : Full hash s.conf.n g q r) :
    Block hash s.conf.n s.data (pos g.rs q) r.msg := by
  have hk := h.klt hr
  have b := plan_data (hash := hash) (n := s.conf.n) (pos := pos g.rs q) (seq := r.seq) (m := r.msg) hk (h.fits hr).2.1
    (g.bh q, g.bd q, false)
  refine b.agree hk fun y hy => ?_
  rw [h.dt q r hr hd y hy, memOf, hf, List.take_length]
  rfl

theorem CInv.ringEq {y e : Nat} (h1 : pos g.rs g.d ≤ y) (h2 : y ≤ pos g.rs e) (he : e ≤ g.rs.length)
    (hm : y % s.conf.n = pos g.rs e % s.conf.n) : y = pos g.rs e := by
  have := pos_le he (Nat.le_refl _)
  have := h.tot
  have := h.room
  exact ring_inj (by omega) (by omega) hm

/-! ### Steps without writes -/

theorem CInv.rOnly {p : RPC} (f : Nat) {o : Bool} (ho : o = false) (hp : RInv hash s g p) :
    CInv hash { s with rpc := p, fft := f, oob := o } g where
  conf := h.conf
  resv := h.resv
  who := h.who
  tot := h.tot
  rcur := h.rcur
  wcur := h.wcur
  dle := h.dle
  room := h.room
  fit := h.fit
  seqd := h.seqd
  dist := h.dist
  thr := by
    intro u
    have := h.thr u
    revert this
    show TInv hash s g u (s.thr u) → TInv hash _ g u (s.thr u)
    cases s.thr u <;> exact fun x => x
  cnt := h.cnt
  own := h.own
  late := h.late
  fin := h.fin
  touched := h.touched
  xlo := h.xlo
  xhi := h.xhi
  last := h.last
  free := h.free
  cleared := h.cleared
  hd := h.hd
  dt := h.dt
  base := h.base
  keep := h.keep
  got := h.got
  codes := h.codes
  oob := ho
  rpc := by
    refine Ext.rinv (s := s) (g := g) ?_ h.dle _ hp
    exact ext_refl rfl rfl (fun _ x => x)

theorem CInv.rTo {p : RPC} (hp : RInv hash s g p) : CInv hash (s.to p) g := h.rOnly s.fft h.oob hp

/-! ### Clearing the flags of a node -/

omit h in
theorem clr_seq (hs : Nat → Head) (i x : Nat) : (clr hs i x).seq = (hs x).seq := by
  unfold clr setHead
  split
  · rename_i e; rw [e]
  · rfl

theorem CInv.clrStep {p : RPC} (f : Nat) {q : Nat} {r : Res} (hr : g.rs[q]? = some r) (hd : g.d ≤ q)
    (h1 : pos g.rs q ≤ g.x) (h2 : g.x < pos g.rs q + nodes r.msg.length)
    (hfd : Full hash s.conf.n g q r ∨ Dead hash s g q r) (hs : (s.heads (g.x % s.conf.n)).seq = r.seq)
    (hp : RInv hash s { g with x := g.x + 1 } p) :
    CInv hash { s with heads := clr s.heads (g.x % s.conf.n), rpc := p, fft := f } { g with x := g.x + 1 } := by
  have hwin := h.window hr hd
  have hroom := h.room
  have hxlo := h.xlo
  have hne : ∀ y, pos g.rs g.d ≤ y → y < pos g.rs g.d + s.conf.n → y ≠ g.x → y % s.conf.n ≠ g.x % s.conf.n := by
    intro y a b c e
    exact c (ring_inj (by omega) (by omega) e)
  have hk : ∀ y, y % s.conf.n ≠ g.x % s.conf.n → clr s.heads (g.x % s.conf.n) (y % s.conf.n) = s.heads (y % s.conf.n) :=
    fun y hy => setHead_ne _ _ hy
  exact {
    conf := h.conf
    resv := h.resv
    who := h.who
    tot := h.tot
    rcur := h.rcur
    wcur := h.wcur
    dle := h.dle
    room := h.room
    fit := h.fit
    seqd := h.seqd
    dist := by
      intro q' j r1 r2 hq hj hdj hjq hxq
      show (clr s.heads (g.x % s.conf.n) (pos g.rs q' % s.conf.n)).seq ≠ r2.seq
      rw [clr_seq]
      exact h.dist q' j r1 r2 hq hj hdj hjq (Nat.le_trans (Nat.le_succ _) hxq)
    thr := by
      intro u
      have := h.thr u
      revert this
      show TInv hash s g u (s.thr u) → TInv hash _ _ u (s.thr u)
      cases s.thr u <;> exact fun x => x
    cnt := h.cnt
    own := h.own
    late := h.late
    fin := h.fin
    touched := by
      intro j r' hr' hx
      replace hx : pos g.rs j < g.x + 1 := hx
      by_cases e : j = q
      · subst e
        replace hr' : g.rs[j]? = some r' := hr'
        rw [hr] at hr'
        simp only [Option.some.injEq] at hr'
        subst hr'
        exact hfd
      · refine h.touched j r' hr' ?_
        have := pos_sep (rs := g.rs) hr' hr e
        have := nodes_pos r'.msg.length
        omega
    xlo := by show pos g.rs g.d ≤ g.x + 1; omega
    xhi := by show g.x + 1 ≤ s.tot; omega
    last := h.last
    free := by
      intro y a b
      replace a : s.tot ≤ y := a
      replace b : y < pos g.rs g.d + s.conf.n := b
      show Clear (clr s.heads (g.x % s.conf.n) (y % s.conf.n)) ∧ Stale g (clr s.heads (g.x % s.conf.n) (y % s.conf.n)).seq
      rw [hk y (hne y (by omega) b (by omega))]
      exact h.free y a b
    cleared := by
      intro y a b
      replace a : pos g.rs g.d ≤ y := a
      replace b : y < g.x + 1 := b
      show Clear (clr s.heads (g.x % s.conf.n) (y % s.conf.n)) ∧ ∃ (j : Nat) (r : Res), g.rs[j]? = some r ∧ pos g.rs j ≤ y ∧
        y < pos g.rs (j + 1) ∧ (clr s.heads (g.x % s.conf.n) (y % s.conf.n)).seq = r.seq
      by_cases e : y = g.x
      · subst e
        simp only [clr, setHead_eq]
        exact ⟨⟨rfl, rfl⟩, q, r, hr, h1, by rw [pos_succ hr]; exact h2, hs⟩
      · rw [hk y (hne y a (by omega) e)]
        exact h.cleared y a (by omega)
    hd := by
      intro j r' hr' hd' i hi hx
      replace hx : g.x + 1 ≤ pos g.rs j + i := hx
      show clr s.heads (g.x % s.conf.n) ((pos g.rs j + i) % s.conf.n) = (memOf hash s.conf.n g j r').1 ((pos g.rs j + i) % s.conf.n)
      have w := h.window hr' hd'
      rw [hk _ (hne _ (by omega) (by omega) (by omega))]
      exact h.hd j r' hr' hd' i hi (by omega)
    dt := h.dt
    base := h.base
    keep := by
      intro j r' hr' hcnt ht'
      show (clr s.heads (g.x % s.conf.n) (pos g.rs j % s.conf.n)).seq = r'.seq
      have hk := h.keep j r' hr' hcnt ht'
      unfold clr setHead
      split
      · rename_i e
        rw [← e]; exact hk
      · exact hk
    got := h.got
    codes := h.codes
    oob := h.oob
    rpc := by
      refine Ext.rinv (s := s) (g := { g with x := g.x + 1 }) ?_ h.dle _ hp
      exact ext_refl rfl rfl (fun _ x => x) }

end

/-- The receiver goes to the next node. -/
theorem rinv_loop {hash : List Byte → Nat} {s : St} {g : G} (hdle : g.d ≤ g.rs.length) (htot : s.tot = pos g.rs g.rs.length)
    (hroom : s.tot < pos g.rs g.d + s.conf.n) {l : L} {q e : Nat} (ho : l.ori = s.rcur) (hret : l.ret = 0)
    (hrb : l.rb = g.x % s.conf.n) (he : e ≤ g.rs.length) (hw : l.w = pos g.rs e % s.conf.n) (hq : g.d ≤ q)
    (hpos : (g.x = pos g.rs q ∧ q ≤ e) ∨ ∃ r i, g.rs[q]? = some r ∧ q < e ∧ 0 < i ∧ g.x = pos g.rs q + i ∧
      i < nodes r.msg.length ∧ Dead hash s g q r)
    (hskip : ∀ (j : Nat) (r' : Res), g.d ≤ j → j < q → g.rs[j]? = some r' → Dead hash s g j r')
    (hts : l.tseq = 0 ∨ ∃ (j : Nat) (r' : Res), g.rs[j]? = some r' ∧ l.tseq = r'.seq ∧ g.d ≤ j ∧ pos g.rs j < g.x) :
    RInv hash s g (loopHead l) := by
  have hpe : pos g.rs e ≤ s.tot := by rw [htot]; exact pos_le he (Nat.le_refl _)
  unfold loopHead
  rcases hpos with ⟨hx, hqe⟩ | ⟨r, i, hr, hqe, hi0, hx, hi, hdead⟩
  · have hpq : pos g.rs q ≤ pos g.rs e := pos_le hqe he
    have hdq : pos g.rs g.d ≤ pos g.rs q := pos_le hq (by omega)
    split
    · rename_i hrw
      rw [hrb, hw] at hrw
      have hxe := ring_inj (L := s.conf.n) (x := g.x) (y := pos g.rs e) (by omega) (by omega) hrw
      refine ⟨ho, hrb, q, hx, hq, by omega, Or.inr ⟨Or.inl ?_, hskip⟩⟩
      rw [hret]; rfl
    · rename_i hrw
      have hlt : q < e := by
        apply Nat.lt_of_le_of_ne hqe
        intro e2
        subst e2
        rw [hrb, hw, hx] at hrw
        exact hrw rfl
      have hr : g.rs[q]? = some g.rs[q] := List.getElem?_eq_getElem (by omega)
      exact ⟨q, g.rs[q], 0, ho, hret, hrb, hr, hq, ⟨e, he, hlt, hw⟩, hx, nodes_pos _, hskip, fun h0 => by omega, hts⟩
  · have hpq : pos g.rs (q + 1) ≤ pos g.rs e := pos_le hqe he
    rw [pos_succ hr] at hpq
    have hdq : pos g.rs g.d ≤ pos g.rs q := pos_le hq (by omega)
    split
    · rename_i hrw
      rw [hrb, hw] at hrw
      have hxe := ring_inj (L := s.conf.n) (x := g.x) (y := pos g.rs e) (by omega) (by omega) hrw
      omega
    · exact ⟨q, r, i, ho, hret, hrb, hr, hq, ⟨e, he, hqe, hw⟩, hx, hi, hskip, fun _ => hdead, hts⟩

theorem byteAddr_eq {n R j : Nat} {m : Msg} (hk : nodes m.length < n) (hj : j < m.length) :
    byteAddr n (R % n) j = (R * 256 + 16 + j) % (n * 256) := by
  have h1 := nodes_pos m.length
  have hb := Nat.mod_lt R (show 0 < n by omega)
  rw [copy_addr h1 hk (nodes_fit _) hj]
  unfold byteAddr
  simp only [nodeSize, blockHead]
  split <;> split <;> omega

theorem takenOf_skip {resv : List Msg} {fin : List Nat} {d : Nat} : ∀ {q : Nat}, d ≤ q →
    (∀ j, d ≤ j → j < q → j ∉ fin) → takenOf resv fin q = takenOf resv fin d := by
  intro q
  induction q with
  | zero => intro h _; rw [show d = 0 by omega]
  | succ q ih =>
    intro h hs
    by_cases e : d = q + 1
    · rw [e]
    · rw [← ih (by omega) (fun j a b => hs j a (by omega))]
      unfold takenOf
      rw [List.range_succ, List.filterMap_append]
      simp [hs q (by omega) (by omega)]

theorem takenOf_take {resv : List Msg} {fin : List Nat} {q : Nat} {m : Msg} (hm : resv[q]? = some m) (hf : q ∈ fin) :
    takenOf resv fin (q + 1) = takenOf resv fin q ++ [m] := by
  unfold takenOf
  rw [List.range_succ, List.filterMap_append]
  simp [hf, hm]

/-- Return from `mem_recv`. -/
theorem inv_fin {hash : List Byte → Nat} {s : St} {g : G} (h : CInv hash s g) {ori re : Nat} {ret : Int} {sz : Option Nat}
    {bytes : List Byte} (hpc : s.rpc = .fin ori re ret sz bytes) : ∃ d', CInv hash { s with
      rcur := if ori ≠ re then re else s.rcur
      rpc := .idle
      got := if ret = Err.SUCCESS then s.got ++ [bytes] else s.got
      codes := s.codes ++ [ret] } { g with d := d' } := by
  obtain ⟨ho, hre, q, hx, hdq, hql, hret⟩ : RInv hash s g _ := hpc ▸ h.rpc
  have hroom := h.room
  have hxlo := h.xlo
  have hxhi := h.xhi
  have hdead : ∀ (j : Nat) (r : Res), g.rs[j]? = some r → Dead hash s g j r → j ∉ s.fin := by
    intro j r hr hdd hj
    obtain ⟨r', a, b⟩ := (h.fin j).1 hj
    rw [hr] at a
    simp only [Option.some.injEq] at a
    subst a
    have := hdd.2.1
    unfold Full at b
    omega
  have hfree : ∀ (j : Nat) {d' : Nat}, (∀ (j : Nat) (r' : Res), g.d ≤ j → j < d' → g.rs[j]? = some r' → Dead hash s g j r') →
      d' ≤ g.rs.length → g.d ≤ j → j < d' → j ∉ s.fin := by
    intro j d' hs hl h1 h2
    have hr : g.rs[j]? = some g.rs[j] := List.getElem?_eq_getElem (by omega)
    exact hdead j _ hr (hs j _ h1 h2 hr)
  refine ⟨q, ?_⟩
  exact {
    conf := h.conf
    resv := h.resv
    who := h.who
    tot := h.tot
    rcur := by
      show (if ori ≠ re then re else s.rcur) = pos g.rs q % s.conf.n
      rw [← hx, ← hre]
      split
      · rfl
      · rename_i hne
        rw [← ho]
        exact Classical.byContradiction fun hh => hne hh
    wcur := h.wcur
    dle := hql
    room := by show s.tot < pos g.rs q + s.conf.n; omega
    fit := h.fit
    seqd := fun i j r r' hi hj => h.seqd i j r r' (Nat.le_trans hdq hi) (Nat.le_trans hdq hj)
    dist := fun a j r r' hr hr' hj => h.dist a j r r' hr hr' (Nat.le_trans hdq hj)
    thr := by
      intro u
      have := h.thr u
      revert this
      show TInv hash s g u (s.thr u) → TInv hash _ _ u (s.thr u)
      cases s.thr u with
      | cas m left seq w wT k =>
        rintro ⟨a, b, c, d, rA, e1, e2, e3⟩
        exact ⟨a, b, c, d, rA, by show rA ≤ pos g.rs q; omega, e2, e3⟩
      | _ => exact fun x => x
    cnt := h.cnt
    own := h.own
    late := h.late
    fin := h.fin
    touched := h.touched
    xlo := by show pos g.rs q ≤ g.x; omega
    xhi := h.xhi
    last := fun j r hr hd => h.last j r hr (Nat.le_trans hdq hd)
    free := by
      intro y a b
      replace a : s.tot ≤ y := a
      replace b : y < pos g.rs q + s.conf.n := b
      show Clear (s.heads (y % s.conf.n)) ∧ Stale { g with d := q } (s.heads (y % s.conf.n)).seq
      by_cases e : y < pos g.rs g.d + s.conf.n
      · obtain ⟨c1, c2⟩ := h.free y a e
        exact ⟨c1, fun j r hj => c2 j r (Nat.le_trans hdq hj)⟩
      · obtain ⟨z, hz⟩ : ∃ z, y = z + s.conf.n := ⟨y - s.conf.n, by omega⟩
        have hm : y % s.conf.n = z % s.conf.n := by rw [hz, Nat.add_mod_right]
        rw [hm]
        obtain ⟨c1, j, r, d1, d2, d3, d4⟩ := h.cleared z (by omega) (by omega)
        refine ⟨c1, fun j' r' hj' hr' e' => ?_⟩
        have hjd : g.d ≤ j := by
          apply Nat.le_of_not_lt
          intro hlt
          have := pos_le (rs := g.rs) (i := j + 1) (j := g.d) hlt h.dle
          omega
        have := h.seqd j j' r r' hjd (Nat.le_trans hdq hj') d1 hr' (d4.symm.trans e')
        have := pos_le (rs := g.rs) (i := q) (j := j') hj' (Nat.le_of_lt (idx_lt hr'))
        subst j'
        omega
    cleared := by
      intro y a b
      exact absurd (show pos g.rs q ≤ y from a) (by have : y < g.x := b; omega)
    hd := fun j r hr hd => h.hd j r hr (Nat.le_trans hdq hd)
    dt := fun j r hr hd => h.dt j r hr (Nat.le_trans hdq hd)
    base := by
      intro j r hr hd i hi
      exact h.base j r hr (Nat.le_trans hdq hd) i hi
    keep := h.keep
    got := by
      show (if ret = Err.SUCCESS then s.got ++ [bytes] else s.got) = takenOf s.resv s.fin q
      rcases hret with ⟨e, q0, r, a1, a2, a3, a4, a5, a6⟩ | ⟨e, a⟩
      · rw [if_pos e, a1, takenOf_take (m := r.msg), takenOf_skip a2, h.got, a5]
        · exact fun j b c => hfree j a6 (by omega) b c
        · rw [h.resv, List.getElem?_map, a3]; rfl
        · exact (h.fin q0).2 ⟨r, a3, a4⟩
      · rw [if_neg (by rcases e with e | e <;> rw [e] <;> decide), takenOf_skip hdq, h.got]
        exact fun j b c => hfree j a hql b c
    codes := by
      intro c hc
      rcases List.mem_append.1 hc with hc | hc
      · exact h.codes c hc
      · rw [List.mem_singleton.1 hc]
        rcases hret with ⟨e, -⟩ | ⟨e | e, -⟩
        · exact Or.inl e
        · exact Or.inr (Or.inl e)
        · exact Or.inr (Or.inr e)
    oob := h.oob
    rpc := hx }

theorem orElse_zero (x : Int) : orElse 0 x = x := rfl

/-- Every step of the receiver. -/
theorem inv_rstep {hash : List Byte → Nat} {s s1 : St} {g : G} (h : CInv hash s g) {now : Nat}
    (hl : Legal s (.rstep now)) (hs : stepRecv hash s now = some s1) :
    ∃ g1, CInv hash s1 g1 ∧ ((∀ ori re ret sz bytes, s.rpc ≠ .fin ori re ret sz bytes) → g1.d = g.d) := by
  have hri := h.rpc
  have hdle := h.dle
  have hroom := h.room
  have htot := h.tot
  have hn : 0 < s.conf.n := h.conf.n1
  unfold stepRecv at hs
  replace hl := hl.2.2.2.2
  simp only [GiveUp] at hl
  split at hs
  · cases hs
  · -- loadR
    rename_i len hpc
    rw [hpc] at hri
    simp only [Option.some.injEq] at hs
    subst hs
    exact ⟨g, h.rTo ⟨hri, rfl⟩, fun _ => rfl⟩
  · -- loadW
    rename_i len ori hpc
    rw [hpc] at hri
    obtain ⟨hx, ho⟩ := hri
    simp only [Option.some.injEq] at hs
    subst hs
    refine ⟨g, h.rTo (rinv_loop hdle htot hroom (e := g.rs.length) (q := g.d) ho rfl ?_ (Nat.le_refl _) ?_ (Nat.le_refl _)
      (Or.inl ⟨hx, hdle⟩) (fun j r' a b _ => by omega) (Or.inl rfl)), fun _ => rfl⟩
    · show ori = _
      rw [ho, hx]; exact h.rcur
    · show s.wcur = _
      rw [← htot]; exact h.wcur
  · -- flag
    rename_i l hpc
    rw [hpc] at hri
    obtain ⟨q, r, i, hat⟩ := hri
    have hob : (s.oob || decide (s.conf.n ≤ l.rb)) = false := by
      have := Nat.mod_lt g.x hn
      rw [h.oob, Bool.false_or, decide_eq_false_iff_not, hat.rb]; omega
    simp only at hs
    by_cases hi : i = 0
    · subst hi
      have hx := hat.xeq
      rw [Nat.add_zero] at hx
      have h0 := h.head0 hat.res hat.dq (Nat.le_of_eq hx)
      obtain ⟨c1, c2⟩ := h.base q r hat.res hat.dq 0 (nodes_pos _)
      rw [Nat.add_zero] at c1 c2
      rw [← hx, ← hat.rb] at h0 c2
      by_cases hwr : (s.heads l.rb).written = true
      · rw [if_pos hwr] at hs
        simp only [Option.some.injEq] at hs
        subst hs
        refine ⟨g, h.rOnly s.fft hob ⟨q, r, 0, hat, fun _ => ?_⟩, fun _ => rfl⟩
        rw [h0] at hwr
        have hle := h.cnt q r hat.res
        unfold Full
        split at hwr
        · rw [c2] at hwr; cases hwr
        · split at hwr
          · cases hwr
          · split at hwr
            · cases hwr
            · omega
      · rw [if_neg hwr] at hs
        split at hs
        · rename_i hts
          simp only [Option.some.injEq] at hs
          subst hs
          exact ⟨g, h.rOnly s.fft hob ⟨q, r, hat, hts⟩, fun _ => rfl⟩
        · simp only [Option.some.injEq] at hs
          subst hs
          exact ⟨g, h.rOnly s.fft hob ⟨q, r, hat⟩, fun _ => rfl⟩
    · have hdd := hat.inside (by omega)
      have hh := h.headi hat.res hat.dq hdd.2.2 (by omega) hat.ilt (Nat.le_of_eq hat.xeq)
      rw [← hat.xeq, ← hat.rb] at hh
      rw [hh] at hs
      simp only [if_true, Option.some.injEq] at hs
      subst hs
      exact ⟨g, h.rOnly s.fft hob ⟨q, r, i, hat, fun e => absurd e hi⟩, fun _ => rfl⟩
  · -- flag2
    rename_i l hpc
    rw [hpc] at hri
    obtain ⟨q, r, i, hat, hful⟩ := hri
    by_cases hi : i = 0
    · subst hi
      have hx := hat.xeq
      rw [Nat.add_zero] at hx
      have hf := hful rfl
      have h0 := h.head0 hat.res hat.dq (Nat.le_of_eq hx)
      have hlate := h.full_late hf
      have h5 : 5 ≤ lateCnt r.msg := by unfold lateCnt; omega
      unfold Full at hf
      rw [← hx, ← hat.rb, if_neg (by omega), if_neg (by omega), if_neg (by omega)] at h0
      rw [h0, if_neg (by simp), if_neg (by rw [hat.ret]; simp)] at hs
      simp only [Option.some.injEq] at hs
      subst hs
      exact ⟨g, h.rTo ⟨q, r, hat, hful rfl⟩, fun _ => rfl⟩
    · have hdd := hat.inside (by omega)
      have hh := h.headi hat.res hat.dq hdd.2.2 (by omega) hat.ilt (Nat.le_of_eq hat.xeq)
      rw [← hat.xeq, ← hat.rb] at hh
      rw [hh, if_pos (by simp)] at hs
      simp only [Option.some.injEq] at hs
      subst hs
      exact ⟨g, h.rTo ⟨q, r, i, hat, by omega⟩, fun _ => rfl⟩
  · -- skip
    rename_i l hpc
    rw [hpc] at hri
    obtain ⟨q, r, i, hat, hi⟩ := hri
    have hdd := hat.inside hi
    have hh := h.headi hat.res hat.dq hdd.2.2 (by omega) hat.ilt (Nat.le_of_eq hat.xeq)
    rw [← hat.xeq] at hh
    have hilt := hat.ilt
    have hxe := hat.xeq
    simp only [Option.some.injEq] at hs
    subst hs
    refine ⟨{ g with x := g.x + 1 }, ?_, fun _ => rfl⟩
    have := h.clrStep (p := loopHead (l.skip s.conf.n)) s.fft hat.res hat.dq (by omega) (by omega) (Or.inr hdd)
      (by rw [hh]) ?_
    · rw [← hat.rb] at this; exact this
    obtain ⟨e, he, hqe, hwe⟩ := hat.w
    have hts : l.tseq = 0 ∨ ∃ (j : Nat) (r' : Res), g.rs[j]? = some r' ∧ l.tseq = r'.seq ∧ g.d ≤ j ∧ pos g.rs j < g.x + 1 := by
      rcases hat.tseq with ht | ⟨j, r', a1, a2, a3, a4⟩
      · exact Or.inl ht
      · exact Or.inr ⟨j, r', a1, a2, a3, by omega⟩
    have hrb : (l.skip s.conf.n).rb = (g.x + 1) % s.conf.n := by
      show next s.conf.n l.rb 1 = _
      rw [hat.rb, next_mod]
    by_cases hend : i + 1 = nodes r.msg.length
    · refine rinv_loop (g := { g with x := g.x + 1 }) (q := q + 1) hdle htot hroom hat.ori hat.ret hrb he hwe ?_ (Or.inl ⟨?_, hqe⟩) ?_ hts
      · show g.d ≤ q + 1
        have := hat.dq; omega
      · show g.x + 1 = pos g.rs (q + 1)
        rw [pos_succ hat.res]; omega
      · intro j r' a b c
        by_cases ej : j = q
        · subst ej
          replace c : g.rs[j]? = some r' := c
          rw [hat.res] at c
          simp only [Option.some.injEq] at c
          subst c
          exact hdd
        · exact hat.skipped j r' a (by omega) c
    · refine rinv_loop (g := { g with x := g.x + 1 }) (q := q) hdle htot hroom hat.ori hat.ret hrb he hwe hat.dq
        (Or.inr ⟨r, i + 1, hat.res, hqe, by omega, ?_, by omega, hdd⟩) hat.skipped hts
      show g.x + 1 = pos g.rs q + (i + 1)
      omega
  · -- seqT
    rename_i l now' hpc
    rw [hpc] at hri
    obtain ⟨q, r, hat, hts⟩ := hri
    have hx := hat.xeq
    rw [Nat.add_zero] at hx
    simp only [Option.some.injEq] at hs
    subst hs
    refine ⟨g, h.rTo ?_, fun _ => rfl⟩
    split
    · rename_i he
      -- the sequence number of a skipped message is not here
      exfalso
      rw [hat.rb, hx] at he
      rcases hat.tseq with ht | ⟨j, r', a1, a2, a3, a4⟩
      · exact hts ht
      · rw [hx] at a4
        have hjq : j < q := by
          apply Nat.lt_of_not_le
          intro hle
          have := pos_le hle (Nat.le_of_lt (idx_lt a1))
          omega
        exact h.seq0 hat.res a1 a3 hjq (Nat.le_of_eq hx) (by rw [← he, a2])
    · exact ⟨q, r, hat⟩
  · -- flagT
    rename_i l now' hpc
    rw [hpc] at hri
    exact absurd hri id
  · -- fft
    rename_i l now' hpc
    rw [hpc] at hri hl
    obtain ⟨q, r, hat⟩ := hri
    have hx := hat.xeq
    rw [Nat.add_zero] at hx
    have hq := idx_lt hat.res
    simp only at hl
    have hfin : ∀ sz, RInv hash s g (.fin l.ori l.rb (orElse l.ret Err.NO_DATA) sz []) := by
      intro sz
      refine ⟨hat.ori, hat.rb, q, hx, hat.dq, Nat.le_of_lt hq, Or.inr ⟨Or.inl ?_, hat.skipped⟩⟩
      rw [hat.ret]; rfl
    split at hs
    · simp only [Option.some.injEq] at hs
      subst hs
      exact ⟨g, h.rOnly now' h.oob (hfin _), fun _ => rfl⟩
    · rename_i hf0
      split at hs
      · rename_i hto
        simp only [Option.some.injEq] at hs
        subst hs
        have hlo := hl hf0 hto
        have hlast := h.last q r hat.res hat.dq
        rw [← hx, ← hat.rb] at hlast
        rw [hlast] at hlo
        obtain ⟨r', a1, a2⟩ := h.dead hlo
        rw [hat.res] at a1
        simp only [Option.some.injEq] at a1
        subst a1
        exact ⟨g, h.rTo ⟨q, r, hat, a2⟩, fun _ => rfl⟩
      · simp only [Option.some.injEq] at hs
        subst hs
        exact ⟨g, h.rTo (hfin _), fun _ => rfl⟩
  · -- seqTO
    rename_i l hpc
    rw [hpc] at hri
    obtain ⟨q, r, hat, hdd⟩ := hri
    have hx := hat.xeq
    rw [Nat.add_zero] at hx
    have h0 := h.head0 hat.res hat.dq (Nat.le_of_eq hx)
    have h5 : 5 ≤ lateCnt r.msg := by unfold lateCnt; omega
    have hd3 := hdd.2.2
    rw [← hx, ← hat.rb, if_neg (by omega), if_neg (by omega), if_pos hdd.2.1] at h0
    simp only [Option.some.injEq] at hs
    subst hs
    rw [h0]
    exact ⟨g, h.rTo ⟨q, r, l, hat, hdd, rfl⟩, fun _ => rfl⟩
  · -- skipTO
    rename_i l hpc
    rw [hpc] at hri
    obtain ⟨q, r, l0, hat, hdd, hll⟩ := hri
    have hx := hat.xeq
    rw [Nat.add_zero] at hx
    have h0 := h.head0 hat.res hat.dq (Nat.le_of_eq hx)
    have h5 : 5 ≤ lateCnt r.msg := by unfold lateCnt; omega
    have hd3 := hdd.2.2
    have hk1 := nodes_pos r.msg.length
    rw [← hx, if_neg (by omega), if_neg (by omega), if_pos hdd.2.1] at h0
    simp only [Option.some.injEq] at hs
    subst hs
    have hrb : l.rb = g.x % s.conf.n := by rw [hll]; exact hat.rb
    refine ⟨{ g with x := g.x + 1 }, ?_, fun _ => rfl⟩
    have := h.clrStep (p := loopHead (l.skip s.conf.n)) 0 hat.res hat.dq (Nat.le_of_eq hx.symm) (by omega) (Or.inr hdd)
      (by rw [h0]) ?_
    · rw [← hrb] at this; exact this
    obtain ⟨e, he, hqe, hwe⟩ := hat.w
    have hts : l.tseq = 0 ∨ ∃ (j : Nat) (r' : Res), g.rs[j]? = some r' ∧ l.tseq = r'.seq ∧ g.d ≤ j ∧ pos g.rs j < g.x + 1 :=
      Or.inr ⟨q, r, hat.res, by rw [hll], hat.dq, by omega⟩
    have hori : l.ori = s.rcur := by rw [hll]; exact hat.ori
    have hret : l.ret = 0 := by rw [hll]; exact hat.ret
    have hw : l.w = pos g.rs e % s.conf.n := by rw [hll]; exact hwe
    have hrb' : (l.skip s.conf.n).rb = (g.x + 1) % s.conf.n := by
      show next s.conf.n l.rb 1 = _
      rw [hrb, next_mod]
    by_cases hend : 1 = nodes r.msg.length
    · refine rinv_loop (g := { g with x := g.x + 1 }) (q := q + 1) hdle htot hroom hori hret hrb' he hw ?_ (Or.inl ⟨?_, hqe⟩) ?_ hts
      · show g.d ≤ q + 1
        have := hat.dq; omega
      · show g.x + 1 = pos g.rs (q + 1)
        rw [pos_succ hat.res]; omega
      · intro j r' a b c
        by_cases ej : j = q
        · subst ej
          replace c : g.rs[j]? = some r' := c
          rw [hat.res] at c
          simp only [Option.some.injEq] at c
          subst c
          exact hdd
        · exact hat.skipped j r' a (by omega) c
    · refine rinv_loop (g := { g with x := g.x + 1 }) (q := q) hdle htot hroom hori hret hrb' he hw hat.dq
        (Or.inr ⟨r, 1, hat.res, hqe, by omega, ?_, by omega, hdd⟩) hat.skipped hts
      show g.x + 1 = pos g.rs q + 1
      omega
  · -- size
    rename_i l hpc
    rw [hpc] at hri
    obtain ⟨q, r, hat, hf⟩ := hri
    have hx := hat.xeq
    rw [Nat.add_zero] at hx
    have hb := h.block hat.res hat.dq hf
    have hsz := hb.size
    rw [← hx, ← hat.rb] at hsz
    have hfit := h.fits hat.res
    have hfn := nodes_fit r.msg.length
    have hnz : r.msg.length ≠ 0 := fun e => hfit.1 (List.length_eq_zero_iff.1 e)
    have hk := hfit.2.2
    have hpm := h.conf.pm
    have hlt : r.msg.length < sub64 (s.conf.n * nodeSize) s.conf.protMem := by
      have : s.conf.n * nodeSize = s.conf.n * 256 := rfl
      rw [this, sub64_le (by omega) h.conf.nlt]
      omega
    simp only [hsz] at hs
    rw [if_neg (by rintro (e | e) <;> omega)] at hs
    split at hs
    · simp only [Option.some.injEq] at hs
      subst hs
      refine ⟨g, h.rTo ⟨hat.ori, hat.rb, q, hx, hat.dq, Nat.le_of_lt (idx_lt hat.res), Or.inr ⟨Or.inr ?_, hat.skipped⟩⟩, fun _ => rfl⟩
      rw [hat.ret]; rfl
    · rename_i hlen
      simp only [Option.some.injEq] at hs
      subst hs
      exact ⟨g, h.rTo ⟨q, r, hat.ori, hat.ret, by rw [hat.rb, hx], hat.res, hat.dq, hat.w, hat.xeq, Nat.zero_le _, hat.skipped, hf, by omega⟩, fun _ => rfl⟩
  · -- skipBad
    rename_i l hpc
    rw [hpc] at hri
    exact absurd hri id
  · -- seq0
    rename_i l hpc
    rw [hpc] at hri
    obtain ⟨q, r, hcl⟩ := hri
    have hx := hcl.xeq
    rw [Nat.add_zero] at hx
    have h0 := h.head0 hcl.res hcl.dq (Nat.le_of_eq hx)
    have hlate := h.full_late hcl.full
    have h5 : 5 ≤ lateCnt r.msg := by unfold lateCnt; omega
    have hf := hcl.full
    unfold Full at hf
    rw [← hcl.rb, if_neg (by omega), if_neg (by omega), if_neg (by omega)] at h0
    simp only [Option.some.injEq] at hs
    subst hs
    refine ⟨g, h.rTo ?_, fun _ => rfl⟩
    unfold clrHead
    rw [h0]
    split
    · rename_i e
      exfalso
      obtain ⟨e', he, hqe, hwe⟩ := hcl.w
      rw [hcl.rb, hwe] at e
      have := pos_lt hqe he
      have hq := pos_le hcl.dq (Nat.le_of_lt (idx_lt hcl.res))
      have := h.ringEq (y := pos g.rs q) hq (by omega) he e
      omega
    · rename_i e
      exact ⟨q, r, 0, hcl, rfl, by rw [hcl.rb, hx], e⟩
  · -- clrSeq
    rename_i l cs re hpc
    rw [hpc] at hri
    obtain ⟨q, r, i, hcl, hcs, hre, hne⟩ := hri
    have hob : (s.oob || decide (s.conf.n ≤ re)) = false := by
      have := Nat.mod_lt g.x hn
      rw [h.oob, Bool.false_or, decide_eq_false_iff_not, hre]; omega
    have hlate := h.full_late hcl.full
    have h5 : 5 ≤ lateCnt r.msg := by unfold lateCnt; omega
    have hf := hcl.full
    unfold Full at hf
    have hile := hcl.ile
    simp only [Option.some.injEq] at hs
    subst hs
    refine ⟨g, h.rOnly s.fft hob ?_, fun _ => rfl⟩
    by_cases hi : i = nodes r.msg.length
    · -- the next message starts here
      obtain ⟨e, he, hqe, hwe⟩ := hcl.w
      have hxq : g.x = pos g.rs (q + 1) := by rw [pos_succ hcl.res, ← hi]; exact hcl.xeq
      have hlt : q + 1 < e := by
        apply Nat.lt_of_le_of_ne hqe
        intro e2
        exact hne (by rw [hre, hwe, hxq, ← e2])
      have hr1 : g.rs[q + 1]? = some g.rs[q + 1] := List.getElem?_eq_getElem (by omega)
      have := h.seq0 hr1 hcl.res hcl.dq (by omega) (Nat.le_of_eq hxq)
      rw [← hxq, ← hre] at this
      rw [if_pos (by rw [hcs]; exact this)]
      exact ⟨q, r, hi ▸ hcl, hre⟩
    · have hseq : (s.heads re).seq = cs := by
        rw [hre, hcs, hcl.xeq]
        by_cases h0 : i = 0
        · subst h0
          rw [Nat.add_zero, h.head0 hcl.res hcl.dq (by have := hcl.xeq; omega), if_neg (by omega), if_neg (by omega), if_neg (by omega)]
        · rw [h.headi hcl.res hcl.dq hlate (by omega) (by omega) (Nat.le_of_eq hcl.xeq)]
      rw [if_neg (by rw [hseq]; simp)]
      exact ⟨q, r, i, hcl, hcs, hre, by omega⟩
  · -- clrFlag
    rename_i l cs re hpc
    rw [hpc] at hri
    obtain ⟨q, r, i, hcl, hcs, hre, hi⟩ := hri
    have hlate := h.full_late hcl.full
    simp only [Option.some.injEq] at hs
    subst hs
    refine ⟨g, h.rTo ?_, fun _ => rfl⟩
    rw [if_neg]
    · exact ⟨q, r, i, hcl, hcs, hre, hi⟩
    · rintro ⟨a, b⟩
      by_cases h0 : i = 0
      · subst h0
        exact a (by rw [hre, hcl.rb, hcl.xeq]; rfl)
      · rw [hre, hcl.xeq, h.headi hcl.res hcl.dq hlate (by omega) hi (Nat.le_of_eq hcl.xeq)] at b
        cases b
  · -- clrSet
    rename_i l cs re hpc
    rw [hpc] at hri
    obtain ⟨q, r, i, hcl, hcs, hre, hi⟩ := hri
    have hlate := h.full_late hcl.full
    have h5 : 5 ≤ lateCnt r.msg := by unfold lateCnt; omega
    have hf := hcl.full
    unfold Full at hf
    have hxe := hcl.xeq
    have hseq : (s.heads (g.x % s.conf.n)).seq = r.seq := by
      rw [hcl.xeq]
      by_cases h0 : i = 0
      · subst h0
        rw [Nat.add_zero, h.head0 hcl.res hcl.dq (by omega), if_neg (by omega), if_neg (by omega), if_neg (by omega)]
      · rw [h.headi hcl.res hcl.dq hlate (by omega) (by omega) (Nat.le_of_eq hcl.xeq)]
    simp only [Option.some.injEq] at hs
    subst hs
    refine ⟨{ g with x := g.x + 1 }, ?_, fun _ => rfl⟩
    have := h.clrStep (p := clrHead l cs (next s.conf.n re 1)) s.fft hcl.res hcl.dq (by omega) (by omega) (Or.inl hcl.full) hseq ?_
    · rw [← hre] at this; exact this
    have hcl' : Cl hash s { g with x := g.x + 1 } l q r (i + 1) :=
      ⟨hcl.ori, hcl.ret, hcl.rb, hcl.res, hcl.dq, hcl.w, by show g.x + 1 = pos g.rs q + (i + 1); omega, hi, hcl.skipped, hcl.full, hcl.len⟩
    have hre' : next s.conf.n re 1 = (g.x + 1) % s.conf.n := by rw [hre, next_mod]
    unfold clrHead
    split
    · rename_i e
      obtain ⟨e', he, hqe, hwe⟩ := hcl.w
      have h1 : pos g.rs (q + 1) ≤ pos g.rs e' := pos_le hqe he
      have h2 := pos_succ hcl.res
      have h3 := pos_le hcl.dq (Nat.le_of_lt (idx_lt hcl.res))
      rw [hre', hwe] at e
      have h4 := h.ringEq (y := g.x + 1) (by omega) (by omega) he e
      have hend : i + 1 = nodes r.msg.length := by omega
      exact ⟨q, r, hend ▸ hcl', hre'⟩
    · rename_i e
      exact ⟨q, r, i + 1, hcl', hcs, hre', e⟩
  · -- num
    rename_i l re hpc
    rw [hpc] at hri
    obtain ⟨q, r, hcl, hre⟩ := hri
    have hb := h.block hcl.res hcl.dq hcl.full
    have hsz := hb.size
    rw [← hcl.rb] at hsz
    have hfit := h.fits hcl.res
    have hnz : r.msg.length ≠ 0 := fun e => hfit.1 (List.length_eq_zero_iff.1 e)
    simp only [hsz] at hs
    rw [if_neg] at hs
    · simp only [Option.some.injEq] at hs
      subst hs
      refine ⟨g, h.rOnly 0 h.oob ?_, fun _ => rfl⟩
      unfold copyHead
      rw [if_neg (by simp only [List.length_nil]; omega)]
      exact ⟨q, r, hcl, hre, rfl, by simp only [List.length_nil]; omega, by simp⟩
    · rw [calcNodes_eq hfit.2.1, hre, hcl.rb, hcl.xeq, rangeCount_abs (h.klt hcl.res)]
      simp
  · -- copy
    rename_i l re sz acc hpc
    rw [hpc] at hri
    obtain ⟨q, r, hcl, hre, hsz, hacc, htk⟩ := hri
    subst hsz
    have hk := h.klt hcl.res
    have hb := h.block hcl.res hcl.dq hcl.full
    have hadr := byteAddr_eq (n := s.conf.n) (R := pos g.rs q) hk hacc
    rw [← hcl.rb] at hadr
    have hob : (s.oob || decide (s.conf.n * nodeSize ≤ byteAddr s.conf.n l.rb acc.length) || decide (l.len ≤ acc.length)) = false := by
      have := Nat.mod_lt (pos g.rs q * 256 + 16 + acc.length) (show 0 < s.conf.n * 256 by omega)
      have hlen := hcl.len
      rw [h.oob, Bool.false_or, decide_eq_false (show ¬ l.len ≤ acc.length by omega), Bool.or_false, decide_eq_false_iff_not, hadr]
      show ¬ s.conf.n * 256 ≤ _
      omega
    have hbyte := hb.bytes acc.length hacc
    rw [← hadr] at hbyte
    simp only [Option.some.injEq] at hs
    subst hs
    refine ⟨g, h.rOnly s.fft hob ?_, fun _ => rfl⟩
    have hacc' : acc ++ [s.data (byteAddr s.conf.n l.rb acc.length)] = r.msg.take (acc.length + 1) := by
      rw [hbyte, List.take_succ_eq_append_getElem hacc, ← htk]
    unfold copyHead
    simp only [List.length_append, List.length_singleton]
    split
    · rename_i e
      refine ⟨q, r, hcl, hre, ?_⟩
      rw [hacc', e, List.take_length]
    · refine ⟨q, r, hcl, hre, rfl, ?_, ?_⟩
      · rw [List.length_append, List.length_singleton]; omega
      · rw [List.length_append, List.length_singleton]; exact hacc'
  · -- check
    rename_i l re acc hpc
    rw [hpc] at hri
    obtain ⟨q, r, hcl, hre, hacc⟩ := hri
    have hb := h.block hcl.res hcl.dq hcl.full
    have hck := hb.check
    rw [← hcl.rb] at hck
    simp only [Option.some.injEq] at hs
    subst hs
    have hq := idx_lt hcl.res
    refine ⟨g, h.rTo ⟨hcl.ori, hre, q + 1, ?_, Nat.le_succ_of_le hcl.dq, hq, Or.inl ⟨?_, q, r, rfl, hcl.dq, hcl.res, hcl.full, hacc, hcl.skipped⟩⟩, fun _ => rfl⟩
    · rw [pos_succ hcl.res]; exact hcl.xeq
    · rw [hck, hacc, if_neg (by simp)]
  · -- fin
    rename_i ori re ret sz bytes hpc
    simp only [Option.some.injEq] at hs
    subst hs
    obtain ⟨d', hd'⟩ := inv_fin h hpc
    exact ⟨_, hd', fun hne => absurd hpc (hne _ _ _ _ _)⟩

end Verif.Mem.Conc
