import Verif.Mem.ConcRun

/-! The receiver gets what is finished. -/
namespace Verif.Mem.Conc

set_option maxRecDepth 10000

theorem CInv.off {hash : List Byte → Nat} {s : St} {g : G} (h : CInv hash s g) (j : Nat) :
    offset s.resv j = pos g.rs j := by rw [h.resv, offset_eq]

theorem CInv.len {hash : List Byte → Nat} {s : St} {g : G} (h : CInv hash s g) : s.resv.length = g.rs.length := by
  rw [h.resv, List.length_map]

theorem CInv.front {hash : List Byte → Nat} {s : St} {g : G} (h : CInv hash s g) : Front s g.d := by
  have := h.xlo
  have := h.xhi
  exact ⟨by rw [h.len]; exact h.dle, by rw [h.off]; exact h.rcur, by rw [h.off]; omega, by rw [h.off]; exact h.room⟩

theorem CInv.front_eq {hash : List Byte → Nat} {s : St} {g : G} (h : CInv hash s g) {d : Nat} (hf : Front s d) : d = g.d := by
  obtain ⟨h1, h2, h3, h4⟩ := hf
  rw [h.len] at h1
  rw [h.off] at h2 h3 h4
  have := h.xlo
  have := h.xhi
  have := h.room
  have e := ring_inj (L := s.conf.n) (x := pos g.rs d) (y := pos g.rs g.d) (by omega) (by omega) (by rw [← h2, ← h.rcur])
  exact pos_inj h1 h.dle e

theorem CInv.msgAt {hash : List Byte → Nat} {s : St} {g : G} (h : CInv hash s g) {j : Nat} {m : Msg} (hm : s.resv[j]? = some m) :
    ∃ r, g.rs[j]? = some r ∧ r.msg = m := by
  rw [h.resv, List.getElem?_map] at hm
  cases hr : g.rs[j]? with
  | none => rw [hr] at hm; cases hm
  | some r => rw [hr] at hm; simp only [Option.map_some, Option.some.injEq] at hm; exact ⟨r, rfl, hm⟩

theorem CInv.fullAt {hash : List Byte → Nat} {s : St} {g : G} (h : CInv hash s g) {j : Nat} {r : Res} (hr : g.rs[j]? = some r)
    (hf : j ∈ s.fin) : Full hash s.conf.n g j r := by
  obtain ⟨r', a, b⟩ := (h.fin j).1 hf
  rw [hr] at a
  simp only [Option.some.injEq] at a
  subst a
  exact b

theorem not_dead {hash : List Byte → Nat} {s : St} {g : G} {j : Nat} {r : Res} (hf : Full hash s.conf.n g j r) :
    ¬ Dead hash s g j r := by
  intro hd
  have := hd.2.1
  unfold Full at hf
  omega

/-- The reservation looked at is the first if the first is finished. -/
theorem At.first {hash : List Byte → Nat} {s : St} {g : G} {l : L} {q i d : Nat} {r rd : Res} (h : At hash s g l q r i)
    (hd : g.d ≤ d) (hdq : d ≤ q) (hr : g.rs[d]? = some rd) (hf : Full hash s.conf.n g d rd) : q = d ∧ i = 0 := by
  have e : q = d := by
    apply Nat.le_antisymm _ hdq
    apply Nat.le_of_not_lt
    intro hlt
    exact not_dead hf (h.skipped d rd hd hlt hr)
  subst e
  refine ⟨rfl, ?_⟩
  apply Nat.eq_zero_of_not_pos
  intro hi
  have := h.res
  rw [hr] at this
  simp only [Option.some.injEq] at this
  subst this
  exact not_dead hf (h.inside hi)

/-! ### The first message is finished -/

/-- Where the receiver can be. -/
def Track (len0 : Nat) : RPC → Prop
  | .loadR len => len = len0
  | .loadW len _ => len = len0
  | .flag l => l.len = len0
  | .flag2 l => l.len = len0
  | .size l => l.len = len0
  | .seq0 _ => True
  | .clrSeq _ _ _ => True
  | .clrFlag _ _ _ => True
  | .clrSet _ _ _ => True
  | .num _ _ => True
  | .copy _ _ _ _ => True
  | .check _ _ _ => True
  | .fin _ _ ret _ _ => ret = Err.SUCCESS
  | _ => False

theorem stepRecv_fin {hash : List Byte → Nat} {s s1 : St} {now ori re : Nat} {ret : Int} {sz : Option Nat} {bytes : List Byte}
    (hpc : s.rpc = .fin ori re ret sz bytes) (hs : stepRecv hash s now = some s1) :
    s1.rpc = .idle ∧ s1.got = (if ret = Err.SUCCESS then s.got ++ [bytes] else s.got) ∧ s1.codes = s.codes ++ [ret] := by
  unfold stepRecv at hs
  rw [hpc] at hs
  simp only [Option.some.injEq] at hs
  subst hs
  exact ⟨rfl, rfl, rfl⟩

/-- After the loop head: the flag is looked at or the call ends. -/
theorem loopHead_cases (l : L) : (l.rb = l.w ∧ loopHead l = .fin l.ori l.rb (orElse l.ret Err.NO_DATA) none []) ∨
    (l.rb ≠ l.w ∧ loopHead l = .flag l) := by
  unfold loopHead
  by_cases e : l.rb = l.w
  · exact Or.inl ⟨e, if_pos e⟩
  · exact Or.inr ⟨e, if_neg e⟩

theorem CInv.num_ok {hash : List Byte → Nat} {s : St} {g : G} (h : CInv hash s g) {l : L} {re : Nat} (hpc : s.rpc = .num l re) :
    ¬ calcNodes (bsize s.data l.rb) ≠ rangeCount s.conf.n l.rb re := by
  have hri := h.rpc
  rw [hpc] at hri
  obtain ⟨q, r, hcl, hre⟩ := hri
  have hsz := (h.block hcl.res hcl.dq hcl.full).size
  rw [← hcl.rb] at hsz
  rw [hsz, calcNodes_eq (h.fits hcl.res).2.1, hre, hcl.rb, hcl.xeq, rangeCount_abs (h.klt hcl.res)]
  simp

theorem CInv.check_ok {hash : List Byte → Nat} {s : St} {g : G} (h : CInv hash s g) {l : L} {re : Nat} {acc : List Byte}
    (hpc : s.rpc = .check l re acc) : ¬ hash acc % W64 ≠ bcheck s.data l.rb := by
  have hri := h.rpc
  rw [hpc] at hri
  obtain ⟨q, r, hcl, hre, hacc⟩ := hri
  have hck := (h.block hcl.res hcl.dq hcl.full).check
  rw [← hcl.rb] at hck
  rw [hck, hacc]
  simp

/-- The part of a call that takes a message. -/
def Taking : RPC → Prop
  | .seq0 _ => True
  | .clrSeq _ _ _ => True
  | .clrFlag _ _ _ => True
  | .clrSet _ _ _ => True
  | .num _ _ => True
  | .copy _ _ _ _ => True
  | .check _ _ _ => True
  | .fin _ _ ret _ _ => ret = Err.SUCCESS
  | _ => False

theorem take_step {hash : List Byte → Nat} {s s1 : St} {g : G} {now : Nat} (h : CInv hash s g)
    (hs : stepRecv hash s now = some s1) (hpc : Taking s.rpc) (hnf : ∀ ori re ret sz bytes, s.rpc ≠ .fin ori re ret sz bytes) :
    Taking s1.rpc := by
  have hto : ∀ (s' : St) pc, (s'.to pc).rpc = pc := fun _ _ => rfl
  have hch : ∀ l cs re, Taking (clrHead l cs re) := by
    intro l cs re
    unfold clrHead
    split <;> trivial
  have hcp : ∀ l re sz acc, Taking (copyHead l re sz acc) := by
    intro l re sz acc
    unfold copyHead
    split <;> trivial
  unfold stepRecv at hs
  cases e : s.rpc with
  | seq0 l =>
    rw [e] at hs
    simp only [Option.some.injEq] at hs
    subst hs
    exact hch _ _ _
  | clrSeq l cs re =>
    rw [e] at hs
    simp only [Option.some.injEq] at hs
    subst hs
    simp only [St.to]
    split <;> trivial
  | clrFlag l cs re =>
    rw [e] at hs
    simp only [Option.some.injEq] at hs
    subst hs
    simp only [St.to]
    split <;> trivial
  | clrSet l cs re =>
    rw [e] at hs
    simp only [Option.some.injEq] at hs
    subst hs
    exact hch _ _ _
  | num l re =>
    rw [e] at hs
    simp only at hs
    rw [if_neg (h.num_ok e)] at hs
    simp only [Option.some.injEq] at hs
    rw [← hs, hto]
    exact hcp _ _ _ _
  | copy l re sz acc =>
    rw [e] at hs
    simp only [Option.some.injEq] at hs
    rw [← hs, hto]
    exact hcp _ _ _ _
  | check l re acc =>
    rw [e] at hs
    simp only [Option.some.injEq] at hs
    rw [if_neg (h.check_ok e)] at hs
    rw [← hs, hto]
    rfl
  | fin ori re ret sz bytes => exact absurd e (hnf _ _ _ _ _)
  | idle => rw [e] at hpc; exact absurd hpc id
  | loadR _ => rw [e] at hpc; exact absurd hpc id
  | loadW _ _ => rw [e] at hpc; exact absurd hpc id
  | flag _ => rw [e] at hpc; exact absurd hpc id
  | flag2 _ => rw [e] at hpc; exact absurd hpc id
  | skip _ => rw [e] at hpc; exact absurd hpc id
  | seqT _ _ => rw [e] at hpc; exact absurd hpc id
  | flagT _ _ => rw [e] at hpc; exact absurd hpc id
  | fft _ _ => rw [e] at hpc; exact absurd hpc id
  | seqTO _ => rw [e] at hpc; exact absurd hpc id
  | skipTO _ => rw [e] at hpc; exact absurd hpc id
  | size _ => rw [e] at hpc; exact absurd hpc id
  | skipBad _ => rw [e] at hpc; exact absurd hpc id

/-- At the end of a call that takes a message. -/
theorem CInv.fin_got {hash : List Byte → Nat} {s : St} {g : G} (h : CInv hash s g) {d : Nat} {rd : Res} (hd : g.d ≤ d)
    (hr : g.rs[d]? = some rd) (hf : Full hash s.conf.n g d rd)
    (hskip : ∀ (j : Nat) (r' : Res), g.d ≤ j → j < d → g.rs[j]? = some r' → Dead hash s g j r')
    {ori re : Nat} {sz : Option Nat} {bytes : List Byte} (hpc : s.rpc = .fin ori re Err.SUCCESS sz bytes) : bytes = rd.msg := by
  have hri := h.rpc
  rw [hpc] at hri
  obtain ⟨-, -, q, -, -, -, hh⟩ := hri
  rcases hh with ⟨-, q0, r, -, a2, a3, a4, a5, a6⟩ | ⟨e | e, -⟩
  · have e : q0 = d := by
      rcases Nat.lt_trichotomy q0 d with hlt | e | hlt
      · exact absurd (hskip q0 r a2 hlt a3) (not_dead a4)
      · exact e
      · exact absurd (a6 d rd hd hlt hr) (not_dead hf)
    subst e
    rw [hr] at a3
    simp only [Option.some.injEq] at a3
    rw [a5, a3]
  · exact absurd e (by decide)
  · exact absurd e (by decide)

/-- The size check of a finished message. -/
theorem CInv.size_step {hash : List Byte → Nat} {s s1 : St} {g : G} (h : CInv hash s g) {l : L} {q : Nat} {r : Res} {now : Nat}
    (hat : At hash s g l q r 0) (hf : Full hash s.conf.n g q r) (hl : r.msg.length ≤ l.len) (hpc : s.rpc = .size l)
    (hs : stepRecv hash s now = some s1) : s1.rpc = .seq0 l := by
  have hx := hat.xeq
  rw [Nat.add_zero] at hx
  have hsz := (h.block hat.res hat.dq hf).size
  rw [← hx, ← hat.rb] at hsz
  have hfit := h.fits hat.res
  have hfn := nodes_fit r.msg.length
  have hnz : r.msg.length ≠ 0 := fun e => hfit.1 (List.length_eq_zero_iff.1 e)
  have hk := hfit.2.2
  have hpm := h.conf.pm
  have hlt : r.msg.length < sub64 (s.conf.n * nodeSize) s.conf.protMem := by
    have : s.conf.n * nodeSize = s.conf.n * 256 := rfl
    rw [this, sub64_le (by omega) h.conf.nlt]
    omega
  unfold stepRecv at hs
  rw [hpc] at hs
  simp only [hsz] at hs
  rw [if_neg (by rintro (e | e) <;> omega), if_neg (by omega)] at hs
  simp only [Option.some.injEq] at hs
  subst hs
  rfl

/-- The flags of the first node of a finished message. -/
theorem CInv.full_head {hash : List Byte → Nat} {s : St} {g : G} (h : CInv hash s g) {l : L} {q : Nat} {r : Res}
    (hat : At hash s g l q r 0) (hf : Full hash s.conf.n g q r) : s.heads l.rb = ⟨true, true, r.seq⟩ := by
  have hx := hat.xeq
  rw [Nat.add_zero] at hx
  have h0 := h.head0 hat.res hat.dq (Nat.le_of_eq hx)
  have hlate := h.full_late hf
  have h5 : 5 ≤ lateCnt r.msg := by unfold lateCnt; omega
  unfold Full at hf
  rw [← hx, ← hat.rb, if_neg (by omega), if_neg (by omega), if_neg (by omega)] at h0
  exact h0

theorem track_rstep {hash : List Byte → Nat} {s s1 : St} {g g1 : G} {now len0 : Nat} {rd : Res} (h : CInv hash s g)
    (h1 : CInv hash s1 g1) (hd1 : (∀ ori re ret sz bytes, s.rpc ≠ .fin ori re ret sz bytes) → g1.d = g.d)
    (hr : g.rs[g.d]? = some rd) (hf : Full hash s.conf.n g g.d rd) (hlen : rd.msg.length ≤ len0)
    (ht : Track len0 s.rpc) (hs : stepRecv hash s now = some s1) :
    (Track len0 s1.rpc ∧ s1.codes = s.codes ∧ s1.got = s.got ∧ g1.d = g.d) ∨
    (s1.codes = s.codes ++ [Err.SUCCESS] ∧ s1.got = s.got ++ [rd.msg]) := by
  have hfr := stepRecv_frame hs
  have hri := h.rpc
  have htk : ∀ pc, Taking pc → Track len0 pc := by intro pc; cases pc <;> first | exact fun x => x | exact fun x => absurd x id
  by_cases hfin : ∃ ori re ret sz bytes, s.rpc = .fin ori re ret sz bytes
  · obtain ⟨ori, re, ret, sz, bytes, hpc⟩ := hfin
    rw [hpc] at ht
    replace ht : ret = Err.SUCCESS := ht
    subst ht
    obtain ⟨-, a, b⟩ := stepRecv_fin hpc hs
    rw [if_pos rfl, h.fin_got (Nat.le_refl _) hr hf (fun j _ a b _ => by omega) hpc] at a
    exact Or.inr ⟨b, a⟩
  · have hnf : ∀ ori re ret sz bytes, s.rpc ≠ .fin ori re ret sz bytes := fun a b c d e he => hfin ⟨a, b, c, d, e, he⟩
    refine Or.inl ⟨?_, (hfr.2.2.2.2.2.2.2.2 hnf).1, (hfr.2.2.2.2.2.2.2.2 hnf).2.1, hd1 hnf⟩
    cases e : s.rpc with
    | loadR len =>
      unfold stepRecv at hs
      rw [e] at hs ht
      simp only [Option.some.injEq] at hs
      subst hs
      exact ht
    | loadW len ori =>
      rw [e] at hri ht
      have hx := hri.1
      have ho := hri.2
      unfold stepRecv at hs
      rw [e] at hs
      simp only [Option.some.injEq] at hs
      subst hs
      show Track len0 (loopHead ⟨len, ori, ori, s.wcur, 0, 0⟩)
      rcases loopHead_cases ⟨len, ori, ori, s.wcur, 0, 0⟩ with ⟨e1, -⟩ | ⟨-, e1⟩
      · exfalso
        simp only at e1
        rw [ho, h.rcur, h.wcur] at e1
        have := h.room
        have := h.window hr (Nat.le_refl _)
        have := nodes_pos rd.msg.length
        have := ring_inj (L := s.conf.n) (x := pos g.rs g.d) (y := s.tot) (by omega) (by omega) e1
        omega
      · rw [e1]; exact ht
    | flag l =>
      rw [e] at hri ht
      obtain ⟨q, r, i, hat⟩ := hri
      obtain ⟨rfl, rfl⟩ := hat.first (Nat.le_refl _) hat.dq hr hf
      have e2 := hat.res
      rw [hr] at e2
      simp only [Option.some.injEq] at e2
      subst e2
      have hh := h.full_head hat hf
      unfold stepRecv at hs
      rw [e] at hs
      simp only at hs
      rw [if_pos (by rw [hh])] at hs
      simp only [Option.some.injEq] at hs
      subst hs
      exact ht
    | flag2 l =>
      rw [e] at hri ht
      obtain ⟨q, r, i, hat, -⟩ := hri
      obtain ⟨rfl, rfl⟩ := hat.first (Nat.le_refl _) hat.dq hr hf
      have e2 := hat.res
      rw [hr] at e2
      simp only [Option.some.injEq] at e2
      subst e2
      have hh := h.full_head hat hf
      unfold stepRecv at hs
      rw [e] at hs
      simp only at hs
      rw [if_neg (by rw [hh]; simp), if_neg (by rw [hat.ret]; simp)] at hs
      simp only [Option.some.injEq] at hs
      subst hs
      exact ht
    | size l =>
      rw [e] at hri ht
      obtain ⟨q, r, hat, -⟩ := hri
      obtain ⟨rfl, -⟩ := hat.first (Nat.le_refl _) hat.dq hr hf
      have e2 := hat.res
      rw [hr] at e2
      simp only [Option.some.injEq] at e2
      subst e2
      replace ht : l.len = len0 := ht
      rw [h.size_step hat hf (by rw [ht]; exact hlen) e hs]
      trivial
    | seq0 l => exact htk _ (take_step h hs (by rw [e]; trivial) hnf)
    | clrSeq l cs re => exact htk _ (take_step h hs (by rw [e]; trivial) hnf)
    | clrFlag l cs re => exact htk _ (take_step h hs (by rw [e]; trivial) hnf)
    | clrSet l cs re => exact htk _ (take_step h hs (by rw [e]; trivial) hnf)
    | num l re => exact htk _ (take_step h hs (by rw [e]; trivial) hnf)
    | copy l re sz acc => exact htk _ (take_step h hs (by rw [e]; trivial) hnf)
    | check l re acc => exact htk _ (take_step h hs (by rw [e]; trivial) hnf)
    | fin ori re ret sz bytes => exact absurd e (hnf _ _ _ _ _)
    | idle => rw [e] at ht; exact absurd ht id
    | skip _ => rw [e] at ht; exact absurd ht id
    | seqT _ _ => rw [e] at ht; exact absurd ht id
    | flagT _ _ => rw [e] at ht; exact absurd ht id
    | fft _ _ => rw [e] at ht; exact absurd ht id
    | seqTO _ => rw [e] at ht; exact absurd ht id
    | skipTO _ => rw [e] at ht; exact absurd ht id
    | skipBad _ => rw [e] at ht; exact absurd ht id

/-- A step of a sender, a call or a stop. -/
theorem other_step {hash : List Byte → Nat} {s s1 : St} {e : Ev} (hne : ∀ now, e ≠ .rstep now) (hnr : ∀ len, e ≠ .recv len)
    (hs : step hash s e = some s1) : s1.rpc = s.rpc ∧ s1.codes = s.codes ∧ s1.got = s.got ∧ s1.fft = s.fft ∧ s1.conf = s.conf ∧
      (∃ l, s1.fin = s.fin ++ l) ∧ (∃ l, s1.resv = s.resv ++ l) ∧ (∀ t, s.crashed t = true → s1.crashed t = true) := by
  cases e with
  | call t m =>
    simp only [step] at hs
    split at hs
    · simp only [Option.some.injEq] at hs
      subst hs
      obtain ⟨a1, a2, a3, a4, a5, a6, a7, a8, a9⟩ := callSend_frame s t m
      exact ⟨a1, a2, a3, a6, a7, ⟨[], by rw [a5, List.append_nil]⟩, ⟨[], by rw [a9, List.append_nil]⟩, fun u hu => by rw [a4]; exact hu⟩
    · cases hs
  | send t weak =>
    simp only [step] at hs
    split at hs
    · obtain ⟨a1, a2, a3, a4, a5, a6, a7, a8, a9⟩ := stepSend_frame hs
      exact ⟨a1, a2, a3, a5, a6, a8, a9, fun u hu => by rw [a4]; exact hu⟩
    · cases hs
  | crash t =>
    simp only [step, Option.some.injEq] at hs
    subst hs
    exact ⟨rfl, rfl, rfl, rfl, rfl, ⟨[], (List.append_nil _).symm⟩, ⟨[], (List.append_nil _).symm⟩, fun u hu => by simp [hu]⟩
  | recv len => exact absurd rfl (hnr len)
  | rstep now => exact absurd rfl (hne now)

/-- Codes and received messages only grow. -/
theorem grow_step {hash : List Byte → Nat} {s s1 : St} {e : Ev} (hs : step hash s e = some s1) :
    (s1.codes = s.codes ∧ s1.got = s.got) ∨ s1.codes.length = s.codes.length + 1 := by
  by_cases hr : ∃ now, e = .rstep now
  · obtain ⟨now, rfl⟩ := hr
    by_cases hfin : ∃ ori re ret sz bytes, s.rpc = .fin ori re ret sz bytes
    · obtain ⟨ori, re, ret, sz, bytes, hpc⟩ := hfin
      right
      rw [(stepRecv_fin hpc hs).2.2, List.length_append]; rfl
    · left
      have := (stepRecv_frame hs).2.2.2.2.2.2.2.2 (fun a b c d e he => hfin ⟨a, b, c, d, e, he⟩)
      exact ⟨this.1, this.2.1⟩
  · by_cases hv : ∃ len, e = .recv len
    · obtain ⟨len, rfl⟩ := hv
      simp only [step] at hs
      split at hs
      · simp only [Option.some.injEq] at hs
        subst hs
        exact Or.inl ⟨rfl, rfl⟩
      · cases hs
    · have := other_step (fun now he => hr ⟨now, he⟩) (fun len he => hv ⟨len, he⟩) hs
      exact Or.inl ⟨this.2.1, this.2.2.1⟩

theorem grow_run {hash : List Byte → Nat} : ∀ {es : List Ev} {s s1 : St}, run hash s es = some s1 →
    s.codes.length ≤ s1.codes.length ∧ (s1.codes.length = s.codes.length → s1.codes = s.codes ∧ s1.got = s.got) := by
  intro es
  induction es with
  | nil =>
    intro s s1 hs
    simp only [run, Option.some.injEq] at hs
    subst hs
    exact ⟨Nat.le_refl _, fun _ => ⟨rfl, rfl⟩⟩
  | cons e es ih =>
    intro s s1 hs
    simp only [run] at hs
    split at hs
    · cases hs
    · rename_i s2 h2
      obtain ⟨a, b⟩ := ih hs
      rcases grow_step h2 with ⟨c, c'⟩ | c
      · rw [c] at a b
        rw [c'] at b
        exact ⟨a, b⟩
      · exact ⟨by omega, fun hh => by omega⟩

theorem track_run {hash : List Byte → Nat} {len0 : Nat} {m : Msg} (hlen : m.length ≤ len0) : ∀ {es : List Ev} {s s1 : St} {g : G},
    CInv hash s g → s.resv[g.d]? = some m → g.d ∈ s.fin → Track len0 s.rpc → Along Legal hash s es →
    run hash s es = some s1 → s1.codes.length = s.codes.length + 1 →
    s1.codes = s.codes ++ [Err.SUCCESS] ∧ s1.got = s.got ++ [m] := by
  intro es
  induction es with
  | nil =>
    intro s s1 g h _ _ _ _ hs hc
    simp only [run, Option.some.injEq] at hs
    subst hs
    omega
  | cons e es ih =>
    intro s s1 g h hm hf ht hl hs hc
    simp only [run] at hs
    split at hs
    · cases hs
    · rename_i s2 h2
      obtain ⟨g2, i2, d2, d2'⟩ := inv_step h hl.1 h2
      by_cases hr : ∃ now, e = .rstep now
      · obtain ⟨now, rfl⟩ := hr
        obtain ⟨rd, hrd, rfl⟩ := h.msgAt hm
        obtain ⟨-, f2, f3, -⟩ := stepRecv_frame h2
        rcases track_rstep h i2 d2 hrd (h.fullAt hrd hf) hlen ht h2 with ⟨a1, a2, a3, a4⟩ | ⟨a1, a2⟩
        · have := ih i2 (by rw [a4, f3]; exact hm) (by rw [a4, f2]; exact hf) a1 (hl.2 s2 h2) hs (by rw [a2]; exact hc)
          rw [a2, a3] at this
          exact this
        · have hg := (grow_run hs).2 (by rw [hc, a1, List.length_append]; rfl)
          rw [a1, a2] at hg
          exact hg
      · by_cases hv : ∃ len, e = .recv len
        · obtain ⟨len, rfl⟩ := hv
          simp only [step] at h2
          split at h2
          · rename_i hi
            rw [hi] at ht
            exact absurd ht id
          · cases h2
        · obtain ⟨a1, a2, a3, -, -, ⟨lf, a4⟩, ⟨lr, a5⟩, -⟩ := other_step (fun now he => hr ⟨now, he⟩) (fun len he => hv ⟨len, he⟩) h2
          have e2 := d2' (fun now he => hr ⟨now, he⟩)
          have hlt : g.d < s.resv.length := (List.getElem?_eq_some_iff.1 hm).1
          have := ih i2 (by rw [e2, a5, List.getElem?_append_left hlt]; exact hm) (by rw [e2, a4]; exact List.mem_append_left _ hf)
            (by rw [a1]; exact ht) (hl.2 s2 h2) hs (by rw [a2]; exact hc)
          rw [a2, a3] at this
          exact this

end Verif.Mem.Conc
