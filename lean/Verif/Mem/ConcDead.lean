import Verif.Mem.ConcTerm

/-! The receiver passes a message whose sender has stopped, and gets the next. -/
namespace Verif.Mem.Conc

set_option maxRecDepth 10000

/-- Only the owner finishes a reservation. -/
theorem lost_step {hash : List Byte → Nat} {s s1 : St} {g : G} (h : CInv hash s g) {e : Ev} {j : Nat} (hl : Lost s j)
    (hs : step hash s e = some s1) : Lost s1 j := by
  obtain ⟨hf, t0, hw, hc⟩ := hl
  have hlt := (List.getElem?_eq_some_iff.1 hw).1
  cases e with
  | call t m =>
    simp only [step] at hs
    split at hs
    · simp only [Option.some.injEq] at hs
      subst hs
      obtain ⟨-, -, -, a4, a5, -, -, a8, -⟩ := callSend_frame s t m
      exact ⟨by rw [a5]; exact hf, t0, by rw [a8]; exact hw, by rw [a4]; exact hc⟩
    · cases hs
  | send t weak =>
    simp only [step] at hs
    split at hs
    · rename_i hct
      have htc := (stepSend_frame hs).2.2.2.1
      unfold stepSend at hs
      have key : s1.fin = s.fin ∧ (∃ x, s1.who = s.who ++ x) ∨ ∃ m left seq w id todo reg, s.thr t = .work m left seq w id todo reg ∧
          s1.fin = s.fin ++ [id] ∧ s1.who = s.who := by
        have hnil : ∀ {α : Type} (l : List α), ∃ l', l = l ++ l' := fun l => ⟨[], (List.append_nil l).symm⟩
        split at hs
        · cases hs
        · cases hs
        · simp only [Option.some.injEq] at hs
          subst hs
          left
          split <;> exact ⟨rfl, hnil _⟩
        · simp only [Option.some.injEq] at hs
          subst hs
          exact Or.inl ⟨rfl, hnil _⟩
        · simp only at hs
          split at hs <;> (simp only [Option.some.injEq] at hs; subst hs; exact Or.inl ⟨rfl, hnil _⟩)
        · split at hs
          · simp only [Option.some.injEq] at hs; subst hs; exact Or.inl ⟨rfl, hnil _⟩
          · simp only at hs
            split at hs <;> (simp only [Option.some.injEq] at hs; subst hs; exact Or.inl ⟨rfl, _, rfl⟩)
        · rename_i hthr
          split at hs
          · cases hs
          · simp only at hs
            split at hs
            · simp only [Option.some.injEq] at hs; subst hs; exact Or.inr ⟨_, _, _, _, _, _, _, hthr, rfl, rfl⟩
            · simp only [Option.some.injEq] at hs; subst hs; exact Or.inl ⟨rfl, hnil _⟩
        · split at hs
          · simp only [Option.some.injEq] at hs; subst hs; exact Or.inl ⟨rfl, hnil _⟩
          · split at hs <;> (simp only [Option.some.injEq] at hs; subst hs; exact Or.inl ⟨rfl, hnil _⟩)
      rcases key with ⟨k1, x, k2⟩ | ⟨m, left, seq, w, id, todo, reg, k1, k2, k3⟩
      · exact ⟨by rw [k1]; exact hf, t0, by rw [k2, List.getElem?_append_left hlt]; exact hw, by rw [htc]; exact hc⟩
      · refine ⟨?_, t0, by rw [k3]; exact hw, by rw [htc]; exact hc⟩
        rw [k2, List.mem_append, List.mem_singleton]
        rintro (e | e)
        · exact hf e
        · subst e
          have ht := h.thr t
          rw [k1] at ht
          obtain ⟨r, a, b, -⟩ := ht
          rw [h.who, List.getElem?_map, a] at hw
          simp only [Option.map_some, Option.some.injEq] at hw
          rw [← hw, b, hct] at hc
          cases hc
    · cases hs
  | crash t =>
    simp only [step, Option.some.injEq] at hs
    subst hs
    exact ⟨hf, t0, hw, by simp [hc]⟩
  | recv len =>
    simp only [step] at hs
    split at hs
    · simp only [Option.some.injEq] at hs
      subst hs
      exact ⟨hf, t0, hw, hc⟩
    · cases hs
  | rstep now =>
    obtain ⟨f1, f2, -, f4, -⟩ := stepRecv_frame hs
    exact ⟨by rw [f2]; exact hf, t0, by rw [f4]; exact hw, by rw [f1]; exact hc⟩

theorem lost_run {hash : List Byte → Nat} : ∀ {es : List Ev} {s s1 : St} {g : G}, CInv hash s g → Along Legal hash s es →
    ∀ {j : Nat}, Lost s j → run hash s es = some s1 → Lost s1 j := by
  intro es
  induction es with
  | nil =>
    intro s s1 g _ _ j hl hs
    simp only [run, Option.some.injEq] at hs
    subst hs
    exact hl
  | cons e es ih =>
    intro s s1 g h ha j hl hs
    simp only [run] at hs
    split at hs
    · cases hs
    · rename_i s2 h2
      obtain ⟨g2, i2, -⟩ := inv_step h ha.1 h2
      exact ih i2 (ha.2 s2 h2) (lost_step h hl h2) hs

/-! ### A call when the write timeout has passed -/

/-- The call looks beyond the message after `d`. -/
def Far (s : St) (d : Nat) (l : L) : Prop := ∃ e, d + 2 ≤ e ∧ e ≤ s.resv.length ∧ l.w = offset s.resv e % s.conf.n

/-- Where the receiver can be. -/
def Track2 (F len0 : Nat) (s : St) (d : Nat) : RPC → Prop
  | .loadR len => len = len0 ∧ s.fft = F
  | .loadW len _ => len = len0 ∧ s.fft = F
  | .flag l => l.len = len0 ∧ Far s d l ∧ (l.rb = offset s.resv d % s.conf.n → l.tseq = 0 ∧ s.fft = F)
  | .flag2 l => l.len = len0 ∧ Far s d l
  | .skip l => l.len = len0 ∧ Far s d l
  | .fft l now => l.len = len0 ∧ Far s d l ∧ s.fft = F ∧ absDiff now F > s.conf.timeout
  | .seqTO l => l.len = len0 ∧ Far s d l
  | .skipTO l => l.len = len0 ∧ Far s d l
  | .size l => l.len = len0
  | .seq0 _ => True
  | .clrSeq _ _ _ => True
  | .clrFlag _ _ _ => True
  | .clrSet _ _ _ => True
  | .num _ _ => True
  | .copy _ _ _ _ => True
  | .check _ _ _ => True
  | .fin _ _ ret _ _ => ret = Err.SUCCESS
  | _ => False

theorem At.which {hash : List Byte → Nat} {s : St} {g : G} {l : L} {q i : Nat} {r rd : Res} (h : At hash s g l q r i)
    (hr : g.rs[g.d + 1]? = some rd) (hf : Full hash s.conf.n g (g.d + 1) rd) :
    q = g.d ∨ (q = g.d + 1 ∧ i = 0 ∧ r = rd) := by
  rcases Nat.lt_or_ge g.d q with hq | hq
  · right
    obtain ⟨rfl, rfl⟩ := h.first (d := g.d + 1) (by omega) hq hr hf
    have := h.res
    rw [hr] at this
    simp only [Option.some.injEq] at this
    exact ⟨rfl, rfl, this.symm⟩
  · left
    have := h.dq
    omega

/-- After a node of the lost message is left out there are more nodes to look at. -/
theorem far_next {hash : List Byte → Nat} {s s1 : St} {g : G} (h : CInv hash s g) {l l1 : L} {r : Res} {i len0 F : Nat}
    (hat : At hash s g l g.d r i) (hlen : l.len = len0) (hfar : Far s g.d l)
    (h1 : l1.len = l.len) (h2 : l1.w = l.w) (h3 : l1.rb = next s.conf.n l.rb 1) (h4 : s1.resv = s.resv) (h5 : s1.conf = s.conf)
    (h6 : s1.rpc = loopHead l1) : Track2 F len0 s1 g.d s1.rpc := by
  obtain ⟨e, he1, he2, he3⟩ := hfar
  rw [h.len] at he2
  rw [h.off] at he3
  have hrb : l1.rb = (g.x + 1) % s.conf.n := by
    rw [h3, hat.rb]; unfold next; rw [Nat.mod_add_mod]
  have hx := hat.xeq
  have hi := hat.ilt
  have hp1 := pos_succ hat.res
  have hp2 := pos_lt (rs := g.rs) (i := g.d + 1) (j := e) (by omega) he2
  have hpe := pos_le he2 (Nat.le_refl g.rs.length)
  rw [← h.tot] at hpe
  have hroom := h.room
  have hne : l1.rb ≠ l1.w := by
    rw [hrb, h2, he3]
    intro e2
    have := ring_inj (L := s.conf.n) (x := g.x + 1) (y := pos g.rs e) (by omega) (by omega) e2
    omega
  have e6 : s1.rpc = .flag l1 := by
    rcases loopHead_cases l1 with ⟨a, -⟩ | ⟨-, a⟩
    · exact absurd a hne
    · rw [h6, a]
  rw [e6]
  refine ⟨by rw [h1, hlen], ⟨e, he1, by rw [h4, h.len]; exact he2, by rw [h4, h5, h2, h.off]; exact he3⟩, ?_⟩
  intro e2
  exfalso
  rw [hrb, h4, h5, h.off] at e2
  have := ring_inj (L := s.conf.n) (x := g.x + 1) (y := pos g.rs g.d) (by omega) (by omega) e2
  omega

theorem track2_rstep {hash : List Byte → Nat} {s s1 : St} {g g1 : G} {now len0 F : Nat} {rd : Res} (h : CInv hash s g)
    (hd1 : (∀ ori re ret sz bytes, s.rpc ≠ .fin ori re ret sz bytes) → g1.d = g.d)
    (hlost : Lost s g.d) (hr : g.rs[g.d + 1]? = some rd) (hf : Full hash s.conf.n g (g.d + 1) rd) (hlen : rd.msg.length ≤ len0)
    (hF : F ≠ 0) (hnow : absDiff now F > s.conf.timeout)
    (ht : Track2 F len0 s g.d s.rpc) (hs : stepRecv hash s now = some s1) :
    (Track2 F len0 s1 g.d s1.rpc ∧ s1.codes = s.codes ∧ s1.got = s.got ∧ g1.d = g.d) ∨
    (s1.codes = s.codes ++ [Err.SUCCESS] ∧ s1.got = s.got ++ [rd.msg]) := by
  have hfr := stepRecv_frame hs
  have hri := h.rpc
  obtain ⟨r0, hr0, hdead⟩ := h.dead hlost
  have htk : ∀ pc, Taking pc → Track2 F len0 s1 g.d pc := by
    intro pc; cases pc <;> first | exact fun x => x | exact fun x => absurd x id
  by_cases hfin : ∃ ori re ret sz bytes, s.rpc = .fin ori re ret sz bytes
  · obtain ⟨ori, re, ret, sz, bytes, hpc⟩ := hfin
    rw [hpc] at ht
    replace ht : ret = Err.SUCCESS := ht
    subst ht
    obtain ⟨-, a, b⟩ := stepRecv_fin hpc hs
    rw [if_pos rfl, h.fin_got (Nat.le_succ _) hr hf (fun j r' a b c => by
      have : j = g.d := by omega
      subst this
      rw [hr0] at c
      simp only [Option.some.injEq] at c
      subst c
      exact hdead) hpc] at a
    exact Or.inr ⟨b, a⟩
  · have hnf : ∀ ori re ret sz bytes, s.rpc ≠ .fin ori re ret sz bytes := fun a b c d e he => hfin ⟨a, b, c, d, e, he⟩
    refine Or.inl ⟨?_, (hfr.2.2.2.2.2.2.2.2 hnf).1, (hfr.2.2.2.2.2.2.2.2 hnf).2.1, hd1 hnf⟩
    have hrd0 : ∀ {l : L} {r : Res} {i : Nat}, At hash s g l g.d r i → r = r0 := by
      intro l r i hat
      have := hat.res
      rw [hr0] at this
      simp only [Option.some.injEq] at this
      exact this.symm
    cases e : s.rpc with
    | loadR len =>
      unfold stepRecv at hs
      rw [e] at hs ht
      simp only [Option.some.injEq] at hs
      subst hs
      exact ht
    | loadW len ori =>
      rw [e] at hri ht
      obtain ⟨hx, ho⟩ := hri
      unfold stepRecv at hs
      rw [e] at hs
      simp only [Option.some.injEq] at hs
      subst hs
      show Track2 F len0 _ g.d (loopHead ⟨len, ori, ori, s.wcur, 0, 0⟩)
      rcases loopHead_cases ⟨len, ori, ori, s.wcur, 0, 0⟩ with ⟨e1, -⟩ | ⟨-, e1⟩
      · exfalso
        simp only at e1
        rw [ho, h.rcur, h.wcur] at e1
        have := h.room
        have := h.window hr0 (Nat.le_refl _)
        have := nodes_pos r0.msg.length
        have := ring_inj (L := s.conf.n) (x := pos g.rs g.d) (y := s.tot) (by omega) (by omega) e1
        omega
      · rw [e1]
        refine ⟨ht.1, ⟨s.resv.length, ?_, Nat.le_refl _, ?_⟩, fun _ => ⟨rfl, ht.2⟩⟩
        · show g.d + 2 ≤ s.resv.length
          rw [h.len]; exact idx_lt hr
        · show s.wcur = offset s.resv s.resv.length % s.conf.n
          rw [h.wcur, h.off, h.tot, h.len]
    | flag l =>
      rw [e] at hri ht
      obtain ⟨q, r, i, hat⟩ := hri
      obtain ⟨t1, t2, t3⟩ := ht
      unfold stepRecv at hs
      rw [e] at hs
      simp only at hs
      rcases hat.which hr hf with rfl | ⟨rfl, rfl, rfl⟩
      · obtain rfl := hrd0 hat
        have hx := hat.xeq
        by_cases hi : i = 0
        · subst hi
          rw [Nat.add_zero] at hx
          have h0 := h.head0 hr0 (Nat.le_refl _) (Nat.le_of_eq hx)
          have h5 : 5 ≤ lateCnt r.msg := by unfold lateCnt; omega
          obtain ⟨-, c1, c2⟩ := hdead
          rw [← hx, ← hat.rb, if_neg (by omega), if_neg (by omega), if_pos c1] at h0
          obtain ⟨u1, u2⟩ := t3 (by rw [h.off, ← hx]; exact hat.rb)
          rw [if_neg (by rw [h0]; simp), if_neg (by rw [u1]; simp)] at hs
          simp only [Option.some.injEq] at hs
          subst hs
          exact ⟨t1, t2, u2, hnow⟩
        · have hh := h.headi hr0 (Nat.le_refl _) hdead.2.2 (i := i) (by omega) hat.ilt (by omega)
          rw [← hx, ← hat.rb] at hh
          rw [if_pos (by rw [hh])] at hs
          simp only [Option.some.injEq] at hs
          subst hs
          exact ⟨t1, t2⟩
      · have hh := h.full_head hat hf
        rw [if_pos (by rw [hh])] at hs
        simp only [Option.some.injEq] at hs
        subst hs
        exact ⟨t1, t2⟩
    | flag2 l =>
      rw [e] at hri ht
      obtain ⟨q, r, i, hat, hi0⟩ := hri
      obtain ⟨t1, t2⟩ := ht
      unfold stepRecv at hs
      rw [e] at hs
      simp only at hs
      rcases hat.which hr hf with rfl | ⟨rfl, rfl, rfl⟩
      · obtain rfl := hrd0 hat
        have hi : i ≠ 0 := fun hi => not_dead (hi0 hi) hdead
        have hx := hat.xeq
        have hh := h.headi hr0 (Nat.le_refl _) hdead.2.2 (i := i) (by omega) hat.ilt (by omega)
        rw [← hx, ← hat.rb] at hh
        rw [if_pos (by rw [hh]; simp)] at hs
        simp only [Option.some.injEq] at hs
        subst hs
        exact ⟨t1, t2⟩
      · have hh := h.full_head hat hf
        rw [if_neg (by rw [hh]; simp), if_neg (by rw [hat.ret]; simp)] at hs
        simp only [Option.some.injEq] at hs
        subst hs
        exact t1
    | skip l =>
      rw [e] at hri ht
      obtain ⟨q, r, i, hat, hi⟩ := hri
      unfold stepRecv at hs
      rw [e] at hs
      simp only [Option.some.injEq] at hs
      rcases hat.which hr hf with rfl | ⟨-, h0, -⟩
      · rw [← hs]
        exact far_next h hat ht.1 ht.2 (l1 := l.skip s.conf.n) rfl rfl rfl rfl rfl rfl
      · omega
    | fft l now' =>
      rw [e] at hri ht
      obtain ⟨t1, t2, t3, t4⟩ := ht
      unfold stepRecv at hs
      rw [e] at hs
      simp only at hs
      rw [if_neg (by rw [t3]; exact hF), if_pos (by rw [t3]; exact t4)] at hs
      simp only [Option.some.injEq] at hs
      subst hs
      exact ⟨t1, t2⟩
    | seqTO l =>
      rw [e] at ht
      unfold stepRecv at hs
      rw [e] at hs
      simp only [Option.some.injEq] at hs
      subst hs
      exact ht
    | skipTO l =>
      rw [e] at hri ht
      obtain ⟨q, r, l0, hat, hdq, rfl⟩ := hri
      unfold stepRecv at hs
      rw [e] at hs
      simp only [Option.some.injEq] at hs
      rcases hat.which hr hf with rfl | ⟨rfl, -, rfl⟩
      · rw [← hs]
        exact far_next h hat ht.1 ht.2 (l1 := ({ l0 with tseq := r.seq } : L).skip s.conf.n) rfl rfl rfl rfl rfl rfl
      · exact absurd hdq (not_dead hf)
    | size l =>
      rw [e] at hri ht
      obtain ⟨q, r, hat, hfq⟩ := hri
      replace ht : l.len = len0 := ht
      rcases hat.which hr hf with rfl | ⟨rfl, -, rfl⟩
      · obtain rfl := hrd0 hat
        exact absurd hdead (not_dead hfq)
      · rw [h.size_step hat hf (by rw [ht]; exact hlen) e hs]
        trivial
    | seq0 l => exact htk _ (take_step h hs (by rw [e]; trivial) hnf)
    | clrSeq l cs re => exact htk _ (take_step h hs (by rw [e]; trivial) hnf)
    | clrFlag l cs re => exact htk _ (take_step h hs (by rw [e]; trivial) hnf)
    | clrSet l cs re => exact htk _ (take_step h hs (by rw [e]; trivial) hnf)
    | num l re => exact htk _ (take_step h hs (by rw [e]; trivial) hnf)
    | copy l re sz acc => exact htk _ (take_step h hs (by rw [e]; trivial) hnf)
    | check l re acc => exact htk _ (take_step h hs (by rw [e]; trivial) hnf)
    | fin ori re ret sz bytes => exact absurd e (hnf _ _ _ _ _)
    | idle => rw [e] at ht; exact absurd ht id
    | seqT _ _ => rw [e] at ht; exact absurd ht id
    | flagT _ _ => rw [e] at ht; exact absurd ht id
    | skipBad _ => rw [e] at ht; exact absurd ht id

theorem offset_append {resv : List Msg} (x : List Msg) {j : Nat} (h : j ≤ resv.length) : offset (resv ++ x) j = offset resv j := by
  unfold offset
  rw [List.take_append_of_le_length h]

theorem far_mono {s s1 : St} {d : Nat} {l : L} {x : List Msg} (h1 : s1.resv = s.resv ++ x) (h2 : s1.conf = s.conf)
    (h : Far s d l) : Far s1 d l := by
  obtain ⟨e, a, b, c⟩ := h
  exact ⟨e, a, by rw [h1, List.length_append]; omega, by rw [h1, h2, offset_append _ b]; exact c⟩

theorem track2_mono {F len0 : Nat} {s s1 : St} {d : Nat} {x : List Msg} (hd : d ≤ s.resv.length) (h1 : s1.resv = s.resv ++ x)
    (h2 : s1.conf = s.conf) (h3 : s1.fft = s.fft) {pc : RPC} (h : Track2 F len0 s d pc) : Track2 F len0 s1 d pc := by
  cases pc with
  | loadR len => exact ⟨h.1, by rw [h3]; exact h.2⟩
  | loadW len _ => exact ⟨h.1, by rw [h3]; exact h.2⟩
  | flag l => exact ⟨h.1, far_mono h1 h2 h.2.1, by rw [h1, h2, h3, offset_append _ hd]; exact h.2.2⟩
  | flag2 l => exact ⟨h.1, far_mono h1 h2 h.2⟩
  | skip l => exact ⟨h.1, far_mono h1 h2 h.2⟩
  | fft l now => exact ⟨h.1, far_mono h1 h2 h.2.1, by rw [h3]; exact h.2.2.1, by rw [h2]; exact h.2.2.2⟩
  | seqTO l => exact ⟨h.1, far_mono h1 h2 h.2⟩
  | skipTO l => exact ⟨h.1, far_mono h1 h2 h.2⟩
  | _ => exact h

theorem track2_run {hash : List Byte → Nat} {len0 F : Nat} {m : Msg} (hlen : m.length ≤ len0) (hF : F ≠ 0) :
    ∀ {es : List Ev} {s s1 : St} {g : G},
    CInv hash s g → Lost s g.d → s.resv[g.d + 1]? = some m → g.d + 1 ∈ s.fin → Track2 F len0 s g.d s.rpc → Along Legal hash s es →
    (∀ e ∈ es, Late F s.conf.timeout e) →
    run hash s es = some s1 → s1.codes.length = s.codes.length + 1 →
    s1.codes = s.codes ++ [Err.SUCCESS] ∧ s1.got = s.got ++ [m] := by
  intro es
  induction es with
  | nil =>
    intro s s1 g h _ _ _ _ _ _ hs hc
    simp only [run, Option.some.injEq] at hs
    subst hs
    omega
  | cons e es ih =>
    intro s s1 g h hlo hm hf ht hl hla hs hc
    simp only [run] at hs
    split at hs
    · cases hs
    · rename_i s2 h2
      obtain ⟨g2, i2, d2, d2'⟩ := inv_step h hl.1 h2
      have hlo2 := lost_step h hlo h2
      by_cases hr : ∃ now, e = .rstep now
      · obtain ⟨now, rfl⟩ := hr
        obtain ⟨rd, hrd, rfl⟩ := h.msgAt hm
        obtain ⟨-, f2, f3, -, f5, -⟩ := stepRecv_frame h2
        rcases track2_rstep h d2 hlo hrd (h.fullAt hrd hf) hlen hF (hla _ List.mem_cons_self) ht h2 with ⟨a1, a2, a3, a4⟩ | ⟨a1, a2⟩
        · have := ih i2 (by rw [a4]; exact hlo2) (by rw [a4, f3]; exact hm) (by rw [a4, f2]; exact hf) (by rw [a4]; exact a1) (hl.2 s2 h2)
            (fun e he => by rw [f5]; exact hla e (List.mem_cons_of_mem _ he)) hs (by rw [a2]; exact hc)
          rw [a2, a3] at this
          exact this
        · have hg := (grow_run hs).2 (by rw [hc, a1, List.length_append]; rfl)
          rw [a1, a2] at hg
          exact hg
      · by_cases hv : ∃ len, e = .recv len
        · obtain ⟨len, rfl⟩ := hv
          simp only [step] at h2
          split at h2
          · rename_i hi
            rw [hi] at ht
            exact absurd ht id
          · cases h2
        · obtain ⟨a1, a2, a3, a6, a7, ⟨lf, a4⟩, ⟨lr, a5⟩, -⟩ := other_step (fun now he => hr ⟨now, he⟩) (fun len he => hv ⟨len, he⟩) h2
          have e2 := d2' (fun now he => hr ⟨now, he⟩)
          have hlt : g.d + 1 < s.resv.length := (List.getElem?_eq_some_iff.1 hm).1
          have := ih i2 (by rw [e2]; exact hlo2) (by rw [e2, a5, List.getElem?_append_left hlt]; exact hm)
            (by rw [e2, a4]; exact List.mem_append_left _ hf)
            (by rw [a1, e2]; exact track2_mono (by omega) a5 a7 a6 ht) (hl.2 s2 h2)
            (fun e he => by rw [a7]; exact hla e (List.mem_cons_of_mem _ he)) hs (by rw [a2]; exact hc)
          rw [a2, a3] at this
          exact this

/-! ### A call before the write timeout has passed -/

/-- Where the receiver can be. -/
def Track3 (P : Nat → Prop) (F : Nat) (s : St) (d : Nat) : RPC → Prop
  | .loadR _ => s.fft = F
  | .loadW _ _ => s.fft = F
  | .flag l => l.rb = offset s.resv d % s.conf.n ∧ l.tseq = 0 ∧ s.fft = F
  | .fft l now => l.rb = offset s.resv d % s.conf.n ∧ s.fft = F ∧ P now
  | .fin _ re ret _ _ => re = offset s.resv d % s.conf.n ∧ ret = Err.NO_DATA ∧ (if F = 0 then P s.fft else s.fft = F)
  | _ => False

theorem track3_rstep {hash : List Byte → Nat} {s s1 : St} {g g1 : G} {now F : Nat} {P : Nat → Prop} (h : CInv hash s g)
    (hd1 : (∀ ori re ret sz bytes, s.rpc ≠ .fin ori re ret sz bytes) → g1.d = g.d)
    (hlost : Lost s g.d) (hP : P now) (hE : F ≠ 0 → ∀ now, P now → ¬ absDiff now F > s.conf.timeout)
    (ht : Track3 P F s g.d s.rpc) (hs : stepRecv hash s now = some s1) :
    (Track3 P F s1 g.d s1.rpc ∧ s1.codes = s.codes ∧ s1.got = s.got ∧ g1.d = g.d) ∨
    (s1.codes = s.codes ++ [Err.NO_DATA] ∧ s1.got = s.got ∧ s1.rcur = s.rcur ∧ s1.rpc = .idle ∧ if F = 0 then P s1.fft else s1.fft = F) := by
  have hfr := stepRecv_frame hs
  have hri := h.rpc
  obtain ⟨r0, hr0, hdead⟩ := h.dead hlost
  by_cases hfin : ∃ ori re ret sz bytes, s.rpc = .fin ori re ret sz bytes
  · obtain ⟨ori, re, ret, sz, bytes, hpc⟩ := hfin
    rw [hpc] at ht
    obtain ⟨t1, rfl, t3⟩ := ht
    unfold stepRecv at hs
    rw [hpc] at hs hri
    simp only [Option.some.injEq] at hs
    subst hs
    refine Or.inr ⟨rfl, rfl, ?_, rfl, t3⟩
    show (if ori ≠ re then re else s.rcur) = s.rcur
    have : ori = re := by rw [hri.1, t1, h.off]; exact h.rcur
    rw [if_neg (fun hn => hn this)]
  · have hnf : ∀ ori re ret sz bytes, s.rpc ≠ .fin ori re ret sz bytes := fun a b c d e he => hfin ⟨a, b, c, d, e, he⟩
    refine Or.inl ⟨?_, (hfr.2.2.2.2.2.2.2.2 hnf).1, (hfr.2.2.2.2.2.2.2.2 hnf).2.1, hd1 hnf⟩
    cases e : s.rpc with
    | loadR len =>
      unfold stepRecv at hs
      rw [e] at hs ht
      simp only [Option.some.injEq] at hs
      subst hs
      exact ht
    | loadW len ori =>
      rw [e] at hri ht
      obtain ⟨hx, ho⟩ := hri
      unfold stepRecv at hs
      rw [e] at hs
      simp only [Option.some.injEq] at hs
      subst hs
      show Track3 P F _ g.d (loopHead ⟨len, ori, ori, s.wcur, 0, 0⟩)
      rcases loopHead_cases ⟨len, ori, ori, s.wcur, 0, 0⟩ with ⟨e1, -⟩ | ⟨-, e1⟩
      · exfalso
        simp only at e1
        rw [ho, h.rcur, h.wcur] at e1
        have := h.room
        have := h.window hr0 (Nat.le_refl _)
        have := nodes_pos r0.msg.length
        have := ring_inj (L := s.conf.n) (x := pos g.rs g.d) (y := s.tot) (by omega) (by omega) e1
        omega
      · rw [e1]
        refine ⟨?_, rfl, ht⟩
        show ori = offset s.resv g.d % s.conf.n
        rw [ho, h.off]; exact h.rcur
    | flag l =>
      rw [e] at hri ht
      obtain ⟨q, r, i, hat⟩ := hri
      obtain ⟨t1, t2, t3⟩ := ht
      unfold stepRecv at hs
      rw [e] at hs
      simp only at hs
      have hx : g.x = pos g.rs g.d := by
        have a1 := h.xlo
        have a2 := h.xhi
        have a3 := h.room
        apply ring_inj (L := s.conf.n) (by omega) (by omega)
        rw [← hat.rb, t1, h.off]
      have h0 := h.head0 hr0 (Nat.le_refl _) (Nat.le_of_eq hx)
      have h5 : 5 ≤ lateCnt r0.msg := by unfold lateCnt; omega
      obtain ⟨-, c1, c2⟩ := hdead
      rw [← hx, ← hat.rb, if_neg (by omega), if_neg (by omega), if_pos c1] at h0
      rw [if_neg (by rw [h0]; simp), if_neg (by rw [t2]; simp)] at hs
      simp only [Option.some.injEq] at hs
      subst hs
      exact ⟨t1, t3, hP⟩
    | fft l now' =>
      rw [e] at hri ht
      obtain ⟨t1, t2, t3⟩ := ht
      obtain ⟨q, r, hat⟩ := hri
      unfold stepRecv at hs
      rw [e] at hs
      simp only at hs
      by_cases hF : F = 0
      · rw [if_pos (by rw [t2]; exact hF)] at hs
        simp only [Option.some.injEq] at hs
        subst hs
        exact ⟨t1, by rw [hat.ret]; rfl, by rw [if_pos hF]; exact t3⟩
      · rw [if_neg (by rw [t2]; exact hF), if_neg (by rw [t2]; exact hE hF now' t3)] at hs
        simp only [Option.some.injEq] at hs
        subst hs
        exact ⟨t1, by rw [hat.ret]; rfl, by rw [if_neg hF]; exact t2⟩
    | fin ori re ret sz bytes => exact absurd e (hnf _ _ _ _ _)
    | _ => rw [e] at ht; exact absurd ht id

/-- When the receiver is outside at the beginning and at the end and no call has returned, it has made no call. -/
theorem idle_run {hash : List Byte → Nat} : ∀ {es : List Ev} {s s1 : St}, s.rpc = .idle → run hash s es = some s1 →
    s1.rpc = .idle → s1.codes.length = s.codes.length →
    s1.codes = s.codes ∧ s1.got = s.got ∧ s1.rcur = s.rcur ∧ s1.fft = s.fft ∧ ∀ e ∈ es, ∀ now, e ≠ .rstep now := by
  have hcall : ∀ {es : List Ev} {s s1 : St}, s.rpc ≠ .idle → run hash s es = some s1 → s1.rpc = .idle →
      s.codes.length < s1.codes.length := by
    intro es
    induction es with
    | nil =>
      intro s s1 hi hs hi1
      simp only [run, Option.some.injEq] at hs
      subst hs
      exact absurd hi1 hi
    | cons e es ih =>
      intro s s1 hi hs hi1
      simp only [run] at hs
      split at hs
      · cases hs
      · rename_i s2 h2
        have hg := (grow_run hs).1
        rcases grow_step h2 with ⟨c, -⟩ | c
        · have hi2 : s2.rpc ≠ .idle := by
            cases e with
            | rstep now =>
              by_cases hfin : ∃ ori re ret sz bytes, s.rpc = .fin ori re ret sz bytes
              · obtain ⟨ori, re, ret, sz, bytes, hpc⟩ := hfin
                have := (stepRecv_fin hpc h2).2.2
                rw [c] at this
                have := congrArg List.length this
                simp at this
              · exact stepRecv_not_idle (fun a b c d e he => hfin ⟨a, b, c, d, e, he⟩) h2
            | recv len =>
              simp only [step] at h2
              split at h2
              · rename_i hi2; exact absurd hi2 hi
              · cases h2
            | call t m => rw [(other_step (by nofun) (by nofun) h2).1]; exact hi
            | send t w => rw [(other_step (by nofun) (by nofun) h2).1]; exact hi
            | crash t => rw [(other_step (by nofun) (by nofun) h2).1]; exact hi
          have := ih hi2 hs hi1
          rw [c] at this
          exact this
        · omega
  intro es
  induction es with
  | nil =>
    intro s s1 _ hs _ _
    simp only [run, Option.some.injEq] at hs
    subst hs
    exact ⟨rfl, rfl, rfl, rfl, nofun⟩
  | cons e es ih =>
    intro s s1 hi hs hi1 hc
    simp only [run] at hs
    split at hs
    · cases hs
    · rename_i s2 h2
      cases e with
      | rstep now =>
        simp only [step, stepRecv, hi] at h2
        cases h2
      | recv len =>
        simp only [step] at h2
        split at h2
        · simp only [Option.some.injEq] at h2
          have := hcall (by rw [← h2]; simp [St.to]) hs hi1
          rw [← h2] at this
          simp only [St.to] at this
          omega
        · rename_i hn; exact absurd hi hn
      | call t m =>
        have hf := other_step (by nofun) (by nofun) h2
        have := ih (by rw [hf.1]; exact hi) hs hi1 (by rw [hf.2.1]; exact hc)
        rw [hf.2.1, hf.2.2.1, hf.2.2.2.1, rcur_other (by nofun) (by nofun) h2] at this
        refine ⟨this.1, this.2.1, this.2.2.1, this.2.2.2.1, fun e he => ?_⟩
        rcases List.mem_cons.1 he with rfl | he
        · nofun
        · exact this.2.2.2.2 e he
      | send t w =>
        have hf := other_step (by nofun) (by nofun) h2
        have := ih (by rw [hf.1]; exact hi) hs hi1 (by rw [hf.2.1]; exact hc)
        rw [hf.2.1, hf.2.2.1, hf.2.2.2.1, rcur_other (by nofun) (by nofun) h2] at this
        refine ⟨this.1, this.2.1, this.2.2.1, this.2.2.2.1, fun e he => ?_⟩
        rcases List.mem_cons.1 he with rfl | he
        · nofun
        · exact this.2.2.2.2 e he
      | crash t =>
        have hf := other_step (by nofun) (by nofun) h2
        have := ih (by rw [hf.1]; exact hi) hs hi1 (by rw [hf.2.1]; exact hc)
        rw [hf.2.1, hf.2.2.1, hf.2.2.2.1, rcur_other (by nofun) (by nofun) h2] at this
        refine ⟨this.1, this.2.1, this.2.2.1, this.2.2.2.1, fun e he => ?_⟩
        rcases List.mem_cons.1 he with rfl | he
        · nofun
        · exact this.2.2.2.2 e he

theorem d_run {hash : List Byte → Nat} : ∀ {es : List Ev} {s s1 : St} {g : G}, CInv hash s g → Along Legal hash s es →
    (∀ e ∈ es, ∀ now, e ≠ .rstep now) → run hash s es = some s1 → ∃ g1, CInv hash s1 g1 ∧ g1.d = g.d := by
  intro es
  induction es with
  | nil =>
    intro s s1 g h _ _ hs
    simp only [run, Option.some.injEq] at hs
    subst hs
    exact ⟨g, h, rfl⟩
  | cons e es ih =>
    intro s s1 g h ha hn hs
    simp only [run] at hs
    split at hs
    · cases hs
    · rename_i s2 h2
      obtain ⟨g2, i2, -, d2⟩ := inv_step h ha.1 h2
      obtain ⟨g3, i3, d3⟩ := ih i2 (ha.2 s2 h2) (fun e he => hn e (List.mem_cons_of_mem _ he)) hs
      exact ⟨g3, i3, by rw [d3, d2 (hn e List.mem_cons_self)]⟩

theorem track3_mono {P : Nat → Prop} {F : Nat} {s s1 : St} {d : Nat} {x : List Msg} (hd : d ≤ s.resv.length) (h1 : s1.resv = s.resv ++ x)
    (h2 : s1.conf = s.conf) (h3 : s1.fft = s.fft) {pc : RPC} (h : Track3 P F s d pc) : Track3 P F s1 d pc := by
  cases pc with
  | loadR len => show s1.fft = F; rw [h3]; exact h
  | loadW len _ => show s1.fft = F; rw [h3]; exact h
  | flag l => exact ⟨by rw [h1, h2, offset_append _ hd]; exact h.1, h.2.1, by rw [h3]; exact h.2.2⟩
  | fft l now => exact ⟨by rw [h1, h2, offset_append _ hd]; exact h.1, by rw [h3]; exact h.2.1, h.2.2⟩
  | fin _ re ret _ _ => exact ⟨by rw [h1, h2, offset_append _ hd]; exact h.1, h.2.1, by rw [h3]; exact h.2.2⟩
  | _ => exact h

/-- The clock of a step of the receiver. -/
def Clock (P : Nat → Prop) : Ev → Prop
  | .rstep now => P now
  | _ => True

/-- Up to the end of the call. -/
theorem track3_run {hash : List Byte → Nat} {F : Nat} {P : Nat → Prop} :
    ∀ {es : List Ev} {s s1 : St} {g : G}, (F ≠ 0 → ∀ now, P now → ¬ absDiff now F > s.conf.timeout) →
    CInv hash s g → Lost s g.d → Track3 P F s g.d s.rpc → Along Legal hash s es → (∀ e ∈ es, Clock P e) →
    run hash s es = some s1 → s1.codes.length = s.codes.length + 1 → s1.rpc = .idle →
    s1.codes = s.codes ++ [Err.NO_DATA] ∧ s1.got = s.got ∧ s1.rcur = s.rcur ∧ (if F = 0 then P s1.fft else s1.fft = F) ∧
      ∃ g1, CInv hash s1 g1 ∧ g1.d = g.d := by
  intro es
  induction es with
  | nil =>
    intro s s1 g _ h _ _ _ _ hs hc
    simp only [run, Option.some.injEq] at hs
    subst hs
    omega
  | cons e es ih =>
    intro s s1 g hE h hlo ht hl hla hs hc hi1
    simp only [run] at hs
    split at hs
    · cases hs
    · rename_i s2 h2
      obtain ⟨g2, i2, d2, d2'⟩ := inv_step h hl.1 h2
      have hlo2 := lost_step h hlo h2
      by_cases hr : ∃ now, e = .rstep now
      · obtain ⟨now, rfl⟩ := hr
        have hfr := stepRecv_frame h2
        obtain ⟨-, f2, f3, -, f5, -, -, f8, -⟩ := hfr
        rcases track3_rstep h d2 hlo (hla _ List.mem_cons_self) hE ht h2 with ⟨a1, a2, a3, a4⟩ | ⟨a1, a2, a3, a4, a5⟩
        · have hrc : s2.rcur = s.rcur := by
            rw [i2.rcur, h.rcur, a4, ← i2.off, ← h.off, f3, f5]
          have := ih (by rw [f5]; exact hE) i2 (by rw [a4]; exact hlo2) (by rw [a4]; exact a1) (hl.2 s2 h2)
            (fun e he => hla e (List.mem_cons_of_mem _ he)) hs (by rw [a2]; exact hc) hi1
          rw [a2, a3, hrc, a4] at this
          exact this
        · have hk := idle_run a4 hs hi1 (by rw [hc, a1, List.length_append]; rfl)
          rw [a1, a2, a3] at hk
          refine ⟨hk.1, hk.2.1, hk.2.2.1, by rw [hk.2.2.2.1]; exact a5, ?_⟩
          have hfr := h.front
          have e3 : g.d = g2.d := i2.front_eq ⟨by rw [f3]; exact hfr.le, by rw [a3, f3, f5]; exact hfr.cur, by rw [f3, f8]; exact hfr.lo,
            by rw [f3, f5, f8]; exact hfr.hi⟩
          obtain ⟨g3, i3, d3⟩ := d_run i2 (hl.2 s2 h2) hk.2.2.2.2 hs
          exact ⟨g3, i3, by rw [d3, e3]⟩
      · by_cases hv : ∃ len, e = .recv len
        · obtain ⟨len, rfl⟩ := hv
          simp only [step] at h2
          split at h2
          · rename_i hi
            rw [hi] at ht
            exact absurd ht id
          · cases h2
        · obtain ⟨a1, a2, a3, a6, a7, ⟨lf, a4⟩, ⟨lr, a5⟩, -⟩ := other_step (fun now he => hr ⟨now, he⟩) (fun len he => hv ⟨len, he⟩) h2
          have e2 := d2' (fun now he => hr ⟨now, he⟩)
          have hrc : s2.rcur = s.rcur := by
            rw [i2.rcur, h.rcur, e2, ← i2.off, ← h.off, a5, a7, offset_append _ (by rw [h.len]; exact h.dle)]
          have := ih (by rw [a7]; exact hE) i2 (by rw [e2]; exact hlo2) (by rw [a1, e2]; exact track3_mono (by rw [h.len]; exact h.dle) a5 a7 a6 ht)
            (hl.2 s2 h2) (fun e he => hla e (List.mem_cons_of_mem _ he)) hs (by rw [a2]; exact hc) hi1
          rw [a2, a3, hrc, e2] at this
          exact this

end Verif.Mem.Conc
