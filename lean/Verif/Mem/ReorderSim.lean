import Verif.Mem.Reorder
import Verif.Mem.ConcDead

/-! When no read of the data area is satisfied before the read of the flag, a run is a run of the interleaved model. -/
namespace Verif.Mem.Reorder

open Conc

set_option maxRecDepth 10000

/-- The receiver has read the flag of the node and may take the block. -/
def active : RPC → Option L
  | .flag2 l | .size l | .seq0 l | .clrSeq l _ _ | .clrFlag l _ _ | .clrSet l _ _ | .num l _ | .copy l _ _ _ | .check l _ _ => some l
  | _ => none

theorem active_loopHead (l : L) : active (loopHead l) = none := by unfold loopHead; split <;> rfl

theorem active_clrHead (l : L) (cs re : Nat) : active (clrHead l cs re) = some l := by unfold clrHead; split <;> rfl

theorem active_copyHead (l : L) (re sz : Nat) (acc : List Byte) : active (copyHead l re sz acc) = some l := by
  unfold copyHead; split <;> rfl

/-- An access of the receiver does not change the data area; a block is taken after its flag was read. -/
theorem recv_active {hash : List Byte → Nat} {s s1 : St} {now : Nat} (hs : Conc.stepRecv hash s now = some s1) :
    s1.data = s.data ∧ ∀ l, active s1.rpc = some l → (s.rpc = .flag l ∧ s1.rpc = .flag2 l) ∨ (active s.rpc = some l ∧ readsFlag s.rpc = false) := by
  have fin : ∀ {p : RPC} {s2 : St}, some (s2.to p) = some s1 → s2.data = s.data →
      (∀ l, active p = some l → (s.rpc = .flag l ∧ p = .flag2 l) ∨ (active s.rpc = some l ∧ readsFlag s.rpc = false)) →
      s1.data = s.data ∧ ∀ l, active s1.rpc = some l → (s.rpc = .flag l ∧ s1.rpc = .flag2 l) ∨ (active s.rpc = some l ∧ readsFlag s.rpc = false) := by
    intro p s2 h3 h1 h2
    simp only [Option.some.injEq] at h3
    subst h3
    exact ⟨h1, h2⟩
  unfold Conc.stepRecv at hs
  cases hp : s.rpc with
  | idle => rw [hp] at hs; cases hs
  | loadR len =>
    rw [hp] at hs fin
    exact fin hs rfl (fun l h => by cases h)
  | loadW len ori =>
    rw [hp] at hs fin
    exact fin hs rfl (fun l h => by rw [active_loopHead] at h; cases h)
  | flag l =>
    rw [hp] at hs fin
    simp only at hs
    split at hs
    · exact fin hs rfl (fun l' h => by cases h; exact Or.inl ⟨rfl, rfl⟩)
    · split at hs
      · exact fin hs rfl (fun l' h => by cases h)
      · exact fin hs rfl (fun l' h => by cases h)
  | flag2 l =>
    rw [hp] at hs fin
    simp only at hs
    split at hs
    · exact fin hs rfl (fun l' h => by cases h)
    · split at hs
      · exact fin hs rfl (fun l' h => by cases h)
      · exact fin hs rfl (fun l' h => by cases h; exact Or.inr ⟨rfl, rfl⟩)
  | skip l =>
    rw [hp] at hs fin
    exact fin hs rfl (fun l h => by rw [active_loopHead] at h; cases h)
  | seqT l now' =>
    rw [hp] at hs fin
    exact fin hs rfl (fun l h => by split at h <;> cases h)
  | flagT l now' =>
    rw [hp] at hs fin
    exact fin hs rfl (fun l h => by split at h <;> cases h)
  | fft l now' =>
    rw [hp] at hs fin
    simp only at hs
    split at hs
    · exact fin hs rfl (fun l' h => by cases h)
    · split at hs
      · exact fin hs rfl (fun l' h => by cases h)
      · exact fin hs rfl (fun l' h => by cases h)
  | seqTO l =>
    rw [hp] at hs fin
    exact fin hs rfl (fun l h => by cases h)
  | skipTO l =>
    rw [hp] at hs fin
    exact fin hs rfl (fun l h => by rw [active_loopHead] at h; cases h)
  | size l =>
    rw [hp] at hs fin
    simp only at hs
    split at hs
    · exact fin hs rfl (fun l' h => by cases h)
    · split at hs
      · exact fin hs rfl (fun l' h => by cases h)
      · exact fin hs rfl (fun l' h => by cases h; exact Or.inr ⟨rfl, rfl⟩)
  | skipBad l =>
    rw [hp] at hs fin
    exact fin hs rfl (fun l h => by rw [active_loopHead] at h; cases h)
  | seq0 l =>
    rw [hp] at hs fin
    exact fin hs rfl (fun l' h => by rw [active_clrHead] at h; exact Or.inr ⟨h, rfl⟩)
  | clrSeq l cs re =>
    rw [hp] at hs fin
    exact fin hs rfl (fun l' h => by split at h <;> exact Or.inr ⟨h, rfl⟩)
  | clrFlag l cs re =>
    rw [hp] at hs fin
    exact fin hs rfl (fun l' h => by split at h <;> exact Or.inr ⟨h, rfl⟩)
  | clrSet l cs re =>
    rw [hp] at hs fin
    exact fin hs rfl (fun l' h => by rw [active_clrHead] at h; exact Or.inr ⟨h, rfl⟩)
  | num l re =>
    rw [hp] at hs fin
    simp only at hs
    split at hs
    · exact fin hs rfl (fun l h => by rw [active_loopHead] at h; cases h)
    · exact fin hs rfl (fun l' h => by rw [active_copyHead] at h; exact Or.inr ⟨h, rfl⟩)
  | copy l re sz acc =>
    rw [hp] at hs fin
    exact fin hs rfl (fun l' h => by rw [active_copyHead] at h; exact Or.inr ⟨h, rfl⟩)
  | check l re acc =>
    rw [hp] at hs fin
    exact fin hs rfl (fun l h => by cases h)
  | fin ori re ret sz bytes =>
    rw [hp] at hs
    simp only [Option.some.injEq] at hs
    subst hs
    exact ⟨rfl, fun l h => by cases h⟩

/-- Where the block starts. -/
theorem active_at {hash : List Byte → Nat} {s : St} {g : G} (h : CInv hash s g) {l : L} (ha : active s.rpc = some l) :
    ∃ q r i, g.rs[q]? = some r ∧ g.d ≤ q ∧ i < nodes r.msg.length ∧ l.rb = (pos g.rs q + i) % s.conf.n ∧ (i = 0 → Full hash s.conf.n g q r) := by
  have hr := h.rpc
  cases hp : s.rpc with
  | flag2 l' =>
    rw [hp] at hr ha
    cases ha
    obtain ⟨q, r, i, hat, hf⟩ := hr
    exact ⟨q, r, i, hat.res, hat.dq, hat.ilt, by rw [hat.rb, hat.xeq], hf⟩
  | size l' =>
    rw [hp] at hr ha
    cases ha
    obtain ⟨q, r, hat, hf⟩ := hr
    exact ⟨q, r, 0, hat.res, hat.dq, hat.ilt, by rw [hat.rb, hat.xeq], fun _ => hf⟩
  | seq0 l' =>
    rw [hp] at hr ha
    cases ha
    obtain ⟨q, r, hat⟩ := hr
    exact ⟨q, r, 0, hat.res, hat.dq, nodes_pos _, hat.rb, fun _ => hat.full⟩
  | clrSeq l' _ _ =>
    rw [hp] at hr ha
    cases ha
    obtain ⟨q, r, i, hat, -⟩ := hr
    exact ⟨q, r, 0, hat.res, hat.dq, nodes_pos _, hat.rb, fun _ => hat.full⟩
  | clrFlag l' _ _ =>
    rw [hp] at hr ha
    cases ha
    obtain ⟨q, r, i, hat, -⟩ := hr
    exact ⟨q, r, 0, hat.res, hat.dq, nodes_pos _, hat.rb, fun _ => hat.full⟩
  | clrSet l' _ _ =>
    rw [hp] at hr ha
    cases ha
    obtain ⟨q, r, i, hat, -⟩ := hr
    exact ⟨q, r, 0, hat.res, hat.dq, nodes_pos _, hat.rb, fun _ => hat.full⟩
  | num l' _ =>
    rw [hp] at hr ha
    cases ha
    obtain ⟨q, r, hat, -⟩ := hr
    exact ⟨q, r, 0, hat.res, hat.dq, nodes_pos _, hat.rb, fun _ => hat.full⟩
  | copy l' _ _ _ =>
    rw [hp] at hr ha
    cases ha
    obtain ⟨q, r, hat, -⟩ := hr
    exact ⟨q, r, 0, hat.res, hat.dq, nodes_pos _, hat.rb, fun _ => hat.full⟩
  | check l' _ _ =>
    rw [hp] at hr ha
    cases ha
    obtain ⟨q, r, hat, -⟩ := hr
    exact ⟨q, r, 0, hat.res, hat.dq, nodes_pos _, hat.rb, fun _ => hat.full⟩
  | _ => rw [hp] at ha; cases ha

/-- Reservations that start at the node of the receiver. -/
theorem active_start {hash : List Byte → Nat} {s : St} {g : G} (h : CInv hash s g) {l : L} (ha : active s.rpc = some l) {q : Nat}
    (hd : g.d ≤ q) (hq : q < g.rs.length) (hb : pos g.rs q % s.conf.n = l.rb) : q ∈ s.fin := by
  obtain ⟨q0, r0, i, h1, h2, h3, h4, h5⟩ := active_at h ha
  have hr : g.rs[q]? = some g.rs[q] := List.getElem?_eq_getElem hq
  have w0 := h.window h1 h2
  have w := h.window hr hd
  have hk := nodes_pos g.rs[q].msg.length
  have hroom := h.room
  have he : pos g.rs q = pos g.rs q0 + i := ring_inj (L := s.conf.n) (by omega) (by omega) (by rw [hb, h4])
  have hqq : q = q0 := by
    rcases Nat.lt_trichotomy q q0 with a | a | a
    · have := pos_lt a (Nat.le_of_lt (idx_lt h1)); omega
    · exact a
    · have := pos_le (i := q0 + 1) a (Nat.le_of_lt hq)
      rw [pos_succ h1] at this
      omega
  subst hqq
  exact (h.fin q).2 ⟨r0, h1, h5 (by omega)⟩

/-- Blocks that were complete when the flag was read are in every content since. -/
structure K (hash : List Byte → Nat) (w : W) (g : G) (F : List Nat) : Prop where
  inv : CInv hash w.s g
  last : w.hist[w.now]? = some w.s.data
  len : 0 < w.hist.length
  le : w.seen ≤ w.now
  sub : ∀ q ∈ F, q ∈ w.s.fin
  old : ∀ q r, g.rs[q]? = some r → g.d ≤ q → q ∈ F → ∀ k d, w.seen ≤ k → w.hist[k]? = some d → Block hash w.s.conf.n d (pos g.rs q) r.msg
  act : ∀ l, active w.s.rpc = some l → ∀ q, g.d ≤ q → q < g.rs.length → pos g.rs q % w.s.conf.n = l.rb → q ∈ F

theorem k_init (hash : List Byte → Nat) {conf : Conf} (hc : ConfOK conf) : K hash (W.init conf) G.init [] where
  inv := Conc.inv_init hash hc
  last := rfl
  len := Nat.zero_lt_one
  le := Nat.le_refl _
  sub := fun q h => by cases h
  old := fun q r h => by cases h
  act := fun l h => by cases h

/-- The block that the receiver reads is the same in the contents it may read. -/
theorem same_read {hash : List Byte → Nat} {w : W} {g : G} {F : List Nat} (h : K hash w g F) {k now : Nat} {d : Nat → Byte}
    (hk : w.seen ≤ k) (hd : w.hist[k]? = some d) (hrd : readsData w.s.rpc = true) :
    (Conc.stepRecv hash { w.s with data := d } now).map (fun s => { s with data := w.s.data }) = Conc.stepRecv hash w.s now := by
  have hr := h.inv.rpc
  have key : ∀ {l : L} {q : Nat} {r : Res}, active w.s.rpc = some l → g.rs[q]? = some r → g.d ≤ q → l.rb = pos g.rs q % w.s.conf.n →
      Block hash w.s.conf.n d (pos g.rs q) r.msg ∧ Block hash w.s.conf.n w.s.data (pos g.rs q) r.msg := by
    intro l q r h1 h2 h3 h4
    have hF := h.act l h1 q h3 (idx_lt h2) h4.symm
    exact ⟨h.old q r h2 h3 hF k d hk hd, h.old q r h2 h3 hF _ _ h.le h.last⟩
  unfold Conc.stepRecv
  cases hp : w.s.rpc with
  | size l =>
    rw [hp] at hr
    obtain ⟨q, r, hat, -⟩ := hr
    have hrb : l.rb = pos g.rs q % w.s.conf.n := by rw [hat.rb, hat.xeq, Nat.add_zero]
    obtain ⟨b1, b2⟩ := key (l := l) (by rw [hp]; rfl) hat.res hat.dq hrb
    have e1 := b1.size
    have e2 := b2.size
    rw [← hrb] at e1 e2
    simp only [e1, e2]
    split
    · rfl
    · split <;> rfl
  | num l re =>
    rw [hp] at hr
    obtain ⟨q, r, hat, -⟩ := hr
    obtain ⟨b1, b2⟩ := key (l := l) (by rw [hp]; rfl) hat.res hat.dq hat.rb
    have e1 := b1.size
    have e2 := b2.size
    rw [← hat.rb] at e1 e2
    simp only [e1, e2]
    split <;> rfl
  | copy l re sz acc =>
    rw [hp] at hr
    obtain ⟨q, r, hat, -, hsz, hacc, -⟩ := hr
    subst hsz
    obtain ⟨b1, b2⟩ := key (l := l) (by rw [hp]; rfl) hat.res hat.dq hat.rb
    have hadr := byteAddr_eq (n := w.s.conf.n) (R := pos g.rs q) (h.inv.klt hat.res) hacc
    rw [← hat.rb] at hadr
    have e1 := b1.bytes acc.length hacc
    have e2 := b2.bytes acc.length hacc
    rw [← hadr] at e1 e2
    simp only [e1, e2]
    rfl
  | check l re acc =>
    rw [hp] at hr
    obtain ⟨q, r, hat, -⟩ := hr
    obtain ⟨b1, b2⟩ := key (l := l) (by rw [hp]; rfl) hat.res hat.dq hat.rb
    have e1 := b1.check
    have e2 := b2.check
    rw [← hat.rb] at e1 e2
    simp only [e1, e2]
    rfl
  | _ => rw [hp] at hrd; cases hrd

/-- Old reservations in the next state. -/
theorem older {hash : List Byte → Nat} {s s1 : St} {g g1 : G} (h : CInv hash s g) (h1 : CInv hash s1 g1) {x : List Msg}
    (hx : s1.resv = s.resv ++ x) {q : Nat} (hq : q < g.rs.length) {r1 : Res} (hr : g1.rs[q]? = some r1) :
    ∃ r, g.rs[q]? = some r ∧ r.msg = r1.msg := by
  refine ⟨g.rs[q], List.getElem?_eq_getElem hq, ?_⟩
  have e : s1.resv[q]? = s.resv[q]? := by rw [hx, List.getElem?_append_left (by rw [h.len]; exact hq)]
  rw [h.resv, h1.resv, List.getElem?_map, List.getElem?_map, hr, List.getElem?_eq_getElem hq] at e
  simp only [Option.map_some, Option.some.injEq] at e
  exact e.symm

theorem older_pos {hash : List Byte → Nat} {s s1 : St} {g g1 : G} (h : CInv hash s g) (h1 : CInv hash s1 g1) {x : List Msg}
    (hx : s1.resv = s.resv ++ x) {q : Nat} (hq : q ≤ g.rs.length) : pos g1.rs q = pos g.rs q := by
  rw [← offset_eq, ← offset_eq, ← h.resv, ← h1.resv, hx, offset_append _ (by rw [h.len]; exact hq)]

theorem now_append (w : W) (s : St) (h : 0 < w.hist.length) : ({ w with s := s, hist := w.hist ++ [s.data] } : W).now = w.now + 1 := by
  show (w.hist ++ [s.data]).length - 1 = w.hist.length - 1 + 1
  rw [List.length_append, List.length_singleton]
  omega

/-- When no block is taken nothing is to be kept. -/
theorem k_none {hash : List Byte → Nat} {w : W} {g : G} (inv : CInv hash w.s g) (last : w.hist[w.now]? = some w.s.data)
    (len : 0 < w.hist.length) (le : w.seen ≤ w.now) (ha : active w.s.rpc = none) : K hash w g [] :=
  ⟨inv, last, len, le, (fun q h => by cases h), (fun q r _ _ h => by cases h), (fun l h => by rw [ha] at h; cases h)⟩

theorem get_last {α : Type} (l : List α) (a : α) : (l ++ [a])[l.length]? = some a := by
  rw [List.getElem?_append_right (Nat.le_refl _), Nat.sub_self]; rfl

theorem k_other {hash : List Byte → Nat} {w : W} {g : G} {F : List Nat} (h : K hash w g F) {e : Conc.Ev} {s1 : St}
    (hne : ∀ now, e ≠ .rstep now) (hl : Conc.Legal w.s e) (hs : Conc.step hash w.s e = some s1) :
    ∃ g1 F1, K hash { w with s := s1, hist := w.hist ++ [s1.data] } g1 F1 := by
  obtain ⟨g1, h1, -, hd⟩ := inv_step h.inv hl hs
  replace hd := hd hne
  have hnow := now_append w s1 h.len
  have hlast : (w.hist ++ [s1.data])[w.now + 1]? = some s1.data := by
    have : w.now + 1 = w.hist.length := by have := h.len; show w.hist.length - 1 + 1 = _; omega
    rw [this, get_last]
  by_cases hrec : ∃ len, e = .recv len
  · obtain ⟨len, rfl⟩ := hrec
    simp only [Conc.step] at hs
    split at hs
    · simp only [Option.some.injEq] at hs
      subst hs
      exact ⟨g1, [], k_none h1 (by rw [hnow]; exact hlast) (by simp) (by rw [hnow]; have := h.le; show w.seen ≤ _; omega) rfl⟩
    · cases hs
  · obtain ⟨k1, -, -, -, k5, ⟨lf, k6⟩, ⟨lr, k7⟩, -⟩ := other_step hne (fun len e' => hrec ⟨len, e'⟩) hs
    refine ⟨g1, F, h1, by rw [hnow]; exact hlast, by simp, by rw [hnow]; have := h.le; show w.seen ≤ _; omega, ?_, ?_, ?_⟩
    · intro q hq
      show q ∈ s1.fin
      rw [k6]
      exact List.mem_append_left _ (h.sub q hq)
    · intro q r1 hr1 hq hF k d hk hkd
      have hkd : (w.hist ++ [s1.data])[k]? = some d := hkd
      show Block hash s1.conf.n d (pos g1.rs q) r1.msg
      by_cases hlt : k < w.hist.length
      · rw [List.getElem?_append_left hlt] at hkd
        obtain ⟨r0, a1, a2⟩ := (h.inv.fin q).1 (h.sub q hF)
        obtain ⟨r, b1, b2⟩ := older h.inv h1 k7 (idx_lt a1) hr1
        rw [older_pos h.inv h1 k7 (Nat.le_of_lt (idx_lt b1)), ← b2, k5]
        exact h.old q r b1 (by rw [← hd]; exact hq) hF k d hk hkd
      · have hk2 := (List.getElem?_eq_some_iff.1 hkd).1
        rw [List.length_append, List.length_singleton] at hk2
        have : k = w.hist.length := by omega
        subst this
        rw [get_last] at hkd
        cases hkd
        have hfin : q ∈ s1.fin := by rw [k6]; exact List.mem_append_left _ (h.sub q hF)
        obtain ⟨r0, a1, a2⟩ := (h1.fin q).1 hfin
        rw [hr1] at a1
        cases a1
        exact h1.block hr1 hq a2
    · intro l ha q hq hlen hb
      replace ha : active s1.rpc = some l := ha
      replace hb : pos g1.rs q % s1.conf.n = l.rb := hb
      rw [k1] at ha
      rw [k5] at hb
      obtain ⟨q0, r0, i, c1, c2, c3, c4, -⟩ := active_at h.inv ha
      have w0 := h.inv.window c1 c2
      have hroom := h1.room
      rw [k5, hd, older_pos h.inv h1 k7 h.inv.dle] at hroom
      have htot := h.inv.tot
      by_cases hlt : q < g.rs.length
      · rw [older_pos h.inv h1 k7 (Nat.le_of_lt hlt)] at hb
        exact h.act l ha q (by rw [← hd]; exact hq) hlt hb
      · exfalso
        have p1 : pos g1.rs g.rs.length ≤ pos g1.rs q := pos_le (by omega) (Nat.le_of_lt hlen)
        rw [older_pos h.inv h1 k7 (Nat.le_refl _)] at p1
        have p2 := pos_le (Nat.le_of_lt hlen) (Nat.le_refl g1.rs.length)
        have p3 := h1.tot
        have := ring_inj (L := w.s.conf.n) (x := pos g1.rs q) (y := pos g.rs q0 + i) (by omega) (by omega) (by rw [hb, c4])
        omega

theorem k_recv {hash : List Byte → Nat} {w : W} {g : G} {F : List Nat} (h : K hash w g F) {now : Nat} {s1 : St}
    (hl : Conc.Legal w.s (.rstep now)) (hs : Conc.stepRecv hash w.s now = some s1) : ∃ g1 F1, K hash (w.next s1) g1 F1 := by
  obtain ⟨g1, h1, hd⟩ := inv_rstep h.inv hl hs
  obtain ⟨hdat, hact⟩ := recv_active hs
  obtain ⟨-, kf, kr, -, kc, -⟩ := stepRecv_frame hs
  have hlast : w.hist[w.now]? = some s1.data := by rw [hdat]; exact h.last
  have hle : (w.next s1).seen ≤ (w.next s1).now := by
    show (if readsFlag w.s.rpc then w.now else w.seen) ≤ w.now
    split
    · exact Nat.le_refl _
    · exact h.le
  cases ha : active s1.rpc with
  | none => exact ⟨g1, [], k_none h1 hlast h.len hle ha⟩
  | some l =>
    rcases hact l ha with ⟨a, b⟩ | ⟨a, b⟩
    · refine ⟨g1, s1.fin, h1, hlast, h.len, hle, fun q hq => hq, ?_, ?_⟩
      · intro q r hr hq hF k d hk hkd
        have hseen : (w.next s1).seen = w.now := by
          show (if readsFlag w.s.rpc then w.now else w.seen) = _
          rw [a]; rfl
        rw [hseen] at hk
        have hkd : w.hist[k]? = some d := hkd
        have hk2 := (List.getElem?_eq_some_iff.1 hkd).1
        have : k = w.now := by unfold W.now at *; omega
        subst this
        rw [hlast] at hkd
        cases hkd
        obtain ⟨r0, a1, a2⟩ := (h1.fin q).1 hF
        rw [hr] at a1
        cases a1
        exact h1.block hr hq a2
      · intro l' ha' q hq hlen hb
        exact active_start h1 ha' hq hlen hb
    · have hnf : ∀ ori re ret sz bytes, w.s.rpc ≠ .fin ori re ret sz bytes := by
        intro ori re ret sz bytes e
        rw [e] at a
        cases a
      replace hd := hd hnf
      have kr' : s1.resv = w.s.resv ++ [] := by rw [kr, List.append_nil]
      have hlen : g1.rs.length = g.rs.length := by rw [← h1.len, ← h.inv.len, kr]
      have hseen : (w.next s1).seen = w.seen := by
        show (if readsFlag w.s.rpc then w.now else w.seen) = _
        rw [b]; rfl
      refine ⟨g1, F, h1, hlast, h.len, hle, fun q hq => ?_, ?_, ?_⟩
      · show q ∈ s1.fin
        rw [kf]
        exact h.sub q hq
      · intro q r1 hr1 hq hF k d hk hkd
        rw [hseen] at hk
        show Block hash s1.conf.n d (pos g1.rs q) r1.msg
        obtain ⟨r, b1, b2⟩ := older h.inv h1 kr' (by rw [← hlen]; exact idx_lt hr1) hr1
        rw [older_pos h.inv h1 kr' (Nat.le_of_lt (idx_lt b1)), ← b2, kc]
        exact h.old q r b1 (by rw [← hd]; exact hq) hF k d hk hkd
      · intro l' ha' q hq hq2 hb
        replace ha' : active s1.rpc = some l' := ha'
        rw [ha] at ha'
        cases ha'
        replace hb : pos g1.rs q % s1.conf.n = l.rb := hb
        rw [hlen] at hq2
        rw [kc, older_pos h.inv h1 kr' (Nat.le_of_lt hq2)] at hb
        exact h.act l a q (by rw [← hd]; exact hq) hq2 hb

theorem k_step {hash : List Byte → Nat} {w w1 : W} {g : G} {F : List Nat} (h : K hash w g F) {e : Ev} (hl : Legal w e) (ho : Ordered w e)
    (hs : step hash w e = some w1) : Conc.step hash w.s e.toSc = some w1.s ∧ ∃ g1 F1, K hash w1 g1 F1 := by
  cases e with
  | sc e =>
    have hne : ∀ now, e ≠ .rstep now := by
      intro now e'
      subst e'
      cases hs
    have hs : (Conc.step hash w.s e).map (fun s => ({ w with s := s, hist := w.hist ++ [s.data] } : W)) = some w1 := by
      cases e with
      | rstep now => exact absurd rfl (hne now)
      | _ => exact hs
    cases hq : Conc.step hash w.s e with
    | none => rw [hq] at hs; cases hs
    | some s1 =>
      rw [hq] at hs
      simp only [Option.map_some, Option.some.injEq] at hs
      subst hs
      exact ⟨hq, k_other h hne hl hq⟩
  | rstep now k =>
    have hs : stepRecv hash w now k = some w1 := hs
    unfold stepRecv at hs
    split at hs
    · rename_i hrd
      split at hs
      · cases hs
      · rename_i d hd
        split at hs
        · cases hs
        · have hsr := same_read h (now := now) (ho hrd) hd hrd
          cases hq : Conc.stepRecv hash { w.s with data := d } now with
          | none => rw [hq] at hs; cases hs
          | some s1 =>
            rw [hq] at hs hsr
            simp only [Option.map_some, Option.some.injEq] at hs hsr
            subst hs
            exact ⟨hsr.symm, k_recv h hl hsr.symm⟩
    · cases hq : Conc.stepRecv hash w.s now with
      | none => rw [hq] at hs; cases hs
      | some s1 =>
        rw [hq] at hs
        simp only [Option.map_some, Option.some.injEq] at hs
        subst hs
        exact ⟨hq, k_recv h hl hq⟩

theorem sim_run {hash : List Byte → Nat} : ∀ {es : List Ev} {w w1 : W} {g : G} {F : List Nat}, K hash w g F →
    Along (fun w e => Legal w e ∧ Ordered w e) hash w es → run hash w es = some w1 →
    Conc.run hash w.s (es.map Ev.toSc) = some w1.s ∧ Conc.Along Conc.Legal hash w.s (es.map Ev.toSc) := by
  intro es
  induction es with
  | nil =>
    intro w w1 g F _ _ hr
    simp only [run, Option.some.injEq] at hr
    subst hr
    exact ⟨rfl, trivial⟩
  | cons e es ih =>
    intro w w1 g F h hl hr
    simp only [run] at hr
    split at hr
    · cases hr
    · rename_i w2 h2
      obtain ⟨k1, g1, F1, k2⟩ := k_step h hl.1.1 hl.1.2 h2
      obtain ⟨k3, k4⟩ := ih k2 (hl.2 w2 h2) hr
      refine ⟨?_, hl.1.1, fun s1 hs1 => ?_⟩
      · simp only [List.map_cons, Conc.run, k1]
        exact k3
      · rw [k1] at hs1
        cases hs1
        exact k4

end Verif.Mem.Reorder
