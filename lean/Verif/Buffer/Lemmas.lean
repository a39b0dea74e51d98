import Verif.Buffer.Model

/-! Helper lemmas for the static buffer: ring arithmetic, memory frames and the
layout invariant. -/
namespace Verif.Buffer

/-! ### sizes -/

theorem padding_ge (s : Nat) : s ≤ padding s := by unfold padding; split <;> omega
theorem padding_lt (s : Nat) : padding s < s + 16 := by unfold padding; split <;> omega
theorem padding_add (a b : Nat) : padding (a + b) ≤ padding a + padding b := by
  unfold padding; (repeat' split) <;> omega
theorem padding_mono {a b : Nat} (h : a ≤ b) : padding a ≤ padding b := by
  unfold padding; (repeat' split) <;> omega
theorem padding_pos {s : Nat} (h : 0 < s) : 16 ≤ padding s := by
  unfold padding; split <;> omega
theorem full_eq (s : Nat) : full s = 32 + padding s := rfl
theorem full_ge (s : Nat) : 32 + s ≤ full s := by have := padding_ge s; simp [full_eq]; omega
theorem full_mono {a b : Nat} (h : a ≤ b) : full a ≤ full b := by
  have := padding_mono h; simp [full_eq]; omega

theorem sub_set {α} {l : List α} {i j : Nat} {a : α} (h : i ≠ j) : (l.set i a)[j]? = l[j]? := by
  rw [List.getElem?_set]; simp [h]

theorem set_self {α} {l : List α} {i : Nat} {a : α} (h : i < l.length) :
    (l.set i a)[i]? = some a := by
  rw [List.getElem?_set]; simp [h]

/-! ### ring indices -/

theorem ring_eq {h i n : Nat} (hn : h < n) (hi : i ≤ n) :
    (h + i) % n = if h + i < n then h + i else h + i - n := by
  split
  · rw [Nat.mod_eq_of_lt]; assumption
  · rw [Nat.mod_eq_sub_mod (by omega), Nat.mod_eq_of_lt (by omega)]

theorem ring_inj {h i j n : Nat} (hn : h < n) (hi : i < n) (hj : j < n)
    (e : (h + i) % n = (h + j) % n) : i = j := by
  rw [ring_eq hn (by omega), ring_eq hn (by omega)] at e
  split at e <;> split at e <;> omega

theorem ring_lt {h i n : Nat} (hn : h < n) : (h + i) % n < n := Nat.mod_lt _ (by omega)

theorem ring_succ (h i n : Nat) : ((h + i) % n + 1) % n = (h + (i + 1)) % n := by
  rw [Nat.mod_add_mod]; rfl

theorem ring_pre {h i n : Nat} (hn : h < n) : ((h + n - 1) % n + (i + 1)) % n = (h + i) % n := by
  rw [Nat.mod_add_mod]
  have : h + n - 1 + (i + 1) = h + i + n := by omega
  rw [this, Nat.add_mod_right]

theorem ring_pred {h k n : Nat} (hn : h < n) : ((h + (k + 1)) % n + n - 1) % n = (h + k) % n := by
  by_cases h0 : (h + (k + 1)) % n = 0
  · have h1 : (h + k) % n = n - 1 := by
      have hd : n ∣ h + (k + 1) := Nat.dvd_of_mod_eq_zero h0
      obtain ⟨c, hc⟩ := hd
      have hc0 : c ≠ 0 := by rintro rfl; simp at hc
      obtain ⟨d, rfl⟩ := Nat.exists_eq_succ_of_ne_zero hc0
      have : h + k = n * d + (n - 1) := by
        rw [Nat.mul_succ] at hc; omega
      rw [this, Nat.mul_add_mod, Nat.mod_eq_of_lt (by omega)]
    rw [h0, h1]; rw [Nat.mod_eq_of_lt (by omega)]; omega
  · have h2 : (h + (k + 1)) % n + n - 1 = ((h + (k + 1)) % n - 1) + n := by omega
    rw [h2, Nat.add_mod_right]
    have hlt := ring_lt (i := k + 1) hn
    rw [Nat.mod_eq_of_lt (by omega)]
    have := ring_succ h k n
    have hlt2 := ring_lt (i := k) hn
    by_cases h3 : (h + k) % n + 1 < n
    · rw [Nat.mod_eq_of_lt h3] at this; omega
    · exfalso
      apply h0
      have h4 : (h + k) % n + 1 = n := by omega
      rw [← this, h4, Nat.mod_self]

theorem ring_full {h k n : Nat} (hn : h < n) (hk : k < n) :
    ((h + k) % n + 1) % n = h ↔ k + 1 = n := by
  rw [ring_succ, ring_eq hn (by omega)]
  split <;> omega

/-! ### headers in memory -/

/-- The block head `h` is stored at `p` (members of `buffer_block`, `include/detail/buffer.h`). -/
def HdrAt (m : Mem) (p : Nat) (h : Hdr) : Prop :=
  m p = .hdr h ∧ ∀ a, p < a → a < p + 24 → m a = .hdrRest

theorem readHdr_of {Z : Nat} {m : Mem} {p : Nat} {h : Hdr} (hh : HdrAt m p h) (hz : p + 24 ≤ Z) :
    readHdr Z m p = some h := by
  unfold readHdr
  rw [if_pos, hh.1]
  refine ⟨hz, ?_⟩
  rw [List.all_eq_true]
  intro i hi
  rw [List.mem_range] at hi
  rw [hh.2 _ (by omega) (by omega)]; rfl

/-- Memory after storing header `h` at `p`. -/
def putHdr (m : Mem) (p : Nat) (h : Hdr) : Mem :=
  fun a => if a = p then .hdr h else if p < a ∧ a < p + 24 then .hdrRest else m a

theorem writeHdr_of {Z : Nat} {m : Mem} {p : Nat} {h : Hdr} (hz : p + 24 ≤ Z) :
    writeHdr Z m p h = some (putHdr m p h) := by
  unfold writeHdr putHdr; rw [if_pos hz]

theorem putHdr_at (m : Mem) (p : Nat) (h : Hdr) : HdrAt (putHdr m p h) p h := by
  constructor
  · simp [putHdr]
  · intro a h1 h2
    have : a ≠ p := by omega
    simp [putHdr, this, h1, h2]

theorem putHdr_frame {m : Mem} {p : Nat} {h : Hdr} {a : Nat} (ha : a < p ∨ p + 24 ≤ a) :
    putHdr m p h a = m a := by
  unfold putHdr
  rw [if_neg (by omega), if_neg (by omega)]

theorem create_of {Z : Nat} {m : Mem} {p s bs : Nat} (h1 : full bs ≤ s) (h2 : p + full bs ≤ Z) :
    create Z m p s bs = some (some (putHdr m p ⟨bs, 0, p + 32⟩, p + full bs)) := by
  have := full_ge bs
  unfold create
  rw [if_neg (by omega), writeHdr_of (by omega)]
  rfl

/-! ### placed blocks -/

/-- A live block: address of its header, payload cells as the user knows them
(`none`: not yet written), consumed count. -/
structure PB where
  p : Nat
  cells : List (Option Byte)
  used : Nat

/-- First address after the block. -/
def PB.fin (b : PB) : Nat := b.p + full b.cells.length
/-- The same block as a block on the heap. -/
def PB.toD (b : PB) : DBlk := ⟨b.cells, b.used⟩

/-- The memory of the block is what `b` says. -/
def BlkOK (m : Mem) (b : PB) : Prop :=
  HdrAt m b.p ⟨b.cells.length, b.used, b.p + 32⟩ ∧ b.used ≤ b.cells.length ∧
  ∀ j x, b.cells[j]? = some (some x) → m (b.p + 32 + j) = .byte x

theorem BlkOK.frame {m m' : Mem} {b : PB} (h : BlkOK m b)
    (hf : ∀ a, b.p ≤ a → a < b.fin → m' a = m a) : BlkOK m' b := by
  obtain ⟨⟨h1, h2⟩, h3, h4⟩ := h
  have hg := full_ge b.cells.length
  unfold PB.fin at hf
  refine ⟨⟨?_, ?_⟩, h3, ?_⟩
  · rw [hf _ (by omega) (by omega)]; exact h1
  · intro a ha hb
    rw [hf _ (by omega) (by omega)]; exact h2 a ha hb
  · intro j x hj
    have hl : j < b.cells.length := by
      rcases Nat.lt_or_ge j b.cells.length with h | h
      · exact h
      · rw [List.getElem?_eq_none h] at hj; cases hj
    rw [hf _ (by omega) (by omega)]; exact h4 j x hj

/-- Blocks laid out from `lo` upwards, ending at or before `hi`. -/
def Chain : Nat → List PB → Nat → Prop
  | lo, [], hi => lo ≤ hi
  | lo, b :: bs, hi => lo ≤ b.p ∧ Chain b.fin bs hi

theorem Chain.le {lo hi : Nat} {bs : List PB} (h : Chain lo bs hi) : lo ≤ hi := by
  induction bs generalizing lo with
  | nil => exact h
  | cons b bs ih =>
    have := ih h.2
    have := h.1
    have := full_ge b.cells.length
    unfold PB.fin at *; omega

theorem Chain.mem {lo hi : Nat} {bs : List PB} (h : Chain lo bs hi) {b : PB} (hb : b ∈ bs) :
    lo ≤ b.p ∧ b.fin ≤ hi := by
  induction bs generalizing lo with
  | nil => cases hb
  | cons c bs ih =>
    rcases List.mem_cons.1 hb with rfl | hb
    · exact ⟨h.1, h.2.le⟩
    · have := ih h.2 hb
      have := h.1
      have := full_ge c.cells.length
      unfold PB.fin at *; omega

theorem Chain.mono {lo lo' hi hi' : Nat} {bs : List PB} (h : Chain lo bs hi)
    (h1 : lo' ≤ lo) (h2 : hi ≤ hi') : Chain lo' bs hi' := by
  induction bs generalizing lo lo' with
  | nil => exact Nat.le_trans h1 (Nat.le_trans h h2)
  | cons b bs ih => exact ⟨Nat.le_trans h1 h.1, ih h.2 (Nat.le_refl _)⟩

theorem chain_append {lo hi : Nat} {as bs : List PB} :
    Chain lo (as ++ bs) hi ↔ ∃ mid, Chain lo as mid ∧ Chain mid bs hi := by
  induction as generalizing lo with
  | nil =>
    constructor
    · intro h; exact ⟨lo, Nat.le_refl _, h⟩
    · rintro ⟨mid, h1, h2⟩; exact h2.mono h1 (Nat.le_refl _)
  | cons a as ih =>
    constructor
    · rintro ⟨h1, h2⟩
      obtain ⟨mid, h3, h4⟩ := ih.1 h2
      exact ⟨mid, ⟨h1, h3⟩, h4⟩
    · rintro ⟨mid, ⟨h1, h3⟩, h4⟩
      exact ⟨h1, ih.2 ⟨mid, h3, h4⟩⟩

theorem chain_snoc {lo hi : Nat} {as : List PB} {b : PB} :
    Chain lo (as ++ [b]) hi ↔ Chain lo as b.p ∧ b.fin ≤ hi := by
  rw [chain_append]
  constructor
  · rintro ⟨mid, h1, h2, h3⟩; exact ⟨h1.mono (Nat.le_refl _) h2, h3⟩
  · rintro ⟨h1, h2⟩; exact ⟨b.p, h1, Nat.le_refl _, h2⟩

/-- Placement of the live blocks in the area of size `Z`; `t` is the free
pointer behind the last block. Either unwrapped, or the blocks `hi` reach up to
the end of the area and `lo` starts again at 0. -/
def Layout (Z : Nat) (bs : List PB) (t : Nat) : Prop :=
  (Chain 0 bs t ∧ t ≤ Z) ∨
  ∃ h hi lo, bs = (h :: hi) ++ lo ∧ Chain h.p (h :: hi) Z ∧ Chain 0 lo t ∧ t < h.p

/-- Address of the first block, or the free pointer when there is none. -/
def hp (bs : List PB) (t : Nat) : Nat :=
  match bs with
  | [] => t
  | b :: _ => b.p

/-- State invariant once the index slots of head and tail are set. -/
structure Core (st : SBuf) (bs : List PB) (t : Nat) : Prop where
  n2 : 2 ≤ st.idx.length
  mem : ∀ b ∈ bs, BlkOK st.mem b
  lay : Layout st.size bs t
  emp : bs = [] → t = 0
  hlt : st.head < st.idx.length
  len : bs.length < st.idx.length
  teq : st.tail = (st.head + bs.length) % st.idx.length
  slots : ∀ i b, bs[i]? = some b → st.idx[(st.head + i) % st.idx.length]? = some (some b.p)
  tslot : st.idx[st.tail]? = some (some t)

/-- State invariant of the static buffer. -/
def Inv (st : SBuf) (bs : List PB) : Prop :=
  (bs ≠ [] ∧ ∃ t, Core st bs t) ∨
  (bs = [] ∧ st.head = 0 ∧ st.tail = 0 ∧ 2 ≤ st.idx.length ∧
    (st.idx[0]? = some none ∨ st.idx[0]? = some (some 0)))

/-- The parts of the state only the callers of the static functions change. -/
structure SameMeta (a b : SBuf) : Prop where
  size : b.size = a.size
  len : b.idx.length = a.idx.length
  cn : b.costNum = a.costNum
  cs : b.costSize = a.costSize
  ln : b.limNum = a.limNum
  ls : b.limSize = a.limSize

theorem Core.tlt {st bs t} (h : Core st bs t) : st.tail < st.idx.length := by
  rw [h.teq]; exact ring_lt h.hlt

theorem Core.hslot {st bs t} (h : Core st bs t) : st.idx[st.head]? = some (some (hp bs t)) := by
  cases bs with
  | nil =>
    have := h.tslot
    have he := h.teq
    simp [Nat.mod_eq_of_lt h.hlt] at he
    rw [he] at this; exact this
  | cons b bs =>
    have := h.slots 0 b rfl
    simpa [Nat.mod_eq_of_lt h.hlt, hp] using this

theorem Core.ht_ne {st bs t} (h : Core st bs t) (hb : bs ≠ []) : st.head ≠ st.tail := by
  intro he
  rw [h.teq] at he
  have h0 : st.head = (st.head + 0) % st.idx.length := by
    simp [Nat.mod_eq_of_lt h.hlt]
  have := ring_inj h.hlt (by have := h.n2; omega) h.len (h0.symm.trans he)
  exact hb (List.eq_nil_of_length_eq_zero this.symm)

theorem Inv.norm {st bs} (h : Inv st bs) : ∃ h0 t0 st' t,
    st.idx[st.head]? = some h0 ∧ st.idx[st.tail]? = some t0 ∧
    emptyInit st h0 t0 = (st', hp bs t, t) ∧ Core st' bs t ∧ SameMeta st st' ∧
    st'.mem = st.mem := by
  rcases h with ⟨hb, t, hc⟩ | ⟨rfl, h1, h2, h3, h4⟩
  · exact ⟨_, _, st, t, hc.hslot, hc.tslot, rfl, hc, ⟨rfl, rfl, rfl, rfl, rfl, rfl⟩, rfl⟩
  · have hset : ∀ st' : SBuf, st'.head = 0 → st'.tail = 0 → 2 ≤ st'.idx.length →
        st'.idx[0]? = some (some 0) → Core st' [] 0 := by
      intro st' a b c d
      refine ⟨c, by simp, Or.inl ⟨Nat.le_refl _, Nat.zero_le _⟩, fun _ => rfl, by omega,
        by simp; omega, ?_, by simp, by rw [b]; exact d⟩
      rw [a, b]; simp
    rw [h1, h2]
    rcases h4 with h4 | h4
    · refine ⟨none, none, { st with head := 0, tail := 0, idx := st.idx.set 0 (some 0) }, 0,
        h4, h4, rfl, ?_, ⟨rfl, by simp, rfl, rfl, rfl, rfl⟩, rfl⟩
      apply hset
      · rfl
      · rfl
      · simpa using h3
      · exact set_self (by omega)
    · refine ⟨some 0, some 0, st, 0, h4, h4, rfl, hset st h1 h2 h3 h4,
        ⟨rfl, rfl, rfl, rfl, rfl, rfl⟩, rfl⟩

theorem Core.inv {st bs t} (h : Core st bs t) (hb : bs ≠ []) : Inv st bs := Or.inl ⟨hb, t, h⟩

theorem Core.tplus {st bs t} (h : Core st bs t) :
    (st.tail + 1) % st.idx.length = st.head ↔ bs.length + 1 = st.idx.length := by
  rw [h.teq, ring_full h.hlt h.len]

theorem Inv.full_iff {st bs} (h : Inv st bs) :
    (st.tail + 1) % st.idx.length = st.head ↔ bs.length + 1 = st.idx.length := by
  rcases h with ⟨_, t, hc⟩ | ⟨rfl, h1, h2, h3, _⟩
  · exact hc.tplus
  · rw [h1, h2]; simp; omega

theorem Layout.t_le {Z bs t} (h : Layout Z bs t) : t ≤ Z := by
  rcases h with ⟨_, h⟩ | ⟨h, hi, lo, rfl, h1, h2, h3⟩
  · exact h
  · have := h1.le; omega

/-- Unwrapped layout when the free pointer is not below the first block. -/
theorem Layout.unwrapped {Z bs t} (h : Layout Z bs t) (hle : hp bs t ≤ t) :
    Chain 0 bs t ∧ t ≤ Z := by
  rcases h with h | ⟨b, hi, lo, rfl, h1, h2, h3⟩
  · exact h
  · simp [hp] at hle; omega

theorem Layout.wrapped {Z bs t} (h : Layout Z bs t) (hle : t < hp bs t) :
    ∃ h hi lo, bs = (h :: hi) ++ lo ∧ Chain h.p (h :: hi) Z ∧ Chain 0 lo t ∧ t < h.p := by
  rcases h with ⟨h, _⟩ | h
  · cases bs with
    | nil => simp [hp] at hle
    | cons b bs =>
      have := (h.mem (List.mem_cons_self)).2
      have := full_ge b.cells.length
      simp [hp, PB.fin] at *; omega
  · exact h

theorem Layout.hp_le {Z bs t} (h : Layout Z bs t) : hp bs t ≤ Z := by
  rcases h with ⟨h, h'⟩ | ⟨b, hi, lo, rfl, h1, h2, h3⟩
  · cases bs with
    | nil => simpa [hp] using h'
    | cons b bs =>
      have := (h.mem (List.mem_cons_self)).2
      have := full_ge b.cells.length
      simp [hp, PB.fin] at *; omega
  · simpa [hp] using h1.le

/-- Every block lies inside the area. -/
theorem Layout.bound {Z bs t} (h : Layout Z bs t) {b : PB} (hb : b ∈ bs) : b.fin ≤ Z := by
  rcases h with ⟨h, h'⟩ | ⟨c, hi, lo, rfl, h1, h2, h3⟩
  · have := (h.mem hb).2; omega
  · rcases List.mem_append.1 hb with hb | hb
    · exact (h1.mem hb).2
    · have := (h2.mem hb).2; have := h1.le; omega

/-- The gap in which `push_back`/`push_front` place: if `[x,y)` is disjoint from
all blocks, a memory change inside it keeps all blocks. -/
theorem frame_all {m m' : Mem} {bs : List PB} {x y : Nat} (h : ∀ b ∈ bs, BlkOK m b)
    (hd : ∀ b ∈ bs, b.fin ≤ x ∨ y ≤ b.p)
    (hf : ∀ a, a < x ∨ y ≤ a → m' a = m a) : ∀ b ∈ bs, BlkOK m' b := by
  intro b hb
  refine (h b hb).frame ?_
  intro a h1 h2
  apply hf
  rcases hd b hb with h | h <;> omega

theorem newBlk_ok {m : Mem} {p s : Nat} :
    BlkOK (putHdr m p ⟨s, 0, p + 32⟩) ⟨p, List.replicate s none, 0⟩ := by
  refine ⟨?_, Nat.zero_le _, ?_⟩
  · simpa using putHdr_at m p ⟨s, 0, p + 32⟩
  · intro j x hj
    simp only [List.getElem?_replicate] at hj
    split at hj <;> simp at hj

end Verif.Buffer
