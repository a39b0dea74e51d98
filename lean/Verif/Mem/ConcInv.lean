import Verif.Mem.ConcActs
import Verif.Mem.ConcSpec

/-! Invariant of the interleaved model. -/
namespace Verif.Mem.Conc

set_option maxRecDepth 10000

/-! ### Reservations -/

structure Res where
  msg : Msg
  seq : Nat
  t : Nat

/-- Ghost state: reservations, index of the first one not taken, absolute position up to which the receiver has
cleared flags, number of accesses made for a reservation, memory when it was made. -/
structure G where
  rs : List Res
  d : Nat
  x : Nat
  cnt : Nat → Nat
  bh : Nat → Nat → Head
  bd : Nat → Nat → Byte

def pos (rs : List Res) (j : Nat) : Nat := ((rs.take j).map fun r => nodes r.msg.length).sum

theorem offset_eq (rs : List Res) (j : Nat) : offset (rs.map Res.msg) j = pos rs j := by
  unfold offset pos
  rw [← List.map_take, List.map_map]
  rfl

theorem pos_zero (rs : List Res) : pos rs 0 = 0 := rfl

theorem pos_succ {rs : List Res} {j : Nat} {r : Res} (h : rs[j]? = some r) :
    pos rs (j + 1) = pos rs j + nodes r.msg.length := by
  obtain ⟨hj, hr⟩ := List.getElem?_eq_some_iff.1 h
  unfold pos
  rw [List.take_succ_eq_append_getElem hj, List.map_append, List.sum_append, hr]
  simp

theorem pos_append {rs : List Res} {j : Nat} (l : List Res) (h : j ≤ rs.length) : pos (rs ++ l) j = pos rs j := by
  unfold pos
  rw [List.take_append_of_le_length h]

theorem pos_lt {rs : List Res} {i j : Nat} (h : i < j) (hj : j ≤ rs.length) : pos rs i < pos rs j := by
  induction j with
  | zero => omega
  | succ j ih =>
    obtain ⟨r, hr⟩ : ∃ r, rs[j]? = some r := ⟨rs[j], List.getElem?_eq_getElem (by omega)⟩
    have := pos_succ hr
    have hp := nodes_pos r.msg.length
    by_cases e : i = j
    · subst e; omega
    · have := ih (by omega) (by omega)
      omega

theorem pos_le {rs : List Res} {i j : Nat} (h : i ≤ j) (hj : j ≤ rs.length) : pos rs i ≤ pos rs j := by
  by_cases e : i = j
  · subst e; omega
  · exact Nat.le_of_lt (pos_lt (by omega) hj)

theorem pos_inj {rs : List Res} {i j : Nat} (hi : i ≤ rs.length) (hj : j ≤ rs.length) (h : pos rs i = pos rs j) :
    i = j := by
  rcases Nat.lt_trichotomy i j with h1 | h1 | h1
  · have := pos_lt h1 hj; omega
  · exact h1
  · have := pos_lt h1 hi; omega

theorem idx_of_le {rs : List Res} {i j : Nat} (hi : i ≤ rs.length) (h : pos rs i ≤ pos rs j) (hj : j ≤ rs.length) :
    i ≤ j := by
  rcases Nat.lt_or_ge j i with h1 | h1
  · have := pos_lt h1 hi; omega
  · exact h1

theorem idx_lt {rs : List Res} {j : Nat} {r : Res} (h : rs[j]? = some r) : j < rs.length :=
  (List.getElem?_eq_some_iff.1 h).1

/-! ### Invariant -/

/-- All accesses for reservation `j`. -/
def planOf (hash : List Byte → Nat) (n : Nat) (g : G) (j : Nat) (r : Res) : List Act :=
  plan hash n (pos g.rs j) r.seq r.msg

/-- Memory of reservation `j`. -/
def memOf (hash : List Byte → Nat) (n : Nat) (g : G) (j : Nat) (r : Res) : M :=
  exec (g.bh j, g.bd j, false) ((planOf hash n g j r).take (g.cnt j))

def Full (hash : List Byte → Nat) (n : Nat) (g : G) (j : Nat) (r : Res) : Prop :=
  g.cnt j = (planOf hash n g j r).length

/-- The sender stopped after it wrote its node heads and before it finished. -/
def Dead (hash : List Byte → Nat) (s : St) (g : G) (j : Nat) (r : Res) : Prop :=
  s.crashed r.t = true ∧ g.cnt j < (planOf hash s.conf.n g j r).length ∧ lateCnt r.msg ≤ g.cnt j

def Clear (h : Head) : Prop := h.start = false ∧ h.written = false

/-- A sequence number that belongs to no reservation that is still in the ring. -/
def Stale (g : G) (v : Nat) : Prop := ∀ (j : Nat) (r : Res), g.d ≤ j → g.rs[j]? = some r → v ≠ r.seq

def Small (m : Msg) : Prop := m ≠ [] ∧ m.length + 271 < W64

/-- A sender. -/
def TInv (hash : List Byte → Nat) (s : St) (g : G) (t : Nat) : SPC → Prop
  | .idle => True
  | .fetch m _ => Small m
  | .loadW m _ _ => Small m
  | .loadR m _ _ w wT => Small m ∧ w = wT % s.conf.n ∧ wT ≤ s.tot
  | .cas m _ _ w wT k => Small m ∧ w = wT % s.conf.n ∧ wT ≤ s.tot ∧ k = nodes m.length ∧
      ∃ rA, rA ≤ pos g.rs g.d ∧ wT < rA + s.conf.n ∧ (rA ≤ wT → wT - rA + k + s.conf.prot < s.conf.n)
  | .work _ _ _ _ id _ _ => ∃ r, g.rs[id]? = some r ∧ r.t = t ∧ g.cnt id < (planOf hash s.conf.n g id r).length
  | .verify m _ seq w id => Small m ∧ ∃ r, g.rs[id]? = some r ∧ r.t = t ∧ Full hash s.conf.n g id r ∧ m = r.msg ∧
      seq = r.seq ∧ w = pos g.rs id % s.conf.n
  | .stuck => False

/-- The receiver looks at node `i` of reservation `q`. -/
structure At (hash : List Byte → Nat) (s : St) (g : G) (l : L) (q : Nat) (r : Res) (i : Nat) : Prop where
  ori : l.ori = s.rcur
  ret : l.ret = 0
  rb : l.rb = g.x % s.conf.n
  res : g.rs[q]? = some r
  dq : g.d ≤ q
  w : ∃ e, e ≤ g.rs.length ∧ q < e ∧ l.w = pos g.rs e % s.conf.n
  xeq : g.x = pos g.rs q + i
  ilt : i < nodes r.msg.length
  skipped : ∀ (j : Nat) (r' : Res), g.d ≤ j → j < q → g.rs[j]? = some r' → Dead hash s g j r'
  inside : 0 < i → Dead hash s g q r
  tseq : l.tseq = 0 ∨ ∃ j r', g.rs[j]? = some r' ∧ l.tseq = r'.seq ∧ g.d ≤ j ∧ pos g.rs j < g.x

/-- The receiver takes reservation `q` and has cleared `i` nodes. -/
structure Cl (hash : List Byte → Nat) (s : St) (g : G) (l : L) (q : Nat) (r : Res) (i : Nat) : Prop where
  ori : l.ori = s.rcur
  ret : l.ret = 0
  rb : l.rb = pos g.rs q % s.conf.n
  res : g.rs[q]? = some r
  dq : g.d ≤ q
  w : ∃ e, e ≤ g.rs.length ∧ q < e ∧ l.w = pos g.rs e % s.conf.n
  xeq : g.x = pos g.rs q + i
  ile : i ≤ nodes r.msg.length
  skipped : ∀ (j : Nat) (r' : Res), g.d ≤ j → j < q → g.rs[j]? = some r' → Dead hash s g j r'
  full : Full hash s.conf.n g q r
  len : r.msg.length ≤ l.len

/-- The receiver. -/
def RInv (hash : List Byte → Nat) (s : St) (g : G) : RPC → Prop
  | .idle => g.x = pos g.rs g.d
  | .loadR _ => g.x = pos g.rs g.d
  | .loadW _ ori => g.x = pos g.rs g.d ∧ ori = s.rcur
  | .flag l => ∃ q r i, At hash s g l q r i
  | .flag2 l => ∃ q r i, At hash s g l q r i ∧ (i = 0 → Full hash s.conf.n g q r)
  | .skip l => ∃ q r i, At hash s g l q r i ∧ 0 < i
  | .seqT l _ => ∃ q r, At hash s g l q r 0 ∧ l.tseq ≠ 0
  | .flagT _ _ => False
  | .fft l _ => ∃ q r, At hash s g l q r 0
  | .seqTO l => ∃ q r, At hash s g l q r 0 ∧ Dead hash s g q r
  | .skipTO l => ∃ q r l0, At hash s g l0 q r 0 ∧ Dead hash s g q r ∧ l = { l0 with tseq := r.seq }
  | .size l => ∃ q r, At hash s g l q r 0 ∧ Full hash s.conf.n g q r
  | .skipBad _ => False
  | .seq0 l => ∃ q r, Cl hash s g l q r 0
  | .clrSeq l cs re => ∃ q r i, Cl hash s g l q r i ∧ cs = r.seq ∧ re = g.x % s.conf.n ∧ re ≠ l.w
  | .clrFlag l cs re => ∃ q r i, Cl hash s g l q r i ∧ cs = r.seq ∧ re = g.x % s.conf.n ∧ i < nodes r.msg.length
  | .clrSet l cs re => ∃ q r i, Cl hash s g l q r i ∧ cs = r.seq ∧ re = g.x % s.conf.n ∧ i < nodes r.msg.length
  | .num l re => ∃ q r, Cl hash s g l q r (nodes r.msg.length) ∧ re = g.x % s.conf.n
  | .copy l re sz acc => ∃ q r, Cl hash s g l q r (nodes r.msg.length) ∧ re = g.x % s.conf.n ∧ sz = r.msg.length ∧
      acc.length < sz ∧ acc = r.msg.take acc.length
  | .check l re acc => ∃ q r, Cl hash s g l q r (nodes r.msg.length) ∧ re = g.x % s.conf.n ∧ acc = r.msg
  | .fin ori re ret _ bytes => ori = s.rcur ∧ re = g.x % s.conf.n ∧ ∃ q, g.x = pos g.rs q ∧ g.d ≤ q ∧ q ≤ g.rs.length ∧
      ((ret = Err.SUCCESS ∧ ∃ q0 r, q = q0 + 1 ∧ g.d ≤ q0 ∧ g.rs[q0]? = some r ∧ Full hash s.conf.n g q0 r ∧
          bytes = r.msg ∧ ∀ (j : Nat) (r' : Res), g.d ≤ j → j < q0 → g.rs[j]? = some r' → Dead hash s g j r') ∨
        ((ret = Err.NO_DATA ∨ ret = Err.BUFF_LIMIT) ∧ ∀ (j : Nat) (r' : Res), g.d ≤ j → j < q → g.rs[j]? = some r' → Dead hash s g j r'))

structure CInv (hash : List Byte → Nat) (s : St) (g : G) : Prop where
  conf : ConfOK s.conf
  resv : s.resv = g.rs.map Res.msg
  who : s.who = g.rs.map Res.t
  tot : s.tot = pos g.rs g.rs.length
  rcur : s.rcur = pos g.rs g.d % s.conf.n
  wcur : s.wcur = s.tot % s.conf.n
  dle : g.d ≤ g.rs.length
  room : s.tot < pos g.rs g.d + s.conf.n
  fit : ∀ r ∈ g.rs, MsgFit s.conf r.msg
  seqd : ∀ (i j : Nat) (r r' : Res), g.d ≤ i → g.d ≤ j → g.rs[i]? = some r → g.rs[j]? = some r' → r.seq = r'.seq → i = j
  dist : ∀ (q j : Nat) (r r' : Res), g.rs[q]? = some r → g.rs[j]? = some r' → g.d ≤ j → j < q → g.x ≤ pos g.rs q →
    (s.heads (pos g.rs q % s.conf.n)).seq ≠ r'.seq
  thr : ∀ t, TInv hash s g t (s.thr t)
  cnt : ∀ (j : Nat) (r : Res), g.rs[j]? = some r → g.cnt j ≤ (planOf hash s.conf.n g j r).length
  own : ∀ (j : Nat) (r : Res), g.rs[j]? = some r → g.cnt j < (planOf hash s.conf.n g j r).length →
    ∃ left, s.thr r.t = .work r.msg left r.seq (pos g.rs j % s.conf.n) j
      ((planOf hash s.conf.n g j r).drop (g.cnt j)) (memOf hash s.conf.n g j r).2.2
  late : ∀ (j : Nat) (r : Res), g.rs[j]? = some r → s.crashed r.t = true → g.cnt j < (planOf hash s.conf.n g j r).length →
    lateCnt r.msg ≤ g.cnt j
  fin : ∀ j, j ∈ s.fin ↔ ∃ r, g.rs[j]? = some r ∧ Full hash s.conf.n g j r
  touched : ∀ (j : Nat) (r : Res), g.rs[j]? = some r → pos g.rs j < g.x → Full hash s.conf.n g j r ∨ Dead hash s g j r
  xlo : pos g.rs g.d ≤ g.x
  xhi : g.x ≤ s.tot
  last : ∀ (j : Nat) (r : Res), g.rs[j]? = some r → g.d ≤ j → s.last (pos g.rs j % s.conf.n) = j
  free : ∀ y, s.tot ≤ y → y < pos g.rs g.d + s.conf.n → Clear (s.heads (y % s.conf.n)) ∧ Stale g (s.heads (y % s.conf.n)).seq
  cleared : ∀ y, pos g.rs g.d ≤ y → y < g.x → Clear (s.heads (y % s.conf.n)) ∧
    ∃ (j : Nat) (r : Res), g.rs[j]? = some r ∧ pos g.rs j ≤ y ∧ y < pos g.rs (j + 1) ∧ (s.heads (y % s.conf.n)).seq = r.seq
  hd : ∀ (j : Nat) (r : Res), g.rs[j]? = some r → g.d ≤ j → ∀ i, i < nodes r.msg.length → g.x ≤ pos g.rs j + i →
    s.heads ((pos g.rs j + i) % s.conf.n) = (memOf hash s.conf.n g j r).1 ((pos g.rs j + i) % s.conf.n)
  dt : ∀ (j : Nat) (r : Res), g.rs[j]? = some r → g.d ≤ j → ∀ a, Reg s.conf.n (pos g.rs j) (nodes r.msg.length) (a / 256) →
    s.data a = (memOf hash s.conf.n g j r).2.1 a
  base : ∀ (j : Nat) (r : Res), g.rs[j]? = some r → g.d ≤ j → ∀ i, i < nodes r.msg.length →
    Clear (g.bh j ((pos g.rs j + i) % s.conf.n))
  keep : ∀ (j : Nat) (r : Res), g.rs[j]? = some r → 5 ≤ g.cnt j → s.tot ≤ pos g.rs j + s.conf.n →
    (s.heads (pos g.rs j % s.conf.n)).seq = r.seq
  got : s.got = takenOf s.resv s.fin g.d
  codes : ∀ c ∈ s.codes, c = Err.SUCCESS ∨ c = Err.NO_DATA ∨ c = Err.BUFF_LIMIT
  oob : s.oob = false
  rpc : RInv hash s g s.rpc

def G.init : G := ⟨[], 0, 0, fun _ => 0, fun _ _ => ⟨false, false, 0⟩, fun _ _ => 0⟩

theorem inv_init (hash : List Byte → Nat) {conf : Conf} (h : ConfOK conf) : CInv hash (St.init conf) G.init where
  conf := h
  resv := rfl
  who := rfl
  tot := rfl
  rcur := by simp [St.init, G.init, pos]
  wcur := by simp [St.init]
  dle := Nat.le_refl _
  room := by have := h.n1; simp [St.init, G.init, pos]; omega
  fit := by intro r hr; cases hr
  seqd := by intro i j r r' _ _ hr; simp [G.init] at hr
  dist := by intro q j r r' hr; simp [G.init] at hr
  thr := fun _ => trivial
  cnt := by intro j r hr; simp [G.init] at hr
  own := by intro j r hr; simp [G.init] at hr
  late := by intro j r hr; simp [G.init] at hr
  fin := by intro j; simp [St.init, G.init]
  touched := by intro j r hr; simp [G.init] at hr
  xlo := Nat.le_refl _
  xhi := Nat.le_refl _
  last := by intro j r hr; simp [G.init] at hr
  free := fun y _ _ => ⟨⟨rfl, rfl⟩, fun j r _ hr => by simp [G.init] at hr⟩
  cleared := by intro y h1 h2; simp [G.init, pos] at h2
  hd := by intro j r hr; simp [G.init] at hr
  dt := by intro j r hr; simp [G.init] at hr
  base := by intro j r hr; simp [G.init] at hr
  keep := by intro j r hr; simp [G.init] at hr
  got := rfl
  codes := by intro c hc; cases hc
  oob := rfl
  rpc := rfl

end Verif.Mem.Conc
