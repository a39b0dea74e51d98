import Verif.Mem.Lemmas

/-! Sequential use of the ring: invariant and one-step lemmas. -/
namespace Verif.Mem

set_option maxRecDepth 10000

/-- What `mem_init` establishes. -/
structure ConfOK (cf : Conf) : Prop where
  n1 : 1 ≤ cf.n
  nlt : cf.n * 256 < W64
  plt : cf.prot < W64
  pm : cf.protMem ≤ cf.prot * 256
  retry : 1 ≤ cf.retry

/-- A complete message at absolute node position `a`. -/
structure MsgOK (hash : List Byte → Nat) (c : Chan) (a : Nat) (m : List Byte) : Prop where
  heads : ∃ s, c.heads (a % c.conf.n) = ⟨true, true, s⟩ ∧
    ∀ j, 1 ≤ j → j < nodes m.length → c.heads ((a + j) % c.conf.n) = ⟨false, true, s⟩
  size : bsize c.data (a % c.conf.n) = m.length
  check : bcheck c.data (a % c.conf.n) = hash m % W64
  bytes : ∀ i (hi : i < m.length), c.data ((a * 256 + 16 + i) % (c.conf.n * 256)) = m[i]

/-- Nodes in use. -/
def used (q : List (List Byte)) : Nat := (q.map fun m => nodes m.length).sum

/-- The queue as it lies in the data area. -/
def Lay (hash : List Byte → Nat) (c : Chan) : Nat → List (List Byte) → Prop
  | _, [] => True
  | a, m :: q => MsgOK hash c a m ∧ Lay hash c (a + nodes m.length) q

/-- The message is not empty and fits an empty channel. -/
def MsgFit (cf : Conf) (m : List Byte) : Prop :=
  m ≠ [] ∧ m.length + 271 < W64 ∧ nodes m.length + cf.prot < cf.n

/-- Invariant: the channel holds the queue. -/
structure Inv (hash : List Byte → Nat) (c : Chan) (q : List (List Byte)) : Prop where
  ok : ConfOK c.conf
  pos : ∃ R, R % c.conf.n = c.rcur ∧ (R + used q) % c.conf.n = c.wcur ∧ Lay hash c R q
  room : used q < c.conf.n
  fit : ∀ m ∈ q, MsgFit c.conf m

/-- Same node heads and data on absolute nodes `[lo, hi)`. -/
structure SameOn (c c' : Chan) (lo hi : Nat) : Prop where
  conf : c'.conf = c.conf
  heads : ∀ b, lo ≤ b → b < hi → c'.heads (b % c.conf.n) = c.heads (b % c.conf.n)
  data : ∀ x, lo * 256 ≤ x → x < hi * 256 → c'.data (x % (c.conf.n * 256)) = c.data (x % (c.conf.n * 256))

theorem SameOn.mono {c c' : Chan} {lo hi lo' hi' : Nat} (h : SameOn c c' lo hi) (h1 : lo ≤ lo') (h2 : hi' ≤ hi) :
    SameOn c c' lo' hi' :=
  ⟨h.conf, fun b a e => h.heads b (by omega) (by omega), fun x a e => h.data x (by omega) (by omega)⟩

theorem bsize_abs {n a : Nat} {d d' : Nat → Byte} (hn : 0 < n)
    (h : ∀ x, a * 256 ≤ x → x < (a + 1) * 256 → d' (x % (n * 256)) = d (x % (n * 256))) :
    bsize d' (a % n) = bsize d (a % n) ∧ bcheck d' (a % n) = bcheck d (a % n) := by
  unfold bsize bcheck nodeSize
  refine ⟨?_, ?_⟩
  · congr 1
    apply rd_congr
    intro i hi
    rw [← mod_node (a := a) (j := i) hn (by omega)]
    exact h _ (by omega) (by omega)
  · congr 1
    apply rd_congr
    intro i hi
    rw [Nat.add_assoc, ← mod_node (a := a) (j := 8 + i) hn (by omega)]
    exact h _ (by omega) (by omega)

theorem MsgOK.frame {hash : List Byte → Nat} {c c' : Chan} {a : Nat} {m : List Byte} (hn : 0 < c.conf.n)
    (h : MsgOK hash c a m) (hs : SameOn c c' a (a + nodes m.length)) : MsgOK hash c' a m := by
  obtain ⟨s, h1, h2⟩ := h.heads
  have hp := nodes_pos m.length
  have hf := nodes_fit m.length
  have hb := bsize_abs (a := a) hn (d := c.data) (d' := c'.data) (fun x h1 h2 => hs.data x h1 (by omega))
  refine ⟨⟨s, ?_, ?_⟩, ?_, ?_, ?_⟩
  · rw [hs.conf, hs.heads a (Nat.le_refl _) (by omega)]; exact h1
  · intro j a1 a2
    rw [hs.conf, hs.heads (a + j) (by omega) (by omega)]; exact h2 j a1 a2
  · rw [hs.conf, hb.1]; exact h.size
  · rw [hs.conf, hb.2]; exact h.check
  · intro i hi
    rw [hs.conf, hs.data _ (by omega) (by omega)]; exact h.bytes i hi

theorem Lay.frame {hash : List Byte → Nat} {c c' : Chan} (hn : 0 < c.conf.n) : ∀ {q : List (List Byte)} {a : Nat},
    Lay hash c a q → SameOn c c' a (a + used q) → Lay hash c' a q := by
  intro q
  induction q with
  | nil => intro a _ _; trivial
  | cons m q ih =>
    intro a h hs
    simp only [used, List.map_cons, List.sum_cons] at hs
    refine ⟨h.1.frame hn (hs.mono (Nat.le_refl _) (by omega)), ih h.2 (hs.mono (by omega) ?_)⟩
    unfold used; omega

theorem Lay.append {hash : List Byte → Nat} {c : Chan} {m : List Byte} : ∀ {q : List (List Byte)} {a : Nat},
    Lay hash c a q → MsgOK hash c (a + used q) m → Lay hash c a (q ++ [m]) := by
  intro q
  induction q with
  | nil => intro a _ h; exact ⟨h, trivial⟩
  | cons x q ih =>
    intro a h hm
    refine ⟨h.1, ih h.2 ?_⟩
    simp only [used, List.map_cons, List.sum_cons] at hm
    rw [← Nat.add_assoc] at hm
    exact hm

theorem used_append (q : List (List Byte)) (m : List Byte) : used (q ++ [m]) = used q + nodes m.length := by
  simp [used]

theorem sub64_le {a b : Nat} (h : b ≤ a) (ha : a < W64) : sub64 a b = a - b := by
  unfold sub64
  have : a + W64 - b = W64 + (a - b) := by omega
  rw [this, Nat.add_mod_left, Nat.mod_eq_of_lt (by omega)]

theorem avail_iff {cf : Conf} {R u k : Nat} (hu : u < cf.n) (hk : 1 ≤ k) :
    ¬ k > avail cf (R % cf.n) ((R + u) % cf.n) ↔ u + k + cf.prot < cf.n := by
  rw [avail_abs hu]
  split <;> omega

/-- The effect of writing a message at absolute position `W` on memory. -/
theorem send_writes {hash : List Byte → Nat} {c : Chan} {W : Nat} {msg : List Byte} {k seq : Nat}
    (hk : k = nodes msg.length) (hkn : k < c.conf.n) (hlen : msg.length + 271 < W64) :
    ∃ hs d2,
      markNodes c.conf.n seq ((W + k) % c.conf.n) (c.conf.n + 1) (next c.conf.n (W % c.conf.n) 1)
        (setHead c.heads (W % c.conf.n) ⟨true, false, seq⟩) = some hs ∧
      copyIn c.conf.n (wr (wr c.data (W % c.conf.n * nodeSize) (toLE 16 0)) (W % c.conf.n * nodeSize)
        (toLE 8 msg.length)) (W % c.conf.n) ((W + k) % c.conf.n) msg = some d2 ∧
      (hs (W % c.conf.n)).seq = seq ∧
      ∀ os w,
      let c' : Chan := { c with
        oseq := os, wcur := w
        heads := setHead hs (W % c.conf.n) { hs (W % c.conf.n) with written := true }
        data := wr d2 (W % c.conf.n * nodeSize + 8) (toLE 8 (hash msg % W64)) }
      MsgOK hash c' W msg ∧ ∀ R, R ≤ W → W + k ≤ R + c.conf.n → SameOn c c' R W := by
  have hk1 : 1 ≤ k := by rw [hk]; exact nodes_pos _
  have hkf : msg.length + 16 ≤ k * 256 := by rw [hk]; exact nodes_fit _
  have hn : 0 < c.conf.n := by omega
  generalize hcn : c.conf.n = n at *
  have hwlt := Nat.mod_lt W hn
  obtain ⟨hs, e1, e2, e3⟩ := markNodes_spec (n := n) (seq := seq) (W := W) (k := k) hkn 1 (n + 1)
    (setHead c.heads (W % n) ⟨true, false, seq⟩) (Nat.le_refl _) hk1 (by omega)
  obtain ⟨d2, f1, f2, f3⟩ := copyIn_spec (n := n) (W := W) (k := k)
    (d := wr (wr c.data (W % n * nodeSize) (toLE 16 0)) (W % n * nodeSize) (toLE 8 msg.length))
    (msg := msg) hk1 hkn hkf
  have hhead : hs (W % n) = ⟨true, false, seq⟩ := by
    rw [e3 _ (fun i a b e => by
      have := ring_inj (L := n) (x := W) (y := W + i) (by omega) (by omega) e
      omega), setHead_eq]
  have l8 : ∀ v, (toLE 8 v).length = 8 := toLE_length 8
  have l16 : (toLE 16 0).length = 16 := toLE_length 16 0
  -- addresses of the block head
  have hbh : ∀ j, j < 16 → W % n * 256 + j = (W * 256 + j) % (n * 256) := by
    intro j hj; rw [mod_node hn (by omega)]
  have hne : ∀ j, j < 16 → ∀ i, i < msg.length → W % n * 256 + j ≠ (W * 256 + 16 + i) % (n * 256) := by
    intro j hj i hi e
    rw [hbh j hj] at e
    have := ring_inj (L := n * 256) (x := W * 256 + j) (y := W * 256 + 16 + i) (by omega) (by omega) e
    omega
  refine ⟨hs, d2, by rw [next_mod]; exact e1, f1, by rw [hhead], ?_⟩
  intro os w
  simp only
  refine ⟨?_, ?_⟩
  · refine ⟨⟨seq, ?_, ?_⟩, ?_, ?_, ?_⟩
    · simp only [hcn, setHead_eq, hhead]
    · intro j a b
      simp only [hcn]
      have hne2 : (W + j) % n ≠ W % n := fun e => by
        have := ring_inj (L := n) (x := W + j) (y := W) (by omega) (by omega) e
        omega
      rw [setHead_ne _ _ hne2]
      exact e2 j a (by omega)
    · simp only [bsize, hcn, nodeSize]
      have : rd (wr d2 (W % n * 256 + 8) (toLE 8 (hash msg % W64))) (W % n * 256) 8 = toLE 8 msg.length := by
        have := rd_eq_list (d := wr d2 (W % n * 256 + 8) (toLE 8 (hash msg % W64))) (o := W % n * 256)
          (l := toLE 8 msg.length) (by
            intro i hi
            rw [l8] at hi
            rw [wr_out (by rw [l8]; omega), f3 _ (hne i (by omega)), wr_at (by rw [l8]; exact hi)])
        rw [l8] at this
        exact this
      rw [this]
      exact fromLE_toLE64 (by omega)
    · simp only [bcheck, hcn, nodeSize]
      have := rd_wr d2 (W % n * 256 + 8) (toLE 8 (hash msg % W64))
      rw [l8] at this
      rw [this]
      exact fromLE_toLE64 (Nat.mod_lt _ (by decide))
    · intro i hi
      simp only [hcn, nodeSize]
      rw [wr_out, f2 i hi]
      rw [l8]
      rintro ⟨a, b⟩
      have h1 := hne ((W * 256 + 16 + i) % (n * 256) - W % n * 256) (by omega) i hi
      omega
  · intro R hR1 hR2
    refine ⟨rfl, ?_, ?_⟩
    · intro b a1 a2
      simp only [hcn]
      have hx : ∀ i, i < k → b % n ≠ (W + i) % n := fun i hi e => by
        have := ring_inj (L := n) (x := b) (y := W + i) (by omega) (by omega) e
        omega
      have hx0 : b % n ≠ W % n := hx 0 (by omega)
      rw [setHead_ne _ _ hx0, e3 _ (fun i _ hi => hx i hi), setHead_ne _ _ hx0]
    · intro x a1 a2
      simp only [hcn, nodeSize]
      have hx : ∀ j, j < k * 256 → x % (n * 256) ≠ (W * 256 + j) % (n * 256) := fun j hj e => by
        have := ring_inj (L := n * 256) (x := x) (y := W * 256 + j) (by omega) (by omega) e
        omega
      have hx16 : ∀ j, j < 16 → x % (n * 256) ≠ W % n * 256 + j := by
        intro j hj
        rw [hbh j hj]; exact hx j (by omega)
      rw [wr_out, f3, nodeSize, wr_out, wr_out]
      · rw [l16]
        rintro ⟨a, b⟩
        have := hx16 (x % (n * 256) - W % n * 256) (by omega)
        omega
      · rw [l8]
        rintro ⟨a, b⟩
        have := hx16 (x % (n * 256) - W % n * 256) (by omega)
        omega
      · intro i hi
        rw [Nat.add_assoc]; exact hx (16 + i) (by omega)
      · rw [l8]
        rintro ⟨a, b⟩
        have := hx16 (x % (n * 256) - W % n * 256) (by omega)
        omega

/-- One send. -/
theorem send_spec {hash : List Byte → Nat} {c : Chan} {q : List (List Byte)} (h : Inv hash c q)
    {msg : List Byte} (hne : msg ≠ []) (hlen : msg.length + 271 < W64) :
    (used q + nodes msg.length + c.conf.prot < c.conf.n →
      ∃ c', send hash c msg = .done c' Err.SUCCESS ∧ Inv hash c' (q ++ [msg]) ∧ c'.conf = c.conf) ∧
    (¬ used q + nodes msg.length + c.conf.prot < c.conf.n →
      ∃ os, send hash c msg = .done { c with oseq := os } Err.BUFF_LIMIT) := by
  obtain ⟨ok, ⟨R, hR, hW, hlay⟩, room, fit⟩ := h
  have hk1 := nodes_pos msg.length
  have hlen0 : ¬ msg.length = 0 := by simpa using hne
  obtain ⟨t, ht⟩ : ∃ t, c.conf.retry = t + 1 := ⟨c.conf.retry - 1, by have := ok.retry; omega⟩
  have hnn := ok.nlt
  have hpl := ok.plt
  have hav := avail_iff (cf := c.conf) (R := R) (u := used q) (k := nodes msg.length) room hk1
  rw [hR, hW] at hav
  have hn1 := ok.n1
  have hwlt : c.wcur < c.conf.n := by rw [← hW]; exact Nat.mod_lt _ (by omega)
  refine ⟨fun hfit => ?_, fun hfit => ?_⟩
  · obtain ⟨hs, d2, e1, e2, e3, e4⟩ := send_writes (hash := hash) (c := c) (W := R + used q) (msg := msg)
      (k := nodes msg.length) (seq := fetchSeq c.oseq) rfl (by omega) hlen
    rw [hW] at e1 e2 e3
    have hsub : ¬ nodes msg.length ≥ sub64 c.conf.n c.conf.prot := by
      rw [sub64_le (by omega) (by omega)]; omega
    have hnx : next c.conf.n c.wcur (nodes msg.length) = (R + used q + nodes msg.length) % c.conf.n := by
      rw [← hW, next_mod]
    obtain ⟨m1, m2⟩ := e4 (fetchSeq c.oseq) ((R + used q + nodes msg.length) % c.conf.n)
    rw [hW] at m1 m2
    refine ⟨{ c with
        oseq := fetchSeq c.oseq, wcur := (R + used q + nodes msg.length) % c.conf.n
        heads := setHead hs c.wcur { hs c.wcur with written := true }
        data := wr d2 (c.wcur * nodeSize + 8) (toLE 8 (hash msg % W64)) }, ?_, ?_, ?_⟩
    · unfold send
      rw [ht]
      unfold sendLoop sendReal
      simp only [hlen0, if_false, calcNodes_eq hlen, hsub]
      rw [if_neg (hav.2 hfit), if_neg (by omega), hnx, e1]
      simp only
      rw [e2]
      simp only [setHead_eq, e3]
      simp [Err.SUCCESS, Err.NODE_BAD_BLOCK_CSEQ_ID, Err.NODE_BAD_BLOCK_WSEQ_ID]
    · refine ⟨ok, ⟨R, hR, by rw [used_append, ← Nat.add_assoc], ?_⟩, by rw [used_append]; show _ < c.conf.n; omega, ?_⟩
      · refine Lay.append (hlay.frame (by omega) (m2 R (by omega) (by omega))) m1
      · intro m hm
        rcases List.mem_append.1 hm with h | h
        · exact fit m h
        · simp only [List.mem_singleton] at h
          rw [h]
          exact ⟨hne, hlen, by show nodes msg.length + c.conf.prot < c.conf.n; omega⟩
    · rfl
  · unfold send
    rw [ht]
    unfold sendLoop sendReal
    simp only [hlen0, if_false, calcNodes_eq hlen]
    by_cases hsub : nodes msg.length ≥ sub64 c.conf.n c.conf.prot
    · refine ⟨c.oseq, ?_⟩
      rw [if_pos hsub]
      simp [Err.BUFF_LIMIT, Err.NODE_BAD_BLOCK_CSEQ_ID, Err.NODE_BAD_BLOCK_WSEQ_ID]
    · refine ⟨fetchSeq c.oseq, ?_⟩
      rw [if_neg hsub, if_pos (Classical.byContradiction fun hh => hfit (hav.1 hh))]
      simp [Err.BUFF_LIMIT, Err.NODE_BAD_BLOCK_CSEQ_ID, Err.NODE_BAD_BLOCK_WSEQ_ID]

theorem Inv.oseq {hash : List Byte → Nat} {c : Chan} {q : List (List Byte)} (h : Inv hash c q) (os : Nat) :
    Inv hash { c with oseq := os } q := by
  obtain ⟨ok, ⟨R, hR, hW, hlay⟩, room, fit⟩ := h
  exact ⟨ok, ⟨R, hR, hW, hlay.frame (by have := ok.n1; omega) ⟨rfl, fun _ _ _ => rfl, fun _ _ _ => rfl⟩⟩, room, fit⟩

theorem send_empty {hash : List Byte → Nat} {c : Chan} (h : 1 ≤ c.conf.retry) :
    send hash c [] = .done c Err.SUCCESS := by
  obtain ⟨t, ht⟩ : ∃ t, c.conf.retry = t + 1 := ⟨c.conf.retry - 1, by omega⟩
  unfold send
  rw [ht]
  simp [sendLoop, sendReal, Err.SUCCESS, Err.NODE_BAD_BLOCK_CSEQ_ID, Err.NODE_BAD_BLOCK_WSEQ_ID]

/-- One receive. -/
theorem recv_empty {hash : List Byte → Nat} {c : Chan} (h : Inv hash c []) (now len : Nat) :
    recv hash c now len = .done c Err.NO_DATA none [] := by
  obtain ⟨ok, ⟨R, hR, hW, hlay⟩, room, fit⟩ := h
  simp only [used, List.map_nil, List.sum_nil, Nat.add_zero] at hW
  unfold recv recvLoop
  simp only [← hR, hW, if_true]
  simp [orElse, ← hW]
  rw [hW]
  cases c
  simp_all

/-- A call that finds a finished message at the front; whatever lies behind it. -/
theorem recv_front {hash : List Byte → Nat} {c : Chan} {m : List Byte} {R u : Nat} (ok : ConfOK c.conf)
    (hR : R % c.conf.n = c.rcur) (hW : (R + u) % c.conf.n = c.wcur) (hm : MsgOK hash c R m) (hfit : MsgFit c.conf m)
    (hu1 : nodes m.length ≤ u) (hu2 : u < c.conf.n)
    (hb : nodes m.length < u → (c.heads ((R + nodes m.length) % c.conf.n)).start = true ∨
      (c.heads ((R + nodes m.length) % c.conf.n)).seq ≠ (c.heads (R % c.conf.n)).seq) (now len : Nat) :
    (len < m.length → recv hash c now len = .done c Err.BUFF_LIMIT (some m.length) []) ∧
    (m.length ≤ len → ∃ hs',
      recv hash c now len = .done { c with heads := hs', fft := 0, rcur := (R + nodes m.length) % c.conf.n }
        Err.SUCCESS (some m.length) m ∧
      (∀ x, (∀ i, i < nodes m.length → x ≠ (R + i) % c.conf.n) → hs' x = c.heads x) ∧
      (∀ i, i < nodes m.length → (hs' ((R + i) % c.conf.n)).start = false ∧ (hs' ((R + i) % c.conf.n)).written = false)) := by
  obtain ⟨hmne, hmlen, hmfit⟩ := hfit
  have hk1 := nodes_pos m.length
  have hkf := nodes_fit m.length
  have hnn := ok.nlt
  have hpm := ok.pm
  have hn1 := ok.n1
  have hcw : ¬ c.rcur = c.wcur := by
    rw [← hR, ← hW]
    intro e
    have := ring_inj (L := c.conf.n) (x := R) (y := R + u) (by omega) (by omega) e
    omega
  have hrlt : ¬ c.conf.n ≤ c.rcur := by rw [← hR]; have := Nat.mod_lt R (show 0 < c.conf.n by omega); omega
  obtain ⟨s, h1, h2⟩ := hm.heads
  rw [h1] at hb
  have hsz := hm.size
  rw [hR] at h1 hsz
  have hm0 : m.length ≠ 0 := by simpa using hmne
  have hszok : ¬ (m.length = 0 ∨ m.length ≥ sub64 (c.conf.n * nodeSize) c.conf.protMem) := by
    rw [sub64_le (by show c.conf.protMem ≤ c.conf.n * 256; omega) hnn]
    show ¬ (m.length = 0 ∨ m.length ≥ c.conf.n * 256 - c.conf.protMem)
    omega
  refine ⟨fun hl => ?_, fun hl => ?_⟩
  · unfold recv recvLoop
    simp only [if_neg hcw, if_neg hrlt, h1, if_true, hsz, if_neg hszok, if_pos hl]
    simp [orElse, Err.BUFF_LIMIT]
  · obtain ⟨hs', e1, e2, e3⟩ := clearNodes_spec (n := c.conf.n) (seq := s) (R := R) (k := nodes m.length)
      (stop := c.wcur) (by omega) (by
        intro j hj e
        rw [← hW] at e
        have := ring_inj (L := c.conf.n) (x := R + j) (y := R + u) (by omega) (by omega) e
        omega) 0 (c.conf.n + 1) c.heads (by omega) (by omega) (by
        intro i _ hi
        by_cases hi0 : i = 0
        · subst hi0
          rw [Nat.add_zero, hR, h1]
          exact ⟨rfl, fun h => absurd rfl h⟩
        · rw [h2 i (by omega) hi]
          exact ⟨rfl, fun _ => rfl⟩) (by
        by_cases he : nodes m.length = u
        · left; rw [← hW, he]
        · right
          rcases hb (by omega) with h | h
          · right; exact ⟨by omega, h⟩
          · left; exact h)
    rw [Nat.add_zero R, hR] at e1
    have hrc : rangeCount c.conf.n c.rcur ((R + nodes m.length) % c.conf.n) = nodes m.length := by
      rw [← hR]; exact rangeCount_abs (by omega)
    have hco := copyOut_spec (n := c.conf.n) (R := R) (k := nodes m.length) (d := c.data) (msg := m) hk1
      (by omega) hkf hm.bytes
    rw [hR] at hco
    simp only at hco
    have hck := hm.check
    rw [hR] at hck
    refine ⟨hs', ?_, fun x hx => e2 x (fun i _ hi => hx i hi), fun i hi => e3 i (by omega) hi⟩
    unfold recv recvLoop
    simp only [if_neg hcw, if_neg hrlt, h1, if_true, hsz, if_neg hszok, if_neg (show ¬ m.length > len by omega)]
    rw [e1]
    simp only [calcNodes_eq hmlen, hrc]
    simp only [ne_eq, not_true_eq_false, if_false, Bool.not_true, Bool.false_eq_true, hsz]
    by_cases hb : m.length ≤ c.conf.n * nodeSize - c.rcur * nodeSize - blockHead
    · obtain ⟨b1, b2⟩ := hco.1 hb
      rw [if_pos hb, if_pos b1, b2, hck]
      simp
    · obtain ⟨b1, b2⟩ := hco.2 hb
      rw [if_neg hb, if_pos b1, b2, hck]
      simp

theorem recv_spec {hash : List Byte → Nat} {c : Chan} {m : List Byte} {q : List (List Byte)}
    (h : Inv hash c (m :: q)) (now len : Nat) :
    (len < m.length → recv hash c now len = .done c Err.BUFF_LIMIT (some m.length) []) ∧
    (m.length ≤ len → ∃ c', recv hash c now len = .done c' Err.SUCCESS (some m.length) m ∧
      Inv hash c' q ∧ c'.conf = c.conf) := by
  obtain ⟨ok, ⟨R, hR, hW, hlay⟩, room, fit⟩ := h
  obtain ⟨hm, hlay'⟩ := hlay
  have hk1 := nodes_pos m.length
  have hn1 := ok.n1
  have hu : used (m :: q) = nodes m.length + used q := by simp [used]
  rw [hu] at hW room
  obtain ⟨r1, r2⟩ := recv_front ok hR hW hm (fit m (by simp)) (by omega) room (by
    intro hlt
    cases q with
    | nil => simp [used] at hlt
    | cons m' q =>
      left
      obtain ⟨s', h3, _⟩ := hlay'.1.heads
      rw [h3]) now len
  refine ⟨r1, fun hl => ?_⟩
  obtain ⟨hs', e1, e2, e3⟩ := r2 hl
  refine ⟨_, e1, ⟨ok, ⟨R + nodes m.length, rfl, ?_, hlay'.frame (by omega) ⟨rfl, ?_, fun _ _ _ => rfl⟩⟩, ?_,
    fun x hx => fit x (by simp [hx])⟩, rfl⟩
  · show (R + nodes m.length + used q) % c.conf.n = c.wcur
    rw [← hW, Nat.add_assoc]
  · intro b b1 b2
    apply e2
    intro i hi e
    have := ring_inj (L := c.conf.n) (x := b) (y := R + i) (by omega) (by omega) e
    omega
  · show used q < c.conf.n
    omega

theorem inv_init {hash : List Byte → Nat} {cf : Conf} (h : ConfOK cf) : Inv hash (initChan cf) [] := by
  refine ⟨h, ⟨0, by simp [initChan], by simp [initChan, used], trivial⟩, ?_, by simp⟩
  have := h.n1
  simp [used, initChan]; omega

end Verif.Mem
