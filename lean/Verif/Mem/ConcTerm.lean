import Verif.Mem.ConcTrack

/-! A call of `mem_recv` returns after a bounded number of its own accesses, whatever the memory contains and whatever
the senders do meanwhile. -/
namespace Verif.Mem.Conc

set_option maxRecDepth 10000

/-- Nodes from `a` to `b`. -/
def dist (n a b : Nat) : Nat := (b + n - a) % n

theorem dist_lt {n a b : Nat} (hn : 0 < n) : dist n a b < n := Nat.mod_lt _ hn

theorem dist_eq {n a b : Nat} (ha : a < n) (hb : b < n) : dist n a b = if a ≤ b then b - a else b + n - a := by
  unfold dist
  split
  · rw [show b + n - a = b - a + n by omega, Nat.add_mod_right, Nat.mod_eq_of_lt (by omega)]
  · rw [Nat.mod_eq_of_lt (by omega)]

theorem dist_pos {n a b : Nat} (ha : a < n) (hb : b < n) (h : a ≠ b) : 0 < dist n a b := by
  rw [dist_eq ha hb]; split <;> omega

theorem next_lt {n i k : Nat} (hn : 0 < n) : next n i k < n := Nat.mod_lt _ hn

theorem dist_next {n a b : Nat} (ha : a < n) (hb : b < n) (h : a ≠ b) : dist n (next n a 1) b = dist n a b - 1 := by
  have hn : next n a 1 = if a + 1 = n then 0 else a + 1 := by
    unfold next
    split
    · rename_i e; rw [e, Nat.mod_self]
    · rw [Nat.mod_eq_of_lt (by omega)]
  rw [dist_eq (next_lt (by omega)) hb, dist_eq ha hb, hn]
  by_cases e : a + 1 = n
  · rw [if_pos e]
    repeat' split
    all_goals omega
  · rw [if_neg e]
    repeat' split
    all_goals omega

/-- Accesses left after the node that is being looked at. -/
def rest (B n : Nat) (l : L) : Nat := (dist n l.rb l.w - 1) * (B + 3 * n + 20)

/-- Bound for the accesses left; `B` bounds sizes. -/
def left (B n : Nat) : RPC → Nat
  | .idle => 0
  | .loadR _ => n * (B + 3 * n + 20) + 3
  | .loadW _ _ => n * (B + 3 * n + 20) + 2
  | .flag l => rest B n l + (B + 3 * n + 20) + 1
  | .flag2 l => rest B n l + (B + 3 * n + 20)
  | .skip l => rest B n l + 2
  | .seqT l _ => rest B n l + 9
  | .flagT l _ => rest B n l + 8
  | .fft l _ => rest B n l + 7
  | .seqTO l => rest B n l + 5
  | .skipTO l => rest B n l + 2
  | .size l => rest B n l + (B + 3 * n + 19)
  | .skipBad l => rest B n l + 2
  | .seq0 l => rest B n l + (B + 3 * n + 18)
  | .clrSeq l _ re => rest B n l + B + 10 + 3 * dist n re l.w
  | .clrFlag l _ re => rest B n l + B + 9 + 3 * dist n re l.w
  | .clrSet l _ re => rest B n l + B + 8 + 3 * dist n re l.w
  | .num l _ => rest B n l + B + 8
  | .copy _ _ sz acc => 2 + (sz - acc.length)
  | .check _ _ _ => 2
  | .fin _ _ _ _ _ => 1

/-- The cursors of the search are in range. -/
def LOK (n : Nat) (l : L) : Prop := l.rb < n ∧ l.w < n ∧ l.rb ≠ l.w

/-- Indices are inside the channel. -/
def Shape (B n : Nat) : RPC → Prop
  | .idle => True
  | .loadR _ => True
  | .loadW _ ori => ori < n
  | .flag l | .flag2 l | .skip l | .seqT l _ | .flagT l _ | .fft l _ | .seqTO l | .skipTO l | .size l | .skipBad l
  | .seq0 l => LOK n l
  | .clrSeq l _ re | .clrFlag l _ re | .clrSet l _ re => LOK n l ∧ re < n ∧ re ≠ l.w
  | .num l re => LOK n l ∧ re < n
  | .copy _ re sz acc => re < n ∧ acc.length < sz ∧ sz < B
  | .check _ re _ => re < n
  | .fin _ re _ _ _ => re < n

/-- Invariant of the receiver. -/
structure RB (B : Nat) (s : St) : Prop where
  n : 0 < s.conf.n
  r : s.rcur < s.conf.n
  w : s.wcur < s.conf.n
  pc : Shape B s.conf.n s.rpc

theorem loopHead_left {B n : Nat} {l : L} (hr : l.rb < n) (hw : l.w < n) :
    Shape B n (loopHead l) ∧ left B n (loopHead l) ≤ dist n l.rb l.w * (B + 3 * n + 20) + 1 := by
  rcases loopHead_cases l with ⟨-, e⟩ | ⟨h, e⟩
  · rw [e]; exact ⟨hr, by simp only [left]; omega⟩
  · rw [e]
    refine ⟨⟨hr, hw, h⟩, ?_⟩
    have := dist_pos hr hw h
    simp only [left, rest]
    generalize dist n l.rb l.w = d at *
    obtain ⟨d, rfl⟩ : ∃ d', d = d' + 1 := ⟨d - 1, by omega⟩
    rw [Nat.add_sub_cancel, Nat.succ_mul d]
    omega

/-- The next node. -/
theorem loopHead_skip {B n : Nat} {l l1 : L} (h : LOK n l) (h1 : l1.rb = next n l.rb 1) (h2 : l1.w = l.w) :
    Shape B n (loopHead l1) ∧ left B n (loopHead l1) ≤ rest B n l + 1 := by
  obtain ⟨hr, hw, hne⟩ := h
  have := loopHead_left (B := B) (n := n) (l := l1) (by rw [h1]; exact next_lt (by omega)) (by rw [h2]; exact hw)
  rw [h1, h2, dist_next hr hw hne] at this
  exact this

theorem clrHead_left {B n : Nat} {l : L} {cs re : Nat} (h : LOK n l) (hre : re < n) :
    Shape B n (clrHead l cs re) ∧ left B n (clrHead l cs re) ≤ rest B n l + B + 10 + 3 * dist n re l.w ∧
    (dist n re l.w = 0 → left B n (clrHead l cs re) = rest B n l + B + 8) := by
  unfold clrHead
  split
  · exact ⟨⟨h, hre⟩, by simp only [left]; omega, fun _ => rfl⟩
  · rename_i hne
    have := dist_pos hre h.2.1 hne
    exact ⟨⟨h, hre, hne⟩, by simp only [left]; omega, fun h => by omega⟩

theorem copyHead_left {B n : Nat} {l : L} {re sz : Nat} {acc : List Byte} (hre : re < n) (hsz : sz < B) (hacc : acc.length ≤ sz) :
    Shape B n (copyHead l re sz acc) ∧ left B n (copyHead l re sz acc) ≤ 2 + (sz - acc.length) := by
  unfold copyHead
  split
  · exact ⟨hre, by simp only [left]; omega⟩
  · exact ⟨⟨hre, by omega, hsz⟩, by simp only [left]; omega⟩

theorem rb_rstep {B : Nat} {hash : List Byte → Nat} {s s1 : St} {now : Nat} (h : RB B s) (hB : ∀ i, bsize s.data i < B)
    (hs : stepRecv hash s now = some s1) :
    RB B s1 ∧ left B s1.conf.n s1.rpc < left B s.conf.n s.rpc := by
  have hto : ∀ (s' : St) pc, (s'.to pc).rpc = pc := fun _ _ => rfl
  obtain ⟨hn, hr, hw, hpc⟩ := h
  have fin1 : ∀ {pc : RPC} {s1 : St}, s1.conf = s.conf → s1.rcur < s.conf.n → s1.wcur = s.wcur → s1.rpc = pc →
      (Shape B s.conf.n pc ∧ left B s.conf.n pc < left B s.conf.n s.rpc) →
      RB B s1 ∧ left B s1.conf.n s1.rpc < left B s.conf.n s.rpc := by
    intro pc s1 a b c d e
    rw [a, d]
    exact ⟨⟨by rw [a]; exact hn, by rw [a]; exact b, by rw [a, c]; exact hw, by rw [a, d]; exact e.1⟩, e.2⟩
  unfold stepRecv at hs
  cases e : s.rpc with
  | idle => rw [e] at hs; cases hs
  | loadR len =>
    rw [← e]
    rw [e] at hs hpc
    simp only [Option.some.injEq] at hs
    subst hs
    exact fin1 rfl hr rfl (hto _ _) ⟨hr, by rw [e]; simp only [left]; omega⟩
  | loadW len ori =>
    rw [← e]
    rw [e] at hs hpc
    simp only [Option.some.injEq] at hs
    subst hs
    have := loopHead_left (B := B) (n := s.conf.n) (l := ⟨len, ori, ori, s.wcur, 0, 0⟩) hpc hw
    have hd := dist_lt (n := s.conf.n) (a := ori) (b := s.wcur) hn
    have hm := Nat.mul_le_mul_right (B + 3 * s.conf.n + 20) (Nat.le_of_lt hd)
    exact fin1 rfl hr rfl (hto _ _) ⟨this.1, by
      rw [e]
      have h2 := this.2
      simp only [left] at h2 ⊢
      omega⟩
  | flag l =>
    rw [← e]
    rw [e] at hs hpc
    simp only at hs
    have hpc : LOK s.conf.n l := hpc
    repeat' split at hs
    all_goals (simp only [Option.some.injEq] at hs; subst hs; exact fin1 rfl hr rfl (hto _ _) ⟨hpc, by rw [e]; simp only [left]; omega⟩)
  | flag2 l =>
    rw [← e]
    rw [e] at hs hpc
    have hpc : LOK s.conf.n l := hpc
    simp only at hs
    split at hs
    · simp only [Option.some.injEq] at hs; subst hs; exact fin1 rfl hr rfl (hto _ _) ⟨hpc, by rw [e]; simp only [left]; omega⟩
    · split at hs
      · simp only [Option.some.injEq] at hs; subst hs; exact fin1 rfl hr rfl (hto _ _) ⟨hpc.1, by rw [e]; simp only [left]; omega⟩
      · simp only [Option.some.injEq] at hs; subst hs; exact fin1 rfl hr rfl (hto _ _) ⟨hpc, by rw [e]; simp only [left]; omega⟩
  | skip l =>
    rw [← e]
    rw [e] at hs hpc
    simp only [Option.some.injEq] at hs
    subst hs
    have := loopHead_skip (B := B) (l1 := l.skip s.conf.n) hpc rfl rfl
    exact fin1 rfl hr rfl (hto _ _) ⟨this.1, by rw [e]; have h2 := this.2; simp only [left] at h2 ⊢; omega⟩
  | seqT l now' =>
    rw [← e]
    rw [e] at hs hpc
    have hpc : LOK s.conf.n l := hpc
    simp only [Option.some.injEq] at hs
    subst hs
    refine fin1 rfl hr rfl (hto _ _) ?_
    rw [e]
    split
    · exact ⟨hpc, by simp only [left]; omega⟩
    · exact ⟨hpc, by simp only [left]; omega⟩
  | flagT l now' =>
    rw [← e]
    rw [e] at hs hpc
    have hpc : LOK s.conf.n l := hpc
    simp only [Option.some.injEq] at hs
    subst hs
    refine fin1 rfl hr rfl (hto _ _) ?_
    rw [e]
    split
    · exact ⟨hpc, by simp only [left]; omega⟩
    · exact ⟨hpc, by simp only [left]; omega⟩
  | fft l now' =>
    rw [← e]
    rw [e] at hs hpc
    have hpc : LOK s.conf.n l := hpc
    simp only at hs
    split at hs
    · simp only [Option.some.injEq] at hs; subst hs; exact fin1 rfl hr rfl (hto _ _) ⟨hpc.1, by rw [e]; simp only [left]; omega⟩
    · split at hs
      · simp only [Option.some.injEq] at hs; subst hs; exact fin1 rfl hr rfl (hto _ _) ⟨hpc, by rw [e]; simp only [left]; omega⟩
      · simp only [Option.some.injEq] at hs; subst hs; exact fin1 rfl hr rfl (hto _ _) ⟨hpc.1, by rw [e]; simp only [left]; omega⟩
  | seqTO l =>
    rw [← e]
    rw [e] at hs hpc
    simp only [Option.some.injEq] at hs
    subst hs
    exact fin1 rfl hr rfl (hto _ _) ⟨hpc, by
      rw [e]
      show rest B s.conf.n l + 2 < rest B s.conf.n l + 5
      omega⟩
  | skipTO l =>
    rw [← e]
    rw [e] at hs hpc
    simp only [Option.some.injEq] at hs
    subst hs
    have := loopHead_skip (B := B) (l1 := l.skip s.conf.n) hpc rfl rfl
    exact fin1 rfl hr rfl (hto _ _) ⟨this.1, by rw [e]; have h2 := this.2; simp only [left] at h2 ⊢; omega⟩
  | size l =>
    rw [← e]
    rw [e] at hs hpc
    have hpc : LOK s.conf.n l := hpc
    simp only at hs
    split at hs
    · simp only [Option.some.injEq] at hs; rw [← hs]; exact fin1 rfl hr rfl (hto _ _) ⟨hpc, by rw [e]; simp only [left]; omega⟩
    · split at hs
      · simp only [Option.some.injEq] at hs; rw [← hs]; exact fin1 rfl hr rfl (hto _ _) ⟨hpc.1, by rw [e]; simp only [left]; omega⟩
      · simp only [Option.some.injEq] at hs; rw [← hs]; exact fin1 rfl hr rfl (hto _ _) ⟨hpc, by rw [e]; simp only [left]; omega⟩
  | skipBad l =>
    rw [← e]
    rw [e] at hs hpc
    simp only [Option.some.injEq] at hs
    subst hs
    have := loopHead_skip (B := B) (l1 := { l.skip s.conf.n with ret := orElse l.ret Err.NODE_BAD_BLOCK_BUFF_SIZE }) hpc rfl rfl
    exact fin1 rfl hr rfl (hto _ _) ⟨this.1, by rw [e]; have h2 := this.2; simp only [left] at h2 ⊢; omega⟩
  | seq0 l =>
    rw [← e]
    rw [e] at hs hpc
    have hpc : LOK s.conf.n l := hpc
    simp only [Option.some.injEq] at hs
    subst hs
    have := clrHead_left (B := B) (cs := (s.heads l.rb).seq) hpc hpc.1
    have hd := dist_lt (n := s.conf.n) (a := l.rb) (b := l.w) hn
    exact fin1 rfl hr rfl (hto _ _) ⟨this.1, by rw [e]; have h2 := this.2.1; simp only [left] at h2 ⊢; omega⟩
  | clrSeq l cs re =>
    rw [← e]
    rw [e] at hs hpc
    simp only [Option.some.injEq] at hs
    subst hs
    obtain ⟨a, b, c⟩ := hpc
    refine fin1 rfl hr rfl (hto _ _) ?_
    rw [e]
    split
    · exact ⟨⟨a, b⟩, by simp only [left]; omega⟩
    · exact ⟨⟨a, b, c⟩, by simp only [left]; omega⟩
  | clrFlag l cs re =>
    rw [← e]
    rw [e] at hs hpc
    simp only [Option.some.injEq] at hs
    subst hs
    obtain ⟨a, b, c⟩ := hpc
    refine fin1 rfl hr rfl (hto _ _) ?_
    rw [e]
    split
    · exact ⟨⟨a, b⟩, by simp only [left]; omega⟩
    · exact ⟨⟨a, b, c⟩, by simp only [left]; omega⟩
  | clrSet l cs re =>
    rw [← e]
    rw [e] at hs hpc
    simp only [Option.some.injEq] at hs
    subst hs
    obtain ⟨a, b, c⟩ := hpc
    have := clrHead_left (B := B) (cs := cs) (re := next s.conf.n re 1) a (next_lt hn)
    rw [dist_next b a.2.1 c] at this
    have hp := dist_pos b a.2.1 c
    exact fin1 rfl hr rfl (hto _ _) ⟨this.1, by
      rw [e]
      have h2 := this.2.1
      have h3 := this.2.2
      simp only [left] at h2 h3 ⊢
      by_cases e1 : dist s.conf.n re l.w - 1 = 0
      · have := h3 e1; omega
      · omega⟩
  | num l re =>
    rw [← e]
    rw [e] at hs hpc
    simp only at hs
    have hsz := hB l.rb
    generalize bsize s.data l.rb = sz at hs hsz
    split at hs
    · simp only [Option.some.injEq] at hs
      have := loopHead_skip (B := B) (l1 := { l.skip s.conf.n with ret := orElse l.ret Err.NODE_BAD_BLOCK_NODE_NUM }) hpc.1 rfl rfl
      rw [← hs]
      exact fin1 rfl hr rfl (hto _ _) ⟨this.1, by rw [e]; have h2 := this.2; simp only [left] at h2 ⊢; omega⟩
    · simp only [Option.some.injEq] at hs
      have := copyHead_left (B := B) (n := s.conf.n) (l := l) (acc := []) hpc.2 hsz (Nat.zero_le _)
      rw [← hs]
      exact fin1 rfl hr rfl (hto _ _) ⟨this.1, by rw [e]; have h2 := this.2; simp only [left, List.length_nil] at h2 ⊢; omega⟩
  | copy l re sz acc =>
    rw [← e]
    rw [e] at hs hpc
    simp only [Option.some.injEq] at hs
    obtain ⟨a, b, c⟩ := hpc
    have := copyHead_left (B := B) (n := s.conf.n) (l := l) (acc := acc ++ [s.data (byteAddr s.conf.n l.rb acc.length)]) a c
      (by rw [List.length_append]; exact b)
    rw [← hs]
    exact fin1 rfl hr rfl (hto _ _) ⟨this.1, by
      rw [e]; have h2 := this.2; simp only [left, List.length_append, List.length_singleton] at h2 ⊢; omega⟩
  | check l re acc =>
    rw [← e]
    rw [e] at hs hpc
    simp only [Option.some.injEq] at hs
    generalize (if hash acc % W64 ≠ bcheck s.data l.rb then Err.BAD_DATA else Err.SUCCESS) = ret at hs
    rw [← hs]
    exact fin1 rfl hr rfl (hto _ _) ⟨hpc, by rw [e]; simp only [left]; omega⟩
  | fin ori re ret sz bytes =>
    rw [← e]
    rw [e] at hs hpc
    simp only [Option.some.injEq] at hs
    rw [← hs]
    have hre : re < s.conf.n := hpc
    refine fin1 rfl ?_ rfl rfl ⟨trivial, by rw [e]; simp only [left]; omega⟩
    show (if ori ≠ re then re else s.rcur) < s.conf.n
    split <;> assumption

theorem bsize_lt (d : Nat → Byte) (i : Nat) : bsize d i < 2 ^ 64 := by
  have := fromLE_lt (rd d (i * nodeSize) 8)
  rw [show (rd d (i * nodeSize) 8).length = 8 by simp [rd]] at this
  exact this

theorem stepSend_wcur {hash : List Byte → Nat} {s s1 : St} {t : Nat} {weak : Bool} (hn : 0 < s.conf.n) (hw : s.wcur < s.conf.n)
    (hs : stepSend hash s t weak = some s1) : s1.wcur < s.conf.n := by
  unfold stepSend at hs
  split at hs
  · cases hs
  · cases hs
  · simp only [Option.some.injEq] at hs
    subst hs
    split <;> exact hw
  · simp only [Option.some.injEq] at hs
    subst hs
    exact hw
  · simp only at hs
    split at hs <;> (simp only [Option.some.injEq] at hs; subst hs; exact hw)
  · split at hs
    · simp only [Option.some.injEq] at hs; subst hs; exact hw
    · simp only at hs
      split at hs <;> (simp only [Option.some.injEq] at hs; subst hs; exact next_lt hn)
  · split at hs
    · cases hs
    · simp only at hs
      split at hs <;> (simp only [Option.some.injEq] at hs; subst hs; exact hw)
  · split at hs
    · simp only [Option.some.injEq] at hs; subst hs; exact hw
    · split at hs <;> (simp only [Option.some.injEq] at hs; subst hs; exact hw)

theorem callSend_cur (s : St) (t : Nat) (m : Msg) : (callSend s t m).wcur = s.wcur ∧ (callSend s t m).rcur = s.rcur := by
  unfold callSend
  split
  · exact ⟨rfl, rfl⟩
  · split
    · exact ⟨rfl, rfl⟩
    · split <;> exact ⟨rfl, rfl⟩

theorem rcur_other {hash : List Byte → Nat} {s s1 : St} {e : Ev} (hne : ∀ now, e ≠ .rstep now)
    (hnr : ∀ len, e ≠ .recv len) (hs : step hash s e = some s1) : s1.rcur = s.rcur := by
  cases e with
  | call t m =>
    simp only [step] at hs
    split at hs
    · simp only [Option.some.injEq] at hs
      subst hs
      exact (callSend_cur s t m).2
    · cases hs
  | send t weak =>
    simp only [step] at hs
    split at hs
    · exact (stepSend_frame hs).2.2.2.2.2.2.1
    · cases hs
  | crash t =>
    simp only [step, Option.some.injEq] at hs
    subst hs
    rfl
  | recv len => exact absurd rfl (hnr len)
  | rstep now => exact absurd rfl (hne now)

/-- The other steps. -/
theorem rb_other {B : Nat} {hash : List Byte → Nat} {s s1 : St} {e : Ev} (h : RB B s) (hne : ∀ now, e ≠ .rstep now)
    (hnr : ∀ len, e ≠ .recv len) (hs : step hash s e = some s1) : RB B s1 := by
  have hf := other_step hne hnr hs
  obtain ⟨hn, hr, hw, hpc⟩ := h
  have key : s1.rcur < s.conf.n ∧ s1.wcur < s.conf.n := by
    cases e with
    | call t m =>
      simp only [step] at hs
      split at hs
      · simp only [Option.some.injEq] at hs
        subst hs
        obtain ⟨a, b⟩ := callSend_cur s t m
        rw [a, b]; exact ⟨hr, hw⟩
      · cases hs
    | send t weak =>
      simp only [step] at hs
      split at hs
      · exact ⟨by rw [(stepSend_frame hs).2.2.2.2.2.2.1]; exact hr, stepSend_wcur hn hw hs⟩
      · cases hs
    | crash t =>
      simp only [step, Option.some.injEq] at hs
      subst hs
      exact ⟨hr, hw⟩
    | recv len => exact absurd rfl (hnr len)
    | rstep now => exact absurd rfl (hne now)
  have hc := hf.2.2.2.2.1
  exact ⟨by rw [hc]; exact hn, by rw [hc]; exact key.1, by rw [hc]; exact key.2, by rw [hc, hf.1]; exact hpc⟩

/-- Accesses of the receiver in a run. -/
def rsteps (es : List Ev) : Nat := es.countP fun e => match e with | .rstep _ => true | _ => false

theorem loopHead_ne (l : L) : loopHead l ≠ .idle := by unfold loopHead; split <;> nofun
theorem clrHead_ne (l : L) (cs re : Nat) : clrHead l cs re ≠ .idle := by unfold clrHead; split <;> nofun
theorem copyHead_ne (l : L) (re sz : Nat) (acc : List Byte) : copyHead l re sz acc ≠ .idle := by unfold copyHead; split <;> nofun

theorem stepRecv_not_idle {hash : List Byte → Nat} {s s1 : St} {now : Nat}
    (hnf : ∀ ori re ret sz bytes, s.rpc ≠ .fin ori re ret sz bytes) (hs : stepRecv hash s now = some s1) : s1.rpc ≠ .idle := by
  have hto : ∀ (s' : St) pc, (s'.to pc).rpc = pc := fun _ _ => rfl
  unfold stepRecv at hs
  simp only at hs
  generalize bsize s.data = f at hs
  split at hs
  case h_1 => cases hs
  case h_21 => rename_i hpc; exact absurd hpc (hnf _ _ _ _ _)
  case h_20 l re acc _ =>
    generalize (if hash acc % W64 ≠ bcheck s.data l.rb then Err.BAD_DATA else Err.SUCCESS) = ret at hs
    simp only [Option.some.injEq] at hs
    rw [← hs, hto]
    nofun
  all_goals (repeat' split at hs)
  all_goals (simp only [Option.some.injEq] at hs; rw [← hs, hto])
  all_goals (first | exact loopHead_ne _ | exact clrHead_ne _ _ _ | exact copyHead_ne _ _ _ _ | nofun | (split <;> nofun))

theorem rb_run {hash : List Byte → Nat} : ∀ {es : List Ev} {s s1 : St}, RB (2 ^ 64) s → s.rpc ≠ .idle →
    run hash s es = some s1 → s1.codes.length = s.codes.length → rsteps es < left (2 ^ 64) s.conf.n s.rpc := by
  intro es
  induction es with
  | nil =>
    intro s s1 h hi hs hc
    show 0 < _
    cases e : s.rpc <;> simp only [left] <;> first | omega | exact absurd e hi
  | cons e es ih =>
    intro s s1 h hi hs hc
    simp only [run] at hs
    split at hs
    · cases hs
    · rename_i s2 h2
      have hg := (grow_run hs).1
      by_cases hr : ∃ now, e = .rstep now
      · obtain ⟨now, rfl⟩ := hr
        have h2' : stepRecv hash s now = some s2 := h2
        obtain ⟨a, b⟩ := rb_rstep h (bsize_lt s.data) h2'
        rcases grow_step h2 with ⟨c, -⟩ | c
        · have hi2 : s2.rpc ≠ .idle := by
            intro hi2
            by_cases hfin : ∃ ori re ret sz bytes, s.rpc = .fin ori re ret sz bytes
            · obtain ⟨ori, re, ret, sz, bytes, hpc⟩ := hfin
              have := (stepRecv_fin hpc h2').2.2
              rw [c] at this
              have := congrArg List.length this
              simp at this
            · exact stepRecv_not_idle (fun a b c d e he => hfin ⟨a, b, c, d, e, he⟩) h2' hi2
          have := ih a hi2 hs (by rw [hc, c])
          have e1 : rsteps (.rstep now :: es) = rsteps es + 1 := by simp [rsteps]
          omega
        · omega
      · by_cases hv : ∃ len, e = .recv len
        · obtain ⟨len, rfl⟩ := hv
          simp only [step] at h2
          split at h2
          · rename_i hi2; exact absurd hi2 hi
          · cases h2
        · have hf := other_step (fun now he => hr ⟨now, he⟩) (fun len he => hv ⟨len, he⟩) h2
          have := ih (rb_other h (fun now he => hr ⟨now, he⟩) (fun len he => hv ⟨len, he⟩) h2) (by rw [hf.1]; exact hi) hs (by rw [hc, hf.2.1])
          rw [hf.1, hf.2.2.2.2.1] at this
          have e1 : rsteps (e :: es) = rsteps es := by
            cases e with
            | rstep now => exact absurd ⟨now, rfl⟩ hr
            | _ => simp [rsteps]
          rw [e1]
          exact this

end Verif.Mem.Conc
