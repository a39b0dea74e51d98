import Verif.Mem.Conc
import Verif.Mem.Seq

/-! What the accesses of one sender do to the memory of its reservation. -/
namespace Verif.Mem.Conc

set_option maxRecDepth 10000

/-- Heads, data and register. -/
abbrev M := (Nat → Head) × (Nat → Byte) × Bool

/-- Executes a list of accesses. -/
def exec (m : M) : List Act → M
  | [] => m
  | a :: as => exec (act m.1 m.2.1 m.2.2 a) as

theorem exec_append (m : M) (a b : List Act) : exec m (a ++ b) = exec (exec m a) b := by
  induction a generalizing m with
  | nil => rfl
  | cons x a ih => simp only [List.cons_append, exec]; exact ih _

/-- The access touches only nodes in `P`. -/
def Act.On (P : Nat → Prop) : Act → Prop
  | .put off bs => ∀ i, i < bs.length → P ((off + i) / 256)
  | .flag i _ _ => P i
  | .seq i _ => P i
  | .loadF i => P i
  | .storeF i => P i

theorem act_frame {P : Nat → Prop} {h : Nat → Head} {d : Nat → Byte} {r : Bool} {a : Act} (ha : a.On P) :
    (∀ x, ¬ P x → (act h d r a).1 x = h x) ∧ (∀ x, ¬ P (x / 256) → (act h d r a).2.1 x = d x) := by
  cases a with
  | put off bs =>
    refine ⟨fun _ _ => rfl, fun x hx => wr_out ?_⟩
    rintro ⟨h1, h2⟩
    have := ha (x - off) (by omega)
    rw [show off + (x - off) = x by omega] at this
    exact hx this
  | flag i s w => exact ⟨fun x hx => setHead_ne _ _ (fun e => hx (e ▸ ha)), fun _ _ => rfl⟩
  | seq i v => exact ⟨fun x hx => setHead_ne _ _ (fun e => hx (e ▸ ha)), fun _ _ => rfl⟩
  | loadF i => exact ⟨fun _ _ => rfl, fun _ _ => rfl⟩
  | storeF i => exact ⟨fun x hx => setHead_ne _ _ (fun e => hx (e ▸ ha)), fun _ _ => rfl⟩

theorem act_agree {P : Nat → Prop} {h h' : Nat → Head} {d d' : Nat → Byte} {r : Bool} {a : Act} (ha : a.On P)
    (hh : ∀ x, P x → h x = h' x) (hd : ∀ x, P (x / 256) → d x = d' x) :
    (∀ x, P x → (act h d r a).1 x = (act h' d' r a).1 x) ∧
    (∀ x, P (x / 256) → (act h d r a).2.1 x = (act h' d' r a).2.1 x) ∧
    (act h d r a).2.2 = (act h' d' r a).2.2 := by
  cases a with
  | put off bs =>
    refine ⟨hh, fun x hx => ?_, rfl⟩
    simp only [act, wr]
    split
    · rfl
    · exact hd x hx
  | flag i s w =>
    refine ⟨fun x hx => ?_, hd, rfl⟩
    simp only [act, setHead]
    split
    · rw [hh i ha]
    · exact hh x hx
  | seq i v =>
    refine ⟨fun x hx => ?_, hd, rfl⟩
    simp only [act, setHead]
    split
    · rw [hh i ha]
    · exact hh x hx
  | loadF i => exact ⟨hh, hd, by simp only [act]; rw [hh i ha]⟩
  | storeF i =>
    refine ⟨fun x hx => ?_, hd, rfl⟩
    simp only [act, setHead]
    split
    · rw [hh i ha]
    · exact hh x hx

/-! ### The list of accesses in absolute positions -/

/-- Accesses of `src/channel_mem.cpp:584-596` (block head and flags of the first node). -/
def init5 (n pos seq : Nat) : List Act :=
  [.put (pos % n * 256) (toLE 8 0), .put (pos % n * 256 + 8) (toLE 8 0), .put (pos % n * 256) (toLE 8 0),
    .flag (pos % n) true false, .seq (pos % n) seq]

/-- Accesses to the heads of the other nodes, `src/channel_mem.cpp:598-610`. -/
def marks (n pos k seq : Nat) : List Act :=
  ((List.range (k - 1)).map fun i => (pos + 1 + i) % n).flatMap fun i => [.flag i false true, .seq i seq]

/-- Accesses of `src/channel_mem.cpp:612-635`: size, data, check sum, load of the flag. -/
def body (hash : List Byte → Nat) (n pos k : Nat) (m : Msg) : List Act :=
  .put (pos % n * 256) (toLE 8 m.length) :: copyActs n (pos % n) ((pos + k) % n) m ++
    [.put (pos % n * 256 + 8) (toLE 8 (hash m % W64)), .loadF (pos % n)]

/-- The accesses of the sender of `m` that reserved the nodes from `pos`. -/
def plan (hash : List Byte → Nat) (n pos seq : Nat) (m : Msg) : List Act :=
  init5 n pos seq ++ (marks n pos (nodes m.length) seq ++ (body hash n pos (nodes m.length) m ++ [.storeF (pos % n)]))

theorem contNodes_eq {n W k : Nat} (hk : k < n) : ∀ (fuel j : Nat), 1 ≤ j → j ≤ k → k - j < fuel →
    contNodes n ((W + k) % n) fuel ((W + j) % n) = some ((List.range (k - j)).map fun i => (W + j + i) % n) := by
  intro fuel
  induction fuel with
  | zero => intro j _ _ h; omega
  | succ fuel ih =>
    intro j h1 h2 h3
    unfold contNodes
    by_cases e : j = k
    · subst e; simp
    · have hne : (W + j) % n ≠ (W + k) % n := fun h => by
        have := ring_inj (L := n) (x := W + j) (y := W + k) (by omega) (by omega) h
        omega
      rw [if_neg hne, next_mod, Nat.add_assoc, ih (j + 1) (by omega) (by omega) (by omega)]
      simp only [Option.map_some, Option.some.injEq]
      obtain ⟨d, hd⟩ : ∃ d, k - j = d + 1 := ⟨k - j - 1, by omega⟩
      rw [hd, show k - (j + 1) = d by omega, List.range_succ_eq_map]
      simp only [List.map_cons, List.map_map, Nat.add_zero, List.cons.injEq, true_and]
      apply List.map_congr_left
      intro i _
      simp only [Function.comp]
      congr 1; omega

theorem prog_eq {hash : List Byte → Nat} {n pos seq : Nat} {m : Msg} (hk : nodes m.length < n) :
    prog hash n (pos % n) ((pos + nodes m.length) % n) seq m = some (plan hash n pos seq m) := by
  unfold prog
  rw [next_mod, contNodes_eq hk (n + 1) 1 (Nat.le_refl _) (nodes_pos _) (by omega)]
  simp [plan, init5, marks, body, nodeSize]

/-- The nodes of a reservation. -/
def Reg (n pos k : Nat) : Nat → Prop := fun x => ∃ i, i < k ∧ x = (pos + i) % n

theorem addr_node {n a j : Nat} (hn : 0 < n) : ((a * 256 + j) % (n * 256)) / 256 = (a + j / 256) % n := by
  have h1 : a * 256 + j = (a + j / 256) * 256 + j % 256 := by omega
  rw [h1, mod_node hn (by omega)]
  omega

theorem head_reg {n pos k j : Nat} (hn : 0 < n) (hk : 1 ≤ k) (hj : j < 256) : Reg n pos k ((pos % n * 256 + j) / 256) :=
  ⟨0, by omega, by rw [Nat.add_zero]; omega⟩

theorem copy_addr {n pos k : Nat} {m : Msg} (h1 : 1 ≤ k) (hk : k < n) (hl : m.length + 16 ≤ k * 256) {i : Nat}
    (hi : i < m.length) : (pos * 256 + 16 + i) % (n * 256) =
      if pos % n * 256 + 16 + i < n * 256 then pos % n * 256 + 16 + i else pos % n * 256 + 16 + i - n * 256 := by
  have hn : 0 < n := by omega
  have := Nat.mod_lt pos hn
  rw [Nat.add_assoc, mod_shift hn, ← Nat.add_assoc]
  split
  · rename_i h; exact Nat.mod_eq_of_lt h
  · rename_i h; rw [Nat.mod_eq_sub_mod (by omega), Nat.mod_eq_of_lt (by omega)]

theorem byte_reg {n pos k : Nat} {m : Msg} (hk : k < n) (hl : m.length + 16 ≤ k * 256) {i : Nat}
    (hi : i < m.length) : Reg n pos k (((pos * 256 + 16 + i) % (n * 256)) / 256) := by
  have hn : 0 < n := by omega
  rw [Nat.add_assoc, addr_node hn]
  exact ⟨(16 + i) / 256, by omega, rfl⟩

theorem mem_puts {off : Nat} {bs : List Byte} {a : Act} (h : a ∈ puts off bs) :
    ∃ i, i < bs.length ∧ ∃ b, a = .put (off + i) [b] := by
  simp only [puts, List.mem_map, List.mem_range] at h
  obtain ⟨i, hi, rfl⟩ := h
  refine ⟨i, hi, bs[i], ?_⟩
  rw [List.drop_eq_getElem_cons hi]
  rfl

theorem copyActs_on {n pos k : Nat} {m : Msg} (h1 : 1 ≤ k) (hk : k < n) (hl : m.length + 16 ≤ k * 256) :
    ∀ a ∈ copyActs n (pos % n) ((pos + k) % n) m, a.On (Reg n pos k) ∧ a.inside n = true ∧ ∃ o b, a = .put o [b] := by
  intro a ha
  have hn : 0 < n := by omega
  have hw := Nat.mod_lt pos hn
  have key : ∀ i, i < m.length → ∀ o, o = (pos * 256 + 16 + i) % (n * 256) → ∀ b : Byte,
      (Act.put o [b]).On (Reg n pos k) ∧ (Act.put o [b]).inside n = true := by
    intro i hi o ho b
    refine ⟨?_, ?_⟩
    · intro j hj
      simp only [List.length_singleton] at hj
      rw [show j = 0 by omega, Nat.add_zero, ho]
      exact byte_reg hk hl hi
    · have := Nat.mod_lt (pos * 256 + 16 + i) (show 0 < n * 256 by omega)
      simp only [Act.inside, List.length_singleton, nodeSize, decide_eq_true_eq]
      omega
  have hw' : (pos + k) % n = if pos % n + k < n then pos % n + k else pos % n + k - n := by
    rw [← Nat.mod_add_mod]
    split
    · rename_i h; exact Nat.mod_eq_of_lt h
    · rename_i h; rw [Nat.mod_eq_sub_mod (by omega), Nat.mod_eq_of_lt (by omega)]
  unfold copyActs at ha
  simp only [nodeSize, blockHead] at ha
  split at ha
  · rename_i hc
    generalize hcl : (if m.length > n * 256 - pos % n * 256 - 16 then n * 256 - pos % n * 256 - 16 else m.length) = cl at ha
    rcases List.mem_append.1 ha with h | h
    · obtain ⟨i, hi, b, rfl⟩ := mem_puts h
      rw [List.length_take] at hi
      obtain ⟨p1, p2⟩ := key i (by omega) _ (by rw [copy_addr h1 hk hl (by omega), if_pos]; split at hcl <;> omega) b
      exact ⟨p1, p2, _, _, rfl⟩
    · obtain ⟨i, hi, b, rfl⟩ := mem_puts h
      rw [List.length_drop] at hi
      obtain ⟨p1, p2⟩ := key (cl + i) (by omega) (0 + i) (by
        rw [copy_addr h1 hk hl (by omega), if_neg]
        · split at hcl <;> omega
        · split at hcl <;> omega) b
      exact ⟨p1, p2, _, _, rfl⟩
  · rename_i hc
    obtain ⟨i, hi, b, rfl⟩ := mem_puts ha
    obtain ⟨p1, p2⟩ := key i hi (pos % n * 256 + 16 + i) (by
      rw [copy_addr h1 hk hl hi, if_pos]
      split at hw' <;> omega) b
    exact ⟨p1, p2, _, _, rfl⟩

theorem plan_on {hash : List Byte → Nat} {n pos seq : Nat} {m : Msg} (hk : nodes m.length < n) :
    ∀ a ∈ plan hash n pos seq m, a.On (Reg n pos (nodes m.length)) ∧ a.inside n = true := by
  have h1 := nodes_pos m.length
  have hl := nodes_fit m.length
  have hn : 0 < n := by omega
  have hw := Nat.mod_lt pos hn
  have l8 : ∀ v, (toLE 8 v).length = 8 := toLE_length 8
  have hR : Reg n pos (nodes m.length) (pos % n) := ⟨0, by omega, rfl⟩
  have hp : ∀ j v, j ≤ 8 → (Act.put (pos % n * 256 + j) (toLE 8 v)).On (Reg n pos (nodes m.length)) ∧
      (Act.put (pos % n * 256 + j) (toLE 8 v)).inside n = true := by
    intro j v hj
    refine ⟨fun i hi => ?_, ?_⟩
    · rw [l8] at hi
      rw [Nat.add_assoc]
      exact head_reg hn h1 (by omega)
    · simp only [Act.inside, l8, nodeSize, decide_eq_true_eq]; omega
  have hp0 := fun v => hp 0 v (by omega)
  simp only [Nat.add_zero] at hp0
  intro a ha
  simp only [plan, init5, marks, body, List.mem_append, List.mem_cons, List.mem_flatMap, List.mem_map, List.mem_range,
    List.not_mem_nil, or_false] at ha
  rcases ha with (rfl | rfl | rfl | rfl | rfl) | ⟨x, ⟨i, hi, rfl⟩, (rfl | rfl)⟩ | ((rfl | h) | (rfl | rfl)) | rfl
  · exact hp0 0
  · exact hp 8 0 (by omega)
  · exact hp0 0
  · exact ⟨hR, by simpa [Act.inside] using hw⟩
  · exact ⟨hR, by simpa [Act.inside] using hw⟩
  · exact ⟨⟨i + 1, by omega, by congr 1; omega⟩, by simpa [Act.inside] using Nat.mod_lt _ hn⟩
  · exact ⟨⟨i + 1, by omega, by congr 1; omega⟩, by simpa [Act.inside] using Nat.mod_lt _ hn⟩
  · exact hp0 _
  · exact ⟨(copyActs_on h1 hk hl a h).1, (copyActs_on h1 hk hl a h).2.1⟩
  · exact hp 8 _ (by omega)
  · exact ⟨hR, by simpa [Act.inside] using hw⟩
  · exact ⟨hR, by simpa [Act.inside] using hw⟩

/-! ### Sequence numbers -/

theorem copyActs_put {n w w' : Nat} {m : Msg} {a : Act} (h : a ∈ copyActs n w w' m) : ∀ i v, a ≠ .seq i v := by
  have key : ∀ {off bs}, a ∈ puts off bs → ∀ i v, a ≠ .seq i v := by
    intro off bs h i v e
    simp only [puts, List.mem_map] at h
    obtain ⟨_, _, h⟩ := h
    rw [e] at h
    cases h
  unfold copyActs at h
  simp only at h
  split at h
  · rcases List.mem_append.1 h with h | h <;> exact key h
  · exact key h

/-- A sender writes no sequence number but its own. -/
theorem plan_seq {hash : List Byte → Nat} {n pos seq : Nat} {m : Msg} {i v : Nat}
    (h : .seq i v ∈ plan hash n pos seq m) : v = seq := by
  simp only [plan, init5, marks, body, List.mem_append, List.mem_cons, List.mem_flatMap, List.mem_map, List.mem_range,
    List.not_mem_nil, or_false] at h
  rcases h with (h | h | h | h | h) | ⟨x, ⟨_, _, _⟩, (h | h)⟩ | ((h | h) | (h | h)) | h <;> first | cases h; done | skip
  all_goals first | (cases h; rfl) | exact absurd rfl (copyActs_put h i v)

theorem prog_seq {hash : List Byte → Nat} {n w w' seq : Nat} {m : Msg} {acts : List Act} {i v : Nat}
    (hp : prog hash n w w' seq m = some acts) (h : .seq i v ∈ acts) : v = seq := by
  unfold prog at hp
  cases hc : contNodes n w' (n + 1) (next n w 1) with
  | none => rw [hc] at hp; cases hp
  | some is =>
    rw [hc] at hp
    simp only [Option.map_some, Option.some.injEq] at hp
    subst hp
    simp only [List.mem_append, List.mem_cons, List.mem_flatMap, List.not_mem_nil, or_false] at h
    rcases h with ((h | h | h | h | h) | ⟨x, _, (h | h)⟩) | (h | h) | (h | h | h) <;> first | cases h; done | skip
    all_goals first | (cases h; rfl) | exact absurd rfl (copyActs_put h i v)

theorem act_seq {h : Nat → Head} {d : Nat → Byte} {r : Bool} {a : Act} {q : Nat} (ha : ∀ i v, a = .seq i v → v = q) (x : Nat) :
    ((act h d r a).1 x).seq = (h x).seq ∨ ((act h d r a).1 x).seq = q := by
  cases a with
  | put off bs => exact Or.inl rfl
  | flag i st wt =>
    left
    simp only [act, setHead]
    split
    · rename_i e; rw [e]
    · rfl
  | seq i v =>
    simp only [act, setHead]
    split
    · exact Or.inr (ha i v rfl)
    · exact Or.inl rfl
  | loadF i => exact Or.inl rfl
  | storeF i =>
    left
    simp only [act, setHead]
    split
    · rename_i e; rw [e]
    · rfl

/-! ### Phases -/

/-- The access does not change the head of node `x`. -/
def Act.Keeps (x : Nat) : Act → Prop
  | .put _ _ => True
  | .loadF _ => True
  | .flag i _ _ => i ≠ x
  | .seq i _ => i ≠ x
  | .storeF i => i ≠ x

theorem exec_keeps {x : Nat} : ∀ {l : List Act} (m : M), (∀ a ∈ l, a.Keeps x) → (exec m l).1 x = m.1 x := by
  intro l
  induction l with
  | nil => intro m _; rfl
  | cons a l ih =>
    intro m h
    simp only [exec]
    rw [ih _ (fun b hb => h b (List.mem_cons_of_mem _ hb))]
    have := h a List.mem_cons_self
    cases a with
    | put => rfl
    | loadF => rfl
    | flag i s w => exact setHead_ne _ _ (fun e => this e.symm)
    | seq i v => exact setHead_ne _ _ (fun e => this e.symm)
    | storeF i => exact setHead_ne _ _ (fun e => this e.symm)

theorem marks_keeps {n pos k seq : Nat} (hk : k < n) : ∀ a ∈ marks n pos k seq, a.Keeps (pos % n) := by
  intro a ha
  simp only [marks, List.mem_flatMap, List.mem_map, List.mem_range, List.mem_cons, List.not_mem_nil, or_false] at ha
  obtain ⟨x, ⟨i, hi, rfl⟩, h⟩ := ha
  have hne : (pos + 1 + i) % n ≠ pos % n := fun e => by
    have := ring_inj (L := n) (x := pos + 1 + i) (y := pos) (by omega) (by omega) e
    omega
  rcases h with rfl | rfl <;> exact hne

theorem body_keeps {hash : List Byte → Nat} {n pos k : Nat} {m : Msg} (h1 : 1 ≤ k) (hk : k < n)
    (hl : m.length + 16 ≤ k * 256) (x : Nat) : ∀ a ∈ body hash n pos k m, a.Keeps x := by
  intro a ha
  simp only [body, List.mem_append, List.mem_cons, List.not_mem_nil, or_false] at ha
  rcases ha with (rfl | h) | (rfl | rfl)
  · trivial
  · obtain ⟨_, _, o, b, rfl⟩ := copyActs_on h1 hk hl a h
    trivial
  · trivial
  · trivial

theorem init5_head {n pos seq cnt : Nat} (m : M) (hc : m.1 (pos % n) = ⟨false, false, (m.1 (pos % n)).seq⟩) :
    (exec m ((init5 n pos seq).take cnt)).1 (pos % n) =
      if cnt ≤ 3 then m.1 (pos % n) else if cnt = 4 then ⟨true, false, (m.1 (pos % n)).seq⟩ else ⟨true, false, seq⟩ := by
  match cnt with
  | 0 | 1 | 2 | 3 => rfl
  | 4 =>
    simp only [init5, List.take, exec, act, setHead_eq]
    rfl
  | c + 5 =>
    simp only [init5, List.take, List.take_nil, exec, act, setHead_eq]
    rw [if_neg (by omega), if_neg (by omega)]

theorem init5_keeps {n pos seq : Nat} {x : Nat} (hx : x ≠ pos % n) : ∀ a ∈ init5 n pos seq, a.Keeps x := by
  intro a ha
  simp only [init5, List.mem_cons, List.not_mem_nil, or_false] at ha
  rcases ha with rfl | rfl | rfl | rfl | rfl
  · trivial
  · trivial
  · trivial
  · exact fun e => hx e.symm
  · exact fun e => hx e.symm

theorem marks_length (n pos k seq : Nat) : (marks n pos k seq).length = 2 * (k - 1) := by
  have H : ∀ l : List Nat, (l.flatMap fun i => [Act.flag i false true, Act.seq i seq]).length = 2 * l.length := by
    intro l
    induction l with
    | nil => rfl
    | cons x l ih =>
      rw [List.flatMap_cons, List.length_append, ih, List.length_cons, List.length_cons, List.length_cons, List.length_nil]
      omega
  rw [marks, H]; simp

/-- Number of accesses until all node heads are written. -/
def lateCnt (m : Msg) : Nat := 5 + 2 * (nodes m.length - 1)

theorem plan_length {hash : List Byte → Nat} {n pos seq : Nat} {m : Msg} :
    (plan hash n pos seq m).length = lateCnt m + (body hash n pos (nodes m.length) m).length + 1 := by
  simp only [plan, List.length_append, marks_length, lateCnt, init5, List.length_cons, List.length_nil]
  omega

theorem plan_late_lt {hash : List Byte → Nat} {n pos seq : Nat} {m : Msg} :
    lateCnt m < (plan hash n pos seq m).length := by rw [plan_length]; omega

/-- `take` of the plan, in parts. -/
theorem plan_take (hash : List Byte → Nat) (n pos seq : Nat) (m : Msg) (cnt : Nat) :
    (plan hash n pos seq m).take cnt = (init5 n pos seq).take cnt ++ ((marks n pos (nodes m.length) seq).take (cnt - 5) ++
      ((body hash n pos (nodes m.length) m).take (cnt - lateCnt m) ++
        [Act.storeF (pos % n)].take (cnt - lateCnt m - (body hash n pos (nodes m.length) m).length))) := by
  have e : cnt - 5 - 2 * (nodes m.length - 1) = cnt - lateCnt m := by unfold lateCnt; omega
  rw [plan, List.take_append, List.take_append, List.take_append, marks_length]
  simp only [init5, List.length_cons, List.length_nil]
  rw [e]

theorem take_keeps {x : Nat} {l : List Act} (h : ∀ a ∈ l, a.Keeps x) (c : Nat) : ∀ a ∈ l.take c, a.Keeps x :=
  fun a ha => h a (List.mem_of_mem_take ha)

theorem plan_head {hash : List Byte → Nat} {n pos seq : Nat} {m : Msg} (hk : nodes m.length < n) (b : M)
    (hc : b.1 (pos % n) = ⟨false, false, (b.1 (pos % n)).seq⟩) (cnt : Nat) :
    (exec b ((plan hash n pos seq m).take cnt)).1 (pos % n) =
      if cnt ≤ 3 then b.1 (pos % n) else if cnt = 4 then ⟨true, false, (b.1 (pos % n)).seq⟩
      else if cnt < (plan hash n pos seq m).length then ⟨true, false, seq⟩ else ⟨true, true, seq⟩ := by
  have h1 := nodes_pos m.length
  have hl := nodes_fit m.length
  rw [plan_take, exec_append, exec_append, exec_append]
  have e2 : (exec (exec (exec b ((init5 n pos seq).take cnt)) ((marks n pos (nodes m.length) seq).take (cnt - 5)))
      ((body hash n pos (nodes m.length) m).take (cnt - lateCnt m))).1 (pos % n) =
      (exec b ((init5 n pos seq).take cnt)).1 (pos % n) := by
    rw [exec_keeps _ (take_keeps (body_keeps h1 hk hl _) _), exec_keeps _ (take_keeps (marks_keeps hk) _)]
  have e3 := init5_head (n := n) (pos := pos) (seq := seq) (cnt := cnt) b hc
  have hlen := plan_length (hash := hash) (n := n) (pos := pos) (seq := seq) (m := m)
  have hlate : 5 ≤ lateCnt m := by unfold lateCnt; omega
  by_cases hf : cnt < (plan hash n pos seq m).length
  · have : [Act.storeF (pos % n)].take (cnt - lateCnt m - (body hash n pos (nodes m.length) m).length) = [] := by
      rw [show cnt - lateCnt m - (body hash n pos (nodes m.length) m).length = 0 by omega]; rfl
    rw [this]
    simp only [exec]
    rw [e2, e3, if_pos hf]
  · obtain ⟨c, hcc⟩ : ∃ c, cnt - lateCnt m - (body hash n pos (nodes m.length) m).length = c + 1 :=
      ⟨cnt - lateCnt m - (body hash n pos (nodes m.length) m).length - 1, by omega⟩
    rw [hcc, if_neg hf]
    rw [if_neg (by omega), if_neg (by omega)] at e3
    rw [if_neg (by omega), if_neg (by omega)]
    have ht : (body hash n pos (nodes m.length) m).take (cnt - lateCnt m) = body hash n pos (nodes m.length) m :=
      List.take_of_length_le (by omega)
    rw [ht] at e2 ⊢
    generalize hM : exec (exec b ((init5 n pos seq).take cnt)) ((marks n pos (nodes m.length) seq).take (cnt - 5)) = M1 at *
    have hreg : (exec M1 (body hash n pos (nodes m.length) m)).2.2 = true := by
      have hb : body hash n pos (nodes m.length) m =
          (.put (pos % n * 256) (toLE 8 m.length) :: copyActs n (pos % n) ((pos + nodes m.length) % n) m ++
            [.put (pos % n * 256 + 8) (toLE 8 (hash m % W64))]) ++ [.loadF (pos % n)] := by
        simp [body]
      rw [hb, exec_append] at e2 ⊢
      simp only [exec, act] at e2 ⊢
      rw [e2, e3]
    simp only [List.take, List.take_nil, exec, act, setHead_eq]
    rw [hreg, e2, e3]

theorem marks_run {n pos seq : Nat} : ∀ (l : List Nat) (m : M), l.Nodup → ∀ x ∈ l,
    (exec m (l.flatMap fun i => [Act.flag i false true, Act.seq i seq])).1 x = ⟨false, true, seq⟩ := by
  intro l
  induction l with
  | nil => intro m _ x hx; cases hx
  | cons y l ih =>
    intro m hd x hx
    rw [List.flatMap_cons, exec_append]
    rw [List.nodup_cons] at hd
    by_cases hxl : x ∈ l
    · exact ih _ hd.2 x hxl
    · have hxy : x = y := by
        rcases List.mem_cons.1 hx with h | h
        · exact h
        · exact absurd h hxl
      subst hxy
      rw [exec_keeps]
      · simp only [exec, act, setHead_eq]
      · intro a ha
        simp only [List.mem_flatMap, List.mem_cons, List.not_mem_nil, or_false] at ha
        obtain ⟨i, hi, h⟩ := ha
        have : i ≠ x := fun e => hxl (e ▸ hi)
        rcases h with rfl | rfl <;> exact this

theorem plan_cont {hash : List Byte → Nat} {n pos seq : Nat} {m : Msg} (hk : nodes m.length < n) (b : M) {cnt : Nat}
    (hlate : lateCnt m ≤ cnt) {i : Nat} (hi1 : 1 ≤ i) (hi : i < nodes m.length) :
    (exec b ((plan hash n pos seq m).take cnt)).1 ((pos + i) % n) = ⟨false, true, seq⟩ := by
  have h1 := nodes_pos m.length
  have hl := nodes_fit m.length
  have hne : (pos + i) % n ≠ pos % n := fun e => by
    have := ring_inj (L := n) (x := pos + i) (y := pos) (by omega) (by omega) e
    omega
  rw [plan_take, exec_append, exec_append, exec_append]
  rw [exec_keeps, exec_keeps _ (take_keeps (body_keeps h1 hk hl _) _)]
  · rw [List.take_of_length_le (l := marks n pos (nodes m.length) seq)
      (by rw [marks_length]; unfold lateCnt at hlate; omega)]
    unfold marks
    apply marks_run (n := n) (pos := pos)
    · apply List.pairwise_map.2
      refine List.Pairwise.imp_of_mem ?_ (List.nodup_range)
      intro a c ha hc hac e
      rw [List.mem_range] at ha hc
      have := ring_inj (L := n) (x := pos + 1 + a) (y := pos + 1 + c) (by omega) (by omega) e
      omega
    · rw [List.mem_map]
      exact ⟨i - 1, by rw [List.mem_range]; omega, by congr 1; omega⟩
  · intro a ha
    have := List.mem_of_mem_take ha
    simp only [List.mem_cons, List.not_mem_nil, or_false] at this
    subst this
    exact fun e => hne e.symm

/-! ### Data -/

theorem exec_puts (off : Nat) (bs : List Byte) (m : M) : exec m (puts off bs) = (m.1, wr m.2.1 off bs, m.2.2) := by
  induction bs generalizing off m with
  | nil =>
    simp only [puts, List.length_nil, List.range_zero, List.map_nil, exec]
    have : wr m.2.1 off [] = m.2.1 := by
      funext x; exact wr_out (by simp)
    rw [this]
  | cons b bs ih =>
    have e : puts off (b :: bs) = .put off [b] :: puts (off + 1) bs := by
      simp only [puts, List.length_cons, List.range_succ_eq_map, List.map_cons, List.map_map, Nat.add_zero,
        List.drop_zero, List.take_succ_cons, List.take_zero, List.cons.injEq, true_and]
      apply List.map_congr_left
      intro i _
      simp only [Function.comp, List.drop_succ_cons]
      congr 1; omega
    rw [e]
    simp only [exec, act]
    rw [ih]
    simp only
    congr 2
    funext x
    by_cases h1 : x = off
    · subst h1
      rw [wr_out (by omega), wr_in ⟨by omega, by simp⟩, wr_in ⟨by omega, by simp⟩]
      simp
    · by_cases h2 : off + 1 ≤ x ∧ x < off + 1 + bs.length
      · rw [wr_in h2, wr_in ⟨by omega, by simp; omega⟩]
        obtain ⟨j, hj⟩ : ∃ j, x - off = j + 1 := ⟨x - off - 1, by omega⟩
        have hj2 : x - (off + 1) = j := by omega
        simp only [hj, hj2, List.getElem_cons_succ]
      · rw [wr_out h2, wr_out (by simp; omega), wr_out (by simp; omega)]

theorem exec_copyActs {n w w' : Nat} {m : Msg} {d' : Nat → Byte} (b : M) (h : copyIn n b.2.1 w w' m = some d') :
    exec b (copyActs n w w' m) = (b.1, d', b.2.2) := by
  unfold copyIn at h
  unfold copyActs
  simp only at h ⊢
  by_cases hc : w' ≠ 0 ∧ w' < w
  · rw [if_pos hc] at h ⊢
    rw [exec_append, exec_puts, exec_puts]
    generalize (if m.length > n * nodeSize - w * nodeSize - blockHead then n * nodeSize - w * nodeSize - blockHead
      else m.length) = cl at h ⊢
    split at h
    · simp only [Option.some.injEq] at h
      rw [← h]
    · cases h
  · rw [if_neg hc] at h ⊢
    split at h
    · simp only [Option.some.injEq] at h
      rw [exec_puts, ← h]
    · cases h

/-- The block head and the bytes of a message are in place. -/
structure Block (hash : List Byte → Nat) (n : Nat) (d : Nat → Byte) (a : Nat) (m : Msg) : Prop where
  size : bsize d (a % n) = m.length
  check : bcheck d (a % n) = hash m % W64
  bytes : ∀ i (hi : i < m.length), d ((a * 256 + 16 + i) % (n * 256)) = m[i]

theorem exec_noput {l : List Act} (h : ∀ a ∈ l, ∀ o bs, a ≠ .put o bs) (b : M) : (exec b l).2.1 = b.2.1 := by
  induction l generalizing b with
  | nil => rfl
  | cons a l ih =>
    simp only [exec]
    rw [ih (fun x hx => h x (List.mem_cons_of_mem _ hx))]
    cases a with
    | put o bs => exact absurd rfl (h _ List.mem_cons_self o bs)
    | _ => rfl

theorem plan_data {hash : List Byte → Nat} {n pos seq : Nat} {m : Msg} (hk : nodes m.length < n)
    (hlen : m.length + 271 < W64) (b : M) : Block hash n (exec b (plan hash n pos seq m)).2.1 pos m := by
  have h1 := nodes_pos m.length
  have hl := nodes_fit m.length
  have hn : 0 < n := by omega
  have l8 : ∀ v, (toLE 8 v).length = 8 := toLE_length 8
  rw [plan, exec_append, exec_append, exec_append, exec_noput (l := [Act.storeF (pos % n)])
    (by intro a ha o bs e; rw [e] at ha; simp at ha)]
  generalize hM : exec (exec b (init5 n pos seq)) (marks n pos (nodes m.length) seq) = M1
  obtain ⟨d2, f1, f2, f3⟩ := copyIn_spec (n := n) (W := pos) (k := nodes m.length)
    (d := wr M1.2.1 (pos % n * 256) (toLE 8 m.length)) (msg := m) h1 hk hl
  have hd : (exec M1 (body hash n pos (nodes m.length) m)).2.1 = wr d2 (pos % n * 256 + 8) (toLE 8 (hash m % W64)) := by
    simp only [body, List.cons_append, exec]
    rw [exec_append, exec_copyActs (d' := d2) _ f1]
    rfl
  rw [hd]
  have hbh : ∀ j, j < 16 → pos % n * 256 + j = (pos * 256 + j) % (n * 256) := by
    intro j hj; rw [mod_node hn (by omega)]
  have hne : ∀ j, j < 16 → ∀ i, i < m.length → pos % n * 256 + j ≠ (pos * 256 + 16 + i) % (n * 256) := by
    intro j hj i hi e
    rw [hbh j hj] at e
    have := ring_inj (L := n * 256) (x := pos * 256 + j) (y := pos * 256 + 16 + i) (by omega) (by omega) e
    omega
  refine ⟨?_, ?_, ?_⟩
  · simp only [bsize, nodeSize]
    have : rd (wr d2 (pos % n * 256 + 8) (toLE 8 (hash m % W64))) (pos % n * 256) 8 = toLE 8 m.length := by
      have := rd_eq_list (d := wr d2 (pos % n * 256 + 8) (toLE 8 (hash m % W64))) (o := pos % n * 256)
        (l := toLE 8 m.length) (by
          intro i hi
          rw [l8] at hi
          rw [wr_out (by rw [l8]; omega), f3 _ (hne i (by omega)), wr_at (by rw [l8]; exact hi)])
      rw [l8] at this
      exact this
    rw [this]
    exact fromLE_toLE64 (by omega)
  · simp only [bcheck, nodeSize]
    have := rd_wr d2 (pos % n * 256 + 8) (toLE 8 (hash m % W64))
    rw [l8] at this
    rw [this]
    exact fromLE_toLE64 (Nat.mod_lt _ (by decide))
  · intro i hi
    rw [wr_out, f2 i hi]
    rw [l8]
    rintro ⟨a, b⟩
    have h1 := hne ((pos * 256 + 16 + i) % (n * 256) - pos % n * 256) (by omega) i hi
    omega

theorem Block.agree {hash : List Byte → Nat} {n : Nat} {d d' : Nat → Byte} {a : Nat} {m : Msg} (hk : nodes m.length < n)
    (h : Block hash n d a m) (he : ∀ x, Reg n a (nodes m.length) (x / 256) → d' x = d x) : Block hash n d' a m := by
  have h1 := nodes_pos m.length
  have hl := nodes_fit m.length
  have hn : 0 < n := by omega
  refine ⟨?_, ?_, fun i hi => ?_⟩
  · rw [← h.size]
    simp only [bsize, nodeSize]
    congr 1
    exact rd_congr fun i hi => he _ (head_reg hn h1 (by omega))
  · rw [← h.check]
    simp only [bcheck, nodeSize]
    congr 1
    exact rd_congr fun i hi => he _ (by rw [Nat.add_assoc]; exact head_reg hn h1 (by omega))
  · rw [he _ (byte_reg hk hl hi)]
    exact h.bytes i hi

end Verif.Mem.Conc
