import Verif.Mem.Spec
import Verif.Mem.Seq

/-!
Properties C11 - C14 of the shared-memory channel.
-/
namespace Verif.Mem

set_option maxRecDepth 10000

/-! ### C11 geometry -/

/-- Addresses of node head `i` and of the data of node `i` in a channel of `n` nodes. -/
def headAddr (i j : Nat) : Nat := headOff + i * nodeHead + j
def dataAddr (n i j : Nat) : Nat := dataOff n + i * nodeSize + j

/-- C11: for every accepted memory length the areas lie inside the memory and do not overlap. -/
theorem C11_geometry (len : Nat) (h : minLen ≤ len) :
    1 ≤ nodesFor len ∧ endOff (nodesFor len) ≤ len ∧ len < endOff (nodesFor len + 1) ∧
    (∀ i j, i < nodesFor len → j < nodeHead →
      chanHead ≤ headAddr i j ∧ headAddr i j < dataOff (nodesFor len) ∧ headAddr i j < len) ∧
    (∀ i j, i < nodesFor len → j < nodeSize →
      dataOff (nodesFor len) ≤ dataAddr (nodesFor len) i j ∧ dataAddr (nodesFor len) i j < len) ∧
    (∀ i j i' j', j < nodeHead → j' < nodeHead → headAddr i j = headAddr i' j' → i = i' ∧ j = j') ∧
    (∀ i j i' j', j < nodeSize → j' < nodeSize →
      dataAddr (nodesFor len) i j = dataAddr (nodesFor len) i' j' → i = i' ∧ j = j') := by
  have hm : 4368 ≤ len := h
  have hn : nodesFor len = (len - 4096) / 272 := rfl
  have e : ∀ n, endOff n = 4096 + n * 16 + n * 256 := fun _ => rfl
  have d : ∀ n, dataOff n = 4096 + n * 16 := fun _ => rfl
  refine ⟨by omega, by rw [e]; omega, by rw [e]; omega, ?_, ?_, ?_, ?_⟩
  · intro i j hi hj
    have hh : headAddr i j = 4096 + i * 16 + j := rfl
    simp only [nodeHead, chanHead] at *
    rw [d]; omega
  · intro i j hi hj
    have hh : dataAddr (nodesFor len) i j = 4096 + nodesFor len * 16 + i * 256 + j := rfl
    simp only [nodeSize] at *
    rw [d]; omega
  · intro i j i' j' hj hj' hh
    have h1 : 4096 + i * 16 + j = 4096 + i' * 16 + j' := hh
    simp only [nodeHead] at *
    omega
  · intro i j i' j' hj hj' hh
    have h1 : 4096 + nodesFor len * 16 + i * 256 + j = 4096 + nodesFor len * 16 + i' * 256 + j' := hh
    simp only [nodeSize] at *
    omega

/-- C11: the nodes reserved for a message hold it and its block head, and one node less would not. -/
theorem C11_nodes (len : Nat) (h : len + 512 ≤ 2 ^ 64) :
    len + blockHead ≤ calcNodes len * nodeSize ∧ (calcNodes len - 1) * nodeSize < len + blockHead := by
  rw [calcNodes_eq (by have : W64 = 2 ^ 64 := rfl; omega)]
  simp only [blockHead, nodeSize, nodes]
  omega

example : minLen ≤ 8388608 ∧ nodesFor 8388608 = 30825 ∧ calcNodes 240 = 1 ∧ calcNodes 241 = 2 := by decide

/-! ### C12 exact FIFO -/

theorem need_eq (len : Nat) : need len = nodes len := by
  unfold need nodes
  split <;> omega

theorem load_eq (q : List Msg) : load q = used q := by
  unfold load used
  congr 1
  apply List.map_congr_left
  intro m _
  exact need_eq _

theorem GoodConf.ok {cf : Conf} (h : GoodConf cf) : ConfOK cf :=
  ⟨h.nodes, h.size, h.prot, h.protMem, h.retry⟩

theorem step_refines {hash : List Byte → Nat} {c : Chan} {q : List Msg} (h : Inv hash c q) {op : Op} (hop : op.ok) :
    ∃ c', implStep hash c op = some (c', (specStep c.conf.n c.conf.prot q op).2) ∧
      Inv hash c' (specStep c.conf.n c.conf.prot q op).1 ∧ c'.conf = c.conf := by
  cases op with
  | send m =>
    by_cases hm : m = []
    · subst hm
      refine ⟨c, ?_, ?_, rfl⟩
      · simp [implStep, specStep, send_empty h.ok.retry]
      · simpa [specStep] using h
    · have hl : m.length + 271 < W64 := by
        have : m.length + 512 ≤ 2 ^ 64 := hop
        have : W64 = 2 ^ 64 := rfl
        omega
      obtain ⟨s1, s2⟩ := send_spec h hm hl
      by_cases hr : used q + nodes m.length + c.conf.prot < c.conf.n
      · obtain ⟨c', e1, e2, e3⟩ := s1 hr
        have hr' : load q + need m.length + c.conf.prot + 1 ≤ c.conf.n := by rw [load_eq, need_eq]; exact hr
        refine ⟨c', ?_, ?_, e3⟩
        · simp [implStep, specStep, e1, hm, hr']
        · simpa [specStep, hm, hr'] using e2
      · obtain ⟨os, e1⟩ := s2 hr
        have hr' : ¬ load q + need m.length + c.conf.prot + 1 ≤ c.conf.n := by rw [load_eq, need_eq]; exact hr
        refine ⟨{ c with oseq := os }, ?_, ?_, rfl⟩
        · simp only [implStep, specStep, e1, if_neg hm, if_neg hr']
        · simpa [specStep, hm, hr'] using h.oseq os
  | recv now len =>
    cases q with
    | nil =>
      refine ⟨c, ?_, ?_, rfl⟩
      · simp [implStep, specStep, recv_empty h]
      · simpa [specStep] using h
    | cons m q =>
      obtain ⟨r1, r2⟩ := recv_spec h now len
      by_cases hl : len < m.length
      · refine ⟨c, ?_, ?_, rfl⟩
        · simp [implStep, specStep, r1 hl, hl]
        · simpa [specStep, hl] using h
      · obtain ⟨c', e1, e2, e3⟩ := r2 (by omega)
        refine ⟨c', ?_, ?_, e3⟩
        · simp [implStep, specStep, e1, hl]
        · simpa [specStep, hl] using e2

theorem run_refines {hash : List Byte → Nat} : ∀ (ops : List Op) {c : Chan} {q : List Msg}, Inv hash c q →
    (∀ op ∈ ops, op.ok) →
    ∃ c', implRun hash c ops = some (c', (specRun c.conf.n c.conf.prot q ops).2) ∧
      Inv hash c' (specRun c.conf.n c.conf.prot q ops).1 ∧ c'.conf = c.conf
  | [], c, q, h, _ => ⟨c, rfl, h, rfl⟩
  | op :: ops, c, q, h, hok => by
    obtain ⟨c1, e1, h1, f1⟩ := step_refines h (hok op (by simp))
    obtain ⟨c2, e2, h2, f2⟩ := run_refines ops h1 (fun o ho => hok o (List.mem_cons_of_mem _ ho))
    rw [f1] at e2 h2
    refine ⟨c2, ?_, h2, f2.trans f1⟩
    simp [implRun, e1, e2, specRun]

/-- The queue accounts for everything accepted and not yet delivered. -/
theorem spec_account (n prot : Nat) : ∀ (ops : List Op) (q : List Msg),
    q ++ accepted ops (specRun n prot q ops).2 =
      delivered ops (specRun n prot q ops).2 ++ (specRun n prot q ops).1
  | [], q => by simp [specRun, accepted, delivered]
  | .send m :: ops, q => by
    simp only [specRun, specStep]
    by_cases hm : m = []
    · simp only [hm, if_true, accepted, delivered, ne_eq, not_true, and_false, if_false]
      exact spec_account n prot ops q
    · rw [if_neg hm]
      by_cases hr : load q + need m.length + prot + 1 ≤ n
      · rw [if_pos hr]
        simp only [accepted, delivered]
        rw [if_pos ⟨trivial, hm⟩, ← spec_account n prot ops (q ++ [m])]
        simp
      · rw [if_neg hr]
        simp only [accepted, delivered]
        rw [if_neg (by simp [Err.BUFF_LIMIT, Err.SUCCESS])]
        exact spec_account n prot ops q
  | .recv now len :: ops, q => by
    cases q with
    | nil =>
      simp only [specRun, specStep, accepted, delivered]
      rw [if_neg (by simp [Err.NO_DATA, Err.SUCCESS])]
      exact spec_account n prot ops []
    | cons m q =>
      simp only [specRun, specStep]
      by_cases hl : len < m.length
      · rw [if_pos hl]
        simp only [accepted, delivered]
        rw [if_neg (by simp [Err.BUFF_LIMIT, Err.SUCCESS])]
        exact spec_account n prot ops (m :: q)
      · rw [if_neg hl]
        simp only [accepted, delivered, if_true]
        simp only [List.cons_append]
        rw [spec_account n prot ops q]

/-- C12, refinement: every sequence of calls on a fresh channel gives exactly the results of a
capacity-bounded queue.  The empty message is the one exception to the English statement; see
`C12_empty_message_false`. -/
theorem C12_refines_queue_partial (hash : List Byte → Nat) (cf : Conf) (hcf : GoodConf cf) (ops : List Op)
    (hok : ∀ op ∈ ops, op.ok) :
    ∃ c, implRun hash (initChan cf) ops = some (c, (specRun cf.n cf.prot [] ops).2) := by
  obtain ⟨c, h1, _, _⟩ := run_refines ops (inv_init (hash := hash) hcf.ok) hok
  exact ⟨c, h1⟩

/-- Receives large enough for each message of the list. -/
def drain : List Msg → List Op
  | [] => []
  | m :: r => .recv 0 m.length :: drain r

theorem drain_ok (q : List Msg) : ∀ op ∈ drain q, op.ok := by
  induction q with
  | nil => simp [drain]
  | cons m q ih => intro op h; simp only [drain, List.mem_cons] at h; rcases h with e | h; (subst e; trivial); exact ih op h

theorem spec_drain (n prot : Nat) : ∀ q, specRun n prot q (drain q) = ([], q.map fun m => ⟨Err.SUCCESS, some m.length, m⟩)
  | [] => rfl
  | m :: q => by simp [drain, specRun, specStep, spec_drain n prot q]

theorem delivered_drain : ∀ q : List Msg, delivered (drain q) (q.map fun m => ⟨Err.SUCCESS, some m.length, m⟩) = q
  | [] => rfl
  | m :: q => by simp [drain, delivered, delivered_drain q]

/-- C12: after any sequence of calls, what was received is an initial part of what was accepted,
and the rest is exactly what further receives return: exactly once, in order, byte for byte. -/
theorem C12_exactly_once_partial (hash : List Byte → Nat) (cf : Conf) (hcf : GoodConf cf) (ops : List Op)
    (hok : ∀ op ∈ ops, op.ok) :
    ∃ c evs rest c' evs', implRun hash (initChan cf) ops = some (c, evs) ∧
      accepted ops evs = delivered ops evs ++ rest ∧
      implRun hash c (drain rest) = some (c', evs') ∧ delivered (drain rest) evs' = rest ∧
      ∀ now len, implStep hash c' (.recv now len) = some (c', ⟨Err.NO_DATA, none, []⟩) := by
  obtain ⟨c, h1, h2, h3⟩ := run_refines ops (inv_init (hash := hash) hcf.ok) hok
  have hacc := spec_account (initChan cf).conf.n (initChan cf).conf.prot ops []
  obtain ⟨c', g1, g2, _⟩ := run_refines (drain (specRun cf.n cf.prot [] ops).1) h2 (drain_ok _)
  rw [show specRun (initChan cf).conf.n (initChan cf).conf.prot [] ops = specRun cf.n cf.prot [] ops from rfl,
    spec_drain] at g1 g2
  refine ⟨c, _, _, c', _, h1, hacc, g1, delivered_drain _, ?_⟩
  intro now len
  simp [implStep, recv_empty g2]

/-- The configuration chosen by `mem_init` itself is usable for every memory length. -/
theorem defaultConf_good (len : Nat) (h : minLen ≤ len) (h2 : len < 2 ^ 64) : GoodConf (defaultConf (nodesFor len)) := by
  have hm : 4368 ≤ len := h
  have hn : nodesFor len = (len - 4096) / 272 := rfl
  have hp : (defaultConf (nodesFor len)).prot ≤ nodesFor len := by
    simp only [defaultConf]; (repeat' split) <;> omega
  refine ⟨?_, ?_, ?_, ?_, ?_⟩
  · show 1 ≤ nodesFor len; omega
  · show nodesFor len * 256 < _; omega
  · omega
  · exact Nat.le_refl _
  · show 1 ≤ 4; omega

/-- C12 for the channel `mem_init` makes in `len` bytes of memory with its own configuration. -/
theorem C12_default_partial (hash : List Byte → Nat) (len : Nat) (hmin : minLen ≤ len) (hmax : len < 2 ^ 64)
    (ops : List Op) (hok : ∀ op ∈ ops, op.ok) :
    ∃ c evs rest c' evs', implRun hash (initChan (defaultConf (nodesFor len))) ops = some (c, evs) ∧
      accepted ops evs = delivered ops evs ++ rest ∧
      implRun hash c (drain rest) = some (c', evs') ∧ delivered (drain rest) evs' = rest ∧
      ∀ now len, implStep hash c' (.recv now len) = some (c', ⟨Err.NO_DATA, none, []⟩) :=
  C12_exactly_once_partial hash _ (defaultConf_good len hmin hmax) ops hok

/-- Two messages, three nodes each way round the ring end, small and large buffers. -/
def demoOps : List Op :=
  [.send (List.replicate 300 7), .recv 1 10, .send (List.replicate 20 9), .recv 2 300, .send (List.replicate 500 3),
   .recv 3 100, .recv 4 600, .recv 5 600]

example : GoodConf ⟨6, 0, 0, 4, 4⟩ ∧ (∀ op ∈ demoOps, op.ok) ∧
    accepted demoOps (specRun 6 0 [] demoOps).2 = [List.replicate 300 7, List.replicate 20 9, List.replicate 500 3] ∧
    delivered demoOps (specRun 6 0 [] demoOps).2 =
      [List.replicate 300 7, List.replicate 20 9, List.replicate 500 3] := by
  refine ⟨⟨by decide, by decide, by decide, by decide, by decide⟩, ?_, by decide +kernel, by decide +kernel⟩
  intro op h
  simp only [demoOps, List.mem_cons, List.not_mem_nil, or_false] at h
  rcases h with e | e | e | e | e | e | e | e <;> subst e <;> simp [Op.ok]

/-- The operation numbers `k`, `k + 1`, ... of the calls that follow a state with counter `s`. -/
def opNumber (s : Nat) : Nat → Nat
  | 0 => fetchSeq s
  | k + 1 => fetchSeq (opNumber s k)

theorem fetchSeq_range (s : Nat) : 1 ≤ fetchSeq s ∧ fetchSeq s < 2 ^ 32 := by
  unfold fetchSeq
  split <;> omega

theorem opNumber_range (s k : Nat) : 1 ≤ opNumber s k ∧ opNumber s k < 2 ^ 32 := by
  cases k <;> exact fetchSeq_range _

theorem opNumber_eq (s k : Nat) : opNumber s k = (fetchSeq s - 1 + k) % (2 ^ 32 - 1) + 1 := by
  induction k with
  | zero =>
    have := fetchSeq_range s
    rw [opNumber, Nat.add_zero, Nat.mod_eq_of_lt (by omega)]
    omega
  | succ k ih =>
    have h1 : fetchSeq s - 1 + (k + 1) = fetchSeq s - 1 + k + 1 := by omega
    rw [opNumber, ih, h1]
    generalize fetchSeq s - 1 + k = x
    unfold fetchSeq
    split <;> omega

/-- No call takes the number 0, which marks a node that was never written, and any two calls with fewer than 2^32 - 1 calls
from one to the other have different numbers. -/
theorem C12_numbers (s i j : Nat) (hij : i < j) (hj : j - i < 2 ^ 32 - 1) :
    opNumber s i ≠ 0 ∧ opNumber s i < 2 ^ 32 ∧ opNumber s i ≠ opNumber s j := by
  have := opNumber_range s i
  refine ⟨by omega, this.2, ?_⟩
  rw [opNumber_eq, opNumber_eq]
  generalize fetchSeq s - 1 = x
  omega

example : (List.range 4).map (opNumber (2 ^ 32 - 3)) = [2 ^ 32 - 2, 2 ^ 32 - 1, 1, 2] := by decide +kernel

/-- C12 is false for the empty message: the send reports success and nothing ever arrives. -/
theorem C12_empty_message_false (hash : List Byte → Nat) :
    ∃ c, implRun hash (initChan (defaultConf 100)) [.send [], .recv 1 1000] =
      some (c, [⟨Err.SUCCESS, none, []⟩, ⟨Err.NO_DATA, none, []⟩]) := by
  have hg : GoodConf (defaultConf 100) := ⟨by decide, by decide, by decide, by decide, by decide⟩
  exact C12_refines_queue_partial hash _ hg [.send [], .recv 1 1000] (by simp [Op.ok])

/-- C12 is false for a configuration supplied by the caller that the code does not check: with a
protected memory size as large as the ring every accepted message is discarded by the receiver. -/
theorem C12_caller_conf_false :
    ∃ c, implRun (fun _ => 0) (initChan (userConf 4 0 1024 4 4)) [.send [1], .recv 1 1000] =
      some (c, [⟨Err.SUCCESS, none, []⟩, ⟨Err.NODE_BAD_BLOCK_BUFF_SIZE, none, []⟩]) := by
  have h : ((implRun (fun _ => 0) (initChan (userConf 4 0 1024 4 4)) [.send [1], .recv 1 1000]).map Prod.snd) =
      some [⟨Err.SUCCESS, none, []⟩, ⟨Err.NODE_BAD_BLOCK_BUFF_SIZE, none, []⟩] := by decide +kernel
  cases hr : implRun (fun _ => 0) (initChan (userConf 4 0 1024 4 4)) [.send [1], .recv 1 1000] with
  | none => rw [hr] at h; simp at h
  | some p => rw [hr] at h; simp at h; exact ⟨p.1, by rw [← h]⟩

/-! ### C13 refused sends -/

/-- C13: a non-empty message is accepted exactly when the free nodes, leaving the protected ones
and the one that always stays empty, can hold it. -/
theorem C13_accept_iff (hash : List Byte → Nat) (cf : Conf) (hcf : GoodConf cf) (ops : List Op)
    (hok : ∀ op ∈ ops, op.ok) (m : Msg) (hm : m ≠ []) (hl : m.length + 512 ≤ 2 ^ 64) :
    ∃ c evs q c' code, implRun hash (initChan cf) ops = some (c, evs) ∧
      accepted ops evs = delivered ops evs ++ q ∧
      implStep hash c (.send m) = some (c', ⟨code, none, []⟩) ∧
      (code = Err.SUCCESS ∨ code = Err.BUFF_LIMIT) ∧
      (code = Err.SUCCESS ↔ need m.length ≤ cf.n - 1 - load q - cf.prot) := by
  obtain ⟨c, h1, h2, h3⟩ := run_refines ops (inv_init (hash := hash) hcf.ok) hok
  have hacc := spec_account (initChan cf).conf.n (initChan cf).conf.prot ops []
  obtain ⟨c', g1, g2, _⟩ := step_refines h2 (op := .send m) hl
  have h3' : c.conf = cf := h3
  have hpos := nodes_pos m.length
  rw [← need_eq] at hpos
  simp only [specStep, if_neg hm, h3'] at g1
  generalize specRun (initChan cf).conf.n (initChan cf).conf.prot [] ops = s at *
  by_cases hr : load s.1 + need m.length + cf.prot + 1 ≤ cf.n
  · refine ⟨c, _, _, c', Err.SUCCESS, h1, hacc, ?_, Or.inl rfl, ?_⟩
    · rw [g1, if_pos hr]
    · simp only [true_iff]; omega
  · refine ⟨c, _, _, c', Err.BUFF_LIMIT, h1, hacc, ?_, Or.inr rfl, ?_⟩
    · rw [g1, if_neg hr]
    · have : ¬ Err.BUFF_LIMIT = Err.SUCCESS := by decide
      constructor
      · intro e; exact absurd e this
      · intro e; omega

/-- C13: a refused send changes nothing that any later call shows. -/
theorem C13_refused_no_effect (hash : List Byte → Nat) (cf : Conf) (hcf : GoodConf cf) (pre post : List Op) (m : Msg)
    (hpre : ∀ op ∈ pre, op.ok) (hpost : ∀ op ∈ post, op.ok) (hl : m.length + 512 ≤ 2 ^ 64)
    {c c' : Chan} {evs : List Ev} {ev : Ev} (h1 : implRun hash (initChan cf) pre = some (c, evs))
    (h2 : implStep hash c (.send m) = some (c', ev)) (h3 : ev.code ≠ Err.SUCCESS) :
    ∃ d d' evs', implRun hash c post = some (d, evs') ∧ implRun hash c' post = some (d', evs') := by
  obtain ⟨c0, a1, a2, a3⟩ := run_refines pre (inv_init (hash := hash) hcf.ok) hpre
  rw [h1] at a1
  injection a1 with a1
  injection a1 with a1 _
  subst a1
  obtain ⟨c1, b1, b2, b3⟩ := step_refines a2 (op := .send m) hl
  rw [h2] at b1
  injection b1 with b1
  injection b1 with b1 b1'
  subst b1
  have hq : (specStep c.conf.n c.conf.prot (specRun (initChan cf).conf.n (initChan cf).conf.prot [] pre).1 (.send m)).1
      = (specRun (initChan cf).conf.n (initChan cf).conf.prot [] pre).1 := by
    rw [b1'] at h3
    revert h3
    simp only [specStep]
    repeat' split
    all_goals simp
  rw [hq] at b2
  obtain ⟨d, e1, _, _⟩ := run_refines post a2 hpost
  obtain ⟨d', f1, _, _⟩ := run_refines post b2 hpost
  rw [b3] at f1
  exact ⟨d, d', _, e1, f1⟩

/-- A full ring: the third message is refused, and accepted again after a receive. -/
example : (specRun 6 0 [] [.send (List.replicate 300 7), .send (List.replicate 300 8), .send (List.replicate 300 9),
    .recv 0 400, .send (List.replicate 300 9)]).2.map Ev.code =
    [Err.SUCCESS, Err.SUCCESS, Err.BUFF_LIMIT, Err.SUCCESS, Err.SUCCESS] := by decide +kernel

/-- C13 is false for a caller's configuration with no write attempts: the send reports success
and sends nothing. -/
theorem C13_retry_zero_false (hash : List Byte → Nat) (m : Msg) :
    implStep hash (initChan (userConf 100 0 0 4 0)) (.send m) = some (initChan (userConf 100 0 0 4 0), ⟨Err.SUCCESS, none, []⟩) := by
  rfl

/-! ### C14 small receive buffer -/

/-- C14: a receive with too small a buffer reports the size needed and loses nothing: any number
of such receives later, a receive with that size returns the message that was next all along. -/
theorem C14_small_buffer (hash : List Byte → Nat) (cf : Conf) (hcf : GoodConf cf) (pre : List Op)
    (hpre : ∀ op ∈ pre, op.ok) (now len now' : Nat) {c c' : Chan} {evs : List Ev} {ev : Ev}
    (h1 : implRun hash (initChan cf) pre = some (c, evs))
    (h2 : implStep hash c (.recv now len) = some (c', ev)) (h3 : ev.code = Err.BUFF_LIMIT) :
    ∃ m rest c'', accepted pre evs = delivered pre evs ++ m :: rest ∧ len < m.length ∧ ev.size = some m.length ∧
      ev.bytes = [] ∧ implStep hash c' (.recv now' m.length) = some (c'', ⟨Err.SUCCESS, some m.length, m⟩) := by
  obtain ⟨c0, a1, a2, a3⟩ := run_refines pre (inv_init (hash := hash) hcf.ok) hpre
  have hacc := spec_account (initChan cf).conf.n (initChan cf).conf.prot pre []
  rw [h1] at a1
  injection a1 with a1
  injection a1 with a1 a1'
  subst a1 a1'
  obtain ⟨c1, b1, b2, b3⟩ := step_refines a2 (op := .recv now len) trivial
  rw [h2] at b1
  injection b1 with b1
  injection b1 with b1 b1'
  subst b1 b1'
  generalize specRun (initChan cf).conf.n (initChan cf).conf.prot [] pre = s at *
  obtain ⟨q, ev0⟩ := s
  cases q with
  | nil => simp [specStep, Err.NO_DATA, Err.BUFF_LIMIT] at h3
  | cons m q =>
    by_cases hl : len < m.length
    · simp only [specStep, if_pos hl] at b2 h3 ⊢
      obtain ⟨c2, d1, _, _⟩ := step_refines b2 (op := .recv now' m.length) trivial
      refine ⟨m, q, c2, hacc, hl, by trivial, by trivial, ?_⟩
      rw [d1]
      simp [specStep]
    · simp [specStep, hl, Err.SUCCESS, Err.BUFF_LIMIT] at h3

example : (specRun 6 0 [] demoOps).2[1]? = some ⟨Err.BUFF_LIMIT, some 300, []⟩ := by decide +kernel

end Verif.Mem
