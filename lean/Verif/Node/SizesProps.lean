import Verif.Node.Sizes
import Verif.IoStream.Props
import Verif.Mem.Props

/-!
C51.  Messages that are too large never leave; what leaves fits a stream receiver with the same configuration,
but not always a receiver on a memory channel.
-/
namespace Verif.Node.Sizes

open Verif.IoStream

/-! ### Vocabulary -/

/-- The application's bytes in a call. -/
def payload : Call → Nat
  | .data _ _ d => d.content
  | .cmd _ _ c => c.args.sum
  | .other _ => 0

/-- The command's size can be computed in 64 bits. -/
def NoWrap (cf : Conf) : Call → Prop
  | .cmd _ _ c => cf.cmdBase + c.args.sum + 2 * c.args.length < W64
  | _ => True

/-- Values of the types of the protocol. -/
def Head.ok (h : Head) : Prop := -2 ^ 31 ≤ h.version ∧ h.version < 2 ^ 31 ∧ -2 ^ 31 ≤ h.type ∧ h.type < 2 ^ 31 ∧
  -2 ^ 31 ≤ h.ret ∧ h.ret < 2 ^ 31 ∧ h.sequence < W64 ∧ h.src < W64

def Data.ok (d : Data) : Prop := d.from < W64 ∧ d.to < W64 ∧ (∀ r ∈ d.router, r < W64) ∧ d.flags < 2 ^ 32

/-! ### Lengths -/

theorem vlen_pos (n : Nat) : 1 ≤ vlen n := by
  rw [vlen]; split <;> omega

theorem vlen_le (k : Nat) : ∀ n, n < 128 ^ (k + 1) → vlen n ≤ k + 1 := by
  induction k with
  | zero => intro n h; rw [vlen, if_pos (by simpa using h)]; omega
  | succ k ih =>
    intro n h
    rw [vlen]
    split
    · omega
    · have : n / 128 < 128 ^ (k + 1) := by
        apply Nat.div_lt_of_lt_mul
        rw [Nat.pow_succ] at h
        omega
      have := ih _ this
      omega

theorem vlen_64 {n : Nat} (h : n < W64) : vlen n ≤ 10 := by
  refine vlen_le 9 n (Nat.lt_of_lt_of_le h ?_)
  decide

theorem fieldU_le {n : Nat} (h : n < W64) : fieldU n ≤ 11 := by
  unfold fieldU
  have := vlen_64 h
  split <;> omega

theorem fieldI_le (n : Int) : fieldI n ≤ 11 := by
  unfold fieldI
  have : (n % 2 ^ 64).toNat < W64 := by
    have h1 := Int.emod_lt_of_pos n (show (0 : Int) < 2 ^ 64 by decide)
    have h2 := Int.emod_nonneg n (show (2 ^ 64 : Int) ≠ 0 by decide)
    unfold W64
    omega
  have := vlen_64 this
  split <;> omega

theorem fieldZ_le {n : Int} (h1 : -2 ^ 31 ≤ n) (h2 : n < 2 ^ 31) : fieldZ n ≤ 6 := by
  unfold fieldZ
  split
  · omega
  · have : vlen (if n < 0 then (-2 * n - 1).toNat else (2 * n).toNat) ≤ 5 := by
      apply vlen_le 4
      have : 128 ^ (4 + 1) = 34359738368 := by decide
      split <;> omega
    omega

theorem Head.size_le {h : Head} (hh : h.ok) : h.size ≤ 50 := by
  obtain ⟨-, -, -, -, h5, h6, h7, h8⟩ := hh
  have a := fieldI_le h.version
  have b := fieldI_le h.type
  have c := fieldZ_le h5 h6
  have d := fieldU_le h7
  have e := fieldU_le h8
  unfold Head.size
  omega

theorem sum_vlen_le (l : List Nat) (h : ∀ r ∈ l, r < W64) : (l.map vlen).sum ≤ 10 * l.length := by
  induction l with
  | nil => simp
  | cons a l ih =>
    have h1 := ih fun r hr => h r (List.mem_cons_of_mem _ hr)
    have h2 := vlen_64 (h a (List.mem_cons_self ..))
    simp only [List.map_cons, List.sum_cons, List.length_cons]
    omega

theorem packed_le (l : List Nat) (h : ∀ r ∈ l, r < W64) (hl : l.length ≤ 80) : packed l ≤ 3 + 10 * l.length := by
  unfold packed
  split
  · omega
  · have h1 := sum_vlen_le l h
    unfold fieldM
    have : vlen (l.map vlen).sum ≤ 2 := vlen_le 1 _ (by simp only [Nat.reduceAdd, Nat.reducePow]; omega)
    omega

/-! ### Refusal -/

theorem cmdSum_eq (cf : Conf) (args : List Nat) (h : cf.cmdBase + args.sum + 2 * args.length < W64) :
    cmdSum cf args = cf.cmdBase + args.sum + 2 * args.length := by
  unfold cmdSum
  have H : ∀ (l : List Nat) (a : Nat), a + l.sum + 2 * l.length < W64 →
      l.foldl (fun s n => (s + n + 2) % W64) a = a + l.sum + 2 * l.length := by
    intro l
    induction l with
    | nil => intro a _; simp
    | cons n l ih =>
      intro a ha
      simp only [List.sum_cons, List.length_cons] at ha
      simp only [List.foldl_cons, List.sum_cons, List.length_cons]
      rw [Nat.mod_eq_of_lt (by omega), ih _ (by omega)]
      omega
  rw [Nat.mod_eq_of_lt (by omega)]
  exact H args _ h

/-- C51, refusal: a call with more application bytes than the configured message size is refused with an error
and gives nothing to any connection. -/
theorem C51_refused_partial (cf : Conf) (c : Call) (hw : NoWrap cf c) (hp : payload c > cf.msg) :
    ∃ e, call cf c = .error e ∧ (e = Err.INVALID_SIZE ∨ e = Err.NOT_INITED) := by
  cases c with
  | data b h d =>
    simp only [call, sendData]
    replace hp : d.content > cf.msg := hp
    cases b with
    | true => exact ⟨_, rfl, Or.inr rfl⟩
    | false => rw [if_neg (by decide), if_pos hp]; exact ⟨_, rfl, Or.inl rfl⟩
  | cmd b h d =>
    simp only [call, sendCmd]
    replace hp : d.args.sum > cf.msg := hp
    cases b with
    | true => exact ⟨_, rfl, Or.inr rfl⟩
    | false =>
      rw [if_neg (by decide), if_pos (by rw [cmdSum_eq cf _ hw]; omega)]
      exact ⟨_, rfl, Or.inl rfl⟩
  | other n => exact absurd hp (Nat.not_lt_zero _)

/-- C51, the sizes of a command are added in 64 bits: two arguments whose sizes together exceed 64 bits pass the
first check, and only the size of the serialised message can stop them. -/
theorem C51_command_wrap_false : ∃ cf args, args.sum > cf.msg ∧ ¬ cmdSum cf args > cf.msg := by
  refine ⟨⟨262144, 96⟩, [2 ^ 63, 2 ^ 63], by decide, by decide⟩

/-- Nothing longer than the message size and the frame header is given to a connection. -/
theorem call_ok {cf : Conf} {c : Call} {n : Nat} (h : call cf c = .ok n) : n ≤ (cf.msg + frameHeader) % W64 := by
  have H : ∀ k, sendMsg cf k = .ok n → n ≤ (cf.msg + frameHeader) % W64 := by
    intro k hk
    unfold sendMsg at hk
    split at hk
    · cases hk
    · rename_i hn
      cases hk
      omega
  cases c with
  | data b hd d =>
    simp only [call, sendData] at h
    split at h
    · cases h
    · split at h
      · cases h
      · exact H _ h
  | cmd b hd d =>
    simp only [call, sendCmd] at h
    split at h
    · cases h
    · split at h
      · cases h
      · exact H _ h
  | other k => exact H _ h

/-- C51, streams: whatever is given to a connection by any call fits a stream receiver with the same
configuration, and is not refused for its size by the stream sender. -/
theorem C51_stream_fits (cf : Conf) (uv maxHash maxBlock maxAgain : Nat) (hcf : 2 * cf.msg + 2048 < 2 ^ 63) (huv : uv < 2 ^ 32)
    (c : Call) (m : List Byte) (h : call cf c = .ok m.length) :
    Fits (streamRecv cf maxHash maxBlock maxAgain) m ∧ m.length ≤ streamSendLimit cf uv := by
  have h1 := call_ok h
  unfold frameHeader at h1
  rw [Nat.mod_eq_of_lt (by unfold W64; omega)] at h1
  have hpad : Buffer.padding (uv + 4 + 16) ≤ uv + 36 := by
    unfold Buffer.padding; split <;> omega
  refine ⟨⟨by omega, ?_, Or.inr ?_⟩, ?_⟩
  · unfold streamRecv Buffer.Size64.push Buffer.Size64.limitOk
    simp only [frameHeader]
    rw [Nat.mod_eq_of_lt (show cf.msg + cf.msg + 1024 + 1024 < W64 by unfold W64; omega),
      Nat.mod_eq_of_lt (show 0 + (4 + m.length) < W64 by unfold W64; omega)]
    have : ¬ (0 + (4 + m.length) > cf.msg + cf.msg + 1024 + 1024) := by omega
    simp only [this, decide_false, Bool.and_false, Bool.not_false, gt_iff_lt, Nat.lt_irrefl, Bool.false_and, Bool.and_true, if_true,
      if_false, Option.isSome_some]
  · show m.length ≤ (cf.msg + 1024) % W64
    rw [Nat.mod_eq_of_lt (by unfold W64; omega)]
    exact h1
  · unfold streamSendLimit frameHeader
    rw [Nat.mod_eq_of_lt (by unfold W64; omega)]
    omega

/-- C51 and C21 together: a node sends messages produced by any calls over a stream, the receiving node has the
same configuration, and `uv_write` never refuses a request: the receiver gets exactly a first part of the
messages accepted by the sender, all of them once everything has arrived, and never closes the connection. -/
theorem C51_stream_delivery_partial (cf : Conf) (uv maxHash maxBlock : Nat) (maxAgain : Nat) (hcf : 2 * cf.msg + 2048 < 2 ^ 63) (huv' : uv < 2 ^ 32)
    (h : Hash) (hf0 bf0 ag : Nat) (ses : List SEv) (res : List REv)
    (c : SConn) (rs : List (List Byte × Int)) (cbs : List Cb)
    (hcalls : ∀ m ev, SEv.send m ev ∈ ses → ∃ call', call cf call' = .ok m.length)
    (hsleg : SLegal (streamSendLimit cf uv) h sinit ses) (huv : WritesStart ses)
    (hsrun : srun (streamSendLimit cf uv) h sinit ses = some (c, rs, cbs))
    (hrec : received res <+: c.wire)
    (hrleg : Legal (streamRecv cf maxHash maxBlock maxAgain) h (rinit hf0 bf0 ag) res)
    (hpat : Patient (streamRecv cf maxHash maxBlock maxAgain) ag res) :
    ∃ st ms, rrun (streamRecv cf maxHash maxBlock maxAgain) h (rinit hf0 bf0 ag) res = some (st, ms.map fun m => ⟨Err.SUCCESS, m⟩) ∧
      st.closed = false ∧ ms <+: acceptedBySend rs ∧
      (received res = c.wire → c.connected = true → c.writing = false → ms = acceptedBySend rs) := by
  refine C21_end_to_end_partial _ _ h hf0 bf0 ag ses res c rs cbs hsleg huv hsrun ?_ hrec hrleg hpat
  have H : ∀ (es : List SEv) (c0 c : SConn) (rs : List (List Byte × Int)) (cbs : List Cb),
      srun (streamSendLimit cf uv) h c0 es = some (c, rs, cbs) → ∀ r ∈ rs, ∃ ev, SEv.send r.1 ev ∈ es := by
    intro es
    induction es with
    | nil =>
      intro c0 c rs cbs hr r hmem
      simp only [srun, Option.some.injEq, Prod.mk.injEq] at hr
      rw [← hr.2.1] at hmem
      cases hmem
    | cons e es ih =>
      intro c0 c rs cbs hr r hmem
      simp only [srun, Option.bind_eq_bind, Option.bind_eq_some_iff, Option.some.injEq, Prod.mk.injEq] at hr
      obtain ⟨x, hx, y, hy, h1, h2, h3⟩ := hr
      have hrest : r ∈ y.2.1 → ∃ ev, SEv.send r.1 ev ∈ e :: es := by
        intro hm
        obtain ⟨ev, hev⟩ := ih _ _ _ _ hy r hm
        exact ⟨ev, List.mem_cons_of_mem _ hev⟩
      rw [← h2] at hmem
      split at hmem
      · rename_i m ev code _
        rcases List.mem_cons.mp hmem with rfl | hm
        · exact ⟨ev, List.mem_cons_self ..⟩
        · exact hrest hm
      · exact hrest hmem
  intro m hm
  unfold acceptedBySend at hm
  rw [List.mem_map] at hm
  obtain ⟨r, hr, rfl⟩ := hm
  obtain ⟨ev, hev⟩ := H ses sinit c rs cbs hsrun r (List.mem_filter.mp hr).1
  obtain ⟨c', hc'⟩ := hcalls _ _ hev
  exact (C51_stream_fits cf uv maxHash maxBlock maxAgain hcf huv' c' r.1 hc').1

/-- C51, no more than that is refused: data within the message size, with any ids and up to 80 hops behind it, is
given to the connection. -/
theorem C51_data_accepted (cf : Conf) (hcf : cf.msg + 1024 < W64) (h : Head) (d : Data) (hh : h.ok) (hd : d.ok)
    (hr : d.router.length ≤ 80) (hs : d.content ≤ cf.msg) : call cf (.data false h d) = .ok (msgSize h d.size) := by
  have hb : d.size ≤ d.content + 861 := by
    obtain ⟨h1, h2, h3, h4⟩ := hd
    have a := fieldU_le h1
    have b := fieldU_le h2
    have c := fieldU_le (n := d.flags) (by unfold W64; omega)
    have e := packed_le d.router h3 hr
    have f : fieldB d.content ≤ 11 + d.content := by
      unfold fieldB
      have := vlen_64 (n := d.content) (by omega)
      split <;> omega
    unfold Data.size
    omega
  have hsz : msgSize h d.size ≤ cf.msg + 1024 := by
    have a := Head.size_le hh
    have b : vlen h.size ≤ 1 := vlen_le 0 _ (by simp only [Nat.reduceAdd, Nat.reducePow]; omega)
    have c : vlen d.size ≤ 10 := vlen_64 (by omega)
    unfold msgSize fieldM
    omega
  simp only [call, sendData, sendMsg, frameHeader]
  rw [if_neg (by decide), if_neg (by omega), Nat.mod_eq_of_lt hcf, if_neg (by omega)]

/-! ### Memory channels -/

open Verif.Mem (implRun initChan accepted delivered GoodConf specRun specStep inv_init run_refines spec_account)

/-- A message longer than the receiver's buffer is at the head of a memory channel: whatever is sent
and however often the receiver tries, nothing is delivered any more. -/
theorem C51_memory_blocks (hash : List Byte → Nat) (mc : Mem.Conf) (hmc : GoodConf mc) (cf : Conf)
    (pre post : List Mem.Op) (hpre : ∀ op ∈ pre, op.ok) (hpost : ∀ op ∈ post, op.ok)
    (hlen : ∀ now len, Mem.Op.recv now len ∈ post → len = staticBuffer cf)
    {c : Mem.Chan} {evs : List Mem.Ev} (h1 : implRun hash (initChan mc) pre = some (c, evs))
    (m : Mem.Msg) (rest : List Mem.Msg) (hq : accepted pre evs = delivered pre evs ++ m :: rest) (hm : m.length > staticBuffer cf) :
    ∃ c' evs', implRun hash c post = some (c', evs') ∧ delivered post evs' = [] := by
  obtain ⟨c0, a1, a2, a3⟩ := run_refines pre (inv_init (hash := hash) hmc.ok) hpre
  have hacc := spec_account (initChan mc).conf.n (initChan mc).conf.prot pre []
  rw [h1] at a1
  injection a1 with a1
  injection a1 with a1 a1'
  subst a1 a1'
  obtain ⟨c1, b1, b2, b3⟩ := run_refines post a2 hpost
  refine ⟨c1, _, b1, ?_⟩
  have hq' : (specRun (initChan mc).conf.n (initChan mc).conf.prot [] pre).1 = m :: rest := by
    have := hacc.symm.trans hq
    simpa using this
  rw [hq']
  have H : ∀ (ops : List Mem.Op) (n p : Nat) (r : List Mem.Msg),
      (∀ now len, Mem.Op.recv now len ∈ ops → len = staticBuffer cf) → delivered ops (specRun n p (m :: r) ops).2 = [] := by
    intro ops
    induction ops with
    | nil => intro n p r _; rfl
    | cons o ops ih =>
      intro n p r hl
      have hl' := fun now len hh => hl now len (List.mem_cons_of_mem _ hh)
      cases o with
      | send x =>
        simp only [specRun, delivered, specStep]
        split
        · exact ih n p r hl'
        · split
          · exact ih n p (r ++ [x]) hl'
          · exact ih n p r hl'
      | recv now len =>
        have := hl now len (List.mem_cons_self ..)
        subst this
        simp only [specRun, delivered, specStep]
        rw [if_pos hm]
        simp only [show ¬ Err.BUFF_LIMIT = Err.SUCCESS by decide, if_false]
        exact ih n p r hl'
  exact H post _ _ _ hlen

theorem vlen_big {n : Nat} (h : 2 ^ 63 ≤ n) (h2 : n < W64) : vlen n = 10 := by
  unfold W64 at h2
  rw [vlen, if_neg (by omega), vlen, if_neg (by omega), vlen, if_neg (by omega), vlen, if_neg (by omega), vlen, if_neg (by omega),
    vlen, if_neg (by omega), vlen, if_neg (by omega), vlen, if_neg (by omega), vlen, if_neg (by omega), vlen, if_pos (by omega)]

/-- C51 is false for memory channels: for every message size there is data within it that is transmitted
(it has passed nine nodes with large ids, the hop limit is sixteen) but is longer than the buffer the receiver uses. -/
theorem C51_memory_data_false (cf : Conf) (h1 : 1 ≤ cf.msg) (h2 : cf.msg + 1024 < W64) :
    ∃ h d n, h.ok ∧ d.ok ∧ d.router.length ≤ 16 ∧ d.content ≤ cf.msg ∧ call cf (.data false h d) = .ok n ∧ n > staticBuffer cf := by
  obtain ⟨h, hh⟩ : ∃ h : Head, h = ⟨2, 1, 0, 2 ^ 63, 2 ^ 63⟩ := ⟨_, rfl⟩
  obtain ⟨d, hd⟩ : ∃ d : Data, d = ⟨2 ^ 63, 2 ^ 63, List.replicate 9 (2 ^ 63), cf.msg, 0⟩ := ⟨_, rfl⟩
  have ok1 : h.ok := by subst hh; unfold Head.ok W64; decide
  have ok2 : d.ok := by
    subst hd
    refine ⟨show 2 ^ 63 < W64 by decide, show 2 ^ 63 < W64 by decide, fun r hr => ?_, show 0 < 2 ^ 32 by decide⟩
    rw [List.eq_of_mem_replicate hr]; decide
  have hr : d.router.length = 9 := by subst hd; rfl
  have hc : d.content = cf.msg := by subst hd; rfl
  refine ⟨h, d, msgSize h d.size, ok1, ok2, by omega, by omega, C51_data_accepted cf h2 h d ok1 ok2 (by omega) (by omega), ?_⟩
  have v63 : vlen (2 ^ 63) = 10 := vlen_big (by decide) (by decide)
  have e1 : d.size ≥ cf.msg + 116 := by
    have hp : packed (List.replicate 9 (2 ^ 63)) ≥ 92 := by
      unfold packed fieldM
      rw [if_neg (by simp), List.map_replicate, v63]
      have hs : (List.replicate 9 10).sum = 90 := by decide
      rw [hs]
      have := vlen_pos 90
      omega
    have hf : fieldU (2 ^ 63) = 11 := by unfold fieldU; rw [if_neg (by decide), v63]
    have hb : fieldB cf.msg ≥ cf.msg + 2 := by
      unfold fieldB
      have := vlen_pos cf.msg
      rw [if_neg (by omega)]; omega
    subst hd
    simp only [Data.size, hf]
    omega
  have e2 : staticBuffer cf ≤ cf.msg + 96 := by
    unfold staticBuffer Buffer.headSize
    exact Nat.mod_le _ _
  have := vlen_pos h.size
  have := vlen_pos d.size
  unfold msgSize fieldM
  omega

/-- C51 is false for memory channels also for commands that go directly to their destination: many
arguments, each of which takes more bytes than the two the check allows for. -/
theorem C51_memory_command_false (base : Nat) (hb : base ≤ 200) :
    ∃ cf h c n, cf.cmdBase = base ∧ h.ok ∧ c.keys = [] ∧ c.args.sum + base ≤ cf.msg ∧ call cf (.cmd false h c) = .ok n ∧ n > staticBuffer cf := by
  obtain ⟨cf, hcf⟩ : ∃ cf : Conf, cf = ⟨base + 13000, base⟩ := ⟨_, rfl⟩
  obtain ⟨h, hh⟩ : ∃ h : Head, h = ⟨2, 0, 0, 1, 1⟩ := ⟨_, rfl⟩
  obtain ⟨c, hc⟩ : ∃ c : Cmd, c = ⟨1, List.replicate 100 128, []⟩ := ⟨_, rfl⟩
  have rsum : (List.replicate 100 128).sum = 12800 := by decide
  have v1 : vlen 1 = 1 := by rw [vlen, if_pos (by omega)]
  have v2 : vlen 2 = 1 := by rw [vlen, if_pos (by omega)]
  have v6 : vlen 6 = 1 := by rw [vlen, if_pos (by omega)]
  have v128 : vlen 128 = 2 := by rw [vlen, if_neg (by omega), v1]
  have v131 : vlen 131 = 2 := by rw [vlen, if_neg (by omega), v1]
  have hs : c.size = 13402 := by
    subst hc
    decide +kernel
  have hz : h.size = 6 := by
    subst hh
    decide +kernel
  have hv : vlen 13402 = 2 := by rw [vlen, if_neg (by omega), vlen, if_pos (by omega)]
  have hm : msgSize h c.size = 13413 := by
    unfold msgSize fieldM
    rw [hs, hz, hv, v6]
  refine ⟨cf, h, c, 13413, by rw [hcf], ?_, by rw [hc], ?_, ?_, ?_⟩
  · subst hh; unfold Head.ok W64; decide
  · rw [hc, hcf]; simp only [rsum]; omega
  · simp only [call, sendCmd]
    have hsum : cmdSum cf c.args = base + 13000 := by
      rw [cmdSum_eq]
      · rw [hc, hcf]; simp only [rsum, List.length_replicate]
      · rw [hc, hcf]; simp only [rsum, List.length_replicate]; unfold W64; omega
    rw [if_neg (by decide), if_neg (by rw [hsum, hcf]; simp), hm]
    unfold sendMsg frameHeader
    rw [if_neg]
    rw [hcf, Nat.mod_eq_of_lt (by unfold W64; simp only; omega)]
    simp only; omega
  · unfold staticBuffer Buffer.headSize
    rw [hcf, Nat.mod_eq_of_lt (by unfold W64; simp only; omega)]
    simp only; omega

/-! ### Examples -/

/-- The result as a sum, which can be compared. -/
def code : Except Int Nat → Int ⊕ Nat
  | .error e => .inl e
  | .ok n => .inr n

/-- A data message of the default maximum size between two nodes. -/
example : code (call ⟨262144, 96⟩ (.data false ⟨2, 7, 0, 300, 0x12345678⟩ ⟨0x12345678, 0x12345679, [0x12345678], 262144, 1⟩)) = .inr 262188 := by
  decide +kernel

example : code (call ⟨262144, 96⟩ (.data false ⟨2, 7, 0, 300, 0x12345678⟩ ⟨0x12345678, 0x12345679, [0x12345678], 262145, 1⟩)) =
    .inl Err.INVALID_SIZE := by decide +kernel

example : code (call ⟨262144, 96⟩ (.cmd false ⟨2, 0, 0, 300, 5⟩ ⟨5, [262000, 100], []⟩)) = .inl Err.INVALID_SIZE := by decide +kernel

end Verif.Node.Sizes
