import Verif.Mem.ConcDead
import Verif.Mem.ConcLedger
import Verif.Mem.ConcCount

/-!
Properties C15 and C16: any number of senders and one receiver at the same time.

The theorems hold for every run of the interleaved model (`Conc.lean`) in which every step satisfies `Legal`
(`ConcSpec.lean`).  For each of `NoLap`, `GiveUp`, `StopLate` and `Prompt` there is a run that satisfies all other
assumptions and for which the property is false; for `NumberOK` there is one in `ConcWrap.lean`.
-/
namespace Verif.Mem.Conc

set_option maxRecDepth 10000

/-! ### Concrete runs -/

instance (s : St) (j : Nat) : Decidable (Lost s j) :=
  decidable_of_iff (j ∉ s.fin ∧ (match s.who[j]? with | some t => s.crashed t | none => false) = true) (by
    unfold Lost
    cases s.who[j]? with
    | none => simp
    | some t => simp)

instance (s : St) (e : Ev) : Decidable (SizeOK s e) := by
  cases e <;> unfold SizeOK <;> infer_instance
instance (s : St) (e : Ev) : Decidable (CountOK s e) := by
  cases e <;> simp only [CountOK] <;> try infer_instance
  split <;> infer_instance
instance (s : St) (e : Ev) : Decidable (NoLap s e) := by
  cases e <;> simp only [NoLap] <;> try infer_instance
  split <;> infer_instance
instance (s : St) (e : Ev) : Decidable (StopLate s e) := by
  cases e <;> simp only [StopLate] <;> try infer_instance
  split <;> infer_instance
instance (s : St) (e : Ev) : Decidable (GiveUp s e) := by
  cases e <;> simp only [GiveUp] <;> try infer_instance
  split <;> infer_instance
instance (s : St) (e : Ev) : Decidable (Prompt s e) := by
  cases e <;> simp only [Prompt] <;> try infer_instance
  split <;> infer_instance
instance (s : St) (e : Ev) : Decidable (Counted s e) := by unfold Counted; infer_instance

/-- Decides `Along` and gives the last state. -/
def alongB (P : St → Ev → Prop) [∀ s e, Decidable (P s e)] (hash : List Byte → Nat) (s : St) : List Ev → Bool
  | [] => true
  | e :: es => decide (P s e) && match step hash s e with
    | none => true
    | some s1 => alongB P hash s1 es

theorem along_of {P : St → Ev → Prop} [∀ s e, Decidable (P s e)] {hash : List Byte → Nat} : ∀ {es : List Ev} {s : St},
    alongB P hash s es = true → Along P hash s es := by
  intro es
  induction es with
  | nil => intro s _; trivial
  | cons e es ih =>
    intro s h
    simp only [alongB, Bool.and_eq_true, decide_eq_true_eq] at h
    refine ⟨h.1, fun s1 h1 => ih ?_⟩
    have := h.2
    rw [h1] at this
    exact this

theorem legal_run {hash : List Byte → Nat} {conf : Conf} {es : List Ev} (h : alongB Counted hash (St.init conf) es = true) :
    Along Legal hash (St.init conf) es := legal_of (nums_init conf) (along_of h)

theorem along_and {P Q : St → Ev → Prop} {hash : List Byte → Nat} : ∀ {es : List Ev} {s : St}, Along P hash s es → Along Q hash s es →
    Along (fun s e => P s e ∧ Q s e) hash s es := by
  intro es
  induction es with
  | nil => intro s _ _; trivial
  | cons e es ih => intro s h1 h2; exact ⟨⟨h1.1, h2.1⟩, fun s1 hs => ih (h1.2 s1 hs) (h2.2 s1 hs)⟩

theorem result_of {P : St → Prop} [∀ s, Decidable (P s)] {o : Option St} (h : o.any (fun s => decide (P s)) = true) :
    ∃ s, o = some s ∧ P s := by
  cases o with
  | none => cases h
  | some s => exact ⟨s, rfl, by simpa using h⟩

theorem noStop {es : List Ev} (h : es.all (fun e => match e with | .crash _ => false | _ => true) = true) (t : Nat) :
    Ev.crash t ∉ es := fun ht => by
  have := List.all_eq_true.1 h _ ht
  cases this

/-- `k` accesses of sender `t`. -/
def sends (t k : Nat) : List Ev := List.replicate k (.send t false)

/-- A call of `mem_recv` and `k` accesses. -/
def recvs (len now k : Nat) : List Ev := .recv len :: List.replicate k (.rstep now)

/-- A hash for the examples. -/
def hsum (b : List Byte) : Nat := b.foldl (fun a x => a * 31 + x.val + 1) 7

def conf2 : Conf := ⟨2, 0, 0, 100, 2⟩
def conf3 : Conf := ⟨3, 0, 0, 100, 2⟩
def conf8 : Conf := ⟨8, 1, 256, 100, 2⟩

theorem conf2_ok : ConfOK conf2 := ⟨by decide, by decide, by decide, by decide, by decide⟩
theorem conf3_ok : ConfOK conf3 := ⟨by decide, by decide, by decide, by decide, by decide⟩
theorem conf8_ok : ConfOK conf8 := ⟨by decide, by decide, by decide, by decide, by decide⟩

/-- Two senders that take turns, so that the second one fails its first compare and swap, and the receiver. -/
def turns : List Ev := [.call 0 [5], .call 1 [6, 7]] ++ (List.replicate 14 [Ev.send 0 false, Ev.send 1 false]).flatten ++
  (.recv 10 :: [Ev.rstep 1, .send 0 false, .rstep 1, .send 1 false, .rstep 1, .send 1 false, .rstep 1, .send 1 false,
    .rstep 1, .send 1 false]) ++
  List.replicate 9 (.rstep 1)

/-- The same with a sender that stops after it has marked its node, and a second call of the receiver. -/
def stops : List Ev := [.call 0 [5]] ++ sends 0 10 ++ [.crash 0] ++ (.call 1 [6, 7] :: sends 1 16)

/-! ### C15 -/

theorem nocrash_run {hash : List Byte → Nat} : ∀ {es : List Ev} {s s1 : St}, (∀ t, Ev.crash t ∉ es) → run hash s es = some s1 →
    s1.crashed = s.crashed := by
  intro es
  induction es with
  | nil =>
    intro s s1 _ hs
    simp only [run, Option.some.injEq] at hs
    rw [hs]
  | cons e es ih =>
    intro s s1 hn hs
    simp only [run] at hs
    split at hs
    · cases hs
    · rename_i s2 h2
      rw [ih (fun t ht => hn t (List.mem_cons_of_mem _ ht)) hs]
      cases e with
      | call t m =>
        simp only [step] at h2
        split at h2
        · simp only [Option.some.injEq] at h2
          subst h2
          exact (callSend_frame s t m).2.2.2.1
        · cases h2
      | send t weak =>
        simp only [step] at h2
        split at h2
        · exact (stepSend_frame h2).2.2.2.1
        · cases h2
      | crash t => exact absurd List.mem_cons_self (hn t)
      | recv len =>
        simp only [step] at h2
        split at h2
        · simp only [Option.some.injEq] at h2
          subst h2
          rfl
        · cases h2
      | rstep now => exact (stepRecv_frame h2).1

theorem takenOf_all {resv : List Msg} {fin : List Nat} : ∀ {d : Nat}, d ≤ resv.length → (∀ j, j < d → j ∈ fin) →
    takenOf resv fin d = resv.take d := by
  intro d
  induction d with
  | zero => intro _ _; rfl
  | succ d ih =>
    intro hd hf
    have := ih (by omega) (fun j hj => hf j (by omega))
    unfold takenOf at this ⊢
    rw [List.range_succ, List.filterMap_append, this, List.take_succ_eq_append_getElem (by omega)]
    simp [hf d (by omega), List.getElem?_eq_getElem (show d < resv.length by omega)]

/-- C15, partial: the received messages are exactly the first reservations, in the order of the reservations, each once,
with their bytes, and each was completely written; no access leaves the channel or the caller's buffer; no call of
`mem_recv` reports a damaged channel.  Missing: runs that violate `Legal`, and weaker memory orders. -/
theorem C15_received_partial {hash : List Byte → Nat} {conf : Conf} {es : List Ev} {s : St} (hc : ConfOK conf)
    (hl : Along Legal hash (St.init conf) es) (hn : ∀ t, Ev.crash t ∉ es) (hr : run hash (St.init conf) es = some s) :
    s.got = s.resv.take s.got.length ∧ (∀ j, j < s.got.length → j ∈ s.fin) ∧ Front s s.got.length ∧ s.oob = false ∧
    ∀ c ∈ s.codes, c = Err.SUCCESS ∨ c = Err.NO_DATA ∨ c = Err.BUFF_LIMIT := by
  obtain ⟨g, h⟩ := inv_run (inv_init hash hc) hl hr
  have hcr : ∀ t, s.crashed t = false := by
    intro t; rw [nocrash_run hn hr]; rfl
  have hd : g.d ≤ s.resv.length := by rw [h.len]; exact h.dle
  have hfin : ∀ j, j < g.d → j ∈ s.fin := by
    intro j hj
    have hjl : j < g.rs.length := Nat.lt_of_lt_of_le hj h.dle
    have hrj := List.getElem?_eq_getElem hjl
    rcases h.touched j _ hrj (Nat.lt_of_lt_of_le (pos_lt hj h.dle) h.xlo) with a | a
    · exact (h.fin j).2 ⟨_, hrj, a⟩
    · have := a.1; rw [hcr] at this; cases this
  have hg := h.got
  rw [takenOf_all hd hfin] at hg
  have hlen : s.got.length = g.d := by rw [hg, List.length_take]; omega
  exact ⟨by rw [hlen]; exact hg, by rw [hlen]; exact hfin, by rw [hlen]; exact h.front, h.oob, h.codes⟩

example : Along Legal hsum (St.init conf8) turns ∧ (∀ t, Ev.crash t ∉ turns) ∧
    (run hsum (St.init conf8) turns).map (fun s => (s.got, s.resv, s.fin, s.codes)) = some ([[5]], [[5], [6, 7]], [0, 1], [0]) := by
  refine ⟨legal_run (by decide +kernel), fun t ht => ?_, by decide +kernel⟩
  exact noStop (es := turns) (by decide) t ht

/-- C15, partial: what a sender has reserved space for, in order, is what its calls have reported as sent, in order, each
once, and what it is sending now.  Missing: runs that violate `Legal` or `Prompt`. -/
theorem C15_sent_partial {hash : List Byte → Nat} {conf : Conf} {es : List Ev} {s : St} (hc : ConfOK conf)
    (hl : Along (fun s e => Legal s e ∧ Prompt s e) hash (St.init conf) es) (hr : run hash (St.init conf) es = some s) (t : Nat) :
    owned s t = accepted s t ++ pending (s.thr t) :=
  ledger_run (inv_init hash hc) (ledger_init conf) hl hr t

example : Along (fun s e => Legal s e ∧ Prompt s e) hsum (St.init conf8) turns ∧
    (run hsum (St.init conf8) turns).map (fun s => [owned s 1, accepted s 1, pending (s.thr 1), owned s 0, accepted s 0]) =
      some [[[6, 7]], [[6, 7]], [], [[5]], [[5]]] := by
  exact ⟨along_and (legal_run (by decide +kernel)) (along_of (by decide +kernel)), by decide +kernel⟩

/-- C15, partial: when the first reservation that was not passed is finished, the next call of `mem_recv` with a large
enough buffer returns it, whatever the senders do meanwhile. -/
theorem C15_next_partial {hash : List Byte → Nat} {conf : Conf} {es es' : List Ev} {s s' : St} {d len : Nat} {m : Msg}
    (hc : ConfOK conf) (hl : Along Legal hash (St.init conf) (es ++ .recv len :: es')) (hr : run hash (St.init conf) es = some s)
    (hf : Front s d) (hm : s.resv[d]? = some m) (hd : d ∈ s.fin) (hlen : m.length ≤ len)
    (hr' : run hash s (.recv len :: es') = some s') (hcall : s'.codes.length = s.codes.length + 1) :
    s'.codes = s.codes ++ [Err.SUCCESS] ∧ s'.got = s.got ++ [m] := by
  obtain ⟨hl1, hl2⟩ := along_append.1 hl
  obtain ⟨g, h⟩ := inv_run (inv_init hash hc) hl1 hr
  obtain rfl := h.front_eq hf
  have hl2 := hl2 s hr
  simp only [run] at hr'
  split at hr'
  · cases hr'
  · rename_i s2 h2
    obtain ⟨g2, i2, d2, d2'⟩ := inv_step h hl2.1 h2
    have hl3 := hl2.2 s2 h2
    have e2 := d2' (by nofun)
    simp only [step] at h2
    split at h2
    · simp only [Option.some.injEq] at h2
      subst h2
      exact track_run (s := s.to (.loadR len)) hlen i2 (by rw [e2]; exact hm) (by rw [e2]; exact hd) rfl hl3 hr' hcall
    · cases h2

/-- The first call has returned message 0; message 1 is finished and the next call returns it. -/
example : Along Legal hsum (St.init conf8) (turns ++ recvs 2 1 14) ∧
    (run hsum (St.init conf8) turns).map (fun s => (s.rcur, offset s.resv 1, s.tot, s.fin)) = some (1, 1, 2, [0, 1]) ∧
    (run hsum (St.init conf8) (turns ++ recvs 2 1 14)).map (fun s => (s.codes, s.got)) = some ([0, 0], [[5], [6, 7]]) := by
  refine ⟨legal_run (by decide +kernel), ?_, ?_⟩ <;> decide +kernel

/-- C15: a call of `mem_recv` returns after a bounded number of its own accesses, whatever the channel contains and
whatever the senders do. -/
theorem C15_recv_returns {hash : List Byte → Nat} {s s' : St} {es : List Ev} {len : Nat} (hn : 0 < s.conf.n)
    (hr : s.rcur < s.conf.n) (hw : s.wcur < s.conf.n) (hs : run hash s (.recv len :: es) = some s')
    (hopen : s'.codes.length = s.codes.length) :
    (es.countP fun e => match e with | .rstep _ => true | _ => false) < s.conf.n * (2 ^ 64 + 3 * s.conf.n + 20) + 3 := by
  simp only [run] at hs
  split at hs
  · cases hs
  · rename_i s2 h2
    simp only [step] at h2
    split at h2
    · simp only [Option.some.injEq] at h2
      subst h2
      exact rb_run (s := s.to (.loadR len)) ⟨hn, hr, hw, trivial⟩ (by simp [St.to]) hs hopen
    · cases h2

example : (run hsum (St.init conf8) (turns ++ recvs 2 1 13)).map (fun s => (s.rpc == .idle, s.codes)) = some (false, [0]) ∧
    (run hsum (St.init conf8) (turns ++ recvs 2 1 14)).map (fun s => (s.rpc == .idle, s.codes)) = some (true, [0, 0]) := by
  constructor <;> decide +kernel

/-- C15: as long as the 32-bit operation counter has not wrapped, every message is given a number that no node and no sender
has, whatever the senders and the receiver do. -/
theorem C15_numbers {hash : List Byte → Nat} {conf : Conf} {es : List Ev} (h : Along CountOK hash (St.init conf) es) :
    Along NumberOK hash (St.init conf) es := numbers_of (nums_init conf) h

example : Along CountOK hsum (St.init conf8) (turns ++ recvs 2 1 14) ∧
    (run hsum (St.init conf8) (turns ++ recvs 2 1 14)).map (fun s => (s.oseq, (s.heads 0).seq, (s.heads 1).seq)) = some (2, 1, 2) :=
  ⟨along_of (by decide +kernel), by decide +kernel⟩

def aba : List Ev := .call 0 [5] :: sends 0 3 ++ (.call 1 [6] :: sends 1 15) ++ recvs 10 1 13 ++ (.call 1 [7] :: sends 1 15) ++
  sends 0 12 ++ recvs 10 1 3

/-- C15 is false without `NoLap`: a sender reads the cursors and is delayed while others go once around the ring.  Its
compare and swap succeeds, the ring is overfull and looks empty: two messages that were reported as sent are lost. -/
theorem C15_aba_false : ∃ (conf : Conf) (es : List Ev) (s : St), ConfOK conf ∧
    Along (fun s e => SizeOK s e ∧ CountOK s e ∧ StopLate s e ∧ GiveUp s e ∧ Prompt s e) hsum (St.init conf) es ∧
    (∀ t, Ev.crash t ∉ es) ∧ run hsum (St.init conf) es = some s ∧
    s.sent = [(1, [6], Err.SUCCESS), (1, [7], Err.SUCCESS), (0, [5], Err.SUCCESS)] ∧ s.thr 0 = .idle ∧ s.thr 1 = .idle ∧
    s.got = [[6]] ∧ s.codes = [Err.SUCCESS, Err.NO_DATA] ∧ s.rcur = s.wcur ∧ s.rpc = .idle := by
  refine ⟨conf2, aba, ?_⟩
  obtain ⟨s, h1, h2⟩ := result_of (o := run hsum (St.init conf2) aba)
    (P := fun s => s.sent = [(1, [6], Err.SUCCESS), (1, [7], Err.SUCCESS), (0, [5], Err.SUCCESS)] ∧ s.thr 0 = .idle ∧ s.thr 1 = .idle ∧
    s.got = [[6]] ∧ s.codes = [Err.SUCCESS, Err.NO_DATA] ∧ s.rcur = s.wcur ∧ s.rpc = .idle) (by decide +kernel)
  exact ⟨s, conf2_ok, along_of (by decide +kernel), noStop (by decide), h1, h2⟩

def dup : List Ev := .call 0 [5] :: sends 0 14 ++ recvs 10 1 13 ++ (.call 1 [6] :: sends 1 15) ++ recvs 10 1 13 ++
  (.call 1 [7] :: sends 1 15) ++ recvs 10 1 13 ++ sends 0 16 ++ recvs 10 1 13

/-- C15 is false without `Prompt`: a sender is delayed before its last check until its node is used again; the check fails
and it sends the message a second time.  One call of `mem_send`, delivered twice. -/
theorem C15_duplicate_false : ∃ (conf : Conf) (es : List Ev) (s : St), ConfOK conf ∧ Along Legal hsum (St.init conf) es ∧
    (∀ t, Ev.crash t ∉ es) ∧ run hsum (St.init conf) es = some s ∧
    s.sent = [(1, [6], Err.SUCCESS), (1, [7], Err.SUCCESS), (0, [5], Err.SUCCESS)] ∧
    s.got = [[5], [6], [7], [5]] := by
  refine ⟨conf2, dup, ?_⟩
  obtain ⟨s, h1, h2⟩ := result_of (o := run hsum (St.init conf2) dup)
    (P := fun s => s.sent = [(1, [6], Err.SUCCESS), (1, [7], Err.SUCCESS), (0, [5], Err.SUCCESS)] ∧
    s.got = [[5], [6], [7], [5]]) (by decide +kernel)
  exact ⟨s, conf2_ok, legal_run (by decide +kernel), noStop (by decide), h1, h2⟩

def slow : List Ev := .call 0 [5] :: sends 0 10 ++ recvs 10 1 5 ++ recvs 10 200 7 ++ sends 0 5 ++ recvs 10 300 3

/-- C15 is false without `GiveUp`: a sender is delayed for longer than the write timeout; the receiver gives up its
message; the call of `mem_send` still reports success. -/
theorem C15_slow_sender_false : ∃ (conf : Conf) (es : List Ev) (s : St), ConfOK conf ∧
    Along (fun s e => SizeOK s e ∧ CountOK s e ∧ NoLap s e ∧ StopLate s e ∧ Prompt s e) hsum (St.init conf) es ∧
    (∀ t, Ev.crash t ∉ es) ∧ run hsum (St.init conf) es = some s ∧
    s.sent = [(0, [5], Err.SUCCESS)] ∧ s.got = [] ∧ s.rcur = s.wcur ∧ s.rpc = .idle := by
  refine ⟨conf2, slow, ?_⟩
  obtain ⟨s, h1, h2⟩ := result_of (o := run hsum (St.init conf2) slow)
    (P := fun s => s.sent = [(0, [5], Err.SUCCESS)] ∧ s.got = [] ∧ s.rcur = s.wcur ∧ s.rpc = .idle) (by decide +kernel)
  exact ⟨s, conf2_ok, along_of (by decide +kernel), noStop (by decide), h1, h2⟩

def over : List Ev := .call 0 [5, 6] :: sends 0 9 ++ recvs 1 1 5 ++ recvs 1 200 7 ++ (.call 1 [7] :: sends 1 15) ++
  recvs 1 200 13 ++ (.call 1 [8] :: sends 1 15) ++ recvs 1 200 6 ++ sends 0 1 ++ List.replicate 8 (.rstep 200)

/-- C15 is false without `GiveUp`: a sender that was delayed for longer than the write timeout writes the size of its
message between the two reads of the size in `mem_recv`.  The check against the length of the caller's buffer used the
old size, the copy uses the new one: bytes are written beyond the end of the buffer. -/
theorem C15_overrun_false : ∃ (conf : Conf) (es : List Ev) (s : St), ConfOK conf ∧
    Along (fun s e => SizeOK s e ∧ CountOK s e ∧ NoLap s e ∧ StopLate s e ∧ Prompt s e) hsum (St.init conf) es ∧
    (∀ t, Ev.crash t ∉ es) ∧ run hsum (St.init conf) es = some s ∧ s.oob = true := by
  refine ⟨conf2, over, ?_⟩
  obtain ⟨s, h1, h2⟩ := result_of (o := run hsum (St.init conf2) over) (P := fun s => s.oob = true) (by decide +kernel)
  exact ⟨s, conf2_ok, along_of (by decide +kernel), noStop (by decide), h1, h2⟩

/-! ### C16 -/

/-- C16, partial: with senders that stop after they have marked their nodes, the received messages are exactly the
finished ones among the reservations that were passed, in order; a reservation that was passed and not finished belongs
to a sender that stopped. -/
theorem C16_received_partial {hash : List Byte → Nat} {conf : Conf} {es : List Ev} {s : St} (hc : ConfOK conf)
    (hl : Along Legal hash (St.init conf) es) (hr : run hash (St.init conf) es = some s) :
    ∃ d, Front s d ∧ s.got = takenOf s.resv s.fin d ∧ (∀ j, j < d → j ∈ s.fin ∨ Lost s j) ∧ s.oob = false ∧
    ∀ c ∈ s.codes, c = Err.SUCCESS ∨ c = Err.NO_DATA ∨ c = Err.BUFF_LIMIT := by
  obtain ⟨g, h⟩ := inv_run (inv_init hash hc) hl hr
  refine ⟨g.d, h.front, h.got, ?_, h.oob, h.codes⟩
  intro j hj
  have hjl : j < g.rs.length := Nat.lt_of_lt_of_le hj h.dle
  have hrj := List.getElem?_eq_getElem hjl
  by_cases hf : j ∈ s.fin
  · exact Or.inl hf
  · right
    rcases h.touched j _ hrj (Nat.lt_of_lt_of_le (pos_lt hj h.dle) h.xlo) with a | a
    · exact absurd ((h.fin j).2 ⟨_, hrj, a⟩) hf
    · exact ⟨hf, _, by rw [h.who, List.getElem?_map, hrj]; rfl, a.1⟩

example : Along Legal hsum (St.init conf8) (stops ++ recvs 10 7 5 ++ recvs 10 200 18) ∧
    (run hsum (St.init conf8) (stops ++ recvs 10 7 5 ++ recvs 10 200 18)).map (fun s => (s.got, s.resv, s.fin, s.codes, s.rcur)) =
      some ([[6, 7]], [[5], [6, 7]], [1], [Err.NO_DATA, Err.SUCCESS], 2) := by
  exact ⟨legal_run (by decide +kernel), by decide +kernel⟩

/-- C16, partial: while the first reservation belongs to a sender that stopped and the write timeout has not passed, a call
returns no data and leaves everything in place; the first such call notes the time. -/
theorem C16_wait_partial {hash : List Byte → Nat} {conf : Conf} {es es' : List Ev} {s s' : St} {d len : Nat} {P : Nat → Prop}
    (hc : ConfOK conf) (hl : Along Legal hash (St.init conf) (es ++ .recv len :: es')) (hr : run hash (St.init conf) es = some s)
    (hf : Front s d) (hd : Lost s d) (hp : ∀ now, Ev.rstep now ∈ es' → P now)
    (hearly : s.fft ≠ 0 → ∀ now, P now → absDiff now s.fft ≤ s.conf.timeout)
    (hr' : run hash s (.recv len :: es') = some s') (hcall : s'.codes.length = s.codes.length + 1) (hi : s'.rpc = .idle) :
    s'.codes = s.codes ++ [Err.NO_DATA] ∧ s'.got = s.got ∧ s'.rcur = s.rcur ∧ Front s' d ∧ Lost s' d ∧
    if s.fft = 0 then P s'.fft else s'.fft = s.fft := by
  obtain ⟨hl1, hl2⟩ := along_append.1 hl
  obtain ⟨g, h⟩ := inv_run (inv_init hash hc) hl1 hr
  obtain rfl := h.front_eq hf
  have hl2 := hl2 s hr
  obtain ⟨g', h'⟩ := inv_run h hl2 hr'
  have hlo := lost_run h hl2 hd hr'
  simp only [run] at hr'
  split at hr'
  · cases hr'
  · rename_i s2 h2
    obtain ⟨g2, i2, d2, d2'⟩ := inv_step h hl2.1 h2
    have hl3 := hl2.2 s2 h2
    have e2 := d2' (by nofun)
    simp only [step] at h2
    split at h2
    · simp only [Option.some.injEq] at h2
      subst h2
      have := track3_run (s := s.to (.loadR len)) (F := s.fft) (P := P) (fun hF now hn => Nat.not_lt.2 (hearly hF now hn)) i2 (by rw [e2]; exact hd)
        rfl hl3 (fun e he => by cases e <;> first | trivial | exact hp _ he) hr' hcall hi
      obtain ⟨b1, b2, b3, b4, g3, i3, b5⟩ := this
      exact ⟨b1, b2, b3, by have := i3.front; rw [b5, e2] at this; exact this, hlo, b4⟩
    · cases h2

example : Along Legal hsum (St.init conf8) (stops ++ recvs 10 7 5) ∧
    (run hsum (St.init conf8) stops).map (fun s => (s.rcur, offset s.resv 0, s.tot, s.fft, decide (Lost s 0))) = some (0, 0, 2, 0, true) ∧
    (run hsum (St.init conf8) (stops ++ recvs 10 7 5)).map (fun s => (s.codes, s.got, s.rcur, s.fft)) = some ([Err.NO_DATA], [], 0, 7) ∧
    (run hsum (St.init conf8) (stops ++ recvs 10 7 5 ++ recvs 10 107 5)).map (fun s => (s.codes, s.got, s.rcur, s.fft)) =
      some ([Err.NO_DATA, Err.NO_DATA], [], 0, 7) := by
  refine ⟨legal_run (by decide +kernel), ?_, ?_, ?_⟩ <;> decide +kernel

/-- C16, partial: when the write timeout of the first reservation, whose sender stopped, has passed, the next call returns
the message after it if that is finished. -/
theorem C16_pass_partial {hash : List Byte → Nat} {conf : Conf} {es es' : List Ev} {s s' : St} {d len : Nat} {m : Msg}
    (hc : ConfOK conf) (hl : Along Legal hash (St.init conf) (es ++ .recv len :: es')) (hr : run hash (St.init conf) es = some s)
    (hf : Front s d) (hd : Lost s d) (hm : s.resv[d + 1]? = some m) (hd1 : d + 1 ∈ s.fin) (hlen : m.length ≤ len)
    (h0 : s.fft ≠ 0) (hlate : ∀ now, Ev.rstep now ∈ es' → absDiff now s.fft > s.conf.timeout)
    (hr' : run hash s (.recv len :: es') = some s') (hcall : s'.codes.length = s.codes.length + 1) :
    s'.codes = s.codes ++ [Err.SUCCESS] ∧ s'.got = s.got ++ [m] := by
  obtain ⟨hl1, hl2⟩ := along_append.1 hl
  obtain ⟨g, h⟩ := inv_run (inv_init hash hc) hl1 hr
  obtain rfl := h.front_eq hf
  have hl2 := hl2 s hr
  simp only [run] at hr'
  split at hr'
  · cases hr'
  · rename_i s2 h2
    obtain ⟨g2, i2, d2, d2'⟩ := inv_step h hl2.1 h2
    have hl3 := hl2.2 s2 h2
    have e2 := d2' (by nofun)
    simp only [step] at h2
    split at h2
    · simp only [Option.some.injEq] at h2
      subst h2
      exact track2_run (s := s.to (.loadR len)) (F := s.fft) hlen h0 i2 (by rw [e2]; exact hd) (by rw [e2]; exact hm) (by rw [e2]; exact hd1)
        ⟨rfl, rfl⟩ hl3 (fun e he => by cases e <;> first | trivial | exact hlate _ he) hr' hcall
    · cases h2

example : Along Legal hsum (St.init conf8) (stops ++ recvs 10 7 5 ++ recvs 2 108 18) ∧
    (run hsum (St.init conf8) (stops ++ recvs 10 7 5)).map (fun s => ([s.rcur, offset s.resv 0, s.tot, s.fft], decide (Lost s 0), s.fin)) =
      some ([0, 0, 2, 7], true, [1]) ∧
    (run hsum (St.init conf8) (stops ++ recvs 10 7 5 ++ recvs 2 108 18)).map (fun s => (s.codes, s.got)) =
      some ([Err.NO_DATA, Err.SUCCESS], [[6, 7]]) := by
  refine ⟨legal_run (by decide +kernel), ?_, ?_⟩ <;> decide +kernel

def big : Msg := List.replicate 241 1

def early : List Ev := .call 0 big :: sends 0 257 ++ recvs 300 1 256 ++ (.call 0 [2] :: sends 0 15) ++ recvs 300 1 13 ++
  (.call 0 [3] :: sends 0 4) ++ [.crash 0] ++ (.call 1 [4] :: sends 1 4) ++ recvs 300 1 5 ++ recvs 300 200 11 ++ sends 1 11 ++
  recvs 300 300 3

/-- C16 is false without `StopLate`: a sender stops between its reservation and the marking of its node.  The node still
carries the sequence number of an older message; the next node, which a live sender has just reserved, carries the same
number and is passed at once.  The live sender reports success and its message is lost. -/
theorem C16_early_stop_false : ∃ (conf : Conf) (es : List Ev) (s : St), ConfOK conf ∧
    Along (fun s e => SizeOK s e ∧ CountOK s e ∧ NoLap s e ∧ GiveUp s e ∧ Prompt s e) hsum (St.init conf) es ∧
    run hsum (St.init conf) es = some s ∧ s.crashed 1 = false ∧
    s.sent = [(0, big, Err.SUCCESS), (0, [2], Err.SUCCESS), (1, [4], Err.SUCCESS)] ∧ s.thr 1 = .idle ∧
    s.got = [big, [2]] ∧ s.rcur = s.wcur ∧ s.rpc = .idle := by
  refine ⟨conf3, early, ?_⟩
  obtain ⟨s, h1, h2⟩ := result_of (o := run hsum (St.init conf3) early)
    (P := fun s => s.crashed 1 = false ∧
    s.sent = [(0, big, Err.SUCCESS), (0, [2], Err.SUCCESS), (1, [4], Err.SUCCESS)] ∧ s.thr 1 = .idle ∧
    s.got = [big, [2]] ∧ s.rcur = s.wcur ∧ s.rpc = .idle) (by decide +kernel)
  exact ⟨s, conf3_ok, along_of (by decide +kernel), h1, h2⟩

end Verif.Mem.Conc
