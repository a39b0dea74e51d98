import Verif.Mem.TsoMain
import Verif.Mem.ConcProps

/-!
Properties C15 and C16 on a machine with store buffers (`Tso.lean`).

The assumptions are those of `ConcProps.lean` and that a buffer is emptied before the receiver gives up on its sender
(`GiveUpDry`); `NumberDry` follows from the counter not wrapping (`C15_tso_numbers`).
-/
namespace Verif.Mem.Tso

open Conc

set_option maxRecDepth 10000

/-! ### Operation numbers -/

theorem number_of_rel {τ : T} {f : Nat → SPC} {c : Nat → Bool} {n : List (Nat × Msg × Int)} (h : Rel τ f c n)
    (hn : Nums (sc τ f c n)) {t : Nat} {m : Msg} {left seq w wT k : Nat} (ht : τ.s.thr t = .cas m left seq w wT k) :
    (∀ i, (τ.s.heads i).seq ≠ seq) ∧ (∀ u, (τ.s.thr u).number ≠ some seq) ∧ ∀ u, ∀ e ∈ τ.buf u, e.seq ≠ seq := by
  have hf : f t = .cas m left seq w wT k := by
    cases h.lag t with
    | same _ hf => rw [hf, ht]
    | work _ _ _ _ _ _ h => rw [ht] at h; cases h
    | verify _ _ _ _ h => rw [ht] at h; cases h
    | done _ _ _ _ h => rw [ht] at h; cases h
  have h1 : held ((sc τ f c n).thr t) = some seq := by show held (f t) = _; rw [hf]; rfl
  have h2 : ((sc τ f c n).thr t).number = none := by show (f t).number = _; rw [hf]; rfl
  have hu : ∀ u, (f u).number ≠ some seq := by
    intro u e
    have hne : t ≠ u := fun e' => by rw [← e', hf] at e; cases e
    refine hn.apart t u seq hne h1 ?_
    show held (f u) = _
    revert e
    cases f u <;> simp [SPC.number, held]
  refine ⟨fun i => ?_, fun u => ?_, fun u e he => ?_⟩
  · have := hn.fresh t seq i h1 h2
    rw [show (sc τ f c n).heads = clrs τ.rbuf τ.s.heads from rfl, clrs_seq] at this
    exact this
  · have hx := hu u
    cases h.lag u with
    | same _ hf => rw [← hf]; exact hx
    | work _ _ _ hf _ _ h => rw [hf] at hx; rw [h]; exact hx
    | verify _ _ _ _ h => rw [h]; simp [SPC.number]
    | done _ _ _ _ h => rw [h]; simp [SPC.number]
  · have hx := hu u
    cases h.lag u with
    | same hb => rw [hb] at he; cases he
    | work _ _ _ hf hents => rw [hf] at hx; rw [(hents e he).2.1]; exact fun e => hx (by rw [← e]; rfl)
    | verify _ _ hf hents => rw [hf] at hx; rw [(hents e he).2.1]; exact fun e => hx (by rw [← e]; rfl)
    | done _ _ hf hents => rw [hf] at hx; rw [(hents e he).2.1]; exact fun e => hx (by rw [← e]; rfl)

theorem legal_of_rel {τ : T} {f : Nat → SPC} {c : Nat → Bool} {n : List (Nat × Msg × Int)} (h : Rel τ f c n)
    (hn : Nums (sc τ f c n)) {e : Ev} (hl : Counted τ e) : Legal τ e := by
  refine ⟨fun e' he => ?_, ?_, hl.2⟩
  · obtain ⟨a1, -, a3⟩ := hl.1 e' he
    refine ⟨a1, ?_, a3⟩
    show NumberOK τ.s e'
    cases e' with
    | send t weak =>
      simp only [NumberOK]
      split
      · rename_i m left seq w wT k ht
        obtain ⟨b1, b2, -⟩ := number_of_rel h hn ht
        exact fun _ => ⟨fun i _ => b1 i, fun u _ => b2 u⟩
      · trivial
    | _ => trivial
  · show NumberDry τ e
    cases e with
    | send t weak =>
      simp only [NumberDry]
      split
      · rename_i m left seq w wT k ht
        exact fun _ => (number_of_rel h hn ht).2.2
      · trivial
    | _ => trivial

theorem nums_run {hash : List Byte → Nat} : ∀ {es : List Conc.Ev} {s s1 : St}, Nums s → Conc.Along CountOK hash s es →
    Conc.run hash s es = some s1 → Nums s1 := by
  intro es
  induction es with
  | nil =>
    intro s s1 h _ hr
    simp only [Conc.run, Option.some.injEq] at hr
    rw [← hr]
    exact h
  | cons e es ih =>
    intro s s1 h hl hr
    simp only [Conc.run] at hr
    split at hr
    · cases hr
    · rename_i s2 h2
      exact ih (nums_step h hl.1 h2) (hl.2 s2 h2) hr

theorem legal_run {hash : List Byte → Nat} : ∀ {es : List Ev} {τ : T} {f : Nat → SPC} {c : Nat → Bool} {n : List (Nat × Msg × Int)} {g : G},
    CInv hash (sc τ f c n) g → Rel τ f c n → Nums (sc τ f c n) → Along Counted hash τ es → Along Legal hash τ es := by
  intro es
  induction es with
  | nil => intro τ f c n g _ _ _ _; trivial
  | cons e es ih =>
    intro τ f c n g h hr hn hl
    have hle := legal_of_rel hr hn hl.1
    refine ⟨hle, fun τ1 hs => ?_⟩
    obtain ⟨es1, f1, c1, n1, k1, k2, -, k5, k4⟩ := sim_step h hr hle hs
    obtain ⟨g1, h1⟩ := inv_run h k2 k1
    exact ih h1 k4 (nums_run hn (k5 fun e' he => (hl.1.1 e' he).2.1) k1) (hl.2 τ1 hs)

/-! ### Concrete runs -/

instance (τ : T) (e : Ev) : Decidable (GiveUpDry τ e) := by
  cases e <;> simp only [GiveUpDry] <;> try infer_instance
  split
  · rename_i l now _
    refine @instDecidableForall _ _ _ (@instDecidableForall _ _ _ ?_)
    exact decidable_of_iff ((match τ.s.who[τ.s.last l.rb]? with | some t => (τ.buf t).isEmpty | none => true) = true) (by
      cases τ.s.who[τ.s.last l.rb]? with
      | none => simp
      | some t => simp)
  · infer_instance

instance {P : Conc.Ev → Prop} [∀ e, Decidable (P e)] (o : Option Conc.Ev) : Decidable (∀ e, o = some e → P e) :=
  match o with
  | none => isTrue (by simp)
  | some e => decidable_of_iff (P e) (by simp)

instance (τ : T) (e : Ev) : Decidable (Counted τ e) := by unfold Counted; infer_instance
instance (τ : T) (e : Ev) : Decidable (Prompt τ e) := by unfold Prompt; infer_instance

/-- Decides `Along`. -/
def alongB (P : T → Ev → Prop) [∀ τ e, Decidable (P τ e)] (hash : List Byte → Nat) (τ : T) : List Ev → Bool
  | [] => true
  | e :: es => decide (P τ e) && match step hash τ e with
    | none => true
    | some τ1 => alongB P hash τ1 es

theorem along_of {P : T → Ev → Prop} [∀ τ e, Decidable (P τ e)] {hash : List Byte → Nat} : ∀ {es : List Ev} {τ : T},
    alongB P hash τ es = true → Along P hash τ es := by
  intro es
  induction es with
  | nil => intro τ _; trivial
  | cons e es ih =>
    intro τ h
    simp only [alongB, Bool.and_eq_true, decide_eq_true_eq] at h
    refine ⟨h.1, fun τ1 h1 => ih ?_⟩
    have := h.2
    rw [h1] at this
    exact this

theorem legal_init {hash : List Byte → Nat} {conf : Conf} (hc : ConfOK conf) {es : List Ev}
    (h : alongB Counted hash (T.init conf) es = true) : Along Legal hash (T.init conf) es :=
  legal_run (g := G.init) (Conc.inv_init hash hc) (rel_init conf) (nums_init conf) (along_of h)

/-- `k` accesses of sender `t`. -/
def sends (t k : Nat) : List Ev := List.replicate k (.send t false)

/-- `k` stores of sender `t` reach the memory. -/
def drains (t k : Nat) : List Ev := List.replicate k (.drain t)

/-- A call of `mem_recv` and `k` accesses. -/
def recvs (len now k : Nat) : List Ev := .recv len :: List.replicate k (.rstep now)

/-- Sender 0 has returned while its stores are in its buffer: the receiver does not see the message.  Then the stores reach the
memory, while sender 1 writes. -/
def early : List Ev := (.call 0 [5] :: sends 0 15) ++ recvs 10 1 5 ++ (.call 1 [6, 7] :: sends 1 5) ++ drains 0 10 ++ drains 1 1

/-- Then the receiver takes the message, with the cleared flag in its buffer until it stores its cursor. -/
def later : List Ev := List.replicate 13 (.rstep 1) ++ [.rdrain, .rstep 1]

/-- Sender 0 stops when its nodes are marked, but only in its buffer. -/
def stopped : List Ev := (.call 0 [5] :: sends 0 10) ++ [.crash 0] ++ drains 0 6 ++ (.call 1 [6, 7] :: sends 1 16) ++ drains 1 11

/-! ### C15 -/

/-- C15: on a machine with store buffers, while the 32-bit counter does not wrap, the number of a message is in no node, in no
buffer, and is the number of no other message that is being written, when nodes are reserved for the message. -/
theorem C15_tso_numbers {hash : List Byte → Nat} {conf : Conf} {es : List Ev} (hc : ConfOK conf)
    (h : Along Counted hash (T.init conf) es) : Along Legal hash (T.init conf) es :=
  legal_run (g := G.init) (Conc.inv_init hash hc) (rel_init conf) (nums_init conf) h

example : alongB Counted hsum (T.init conf8) early = true ∧
    (run hsum (T.init conf8) early).map (fun τ => (τ.s.codes, τ.s.sent.map (·.2.2), τ.s.fin)) = some ([Err.NO_DATA], [Err.SUCCESS], [0]) ∧
    (run hsum (T.init conf8) early).map (fun τ => ((τ.buf 0).length, (τ.buf 1).length, τ.s.oseq)) = some (0, 0, 2) :=
  ⟨by decide +kernel, by decide +kernel, by decide +kernel⟩

/-! ### What the interleaved run says about the machine -/

theorem front_sc {τ : T} {f : Nat → SPC} {c : Nat → Bool} {n : List (Nat × Msg × Int)} {d : Nat} :
    Front (sc τ f c n) d ↔ Front τ.s d := ⟨fun h => ⟨h.le, h.cur, h.lo, h.hi⟩, fun h => ⟨h.le, h.cur, h.lo, h.hi⟩⟩

theorem received_of {hash : List Byte → Nat} {conf : Conf} {es : List Ev} {τ : T} (hc : ConfOK conf)
    (hl : Along Legal hash (T.init conf) es) (hr : run hash (T.init conf) es = some τ) :
    ∃ d, Front τ.s d ∧ τ.s.got = takenOf τ.s.resv τ.s.fin d ∧ (∀ j, j < d → j ∈ τ.s.fin ∨ Lost τ.s j) ∧ τ.s.oob = false ∧
    ∀ c ∈ τ.s.codes, c = Err.SUCCESS ∨ c = Err.NO_DATA ∨ c = Err.BUFF_LIMIT := by
  obtain ⟨es1, f, c, n, h1, h2, -, -, h4⟩ := sim_init hc hl hr
  obtain ⟨d, k1, k2, k3, k4, k5⟩ := C16_received_partial hc h2 h1
  exact ⟨d, front_sc.1 k1, k2, fun j hj => (k3 j hj).imp id (lost_sc h4), k4, k5⟩

theorem nocrash_run {hash : List Byte → Nat} : ∀ {es : List Ev} {τ τ1 : T}, (∀ t, Ev.crash t ∉ es) → run hash τ es = some τ1 →
    τ1.s.crashed = τ.s.crashed := by
  intro es
  induction es with
  | nil =>
    intro τ τ1 _ hs
    simp only [run, Option.some.injEq] at hs
    rw [hs]
  | cons e es ih =>
    intro τ τ1 hn hs
    simp only [run] at hs
    split at hs
    · cases hs
    · rename_i τ2 h2
      rw [ih (fun t ht => hn t (List.mem_cons_of_mem _ ht)) hs]
      cases e with
      | call t m =>
        simp only [step] at h2
        split at h2
        · simp only [Option.some.injEq] at h2
          subst h2
          exact (callSend_frame τ.s t m).2.2.2.1
        · cases h2
      | send t weak =>
        simp only [step] at h2
        split at h2
        · unfold stepSend at h2
          have dry : (if τ.buf t = [] then (Conc.stepSend hash τ.s t weak).map fun s => { τ with s := s } else none) = some τ2 →
              τ2.s.crashed = τ.s.crashed := by
            intro h2
            split at h2
            · cases hq : Conc.stepSend hash τ.s t weak with
              | none => rw [hq] at h2; cases h2
              | some s1 =>
                rw [hq] at h2
                simp only [Option.map_some, Option.some.injEq] at h2
                rw [← h2]
                exact (stepSend_frame hq).2.2.2.1
            · cases h2
          cases hp : τ.s.thr t with
          | work m left seq w id todo reg =>
            rw [hp] at h2
            cases todo with
            | nil => cases h2
            | cons a rest =>
              simp only [Option.some.injEq] at h2
              rw [← h2]
              rfl
          | verify m left seq w id =>
            rw [hp] at h2
            simp only at h2
            split at h2
            · simp only [Option.some.injEq] at h2; rw [← h2]; rfl
            · cases left <;> (simp only [Option.some.injEq] at h2; rw [← h2]; rfl)
          | _ => rw [hp] at h2; exact dry h2
        · cases h2
      | drain t =>
        have h2 : drain τ t = some τ2 := h2
        unfold drain at h2
        split at h2
        · cases h2
        · simp only [Option.some.injEq] at h2
          rw [← h2]
      | crash t => exact absurd List.mem_cons_self (hn t)
      | recv len =>
        simp only [step] at h2
        split at h2
        · simp only [Option.some.injEq] at h2
          subst h2
          rfl
        · cases h2
      | rstep now =>
        simp only [step, stepRecv] at h2
        split at h2
        · cases h2
        · cases hq : Conc.stepRecv hash { τ.s with heads := clrs τ.rbuf τ.s.heads } now with
          | none => rw [hq] at h2; cases h2
          | some s1 =>
            rw [hq] at h2
            simp only [Option.map_some, Option.some.injEq] at h2
            rw [← h2]
            exact (stepRecv_frame hq).1
      | rdrain =>
        simp only [step] at h2
        split at h2
        · cases h2
        · simp only [Option.some.injEq] at h2
          rw [← h2]

/-- C15, partial: on a machine with store buffers, the received messages are exactly the first reservations, in the order of the
reservations, each once, with their bytes, and each was completely in memory; no access leaves the channel or the caller's buffer;
no call of `mem_recv` reports a damaged channel.  Missing: runs that violate `Legal`.  On machines that reorder loads the property
is false (`C15_reorder_false`). -/
theorem C15_tso_received_partial {hash : List Byte → Nat} {conf : Conf} {es : List Ev} {τ : T} (hc : ConfOK conf)
    (hl : Along Legal hash (T.init conf) es) (hn : ∀ t, Ev.crash t ∉ es) (hr : run hash (T.init conf) es = some τ) :
    τ.s.got = τ.s.resv.take τ.s.got.length ∧ (∀ j, j < τ.s.got.length → j ∈ τ.s.fin) ∧ Front τ.s τ.s.got.length ∧ τ.s.oob = false ∧
    ∀ c ∈ τ.s.codes, c = Err.SUCCESS ∨ c = Err.NO_DATA ∨ c = Err.BUFF_LIMIT := by
  obtain ⟨d, h1, h2, h3, h4, h5⟩ := received_of hc hl hr
  have hfin : ∀ j, j < d → j ∈ τ.s.fin := by
    intro j hj
    rcases h3 j hj with a | a
    · exact a
    · obtain ⟨-, t, -, ht⟩ := a
      rw [nocrash_run hn hr] at ht
      cases ht
  have hg : τ.s.got = τ.s.resv.take d := by rw [h2]; exact takenOf_all h1.le hfin
  have hlen : τ.s.got.length = d := by
    rw [hg, List.length_take]
    exact Nat.min_eq_left h1.le
  rw [hlen]
  exact ⟨hg, hfin, h1, h4, h5⟩

example : alongB Counted hsum (T.init conf8) (early ++ .recv 10 :: later) = true ∧
    (run hsum (T.init conf8) (early ++ .recv 10 :: later)).map (fun τ => (τ.s.got, τ.s.codes, τ.s.resv)) =
      some ([[5]], [Err.NO_DATA, Err.SUCCESS], [[5], [6, 7]]) ∧
    (run hsum (T.init conf8) (early ++ .recv 10 :: later)).map (fun τ => (τ.s.rpc, τ.rbuf, τ.s.rcur)) = some (.idle, [], 1) :=
  ⟨by decide +kernel, by decide +kernel, by decide +kernel⟩

theorem accepted_calls (s : St) (t : Nat) :
    Conc.accepted s t = ((callsOf t s.sent).filter fun e => e.2.2 = Err.SUCCESS ∧ e.2.1 ≠ []).map (·.2.1) := by
  unfold Conc.accepted callsOf
  rw [List.filter_filter]
  congr 2
  funext e
  simp only [Bool.decide_and, Bool.and_comm]

/-- C15, partial: on a machine with store buffers, the messages that sender `t` has reserved nodes for are those of its calls that
returned success, in order, and the one it is sending.  Missing: runs that violate `Legal` or `Prompt`. -/
theorem C15_tso_sent_partial {hash : List Byte → Nat} {conf : Conf} {es : List Ev} {τ : T} (hc : ConfOK conf)
    (hl : Along Legal hash (T.init conf) es) (hp : Along Prompt hash (T.init conf) es) (hr : run hash (T.init conf) es = some τ) (t : Nat) :
    owned τ.s t = Conc.accepted τ.s t ++ pending (τ.s.thr t) := by
  obtain ⟨es1, f, c, n, h1, h2, h3, -, h4⟩ := sim_init hc hl hr
  have hs := C15_sent_partial hc (along_and h2 (h3 hp)) h1 t
  obtain ⟨g, hg⟩ := inv_run (Conc.inv_init hash hc) h2 h1
  have hs : owned τ.s t = Conc.accepted (sc τ f c n) t ++ pending (f t) := hs
  rw [hs, accepted_calls, accepted_calls, h4.sent t]
  show ((callsOf t n).filter _).map _ ++ _ = _
  have hbusy : τ.s.thr t ≠ .idle → owed τ f t = [] := owed_busy
  cases h4.lag t with
  | same hb hf => rw [owed_nil hb, List.append_nil, hf]
  | work _ _ _ hf _ _ ht => rw [owed_busy (by rw [ht]; simp), List.append_nil, hf, ht]; rfl
  | verify _ _ hf _ ht => rw [owed_busy (by rw [ht]; simp), List.append_nil, hf, ht]; rfl
  | done hb _ hf _ ht =>
    obtain ⟨r, hrr, -, hm, -⟩ := work_of hg (t := t) hf
    have hne := (hg.fit r (List.mem_of_getElem? hrr)).1
    have ho : owed τ f t = [(t, r.msg, Err.SUCCESS)] := by
      unfold owed
      rw [if_pos ⟨hb, ht⟩, hf, hm]
      rfl
    rw [ho, hf, hm, ht, List.filter_append, List.map_append]
    simp [pending, hne]

example : alongB Counted hsum (T.init conf8) early = true ∧ alongB Prompt hsum (T.init conf8) early = true ∧
    (run hsum (T.init conf8) early).map (fun τ => [owned τ.s 0, Conc.accepted τ.s 0, owned τ.s 1, Conc.accepted τ.s 1, pending (τ.s.thr 1)]) =
      some [[[5]], [[5]], [[6, 7]], [], [[6, 7]]] := ⟨by decide +kernel, by decide +kernel, by decide +kernel⟩

theorem sim_recv_one {hash : List Byte → Nat} {τ τ1 : T} {f : Nat → SPC} {c : Nat → Bool} {n : List (Nat × Msg × Int)} {g : G}
    (h : CInv hash (sc τ f c n) g) (hr : Rel τ f c n) {len : Nat} (hs : step hash τ (.recv len) = some τ1) :
    Conc.step hash (sc τ f c n) (.recv len) = some (sc τ1 f c n) ∧ Rel τ1 f c n := by
  simp only [step] at hs
  split at hs
  case isFalse => cases hs
  rename_i hc
  simp only [Option.some.injEq] at hs
  subst hs
  have hstep : Conc.step hash (sc τ f c n) (.recv len) = some (sc { τ with s := τ.s.to (.loadR len) } f c n) := by
    simp only [Conc.step]
    rw [if_pos (show (sc τ f c n).rpc = .idle from hc)]
    rfl
  exact ⟨hstep, fun t => (hr.lag t).congr rfl rfl rfl rfl rfl, fun t => hr.keep rfl rfl rfl rfl, passed_one h hr legal_recv hstep rfl⟩

/-- C15, partial: on a machine with store buffers, when the first reservation that was not passed is completely in memory, the next
call of `mem_recv` with a large enough buffer returns it, whatever the senders do meanwhile.  Missing: runs that violate `Legal`. -/
theorem C15_tso_next_partial {hash : List Byte → Nat} {conf : Conf} {es es' : List Ev} {τ τ' : T} {d len : Nat} {m : Msg}
    (hc : ConfOK conf) (hl : Along Legal hash (T.init conf) es) (hr : run hash (T.init conf) es = some τ)
    (hl' : Along Legal hash τ (.recv len :: es'))
    (hf : Front τ.s d) (hm : τ.s.resv[d]? = some m) (hd : d ∈ τ.s.fin) (hlen : m.length ≤ len)
    (hr' : run hash τ (.recv len :: es') = some τ') (hcall : τ'.s.codes.length = τ.s.codes.length + 1) :
    τ'.s.codes = τ.s.codes ++ [Err.SUCCESS] ∧ τ'.s.got = τ.s.got ++ [m] := by
  obtain ⟨es1, f, c, n, h1, h2, -, -, h4⟩ := sim_init hc hl hr
  obtain ⟨g, hg⟩ := inv_run (Conc.inv_init hash hc) h2 h1
  simp only [run] at hr'
  split at hr'
  · cases hr'
  · rename_i τ2 hs2
    obtain ⟨k1, k2⟩ := sim_recv_one hg h4 hs2
    obtain ⟨g2, hg2, -, -⟩ := inv_step hg legal_recv k1
    obtain ⟨es2, f2, c2, n2, q1, q2, -, -, q4⟩ := sim_run hg2 k2 (hl'.2 τ2 hs2) hr'
    have hle : Conc.Along Conc.Legal hash (sc τ f c n) (.recv len :: es2) := ⟨legal_recv, fun s hs => by
      rw [k1] at hs
      simp only [Option.some.injEq] at hs
      rw [← hs]
      exact q2⟩
    exact C15_next_partial (s := sc τ f c n) (s' := sc τ' f2 c2 n2) hc (along_join h2 h1 hle) h1 (front_sc.2 hf) hm hd hlen
      (by simp only [Conc.run, k1]; exact q1) hcall

example : (run hsum (T.init conf8) early).map (fun τ => (τ.s.fin, τ.s.resv[0]?, τ.s.rcur)) = some ([0], some [5], 0) ∧
    (run hsum (T.init conf8) (early ++ .recv 10 :: later)).map (fun τ => (τ.s.codes, τ.s.got)) =
      some ([Err.NO_DATA] ++ [Err.SUCCESS], [] ++ [[5]]) := ⟨by decide +kernel, by decide +kernel⟩

/-! ### C16 -/

/-- C16, partial: on a machine with store buffers, with senders that stop after they have marked their nodes, the received
messages are exactly the finished ones among the reservations that were passed, in order; a reservation that was passed and not
finished belongs to a sender that stopped.  Missing: runs that violate `Legal`. -/
theorem C16_tso_received_partial {hash : List Byte → Nat} {conf : Conf} {es : List Ev} {τ : T} (hc : ConfOK conf)
    (hl : Along Legal hash (T.init conf) es) (hr : run hash (T.init conf) es = some τ) :
    ∃ d, Front τ.s d ∧ τ.s.got = takenOf τ.s.resv τ.s.fin d ∧ (∀ j, j < d → j ∈ τ.s.fin ∨ Lost τ.s j) ∧ τ.s.oob = false ∧
    ∀ c ∈ τ.s.codes, c = Err.SUCCESS ∨ c = Err.NO_DATA ∨ c = Err.BUFF_LIMIT := received_of hc hl hr

example : alongB Counted hsum (T.init conf8) (stopped ++ recvs 10 1 5 ++ recvs 10 200 17 ++ [.rdrain, .rdrain, .rstep 200]) = true ∧
    (run hsum (T.init conf8) (stopped ++ recvs 10 1 5 ++ recvs 10 200 17 ++ [.rdrain, .rdrain, .rstep 200])).map (fun τ => (τ.s.got, τ.s.codes, τ.s.fin)) =
      some ([[6, 7]], [Err.NO_DATA, Err.SUCCESS], [1]) := ⟨by decide +kernel, by decide +kernel⟩

end Verif.Mem.Tso
