import Verif.Mem.ReorderSim

/-!
Property C15 on a machine that may satisfy loads early (`Reorder.lean`): false, because the fence of the receiver in
`src/channel_mem.cpp:836` comes after its first reads of `buffer_size`; true when those reads come after the read of the flag.
-/
namespace Verif.Mem.Reorder

open Conc

set_option maxRecDepth 10000

/-! ### Concrete runs -/

instance (w : W) (e : Ev) : Decidable (Ordered w e) := by cases e <;> simp only [Ordered] <;> infer_instance

/-- Decides `Along`. -/
def alongB (P : W → Ev → Prop) [∀ w e, Decidable (P w e)] (hash : List Byte → Nat) (w : W) : List Ev → Bool
  | [] => true
  | e :: es => decide (P w e) && match step hash w e with
    | none => true
    | some w1 => alongB P hash w1 es

theorem along_of {P : W → Ev → Prop} [∀ w e, Decidable (P w e)] {hash : List Byte → Nat} : ∀ {es : List Ev} {w : W},
    alongB P hash w es = true → Along P hash w es := by
  intro es
  induction es with
  | nil => intro w _; trivial
  | cons e es ih =>
    intro w h
    simp only [alongB, Bool.and_eq_true, decide_eq_true_eq] at h
    refine ⟨h.1, fun w1 h1 => ih ?_⟩
    have := h.2
    rw [h1] at this
    exact this

theorem found {P : W → Prop} [DecidablePred P] {o : Option W} (h : (match o with | some w => decide (P w) | none => false) = true) :
    ∃ w, o = some w ∧ P w := by
  cases o with
  | none => cases h
  | some w => exact ⟨w, rfl, of_decide_eq_true h⟩

/-- `k` accesses of sender `t`. -/
def sends (t k : Nat) : List Ev := List.replicate k (.sc (.send t false))

/-- `k` accesses of the receiver that read content `v`. -/
def recvs (k v : Nat) : List Ev := List.replicate k (.rstep 1 v)

/-- The receiver loads the cursors after the nodes of a message were reserved, and before the message is written; then the sender
writes it. -/
def opened : List Ev := (.sc (.call 0 [5]) :: sends 0 4) ++ (.sc (.recv 10) :: recvs 2 0) ++ sends 0 11

/-! ### C15 -/

/-- C15 is false on a machine that may satisfy loads early: a message is lost, although its sender was told that it was sent, all
assumptions hold and no sender stops.  The read of `buffer_size` in `src/channel_mem.cpp:777` is satisfied after the loads of the
cursors and before the read of the flag in 712; it reads the size before the sender wrote it, the receiver skips the block as
damaged and passes it. -/
theorem C15_reorder_false : ∃ (conf : Conf) (es : List Ev) (w : W), ConfOK conf ∧
    Along (fun w e => Counted w.s e.toSc ∧ Conc.Prompt w.s e.toSc) hsum (W.init conf) es ∧ (∀ t, Ev.sc (.crash t) ∉ es) ∧
    run hsum (W.init conf) es = some w ∧
    w.s.sent = [(0, [5], Err.SUCCESS)] ∧ w.s.thr 0 = .idle ∧ w.s.fin = [0] ∧
    w.s.got = [] ∧ w.s.codes = [Err.NODE_BAD_BLOCK_BUFF_SIZE] ∧ w.s.rcur = w.s.wcur ∧ w.s.rpc = .idle := by
  refine ⟨conf8, opened ++ recvs 5 6, ?_⟩
  obtain ⟨w, h1, h2⟩ := found (o := run hsum (W.init conf8) (opened ++ recvs 5 6))
    (P := fun w => w.s.sent = [(0, [5], Err.SUCCESS)] ∧ w.s.thr 0 = .idle ∧ w.s.fin = [0] ∧
    w.s.got = [] ∧ w.s.codes = [Err.NODE_BAD_BLOCK_BUFF_SIZE] ∧ w.s.rcur = w.s.wcur ∧ w.s.rpc = .idle) (by decide +kernel)
  refine ⟨w, conf8_ok, along_of (by decide +kernel), ?_, h1, h2⟩
  intro t h
  have : ∀ e ∈ opened ++ recvs 5 6, (match e with | .sc (.crash _) => false | _ => true) = true := by decide +kernel
  exact absurd (this _ h) (by simp)

/-- C15, partial: when no read of the data area is satisfied before the read of the flag in 712, each run is a run of the
interleaved model, with the same results: the received messages are exactly the first reservations, in order, each once.  Missing:
machines where the read of the size can be satisfied earlier, as the code allows (`C15_reorder_false`). -/
theorem C15_reorder_partial {hash : List Byte → Nat} {conf : Conf} {es : List Ev} {w : W} (hc : ConfOK conf)
    (hl : Along (fun w e => Legal w e ∧ Ordered w e) hash (W.init conf) es) (hr : run hash (W.init conf) es = some w) :
    Conc.run hash (St.init conf) (es.map Ev.toSc) = some w.s ∧ Conc.Along Conc.Legal hash (St.init conf) (es.map Ev.toSc) ∧
    ((∀ t, Ev.sc (.crash t) ∉ es) → w.s.got = w.s.resv.take w.s.got.length ∧ (∀ j, j < w.s.got.length → j ∈ w.s.fin) ∧
      w.s.oob = false ∧ ∀ c ∈ w.s.codes, c = Err.SUCCESS ∨ c = Err.NO_DATA ∨ c = Err.BUFF_LIMIT) := by
  obtain ⟨h1, h2⟩ := sim_run (k_init hash hc) hl hr
  refine ⟨h1, h2, fun hn => ?_⟩
  obtain ⟨k1, k2, -, k4, k5⟩ := C15_received_partial hc h2 (fun t ht => by
    obtain ⟨e, he, e2⟩ := List.mem_map.1 ht
    cases e with
    | sc e => exact hn t (by rw [← show e = .crash t from e2]; exact he)
    | rstep now k => cases e2) h1
  exact ⟨k1, k2, k4, k5⟩

/- the size is read from a content that is older than the present one, and the rest as well -/
example : alongB (fun w e => Counted w.s e.toSc ∧ Ordered w e) hsum (W.init conf8) (opened ++ .rstep 1 0 ::
      (.sc (.call 1 [6, 7]) :: sends 1 8) ++ recvs 7 17 ++ recvs 3 26) = true ∧
    (run hsum (W.init conf8) (opened ++ .rstep 1 0 :: (.sc (.call 1 [6, 7]) :: sends 1 8) ++ recvs 7 17 ++ recvs 3 26)).map
      (fun w => (w.s.got, w.s.codes, w.now)) = some ([[5]], [Err.SUCCESS], 26) := ⟨by decide +kernel, by decide +kernel⟩


theorem present_step {hash : List Byte → Nat} {w : W} {s1 : St} {now : Nat} (hl : w.hist[w.now]? = some w.s.data)
    (hf : w.floor ≤ w.now) (hs : Conc.stepRecv hash w.s now = some s1) : stepRecv hash w now w.now = some (w.next s1) := by
  unfold stepRecv
  split
  · rw [hl]
    simp only
    rw [if_neg (by omega), show ({ w.s with data := w.s.data } : St) = w.s from rfl, hs]
    simp only [Option.map_some, Option.some.injEq]
    rw [← (recv_active hs).1]
  · rw [hs]
    rfl

/-- C15: the machine allows every run of the interleaved model. -/
theorem C15_reorder_allows {hash : List Byte → Nat} : ∀ {es : List Conc.Ev} {w : W} {s : St}, w.hist[w.now]? = some w.s.data →
    0 < w.hist.length → w.floor ≤ w.now → Conc.run hash w.s es = some s →
    ∃ es' w', es'.map Ev.toSc = es ∧ run hash w es' = some w' ∧ w'.s = s := by
  intro es
  induction es with
  | nil =>
    intro w s _ _ _ hr
    simp only [Conc.run, Option.some.injEq] at hr
    exact ⟨[], w, rfl, rfl, hr⟩
  | cons e es ih =>
    intro w s hl hn hf hr
    simp only [Conc.run] at hr
    split at hr
    · cases hr
    · rename_i s2 h2
      have other : (∀ now, e ≠ .rstep now) → step hash w (.sc e) = some { w with s := s2, hist := w.hist ++ [s2.data] } := by
        intro hne
        cases e with
        | rstep now => exact absurd rfl (hne now)
        | _ => simp only [step, h2, Option.map_some]
      by_cases hne : ∃ now, e = .rstep now
      · obtain ⟨now, rfl⟩ := hne
        have hs := present_step hl hf h2
        obtain ⟨es', w', k1, k2, k3⟩ := ih (w := w.next s2) (s := s)
          (by show w.hist[w.now]? = some s2.data; rw [(recv_active h2).1]; exact hl) hn
          (by show (if fences w.s.rpc then w.now else w.floor) ≤ w.now; split <;> omega) hr
        refine ⟨.rstep now w.now :: es', w', by rw [List.map_cons, k1]; rfl, ?_, k3⟩
        simp only [run, step, hs]
        exact k2
      · have hs := other fun now e' => hne ⟨now, e'⟩
        have hnow := now_append w s2 hn
        obtain ⟨es', w', k1, k2, k3⟩ := ih (w := { w with s := s2, hist := w.hist ++ [s2.data] }) (s := s)
          (by
            rw [hnow]
            show (w.hist ++ [s2.data])[w.now + 1]? = some s2.data
            rw [show w.now + 1 = w.hist.length from (by show w.hist.length - 1 + 1 = _; omega), get_last]) (by simp)
          (by rw [hnow]; show w.floor ≤ w.now + 1; omega) hr
        refine ⟨.sc e :: es', w', by rw [List.map_cons, k1]; rfl, ?_, k3⟩
        simp only [run, hs]
        exact k2

example : (Conc.run hsum (St.init conf8) (turns ++ Conc.recvs 10 1 14)).map (fun s => s.got) = some [[5], [6, 7]] ∧
    (W.init conf8).hist[(W.init conf8).now]? = some (W.init conf8).s.data := ⟨by decide +kernel, rfl⟩

end Verif.Mem.Reorder
