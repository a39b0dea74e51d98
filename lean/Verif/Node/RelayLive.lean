import Verif.Node.RelayReport
import Verif.Node.RelayEnds

/-!
C96, continued: in a tree, in every fair execution in which nothing new is sent, the time comes when every message was delivered or its failure
was reported.
-/
namespace Verif.Node.Relay

open Verif.IoStream
open Verif.Subnet (Ep)
open Verif.Node.Tree (World Whole)

/-- The first events of an execution. -/
def firsts (e : Nat → Ev) (n : Nat) : List Ev := (List.range n).map e

theorem firsts_succ (e : Nat → Ev) (n : Nat) : firsts e (n + 1) = firsts e n ++ [e n] := by
  simp [firsts, List.range_succ]

theorem run_snoc {cf : Conf} : ∀ (es : List Ev) {s t : S} (e : Ev), run cf s es = some t → run cf s (es ++ [e]) = step cf t e
  | [], s, t, e, h => by
    obtain rfl : s = t := Option.some.inj h
    simp only [List.nil_append, run]
    split
    · rename_i h; exact h.symm
    · rename_i h; exact h.symm
  | a :: es, s, t, e, h => by
    simp only [List.cons_append, run] at h ⊢
    split at h
    · cases h
    · exact run_snoc es e h

theorem cans_snoc {cf : Conf} {q : Prop} : ∀ (es : List Ev) {s t : S} (e : Ev), run cf s es = some t → Cans cf q s es → Can cf q t e →
    Cans cf q s (es ++ [e])
  | [], s, t, e, h, _, hc => by
    obtain rfl : s = t := Option.some.inj h
    exact ⟨hc, fun _ _ => trivial⟩
  | a :: es, s, t, e, h, ⟨h1, h2⟩, hc => by
    simp only [run] at h
    split at h
    · cases h
    · rename_i s1 hs
      refine ⟨h1, fun s' hs' => ?_⟩
      obtain rfl : s1 = s' := Option.some.inj (hs.symm.trans hs')
      exact cans_snoc es e h (h2 _ hs) hc

section
variable {w : World} {par : Nat → Option Nat} {dep : Nat → Nat} {top : Nat} {reg : Nat → List Ep}

/-- C96 (trees, in the end): in a network of nodes that form trees, over streams, take any history, and any endless execution after it in which
nothing new is sent and which is fair: as long as something can happen in the streams or to a received message, something does.
Then the time comes from which on nothing more can happen; and if the streams are open then, the messages delivered are exactly the accepted messages to
nodes that exist, each once, and the failures reported are exactly one to the sender of each of the others. -/
theorem C96_fair_partial (h : Tree.Ok w par dep top reg) (hwh : Whole w reg) (v : Wires w) (hb : v.Both) (ttl : Nat)
    (hT : ∀ x n, w.node x = some n → (ttl : Int) ≤ n.ttl ∧ n.ttl < 2 ^ 64) (cf : Conf) (hcod : cf.Codec) (hf bf ag : Nat)
    (hag : ∀ i, ag ≤ (cf.stream i).recv.maxAgain) (es : List Ev) (hc : Cans cf True (init hf bf ag) es) (hv : ∀ e ∈ es, v.acts e)
    (hpl : ∀ e ∈ es, e.plain cf) (hnear : ∀ e ∈ es, Near w par dep ttl e)
    (e : Nat → Ev) (t : Nat → S) (h0 : run cf (init hf bf ag) es = some (t 0)) (hs : ∀ i, step cf (t i) (e i) = some (t (i + 1)))
    (hcan : ∀ i, Can cf True (t i) (e i)) (ho : ∀ i, (e i).old ∧ v.acts (e i))
    (hfair : ∀ i, ¬ Idle (t i) → ∃ j, i ≤ j ∧ Moves (t j) (e j)) :
    ∃ N, ∀ n, N ≤ n → Idle (t n) ∧ ((∀ y ∈ (t n).queue, ((t n).lane y.1).r.closed = false) →
      ((t n).delivered.map fun x => (x.1, x.2.from_, x.2.seq, x.2.content)).Perm
        (((t n).sends.filter fun m => (w.node m.to).isSome).map fun m => (m.to, m.from_, m.seq, m.content)) ∧
      (((answered cf (init hf bf ag) (es ++ firsts e n)).filter fun x => decide (x.2.ret < 0)).map fun x => (x.1, x.2.from_, x.2.seq)).Perm
        (((t n).sends.filter fun m => !(w.node m.to).isSome).map fun m => (m.from_, m.to, m.seq))) := by
  obtain ⟨s, k1, k2, -⟩ := C93_tree_partial h hwh v ttl hT cf hcod hf bf ag hag es hc hv
  obtain rfl : s = t 0 := Option.some.inj (k1.symm.trans h0)
  obtain ⟨N, hN⟩ := k2 e t rfl hs hcan ho
  refine ⟨N, fun n hNn => ?_⟩
  have hidle : Idle (t n) := Classical.byContradiction fun hn => by
    obtain ⟨j, hj, hm⟩ := hfair n hn
    exact hN j (Nat.le_trans hNn hj) hm
  have key : ∀ n, run cf (init hf bf ag) (es ++ firsts e n) = some (t n) ∧ Cans cf True (init hf bf ag) (es ++ firsts e n) := by
    intro n
    induction n with
    | zero => rw [show firsts e 0 = [] from rfl, List.append_nil]; exact ⟨h0, hc⟩
    | succ n ih =>
      rw [firsts_succ, ← List.append_assoc]
      exact ⟨by rw [run_snoc _ _ ih.1, hs n], cans_snoc _ _ ih.1 ih.2 (hcan n)⟩
  have mem : ∀ x ∈ es ++ firsts e n, x ∈ es ∨ ∃ i, x = e i := by
    intro x hx
    rcases List.mem_append.1 hx with hx | hx
    · exact .inl hx
    · obtain ⟨i, -, rfl⟩ := List.mem_map.1 hx
      exact .inr ⟨i, rfl⟩
  have oldp : ∀ i, (e i).plain cf ∧ Near w par dep ttl (e i) := by
    intro i
    have ho1 := (ho i).1
    generalize e i = x at ho1
    cases x with
    | send => exact ho1.elim
    | other => exact ho1.elim
    | lane => exact ⟨trivial, trivial⟩
    | handle => exact ⟨trivial, trivial⟩
  obtain ⟨s', g1, g2⟩ := C96_report_partial h hwh v hb ttl hT cf hcod hf bf ag hag (es ++ firsts e n) (key n).2
    (fun x hx => (mem x hx).elim (hv x) fun ⟨i, hi⟩ => hi ▸ (ho i).2)
    (fun x hx => (mem x hx).elim (hpl x) fun ⟨i, hi⟩ => hi ▸ (oldp i).1)
    (fun x hx => (mem x hx).elim (hnear x) fun ⟨i, hi⟩ => hi ▸ (oldp i).2)
  obtain rfl : s' = t n := Option.some.inj (g1.symm.trans (key n).1)
  obtain ⟨s2, r1, r2⟩ := C93_rest_partial cf hcod hf bf ag hag (es ++ firsts e n) (key n).2
  obtain rfl : s2 = t n := Option.some.inj (r1.symm.trans (key n).1)
  exact ⟨hidle, fun hop => g2 fun c => (r2 hidle c fun ⟨y, hy⟩ => hop (c, y) hy).1⟩

end

/-! ### Example -/

/-- The execution that makes the events of a list and then looks in vain for received messages. -/
def thenWait (L : List Ev) (l : Nat) (h : H) (i : Nat) : Ev := (L[i]?).getD (.handle l h)

/-- Its states. -/
def states (cf : Conf) (s : S) (e : Nat → Ev) : Nat → S
  | 0 => s
  | i + 1 => (step cf (states cf s e i) (e i)).getD (states cf s e i)

theorem states_firsts {cf : Conf} {s u : S} {L : List Ev} {l : Nat} {h : H} (hr : run cf s L = some u) (hc : Cans cf True s L)
    (hi : (u.lane l).got[u.done l]? = none) (i : Nat) :
    step cf (states cf s (thenWait L l h) i) (thenWait L l h i) = some (states cf s (thenWait L l h) (i + 1)) ∧
    Can cf True (states cf s (thenWait L l h) i) (thenWait L l h i) ∧ (L.length ≤ i → states cf s (thenWait L l h) i = u) ∧
    (i ≤ L.length → run cf s (L.take i) = some (states cf s (thenWait L l h) i)) := by
  have cut : ∀ (L : List Ev) (s u : S), run cf s L = some u → Cans cf True s L → ∀ i, i < L.length → ∃ a b, run cf s (L.take i) = some a ∧
      L[i]? = some (L[i]?.getD (.handle l h)) ∧ step cf a (L[i]?.getD (.handle l h)) = some b ∧ run cf s (L.take (i + 1)) = some b ∧
      Can cf True a (L[i]?.getD (.handle l h)) := by
    intro L
    induction L with
    | nil => intro s u _ _ i hi; cases hi
    | cons x L ih =>
      intro s u hr hc i hi
      simp only [run] at hr
      split at hr
      · cases hr
      · rename_i s1 hs
        cases i with
        | zero => exact ⟨s, s1, rfl, rfl, hs, by simp [run, hs], hc.1⟩
        | succ i =>
          obtain ⟨a, b, h1, h2, h3, h4, h5⟩ := ih s1 u hr (hc.2 _ hs) i (Nat.lt_of_succ_lt_succ hi)
          exact ⟨a, b, by simp [run, hs, h1], by simpa using h2, by simpa using h3, by simpa [run, hs] using h4, by simpa using h5⟩
  have at_ : ∀ i, i ≤ L.length → run cf s (L.take i) = some (states cf s (thenWait L l h) i) := by
    intro i
    induction i with
    | zero => intro _; rfl
    | succ i ih =>
      intro hi
      obtain ⟨a, b, h1, -, h3, h4, -⟩ := cut L s u hr hc i hi
      have e1 := ih (Nat.le_of_lt hi)
      rw [h1] at e1
      obtain rfl := Option.some.inj e1
      rw [h4]
      show some b = some ((step cf _ (thenWait L l h i)).getD _)
      rw [show thenWait L l h i = L[i]?.getD (.handle l h) from rfl, h3]
      rfl
  have wait : ∀ i, L.length ≤ i → thenWait L l h i = .handle l h := by
    intro i hi
    simp [thenWait, List.getElem?_eq_none hi]
  have idle : step cf u (.handle l h) = some u := by simp [step, hi]
  have late : ∀ i, L.length ≤ i → states cf s (thenWait L l h) i = u := by
    intro i hi
    induction i with
    | zero =>
      have := at_ 0 (Nat.zero_le _)
      have hL : L = [] := List.eq_nil_of_length_eq_zero (Nat.le_zero.1 hi)
      subst hL
      exact Option.some.inj hr
    | succ i ih =>
      rcases Nat.lt_or_ge i L.length with hlt | hge
      · have e : i + 1 = L.length := by omega
        have := at_ (i + 1) (Nat.le_of_eq e)
        rw [e, List.take_length, hr] at this
        rw [e]
        exact (Option.some.inj this).symm
      · have := ih hge
        show (step cf (states cf s (thenWait L l h) i) (thenWait L l h i)).getD (states cf s (thenWait L l h) i) = u
        rw [this, wait i hge, idle]
        rfl
  refine ⟨?_, ?_, late i, at_ i⟩
  · rcases Nat.lt_or_ge i L.length with hlt | hge
    · obtain ⟨a, b, h1, -, h3, h4, -⟩ := cut L s u hr hc i hlt
      have e1 := at_ i (Nat.le_of_lt hlt)
      rw [h1] at e1
      obtain rfl := Option.some.inj e1
      have e2 := at_ (i + 1) hlt
      rw [h4] at e2
      rw [← Option.some.inj e2]
      exact h3
    · rw [late i hge, wait i hge, idle, late (i + 1) (by omega)]
  · rcases Nat.lt_or_ge i L.length with hlt | hge
    · obtain ⟨a, b, h1, -, -, -, h5⟩ := cut L s u hr hc i hlt
      have e1 := at_ i (Nat.le_of_lt hlt)
      rw [h1] at e1
      obtain rfl := Option.some.inj e1
      exact h5
    · rw [late i hge, wait i hge]
      simp [Can, hi]

theorem cans_rest {cf : Conf} {q : Prop} : ∀ (es L : List Ev) {s t : S}, run cf s es = some t → Cans cf q s (es ++ L) → Cans cf q t L
  | [], L, s, t, h, hc => by
    obtain rfl : s = t := Option.some.inj h
    exact hc
  | a :: es, L, s, t, h, ⟨h1, h2⟩ => by
    simp only [run] at h
    split at h
    · cases h
    · rename_i s1 hs
      exact cans_rest es L h (h2 _ hs)

theorem cans_left {cf : Conf} {q : Prop} : ∀ (es L : List Ev) {s : S}, Cans cf q s (es ++ L) → Cans cf q s es
  | [], _, _, _ => trivial
  | _ :: es, L, _, ⟨h1, h2⟩ => ⟨h1, fun s' hs' => cans_left es L (h2 s' hs')⟩

theorem run_split {cf : Conf} : ∀ (es L : List Ev) {s t : S}, run cf s es = some t → run cf s (es ++ L) = run cf t L
  | [], _, s, t, h => by
    obtain rfl : s = t := Option.some.inj h
    rfl
  | a :: es, L, s, t, h => by
    simp only [List.cons_append, run] at h ⊢
    split at h
    · cases h
    · exact run_split es L h

/-- The theorem applies to the execution that starts after the three messages of `exAll` were sent: in the end one is reported and two are
delivered. -/
example : ∃ s, run exR (init 0 0 0) (exAll.take 15) = some s ∧ s.delivered.length = 0 ∧
    ∃ N, ∀ n, N ≤ n → let u := states exR s (thenWait (exAll.drop 15) 2425 { n := exN 25, bound := some 24 }) n
      Idle u ∧ (u.delivered.map fun x => (x.1, x.2.from_, x.2.seq, x.2.content)).Perm
        ((u.sends.filter fun m => (exW.node m.to).isSome).map fun m => (m.to, m.from_, m.seq, m.content)) ∧ u.delivered.length = 2 := by
  have hcans : Cans exR True (init 0 0 0) (exAll.take 15 ++ exAll.drop 15) := by
    rw [List.take_append_drop]; exact cans_calm (by decide +kernel)
  have hlen : (exAll.drop 15).length = 17 := by decide
  have hold : ∀ x ∈ exAll.drop 15, x.old := by
    intro x hx
    simp only [exAll, exBack, exEs, List.cons_append, List.nil_append, List.drop_succ_cons, List.drop_zero, List.mem_cons, List.not_mem_nil, or_false] at hx
    rcases hx with rfl | rfl | rfl | rfl | rfl | rfl | rfl | rfl | rfl | rfl | rfl | rfl | rfl | rfl | rfl | rfl | rfl <;> trivial
  cases h1 : run exR (init 0 0 0) (exAll.take 15) with
  | none =>
    have : (run exR (init 0 0 0) (exAll.take 15)).isSome = true := by decide +kernel
    rw [h1] at this
    cases this
  | some s =>
    have hd : (run exR (init 0 0 0) (exAll.take 15)).map (fun s => s.delivered.length) = some 0 := by decide +kernel
    rw [h1] at hd
    refine ⟨s, rfl, Option.some.inj hd, ?_⟩
    have hru := run_split (cf := exR) (exAll.take 15) (exAll.drop 15) h1
    rw [List.take_append_drop] at hru
    have hc : (run exR (init 0 0 0) exAll).map restB = some true ∧ (run exR (init 0 0 0) exAll).map (fun u => u.delivered.length) = some 2 :=
      ⟨by decide +kernel, by decide +kernel⟩
    have hc3 : (run exR (init 0 0 0) exAll).map (fun u => (u.lane 2425).got[u.done 2425]?.isNone) = some true := by decide +kernel
    have hlast : (run exR (init 0 0 0) (exAll.take 15 ++ (exAll.drop 15).take 16)).map (fun u => (u.lane 2425).got[u.done 2425]?.isSome) = some true := by
      decide +kernel
    cases h2 : run exR (init 0 0 0) exAll with
    | none => rw [h2] at hc; cases hc.1
    | some u =>
      rw [h2] at hc hc3 hru
      simp only [Option.map_some, Option.some.injEq] at hc hc3
      have hg : (u.lane 2425).got[u.done 2425]? = none := Option.isNone_iff_eq_none.1 hc3
      have hst := states_firsts (h := { n := exN 25, bound := some 24 }) hru.symm (cans_rest _ _ h1 hcans) hg
      have hl := cans_left _ _ hcans
      obtain ⟨u', g1, g2, -⟩ := run_base ex_codec (q := True) (fun _ => True) (fun _ => True) (fun _ _ _ _ _ _ _ _ _ => trivial) exAll (init 0 0 0)
        (init_base exR True 0 0 0 fun _ => Nat.zero_le _) trivial (fun _ _ => trivial) (cans_calm (by decide +kernel))
      obtain rfl : u' = u := Option.some.inj (g1.symm.trans h2)
      have sub : ∀ x ∈ exAll.take 15, x ∈ exAll := fun x hx => List.mem_of_mem_take hx
      have ev : ∀ i, thenWait (exAll.drop 15) 2425 { n := exN 25, bound := some 24 } i ∈ exAll.drop 15 ∨
          thenWait (exAll.drop 15) 2425 { n := exN 25, bound := some 24 } i = get 24 25 := by
        intro i
        unfold thenWait
        cases hx : (exAll.drop 15)[i]? with
        | none => exact .inr rfl
        | some x => exact .inl (List.mem_of_getElem? hx)
      obtain ⟨N, hN⟩ := C96_fair_partial ex_ok ex_whole exV ex_both 16 ex_ttl exR ex_codec 0 0 0 (fun _ => Nat.zero_le _) (exAll.take 15) hl
        (fun x hx => ex_all_acts x (sub x hx)) (fun x hx => plainB_ok (es := exAll) (by decide +kernel) x (sub x hx)) (fun x hx => ex_all_near x (sub x hx))
        (thenWait (exAll.drop 15) 2425 { n := exN 25, bound := some 24 }) _ h1 (fun i => (hst i).1) (fun i => (hst i).2.1)
        (fun i => (ev i).elim (fun hx => ⟨hold _ hx, ex_all_acts _ (List.mem_of_mem_drop hx)⟩)
          fun hx => by rw [hx]; exact ⟨trivial, ex_all_acts _ (by simp [exAll, exEs])⟩)
        (fun i hi => by
          rcases Nat.lt_or_ge i 17 with hlt | hge
          · refine ⟨16, by omega, ?_⟩
            have h16 := (hst 16).2.2.2 (by rw [hlen]; decide)
            rw [run_split _ _ h1, h16] at hlast
            simp only [Option.map_some, Option.some.injEq] at hlast
            show Moves _ (get 24 25)
            intro hno
            rw [show (100 * 24 + 25) = 2425 from rfl] at hno
            rw [hno] at hlast
            cases hlast
          · rw [(hst i).2.2.1 (by rw [hlen]; exact hge)] at hi
            exact absurd (idle_of_rest g2 (restB_ok hc.1)) hi)
      refine ⟨N + 17, fun n hn => ?_⟩
      obtain ⟨k1, k2⟩ := hN n (by omega)
      have hu := (hst n).2.2.1 (by rw [hlen]; omega)
      rw [hu] at k1 k2
      show Idle (states _ _ _ n) ∧ _
      rw [hu]
      exact ⟨k1, (k2 fun y hy => (restB_ok hc.1 y.1 ⟨y.2, hy⟩).1).1, hc.2⟩

end Verif.Node.Relay
