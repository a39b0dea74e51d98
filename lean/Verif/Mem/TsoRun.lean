import Verif.Mem.TsoSim

/-! The state of the interleaved model that stands for a state with buffers. -/
namespace Verif.Mem.Tso

open Conc

set_option maxRecDepth 10000

/-! ### Reading through a buffer -/

theorem act_seq {h h' : Nat → Head} {d d' : Nat → Byte} {r r' : Bool} (a : Act) (hh : ∀ i, (h i).seq = (h' i).seq) (i : Nat) :
    ((act h d r a).1 i).seq = ((act h' d' r' a).1 i).seq := by
  cases a with
  | put off bs => exact hh i
  | loadF j => exact hh i
  | seq j v =>
    simp only [act, setHead]
    split
    · rfl
    · exact hh i
  | _ =>
    simp only [act, setHead]
    split
    · exact hh _
    · exact hh i

theorem view_seq : ∀ {b : List Ent} {h h' : Nat → Head} (d : Nat → Byte) (r : Bool), (∀ i, (h i).seq = (h' i).seq) →
    ∀ i, (view h b i).seq = ((exec (h', d, r) (b.map Ent.a)).1 i).seq := by
  intro b
  induction b with
  | nil => intro h h' d r hh i; exact hh i
  | cons e b ih =>
    intro h h' d r hh i
    show (view (act h (fun _ => 0) e.reg e.a).1 b i).seq = _
    rw [ih (act h' d r e.a).2.1 (act h' d r e.a).2.2 (act_seq (d' := d) (r' := r) e.a hh)]
    rfl

/-- Memory as the receiver sees it, with the given program counters. -/
def sc (τ : T) (f : Nat → SPC) (c : Nat → Bool) (n : List (Nat × Msg × Int)) : St :=
  { τ.s with heads := clrs τ.rbuf τ.s.heads, thr := f, crashed := c, sent := n }

section
variable {hash : List Byte → Nat} {τ : T} {f : Nat → SPC} {c : Nat → Bool} {n : List (Nat × Msg × Int)} {g : G}

/-- The nodes of a sender that is writing are not in the buffer of the receiver. -/
theorem own_off (h : CInv hash (sc τ f c n) g) (hp : ∀ i ∈ τ.rbuf, Passed (sc τ f c n) i) {id : Nat} {r : Res}
    (hr : g.rs[id]? = some r) (hlt : g.cnt id < (planOf hash τ.s.conf.n g id r).length) (hc : c r.t = false) {i : Nat}
    (hi : Reg τ.s.conf.n (pos g.rs id) (nodes r.msg.length) i) : i ∉ τ.rbuf :=
  fun hm => passed_off h (hp i hm) hr hlt hc hi

/-- What a sender reads of its first node. -/
theorem view_head (h : CInv hash (sc τ f c n) g) (hp : ∀ i ∈ τ.rbuf, Passed (sc τ f c n) i) {t : Nat} {m : Msg}
    {left seq w id : Nat} {rest : List Act} {reg : Bool} (b : List Ent)
    (ht : f t = .work m left seq w id (b.map Ent.a ++ rest) reg) (hc : c t = false) (hl : rest.length ≤ 2) :
    (view τ.s.heads b w).seq = seq ∧ ((∀ e ∈ b, isLast e.a = false) → rest ≠ [] → (view τ.s.heads b w).start = true) := by
  obtain ⟨r, hr, hrt, -, hseq, hw, htodo, hreg, hlt⟩ := work_of h (t := t) ht
  have hlt' : g.cnt id < (plan hash τ.s.conf.n (pos g.rs id) r.seq r.msg).length := hlt
  have hcr : c r.t = false := by rw [hrt]; exact hc
  obtain ⟨hd, hx⟩ := h.live hr hlt hcr
  have hk := h.klt hr
  have hk' : nodes r.msg.length < τ.s.conf.n := hk
  have hb0 := h.base id r hr hd 0 (nodes_pos _)
  rw [Nat.add_zero] at hb0
  have hR0 : Reg τ.s.conf.n (pos g.rs id) (nodes r.msg.length) (pos g.rs id % τ.s.conf.n) := ⟨0, nodes_pos _, rfl⟩
  have htodo' : b.map Ent.a ++ rest = (plan hash τ.s.conf.n (pos g.rs id) r.seq r.msg).drop (g.cnt id) := htodo
  have hlen := congrArg List.length htodo'
  simp only [List.length_append, List.length_map, List.length_drop] at hlen
  have htake : (plan hash τ.s.conf.n (pos g.rs id) r.seq r.msg).take (g.cnt id) ++ b.map Ent.a =
      (plan hash τ.s.conf.n (pos g.rs id) r.seq r.msg).take (g.cnt id + b.length) := by
    rw [List.take_add, ← htodo', List.take_append_of_le_length (by simp),
      List.take_of_length_le (l := b.map Ent.a) (by simp)]
  -- the memory that the receiver sees, and the one of the machine
  have hon : ∀ a ∈ b.map Ent.a, a.On (Reg τ.s.conf.n (pos g.rs id) (nodes r.msg.length)) := by
    intro a ha
    refine (plan_on (hash := hash) (seq := r.seq) hk' a (List.mem_of_mem_drop (i := g.cnt id) ?_)).1
    rw [← htodo']
    exact List.mem_append_left _ ha
  have hheads : ∀ x, Reg τ.s.conf.n (pos g.rs id) (nodes r.msg.length) x → τ.s.heads x = (memOf hash τ.s.conf.n g id r).1 x := by
    rintro x ⟨i, hi, rfl⟩
    have e1 := h.hd id r hr hd i hi (by omega)
    have e2 : (sc τ f c n).heads ((pos g.rs id + i) % τ.s.conf.n) = τ.s.heads ((pos g.rs id + i) % τ.s.conf.n) :=
      clrs_out (own_off h hp hr hlt hcr ⟨i, hi, rfl⟩) _
    rw [← e2]
    exact e1
  have hmem : ∀ x, Reg τ.s.conf.n (pos g.rs id) (nodes r.msg.length) x →
      (exec (τ.s.heads, τ.s.data, reg) (b.map Ent.a)).1 x =
      (exec (g.bh id, g.bd id, false) ((plan hash τ.s.conf.n (pos g.rs id) r.seq r.msg).take (g.cnt id + b.length))).1 x := by
    intro x hx
    rw [← htake, exec_append]
    have e : exec (g.bh id, g.bd id, false) ((plan hash τ.s.conf.n (pos g.rs id) r.seq r.msg).take (g.cnt id)) =
        ((memOf hash τ.s.conf.n g id r).1, (memOf hash τ.s.conf.n g id r).2.1, reg) := by
      rw [show reg = (memOf hash τ.s.conf.n g id r).2.2 from hreg]; rfl
    rw [e]
    exact exec_agree hon hheads (fun a ha => h.dt id r hr hd a ha) x hx
  have hhead := plan_head (hash := hash) (seq := r.seq) hk' (g.bh id, g.bd id, false) (clear_eq hb0) (g.cnt id + b.length)
  have hf5 := front_length (hash := hash) (n := τ.s.conf.n) (pos := pos g.rs id) (seq := r.seq) (m := r.msg)
  have hpl := congrArg List.length (plan_front hash τ.s.conf.n (pos g.rs id) r.seq r.msg)
  simp only [List.length_append, List.length_cons, List.length_nil] at hpl
  rw [if_neg (by omega), if_neg (by omega), ← hmem _ hR0] at hhead
  have hw' : w = pos g.rs id % τ.s.conf.n := hw
  constructor
  · rw [view_seq (h' := τ.s.heads) τ.s.data reg (fun _ => rfl), hw', hhead, hseq]
    split <;> rfl
  · intro hlast hne
    rw [view_exec τ.s.data reg hlast, hw', hhead]
    split <;> rfl

end

/-! ### The relation -/

/-- A sender that stops here may stop. -/
def Stop : SPC → Prop
  | .work _ _ _ _ _ todo _ => ∀ a ∈ todo, a.marks = false
  | _ => True

/-- What the entries of a buffer say. -/
def Ents (b : List Ent) (id seq : Nat) : Prop := ∀ e ∈ b, e.id = id ∧ e.seq = seq ∧ (isLast e.a = true → e.reg = true)

/-- Sender `t`: in the interleaved model the buffered stores are still to be made. -/
inductive Lag (τ : T) (f : Nat → SPC) (c : Nat → Bool) (t : Nat) : Prop
  | same (hb : τ.buf t = []) (hf : f t = τ.s.thr t) (hc : c t = τ.s.crashed t)
  | work {m : Msg} {left seq w id : Nat} {rest : List Act} {reg : Bool} (hb : τ.buf t ≠ []) (hc : c t = false)
      (hs : τ.s.crashed t = true → Stop (τ.s.thr t)) (hf : f t = .work m left seq w id ((τ.buf t).map Ent.a ++ rest) reg)
      (he : Ents (τ.buf t) id seq) (hr : rest ≠ []) (ht : τ.s.thr t = .work m left seq w id rest (decide (rest.length ≤ 1)))
  | verify {m : Msg} {left seq w id : Nat} {reg : Bool} (hb : τ.buf t ≠ []) (hc : c t = false)
      (hf : f t = .work m left seq w id ((τ.buf t).map Ent.a) reg)
      (he : Ents (τ.buf t) id seq) (ht : τ.s.thr t = .verify m left seq w id)
  | done {m : Msg} {left seq w id : Nat} {reg : Bool} (hb : τ.buf t ≠ []) (hc : c t = false)
      (hf : f t = .work m left seq w id ((τ.buf t).map Ent.a) reg)
      (he : Ents (τ.buf t) id seq) (ht : τ.s.thr t = .idle)

/-- The message of a call that has returned before its stores reached the memory. -/
def owed (τ : T) (f : Nat → SPC) (t : Nat) : List (Nat × Msg × Int) :=
  if τ.buf t ≠ [] ∧ τ.s.thr t = .idle then (pending (f t)).map fun m => (t, m, Err.SUCCESS) else []

/-- Calls of sender `t`. -/
def callsOf (t : Nat) (n : List (Nat × Msg × Int)) : List (Nat × Msg × Int) := n.filter fun e => e.1 = t

structure Rel (τ : T) (f : Nat → SPC) (c : Nat → Bool) (n : List (Nat × Msg × Int)) : Prop where
  lag : ∀ t, Lag τ f c t
  sent : ∀ t, callsOf t τ.s.sent = callsOf t n ++ owed τ f t
  passed : ∀ i ∈ τ.rbuf, Passed (sc τ f c n) i

theorem Lag.congr {τ τ' : T} {f f' : Nat → SPC} {c c' : Nat → Bool} {t : Nat} (h : Lag τ f c t) (hb : τ'.buf t = τ.buf t)
    (ht : τ'.s.thr t = τ.s.thr t) (hcr : τ'.s.crashed t = τ.s.crashed t) (hf : f' t = f t) (hc : c' t = c t) : Lag τ' f' c' t := by
  cases h with
  | same h1 h2 h3 => exact .same (hb.trans h1) (by rw [hf, ht, h2]) (by rw [hc, hcr, h3])
  | work h1 h2 h3 h4 h5 h6 h7 =>
    exact .work (by rw [hb]; exact h1) (by rw [hc]; exact h2) (by rw [hcr, ht]; exact h3) (by rw [hf, hb]; exact h4)
      (by rw [hb]; exact h5) h6 (by rw [ht]; exact h7)
  | verify h1 h2 h4 h5 h7 =>
    exact .verify (by rw [hb]; exact h1) (by rw [hc]; exact h2) (by rw [hf, hb]; exact h4) (by rw [hb]; exact h5) (by rw [ht]; exact h7)
  | done h1 h2 h4 h5 h7 =>
    exact .done (by rw [hb]; exact h1) (by rw [hc]; exact h2) (by rw [hf, hb]; exact h4) (by rw [hb]; exact h5) (by rw [ht]; exact h7)

theorem owed_congr {τ τ' : T} {f f' : Nat → SPC} {t : Nat} (hb : τ'.buf t = τ.buf t)
    (ht : τ'.s.thr t = τ.s.thr t) (hf : f' t = f t) : owed τ' f' t = owed τ f t := by
  unfold owed; rw [hb, ht, hf]

theorem owed_nil {τ : T} {f : Nat → SPC} {t : Nat} (hb : τ.buf t = []) : owed τ f t = [] := if_neg (fun h => h.1 hb)

theorem owed_busy {τ : T} {f : Nat → SPC} {t : Nat} (ht : τ.s.thr t ≠ .idle) : owed τ f t = [] := if_neg (fun h => ht h.2)

theorem callsOf_append (t : Nat) (a b : List (Nat × Msg × Int)) : callsOf t (a ++ b) = callsOf t a ++ callsOf t b := List.filter_append ..

theorem callsOf_ne {t u : Nat} {x : List (Nat × Msg × Int)} (hx : ∀ e ∈ x, e.1 = t) (hu : u ≠ t) : callsOf u x = [] := by
  unfold callsOf
  rw [List.filter_eq_nil_iff]
  intro e he
  rw [hx e he]
  simp only [decide_eq_true_eq]
  exact fun e => hu e.symm

/-- Only sender `t` changes. -/
theorem Rel.upd {τ τ' : T} {f f' : Nat → SPC} {c c' : Nat → Bool} {n n' : List (Nat × Msg × Int)} (h : Rel τ f c n) (t : Nat)
    (ho : ∀ u, u ≠ t → τ'.buf u = τ.buf u ∧ τ'.s.thr u = τ.s.thr u ∧ τ'.s.crashed u = τ.s.crashed u ∧ f' u = f u ∧ c' u = c u ∧
      callsOf u τ'.s.sent = callsOf u τ.s.sent ∧ callsOf u n' = callsOf u n)
    (hl : Lag τ' f' c' t) (hs : callsOf t τ'.s.sent = callsOf t n' ++ owed τ' f' t)
    (hp : ∀ i ∈ τ'.rbuf, Passed (sc τ' f' c' n') i) : Rel τ' f' c' n' := by
  refine ⟨fun u => ?_, fun u => ?_, hp⟩
  · by_cases e : u = t
    · rw [e]; exact hl
    · obtain ⟨a1, a2, a3, a4, a5, -, -⟩ := ho u e
      exact (h.lag u).congr a1 a2 a3 a4 a5
  · by_cases e : u = t
    · rw [e]; exact hs
    · obtain ⟨a1, a2, a3, a4, a5, a6, a7⟩ := ho u e
      rw [a6, a7, owed_congr a1 a2 a4]
      exact h.sent u

/-! ### Assumptions of the interleaved model -/

theorem lost_sc {τ : T} {f : Nat → SPC} {c : Nat → Bool} {n : List (Nat × Msg × Int)} (h : Rel τ f c n) {j : Nat}
    (hl : Lost (sc τ f c n) j) : Lost τ.s j := by
  obtain ⟨h1, t, h2, h3⟩ := hl
  refine ⟨h1, t, h2, ?_⟩
  have h3 : c t = true := h3
  cases h.lag t with
  | same _ _ hc => rw [← hc]; exact h3
  | work _ hc => rw [hc] at h3; cases h3
  | verify _ hc => rw [hc] at h3; cases h3
  | done _ hc => rw [hc] at h3; cases h3

theorem same_of {τ : T} {f : Nat → SPC} {c : Nat → Bool} {t : Nat} (h : Lag τ f c t) (hb : τ.buf t = []) :
    f t = τ.s.thr t ∧ c t = τ.s.crashed t := by
  cases h with
  | same _ hf hc => exact ⟨hf, hc⟩
  | work h => exact absurd hb h
  | verify h => exact absurd hb h
  | done h => exact absurd hb h

theorem legal_call {τ : T} {f : Nat → SPC} {c : Nat → Bool} {n : List (Nat × Msg × Int)} {t : Nat} {m : Msg}
    (hl : Legal τ (.call t m)) : Conc.Legal (sc τ f c n) (.call t m) :=
  ⟨(hl.1 _ rfl).1, trivial, trivial, trivial, trivial⟩

theorem legal_recv {τ : T} {f : Nat → SPC} {c : Nat → Bool} {n : List (Nat × Msg × Int)} {len : Nat} :
    Conc.Legal (sc τ f c n) (.recv len) := ⟨trivial, trivial, trivial, trivial, trivial⟩

theorem legal_rstep {τ : T} {f : Nat → SPC} {c : Nat → Bool} {n : List (Nat × Msg × Int)} (h : Rel τ f c n) {now : Nat}
    (hl : Legal τ (.rstep now)) : Conc.Legal (sc τ f c n) (.rstep now) := by
  refine ⟨trivial, trivial, trivial, trivial, ?_⟩
  have h1 := (hl.1 _ rfl).2.2.2.2
  have h2 := hl.2.2
  show GiveUp (sc τ f c n) (.rstep now)
  unfold GiveUp
  simp only
  unfold GiveUp at h1
  unfold GiveUpDry at h2
  simp only at h1 h2
  show (match τ.s.rpc with
    | .fft l now => τ.s.fft ≠ 0 → absDiff now τ.s.fft > τ.s.conf.timeout → Lost (sc τ f c n) (τ.s.last l.rb)
    | _ => True)
  split
  · rename_i l now' hp
    rw [hp] at h1 h2
    intro a b
    obtain ⟨hn, t, hw, hc⟩ := h1 a b
    exact ⟨hn, t, hw, by rw [show (sc τ f c n).crashed t = c t from rfl, (same_of (h.lag t) (h2 a b t hw)).2]; exact hc⟩
  · trivial

/-- The senders that run are writing, in the interleaved model, the messages whose numbers are in their buffers, or the ones they
are writing on the machine. -/
theorem number_sc {τ : T} {f : Nat → SPC} {c : Nat → Bool} {n : List (Nat × Msg × Int)} (h : Rel τ f c n) {seq : Nat}
    (h1 : ∀ u, τ.s.crashed u = false → (τ.s.thr u).number ≠ some seq) (h2 : ∀ u, ∀ e ∈ τ.buf u, e.seq ≠ seq) (u : Nat)
    (hc : c u = false) : (f u).number ≠ some seq := by
  have key : ∀ {id seq' : Nat}, τ.buf u ≠ [] → Ents (τ.buf u) id seq' → seq' ≠ seq := by
    intro id seq' hne he
    cases hb : τ.buf u with
    | nil => exact absurd hb hne
    | cons e b =>
      have hm : e ∈ τ.buf u := by rw [hb]; exact List.mem_cons_self
      rw [← (he e hm).2.1]
      exact h2 u e hm
  cases h.lag u with
  | same hb hf hc' => rw [hf]; exact h1 u (by rw [← hc']; exact hc)
  | work hb _ _ hf he => rw [hf]; intro e; simp only [SPC.number, Option.some.injEq] at e; exact key hb he e
  | verify hb _ hf he => rw [hf]; intro e; simp only [SPC.number, Option.some.injEq] at e; exact key hb he e
  | done hb _ hf he => rw [hf]; intro e; simp only [SPC.number, Option.some.injEq] at e; exact key hb he e

theorem legal_send {τ : T} {f : Nat → SPC} {c : Nat → Bool} {n : List (Nat × Msg × Int)} (h : Rel τ f c n) {t : Nat} {weak : Bool}
    (hb : τ.buf t = []) (hl : Legal τ (.send t weak)) : Conc.Legal (sc τ f c n) (.send t weak) := by
  obtain ⟨-, h1, h2, -, -⟩ := hl.1 _ rfl
  have h3 := hl.2.1
  have hf := (same_of (h.lag t) hb).1
  refine ⟨trivial, ?_, ?_, trivial, trivial⟩
  · show NumberOK (sc τ f c n) (.send t weak)
    unfold NumberOK at h1 ⊢
    unfold NumberDry at h3
    simp only at h1 h3 ⊢
    rw [show (sc τ f c n).thr t = τ.s.thr t from hf]
    split
    · rename_i m left seq w wT k hp
      rw [hp] at h1 h3
      intro a
      obtain ⟨b1, b2⟩ := h1 a
      refine ⟨fun i hi => ?_, number_sc h b2 (h3 a)⟩
      rw [show (sc τ f c n).heads = clrs τ.rbuf τ.s.heads from rfl, clrs_seq]
      exact b1 i hi
    · trivial
  · show NoLap (sc τ f c n) (.send t weak)
    unfold NoLap at h2 ⊢
    simp only at h2 ⊢
    rw [show (sc τ f c n).thr t = τ.s.thr t from hf]
    exact h2

theorem prompt_send {τ : T} {f : Nat → SPC} {c : Nat → Bool} {n : List (Nat × Msg × Int)} (h : Rel τ f c n) {t : Nat} {weak : Bool}
    (hb : τ.buf t = []) (hl : Prompt τ (.send t weak)) : Conc.Prompt (sc τ f c n) (.send t weak) := by
  have h1 := hl _ rfl
  unfold Conc.Prompt at h1 ⊢
  simp only at h1 ⊢
  rw [show (sc τ f c n).thr t = τ.s.thr t from (same_of (h.lag t) hb).1]
  exact h1

theorem count_send {τ : T} {f : Nat → SPC} {c : Nat → Bool} {n : List (Nat × Msg × Int)} (h : Rel τ f c n) {t : Nat} {weak : Bool}
    (hb : τ.buf t = []) (hl : Count τ (.send t weak)) : CountOK (sc τ f c n) (.send t weak) := by
  have h1 := hl _ rfl
  unfold CountOK at h1 ⊢
  simp only at h1 ⊢
  rw [show (sc τ f c n).thr t = τ.s.thr t from (same_of (h.lag t) hb).1]
  exact h1

/-- A sender that is writing makes accesses that satisfy the assumptions. -/
theorem legal_work {s : St} {t : Nat} {weak : Bool} (h : ∀ m left seq w wT k, s.thr t ≠ .cas m left seq w wT k) :
    Conc.Legal s (.send t weak) := by
  refine ⟨trivial, ?_, ?_, trivial, trivial⟩
  · show NumberOK s (.send t weak)
    unfold NumberOK
    simp only
  · show NoLap s (.send t weak)
    unfold NoLap
    simp only

theorem prompt_work {s : St} {t : Nat} {weak : Bool} (h : ∀ m left seq w id, s.thr t ≠ .verify m left seq w id) :
    Conc.Prompt s (.send t weak) := by
  unfold Conc.Prompt
  simp only

theorem count_work {s : St} {t : Nat} {weak : Bool} (h : ∀ m left, s.thr t ≠ .fetch m left) : CountOK s (.send t weak) := by
  unfold CountOK
  simp only

end Verif.Mem.Tso
