import Verif.Mem.TsoStep

/-! Steps of the senders and of their buffers; runs. -/
namespace Verif.Mem.Tso

open Conc

set_option maxRecDepth 10000

section
variable {hash : List Byte → Nat} {τ τ1 : T} {f f1 : Nat → SPC} {c c1 : Nat → Bool} {n n1 : List (Nat × Msg × Int)} {g : G}

theorem setBuf_self (b : Nat → List Ent) (t : Nat) (l : List Ent) : setBuf b t l t = l := if_pos rfl

theorem setBuf_ne (b : Nat → List Ent) {t u : Nat} (l : List Ent) (h : u ≠ t) : setBuf b t l u = b u := if_neg h

/-! ### Accesses with an empty buffer -/

theorem send_sc {t : Nat} {weak : Bool} {s1 : St} (hf : f t = τ.s.thr t)
    (hw : ∀ m left seq w id todo reg, τ.s.thr t ≠ .work m left seq w id todo reg) (hs : Conc.stepSend hash τ.s t weak = some s1) :
    ∃ f' x, Conc.stepSend hash (sc τ f c n) t weak = some (sc { τ with s := s1 } f' c (n ++ x)) ∧ f' t = s1.thr t ∧
      (∀ u, u ≠ t → f' u = f u ∧ s1.thr u = τ.s.thr u) ∧ s1.crashed = τ.s.crashed ∧ s1.sent = τ.s.sent ++ x ∧
      (∀ e ∈ x, e.1 = t) ∧ s1.rcur = τ.s.rcur := by
  have hpc : ∀ p : SPC, setThr f t p t = setThr τ.s.thr t p t := fun p => by rw [setThr_self, setThr_self]
  have hne : ∀ p : SPC, ∀ u, u ≠ t → setThr f t p u = f u ∧ setThr τ.s.thr t p u = τ.s.thr u :=
    fun p u hu => ⟨setThr_ne _ _ hu, setThr_ne _ _ hu⟩
  have hnil : ∀ e ∈ ([] : List (Nat × Msg × Int)), e.1 = t := by intro e he; cases he
  have hone : ∀ (m : Msg) (code : Int), ∀ e ∈ [(t, m, code)], e.1 = t := by intro m code e he; simp only [List.mem_singleton] at he; rw [he]
  unfold Conc.stepSend at hs ⊢
  rw [show (sc τ f c n).thr t = τ.s.thr t from hf]
  cases hp : τ.s.thr t with
  | idle => rw [hp] at hs; cases hs
  | stuck => rw [hp] at hs; cases hs
  | fetch m left =>
    rw [hp] at hs
    simp only at hs ⊢
    by_cases hv : (τ.s.oseq + 1) % 2 ^ 32 = 0
    · rw [if_pos hv] at hs
      simp only [Option.some.injEq] at hs
      subst hs
      refine ⟨f, [], ?_, hf, fun _ _ => ⟨rfl, rfl⟩, rfl, (List.append_nil _).symm, hnil, rfl⟩
      rw [show (sc τ f c n).oseq = τ.s.oseq from rfl, if_pos hv, List.append_nil]
      rfl
    · rw [if_neg hv] at hs
      simp only [Option.some.injEq] at hs
      subst hs
      refine ⟨setThr f t _, [], ?_, hpc _, hne _, rfl, (List.append_nil _).symm, hnil, rfl⟩
      rw [show (sc τ f c n).oseq = τ.s.oseq from rfl, if_neg hv, List.append_nil]
      rfl
  | loadW m left seq =>
    rw [hp] at hs
    simp only [Option.some.injEq] at hs
    subst hs
    refine ⟨setThr f t _, [], ?_, hpc _, hne _, rfl, (List.append_nil _).symm, hnil, rfl⟩
    rw [List.append_nil]
    rfl
  | loadR m left seq w wT =>
    rw [hp] at hs
    simp only at hs ⊢
    by_cases hk : calcNodes m.length > avail τ.s.conf τ.s.rcur w
    · rw [if_pos hk] at hs
      simp only [Option.some.injEq] at hs
      subst hs
      refine ⟨setThr f t _, [(t, m, Err.BUFF_LIMIT)], ?_, hpc _, hne _, rfl, rfl, hone _ _, rfl⟩
      rw [if_pos (show calcNodes m.length > avail (sc τ f c n).conf (sc τ f c n).rcur w from hk)]
      rfl
    · rw [if_neg hk] at hs
      simp only [Option.some.injEq] at hs
      subst hs
      refine ⟨setThr f t _, [], ?_, hpc _, hne _, rfl, (List.append_nil _).symm, hnil, rfl⟩
      rw [if_neg (show ¬ calcNodes m.length > avail (sc τ f c n).conf (sc τ f c n).rcur w from hk), List.append_nil]
      rfl
  | cas m left seq w wT k =>
    rw [hp] at hs
    simp only at hs ⊢
    by_cases hk : τ.s.wcur ≠ w ∨ weak = true
    · rw [if_pos hk] at hs
      simp only [Option.some.injEq] at hs
      subst hs
      refine ⟨setThr f t _, [], ?_, hpc _, hne _, rfl, (List.append_nil _).symm, hnil, rfl⟩
      rw [if_pos (show (sc τ f c n).wcur ≠ w ∨ weak = true from hk), List.append_nil]
      rfl
    · rw [if_neg hk] at hs
      rw [if_neg (show ¬ ((sc τ f c n).wcur ≠ w ∨ weak = true) from hk)]
      simp only [show (sc τ f c n).conf = τ.s.conf from rfl]
      cases hq : prog hash τ.s.conf.n w (next τ.s.conf.n w k) seq m with
      | none =>
        rw [hq] at hs
        simp only [Option.some.injEq] at hs
        subst hs
        refine ⟨setThr f t _, [], ?_, hpc _, hne _, rfl, (List.append_nil _).symm, hnil, rfl⟩
        rw [List.append_nil]
        rfl
      | some acts =>
        rw [hq] at hs
        simp only [Option.some.injEq] at hs
        subst hs
        refine ⟨setThr f t _, [], ?_, hpc _, hne _, rfl, (List.append_nil _).symm, hnil, rfl⟩
        rw [List.append_nil]
        rfl
  | work m left seq w id todo reg => exact absurd hp (hw _ _ _ _ _ _ _)
  | verify m left seq w id =>
    rw [hp] at hs
    simp only at hs ⊢
    rw [show ((sc τ f c n).heads w).seq = (τ.s.heads w).seq from clrs_seq _ _ _]
    by_cases hk : seq = (τ.s.heads w).seq
    · rw [if_pos hk] at hs
      rw [if_pos hk]
      simp only [Option.some.injEq] at hs
      subst hs
      exact ⟨setThr f t _, [(t, m, Err.SUCCESS)], rfl, hpc _, hne _, rfl, rfl, hone _ _, rfl⟩
    · rw [if_neg hk] at hs
      rw [if_neg hk]
      cases left with
      | zero =>
        simp only [Option.some.injEq] at hs
        subst hs
        exact ⟨setThr f t _, [(t, m, Err.NODE_BAD_BLOCK_CSEQ_ID)], rfl, hpc _, hne _, rfl, rfl, hone _ _, rfl⟩
      | succ left =>
        simp only [Option.some.injEq] at hs
        subst hs
        refine ⟨setThr f t _, [], ?_, hpc _, hne _, rfl, (List.append_nil _).symm, hnil, rfl⟩
        rw [List.append_nil]
        rfl

theorem sim_dry (h : CInv hash (sc τ f c n) g) (hr : Rel τ f c n) {t : Nat} {weak : Bool} {s1 : St} (hl : Legal τ (.send t weak))
    (hb : τ.buf t = []) (hc : τ.s.crashed t = false) (hw : ∀ m left seq w id todo reg, τ.s.thr t ≠ .work m left seq w id todo reg)
    (hs : Conc.stepSend hash τ.s t weak = some s1) :
    Reach hash (sc τ f c n) { τ with s := s1 } (Prompt τ (.send t weak)) (Count τ (.send t weak)) := by
  obtain ⟨hf, hcr⟩ := same_of (hr.lag t) hb
  obtain ⟨f', x, h1, h2, h3, h4, h5, h6, h7⟩ := send_sc (c := c) (n := n) hf hw hs
  have hstep : Conc.step hash (sc τ f c n) (.send t weak) = some (sc { τ with s := s1 } f' c (n ++ x)) := by
    simp only [Conc.step]
    rw [if_pos (show (sc τ f c n).crashed t = false by rw [← hc]; exact hcr)]
    exact h1
  refine reach_one hstep (legal_send hr hb hl) (prompt_send hr hb) (count_send hr hb) (hr.upd t ?_ (.same hb h2 ?_) (hr.more hb hb h5) ?_)
  · intro u hu
    refine ⟨rfl, (h3 u hu).2, by show s1.crashed u = _; rw [h4], (h3 u hu).1, rfl, ?_, ?_⟩
    · show callsOf u s1.sent = _
      rw [h5, callsOf_append, callsOf_ne h6 hu, List.append_nil]
    · rw [callsOf_append, callsOf_ne h6 hu, List.append_nil]
  · rw [hcr]; show _ = s1.crashed t; rw [h4]
  · exact passed_one h hr (legal_send hr hb hl) hstep h7

/-! ### Accesses that go to the buffer -/

theorem lag_work (h : CInv hash (sc τ f c n) g) (hl : Lag τ f c t) {m : Msg} {left seq w id : Nat} {rest : List Act} {regT : Bool}
    (hc : τ.s.crashed t = false) (ht : τ.s.thr t = .work m left seq w id rest regT) :
    ∃ reg, f t = .work m left seq w id ((τ.buf t).map Ent.a ++ rest) reg ∧ c t = false ∧ regT = decide (rest.length ≤ 1) ∧
      Ents (τ.buf t) id seq := by
  cases hl with
  | same hb hf hcr =>
    have hc' : c t = false := by rw [hcr]; exact hc
    have hf' : f t = .work m left seq w id rest regT := by rw [hf, ht]
    exact ⟨regT, by rw [hb]; exact hf', hc', work_reg h (t := t) hf' hc', by intro e he; rw [hb] at he; cases he⟩
  | work hb hcr hs hf he hr ht' =>
    rw [ht] at ht'
    simp only [SPC.work.injEq] at ht'
    obtain ⟨rfl, rfl, rfl, rfl, rfl, rfl, rfl⟩ := ht'
    exact ⟨_, hf, hcr, rfl, he⟩
  | verify _ _ _ _ ht' => rw [ht] at ht'; cases ht'
  | done _ _ _ _ ht' => rw [ht] at ht'; cases ht'

theorem sim_work (h : CInv hash (sc τ f c n) g) (hr : Rel τ f c n) {t : Nat} {weak : Bool} {pr cq : Prop} {m : Msg} {left seq w id : Nat}
    {todo : List Act} {regT : Bool} (hc : τ.s.crashed t = false) (ht : τ.s.thr t = .work m left seq w id todo regT)
    (hs : stepSend hash τ t weak = some τ1) : Reach hash (sc τ f c n) τ1 pr cq := by
  obtain ⟨reg, hf, hcc, hreg, hents⟩ := lag_work h (hr.lag t) hc ht
  unfold stepSend at hs
  rw [ht] at hs
  cases todo with
  | nil => cases hs
  | cons a rest =>
    simp only [Option.some.injEq] at hs
    have hat := work_at h (t := t) (q := (τ.buf t).map Ent.a) hf
    have hents' : Ents (τ.buf t ++ [⟨a, regT, id, seq⟩]) id seq := by
      intro e he
      rcases List.mem_append.1 he with he | he
      · exact hents e he
      · simp only [List.mem_singleton] at he
        rw [he]
        refine ⟨rfl, rfl, fun hla => ?_⟩
        rcases hat with ⟨h1, h2⟩ | ⟨h1, h2⟩ | ⟨h1, h2⟩
        · show regT = true
          rw [hreg, h1]
          rfl
        · rw [h2] at hla; cases hla
        · cases a with
          | storeF i => cases h2
          | _ => cases hla
    have hsc : sc τ1 f c n = sc τ f c n := by rw [← hs]; rfl
    refine reach_zero hsc (hr.upd t ?_ ?_ ?_ ?_)
    · intro u hu
      rw [← hs]
      exact ⟨setBuf_ne _ _ hu, setThr_ne _ _ hu, rfl, rfl, rfl, rfl, rfl⟩
    · have hbuf : τ1.buf t = τ.buf t ++ [⟨a, regT, id, seq⟩] := by rw [← hs]; exact setBuf_self ..
      have hne : τ1.buf t ≠ [] := by rw [hbuf]; simp
      have hcr1 : τ1.s.crashed t = false := by rw [← hs]; exact hc
      by_cases hrest : rest = []
      · refine .verify (m := m) (left := left) (seq := seq) (w := w) (id := id) (reg := reg) hne hcc ?_ (by rw [hbuf]; exact hents') ?_
        · rw [hbuf, hf, hrest, List.map_append]; rfl
        · rw [← hs]
          show setThr _ _ _ t = _
          rw [setThr_self, if_pos hrest]
      · refine .work (m := m) (left := left) (seq := seq) (w := w) (id := id) (reg := reg) (rest := rest) hne hcc
          (fun hx => by rw [hcr1] at hx; cases hx) ?_ (by rw [hbuf]; exact hents') hrest ?_
        · rw [hbuf, hf, List.map_append, List.append_assoc]; rfl
        · rw [← hs]
          show setThr _ _ _ t = _
          rw [setThr_self, if_neg hrest]
          congr 1
          rcases hat with ⟨h1, h2⟩ | ⟨h1, h2⟩ | ⟨h1, h2⟩
          · exact absurd h1 hrest
          · rw [h2, decide_eq_true (by omega)]
            show (view τ.s.heads (τ.buf t) w).start = true
            refine (view_head h hr.passed (t := t) (τ.buf t) hf hcc (by simp only [List.length_cons]; omega)).2 ?_ (by simp)
            intro e he
            obtain ⟨q1, q2, hq⟩ := List.append_of_mem he
            have hf2 : f t = .work m left seq w id (q1.map Ent.a ++ e.a :: (q2.map Ent.a ++ a :: rest)) reg := by
              rw [hf, hq]; simp
            rcases work_at h (t := t) hf2 with ⟨h3, -⟩ | ⟨-, h4⟩ | ⟨-, h4⟩
            · simp at h3
            · rw [h4]; rfl
            · cases hea : e.a with
              | storeF i => rw [hea] at h4; cases h4
              | _ => rfl
          · have : regT = false := by
              rw [hreg]
              exact decide_eq_false (by simp only [List.length_cons]; omega)
            rw [decide_eq_false (by omega)]
            cases a with
            | loadF i => cases h2
            | _ => exact this
    · have hne : τ1.s.thr t ≠ .idle := by
        rw [← hs]
        show setThr _ _ _ t ≠ _
        rw [setThr_self]
        split <;> simp
      have := hr.sent t
      rw [owed_busy (by rw [ht]; simp)] at this
      rw [owed_busy hne, ← hs]
      exact this
    · intro i hi
      rw [hsc]
      refine hr.passed i ?_
      rw [← hs] at hi
      exact hi

theorem sim_send (h : CInv hash (sc τ f c n) g) (hr : Rel τ f c n) {t : Nat} {weak : Bool} (hl : Legal τ (.send t weak))
    (hs : step hash τ (.send t weak) = some τ1) : Reach hash (sc τ f c n) τ1 (Prompt τ (.send t weak)) (Count τ (.send t weak)) := by
  simp only [step] at hs
  split at hs
  case isFalse => cases hs
  rename_i hc
  have dry : (∀ m left seq w id todo reg, τ.s.thr t ≠ .work m left seq w id todo reg) →
      (if τ.buf t = [] then (Conc.stepSend hash τ.s t weak).map fun s => { τ with s := s } else none) = some τ1 →
      Reach hash (sc τ f c n) τ1 (Prompt τ (.send t weak)) (Count τ (.send t weak)) := by
    intro hw hs
    split at hs
    · rename_i hb
      cases hq : Conc.stepSend hash τ.s t weak with
      | none => rw [hq] at hs; cases hs
      | some s1 =>
        rw [hq] at hs
        simp only [Option.map_some, Option.some.injEq] at hs
        rw [← hs]
        exact sim_dry h hr hl hb hc hw hq
    · cases hs
  cases hp : τ.s.thr t with
  | work m left seq w id todo reg => exact sim_work h hr hc hp hs
  | verify m left seq w id =>
    by_cases hb : τ.buf t = []
    · refine dry (fun _ _ _ _ _ _ _ => by rw [hp]; simp) ?_
      rw [if_pos hb]
      unfold stepSend at hs
      unfold Conc.stepSend
      rw [hp] at hs ⊢
      simp only at hs ⊢
      rw [hb] at hs
      by_cases e : seq = (τ.s.heads w).seq
      · rw [if_pos (show seq = (view τ.s.heads [] w).seq from e)] at hs
        rw [if_pos e]
        exact hs
      · rw [if_neg (show ¬ seq = (view τ.s.heads [] w).seq from e)] at hs
        rw [if_neg e]
        cases left <;> exact hs
    · cases hr.lag t with
      | same h => exact absurd h hb
      | work _ _ _ _ _ _ ht => rw [hp] at ht; cases ht
      | done _ _ _ _ ht => rw [hp] at ht; cases ht
      | verify hb' hcc hf he ht =>
        rename_i m' left' seq' w' id' reg
        rw [hp] at ht
        simp only [SPC.verify.injEq] at ht
        obtain ⟨rfl, rfl, rfl, rfl, rfl⟩ := ht
        have hv := (view_head h hr.passed (t := t) (rest := []) (τ.buf t) (by rw [List.append_nil]; exact hf) hcc (by simp)).1
        unfold stepSend at hs
        rw [hp] at hs
        simp only at hs
        rw [if_pos hv.symm] at hs
        simp only [Option.some.injEq] at hs
        have hsc : sc τ1 f c n = sc τ f c n := by rw [← hs]; rfl
        have hx : ∀ e ∈ [(t, m, Err.SUCCESS)], e.1 = t := by intro e he; simp only [List.mem_singleton] at he; rw [he]
        refine reach_zero hsc (hr.upd t ?_ ?_ ?_ ?_)
        · intro u hu
          rw [← hs]
          refine ⟨rfl, setThr_ne _ _ hu, rfl, rfl, rfl, ?_, rfl⟩
          show callsOf u (τ.s.sent ++ [(t, m, Err.SUCCESS)]) = _
          rw [callsOf_append, callsOf_ne hx hu, List.append_nil]
        · rw [← hs]
          exact .done hb' hcc hf he (setThr_self ..)
        · have := hr.sent t
          rw [owed_busy (by rw [hp]; simp), List.append_nil] at this
          have ho : owed τ1 f t = [(t, m, Err.SUCCESS)] := by
            unfold owed
            rw [if_pos ⟨by rw [← hs]; exact hb', by rw [← hs]; exact setThr_self ..⟩, hf]
            rfl
          rw [ho, ← hs]
          show callsOf t (τ.s.sent ++ [(t, m, Err.SUCCESS)]) = _
          rw [callsOf_append, this]
          simp [callsOf]
        · intro i hi
          rw [hsc]
          refine hr.passed i ?_
          rw [← hs] at hi
          exact hi
  | _ =>
    refine dry (fun _ _ _ _ _ _ _ => by rw [hp]; simp) ?_
    unfold stepSend at hs
    rw [hp] at hs
    exact hs

/-! ### A store reaches the memory -/

/-- The state after the oldest store of `t` has reached the memory. -/
def drained (τ : T) (t : Nat) (e : Ent) (b : List Ent) : T :=
  { τ with
    buf := setBuf τ.buf t b
    s := { τ.s with
      heads := (act τ.s.heads τ.s.data e.reg e.a).1, data := (act τ.s.heads τ.s.data e.reg e.a).2.1
      oob := τ.s.oob || !e.a.inside τ.s.conf.n
      fin := if isLast e.a then τ.s.fin ++ [e.id] else τ.s.fin } }

theorem drain_eq {t : Nat} {e : Ent} {b : List Ent} (hb : τ.buf t = e :: b) : drain τ t = some (drained τ t e b) := by
  unfold drain; rw [hb]; rfl

theorem drain_sc (h : CInv hash (sc τ f c n) g) (hr : Rel τ f c n) {t : Nat} {e : Ent} {b : List Ent} {m : Msg} {left seq w id : Nat}
    {todo : List Act} {reg : Bool} (hf : f t = .work m left seq w id (e.a :: todo) reg) (hc : c t = false) (hid : e.id = id)
    (hreg : isLast e.a = true → e.reg = true) :
    ∃ reg', Conc.step hash (sc τ f c n) (.send t false) = some (sc (drained τ t e b)
      (setThr f t (if todo = [] then .verify m left seq w id else .work m left seq w id todo reg')) c n) := by
  obtain ⟨r, hrr, hrt, -, -, -, htodo, -, hlt⟩ := work_of h (t := t) hf
  have hcr : c r.t = false := by rw [hrt]; exact hc
  have hon : ∀ x ∈ τ.rbuf, e.a.On (· ≠ x) := by
    intro x hx
    have hm : e.a ∈ plan hash τ.s.conf.n (pos g.rs id) r.seq r.msg :=
      List.mem_of_mem_drop (i := g.cnt id) (show e.a ∈ (planOf hash (sc τ f c n).conf.n g id r).drop (g.cnt id) by
        rw [← htodo]; exact List.mem_cons_self)
    refine On.mono (fun y hy => ?_) (plan_on (hash := hash) (h.klt hrr) e.a hm).1
    rintro rfl
    exact own_off h hr.passed hrr hlt hcr hy hx
  have hat := work_at h (t := t) (q := []) hf
  have hreg1 := work_reg h (t := t) hf hc
  have hrr : isLast e.a = true → reg = e.reg := by
    intro hla
    rw [hreg hla, hreg1]
    rcases hat with ⟨h1, -⟩ | ⟨-, h2⟩ | ⟨-, h2⟩
    · rw [h1]; rfl
    · rw [h2] at hla; cases hla
    · cases hea : e.a with
      | storeF i => rw [hea] at h2; cases h2
      | _ => rw [hea] at hla; cases hla
  have e1 : act (sc τ f c n).heads (sc τ f c n).data reg e.a = _ := act_clrs (h := τ.s.heads) (d := τ.s.data) (r := reg) hon
  have e2 : (act τ.s.heads τ.s.data reg e.a).1 = (act τ.s.heads τ.s.data e.reg e.a).1 := act_heads hrr
  have e3 : (act τ.s.heads τ.s.data reg e.a).2.1 = (act τ.s.heads τ.s.data e.reg e.a).2.1 := act_data
  refine ⟨(act (sc τ f c n).heads (sc τ f c n).data reg e.a).2.2, ?_⟩
  simp only [Conc.step]
  rw [if_pos (show (sc τ f c n).crashed t = false from hc)]
  unfold Conc.stepSend
  rw [show (sc τ f c n).thr t = _ from hf]
  simp only
  by_cases ht : todo = []
  · have hla : isLast e.a = true := by
      rcases hat with ⟨-, h2⟩ | ⟨h1, -⟩ | ⟨h1, -⟩
      · rw [h2]; rfl
      · rw [ht] at h1; cases h1
      · rw [ht] at h1; simp at h1
    rw [if_pos ht, if_pos ht, e1]
    unfold drained sc
    simp only [e2, e3, hla, if_true, hid]
    rfl
  · have hla : isLast e.a = false := by
      rcases hat with ⟨h1, -⟩ | ⟨-, h2⟩ | ⟨-, h2⟩
      · exact absurd h1 ht
      · rw [h2]; rfl
      · cases hea : e.a with
        | storeF i => rw [hea] at h2; cases h2
        | _ => rfl
    rw [if_neg ht, if_neg ht, e1]
    unfold drained sc
    simp only [e2, e3, hla, Bool.false_eq_true, if_false]
    rfl

/-- The buffer of `t` has become empty. -/
theorem settle {t : Nat} {pr cq : Prop} (h : CInv hash (sc τ f c n) g) (ho : ∀ u, u ≠ t → Lag τ f c u)
    (hs : ∀ u, callsOf u τ.s.sent = callsOf u n ++ owed τ f u) (hp : ∀ i ∈ τ.rbuf, Passed (sc τ f c n) i) (hb : τ.buf t = [])
    (hf : f t = τ.s.thr t) (hc : c t = false) (hstop : τ.s.crashed t = true → Stop (τ.s.thr t)) : Reach hash (sc τ f c n) τ pr cq := by
  cases hcr : τ.s.crashed t with
  | false =>
    refine reach_zero rfl ⟨fun u => ?_, hs, hp⟩
    by_cases e : u = t
    · rw [e]; exact .same hb hf (by rw [hc, hcr])
    · exact ho u e
  | true =>
    have hlc : Conc.Legal (sc τ f c n) (.crash t) := legal_crash (by rw [show (sc τ f c n).thr t = τ.s.thr t from hf]; exact hstop hcr)
    have hstep : Conc.step hash (sc τ f c n) (.crash t) = some (sc τ f (fun u => if u = t then true else c u) n) := rfl
    refine reach_one hstep hlc (fun _ => trivial) (fun _ => trivial) ⟨fun u => ?_, hs, fun i hi => passed_step h hlc hstep rfl (hp i hi)⟩
    by_cases e : u = t
    · rw [e]; exact .same hb hf (by rw [if_pos rfl, hcr])
    · exact (ho u e).congr rfl rfl rfl rfl (if_neg e)

theorem sim_drain (h : CInv hash (sc τ f c n) g) (hr : Rel τ f c n) {t : Nat} {pr cq : Prop}
    (hs : step hash τ (.drain t) = some τ1) : Reach hash (sc τ f c n) τ1 pr cq := by
  have hs : drain τ t = some τ1 := hs
  cases hb : τ.buf t with
  | nil => unfold drain at hs; rw [hb] at hs; cases hs
  | cons e b =>
    rw [drain_eq hb] at hs
    simp only [Option.some.injEq] at hs
    subst hs
    -- what the sender is doing
    obtain ⟨m, left, seq, w, id, rest, reg, hf, hc, hents, hstop, hcase⟩ : ∃ m left seq w id rest reg,
        f t = .work m left seq w id (e.a :: (b.map Ent.a ++ rest)) reg ∧ c t = false ∧ Ents (e :: b) id seq ∧
        (τ.s.crashed t = true → Stop (τ.s.thr t)) ∧
        ((rest ≠ [] ∧ τ.s.thr t = .work m left seq w id rest (decide (rest.length ≤ 1))) ∨
          (rest = [] ∧ τ.s.thr t = .verify m left seq w id) ∨ (rest = [] ∧ τ.s.thr t = .idle)) := by
      cases hr.lag t with
      | same h => rw [hb] at h; cases h
      | work _ hc hst hf he hne ht =>
        rw [hb] at hf he
        exact ⟨_, _, _, _, _, _, _, hf, hc, he, hst, Or.inl ⟨hne, ht⟩⟩
      | verify _ hc hf he ht =>
        rw [hb] at hf he
        exact ⟨_, _, _, _, _, [], _, by rw [List.append_nil]; exact hf, hc, he, fun _ => by rw [ht]; trivial, Or.inr (Or.inl ⟨rfl, ht⟩)⟩
      | done _ hc hf he ht =>
        rw [hb] at hf he
        exact ⟨_, _, _, _, _, [], _, by rw [List.append_nil]; exact hf, hc, he, fun _ => by rw [ht]; trivial, Or.inr (Or.inr ⟨rfl, ht⟩)⟩
    obtain ⟨reg', hstep⟩ := drain_sc h hr (b := b) hf hc (hents e List.mem_cons_self).1 (hents e List.mem_cons_self).2.2
    have hlg : Conc.Legal (sc τ f c n) (.send t false) := legal_work (fun _ _ _ _ _ _ => by
      rw [show (sc τ f c n).thr t = _ from hf]; simp)
    have hpr : Conc.Prompt (sc τ f c n) (.send t false) := prompt_work (fun _ _ _ _ _ => by
      rw [show (sc τ f c n).thr t = _ from hf]; simp)
    have hcn : CountOK (sc τ f c n) (.send t false) := count_work (fun _ _ => by
      rw [show (sc τ f c n).thr t = _ from hf]; simp)
    obtain ⟨g1, h1, -, hgd⟩ := inv_step h hlg hstep
    have hgd : g1.d = g.d := hgd (by simp)
    have hpass := passed_one h hr hlg hstep rfl
    have hoth : ∀ (p : SPC) u, u ≠ t → Lag (drained τ t e b) (setThr f t p) c u := fun p u hu =>
      (hr.lag u).congr (setBuf_ne _ _ hu) rfl rfl (setThr_ne _ _ hu) rfl
    have hsoth : ∀ (p : SPC) u, u ≠ t → callsOf u (drained τ t e b).s.sent = callsOf u n ++ owed (drained τ t e b) (setThr f t p) u := fun p u hu =>
      hr.keep rfl (setBuf_ne _ _ hu) rfl (setThr_ne _ _ hu)
    have hbt : (drained τ t e b).buf t = b := setBuf_self ..
    have hents' : Ents b id seq := fun x hx => hents x (List.mem_cons_of_mem _ hx)
    refine reach_cons hstep hlg (fun _ => hpr) (fun _ => hcn) ?_
    by_cases hbn : b = []
    · -- the buffer is empty now
      subst hbn
      rcases hcase with ⟨hne, ht⟩ | ⟨hre, ht⟩ | ⟨hre, ht⟩
      · rw [if_neg (by simpa using hne)] at h1 hstep hpass ⊢
        have hreg' := work_reg h1 (t := t) (setThr_self ..) hc
        refine settle h1 (fun u hu => hoth _ u hu) (fun u => ?_) hpass hbt ?_ hc hstop
        · by_cases hu : u = t
          · subst hu
            have := hr.sent u
            rw [owed_busy (by rw [ht]; simp)] at this
            rw [owed_nil hbt]
            exact this
          · exact hsoth _ u hu
        · rw [setThr_self]
          show _ = τ.s.thr t
          rw [ht, hreg']
          rfl
      · subst hre
        rw [if_pos (by rfl)] at h1 hstep hpass ⊢
        refine settle h1 (fun u hu => hoth _ u hu) (fun u => ?_) hpass hbt ?_ hc hstop
        · by_cases hu : u = t
          · subst hu
            have := hr.sent u
            rw [owed_busy (by rw [ht]; simp)] at this
            rw [owed_nil hbt]
            exact this
          · exact hsoth _ u hu
        · rw [setThr_self]
          show _ = τ.s.thr t
          rw [ht]
      · -- the call has returned on the machine
        subst hre
        rw [if_pos (by rfl)] at h1 hstep hpass ⊢
        obtain ⟨r, hrr, hrt, -, -, -, -, -, hlt⟩ := work_of h (t := t) hf
        have hlive := (h.live hrr hlt (by rw [hrt]; exact hc)).1
        have hthr : (sc (drained τ t e []) (setThr f t (.verify m left seq w id)) c n).thr t = .verify m left seq w id := setThr_self ..
        obtain ⟨-, r1, hr1, -, hfull, -, hsq1, hw1⟩ : TInv hash _ g1 t _ := hthr ▸ h1.thr t
        have hidl : id < g1.rs.length := (List.getElem?_eq_some_iff.1 hr1).1
        have hroom : (sc (drained τ t e []) (setThr f t (.verify m left seq w id)) c n).tot ≤
            pos g1.rs id + (sc (drained τ t e []) (setThr f t (.verify m left seq w id)) c n).conf.n := by
          have := h1.room
          have := pos_le (rs := g1.rs) (i := g1.d) (j := id) (by omega) (by omega)
          omega
        have h5 : 5 ≤ g1.cnt id := by
          have hf5 := front_length (hash := hash) (n := (sc (drained τ t e []) (setThr f t (.verify m left seq w id)) c n).conf.n)
            (pos := pos g1.rs id) (seq := r1.seq) (m := r1.msg)
          have hpl := congrArg List.length (plan_front hash (sc (drained τ t e []) (setThr f t (.verify m left seq w id)) c n).conf.n
            (pos g1.rs id) r1.seq r1.msg)
          simp only [List.length_append, List.length_cons, List.length_nil] at hpl
          unfold Full planOf at hfull
          omega
        have hkeep := h1.keep id r1 hr1 h5 hroom
        rw [← hw1, ← hsq1] at hkeep
        have hstep2 : Conc.step hash (sc (drained τ t e []) (setThr f t (.verify m left seq w id)) c n) (.send t false) =
            some (sc (drained τ t e []) (setThr (setThr f t (.verify m left seq w id)) t .idle) c (n ++ [(t, m, Err.SUCCESS)])) := by
          simp only [Conc.step]
          rw [if_pos (show (sc (drained τ t e []) (setThr f t (.verify m left seq w id)) c n).crashed t = false from hc)]
          unfold Conc.stepSend
          rw [hthr]
          simp only
          rw [if_pos hkeep.symm]
          rfl
        have hlg2 : Conc.Legal (sc (drained τ t e []) (setThr f t (.verify m left seq w id)) c n) (.send t false) :=
          legal_work (fun _ _ _ _ _ _ => by rw [hthr]; simp)
        have hpr2 : Conc.Prompt (sc (drained τ t e []) (setThr f t (.verify m left seq w id)) c n) (.send t false) := by
          unfold Conc.Prompt
          simp only
          rw [hthr]
          show _ ≤ offset _ id + _
          rw [h1.off]
          exact hroom
        have hcn2 : CountOK (sc (drained τ t e []) (setThr f t (.verify m left seq w id)) c n) (.send t false) :=
          count_work (fun _ _ => by rw [hthr]; simp)
        obtain ⟨g2, h2, -, -⟩ := inv_step h1 hlg2 hstep2
        have hx : ∀ e ∈ [(t, m, Err.SUCCESS)], e.1 = t := by intro e he; simp only [List.mem_singleton] at he; rw [he]
        refine reach_cons hstep2 hlg2 (fun _ => hpr2) (fun _ => hcn2) (settle h2 (fun u hu => ?_) (fun u => ?_)
          (fun i hi => passed_step h1 hlg2 hstep2 rfl (hpass i hi)) hbt ?_ hc hstop)
        · exact (hoth (.verify m left seq w id) u hu).congr rfl rfl rfl (setThr_ne _ _ hu) rfl
        · by_cases hu : u = t
          · subst hu
            have := hr.sent u
            have ho : owed τ f u = [(u, m, Err.SUCCESS)] := by
              unfold owed
              rw [if_pos ⟨by rw [hb]; simp, ht⟩, hf]
              rfl
            rw [ho] at this
            rw [owed_nil hbt, List.append_nil, callsOf_append]
            show callsOf u τ.s.sent = _
            rw [this]
            simp [callsOf]
          · rw [callsOf_append, callsOf_ne hx hu, List.append_nil]
            rw [hsoth (.verify m left seq w id) u hu]
            congr 1
            exact (owed_congr rfl rfl (setThr_ne _ _ hu)).symm
        · rw [setThr_self]
          exact ht.symm
    · have htn : ¬ (b.map Ent.a ++ rest = []) := by
        intro e
        exact hbn (by simpa using (List.append_eq_nil_iff.1 e).1)
      rw [if_neg htn] at h1 hstep hpass ⊢
      refine reach_zero rfl ⟨fun u => ?_, fun u => ?_, hpass⟩
      · by_cases hu : u = t
        · subst hu
          rcases hcase with ⟨hne, ht⟩ | ⟨hre, ht⟩ | ⟨hre, ht⟩
          · exact .work (by rw [hbt]; exact hbn) hc hstop (by rw [hbt, setThr_self]) (by rw [hbt]; exact hents') hne ht
          · exact .verify (by rw [hbt]; exact hbn) hc (by rw [hbt, setThr_self, hre, List.append_nil]) (by rw [hbt]; exact hents') ht
          · exact .done (by rw [hbt]; exact hbn) hc (by rw [hbt, setThr_self, hre, List.append_nil]) (by rw [hbt]; exact hents') ht
        · exact hoth _ u hu
      · by_cases hu : u = t
        · subst hu
          have := hr.sent u
          have ho : owed (drained τ u e b) (setThr f u (.work m left seq w id (b.map Ent.a ++ rest) reg')) u = owed τ f u := by
            unfold owed
            rw [hbt, hb, setThr_self, hf]
            by_cases hi : τ.s.thr u = .idle
            · rw [if_pos ⟨hbn, hi⟩, if_pos ⟨by simp, hi⟩]; rfl
            · rw [if_neg (fun x => hi x.2), if_neg (fun x => hi x.2)]
          rw [ho]
          exact this
        · exact hsoth _ u hu

/-! ### Runs -/

theorem sim_step (h : CInv hash (sc τ f c n) g) (hr : Rel τ f c n) {e : Ev} (hl : Legal τ e) (hs : step hash τ e = some τ1) :
    Reach hash (sc τ f c n) τ1 (Prompt τ e) (Count τ e) := by
  cases e with
  | call t m => exact sim_call h hr hl hs
  | send t weak => exact sim_send h hr hl hs
  | drain t => exact sim_drain h hr hs
  | crash t => exact sim_crash h hr hl hs
  | recv len => exact sim_recv h hr hs
  | rstep now => exact sim_rstep h hr hl hs
  | rdrain => exact sim_rdrain hr hs

end

theorem rel_init (conf : Conf) : Rel (T.init conf) (St.init conf).thr (St.init conf).crashed (St.init conf).sent :=
  ⟨fun _ => .same rfl rfl rfl, fun _ => by rw [owed_nil rfl]; rfl, fun _ hi => by cases hi⟩

theorem along_join {P : St → Conc.Ev → Prop} {hash : List Byte → Nat} : ∀ {a b : List Conc.Ev} {s s1 : St}, Conc.Along P hash s a →
    Conc.run hash s a = some s1 → Conc.Along P hash s1 b → Conc.Along P hash s (a ++ b) := by
  intro a
  induction a with
  | nil =>
    intro b s s1 _ hr hb
    simp only [Conc.run, Option.some.injEq] at hr
    subst hr
    exact hb
  | cons e a ih =>
    intro b s s1 ha hr hb
    refine ⟨ha.1, fun s2 h2 => ?_⟩
    simp only [Conc.run, h2] at hr
    exact ih (ha.2 s2 h2) hr hb

/-- Every run with buffers has a run of the interleaved model that corresponds to it. -/
theorem sim_run {hash : List Byte → Nat} : ∀ {es : List Ev} {τ τ1 : T} {f : Nat → SPC} {c : Nat → Bool} {n : List (Nat × Msg × Int)} {g : G},
    CInv hash (sc τ f c n) g → Rel τ f c n → Along Legal hash τ es → run hash τ es = some τ1 →
    Reach hash (sc τ f c n) τ1 (Along Prompt hash τ es) (Along Count hash τ es) := by
  intro es
  induction es with
  | nil =>
    intro τ τ1 f c n g h hr _ hs
    simp only [run, Option.some.injEq] at hs
    subst hs
    exact reach_zero rfl hr
  | cons e es ih =>
    intro τ τ1 f c n g h hr hl hs
    simp only [run] at hs
    split at hs
    · cases hs
    · rename_i τ2 h2
      obtain ⟨es1, f1, c1, n1, k1, k2, k3, k5, k4⟩ := sim_step h hr hl.1 h2
      obtain ⟨g1, h1⟩ := inv_run h k2 k1
      obtain ⟨es2, f2, c2, n2, q1, q2, q3, q5, q4⟩ := ih h1 k4 (hl.2 τ2 h2) hs
      refine ⟨es1 ++ es2, f2, c2, n2, ?_, along_join k2 k1 q2, fun hp => along_join (k3 hp.1) k1 (q3 (hp.2 τ2 h2)),
        fun hp => along_join (k5 hp.1) k1 (q5 (hp.2 τ2 h2)), q4⟩
      rw [run_append, k1]
      exact q1

theorem sim_init {hash : List Byte → Nat} {conf : Conf} {es : List Ev} {τ : T} (hc : ConfOK conf)
    (hl : Along Legal hash (T.init conf) es) (hr : run hash (T.init conf) es = some τ) :
    Reach hash (St.init conf) τ (Along Prompt hash (T.init conf) es) (Along Count hash (T.init conf) es) :=
  sim_run (g := G.init) (Conc.inv_init hash hc) (rel_init conf) hl hr

end Verif.Mem.Tso
