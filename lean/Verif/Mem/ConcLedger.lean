import Verif.Mem.ConcRun

/-! Reservations and calls of the senders. -/
namespace Verif.Mem.Conc

set_option maxRecDepth 10000

/-- What a sender has reserved nodes for is what it has sent, and what it is sending. -/
def Ledger (s : St) : Prop := ∀ t, owned s t = accepted s t ++ pending (s.thr t)

theorem owned_frame {s s1 : St} (h1 : s1.who = s.who) (h2 : s1.resv = s.resv) (t : Nat) : owned s1 t = owned s t := by
  unfold owned; rw [h1, h2]

theorem accepted_frame {s s1 : St} (h : s1.sent = s.sent) (t : Nat) : accepted s1 t = accepted s t := by
  unfold accepted; rw [h]

theorem setThr_self (f : Nat → SPC) (t : Nat) (p : SPC) : setThr f t p t = p := by simp [setThr]

theorem setThr_ne (f : Nat → SPC) {t u : Nat} (p : SPC) (h : u ≠ t) : setThr f t p u = f u := by simp [setThr, h]

/-- Only the program counter of a sender changes. -/
theorem ledger_pc {s s1 : St} (h : Ledger s) (t : Nat) (p : SPC) (h1 : s1.who = s.who) (h2 : s1.resv = s.resv) (h3 : s1.sent = s.sent)
    (h4 : s1.thr = setThr s.thr t p) (hp : pending p = pending (s.thr t)) : Ledger s1 := by
  intro u
  rw [owned_frame h1 h2, accepted_frame h3, h4, h u]
  by_cases e : u = t
  · subst e; rw [setThr_self, hp]
  · rw [setThr_ne _ _ e]

/-- Nothing about the senders changes. -/
theorem ledger_same {s s1 : St} (h : Ledger s) (h1 : s1.who = s.who) (h2 : s1.resv = s.resv) (h3 : s1.sent = s.sent)
    (h4 : s1.thr = s.thr) : Ledger s1 := by
  intro u
  rw [owned_frame h1 h2, accepted_frame h3, h4, h u]

/-- A call returns. -/
theorem ledger_returns {s : St} (h : Ledger s) (t : Nat) (m : Msg) (code : Int)
    (hp : pending (s.thr t) = if code = Err.SUCCESS ∧ m ≠ [] then [m] else []) : Ledger (s.returns t m code) := by
  intro u
  show owned s u = accepted (s.returns t m code) u ++ pending (setThr s.thr t .idle u)
  rw [h u]
  show _ = accepted (s.returns t m code) u ++ pending (setThr s.thr t .idle u)
  by_cases e : u = t
  · subst e
    rw [setThr_self, hp]
    have : accepted (s.returns u m code) u = accepted s u ++ if code = Err.SUCCESS ∧ m ≠ [] then [m] else [] := by
      unfold accepted St.returns
      simp only [List.filter_append, List.map_append]
      by_cases hc : code = Err.SUCCESS ∧ m ≠ []
      · rw [if_pos hc]; simp [hc.1, hc.2]
      · rw [if_neg hc]; simp [hc]
    rw [this]
    simp [pending]
  · rw [setThr_ne _ _ e]
    have : accepted (s.returns t m code) u = accepted s u := by
      unfold accepted St.returns
      simp only [List.filter_append, List.map_append]
      have : ¬ t = u := fun h => e h.symm
      simp [this]
    rw [this]

theorem zip_append' {α β : Type} : ∀ {a a' : List α} {b b' : List β}, a.length = b.length →
    (a ++ a').zip (b ++ b') = a.zip b ++ a'.zip b' := by
  intro a
  induction a with
  | nil => intro a' b b' h; cases b with
    | nil => rfl
    | cons _ _ => cases h
  | cons x a ih => intro a' b b' h; cases b with
    | nil => cases h
    | cons y b => simp only [List.cons_append, List.zip_cons_cons, ih (Nat.succ.inj h)]

theorem ledger_cas {s s1 : St} (h : Ledger s) (hlen : s.who.length = s.resv.length) {t : Nat} {m : Msg} {p : SPC}
    (h1 : s1.who = s.who ++ [t]) (h2 : s1.resv = s.resv ++ [m]) (h3 : s1.sent = s.sent) (h4 : s1.thr = setThr s.thr t p)
    (hp : pending p = [m]) (hq : pending (s.thr t) = []) : Ledger s1 := by
  intro u
  rw [accepted_frame h3, h4]
  have ho : owned s1 u = owned s u ++ if t = u then [m] else [] := by
    unfold owned
    rw [h1, h2, zip_append' hlen, List.filter_append, List.map_append]
    congr 1
    by_cases e : t = u <;> simp [e]
  rw [ho, h u]
  by_cases e : u = t
  · subst e; rw [setThr_self, hp, hq]; simp
  · rw [setThr_ne _ _ e, if_neg (fun h => e h.symm), List.append_nil]

theorem ledger_init (conf : Conf) : Ledger (St.init conf) := fun _ => rfl

theorem ledger_step {hash : List Byte → Nat} {s s1 : St} {g : G} (h : CInv hash s g) {g1 : G} (h1 : CInv hash s1 g1) {e : Ev} (hp : Prompt s e) (hl : Ledger s)
    (hs : step hash s e = some s1) : Ledger s1 := by
  cases e with
  | call t m =>
    simp only [step] at hs
    split at hs
    · rename_i hc
      simp only [Option.some.injEq] at hs
      subst hs
      unfold callSend
      have hr := h.conf.retry
      split
      · rename_i e; omega
      · split
        · rename_i e
          apply ledger_returns hl
          rw [hc.1, if_neg (fun e2 => e2.2 (List.length_eq_zero_iff.1 e))]; rfl
        · split
          · apply ledger_returns hl
            rw [hc.1, if_neg (fun e2 => absurd e2.1 (by decide))]; rfl
          · exact ledger_pc hl t _ rfl rfl rfl rfl (by rw [hc.1]; rfl)
    · cases hs
  | send t weak =>
    simp only [step] at hs
    split at hs
    · unfold stepSend at hs
      cases e : s.thr t with
      | idle => rw [e] at hs; cases hs
      | stuck => rw [e] at hs; cases hs
      | fetch m left =>
        rw [e] at hs
        simp only [Option.some.injEq] at hs
        subst hs
        split
        · exact ledger_same hl rfl rfl rfl rfl
        · exact ledger_pc hl t _ rfl rfl rfl rfl (by rw [e]; rfl)
      | loadW m left seq =>
        rw [e] at hs
        simp only [Option.some.injEq] at hs
        subst hs
        exact ledger_pc hl t _ rfl rfl rfl rfl (by rw [e]; rfl)
      | loadR m left seq w wT =>
        rw [e] at hs
        simp only at hs
        split at hs
        · simp only [Option.some.injEq] at hs
          subst hs
          apply ledger_returns hl
          rw [e, if_neg (fun e2 => absurd e2.1 (by decide))]; rfl
        · simp only [Option.some.injEq] at hs
          subst hs
          exact ledger_pc hl t _ rfl rfl rfl rfl (by rw [e]; rfl)
      | cas m left seq w wT k =>
        have hq : pending (s.thr t) = [] := by rw [e]; rfl
        have hlen : s.who.length = s.resv.length := by rw [h.who, h.resv, List.length_map, List.length_map]
        rw [e] at hs
        simp only at hs
        split at hs
        · simp only [Option.some.injEq] at hs
          subst hs
          exact ledger_pc hl t _ rfl rfl rfl rfl (by rw [e]; rfl)
        · split at hs
          · exfalso
            simp only [Option.some.injEq] at hs
            have ht1 := h1.thr t
            rw [← hs] at ht1
            simp only [St.pc, setThr_self] at ht1
            exact ht1
          · simp only [Option.some.injEq] at hs
            subst hs
            exact ledger_cas hl hlen rfl rfl rfl rfl rfl hq
      | work m left seq w id todo reg =>
        rw [e] at hs
        simp only at hs
        split at hs
        · cases hs
        · split at hs
          · simp only [Option.some.injEq] at hs
            subst hs
            exact ledger_pc hl t _ rfl rfl rfl rfl (by rw [e]; rfl)
          · simp only [Option.some.injEq] at hs
            subst hs
            exact ledger_pc hl t _ rfl rfl rfl rfl (by rw [e]; rfl)
      | verify m left seq w id =>
        have ht := h.thr t
        rw [e] at ht hs
        obtain ⟨hsm, r, hr, -, hfull, rfl, rfl, rfl⟩ := ht
        have htot : s.tot ≤ pos g.rs id + s.conf.n := by
          have : Prompt s (.send t weak) = (s.tot ≤ offset s.resv id + s.conf.n) := by
            show (match s.thr t with | .verify _ _ _ _ id => s.tot ≤ offset s.resv id + s.conf.n | _ => True) = _
            rw [e]
          rw [this, h.resv, offset_eq] at hp
          exact hp
        have h5 : 5 ≤ g.cnt id := by
          have := h.full_late hfull
          unfold lateCnt at this
          omega
        have hk := h.keep id r hr h5 htot
        simp only at hs
        rw [if_pos hk.symm] at hs
        simp only [Option.some.injEq] at hs
        subst hs
        apply ledger_returns hl
        rw [e, if_pos ⟨rfl, hsm.1⟩]; rfl
    · cases hs
  | crash t =>
    simp only [step, Option.some.injEq] at hs
    subst hs
    exact ledger_same hl rfl rfl rfl rfl
  | recv len =>
    simp only [step] at hs
    split at hs
    · simp only [Option.some.injEq] at hs
      subst hs
      exact ledger_same hl rfl rfl rfl rfl
    · cases hs
  | rstep now =>
    obtain ⟨-, -, h2, h3, -, h4, h5, -⟩ := stepRecv_frame hs
    exact ledger_same hl h3 h2 h5 h4

/-- Both conditions on a run. -/
def LegalPrompt (s : St) (e : Ev) : Prop := Legal s e ∧ Prompt s e

theorem along_mono {P Q : St → Ev → Prop} {hash : List Byte → Nat} (hpq : ∀ s e, P s e → Q s e) :
    ∀ {es : List Ev} {s : St}, Along P hash s es → Along Q hash s es := by
  intro es
  induction es with
  | nil => intro s _; trivial
  | cons e es ih => intro s h; exact ⟨hpq _ _ h.1, fun s1 hs => ih (h.2 s1 hs)⟩

theorem ledger_run {hash : List Byte → Nat} : ∀ {es : List Ev} {s s1 : St} {g : G}, CInv hash s g → Ledger s →
    Along LegalPrompt hash s es → run hash s es = some s1 → Ledger s1 := by
  intro es
  induction es with
  | nil =>
    intro s s1 g _ hl _ hs
    simp only [run, Option.some.injEq] at hs
    subst hs
    exact hl
  | cons e es ih =>
    intro s s1 g h hl ha hs
    simp only [run] at hs
    split at hs
    · cases hs
    · rename_i s2 h2
      obtain ⟨g1, h1, -⟩ := inv_step h ha.1.1 h2
      exact ih h1 (ledger_step h h1 ha.1.2 hl h2) (ha.2 s2 h2) hs

end Verif.Mem.Conc
