import Verif.Mem.Tso
import Verif.Mem.ConcDead
import Verif.Mem.ConcLedger
import Verif.Mem.ConcCount

/-! Every run with store buffers is a run of the interleaved model. -/
namespace Verif.Mem.Tso

open Conc

set_option maxRecDepth 10000

/-! ### Clearing flags -/

theorem clrs_append (a b : List Nat) (h : Nat → Head) : clrs (a ++ b) h = clrs b (clrs a h) := by
  unfold clrs; rw [List.foldl_append]

theorem clrs_seq (l : List Nat) (h : Nat → Head) (i : Nat) : (clrs l h i).seq = (h i).seq := by
  induction l generalizing h with
  | nil => rfl
  | cons x l ih =>
    show (clrs l (clr h x) i).seq = _
    rw [ih, clr_seq]

theorem clr_ne (h : Nat → Head) {x i : Nat} (hx : i ≠ x) : clr h x i = h i := by
  unfold clr setHead; rw [if_neg hx]

theorem clrs_out {l : List Nat} {i : Nat} (hi : i ∉ l) (h : Nat → Head) : clrs l h i = h i := by
  induction l generalizing h with
  | nil => rfl
  | cons x l ih =>
    show clrs l (clr h x) i = _
    rw [ih (fun e => hi (List.mem_cons_of_mem _ e)), clr_ne h (x := x) (i := i) (fun e => hi (by rw [e]; exact List.mem_cons_self))]

theorem clr_set (h : Nat → Head) {x i : Nat} (v : Head) (hx : i ≠ x) : setHead (clr h x) i v = clr (setHead h i v) x := by
  funext y
  unfold clr setHead
  by_cases e1 : y = i
  · subst e1
    rw [if_pos rfl, if_neg hx, if_pos rfl]
  · rw [if_neg e1]
    by_cases e2 : y = x
    · subst e2
      rw [if_pos rfl, if_pos rfl, if_neg (fun e => hx e.symm)]
    · rw [if_neg e2, if_neg e2, if_neg e1]

theorem act_clr {h : Nat → Head} {d : Nat → Byte} {r : Bool} {a : Act} {x : Nat} (ha : a.On (· ≠ x)) :
    act (clr h x) d r a = (clr (act h d r a).1 x, (act h d r a).2.1, (act h d r a).2.2) := by
  cases a with
  | put off bs => rfl
  | flag i st wt => simp only [act]; rw [clr_ne h ha, clr_set _ _ ha]
  | seq i v => simp only [act]; rw [clr_ne h ha, clr_set _ _ ha]
  | loadF i => simp only [act]; rw [clr_ne h ha]
  | storeF i => simp only [act]; rw [clr_ne h ha, clr_set _ _ ha]

theorem act_clrs {l : List Nat} {h : Nat → Head} {d : Nat → Byte} {r : Bool} {a : Act} (ha : ∀ x ∈ l, a.On (· ≠ x)) :
    act (clrs l h) d r a = (clrs l (act h d r a).1, (act h d r a).2.1, (act h d r a).2.2) := by
  induction l generalizing h with
  | nil => rfl
  | cons x l ih =>
    show act (clrs l (clr h x)) d r a = _
    rw [ih (fun y hy => ha y (List.mem_cons_of_mem _ hy)), act_clr (ha x List.mem_cons_self)]
    rfl

theorem On.mono {P Q : Nat → Prop} (hpq : ∀ x, P x → Q x) {a : Act} (h : a.On P) : a.On Q := by
  cases a with
  | put off bs => exact fun i hi => hpq _ (h i hi)
  | flag i st wt => exact hpq _ h
  | seq i v => exact hpq _ h
  | loadF i => exact hpq _ h
  | storeF i => exact hpq _ h

theorem exec_agree {P : Nat → Prop} : ∀ {l : List Act} {h h' : Nat → Head} {d d' : Nat → Byte} {r : Bool}, (∀ a ∈ l, a.On P) →
    (∀ x, P x → h x = h' x) → (∀ x, P (x / 256) → d x = d' x) → ∀ x, P x → (exec (h, d, r) l).1 x = (exec (h', d', r) l).1 x := by
  intro l
  induction l with
  | nil => intro h h' d d' r _ hh _ x hx; exact hh x hx
  | cons a l ih =>
    intro h h' d d' r ha hh hd x hx
    obtain ⟨g1, g2, g3⟩ := act_agree (r := r) (ha a List.mem_cons_self) hh hd
    simp only [exec]
    have := ih (r := (act h d r a).2.2) (fun b hb => ha b (List.mem_cons_of_mem _ hb)) g1 g2 x hx
    rw [show (act h d r a) = ((act h d r a).1, (act h d r a).2.1, (act h d r a).2.2) from rfl, this, g3]

/-- The heads do not depend on the data, nor on the register unless the written bit is set. -/
theorem act_heads {h : Nat → Head} {d d' : Nat → Byte} {r r' : Bool} {a : Act} (ha : isLast a = true → r = r') :
    (act h d r a).1 = (act h d' r' a).1 := by
  cases a with
  | storeF i => rw [ha rfl]; rfl
  | _ => rfl

theorem act_data {h h' : Nat → Head} {d : Nat → Byte} {r r' : Bool} {a : Act} : (act h d r a).2.1 = (act h' d r' a).2.1 := by
  cases a <;> rfl

theorem view_exec : ∀ {b : List Ent} {h : Nat → Head} (d : Nat → Byte) (r : Bool), (∀ e ∈ b, isLast e.a = false) →
    view h b = (exec (h, d, r) (b.map Ent.a)).1 := by
  intro b
  induction b with
  | nil => intro h d r _; rfl
  | cons e b ih =>
    intro h d r hb
    show view (act h (fun _ => 0) e.reg e.a).1 b = _
    rw [ih (act h d r e.a).2.1 (act h d r e.a).2.2 (fun x hx => hb x (List.mem_cons_of_mem _ hx))]
    simp only [List.map_cons, exec]
    rw [act_heads (d := fun _ => 0) (d' := d) (r := e.reg) (r' := r) (fun hl => by rw [hb e List.mem_cons_self] at hl; cases hl)]

/-! ### The shape of the accesses for a message -/

/-- All but the last two. -/
def front (hash : List Byte → Nat) (n pos seq : Nat) (m : Msg) : List Act :=
  init5 n pos seq ++ (marks n pos (nodes m.length) seq ++
    (.put (pos % n * 256) (toLE 8 m.length) :: copyActs n (pos % n) ((pos + nodes m.length) % n) m ++
      [.put (pos % n * 256 + 8) (toLE 8 (hash m % W64))]))

theorem plan_front (hash : List Byte → Nat) (n pos seq : Nat) (m : Msg) :
    plan hash n pos seq m = front hash n pos seq m ++ [.loadF (pos % n), .storeF (pos % n)] := by
  simp [plan, front, body, List.append_assoc]

def plain : Act → Bool
  | .loadF _ | .storeF _ => false
  | _ => true

theorem copyActs_plain {n w w' : Nat} {m : Msg} {a : Act} (h : a ∈ copyActs n w w' m) : plain a = true := by
  have key : ∀ {off bs}, a ∈ puts off bs → plain a = true := by
    intro off bs h
    simp only [puts, List.mem_map] at h
    obtain ⟨_, _, h⟩ := h
    rw [← h]
    rfl
  unfold copyActs at h
  simp only at h
  split at h
  · rcases List.mem_append.1 h with h | h <;> exact key h
  · exact key h

theorem front_plain {hash : List Byte → Nat} {n pos seq : Nat} {m : Msg} {a : Act} (h : a ∈ front hash n pos seq m) : plain a = true := by
  simp only [front, init5, marks, List.mem_append, List.mem_cons, List.mem_flatMap, List.mem_map, List.mem_range,
    List.not_mem_nil, or_false] at h
  rcases h with (h | h | h | h | h) | ⟨x, ⟨_, _, _⟩, (h | h)⟩ | (h | h) | h
  all_goals first | (rw [h]; rfl) | exact copyActs_plain h

theorem front_length {hash : List Byte → Nat} {n pos seq : Nat} {m : Msg} : 5 ≤ (front hash n pos seq m).length := by
  simp only [front, init5, List.length_append, List.length_cons, List.length_nil]
  omega

/-- What an access in the plan is depends on how many follow it. -/
theorem plan_at {hash : List Byte → Nat} {n pos seq : Nat} {m : Msg} {q rest : List Act} {a : Act}
    (h : plan hash n pos seq m = q ++ a :: rest) :
    (rest = [] ∧ a = .storeF (pos % n)) ∨ (rest.length = 1 ∧ a = .loadF (pos % n)) ∨ (2 ≤ rest.length ∧ plain a = true) := by
  rw [plan_front] at h
  have hl := congrArg List.length h
  simp only [List.length_append, List.length_cons, List.length_nil] at hl
  have hq : (front hash n pos seq m ++ [Act.loadF (pos % n), Act.storeF (pos % n)])[q.length]? = some a := by
    rw [h, List.getElem?_append_right (Nat.le_refl _), Nat.sub_self]; rfl
  match rest with
  | [] =>
    left
    simp only [List.length_nil] at hl
    rw [List.getElem?_append_right (by omega), show q.length - (front hash n pos seq m).length = 1 by omega] at hq
    simp only [List.getElem?_cons_succ, List.getElem?_cons_zero, Option.some.injEq] at hq
    exact ⟨rfl, hq.symm⟩
  | [x] =>
    right; left
    simp only [List.length_cons, List.length_nil] at hl
    rw [List.getElem?_append_right (by omega), show q.length - (front hash n pos seq m).length = 0 by omega] at hq
    simp only [List.getElem?_cons_zero, Option.some.injEq] at hq
    exact ⟨rfl, hq.symm⟩
  | x :: y :: rest =>
    right; right
    simp only [List.length_cons] at hl ⊢
    rw [List.getElem?_append_left (by omega)] at hq
    exact ⟨by omega, front_plain (List.mem_of_getElem? hq)⟩

theorem exec_reg {l : List Act} (h : ∀ a ∈ l, plain a = true) (m : M) : (exec m l).2.2 = m.2.2 := by
  induction l generalizing m with
  | nil => rfl
  | cons a l ih =>
    simp only [exec]
    rw [ih (fun x hx => h x (List.mem_cons_of_mem _ hx))]
    have := h a List.mem_cons_self
    cases a with
    | loadF i => cases this
    | storeF i => cases this
    | _ => rfl

/-- The register is set by the last access but one. -/
theorem plan_reg {hash : List Byte → Nat} {n pos seq : Nat} {m : Msg} (hk : nodes m.length < n) (h : Nat → Head) (d : Nat → Byte)
    (hc : h (pos % n) = ⟨false, false, (h (pos % n)).seq⟩) {cnt : Nat} (hlt : cnt < (plan hash n pos seq m).length) :
    (exec (h, d, false) ((plan hash n pos seq m).take cnt)).2.2 = decide ((plan hash n pos seq m).length ≤ cnt + 1) := by
  have hf := plan_front hash n pos seq m
  have hf5 := front_length (hash := hash) (n := n) (pos := pos) (seq := seq) (m := m)
  have hlen := congrArg List.length hf
  simp only [List.length_append, List.length_cons, List.length_nil] at hlen
  by_cases e : cnt ≤ (front hash n pos seq m).length
  · rw [decide_eq_false (by omega), hf, List.take_append_of_le_length e]
    exact exec_reg (fun a ha => front_plain (List.mem_of_mem_take ha)) _
  · have hh := plan_head (seq := seq) (hash := hash) hk (h, d, false) hc (front hash n pos seq m).length
    rw [if_neg (by omega), if_neg (by omega), if_pos (by omega)] at hh
    rw [decide_eq_true (by omega), show cnt = (front hash n pos seq m).length + 1 by omega]
    rw [hf, List.take_append_of_le_length (Nat.le_refl _), List.take_length] at hh
    rw [hf, List.take_append, List.take_of_length_le (by omega), Nat.add_sub_cancel_left, exec_append]
    show ((exec (h, d, false) (front hash n pos seq m)).1 (pos % n)).start = true
    rw [hh]

/-! ### Facts about the interleaved model -/

theorem clear_eq {h : Head} (hc : Clear h) : h = ⟨false, false, h.seq⟩ := by
  cases h; simp only [Clear] at hc; obtain ⟨rfl, rfl⟩ := hc; rfl

theorem work_of {hash : List Byte → Nat} {s : St} {g : G} (h : CInv hash s g) {t : Nat} {m : Msg} {left seq w id : Nat}
    {todo : List Act} {reg : Bool} (ht : s.thr t = .work m left seq w id todo reg) : ∃ r, g.rs[id]? = some r ∧ r.t = t ∧ m = r.msg ∧
    seq = r.seq ∧ w = pos g.rs id % s.conf.n ∧ todo = (planOf hash s.conf.n g id r).drop (g.cnt id) ∧
    reg = (memOf hash s.conf.n g id r).2.2 ∧ g.cnt id < (planOf hash s.conf.n g id r).length := by
  obtain ⟨r, hr, hrt, hlt⟩ : TInv hash s g t _ := ht ▸ h.thr t
  obtain ⟨left', ho⟩ := h.own id r hr hlt
  rw [hrt, ht] at ho
  simp only [SPC.work.injEq] at ho
  obtain ⟨e1, -, e2, e3, -, e4, e5⟩ := ho
  exact ⟨r, hr, hrt, e1, e2, e3, e4, e5, hlt⟩

/-- The register of a sender. -/
theorem work_reg {hash : List Byte → Nat} {s : St} {g : G} (h : CInv hash s g) {t : Nat} {m : Msg} {left seq w id : Nat}
    {todo : List Act} {reg : Bool} (ht : s.thr t = .work m left seq w id todo reg) (hc : s.crashed t = false) :
    reg = decide (todo.length ≤ 1) := by
  obtain ⟨r, hr, hrt, -, -, -, e4, e5, hlt⟩ := work_of h ht
  have hd := (h.live hr hlt (by rw [hrt]; exact hc)).1
  have hb := h.base id r hr hd 0 (nodes_pos _)
  rw [Nat.add_zero] at hb
  have := plan_reg (hash := hash) (seq := r.seq) (h.klt hr) (g.bh id) (g.bd id) (clear_eq hb) hlt
  rw [e5]
  unfold memOf
  rw [show planOf hash s.conf.n g id r = plan hash s.conf.n (pos g.rs id) r.seq r.msg from rfl] at hlt e4 ⊢
  rw [this, e4, List.length_drop]
  congr 1
  rw [eq_iff_iff]
  omega

/-- What the first access of the rest is. -/
theorem work_at {hash : List Byte → Nat} {s : St} {g : G} (h : CInv hash s g) {t : Nat} {m : Msg} {left seq w id : Nat}
    {q rest : List Act} {a : Act} {reg : Bool} (ht : s.thr t = .work m left seq w id (q ++ a :: rest) reg) :
    (rest = [] ∧ a = .storeF w) ∨ (rest.length = 1 ∧ a = .loadF w) ∨ (2 ≤ rest.length ∧ plain a = true) := by
  obtain ⟨r, hr, hrt, -, -, e3, e4, e5, hlt⟩ := work_of h ht
  rw [e3]
  refine plan_at (hash := hash) (seq := r.seq) (m := r.msg) (q := (planOf hash s.conf.n g id r).take (g.cnt id) ++ q) ?_
  rw [List.append_assoc, e4, List.take_append_drop]
  rfl

theorem step_frame {hash : List Byte → Nat} {s s1 : St} {e : Conc.Ev} (hs : Conc.step hash s e = some s1) :
    s1.conf = s.conf ∧ (∃ l, s1.fin = s.fin ++ l) ∧ ∃ l, s1.resv = s.resv ++ l := by
  have hnil : ∀ {α : Type} (l : List α), ∃ l', l = l ++ l' := fun l => ⟨[], (List.append_nil l).symm⟩
  cases e with
  | call t m =>
    simp only [Conc.step] at hs
    split at hs
    · simp only [Option.some.injEq] at hs
      subst hs
      obtain ⟨-, -, -, -, a, -, b, -, c⟩ := callSend_frame s t m
      rw [a, b, c]
      exact ⟨rfl, hnil _, hnil _⟩
    · cases hs
  | send t weak =>
    simp only [Conc.step] at hs
    split at hs
    · obtain ⟨-, -, -, -, -, a, -, b, c⟩ := stepSend_frame hs
      exact ⟨a, b, c⟩
    · cases hs
  | crash t =>
    simp only [Conc.step, Option.some.injEq] at hs
    subst hs
    exact ⟨rfl, hnil _, hnil _⟩
  | recv len =>
    simp only [Conc.step] at hs
    split at hs
    · simp only [Option.some.injEq] at hs
      subst hs
      exact ⟨rfl, hnil _, hnil _⟩
    · cases hs
  | rstep now =>
    obtain ⟨-, a, b, -, c, -⟩ := stepRecv_frame hs
    rw [a, b, c]
    exact ⟨rfl, hnil _, hnil _⟩

theorem offset_append {resv l : List Msg} {j : Nat} (h : j ≤ resv.length) : offset (resv ++ l) j = offset resv j := by
  unfold offset; rw [List.take_append_of_le_length h]

/-! ### Nodes that the receiver has passed in a call -/

/-- The node belongs to a message that is finished or whose sender has stopped, and the read cursor has not passed it. -/
def Passed (s : St) (i : Nat) : Prop := ∃ d j m, Front s d ∧ d ≤ j ∧ (j ∈ s.fin ∨ Lost s j) ∧ s.resv[j]? = some m ∧
  Reg s.conf.n (offset s.resv j) (nodes m.length) i

theorem passed_step {hash : List Byte → Nat} {s s1 : St} {g : G} (h : CInv hash s g) {e : Conc.Ev} (hl : Conc.Legal s e)
    (hs : Conc.step hash s e = some s1) (hcur : s1.rcur = s.rcur) {i : Nat} (hp : Passed s i) : Passed s1 i := by
  obtain ⟨d, j, m, hf, hd, hfin, hm, hr⟩ := hp
  obtain ⟨hco, ⟨lf, hlf⟩, lr, hlr⟩ := step_frame hs
  obtain ⟨g1, h1, -, k2⟩ := inv_step h hl hs
  have hj : j < s.resv.length := (List.getElem?_eq_some_iff.1 hm).1
  refine ⟨d, j, m, ?_, hd, ?_, by rw [hlr, List.getElem?_append_left hj]; exact hm, by rw [hco, hlr, offset_append (Nat.le_of_lt hj)]; exact hr⟩
  · by_cases hr : ∃ now, e = .rstep now
    · obtain ⟨now, rfl⟩ := hr
      obtain ⟨-, -, a, -, b, -, -, c, -⟩ := stepRecv_frame (show Conc.stepRecv hash s now = some s1 from hs)
      exact ⟨by rw [a]; exact hf.le, by rw [hcur, a, b]; exact hf.cur, by rw [a, c]; exact hf.lo, by rw [a, b, c]; exact hf.hi⟩
    · have := k2 (fun now he => hr ⟨now, he⟩)
      rw [h.front_eq hf, ← this]
      exact h1.front
  · rcases hfin with a | a
    · left; rw [hlf]; exact List.mem_append_left _ a
    · right
      exact lost_run (es := [e]) h ⟨hl, fun _ _ => trivial⟩ a (by simp only [Conc.run, hs])

theorem lost_of_dead {hash : List Byte → Nat} {s : St} {g : G} (h : CInv hash s g) {q : Nat} {r : Res} (hr : g.rs[q]? = some r)
    (hd : Dead hash s g q r) : Lost s q := by
  refine ⟨fun hf => ?_, r.t, by rw [h.who, List.getElem?_map, hr]; rfl, hd.1⟩
  obtain ⟨r', hr', hfull⟩ := (h.fin q).1 hf
  rw [hr] at hr'
  simp only [Option.some.injEq] at hr'
  subst hr'
  have := hd.2.1
  unfold Full at hfull
  omega

theorem passed_of {hash : List Byte → Nat} {s : St} {g : G} (h : CInv hash s g) {q i : Nat} {r : Res} (hr : g.rs[q]? = some r)
    (hd : g.d ≤ q) (hx : g.x = pos g.rs q + i) (hi : i < nodes r.msg.length) (hq : q ∈ s.fin ∨ Lost s q) : Passed s (g.x % s.conf.n) := by
  refine ⟨g.d, q, r.msg, h.front, hd, hq, by rw [h.resv, List.getElem?_map, hr]; rfl, i, hi, ?_⟩
  rw [hx, h.resv, offset_eq]

theorem clears_passed {hash : List Byte → Nat} {s : St} {g : G} (h : CInv hash s g) {i : Nat} (hi : i ∈ clears s.rpc) : Passed s i := by
  have hr := h.rpc
  cases hp : s.rpc with
  | skip l =>
    rw [hp] at hi hr
    obtain ⟨q, r, k, hat, hk⟩ := hr
    simp only [clears, List.mem_singleton] at hi
    rw [hi, hat.rb]
    exact passed_of h hat.res hat.dq hat.xeq hat.ilt (Or.inr (lost_of_dead h hat.res (hat.inside hk)))
  | skipTO l =>
    rw [hp] at hi hr
    obtain ⟨q, r, l0, hat, hdead, rfl⟩ := hr
    simp only [clears, List.mem_singleton] at hi
    rw [hi, hat.rb]
    exact passed_of h hat.res hat.dq hat.xeq hat.ilt (Or.inr (lost_of_dead h hat.res hdead))
  | skipBad l => rw [hp] at hr; exact hr.elim
  | clrSet l cs re =>
    rw [hp] at hi hr
    obtain ⟨q, r, k, hcl, -, hre, hk⟩ := hr
    simp only [clears, List.mem_singleton] at hi
    rw [hi, hre]
    exact passed_of h hcl.res hcl.dq hcl.xeq hk (Or.inl ((h.fin q).2 ⟨r, hcl.res, hcl.full⟩))
  | _ => rw [hp] at hi; cases hi

/-- A sender that is writing does not touch nodes that the receiver has passed. -/
theorem passed_off {hash : List Byte → Nat} {s : St} {g : G} (h : CInv hash s g) {i : Nat} (hp : Passed s i) {id : Nat} {r : Res}
    (hr : g.rs[id]? = some r) (hlt : g.cnt id < (planOf hash s.conf.n g id r).length) (hc : s.crashed r.t = false) :
    ¬ Reg s.conf.n (pos g.rs id) (nodes r.msg.length) i := by
  obtain ⟨d, j, m, hf, hd, hfin, hm, hreg⟩ := hp
  obtain rfl := h.front_eq hf
  rw [h.resv, List.getElem?_map] at hm
  cases hj : g.rs[j]? with
  | none => rw [hj] at hm; cases hm
  | some rj =>
    rw [hj] at hm
    simp only [Option.map_some, Option.some.injEq] at hm
    rw [← hm, h.resv, offset_eq] at hreg
    refine h.disj hj hr hd (h.live hr hlt hc).1 ?_ hreg
    rintro rfl
    rw [hr] at hj
    simp only [Option.some.injEq] at hj
    subst hj
    rcases hfin with a | a
    · obtain ⟨r', hr', hfull⟩ := (h.fin j).1 a
      rw [hr] at hr'
      simp only [Option.some.injEq] at hr'
      subst hr'
      unfold Full at hfull
      omega
    · obtain ⟨-, t, hw, hcr⟩ := a
      rw [h.who, List.getElem?_map, hr] at hw
      simp only [Option.map_some, Option.some.injEq] at hw
      rw [← hw, hc] at hcr
      cases hcr

end Verif.Mem.Tso
