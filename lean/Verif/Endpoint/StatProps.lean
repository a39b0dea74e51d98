import Verif.Endpoint.Lemmas

/-!
C76: the traffic counters of connections and the totals of endpoints.

The specification keeps the list of what a connection exchanged; it looks at the calls and at the binding of the connection only.
-/
namespace Verif.Endpoint

/-- Size of what was counted. -/
def Traffic.size : Traffic → Nat
  | .start n => n
  | .ok n => n
  | .bad n => n
  | .pull n => n

def Traffic.isStart : Traffic → Bool
  | .start _ => true
  | _ => false
def Traffic.isOk : Traffic → Bool
  | .ok _ => true
  | _ => false
def Traffic.isBad : Traffic → Bool
  | .bad _ => true
  | _ => false
def Traffic.isPull : Traffic → Bool
  | .pull _ => true
  | _ => false

/-- Bytes of the events of one kind. -/
def bytesOf (p : Traffic → Bool) (l : List Traffic) : Nat := ((l.filter p).map Traffic.size).sum

/-- The eight counters are those of the events in the list. -/
structure Exact (s : Stat) (l : List Traffic) : Prop where
  startN : s.startN = l.countP Traffic.isStart
  startB : s.startB = bytesOf Traffic.isStart l
  okN : s.okN = l.countP Traffic.isOk
  okB : s.okB = bytesOf Traffic.isOk l
  badN : s.badN = l.countP Traffic.isBad
  badB : s.badB = bytesOf Traffic.isBad l
  pullN : s.pullN = l.countP Traffic.isPull
  pullB : s.pullB = bytesOf Traffic.isPull l

/-- The call resets the connection itself, or takes it from its endpoint. -/
def ended (c : Nat) (s s' : S) (o : Op) : Bool :=
  (match o with
    | .resetConn x => x == c
    | _ => false) || ((s.conn c).binding.isSome && (s'.conn c).binding.isNone)

/-- What the call exchanges over the connection. -/
def news (c : Nat) : Op → List Traffic
  | .traffic x t => if x = c then [t] else []
  | _ => []

/-- What connection `c` exchanged since it was last reset or taken from its endpoint; `l` was exchanged before the history. -/
def exchanged (d c : Nat) : S → List Op → List Traffic → List Traffic
  | _, [], l => l
  | s, o :: os, l =>
    match step quiet d s o with
    | none => l
    | some s' => exchanged d c s' os (if ended c s s' o then [] else l ++ news c o)

theorem exact_nil : Exact {} [] := by constructor <;> rfl

theorem exact_add {s : Stat} {l : List Traffic} (h : Exact s l) (t : Traffic) : Exact (s.add t) (l ++ [t]) := by
  have hb : ∀ p : Traffic → Bool, bytesOf p (l ++ [t]) = bytesOf p l + if p t then t.size else 0 := by
    intro p
    unfold bytesOf
    rw [List.filter_append, List.map_append, List.sum_append]
    by_cases hp : p t = true <;> simp [hp]
  have hc : ∀ p : Traffic → Bool, (l ++ [t]).countP p = l.countP p + if p t then 1 else 0 := by
    intro p; rw [List.countP_append]; by_cases hp : p t = true <;> simp [hp]
  obtain ⟨h1, h2, h3, h4, h5, h6, h7, h8⟩ := h
  constructor <;> simp only [hb, hc] <;> cases t <;>
    simp only [Stat.add, Traffic.isStart, Traffic.isOk, Traffic.isBad, Traffic.isPull, Traffic.size, if_true, Bool.false_eq_true, if_false,
      Nat.add_zero] <;> omega

/-- What a call does to the counters of a connection. -/
theorem step_stat {s s' : S} (h : Inv s) (d : Nat) (o : Op) (hs : step quiet (d + 3) s o = some s') (c : Nat) :
    (s'.conn c).stat = if ended c s s' o then {} else (news c o).foldl Stat.add (s.conn c).stat := by
  have hreset : ∀ e, (((afterReset s e).conn c).stat = if (s.conn c).binding = some e then {} else (s.conn c).stat) ∧
      (((afterReset s e).conn c).binding = if (s.conn c).binding = some e then none else (s.conn c).binding) := by
    intro e
    have hcb : (afterReset s e).conn c =
        if (s.ep e).ctrl = some c ∨ c ∈ (s.ep e).data then closed (s.conn c) else s.conn c := by
      simp [afterReset, h.connQuiet]
    have hl : ((s.ep e).ctrl = some c ∨ c ∈ (s.ep e).data) ↔ (s.conn c).binding = some e := (h.bound c e).symm
    rw [hcb]
    by_cases hx : (s.conn c).binding = some e
    · rw [if_pos (hl.mpr hx), if_pos hx, if_pos hx]; exact ⟨rfl, rfl⟩
    · rw [if_neg (fun q => hx (hl.mp q)), if_neg hx, if_neg hx]; exact ⟨rfl, rfl⟩
  have hsame : ∀ {t : S}, (t.conn c).stat = (s.conn c).stat → (t.conn c).binding = (s.conn c).binding →
      (t.conn c).stat = if ((s.conn c).binding.isSome && (t.conn c).binding.isNone) = true then {} else (s.conn c).stat := by
    intro t h1 h2
    rw [h1, h2]; cases (s.conn c).binding <;> rfl
  have hr : ∀ e, ((afterReset s e).conn c).stat =
      if ((s.conn c).binding.isSome && ((afterReset s e).conn c).binding.isNone) = true then {} else (s.conn c).stat := by
    intro e
    obtain ⟨h1, h2⟩ := hreset e
    by_cases hx : (s.conn c).binding = some e
    · rw [if_pos hx] at h1 h2; rw [h1, h2, hx]; rfl
    · rw [if_neg hx] at h1 h2; exact hsame h1 h2
  cases o with
  | add e x f =>
    simp only [step, Option.some.injEq] at hs
    subst hs
    simp only [ended, news, List.foldl_nil, Bool.false_or]
    unfold addConnection
    split
    · exact hsame rfl rfl
    · split
      · exact hsame rfl rfl
      · split
        · exact hsame rfl rfl
        · simp only [setConn_conn, setEp_conn]
          by_cases hc : c = x
          · subst hc
            simp only [if_true]
            split <;> simp
          · simp only [if_neg hc]
            cases (s.conn c).binding <;> rfl
  | resetConn x =>
    simp only [step] at hs
    rw [connReset_ok h d x, Option.some.injEq] at hs
    subst hs
    simp only [ended, news, List.foldl_nil]
    by_cases hc : x = c
    · subst hc
      simp only [beq_self_eq_true, Bool.true_or, if_true]
      unfold afterConn
      split
      · simp [closed]
      · rename_i e hb
        split
        · rw [(hreset e).1, if_pos hb]
        · simp [closed]
    · have hx : (x == c) = false := by simpa using hc
      simp only [hx, Bool.false_or]
      unfold afterConn
      split
      · refine hsame ?_ ?_ <;> simp [Ne.symm hc]
      · rename_i e hb
        split
        · exact hr e
        · refine hsame ?_ ?_ <;> simp [Ne.symm hc]
  | resetEp e =>
    obtain ⟨t, h1, -, h3⟩ := epReset_inv h (d + 1) e
    simp only [step] at hs
    rw [h1, Option.some.injEq] at hs
    subst hs
    subst h3
    simp only [ended, news, List.foldl_nil, Bool.false_or]
    exact hr e
  | openConn x w a b =>
    simp only [step] at hs
    simp only [ended, news, List.foldl_nil, Bool.false_or]
    split at hs <;> rw [Option.some.injEq] at hs <;> subst hs
    · refine hsame ?_ ?_ <;> simp only [setConn_conn] <;> split <;> first | rfl | (rename_i hc; rw [hc])
    · exact hsame rfl rfl
  | established x =>
    simp only [step] at hs
    simp only [ended, news, List.foldl_nil, Bool.false_or]
    split at hs <;> rw [Option.some.injEq] at hs <;> subst hs
    · refine hsame ?_ ?_ <;> simp only [setConn_conn] <;> split <;> first | rfl | (rename_i hc; rw [hc])
    · exact hsame rfl rfl
  | select me e =>
    simp only [step, Option.some.injEq] at hs
    subst hs
    simp only [ended, news, List.foldl_nil, Bool.false_or]
    rcases dataConnection_state me e true s with hh | hh <;> rw [hh] <;> exact hsame rfl rfl
  | traffic x t =>
    simp only [step, Option.some.injEq] at hs
    subst hs
    simp only [ended, Bool.false_or]
    have hb : ((s.setConn x { s.conn x with stat := (s.conn x).stat.add t }).conn c).binding = (s.conn c).binding := by
      simp only [setConn_conn]; split
      · rename_i hc; rw [hc]
      · rfl
    rw [hb]
    have hn : ((s.conn c).binding.isSome && (s.conn c).binding.isNone) = false := by cases (s.conn c).binding <;> rfl
    rw [hn]
    simp only [Bool.false_eq_true, if_false, setConn_conn, news]
    by_cases hc : x = c
    · subst hc; simp
    · simp [hc, Ne.symm hc]

theorem run_stat (d c : Nat) (ops : List Op) : ∀ s l s', Inv s → Exact (s.conn c).stat l → run quiet (d + 3) s ops = some s' →
    Exact (s'.conn c).stat (exchanged (d + 3) c s ops l) := by
  induction ops with
  | nil => intro s l s' _ hx hr; cases hr; exact hx
  | cons o os ih =>
    intro s l s' h hx hr
    obtain ⟨t, h1, h2⟩ := step_inv h d o
    simp only [run, h1] at hr
    simp only [exchanged, h1]
    refine ih t _ s' h2 ?_ hr
    rw [step_stat h d o h1 c]
    split
    · exact exact_nil
    · unfold news
      split
      · split
        · exact exact_add hx _
        · simpa using hx
      · simpa using hx

/-- C76 for connections, for callbacks that do not re-enter (`quiet`, as in C46): after every history all eight counters of a connection
are exactly those of what it exchanged since it was last reset or taken from its endpoint. -/
theorem C76_connection_partial (host : Nat → Nat) (pid : Nat → Int) (d c : Nat) (ops : List Op) (s : S)
    (hrun : run quiet (d + 3) (initial host pid) ops = some s) :
    Exact (s.conn c).stat (exchanged (d + 3) c (initial host pid) ops []) :=
  run_stat d c ops _ [] s (initial_inv host pid) exact_nil hrun

theorem total_sum (f : Stat → Nat) (e : Nat) (s : S) :
    total f e s = (((s.ep e).ctrl.toList ++ (s.ep e).data).map fun c => f (s.conn c).stat).sum := by
  have hf : ∀ (l : List Nat) (n : Nat), l.foldl (fun n c => n + f (s.conn c).stat) n = n + (l.map fun c => f (s.conn c).stat).sum := by
    intro l
    induction l with
    | nil => intro n; rfl
    | cons x l ih => intro n; rw [List.foldl_cons, ih, List.map_cons, List.sum_cons]; omega
  unfold total
  rw [hf]
  cases (s.ep e).ctrl with
  | none => simp
  | some c => simp only [Option.toList_some, List.singleton_append, List.map_cons, List.sum_cons]; omega

/-- C76 for endpoints: after every such history, every statistic of an endpoint is the sum of that counter over the connections bound to the
endpoint, each counted once; `L` lists them in any order. -/
theorem C76_endpoint_partial (host : Nat → Nat) (pid : Nat → Int) (d e : Nat) (ops : List Op) (s : S)
    (hrun : run quiet (d + 3) (initial host pid) ops = some s) :
    ∃ L : List Nat, L.Nodup ∧ (∀ c, c ∈ L ↔ (s.conn c).binding = some e) ∧
      ∀ L' : List Nat, L'.Nodup → (∀ c, c ∈ L' ↔ (s.conn c).binding = some e) →
        ∀ f : Stat → Nat, total f e s = (L'.map fun c => f (s.conn c).stat).sum := by
  obtain ⟨t, h1, h⟩ := run_inv d ops _ (initial_inv host pid)
  rw [hrun] at h1; cases h1
  have hm : ∀ c, c ∈ (s.ep e).ctrl.toList ++ (s.ep e).data ↔ (s.conn c).binding = some e := by
    intro c
    rw [h.bound c e, List.mem_append, Option.mem_toList]; rfl
  have hnd : ((s.ep e).ctrl.toList ++ (s.ep e).data).Nodup := by
    rw [List.nodup_append]
    refine ⟨by cases (s.ep e).ctrl <;> simp, h.nodup e, ?_⟩
    intro a ha b hb hab
    subst hab
    exact h.apart e a (by simpa using ha) hb
  refine ⟨_, hnd, hm, ?_⟩
  intro L' hn hL f
  rw [total_sum]
  have hp : ((s.ep e).ctrl.toList ++ (s.ep e).data).Perm L' := by
    rw [List.perm_iff_count]
    intro c
    rw [hnd.count, hn.count]
    by_cases hc : (s.conn c).binding = some e
    · rw [if_pos ((hm c).mpr hc), if_pos ((hL c).mpr hc)]
    · rw [if_neg (fun q => hc ((hm c).mp q)), if_neg (fun q => hc ((hL c).mp q))]
  exact (hp.map _).sum_nat

/-- A statistic that an event does not decrease. -/
def Grows (f : Stat → Nat) : Prop := ∀ s t, f s ≤ f (s.add t)

/-- All eight are such. -/
theorem grows_all : Grows Stat.startN ∧ Grows Stat.startB ∧ Grows Stat.okN ∧ Grows Stat.okB ∧ Grows Stat.badN ∧ Grows Stat.badB ∧
    Grows Stat.pullN ∧ Grows Stat.pullB := by
  refine ⟨?_, ?_, ?_, ?_, ?_, ?_, ?_, ?_⟩ <;> intro s t <;> cases t <;> simp [Stat.add]

/-- The call is a reset. -/
def Op.isReset : Op → Bool
  | .resetConn _ => true
  | .resetEp _ => true
  | _ => false

theorem sum_le {l l' : List Nat} {f g : Nat → Nat} (hfg : ∀ c ∈ l, f c ≤ g c) {r : List Nat} (hp : l'.Perm (l ++ r)) :
    (l.map f).sum ≤ (l'.map g).sum := by
  have h1 : (l'.map g).sum = ((l ++ r).map g).sum := (hp.map g).sum_nat
  rw [h1, List.map_append, List.sum_append]
  have h2 : (l.map f).sum ≤ (l.map g).sum := by
    clear hp h1
    induction l with
    | nil => exact Nat.le_refl _
    | cons x l ih =>
      simp only [List.map_cons, List.sum_cons]
      have h3 := hfg x (List.mem_cons_self ..)
      have h4 := ih fun c hc => hfg c (List.mem_cons_of_mem _ hc)
      omega
  omega

/-- A call that is not a reset takes no connection from an endpoint. -/
theorem step_keeps {s s' : S} (h : Inv s) (d : Nat) (o : Op) (hn : o.isReset = false) (hs : step quiet (d + 3) s o = some s') (c e : Nat)
    (hb : (s.conn c).binding = some e) : (s'.conn c).binding = some e := by
  cases o with
  | resetConn x => cases hn
  | resetEp x => cases hn
  | add e' x f =>
    simp only [step, Option.some.injEq] at hs
    subst hs
    unfold addConnection
    split
    · exact hb
    · split
      · exact hb
      · split
        · exact hb
        · rename_i h1
          simp only [setConn_conn, setEp_conn]
          by_cases hc : c = x
          · subst hc; exact absurd (by rw [hb]; simp) h1
          · rw [if_neg hc]; exact hb
  | openConn x w a b =>
    simp only [step] at hs
    split at hs <;> rw [Option.some.injEq] at hs <;> subst hs
    · simp only [setConn_conn]; split
      · rename_i hc; rw [← hc]; exact hb
      · exact hb
    · exact hb
  | established x =>
    simp only [step] at hs
    split at hs <;> rw [Option.some.injEq] at hs <;> subst hs
    · simp only [setConn_conn]; split
      · rename_i hc; rw [← hc]; exact hb
      · exact hb
    · exact hb
  | select me e' =>
    simp only [step, Option.some.injEq] at hs
    subst hs
    rcases dataConnection_state me e' true s with hh | hh <;> rw [hh] <;> exact hb
  | traffic x t =>
    simp only [step, Option.some.injEq] at hs
    subst hs
    simp only [setConn_conn]; split
    · rename_i hc; rw [← hc]; exact hb
    · exact hb

/-- C76: no call but a reset decreases a statistic of an endpoint. -/
theorem C76_grows_partial (host : Nat → Nat) (pid : Nat → Int) (d e : Nat) (ops : List Op) (o : Op) (s s' : S)
    (hrun : run quiet (d + 3) (initial host pid) ops = some s) (hs : step quiet (d + 3) s o = some s') (hn : o.isReset = false)
    (f : Stat → Nat) (hf : Grows f) : total f e s ≤ total f e s' := by
  obtain ⟨t, h1, h⟩ := run_inv d ops _ (initial_inv host pid)
  rw [hrun] at h1; cases h1
  obtain ⟨t, h2, h'⟩ := step_inv h d o
  rw [hs] at h2; cases h2
  have hm : ∀ {s : S}, Inv s → ∀ c, c ∈ (s.ep e).ctrl.toList ++ (s.ep e).data ↔ (s.conn c).binding = some e := by
    intro s h c
    rw [h.bound c e, List.mem_append, Option.mem_toList]; rfl
  have hnd : ∀ {s : S}, Inv s → ((s.ep e).ctrl.toList ++ (s.ep e).data).Nodup := by
    intro s h
    rw [List.nodup_append]
    refine ⟨by cases (s.ep e).ctrl <;> simp, h.nodup e, ?_⟩
    intro a ha b hb hab
    subst hab
    exact h.apart e a (by simpa using ha) hb
  rw [total_sum, total_sum]
  refine sum_le (r := ((s'.ep e).ctrl.toList ++ (s'.ep e).data).filter fun c => !decide ((s.conn c).binding = some e)) ?_ ?_
  · intro c hc
    rw [step_stat h d o hs c]
    have hb := (hm h c).mp hc
    have hb' := step_keeps h d o hn hs c e hb
    have he : ended c s s' o = false := by
      unfold ended
      rw [hb, hb']
      cases o <;> first | rfl | cases hn
    rw [he]
    simp only [Bool.false_eq_true, if_false]
    unfold news
    split
    · split
      · exact hf _ _
      · exact Nat.le_refl _
    · exact Nat.le_refl _
  · rw [List.perm_iff_count]
    intro c
    rw [List.count_append (l₁ := (s.ep e).ctrl.toList ++ (s.ep e).data), (hnd h').count, (hnd h).count, List.Nodup.count (List.Pairwise.filter _ (hnd h'))]
    by_cases hb : (s.conn c).binding = some e
    · have hb' := step_keeps h d o hn hs c e hb
      rw [if_pos ((hm h' c).mpr hb'), if_pos ((hm h c).mpr hb), if_neg]
      rw [List.mem_filter]
      simp [hb]
    · rw [if_neg (fun q => hb ((hm h c).mp q))]
      by_cases hb' : (s'.conn c).binding = some e
      · rw [if_pos ((hm h' c).mpr hb'), if_pos]
        rw [List.mem_filter]
        exact ⟨(hm h' c).mpr hb', by simp [hb]⟩
      · rw [if_neg (fun q => hb' ((hm h' c).mp q)), if_neg]
        rw [List.mem_filter]
        exact fun q => hb' ((hm h' c).mp q.1)

/-- An endpoint with a control and two data connections; messages arrive on all. -/
def statOps : List Op := [.openConn 0 false false false, .traffic 0 (.pull 60), .traffic 0 (.start 70), .traffic 0 (.ok 70),
  .openConn 1 false false true, .openConn 2 false false false, .add 5 0 false, .add 5 1 true, .add 5 2 true,
  .traffic 1 (.pull 100), .traffic 2 (.pull 8), .traffic 1 (.pull 1), .traffic 2 (.start 9), .traffic 2 (.bad 9), .select 7 5]

example : (run quiet 3 (initial (fun _ => 0) fun _ => 0) statOps).map (fun s => [total Stat.pullN 5 s, total Stat.pullB 5 s,
    total Stat.startN 5 s, total Stat.startB 5 s, total Stat.okB 5 s, total Stat.badB 5 s, total Stat.pullN 6 s]) =
    some [4, 169, 2, 79, 70, 9, 0] := by decide +kernel

example : exchanged 3 1 (initial (fun _ => 0) fun _ => 0) statOps [] = [.pull 100, .pull 1] := by decide +kernel

example : exchanged 3 1 (initial (fun _ => 0) fun _ => 0) (statOps ++ [.resetConn 0, .traffic 1 (.pull 7)]) [] = [.pull 7] := by
  decide +kernel

/-- C76 fails for what an endpoint exchanged since it was added: losing one data connection takes its share from the totals, although the
endpoint keeps its other connections. -/
theorem C76_loss_false : ∃ (ops : List Op) (s s' : S), run quiet 3 (initial (fun _ => 0) fun _ => 0) ops = some s ∧
    step quiet 3 s (.resetConn 1) = some s' ∧ (s'.conn 0).binding = some 5 ∧ (s'.conn 2).binding = some 5 ∧
    total Stat.pullN 5 s = 4 ∧ total Stat.pullN 5 s' = 2 ∧ total Stat.pullB 5 s = 169 ∧ total Stat.pullB 5 s' = 68 := by
  have h : (run quiet 3 (initial (fun _ => 0) fun _ => 0) statOps).map (fun s => ([total Stat.pullN 5 s, total Stat.pullB 5 s],
      (step quiet 3 s (.resetConn 1)).map fun s' =>
        ([(s'.conn 0).binding, (s'.conn 2).binding], [total Stat.pullN 5 s', total Stat.pullB 5 s']))) =
      some ([4, 169], some ([some 5, some 5], [2, 68])) := by decide +kernel
  match hr : run quiet 3 (initial (fun _ => 0) fun _ => 0) statOps with
  | none => rw [hr] at h; cases h
  | some s =>
    rw [hr] at h
    match hs : step quiet 3 s (.resetConn 1) with
    | none => simp [hs] at h
    | some s' =>
      simp only [Option.map_some, hs, Option.some.injEq, Prod.mk.injEq, List.cons.injEq, and_true] at h
      obtain ⟨⟨h1, h2⟩, ⟨h3, h4⟩, h5, h6⟩ := h
      exact ⟨statOps, s, s', hr, hs, h3, h4, h1, h5, h2, h6⟩

end Verif.Endpoint
