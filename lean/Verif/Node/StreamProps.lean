import Verif.Node.Stream
import Verif.IoStream.Goodbye
import Verif.Node.SizesProps

/-!
C87: messages pushed into a stream connection arrive at the other node.
-/
namespace Verif.Node.Stream

open Verif.IoStream

/-! ### Specification -/

/-- No request to write is refused in the event. -/
def Ev.writes : Ev → Prop
  | .push _ ev => ev.uvOk = true
  | .written ev => ev.uvOk = true
  | _ => True

/-- The message pushed, if any, is within the limits of the receiving stream. -/
def Ev.fits (cf : Conf) : Ev → Prop
  | .push m _ => Fits cf.recv m
  | _ => True

/-- No more than `tol` handlers in a row fail, counted from `f`, and nothing resets the connection. -/
def calm (tol : Nat) : Nat → List Out → Prop
  | _, [] => True
  | f, .garbage :: os => calm tol f os
  | _, .handled true false :: os => calm tol 0 os
  | f, .handled false false :: os => f + 1 ≤ tol ∧ calm tol (f + 1) os
  | _, .handled _ true :: _ => False

/-- Nothing happens in the event that makes the receiving end give up. -/
def Calm (cf : Conf) (s : S) : Ev → Prop
  | .read _ os => calm cf.tol s.fault os
  | .again => s.r.again + 1 ≤ cf.recv.maxAgain
  | .fail _ => False
  | .gone => False
  | _ => True

/-- This holds for every event of a run. -/
def Calms (cf : Conf) (s : S) : List Ev → Prop
  | [] => True
  | e :: es => Calm cf s e ∧ ∀ s', step cf s e = some s' → Calms cf s' es

/-- An event that moves bytes: a write ends, or something is read. -/
def Ev.moves : Ev → Prop
  | .written _ => True
  | .read _ _ => True
  | _ => False

/-- What is left to do: blocks queued, and bytes that were queued or written but not yet read. -/
def todo (s : S) : Nat :=
  s.c.q.length + ((s.c.wire.length + (if s.c.writing then s.c.q.tail else s.c.q).flatten.length) - s.taken)

/-! ### Lemmas about histories -/

/-- The result of a send, for the record. -/
def outcome : SEv → Option Int → List (List Byte × Int)
  | .send m _, some x => [(m, x)]
  | _, _ => []

theorem srun_snoc (limit : Nat) (h : Hash) (e : SEv) (c2 : SConn) (r : Option Int) (cb2 : List Cb) : ∀ (es : List SEv) (c c1 : SConn)
    (rs : List (List Byte × Int)) (cbs : List Cb), srun limit h c es = some (c1, rs, cbs) → sstep limit h c1 e = some (c2, r, cb2) →
    srun limit h c (es ++ [e]) = some (c2, rs ++ outcome e r, cbs ++ cb2) := by
  intro es
  induction es with
  | nil =>
    intro c c1 rs cbs hr hs
    simp only [srun, Option.some.injEq, Prod.mk.injEq] at hr
    obtain ⟨rfl, rfl, rfl⟩ := hr
    simp only [List.nil_append, srun, Option.bind_eq_bind, hs, Option.bind_some]
    cases e <;> cases r <;> simp [outcome]
  | cons a es ih =>
    intro c c1 rs cbs hr hs
    simp only [srun, Option.bind_eq_bind] at hr
    cases ha : sstep limit h c a with
    | none => rw [ha] at hr; cases hr
    | some x =>
      obtain ⟨c3, r3, cb3⟩ := x
      rw [ha] at hr
      simp only [Option.bind_some] at hr
      cases hb : srun limit h c3 es with
      | none => rw [hb] at hr; cases hr
      | some y =>
        obtain ⟨c4, rs4, cb4⟩ := y
        rw [hb] at hr
        simp only [Option.bind_some, Option.some.injEq, Prod.mk.injEq] at hr
        obtain ⟨rfl, rfl, rfl⟩ := hr
        have := ih c3 c4 rs4 cb4 hb hs
        simp only [List.cons_append, srun, Option.bind_eq_bind, ha, Option.bind_some, this]
        cases a <;> cases r3 <;> simp

theorem slegal_snoc (limit : Nat) (h : Hash) (e : SEv) : ∀ (es : List SEv) (c c1 : SConn)
    (rs : List (List Byte × Int)) (cbs : List Cb), srun limit h c es = some (c1, rs, cbs) → SLegal limit h c es →
    SLegal limit h c1 [e] → SLegal limit h c (es ++ [e]) := by
  intro es
  induction es with
  | nil =>
    intro c c1 rs cbs hr _ h2
    simp only [srun, Option.some.injEq, Prod.mk.injEq] at hr
    obtain ⟨rfl, rfl, rfl⟩ := hr
    exact h2
  | cons a es ih =>
    intro c c1 rs cbs hr h1 h2
    refine ⟨h1.1, fun r hs => ?_⟩
    simp only [srun, Option.bind_eq_bind, hs, Option.bind_some] at hr
    cases hb : srun limit h r.1 es with
    | none => rw [hb] at hr; cases hr
    | some y =>
      obtain ⟨c4, rs4, cb4⟩ := y
      rw [hb] at hr
      simp only [Option.bind_some, Option.some.injEq, Prod.mk.injEq] at hr
      obtain ⟨rfl, -, -⟩ := hr
      exact ih r.1 c4 rs4 cb4 hb (h1.2 _ hs) h2

theorem rrun_append (cf : RConf) (h : Hash) (e : REv) : ∀ (es : List REv) (st st1 : RConn) (cbs : List Cb),
    rrun cf h st es = some (st1, cbs) →
    rrun cf h st (es ++ [e]) = (rstep cf h st1 e).map fun r => (r.1, cbs ++ r.2) := by
  intro es
  induction es with
  | nil =>
    intro st st1 cbs hr
    simp only [rrun, Option.some.injEq, Prod.mk.injEq] at hr
    obtain ⟨rfl, rfl⟩ := hr
    simp only [List.nil_append, rrun, Option.bind_eq_bind, Option.bind_some, List.append_nil]
    cases rstep cf h st e <;> rfl
  | cons a es ih =>
    intro st st1 cbs hr
    simp only [rrun, Option.bind_eq_bind] at hr
    cases ha : rstep cf h st a with
    | none => rw [ha] at hr; cases hr
    | some x =>
      rw [ha] at hr
      simp only [Option.bind_some] at hr
      cases hb : rrun cf h x.1 es with
      | none => rw [hb] at hr; cases hr
      | some y =>
        rw [hb] at hr
        simp only [Option.bind_some, Option.some.injEq, Prod.mk.injEq] at hr
        obtain ⟨rfl, rfl⟩ := hr
        simp only [List.cons_append, rrun, Option.bind_eq_bind, ha, Option.bind_some, ih x.1 y.1 y.2 hb]
        cases rstep cf h y.1 e <;> simp

theorem legal_snoc (cf : RConf) (h : Hash) (e : REv) : ∀ (es : List REv) (st st1 : RConn) (cbs : List Cb),
    rrun cf h st es = some (st1, cbs) → Legal cf h st es → Legal cf h st1 [e] → Legal cf h st (es ++ [e]) := by
  intro es
  induction es with
  | nil =>
    intro st st1 cbs hr _ h2
    simp only [rrun, Option.some.injEq, Prod.mk.injEq] at hr
    obtain ⟨rfl, rfl⟩ := hr
    exact h2
  | cons a es ih =>
    intro st st1 cbs hr h1 h2
    refine ⟨h1.1, fun r hs => ?_⟩
    simp only [rrun, Option.bind_eq_bind, hs, Option.bind_some] at hr
    cases hb : rrun cf h r.1 es with
    | none => rw [hb] at hr; cases hr
    | some y =>
      rw [hb] at hr
      simp only [Option.bind_some, Option.some.injEq, Prod.mk.injEq] at hr
      obtain ⟨rfl, -⟩ := hr
      exact ih r.1 y.1 y.2 hb (h1.2 _ hs) h2

theorem received_snoc (e : REv) : ∀ es : List REv, received (es ++ [e]) = received es ++ received [e] := by
  intro es
  induction es with
  | nil => rfl
  | cons a es ih => cases a <;> simp [received, ih]

theorem agains_snoc (e : REv) : ∀ es : List REv, agains (es ++ [e]) = agains es + agains [e] := by
  intro es
  induction es with
  | nil => simp [agains]
  | cons a es ih => cases a <;> simp [agains, ih]; omega

theorem headLoop_again (cf : RConf) (h : Hash) : ∀ (fuel : Nat) (st st' : RConn) (left left' : List Byte) (free free' : Bool) (cbs : List Cb),
    headLoop cf h fuel st left free = some (st', cbs, free', left') → st'.again = st.again ∧ st'.closed = st.closed := by
  intro fuel
  induction fuel with
  | zero => intro st st' left left' free free' cbs he; cases he
  | succ fuel ih =>
    intro st st' left left' free free' cbs he
    unfold headLoop at he
    split at he
    · simp only [Option.some.injEq, Prod.mk.injEq] at he
      obtain ⟨rfl, -⟩ := he
      exact ⟨rfl, rfl⟩
    · generalize Vint.readVint (left.drop 4) = vl at he
      obtain ⟨v, l⟩ := vl
      simp only at he
      split at he
      · simp only [Option.some.injEq, Prod.mk.injEq] at he
        obtain ⟨rfl, -⟩ := he
        exact ⟨rfl, rfl⟩
      · split at he
        · cases he
        · split at he
          · split at he
            · rename_i expect payload _ _
              cases hj : judge cf h st expect payload with
              | mk st1 x =>
                obtain ⟨code, f⟩ := x
                rw [hj] at he
                simp only at he
                have hj' : st1.again = st.again ∧ st1.closed = st.closed := by
                  unfold judge at hj
                  split at hj
                  · cases hj; exact ⟨rfl, rfl⟩
                  · split at hj
                    · cases hj; exact ⟨rfl, rfl⟩
                    · cases hj; exact ⟨rfl, rfl⟩
                cases hr : headLoop cf h fuel st1 (left.drop (4 + l + v)) (free || f) with
                | none => rw [hr] at he; cases he
                | some y =>
                  obtain ⟨st2, cbs2, fr2, left2⟩ := y
                  rw [hr] at he
                  simp only [Option.some.injEq, Prod.mk.injEq] at he
                  obtain ⟨rfl, -⟩ := he
                  have := ih _ _ _ _ _ _ _ hr
                  exact ⟨this.1.trans hj'.1, this.2.trans hj'.2⟩
            · cases he
          · split at he
            · split at he
              · split at he
                · simp only [Option.some.injEq, Prod.mk.injEq] at he
                  obtain ⟨rfl, -⟩ := he
                  exact ⟨rfl, rfl⟩
                · cases he
              · cases he
            · simp only [Option.some.injEq, Prod.mk.injEq] at he
              obtain ⟨rfl, -⟩ := he
              exact ⟨rfl, rfl⟩

theorem deliver_again (cf : RConf) (h : Hash) (st st' : RConn) (cbs : List Cb) (f : Bool)
    (he : deliverBlock cf h st = some (st', cbs, f)) : st'.again = st.again := by
  unfold deliverBlock at he
  split at he
  · simp only [Option.some.injEq, Prod.mk.injEq] at he
    obtain ⟨rfl, -⟩ := he
    rfl
  · split at he
    · split at he
      · rename_i expect payload _ _
        cases hj : judge cf h st expect payload with
        | mk st1 x =>
          obtain ⟨code, f⟩ := x
          rw [hj] at he
          simp only [Option.some.injEq, Prod.mk.injEq] at he
          obtain ⟨rfl, -⟩ := he
          unfold judge at hj
          split at hj
          · cases hj; rfl
          · split at hj
            · cases hj; rfl
            · cases hj; rfl
      · cases he
    · simp only [Option.some.injEq, Prod.mk.injEq] at he
      obtain ⟨rfl, -⟩ := he
      rfl

theorem onData_again (cf : RConf) (h : Hash) (st st' : RConn) (c : List Byte) (cbs : List Cb)
    (he : onData cf h st c = some (st', cbs)) : st'.again = st.again := by
  unfold onData at he
  simp only at he
  generalize hr1 : (if st.headPhase = true then
      match headLoop cf h (st.head.length + c.length + 1) st (st.head ++ c) false with
      | none => none
      | some (st', cbs, free, left) => some ({ st' with head := left }, cbs, free)
    else
      match st.bufs.getLast? with
      | none => none
      | some b =>
        if b.1.length + c.length ≤ b.2 then
          some ({ st with bufs := st.bufs.dropLast ++ [(b.1 ++ c, b.2)] }, [], false)
        else none : Option (RConn × List Cb × Bool)) = r1 at he
  cases r1 with
  | none => cases he
  | some x =>
    obtain ⟨st1, cb1, fr1⟩ := x
    have h1 : st1.again = st.again := by
      split at hr1
      · cases hl : headLoop cf h (st.head.length + c.length + 1) st (st.head ++ c) false with
        | none => rw [hl] at hr1; cases hr1
        | some y =>
          obtain ⟨st2, cb2, fr2, left2⟩ := y
          rw [hl] at hr1
          simp only [Option.some.injEq, Prod.mk.injEq] at hr1
          obtain ⟨rfl, -⟩ := hr1
          exact (headLoop_again cf h _ _ _ _ _ _ _ _ hl).1
      · split at hr1
        · cases hr1
        · split at hr1
          · simp only [Option.some.injEq, Prod.mk.injEq] at hr1
            obtain ⟨rfl, -⟩ := hr1
            rfl
          · cases hr1
    simp only at he
    cases hd : deliverBlock cf h st1 with
    | none => rw [hd] at he; cases he
    | some y =>
      obtain ⟨st2, cb2, fr2⟩ := y
      rw [hd] at he
      have h2 := deliver_again cf h _ _ _ _ hd
      simp only at he
      split at he
      · simp only [Option.some.injEq, Prod.mk.injEq] at he
        obtain ⟨rfl, -⟩ := he
        exact h2.trans h1
      · simp only [Option.some.injEq, Prod.mk.injEq] at he
        obtain ⟨rfl, -⟩ := he
        exact h2.trans h1

/-! ### The callbacks of one read -/

/-- What the callbacks leave alone. -/
def Same (s s' : S) : Prop := s'.c = s.c ∧ s'.open_ = s.open_ ∧ s'.r = s.r ∧ s'.taken = s.taken ∧ s'.sent = s.sent ∧ s'.queue = s.queue

theorem addFault_same (cf : Conf) (s : S) : Same s (addFault cf s) ∧ (addFault cf s).got = s.got := by
  unfold addFault S.drop Same
  split <;> simp

theorem onCb_same (cf : Conf) (s : S) (cb : Cb) (o : Out) : Same s (onCb cf s cb o) := by
  unfold onCb
  split
  · simp [Same]
  · split
    · rcases o with _ | ⟨ok, kill⟩
      · exact (addFault_same cf s).1
      · cases kill
        · exact (addFault_same cf s).1
        · simp [Same, S.drop]
    · rcases o with _ | ⟨ok, kill⟩
      · simp [Same]
      · cases kill
        · cases ok
          · exact (addFault_same cf { s with got := s.got ++ [cb.data] }).1
          · simp [Same]
        · simp [Same, S.drop]

theorem onCbs_same (cf : Conf) : ∀ (cbs : List Cb) (os : List Out) (s : S), Same s (onCbs cf s cbs os) := by
  intro cbs
  induction cbs with
  | nil => intro os s; simp [Same, onCbs]
  | cons cb cbs ih =>
    intro os s
    obtain ⟨a1, a2, a3, a4, a5, a6⟩ := onCb_same cf s cb (os.headD (.handled true false))
    obtain ⟨b1, b2, b3, b4, b5, b6⟩ := ih os.tail (onCb cf s cb (os.headD (.handled true false)))
    exact ⟨b1.trans a1, b2.trans a2, b3.trans a3, b4.trans a4, b5.trans a5, b6.trans a6⟩

/-- A connection that is gone gets nothing. -/
theorem onCbs_down (cf : Conf) : ∀ (cbs : List Cb) (os : List Out) (s : S), s.up = false → onCbs cf s cbs os = s := by
  intro cbs
  induction cbs with
  | nil => intro os s _; rfl
  | cons cb cbs ih =>
    intro os s hu
    have : onCb cf s cb (os.headD (.handled true false)) = s := by
      unfold onCb; rw [hu]; rfl
    unfold onCbs
    rw [this]
    exact ih os.tail s hu

/-- Callbacks for good messages: the node gets the first of them, and all if the connection is still there. -/
theorem onCbs_got (cf : Conf) : ∀ (ms : List (List Byte)) (os : List Out) (s : S), s.up = true → (∀ m ∈ ms, m ≠ []) →
    ∃ k, (onCbs cf s (ms.map fun m => ⟨Err.SUCCESS, m⟩) os).got = s.got ++ ms.take k ∧
      ((onCbs cf s (ms.map fun m => ⟨Err.SUCCESS, m⟩) os).up = true → ms.length ≤ k) := by
  intro ms
  induction ms with
  | nil => intro os s _ _; exact ⟨0, by simp [onCbs], fun _ => by simp⟩
  | cons m ms ih =>
    intro os s hu hne
    have hm := hne m List.mem_cons_self
    simp only [List.map_cons, onCbs]
    generalize os.headD (.handled true false) = o
    have hg : (onCb cf s ⟨Err.SUCCESS, m⟩ o).got = s.got ++ [m] := by
      unfold onCb
      rw [if_neg (by rw [hu]; decide), if_neg (by simp only [hm, or_false]; decide)]
      rcases o with _ | ⟨ok, kill⟩
      · rfl
      · cases kill
        · cases ok
          · exact (addFault_same cf _).2
          · rfl
        · rfl
    cases hu' : (onCb cf s ⟨Err.SUCCESS, m⟩ o).up with
    | true =>
      obtain ⟨k, e1, e2⟩ := ih os.tail _ hu' fun x hx => hne x (List.mem_cons_of_mem _ hx)
      exact ⟨k + 1, by rw [e1, hg]; simp, fun hh => by have := e2 hh; simp only [List.length_cons]; omega⟩
    | false =>
      rw [onCbs_down cf _ _ _ hu']
      exact ⟨1, by rw [hg]; simp, fun hh => by rw [hu'] at hh; cases hh⟩

/-- If no more than `tol` handlers in a row fail, the connection stays. -/
theorem onCbs_calm (cf : Conf) : ∀ (ms : List (List Byte)) (os : List Out) (s : S), s.up = true → (∀ m ∈ ms, m ≠ []) →
    calm cf.tol s.fault os → (onCbs cf s (ms.map fun m => ⟨Err.SUCCESS, m⟩) os).up = true := by
  intro ms
  induction ms with
  | nil => intro os s hu _ _; exact hu
  | cons m ms ih =>
    intro os s hu hne hc
    have hm := hne m List.mem_cons_self
    have hne' : ∀ x ∈ ms, x ≠ [] := fun x hx => hne x (List.mem_cons_of_mem _ hx)
    have hcb : ∀ o, onCb cf s ⟨Err.SUCCESS, m⟩ o = (match o with
        | .garbage => { s with got := s.got ++ [m] }
        | .handled _ true => { s with got := s.got ++ [m] }.drop
        | .handled true false => { s with got := s.got ++ [m], fault := 0 }
        | .handled false false => addFault cf { s with got := s.got ++ [m] }) := by
      intro o
      unfold onCb
      rw [if_neg (by rw [hu]; decide), if_neg (by simp only [hm, or_false]; decide)]
      rcases o with _ | ⟨ok, kill⟩
      · rfl
      · cases kill <;> cases ok <;> rfl
    simp only [List.map_cons, onCbs]
    cases os with
    | nil =>
      simp only [List.headD_nil, List.tail_nil]
      rw [hcb]
      exact ih [] _ hu hne' trivial
    | cons o os =>
      simp only [List.headD_cons, List.tail_cons]
      rw [hcb]
      rcases o with _ | ⟨ok, kill⟩
      · exact ih os _ hu hne' hc
      · cases kill
        · cases ok
          · simp only [calm] at hc
            simp only
            have : addFault cf { s with got := s.got ++ [m] } = { s with got := s.got ++ [m], fault := s.fault + 1 } := by
              unfold addFault
              rw [if_neg (show ¬ s.fault + 1 > cf.tol by omega)]
            rw [this]
            exact ih os _ hu hne' hc.2
          · exact ih os _ hu hne' hc
        · cases ok <;> exact absurd hc (by simp [calm])

/-! ### Invariant -/

/-- There are histories of the two streams that lead to this state; `q`: no request to write was refused. -/
structure Inv (cf : Conf) (hf bf ag : Nat) (q : Prop) (s : S) : Prop where
  ex : ∃ ses rs scbs, srun cf.limit cf.hash sinit ses = some (s.c, rs, scbs) ∧ SLegal cf.limit cf.hash sinit ses ∧ (q → WritesStart ses) ∧
    Unforced ses ∧ s.sent = acceptedBySend rs ∧ s.queue = queued rs
  fits : ∀ m ∈ s.queue, Fits cf.recv m
  pre : s.got <+: s.queue
  live : s.r.closed = false → s.up = true ∧ s.taken ≤ s.c.wire.length ∧
    ∃ res ms, received res = s.c.wire.take s.taken ∧ Legal cf.recv cf.hash (rinit hf bf ag) res ∧ Patient cf.recv ag res ∧
      rrun cf.recv cf.hash (rinit hf bf ag) res = some (s.r, ms.map fun m => ⟨Err.SUCCESS, m⟩) ∧ s.got = ms ∧
      s.r.again = ag + agains res

theorem init_inv (cf : Conf) (hf bf ag : Nat) (q : Prop) (hag : ag ≤ cf.recv.maxAgain) : Inv cf hf bf ag q (init hf bf ag) := by
  refine ⟨⟨[], [], [], rfl, trivial, fun _ _ h => (by cases h), (by intro h; cases h), rfl, rfl⟩, fun _ h => (by cases h), List.prefix_rfl, fun _ =>
    ⟨rfl, Nat.zero_le _, [], [], rfl, trivial, ⟨by simp, by simpa [agains] using hag⟩, rfl, rfl, rfl⟩⟩

/-- The queued messages are not empty. -/
theorem queued_ne {rs : List (List Byte × Int)} {m : List Byte} (h : m ∈ queued rs) : m ≠ [] := by
  unfold queued at h
  obtain ⟨r, hr, rfl⟩ := List.mem_map.1 h
  have := (List.mem_filter.1 hr).2
  simp only [decide_eq_true_eq] at this
  exact this.2

/-- The sent messages are not empty. -/
theorem accepted_ne {rs : List (List Byte × Int)} {m : List Byte} (h : m ∈ acceptedBySend rs) : m ≠ [] := by
  unfold acceptedBySend at h
  obtain ⟨r, hr, rfl⟩ := List.mem_map.1 h
  have := (List.mem_filter.1 hr).2
  simp only [decide_eq_true_eq] at this
  exact this.2

/-- A change of the sending end. -/
theorem sender_inv {cf : Conf} {hf bf ag : Nat} {q : Prop} {s : S} (i : Inv cf hf bf ag q s) (e : SEv) (c' : SConn) (r : Option Int) (cb : List Cb)
    (o : Bool) (hs : sstep cf.limit cf.hash s.c e = some (c', r, cb)) (hl : SLegal cf.limit cf.hash s.c [e]) (hu : q → e.uvOk = true)
    (hd : e ≠ .disconnect true) (new newq : List (List Byte))
    (hnew : new = acceptedBySend (outcome e r)) (hnewq : newq = queued (outcome e r)) (hfit : ∀ m ∈ newq, Fits cf.recv m)
    (hw : ∃ t, c'.wire = s.c.wire ++ t) :
    Inv cf hf bf ag q { s with c := c', open_ := o, sent := s.sent ++ new, queue := s.queue ++ newq } := by
  obtain ⟨⟨ses, rs, scbs, h1, h2, h3, h4, h5, h6⟩, hf1, hp, hlive⟩ := i
  refine ⟨⟨ses ++ [e], _, _, srun_snoc _ _ e c' r cb ses sinit s.c rs scbs h1 hs, slegal_snoc _ _ e ses sinit s.c rs scbs h1 h2 hl, ?_, ?_, ?_, ?_⟩,
    ?_, hp.trans (List.prefix_append ..), ?_⟩
  · intro hq x hx
    rcases List.mem_append.1 hx with hx | hx
    · exact h3 hq x hx
    · simp only [List.mem_singleton] at hx; rw [hx]; exact hu hq
  · intro hx
    rcases List.mem_append.1 hx with hx | hx
    · exact h4 hx
    · simp only [List.mem_singleton] at hx; exact hd hx.symm
  · show s.sent ++ new = _
    rw [h5, hnew]
    simp [acceptedBySend]
  · show s.queue ++ newq = _
    rw [h6, hnewq]
    simp [queued]
  · intro m hm
    rcases List.mem_append.1 hm with hm | hm
    · exact hf1 m hm
    · exact hfit m hm
  · intro hc
    obtain ⟨a1, a2, res, ms, a3, a4, a5, a6, a7, a8⟩ := hlive hc
    obtain ⟨t, ht⟩ := hw
    refine ⟨a1, ?_, res, ms, ?_, a4, a5, a6, a7, a8⟩
    · show s.taken ≤ c'.wire.length
      rw [ht, List.length_append]; omega
    · show received res = c'.wire.take s.taken
      rw [ht, List.take_append_of_le_length a2]; exact a3

theorem tryWrite_wire (ev : Env) : ∀ (fuel : Nat) (c c' : SConn) (x : Int) (cbs : List Cb), tryWrite ev fuel c = some (c', x, cbs) →
    ∃ t, c'.wire = c.wire ++ t := by
  intro fuel
  induction fuel with
  | zero => intro c c' x cbs h; cases h
  | succ fuel ih =>
    intro c c' x cbs h
    unfold tryWrite at h
    split at h
    · simp only [Option.some.injEq, Prod.mk.injEq] at h; obtain ⟨rfl, -⟩ := h; exact ⟨[], by simp⟩
    · split at h
      · simp only [Option.some.injEq, Prod.mk.injEq] at h; obtain ⟨rfl, -⟩ := h; exact ⟨[], by simp⟩
      · split at h
        · split at h
          · cases h
          · simp only [Option.some.injEq, Prod.mk.injEq] at h; obtain ⟨rfl, -⟩ := h; exact ⟨[], by simp⟩
        · split at h
          · cases h
          · split at h
            · have := ih _ _ _ _ h
              exact this
            · split at h
              · simp only [Option.some.injEq, Prod.mk.injEq] at h; obtain ⟨rfl, -⟩ := h; exact ⟨_, rfl⟩
              · simp only [Option.some.injEq, Prod.mk.injEq] at h; obtain ⟨rfl, -⟩ := h; exact ⟨[], by simp⟩

/-- The state after an event of the receiving stream. -/
theorem net_eq (cf : Conf) (s : S) (e : REv) (os : List Out) (r : RConn) (cbs : List Cb)
    (h : rstep cf.recv cf.hash s.r e = some (r, cbs)) :
    net cf s e os = some { onCbs cf { s with r := r } cbs os with r := { r with closed := r.closed || !(onCbs cf { s with r := r } cbs os).up } } := by
  unfold net
  rw [h]
  simp only
  have := (onCbs_same cf cbs os { s with r := r }).2.2.1
  rw [this]

/-- A read of the next bytes. -/
theorem read_inv {cf : Conf} {hf bf ag : Nat} {q : Prop} {s : S} (i : Inv cf hf bf ag q s) (n : Nat) (os : List Out) (hcan : Can s (.read n os)) :
    ∃ s', step cf s (.read n os) = some s' ∧ Inv cf hf bf ag q s' ∧ s'.c = s.c ∧ s'.open_ = s.open_ ∧ s'.sent = s.sent ∧ s'.queue = s.queue ∧ s'.taken = s.taken + n ∧
      (calm cf.tol s.fault os → s'.r.closed = false) := by
  obtain ⟨hc0, hn, hle, hoff⟩ := hcan
  obtain ⟨⟨ses, rs, scbs, h1, h2, h3, h4, h5, h6⟩, hf1, hp, hlive⟩ := i
  obtain ⟨a1, a2, res, ms, a3, a4, a5, a6, a7, a8⟩ := hlive hc0
  have hlen : ((s.c.wire.drop s.taken).take n).length = n := by
    rw [List.length_take, List.length_drop]; omega
  have htake : s.c.wire.take (s.taken + n) = s.c.wire.take s.taken ++ (s.c.wire.drop s.taken).take n := by rw [List.take_add]
  generalize hch : (s.c.wire.drop s.taken).take n = chunk at hlen htake
  have hne : chunk ≠ [] := by intro h; rw [h] at hlen; simp at hlen; omega
  have hrec : received (res ++ [.data chunk]) = s.c.wire.take (s.taken + n) := by
    rw [received_snoc, a3, htake]; simp [received]
  have hleg : Legal cf.recv cf.hash (rinit hf bf ag) (res ++ [.data chunk]) :=
    legal_snoc _ _ _ res _ s.r _ a6 a4 ⟨.inr ⟨hne, by omega⟩, fun _ _ => trivial⟩
  have hpat : Patient cf.recv ag (res ++ [.data chunk]) := by
    refine ⟨?_, by rw [agains_snoc]; simpa [agains] using a5.2⟩
    intro hm
    rcases List.mem_append.1 hm with hm | hm
    · exact a5.1 hm
    · simp at hm
  obtain ⟨st, ms', e1, e2, e3⟩ := C21_any_write cf.limit cf.recv cf.hash hf bf ag ses (res ++ [.data chunk]) s.c rs scbs h2 h1
    (fun m hm => hf1 m (by rw [h6]; exact hm)) (by rw [hrec]; exact List.take_prefix _ _) hleg hpat
  have hap := rrun_append cf.recv cf.hash (.data chunk) res _ s.r _ a6
  rw [e1] at hap
  cases hr : rstep cf.recv cf.hash s.r (.data chunk) with
  | none => rw [hr] at hap; cases hap
  | some x =>
    obtain ⟨r', new⟩ := x
    rw [hr] at hap
    simp only [Option.map_some, Option.some.injEq, Prod.mk.injEq] at hap
    obtain ⟨rfl, hms⟩ := hap
    have hagain : st.again = s.r.again := by
      unfold rstep at hr
      rw [if_neg (by rw [hc0]; decide)] at hr
      simp only at hr
      rw [if_neg (by simpa using hne)] at hr
      exact onData_again _ _ _ _ _ _ hr
    obtain ⟨ys, hys⟩ : ∃ ys : List (List Byte), new = (ys.map fun m => ⟨Err.SUCCESS, m⟩) ∧ ms' = ms ++ ys := by
      have hx := congrArg (List.drop ms.length) hms
      rw [List.drop_append_of_le_length (by simp)] at hx
      rw [List.drop_of_length_le (l := ms.map _) (by simp), List.nil_append, ← List.map_drop] at hx
      refine ⟨ms'.drop ms.length, hx.symm, ?_⟩
      have hy := congrArg (List.map Cb.data) hms
      simp only [List.map_map, List.map_append] at hy
      rw [← hx] at hy
      simp only [List.map_map] at hy
      have hid : ∀ l : List (List Byte), l.map (Cb.data ∘ fun m => (⟨Err.SUCCESS, m⟩ : Cb)) = l := fun l => List.map_id l
      rw [hid, hid, hid] at hy
      exact hy
    obtain ⟨hnew, hms'⟩ := hys
    have hysne : ∀ m ∈ ys, m ≠ [] := fun m hm => queued_ne (e3.subset (by rw [hms']; exact List.mem_append_right _ hm))
    have hnet := net_eq cf s (.data chunk) os st new hr
    obtain ⟨k, g1, g2⟩ := onCbs_got cf ys os { s with r := st } a1 hysne
    rw [← hnew] at g1 g2
    obtain ⟨b1, b2, b3, b4, b5, b6⟩ := onCbs_same cf new os { s with r := st }
    have hstep : step cf s (.read n os) = some { onCbs cf { s with r := st } new os with
        r := { st with closed := st.closed || !(onCbs cf { s with r := st } new os).up }, taken := s.taken + n } := by
      simp only [step, hch, hnet, Option.map_some]
    refine ⟨_, hstep, ?_, b1, b2, b5, b6, rfl, ?_⟩
    · refine ⟨⟨ses, rs, scbs, by rw [show (onCbs cf { s with r := st } new os).c = s.c from b1]; exact h1, h2, h3, h4, b5.trans h5, b6.trans h6⟩,
        fun m hm => hf1 m (by rw [← show (onCbs cf { s with r := st } new os).queue = s.queue from b6]; exact hm), ?_, ?_⟩
      · show (onCbs cf { s with r := st } new os).got <+: (onCbs cf { s with r := st } new os).queue
        rw [g1, b6]
        show s.got ++ ys.take k <+: s.queue
        rw [h6, a7]
        refine List.IsPrefix.trans ?_ e3
        rw [hms']
        exact (List.prefix_append_right_inj ms).2 (List.take_prefix _ _)
      · intro hcl
        have hup : (onCbs cf { s with r := st } new os).up = true := by
          have : (st.closed || !(onCbs cf { s with r := st } new os).up) = false := hcl
          rw [e2] at this
          simpa using this
        refine ⟨hup, ?_, res ++ [.data chunk], ms', ?_, hleg, hpat, ?_, ?_, ?_⟩
        · show s.taken + n ≤ (onCbs cf { s with r := st } new os).c.wire.length
          rw [b1]; exact hle
        · show _ = (onCbs cf { s with r := st } new os).c.wire.take (s.taken + n)
          rw [b1]; exact hrec
        · rw [e1]
          show some (st, _) = some ({ st with closed := _ }, _)
          have : st = { st with closed := st.closed || !(onCbs cf { s with r := st } new os).up } := by rw [hup]; simp
          rw [← this]
        · show (onCbs cf { s with r := st } new os).got = ms'
          rw [g1, hms', List.take_of_length_le (g2 hup)]
          show s.got ++ ys = ms ++ ys
          rw [a7]
        · show st.again = _
          rw [hagain, a8, agains_snoc]; simp [agains]
    · intro hcalm
      have := onCbs_calm cf ys os { s with r := st } a1 hysne hcalm
      rw [← hnew] at this
      show (st.closed || !(onCbs cf { s with r := st } new os).up) = false
      rw [this, e2]; rfl

/-- Once the receiving stream is closed only the sending end matters. -/
theorem Inv.dead {cf : Conf} {hf bf ag : Nat} {q : Prop} {s s' : S} (i : Inv cf hf bf ag q s) (hc : s'.c = s.c) (hs : s'.sent = s.sent) (hq : s'.queue = s.queue)
    (hg : s'.got <+: s.queue) (hcl : s'.r.closed = true) : Inv cf hf bf ag q s' := by
  obtain ⟨⟨ses, rs, scbs, h1, h2, h3, h4, h5, h6⟩, hf1, hp, hlive⟩ := i
  exact ⟨⟨ses, rs, scbs, by rw [hc]; exact h1, h2, h3, h4, hs.trans h5, hq.trans h6⟩, by rw [hq]; exact hf1, by rw [hq]; exact hg,
    fun h => by rw [hcl] at h; cases h⟩

theorem onCb_bad_got (cf : Conf) (s : S) (code : Int) (hcode : code < 0) (d : List Byte) (o : Out) : (onCb cf s ⟨code, d⟩ o).got = s.got := by
  unfold onCb
  split
  · rfl
  · rw [if_pos (Or.inl hcode)]
    rcases o with _ | ⟨ok, kill⟩
    · exact (addFault_same cf s).2
    · cases kill
      · exact (addFault_same cf s).2
      · rfl

/-- Every event that can happen keeps the invariant, and there is no undefined behaviour. -/
theorem step_inv {cf : Conf} {hf bf ag : Nat} {q : Prop} {s : S} (i : Inv cf hf bf ag q s) (e : Ev) (hcan : Can s e) (hw : q → e.writes) (hfit : e.fits cf) :
    ∃ s', step cf s e = some s' ∧ Inv cf hf bf ag q s' ∧ (Calm cf s e → s.r.closed = false → s'.r.closed = false) := by
  cases e with
  | push m ev =>
    obtain ⟨ses, rs, scbs, h1, h2, h3, h4, h5, h6⟩ := i.ex
    simp only [step, push]
    by_cases ho : s.open_ = true
    · rw [if_neg (by rw [ho]; decide)]
      obtain ⟨c0, rs0, cb0, blocks, k1, k2, k3⟩ := srun_ok cf.limit cf.hash ses sinit [] [] [] (sinit_ok cf.hash) h2
      rw [h1] at k1
      simp only [Option.some.injEq, Prod.mk.injEq] at k1
      obtain ⟨rfl, rfl, rfl⟩ := k1
      obtain ⟨c', r, cb', blocks', e1, -, e2, -⟩ := sstep_ok cf.limit cf.hash s.c blocks _ _ k2 (.send m ev) hcan
      obtain ⟨x, rfl, -⟩ := e2
      have hsend : send cf.limit cf.hash ev s.c m = some (c', x, cb') := by
        simp only [sstep] at e1
        cases hh : send cf.limit cf.hash ev s.c m with
        | none => rw [hh] at e1; cases e1
        | some y =>
          rw [hh] at e1
          simp only [Option.map_some, Option.some.injEq, Prod.mk.injEq] at e1
          obtain ⟨q1, q2, q3⟩ := e1
          rw [← q1, ← q2, ← q3]
      rw [hsend]
      refine ⟨_, rfl, ?_, fun _ h => h⟩
      have hwire : ∃ t, c'.wire = s.c.wire ++ t := by
        unfold send at hsend
        split at hsend
        · simp only [Option.some.injEq, Prod.mk.injEq] at hsend; obtain ⟨rfl, -⟩ := hsend; exact ⟨[], by simp⟩
        · split at hsend
          · simp only [Option.some.injEq, Prod.mk.injEq] at hsend; obtain ⟨rfl, -⟩ := hsend; exact ⟨[], by simp⟩
          · split at hsend
            · split at hsend
              · simp only [Option.some.injEq, Prod.mk.injEq] at hsend; obtain ⟨rfl, -⟩ := hsend; exact ⟨[], by simp⟩
              · have := tryWrite_wire _ _ _ _ _ _ hsend; exact this
            · have := tryWrite_wire _ _ _ _ _ _ hsend; exact this
      have := sender_inv i (.send m ev) c' (some x) cb' s.open_ e1 ⟨hcan, fun _ _ => trivial⟩ hw (by simp)
        (if x = Err.SUCCESS ∧ m ≠ [] then [m] else []) (if (x = Err.SUCCESS ∨ x = Err.WRITE_FAILED) ∧ m ≠ [] then [m] else [])
        (by rw [outcome, acceptedBySend_cons]; simp [acceptedBySend])
        (by rw [outcome]; unfold queued; rw [List.filter_cons]; simp only [decide_eq_true_eq]; split <;> rfl)
        (by intro y hy
            split at hy
            · simp only [List.mem_singleton] at hy; rw [hy]; exact hfit
            · cases hy) hwire
      have he : (if x = Err.SUCCESS ∧ m ≠ [] then s.sent ++ [m] else s.sent) = s.sent ++ (if x = Err.SUCCESS ∧ m ≠ [] then [m] else []) := by
        split <;> simp
      have hq : (if (x = Err.SUCCESS ∨ x = Err.WRITE_FAILED) ∧ m ≠ [] then s.queue ++ [m] else s.queue) =
          s.queue ++ (if (x = Err.SUCCESS ∨ x = Err.WRITE_FAILED) ∧ m ≠ [] then [m] else []) := by
        split <;> simp
      show Inv cf hf bf ag q { s with
        c := c', sent := if x = Err.SUCCESS ∧ m ≠ [] then s.sent ++ [m] else s.sent,
        queue := if (x = Err.SUCCESS ∨ x = Err.WRITE_FAILED) ∧ m ≠ [] then s.queue ++ [m] else s.queue }
      rw [he, hq]
      exact this
    · rw [if_pos (by simpa using ho)]
      exact ⟨s, rfl, i, fun _ h => h⟩
  | written ev =>
    obtain ⟨ses, rs, scbs, h1, h2, h3, h4, h5, h6⟩ := i.ex
    obtain ⟨c0, rs0, cb0, blocks, k1, k2, k3⟩ := srun_ok cf.limit cf.hash ses sinit [] [] [] (sinit_ok cf.hash) h2
    rw [h1] at k1
    simp only [Option.some.injEq, Prod.mk.injEq] at k1
    obtain ⟨rfl, rfl, rfl⟩ := k1
    obtain ⟨c', r, cb', blocks', e1, -, -, -⟩ := sstep_ok cf.limit cf.hash s.c blocks _ _ k2 (.written ev) hcan
    have hwr : ∃ y, written ev s.c = some y ∧ y.1 = c' ∧ r = none := by
      simp only [sstep] at e1
      cases hh : written ev s.c with
      | none => rw [hh] at e1; cases e1
      | some y =>
        rw [hh] at e1
        simp only [Option.map_some, Option.some.injEq, Prod.mk.injEq] at e1
        exact ⟨y, rfl, e1.1, e1.2.1.symm⟩
    obtain ⟨y, hy, rfl, rfl⟩ := hwr
    refine ⟨{ s with c := y.1 }, by simp only [step, hy, Option.map_some], ?_, fun _ h => h⟩
    have hwire : ∃ t, y.1.wire = s.c.wire ++ t := by
      unfold written at hy
      split at hy
      · cases hy
      · split at hy
        · cases hy
        · rename_i b rest hq _ cbs hrep
          cases ht : tryWrite ev (rest.length + 1) { s.c with q := rest, writing := false } with
          | none => rw [ht] at hy; cases hy
          | some z =>
            obtain ⟨c1, x1, cb1⟩ := z
            rw [ht] at hy
            simp only [Option.some.injEq] at hy
            rw [← hy]
            obtain ⟨t, h⟩ := tryWrite_wire _ _ _ _ _ _ ht
            refine ⟨t, ?_⟩
            simp only
            split
            · exact h
            · exact h
    have := sender_inv i (.written ev) y.1 none cb' s.open_ e1 ⟨hcan, fun _ _ => trivial⟩ hw (by simp) [] [] rfl rfl (by simp) hwire
    simpa using this
  | leave =>
    refine ⟨_, rfl, ?_, fun _ h => h⟩
    have := sender_inv i (.disconnect false) (disconnect false s.c) none [] false rfl ⟨trivial, fun _ _ => trivial⟩ (fun _ => rfl) (by simp) [] [] rfl rfl (by simp)
      ⟨[], by
        unfold disconnect disconnectRun
        split
        · split <;> simp
        · simp⟩
    simpa using this
  | read n os =>
    obtain ⟨s', e1, e2, -, -, -, -, -, e3⟩ := read_inv i n os hcan
    exact ⟨s', e1, e2, fun h _ => e3 h⟩
  | again =>
    have hc0 : s.r.closed = false := hcan
    have hr : rstep cf.recv cf.hash s.r .again =
        some ({ s.r with again := s.r.again + 1, closed := decide (s.r.again + 1 > cf.recv.maxAgain) }, []) := by
      unfold rstep
      rw [if_neg (by rw [hc0]; decide)]
    have hnet := net_eq cf s .again [] _ _ hr
    obtain ⟨a1, a2, res, ms, a3, a4, a5, a6, a7, a8⟩ := i.live hc0
    simp only [onCbs, a1] at hnet
    refine ⟨_, hnet, ?_, ?_⟩
    · by_cases hm : s.r.again + 1 > cf.recv.maxAgain
      · exact i.dead rfl rfl rfl i.pre (by simp [hm])
      · refine ⟨i.ex, i.fits, i.pre, fun _ => ⟨rfl, a2, res ++ [.again], ms, ?_, ?_, ?_, ?_, a7, ?_⟩⟩
        · rw [received_snoc, a3]; simp [received]
        · exact legal_snoc _ _ _ res _ s.r _ a6 a4 ⟨trivial, fun _ _ => trivial⟩
        · refine ⟨?_, by rw [agains_snoc]; simp only [agains]; omega⟩
          intro hm'
          rcases List.mem_append.1 hm' with hm' | hm'
          · exact a5.1 hm'
          · simp at hm'
        · rw [rrun_append _ _ _ res _ s.r _ a6, hr]
          simp
        · show s.r.again + 1 = _
          rw [a8, agains_snoc]; simp [agains]; omega
    · intro hcalm _
      have hcalm' : s.r.again + 1 ≤ cf.recv.maxAgain := hcalm
      show (decide (s.r.again + 1 > cf.recv.maxAgain) || !true) = false
      rw [decide_eq_false (by omega)]; rfl
  | fail os =>
    have hc0 : s.r.closed = false := hcan
    have hr : rstep cf.recv cf.hash s.r .fail = some ({ s.r with closed := true }, [⟨Err.READ_FAILED, []⟩]) := by
      unfold rstep
      rw [if_neg (by rw [hc0]; decide)]
    have hnet := net_eq cf s .fail os _ _ hr
    obtain ⟨b1, b2, b3, b4, b5, b6⟩ := onCbs_same cf [⟨Err.READ_FAILED, []⟩] os { s with r := { s.r with closed := true } }
    refine ⟨_, hnet, ?_, fun h => absurd h (by simp [Calm])⟩
    refine i.dead b1 b5 b6 ?_ (by simp)
    show (onCbs cf { s with r := { s.r with closed := true } } [⟨Err.READ_FAILED, []⟩] os).got <+: s.queue
    simp only [onCbs]
    rw [onCb_bad_got cf _ _ (by decide)]
    exact i.pre
  | gone =>
    refine ⟨_, rfl, ?_, fun h => absurd h (by simp [Calm])⟩
    exact i.dead rfl rfl rfl i.pre rfl

theorem run_inv {cf : Conf} {hf bf ag : Nat} {q : Prop} (es : List Ev) : ∀ {s : S}, Inv cf hf bf ag q s → Cans cf s es → (∀ e ∈ es, (q → e.writes) ∧ e.fits cf) →
    ∃ s', run cf s es = some s' ∧ Inv cf hf bf ag q s' ∧ (Calms cf s es → s.r.closed = false → s'.r.closed = false) := by
  induction es with
  | nil => intro s i _ _; exact ⟨s, rfl, i, fun _ h => h⟩
  | cons e es ih =>
    intro s i hc he
    have h0 := he e List.mem_cons_self
    obtain ⟨s1, e1, e2, e3⟩ := step_inv i e hc.1 h0.1 h0.2
    obtain ⟨s2, f1, f2, f3⟩ := ih e2 (hc.2 _ e1) fun x hx => he x (List.mem_cons_of_mem _ hx)
    exact ⟨s2, by simp only [run, e1, f1], f2, fun hcalm h => f3 (hcalm.2 _ e1) (e3 hcalm.1 h)⟩

/-! ### C87 -/

/-- Without refused writes the messages queued are those whose push returned success. -/
theorem Inv.all {cf : Conf} {hf bf ag : Nat} {q : Prop} {s : S} (i : Inv cf hf bf ag q s) (hq : q) : s.queue = s.sent := by
  obtain ⟨ses, rs, scbs, h1, h2, h3, h4, h5, h6⟩ := i.ex
  obtain ⟨c0, rs0, cb0, blocks, k1, k2, k3⟩ := srun_ok cf.limit cf.hash ses sinit [] [] [] (sinit_ok cf.hash) h2
  rw [h1] at k1
  simp only [Option.some.injEq, Prod.mk.injEq] at k1
  obtain ⟨rfl, rfl, rfl⟩ := k1
  rw [h5, h6, queued_accepted rs (k3 (h3 hq)).1]

/-- C87 (any write): whatever happens on both ends, also if requests to write are refused, there is no undefined behaviour, the receiving
node gets an initial part of the messages that were put into the queue, in order, without change, loss or repetition, and it does not give
up the connection by itself (if the messages are within its limits). -/
theorem C87_any (cf : Conf) (hf bf ag : Nat) (hag : ag ≤ cf.recv.maxAgain) (es : List Ev) (hc : Cans cf (init hf bf ag) es)
    (he : ∀ e ∈ es, e.fits cf) :
    ∃ s, run cf (init hf bf ag) es = some s ∧ s.got <+: s.queue ∧
      (Calms cf (init hf bf ag) es → s.up = true ∧ s.r.closed = false) := by
  obtain ⟨s, e1, e2, e3⟩ := run_inv (q := False) es (init_inv cf hf bf ag _ hag) hc fun e h => ⟨fun hh => hh.elim, he e h⟩
  exact ⟨s, e1, e2.pre, fun hcalm => ⟨(e2.live (e3 hcalm rfl)).1, e3 hcalm rfl⟩⟩

/-- C87 (order): whatever happens on both ends, the receiving node gets an initial part of the messages whose push reported success, in order,
without change, loss or repetition (if no request to write is refused and the messages are within the limits of the receiver). -/
theorem C87_order_partial (cf : Conf) (hf bf ag : Nat) (hag : ag ≤ cf.recv.maxAgain) (es : List Ev) (hc : Cans cf (init hf bf ag) es)
    (he : ∀ e ∈ es, e.writes ∧ e.fits cf) :
    ∃ s, run cf (init hf bf ag) es = some s ∧ s.got <+: s.sent := by
  obtain ⟨s, e1, e2, -⟩ := run_inv (q := True) es (init_inv cf hf bf ag _ hag) hc fun e h => ⟨fun _ => (he e h).1, (he e h).2⟩
  exact ⟨s, e1, e2.all trivial ▸ e2.pre⟩

/-- What is got when everything written has been read. -/
theorem Inv.full {cf : Conf} {hf bf ag : Nat} {q : Prop} {s : S} (i : Inv cf hf bf ag q s) (hq : q) (hcl : s.r.closed = false) (hr : s.taken = s.c.wire.length)
    (hw : s.c.writing = false) : s.got = s.sent := by
  obtain ⟨ses, rs, scbs, h1, h2, h3, h4, h5, h6⟩ := i.ex
  obtain ⟨a1, a2, res, ms, a3, a4, a5, a6, a7, a8⟩ := i.live hcl
  rw [hr, List.take_length] at a3
  obtain ⟨st, q1, q2⟩ := (C21_graceful_partial cf.limit cf.recv cf.hash hf bf ag ses res s.c rs scbs h2 (h3 hq) h4 h1
    (fun m hm => i.fits m (by rw [i.all hq, h5]; exact hm)) a3 a4 a5).2 hw
  rw [a6, Option.some.injEq, Prod.mk.injEq] at q1
  have := congrArg (List.map Cb.data) q1.2
  simp only [List.map_map] at this
  have hid : ∀ l : List (List Byte), l.map (Cb.data ∘ fun m => (⟨Err.SUCCESS, m⟩ : Cb)) = l := fun l => List.map_id l
  rw [hid, hid] at this
  rw [a7, h5, this]

/-- C87 (arrival): as long as nothing makes the receiving end give up (no more than `fault_tolerant` handlers in a row fail), the connection
stays, and when all writes are finished and all bytes read it has got exactly the messages whose push reported success, also if the
sending node has reset its connection meanwhile. -/
theorem C87_arrives (cf : Conf) (hf bf ag : Nat) (hag : ag ≤ cf.recv.maxAgain) (es : List Ev) (hc : Cans cf (init hf bf ag) es)
    (he : ∀ e ∈ es, e.writes ∧ e.fits cf) (hcalm : Calms cf (init hf bf ag) es) :
    ∃ s, run cf (init hf bf ag) es = some s ∧ s.up = true ∧ s.r.closed = false ∧
      (s.c.writing = false → s.taken = s.c.wire.length → s.got = s.sent) := by
  obtain ⟨s, e1, e2, e3⟩ := run_inv (q := True) es (init_inv cf hf bf ag _ hag) hc fun e h => ⟨fun _ => (he e h).1, (he e h).2⟩
  have hcl := e3 hcalm rfl
  exact ⟨s, e1, (e2.live hcl).1, hcl, fun hw hr => e2.full trivial hcl hr hw⟩

/-- Two nodes with the same `msg_size`, as `node::init` and `node::get_iostream_channel` set up their streams. -/
def nodes (cf : Sizes.Conf) (uv maxHash maxBlock maxAgain : Nat) (h : Hash) (tol : Nat) : Conf :=
  ⟨Sizes.streamSendLimit cf uv, Sizes.streamRecv cf maxHash maxBlock maxAgain, h, tol⟩

/-- C87 (nodes): between two nodes with the same configuration the limits are no matter: messages that any call of the sending node gives to
the connection arrive, if no request to write is refused and the receiver has no reason to give up. -/
theorem C87_nodes (cf : Sizes.Conf) (uv maxHash maxBlock maxAgain tol : Nat) (h : Hash) (hcf : 2 * cf.msg + 2048 < 2 ^ 63) (huv : uv < 2 ^ 32)
    (hf bf ag : Nat) (hag : ag ≤ maxAgain) (es : List Ev)
    (hc : Cans (nodes cf uv maxHash maxBlock maxAgain h tol) (init hf bf ag) es) (hw : ∀ e ∈ es, e.writes)
    (hcalls : ∀ m ev, Ev.push m ev ∈ es → ∃ c, Sizes.call cf c = .ok m.length)
    (hcalm : Calms (nodes cf uv maxHash maxBlock maxAgain h tol) (init hf bf ag) es) :
    ∃ s, run (nodes cf uv maxHash maxBlock maxAgain h tol) (init hf bf ag) es = some s ∧ s.up = true ∧ s.got <+: s.sent ∧
      (s.c.writing = false → s.taken = s.c.wire.length → s.got = s.sent) := by
  have he : ∀ e ∈ es, e.writes ∧ e.fits (nodes cf uv maxHash maxBlock maxAgain h tol) := by
    intro e hm
    refine ⟨hw e hm, ?_⟩
    cases e with
    | push m ev =>
      obtain ⟨c, hc'⟩ := hcalls m ev hm
      exact (Sizes.C51_stream_fits cf uv maxHash maxBlock maxAgain hcf huv c m hc').1
    | _ => trivial
  obtain ⟨s, e1, e2, -, e3⟩ := C87_arrives _ hf bf ag hag es hc he hcalm
  obtain ⟨s', f1, f2⟩ := C87_order_partial _ hf bf ag hag es hc he
  rw [e1, Option.some.injEq] at f1
  subst f1
  exact ⟨s, e1, e2, f2, e3⟩

/-! ### Progress -/

/-- Less than a complete frame header at the end of honest bytes is short. -/
theorem rest_small (h : Hash) (ms : List (List Byte)) : ∀ (p r : List Byte) (fs : List Fr), (∀ m ∈ ms, m.length < 2 ^ 63) →
    p <+: frames h ms → Dec p fs r → header r = none → r.length < 20 := by
  induction ms with
  | nil =>
    intro p r fs _ hp hd hn
    have : p = [] := by simpa [frames] using hp
    subst this
    cases hd with
    | stop _ => simp
    | more hh _ => simp [decode1, header] at hh
  | cons m ms ih =>
    intro p r fs hl hp hd hn
    have hm := hl m List.mem_cons_self
    have hfr : frames h (m :: ms) = encode h m ++ frames h ms := by simp [frames]
    rw [hfr] at hp
    obtain ⟨l1, l2, l3⟩ := vint_enc m.length (by simp only [W64]; omega) []
    by_cases hlen : 4 + (Vint.writeVint m.length 16).2.length ≤ p.length
    · -- the header is complete
      by_cases hall : (encode h m).length ≤ p.length
      · obtain ⟨p', rfl⟩ : encode h m <+: p := by
          exact List.prefix_of_prefix_length_le (List.prefix_append ..) hp hall
        have hdec := encode_decode h m p' hm
        cases hd with
        | stop hh => rw [hdec] at hh; cases hh
        | more hh ht =>
          rw [hdec] at hh
          simp only [Option.some.injEq, Prod.mk.injEq] at hh
          obtain ⟨-, rfl⟩ := hh
          exact ih _ _ _ (fun x hx => hl x (List.mem_cons_of_mem _ hx)) ((List.prefix_append_right_inj _).1 hp) ht hn
      · have hpe : p <+: encode h m := List.prefix_of_prefix_length_le hp (List.prefix_append ..) (by omega)
        obtain ⟨t, ht⟩ := hpe
        have hhp : header p = some (m.length, (Vint.writeVint m.length 16).2.length) := by
          have hp1 : p = h.bytes m ++ (Vint.writeVint m.length 16).2 ++ p.drop (4 + (Vint.writeVint m.length 16).2.length) := by
            have h1 : p.take (4 + (Vint.writeVint m.length 16).2.length) = h.bytes m ++ (Vint.writeVint m.length 16).2 := by
              have := congrArg (List.take (4 + (Vint.writeVint m.length 16).2.length)) ht
              rw [List.take_append_of_le_length hlen] at this
              rw [this]
              unfold encode
              rw [List.take_append_of_le_length (by simp [bytes_length])]
              rw [List.take_of_length_le (by simp [bytes_length])]
            rw [← h1, List.take_append_drop]
          have := (vint_enc m.length (by simp only [W64]; omega) (p.drop (4 + (Vint.writeVint m.length 16).2.length))).1
          have hd4 : p.drop 4 = (Vint.writeVint m.length 16).2 ++ p.drop (4 + (Vint.writeVint m.length 16).2.length) := by
            have hx := congrArg (List.drop 4) hp1
            rw [List.append_assoc, List.drop_append_of_le_length (by simp [bytes_length]), List.drop_of_length_le (l := h.bytes m) (by simp [bytes_length]),
              List.nil_append] at hx
            exact hx
          have hpos : 0 < (Vint.writeVint m.length 16).2.length := List.length_pos_iff.mpr l2
          unfold header
          rw [if_neg (by omega), hd4, this, if_neg (by simp only; omega)]
        cases hd with
        | stop _ => rw [hhp] at hn; cases hn
        | more hh _ =>
          exfalso
          have h1 := decode1_append t hh
          rw [ht] at h1
          have h2 := encode_decode h m [] hm
          rw [List.append_nil] at h2
          rw [h2] at h1
          simp only [Option.some.injEq, Prod.mk.injEq] at h1
          have hnil : t = [] := (List.append_eq_nil_iff.1 h1.2.symm).2
          rw [hnil, List.append_nil] at ht
          rw [ht] at hall
          exact hall (Nat.le_refl _)
    · cases hd with
      | stop _ => omega
      | more hh _ =>
        exfalso
        have hpe : p <+: encode h m := List.prefix_of_prefix_length_le hp (List.prefix_append ..) (by rw [encode_length]; omega)
        obtain ⟨t, ht⟩ := hpe
        have h1 := decode1_append t hh
        rw [ht] at h1
        have h2 := encode_decode h m [] hm
        rw [List.append_nil] at h2
        rw [h2] at h1
        simp only [Option.some.injEq, Prod.mk.injEq] at h1
        have hnil : t = [] := (List.append_eq_nil_iff.1 h1.2.symm).2
        rw [hnil, List.append_nil] at ht
        have := encode_length h m
        rw [← ht] at this
        omega

theorem Inv.flow {cf : Conf} {hf bf ag : Nat} {q : Prop} {s : S} (i : Inv cf hf bf ag q s) (hq : q) : Flow cf.hash s.c s.sent := by
  obtain ⟨ses, rs, scbs, h1, h2, h3, h4, h5, h6⟩ := i.ex
  have := srun_flow cf.limit cf.hash ses sinit s.c [] rs scbs (sinit_flow cf.hash) h2 (h3 hq) h4 h1
  rw [h5]
  simpa using this

/-- While the receiving stream is open it offers a buffer that is not empty. -/
theorem Inv.offers {cf : Conf} {hf bf ag : Nat} {q : Prop} {s : S} (i : Inv cf hf bf ag q s) (hq : q) (hcl : s.r.closed = false) : 0 < s.r.offered := by
  obtain ⟨a1, a2, res, ms, a3, a4, a5, a6, a7, a8⟩ := i.live hcl
  have hs := rrun_some cf.recv cf.hash hf bf res _ [] [] (safe_init cf.recv cf.hash hf bf ag) a4 a6
  simp only [List.nil_append] at hs
  obtain ⟨fs, r, hd, _, ho⟩ := hs
  obtain ⟨hrest, _⟩ := ho hcl
  rcases hrest with ⟨hb, hh, hl, hn⟩ | ⟨hh, v, l, hn, hnw, hlt, ha, hb⟩
  · have hpre : received res <+: frames cf.hash s.sent := by
      rw [a3]
      refine (List.take_prefix _ _).trans ?_
      rw [← (i.flow hq).all]
      exact List.prefix_append ..
    have := rest_small cf.hash s.sent _ _ _ (fun m hm => (i.fits m (by rw [i.all hq]; exact hm)).1) hpre hd hn
    unfold RConn.offered
    rw [hcl, hb, hh]
    simp only [Bool.false_eq_true, if_false, List.getLast?_nil, headCap]
    omega
  · obtain ⟨g1, g2, g3, g4⟩ := header_some hn
    have hlen : (r.take 4 ++ r.drop (4 + l)).length = r.length - l := by simp; omega
    unfold RConn.offered
    rw [hcl, hb]
    simp only [Bool.false_eq_true, if_false, List.getLast?_singleton]
    rw [if_neg (by rw [hlen]; omega), hlen]
    omega

theorem tryWrite_length (ev : Env) : ∀ (fuel : Nat) (c c' : SConn) (x : Int) (cbs : List Cb), tryWrite ev fuel c = some (c', x, cbs) →
    c'.q.length ≤ c.q.length := by
  intro fuel
  induction fuel with
  | zero => intro c c' x cbs h; cases h
  | succ fuel ih =>
    intro c c' x cbs h
    unfold tryWrite at h
    split at h
    · simp only [Option.some.injEq, Prod.mk.injEq] at h; obtain ⟨rfl, -⟩ := h; exact Nat.le_refl _
    · split at h
      · simp only [Option.some.injEq, Prod.mk.injEq] at h; obtain ⟨rfl, -⟩ := h; exact Nat.le_refl _
      · split at h
        · split at h
          · cases h
          · simp only [Option.some.injEq, Prod.mk.injEq] at h; obtain ⟨rfl, -⟩ := h; exact Nat.zero_le _
        · have hm := mergeFront_length ev.merge c.q
          split at h
          · cases h
          · rename_i b rest hq
            rw [hq] at hm
            split at h
            · have := ih _ _ _ _ h
              simp only [List.length_cons] at hm this
              omega
            · split at h
              · simp only [Option.some.injEq, Prod.mk.injEq] at h; obtain ⟨rfl, -⟩ := h; exact hm
              · simp only [Option.some.injEq, Prod.mk.injEq] at h; obtain ⟨rfl, -⟩ := h; exact hm

theorem Inv.todo_eq {cf : Conf} {hf bf ag : Nat} {q : Prop} {s : S} (i : Inv cf hf bf ag q s) (hq : q) :
    todo s = s.c.q.length + ((frames cf.hash s.sent).length - s.taken) := by
  unfold todo
  rw [← (i.flow hq).all, List.length_append]

/-- Every move leaves less to do. -/
theorem move_less {cf : Conf} {hf bf ag : Nat} {q : Prop} {s s' : S} (i : Inv cf hf bf ag q s) (hq : q) (e : Ev) (hm : e.moves) (hcan : Can s e) (hw : e.writes)
    (hs : step cf s e = some s') : todo s' < todo s := by
  have hfit : e.fits cf := by cases e <;> first | trivial | exact absurd hm (by simp [Ev.moves])
  obtain ⟨s1, e1, i', -⟩ := step_inv i e hcan (fun _ => hw) hfit
  rw [hs, Option.some.injEq] at e1
  subst e1
  rw [i.todo_eq hq, i'.todo_eq hq]
  cases e with
  | written ev =>
    simp only [step] at hs
    cases hy : written ev s.c with
    | none => rw [hy] at hs; cases hs
    | some y =>
      rw [hy] at hs
      simp only [Option.map_some, Option.some.injEq] at hs
      have hql : y.1.q.length < s.c.q.length := by
        unfold written at hy
        split at hy
        · cases hy
        · split at hy
          · cases hy
          · rename_i b rest hq _ cbs hrep
            cases ht : tryWrite ev (rest.length + 1) { s.c with q := rest, writing := false } with
            | none => rw [ht] at hy; cases hy
            | some z =>
              obtain ⟨c1, x1, cb1⟩ := z
              rw [ht] at hy
              simp only [Option.some.injEq] at hy
              have hl := tryWrite_length _ _ _ _ _ _ ht
              simp only at hl
              have hq1 : y.1.q = c1.q := by
                rw [← hy]
                simp only
                split <;> rfl
              rw [hq1, hq, List.length_cons]
              omega
      rw [← hs]
      simp only
      omega
  | read n os =>
    obtain ⟨s2, f1, -, f2, -, f3, -, f4, -⟩ := read_inv i n os hcan
    rw [hs, Option.some.injEq] at f1
    subst f1
    rw [f2, f3, f4]
    obtain ⟨hc0, hn, hle, hoff⟩ := hcan
    have := congrArg List.length (i.flow hq).all
    rw [List.length_append] at this
    omega
  | _ => exact absurd hm (by simp [Ev.moves])

/-- C87 (progress): after any run, no more writes and reads are possible than there is to do; and if nothing made the receiving end give up,
either everything has arrived or a write can end or something can be read. -/
theorem C87_settles (cf : Conf) (hf bf ag : Nat) (hag : ag ≤ cf.recv.maxAgain) (es : List Ev) (hc : Cans cf (init hf bf ag) es)
    (he : ∀ e ∈ es, e.writes ∧ e.fits cf) :
    ∃ s, run cf (init hf bf ag) es = some s ∧
      (∀ ms, (∀ e ∈ ms, e.moves ∧ e.writes) → Cans cf s ms → ms.length ≤ todo s) ∧
      (Calms cf (init hf bf ag) es → s.got = s.sent ∨ ∃ e, e.moves ∧ e.writes ∧ Can s e ∧ Calm cf s e) := by
  obtain ⟨s, e1, e2, e3⟩ := run_inv (q := True) es (init_inv cf hf bf ag _ hag) hc fun e h => ⟨fun _ => (he e h).1, (he e h).2⟩
  refine ⟨s, e1, ?_, ?_⟩
  · intro ms
    clear e1 e3
    induction ms generalizing s with
    | nil => intro _ _; exact Nat.zero_le _
    | cons e ms ih =>
      intro hm hcan
      obtain ⟨h1, h2⟩ := hm e List.mem_cons_self
      have hfit : e.fits cf := by cases e <;> first | trivial | exact absurd h1 (by simp [Ev.moves])
      obtain ⟨s1, g1, g2, -⟩ := step_inv e2 e hcan.1 (fun _ => h2) hfit
      have := move_less e2 trivial e h1 hcan.1 h2 g1
      have := ih s1 g2 (fun x hx => hm x (List.mem_cons_of_mem _ hx)) (hcan.2 _ g1)
      simp only [List.length_cons]
      omega
  · intro hcalm
    have hcl := e3 hcalm rfl
    by_cases hw : s.c.writing = true
    · exact .inr ⟨.written ⟨none, 1, true⟩, trivial, rfl, hw, trivial⟩
    · have hw' : s.c.writing = false := by simpa using hw
      have ht := (e2.live hcl).2.1
      by_cases hr : s.taken = s.c.wire.length
      · exact .inl (e2.full trivial hcl hr hw')
      · exact .inr ⟨.read 1 [], trivial, trivial, ⟨hcl, Nat.one_pos, by omega, e2.offers trivial hcl⟩, trivial⟩

/-- C87 (closing): once the receiving stream is closed, the node gets nothing more, whatever is pushed. -/
theorem C87_closed (cf : Conf) (es : List Ev) : ∀ (s s' : S), s.r.closed = true → Cans cf s es → run cf s es = some s' →
    s'.got = s.got ∧ s'.r.closed = true := by
  induction es with
  | nil => intro s s' hcl _ hr; cases hr; exact ⟨rfl, hcl⟩
  | cons e es ih =>
    intro s s' hcl hc hr
    simp only [run] at hr
    cases hs : step cf s e with
    | none => rw [hs] at hr; cases hr
    | some s1 =>
      rw [hs] at hr
      have h1 : s1.got = s.got ∧ s1.r.closed = true := by
        have hcan := hc.1
        cases e with
        | push m ev =>
          simp only [step, push] at hs
          split at hs
          · cases hs; exact ⟨rfl, hcl⟩
          · split at hs
            · cases hs
            · cases hs; exact ⟨rfl, hcl⟩
        | written ev =>
          simp only [step] at hs
          cases hy : written ev s.c with
          | none => rw [hy] at hs; cases hs
          | some y => rw [hy] at hs; cases hs; exact ⟨rfl, hcl⟩
        | leave => cases hs; exact ⟨rfl, hcl⟩
        | read n os => rw [hcan.1] at hcl; cases hcl
        | again => rw [show s.r.closed = false from hcan] at hcl; cases hcl
        | fail os => rw [show s.r.closed = false from hcan] at hcl; cases hcl
        | gone => cases hs; exact ⟨rfl, rfl⟩
      obtain ⟨h2, h3⟩ := ih s1 s' h1.2 (hc.2 _ hs) hr
      exact ⟨h2.trans h1.1, h3⟩

/-! ### Witnesses -/

instance (s : S) (e : Ev) : Decidable (Can s e) := by
  cases e with
  | push m ev =>
    unfold Can
    cases hp : ev.push with
    | none => exact decidable_of_iff (m.length < 2 ^ 63) ⟨fun h => ⟨h, fun _ hh => by rw [hp] at hh; cases hh⟩, fun h => h.1⟩
    | some x =>
      exact decidable_of_iff (m.length < 2 ^ 63 ∧ (x = Err.BUFF_LIMIT ∨ x = Err.MALLOC))
        ⟨fun h => ⟨h.1, fun _ hh => by rw [hp] at hh; cases hh; exact h.2⟩, fun h => ⟨h.1, h.2 x hp⟩⟩
  | _ => unfold Can; infer_instance

/-- Whether every event can happen. -/
def cansB (cf : Conf) (s : S) : List Ev → Bool
  | [] => true
  | e :: es =>
    decide (Can s e) && match step cf s e with
      | none => true
      | some s => cansB cf s es

theorem cansB_iff (cf : Conf) (es : List Ev) : ∀ s, cansB cf s es = true → Cans cf s es := by
  induction es with
  | nil => intro s _; trivial
  | cons e es ih =>
    intro s h
    simp only [cansB, Bool.and_eq_true, decide_eq_true_eq] at h
    refine ⟨h.1, fun s' hs => ?_⟩
    rw [hs] at h
    exact ih s' h.2

def exC (tol : Nat) : Conf := ⟨0, exConf, exHash, tol⟩

def ok1 : Env := ⟨none, 1, true⟩

/-- Two messages, written one after the other and read together; the handler of the first one fails. -/
def exLost : List Ev :=
  [.push [1] ok1, .push [2] ok1, .written ok1, .written ok1, .read 12 [.handled false false, .handled true false]]

/-- C87 (loss): with `fault_tolerant` 0 one handler that fails closes the connection; the message behind it, accepted, written and received,
is dropped. -/
theorem C87_lost_false :
    ∃ (cf : Conf) (es : List Ev) (s : S), Cans cf (init 0 0 0) es ∧ (∀ e ∈ es, e.writes ∧ e.fits cf) ∧ run cf (init 0 0 0) es = some s ∧
      s.c.writing = false ∧ s.taken = s.c.wire.length ∧ s.sent = [[1], [2]] ∧ s.got = [[1]] ∧ s.up = false := by
  refine ⟨exC 0, exLost, ((run (exC 0) (init 0 0 0) exLost).getD (init 0 0 0)), cansB_iff _ _ _ (by decide +kernel), ?_, ?_, ?_⟩
  · intro e he
    simp only [exLost, List.mem_cons, List.not_mem_nil, or_false] at he
    rcases he with rfl | rfl | rfl | rfl | rfl
    · exact ⟨rfl, by simp [Ev.fits, Fits, exC, exConf]⟩
    · exact ⟨rfl, by simp [Ev.fits, Fits, exC, exConf]⟩
    · exact ⟨rfl, trivial⟩
    · exact ⟨rfl, trivial⟩
    · exact ⟨trivial, trivial⟩
  · have : (run (exC 0) (init 0 0 0) exLost).isSome = true := by decide +kernel
    cases hr : run (exC 0) (init 0 0 0) exLost with
    | none => rw [hr] at this; cases this
    | some s => rfl
  · refine ⟨?_, ?_, ?_, ?_, ?_⟩ <;> decide +kernel

/-- C87 (sizes): a message longer than the receiver's limit is accepted by the sender, reported as written, and refused by the receiver;
the connection is closed, and the next message is lost too. -/
theorem C87_size_false :
    ∃ (cf : Conf) (es : List Ev) (s : S), Cans cf (init 0 0 0) es ∧ (∀ e ∈ es, e.writes) ∧ run cf (init 0 0 0) es = some s ∧
      Calms cf (init 0 0 0) es ∧ s.sent = [[1, 2, 3], [4]] ∧ s.got = [] ∧ s.r.closed = true := by
  let cf : Conf := ⟨0, ⟨fun n => decide (n ≤ 6), 2, 0, 0, 256⟩, exHash, 2⟩
  let es : List Ev := [.push [1, 2, 3] ok1, .written ok1, .read 5 [], .push [4] ok1, .written ok1]
  refine ⟨cf, es, ((run cf (init 0 0 0) es).getD (init 0 0 0)), cansB_iff _ _ _ (by decide +kernel), ?_, ?_, ?_, ?_⟩
  · intro e he
    simp only [es, List.mem_cons, List.not_mem_nil, or_false] at he
    rcases he with rfl | rfl | rfl | rfl | rfl <;> trivial
  · have : (run cf (init 0 0 0) es).isSome = true := by decide +kernel
    cases hr : run cf (init 0 0 0) es with
    | none => rw [hr] at this; cases this
    | some s => rfl
  · exact ⟨trivial, fun _ _ => ⟨trivial, fun _ _ => ⟨trivial, fun _ _ => ⟨trivial, fun _ _ => ⟨trivial, fun _ _ => trivial⟩⟩⟩⟩⟩
  · refine ⟨?_, ?_, ?_⟩ <;> decide +kernel

/-- C87 (refused write): a message whose push returned an error arrives all the same, before the one pushed next. -/
theorem C87_refused_false :
    ∃ (cf : Conf) (es : List Ev) (s : S), Cans cf (init 0 0 0) es ∧ (∀ e ∈ es, e.fits cf) ∧ run cf (init 0 0 0) es = some s ∧
      (push cf (init 0 0 0) [1] ⟨none, 1, false⟩).map Prod.snd = some Err.WRITE_FAILED ∧ es.head? = some (.push [1] ⟨none, 1, false⟩) ∧
      s.sent = [[2]] ∧ s.got = [[1], [2]] := by
  let es : List Ev := [.push [1] ⟨none, 1, false⟩, .push [2] ok1, .written ok1, .written ok1, .read 12 []]
  refine ⟨exC 1, es, ((run (exC 1) (init 0 0 0) es).getD (init 0 0 0)), cansB_iff _ _ _ (by decide +kernel), ?_, ?_, ?_, rfl, ?_, ?_⟩
  · intro e he
    simp only [es, List.mem_cons, List.not_mem_nil, or_false] at he
    rcases he with rfl | rfl | rfl | rfl | rfl
    · simp [Ev.fits, Fits, exC, exConf]
    · simp [Ev.fits, Fits, exC, exConf]
    · trivial
    · trivial
    · trivial
  · have : (run (exC 1) (init 0 0 0) es).isSome = true := by decide +kernel
    cases hr : run (exC 1) (init 0 0 0) es with
    | none => rw [hr] at this; cases this
    | some s => rfl
  · decide +kernel
  · decide +kernel
  · decide +kernel

/-- The same run as in `C87_lost_false` with `fault_tolerant` 1: both messages arrive. -/
example : (run (exC 1) (init 0 0 0) exLost).map (fun s => (s.sent, s.got, s.up, s.fault)) = some ([[1], [2]], [[1], [2]], true, 0) := by
  decide +kernel

/-- Two nodes with a `msg_size` of 65536. -/
example : cansB (nodes ⟨65536, 96⟩ 192 0 10 256 exHash 1) (init 0 0 0) exLost = true ∧ Sizes.call ⟨65536, 96⟩ (.other 1) = .ok [1].length ∧
    (run (nodes ⟨65536, 96⟩ 192 0 10 256 exHash 1) (init 0 0 0) exLost).map (fun s => (s.sent, s.got, s.up)) =
      some ([[1], [2]], [[1], [2]], true) := ⟨by decide +kernel, rfl, by decide +kernel⟩

/-- The sending node leaves while the second message is still queued; it arrives all the same. -/
example : cansB (exC 1) (init 0 0 0) [.push [1] ok1, .push [2] ok1, .leave, .push [3] ok1, .read 4 [], .written ok1, .again, .read 8 [], .written ok1]
      = true ∧
    (run (exC 1) (init 0 0 0) [.push [1] ok1, .push [2] ok1, .leave, .push [3] ok1, .read 4 [], .written ok1, .again, .read 8 [], .written ok1]).map
      (fun s => (s.sent, s.got, s.c.closing, todo s)) = some ([[1], [2]], [[1], [2]], true, 0) := by decide +kernel

end Verif.Node.Stream
