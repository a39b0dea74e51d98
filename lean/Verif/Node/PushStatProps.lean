import Verif.Node.PushStat

/-!
C53.  The statistics of a connection against what is really waiting in its stream.
-/
namespace Verif.Node.PushStat

open Verif.IoStream

/-! ### Vocabulary -/

/-- A write completes only while one is in flight; the errors of the send buffer are the two its functions
return and no memory channel returns the error of a write that could not be started. -/
def LegalOp (s : S) : Op → Prop
  | .written _ => s.attached = true → s.chan.writing = true
  | .push m ev => m.length < 2 ^ 63 ∧ (∀ x, ev.ios.push = some x → x = Err.BUFF_LIMIT ∨ x = Err.MALLOC) ∧
      ev.mem ≠ Err.WRITE_FAILED
  | _ => True

/-- Every event of a history is legal when it happens. -/
def Legal (limit : Nat) (h : Hash) (s : S) : List Op → Prop
  | [] => True
  | o :: os => LegalOp s o ∧ ∀ r, step limit h s o = some r → Legal limit h r.1 os

/-- No push of zero bytes, and `disconnect` is only called by `reset` (as everywhere in the library). -/
def Regular (os : List Op) : Prop := Op.disconnect ∉ os ∧ ∀ ev, Op.push [] ev ∉ os

/-- Number and total size of the pushes since the last reset whose write could not be started. -/
def refused : Nat × Nat → List Op → List Int → Nat × Nat
  | a, .reset :: os, _ :: rs => (fun _ => refused (0, 0) os rs) a
  | a, .push m _ :: os, r :: rs => refused (if r = Err.WRITE_FAILED then (a.1 + 1, a.2 + m.length) else a) os rs
  | a, _ :: os, _ :: rs => refused a os rs
  | a, _, _ => a

/-- Total number of bytes. -/
def bytes (ms : List (List Byte)) : Nat := (ms.map List.length).sum

/-! ### Proofs -/

theorem bytes_append (a b : List (List Byte)) : bytes (a ++ b) = bytes a + bytes b := by
  simp [bytes]

theorem fold_att (cbs : List Cb) : ∀ s : S, s.attached = true →
    (cbs.foldl onWritten s).phase = s.phase ∧ (cbs.foldl onWritten s).fn = s.fn ∧
    (cbs.foldl onWritten s).chan = s.chan ∧ (cbs.foldl onWritten s).attached = true ∧
    (cbs.foldl onWritten s).stat.startN = s.stat.startN ∧ (cbs.foldl onWritten s).stat.startB = s.stat.startB ∧
    (cbs.foldl onWritten s).stat.okN + (cbs.foldl onWritten s).stat.badN = s.stat.okN + s.stat.badN + cbs.length ∧
    (cbs.foldl onWritten s).stat.okB + (cbs.foldl onWritten s).stat.badB =
      s.stat.okB + s.stat.badB + bytes (cbs.map Cb.data) := by
  induction cbs with
  | nil => intro s hs; simp [hs, bytes]
  | cons cb cbs ih =>
    intro s hs
    have h1 : (onWritten s cb).attached = true := by simp [onWritten, hs]
    obtain ⟨a, b, c, d, e, f, g, k⟩ := ih (onWritten s cb) h1
    simp only [List.foldl_cons]
    rw [a, b, c, e, f, g, k, d]
    simp only [onWritten, hs, if_true, List.length_cons, List.map_cons, bytes, List.sum_cons]
    by_cases hc : cb.code = Err.SUCCESS
    · simp only [hc, if_true, Stat.ok, true_and]
      omega
    · simp only [hc, if_false, Stat.bad, true_and]
      omega

/-- The law, with the double counted pushes `d`. -/
structure J (h : Hash) (s : S) (d : Nat × Nat) : Prop where
  law : ∃ waiting, (s.attached = true → ∃ blocks pushed cbs, SI h s.chan blocks pushed cbs ∧ waiting = blocks.flatten) ∧
    (s.attached = false → waiting = []) ∧
    s.stat.startN + d.1 = s.stat.okN + s.stat.badN + waiting.length ∧
    s.stat.startB + d.2 = s.stat.okB + s.stat.badB + bytes waiting
  ios : s.phase = .active → s.fn = .ios → s.attached = true
  act : s.attached = true → s.phase = .active

theorem J_init (h : Hash) : J h init (0, 0) :=
  ⟨⟨[], fun hh => (by cases hh), fun _ => rfl, rfl, rfl⟩, fun hh => (by cases hh), fun hh => (by cases hh)⟩

theorem tryWrite_ret (ev : Env) : ∀ (n : Nat) (c : SConn) (r : SConn × Int × List Cb), tryWrite ev n c = some r →
    r.2.1 = Err.SUCCESS ∨ r.2.1 = Err.WRITE_FAILED := by
  intro n
  induction n with
  | zero => intro c r hr; cases hr
  | succ n ih =>
    intro c r hr
    simp only [tryWrite] at hr
    split at hr
    · cases hr; exact Or.inl rfl
    · split at hr
      · cases hr; exact Or.inl rfl
      · split at hr
        · split at hr
          · cases hr
          · cases hr; exact Or.inl rfl
        · split at hr
          · cases hr
          · split at hr
            · exact ih _ _ hr
            · split at hr
              · cases hr; exact Or.inl rfl
              · cases hr; exact Or.inr rfl

theorem send_ret (limit : Nat) (h : Hash) (ev : Env) (c : SConn) (m : List Byte)
    (hp : ∀ x, ev.push = some x → x = Err.BUFF_LIMIT ∨ x = Err.MALLOC) (r : SConn × Int × List Cb)
    (hr : send limit h ev c m = some r) : r.2.1 = Err.SUCCESS ∨ r.2.1 = Err.WRITE_FAILED ∨ r.2.1 < 0 := by
  unfold send at hr
  split at hr
  · cases hr; exact Or.inr (Or.inr (by show (_ : Int) < 0; simp only; decide))
  · split at hr
    · cases hr; exact Or.inr (Or.inr (by show (_ : Int) < 0; simp only; decide))
    · split at hr
      · split at hr
        · rename_i e he
          cases hr
          rcases hp e he with rfl | rfl <;> exact Or.inr (Or.inr (by show (_ : Int) < 0; simp only; decide))
        · rcases tryWrite_ret _ _ _ _ hr with hx | hx
          · exact Or.inl hx
          · exact Or.inr (Or.inl hx)
      · rcases tryWrite_ret _ _ _ _ hr with hx | hx
        · exact Or.inl hx
        · exact Or.inr (Or.inl hx)

theorem SI_len {h : Hash} {c c' : SConn} {blocks blocks' : List (List (List Byte))} {pushed p : List (List Byte)} {cbs cbs' : List Cb}
    (hi : SI h c blocks pushed cbs) (hi' : SI h c' blocks' (pushed ++ p) (cbs ++ cbs')) :
    cbs'.length + blocks'.flatten.length = blocks.flatten.length + p.length ∧
    bytes (cbs'.map Cb.data) + bytes blocks'.flatten = bytes blocks.flatten + bytes p := by
  have h1 := hi.all
  have h2 := hi'.all
  rw [List.map_append, ← h1, List.append_assoc, List.append_assoc] at h2
  have h3 := List.append_cancel_left h2
  have a := congrArg List.length h3
  have b := congrArg bytes h3
  rw [bytes_append, bytes_append] at b
  simp only [List.length_append, List.length_map] at a
  exact ⟨a, b⟩

theorem J_push {limit : Nat} {h : Hash} {s : S} {d : Nat × Nat} (hj : J h s d) (m : List Byte) (hm : m ≠ []) (ev : PEnv)
    (hl : m.length < 2 ^ 63 ∧ (∀ x, ev.ios.push = some x → x = Err.BUFF_LIMIT ∨ x = Err.MALLOC) ∧ ev.mem ≠ Err.WRITE_FAILED) :
    ∃ s' r, push limit h ev s m = some (s', r) ∧
      J h s' (if r = Err.WRITE_FAILED then (d.1 + 1, d.2 + m.length) else d) ∧
      (r = Err.WRITE_FAILED → ev.ios.uvOk = false) := by
  obtain ⟨⟨w, w1, w2, w3, w4⟩, hios, hact⟩ := hj
  unfold push
  simp only
  split
  · rename_i hp
    refine ⟨_, _, rfl, ?_, fun hh => absurd hh (by decide)⟩
    rw [if_neg (by decide)]
    refine ⟨⟨w, w1, w2, ?_, ?_⟩, fun hh => absurd hh hp, hact⟩
    · simp only [Stat.bad, Stat.start]; omega
    · simp only [Stat.bad, Stat.start]; omega
  · rename_i hp
    have hp : s.phase = .active := by
      cases hq : s.phase <;> simp_all
    split
    · rename_i hf
      refine ⟨_, _, rfl, ?_, fun hh => absurd hh (by decide)⟩
      rw [if_neg (by decide)]
      refine ⟨⟨w, w1, w2, ?_, ?_⟩, hios, hact⟩
      · simp only [Stat.bad, Stat.start]; omega
      · simp only [Stat.bad, Stat.start]; omega
    · rename_i hf
      unfold memPush
      split
      · refine ⟨_, _, rfl, ?_, fun hh => absurd hh hl.2.2⟩
        rw [if_neg hl.2.2]
        refine ⟨⟨w, w1, w2, ?_, ?_⟩, hios, hact⟩
        · simp only [Stat.ok, Stat.start]; omega
        · simp only [Stat.ok, Stat.start]; omega
      · refine ⟨_, _, rfl, ?_, fun hh => absurd hh hl.2.2⟩
        rw [if_neg hl.2.2]
        refine ⟨⟨w, w1, w2, ?_, ?_⟩, hios, hact⟩
        · simp only [Stat.bad, Stat.start]; omega
        · simp only [Stat.bad, Stat.start]; omega
    · rename_i hf
      have hatt := hios hp hf
      obtain ⟨blocks, pushed, cbs, hi, rfl⟩ := w1 hatt
      obtain ⟨c', r, cbs', blocks', hs, hi', ⟨x, rfl, hx1, hx3, hx2⟩, -⟩ :=
        sstep_ok limit h s.chan blocks pushed cbs hi (.send m ev.ios) ⟨hl.1, hl.2.1⟩
      simp only [sstep, Option.map_eq_some_iff] at hs
      obtain ⟨⟨c1, x1, cbs1⟩, hs, he⟩ := hs
      simp only [Prod.mk.injEq, Option.some.injEq] at he
      obtain ⟨rfl, rfl, rfl⟩ := he
      have hret := send_ret limit h ev.ios s.chan m hl.2.1 _ hs
      simp only at hret
      obtain ⟨l1, l2⟩ := SI_len hi hi'
      obtain ⟨a, b, c, e, f, g, k, l⟩ := fold_att cbs1 { s with stat := s.stat.start m.length, chan := c1 } hatt
      unfold iosPush
      simp only [hs]
      refine ⟨_, _, rfl, ?_, hx2⟩
      obtain ⟨s1, hs1⟩ : ∃ s1 : S, s1 = cbs1.foldl onWritten { s with stat := s.stat.start m.length, chan := c1 } := ⟨_, rfl⟩
      rw [← hs1] at a b c e f g k l ⊢
      have c : s1.chan = c1 := c
      have hi2 : SI h s1.chan blocks' (pushed ++ (SEv.send m ev.ios).pushes limit s.chan) (cbs ++ cbs1) := by rw [c]; exact hi'
      simp only [Stat.start] at f g k l
      by_cases hpu : (SEv.send m ev.ios).pushes limit s.chan = [m]
      · have hx := (hx1.mpr hpu).1
        rw [hpu] at l1 l2
        have lb : bytes [m] = m.length := by simp [bytes]
        rw [lb] at l2
        simp only [List.length_singleton] at l1
        rcases hx with rfl | rfl
        · rw [if_neg (by decide), if_neg (by decide)]
          refine ⟨⟨blocks'.flatten, fun _ => ⟨blocks', _, _, hi2, rfl⟩, fun hh => ?_, ?_, ?_⟩, fun _ _ => e, fun _ => a.trans (hact hatt)⟩
          · rw [e] at hh; cases hh
          · omega
          · omega
        · rw [if_pos (by decide), if_pos rfl]
          refine ⟨⟨blocks'.flatten, fun _ => ⟨blocks', _, _, hi2, rfl⟩, fun hh => ?_, ?_, ?_⟩, fun _ _ => e, fun _ => a.trans (hact hatt)⟩
          · exact absurd (e.symm.trans hh) (by decide)
          · simp only [Stat.bad]; omega
          · simp only [Stat.bad]; omega
      · have hpn : (SEv.send m ev.ios).pushes limit s.chan = [] := by
          by_cases hz : (SEv.send m ev.ios).pushes limit s.chan = []
          · exact hz
          · exact absurd (hx3 hz) hpu
        have hxn : ¬ (x1 = Err.SUCCESS ∨ x1 = Err.WRITE_FAILED) := fun hh => hpu (hx1.mp ⟨hh, hm⟩)
        have hneg : x1 < 0 := by
          rcases hret with hh | hh | hh
          · exact absurd (Or.inl hh) hxn
          · exact absurd (Or.inr hh) hxn
          · exact hh
        rw [hpn] at l1 l2
        have lb : bytes [] = 0 := rfl
        rw [lb] at l2
        simp only [List.length_nil] at l1
        rw [if_pos hneg, if_neg (fun hh => hxn (Or.inr hh))]
        refine ⟨⟨blocks'.flatten, fun _ => ⟨blocks', _, _, hi2, rfl⟩, fun hh => ?_, ?_, ?_⟩, fun _ _ => e, fun _ => a.trans (hact hatt)⟩
        · exact absurd (e.symm.trans hh) (by decide)
        · simp only [Stat.bad]; omega
        · simp only [Stat.bad]; omega

theorem J_written {limit : Nat} {h : Hash} {s : S} {d : Nat × Nat} (hj : J h s d) (ev : Env)
    (hl : s.attached = true → s.chan.writing = true) :
    ∃ s' r, step limit h s (.written ev) = some (s', r) ∧ J h s' d := by
  unfold step
  cases hatt : s.attached with
  | false => exact ⟨_, _, rfl, hj⟩
  | true =>
    obtain ⟨⟨w, w1, w2, w3, w4⟩, hios, hact⟩ := hj
    obtain ⟨blocks, pushed, cbs, hi, rfl⟩ := w1 hatt
    obtain ⟨c', r, cbs', blocks', hs, hi', -, -⟩ := sstep_ok limit h s.chan blocks pushed cbs hi (.written ev) (hl hatt)
    simp only [sstep, Option.map_eq_some_iff] at hs
    obtain ⟨⟨c1, cbs1⟩, hs, he⟩ := hs
    simp only [Prod.mk.injEq] at he
    obtain ⟨rfl, rfl, rfl⟩ := he
    obtain ⟨l1, l2⟩ := SI_len hi hi'
    have lb : bytes [] = 0 := rfl
    simp only [SEv.pushes, lb, List.length_nil] at l1 l2
    obtain ⟨a, b, c, e, f, g, k, l⟩ := fold_att cbs1 { s with chan := c1 } hatt
    simp only [if_true, hs]
    refine ⟨_, _, rfl, ?_⟩
    obtain ⟨s1, hs1⟩ : ∃ s1 : S, s1 = cbs1.foldl onWritten { s with chan := c1 } := ⟨_, rfl⟩
    have hx : { s with chan := c1, attached := true } = { s with chan := c1 } := by rw [← hatt]
    rw [← hs1] at a b c e f g k l
    rw [hx, ← hs1]
    have c : s1.chan = c1 := c
    have hi2 : SI h s1.chan blocks' (pushed ++ (SEv.written ev).pushes limit s.chan) (cbs ++ cbs1) := by rw [c]; exact hi'
    simp only at f g k l
    refine ⟨⟨blocks'.flatten, fun _ => ⟨blocks', _, _, hi2, rfl⟩, fun hh => ?_, ?_, ?_⟩, fun _ _ => e, fun _ => a.trans (hact hatt)⟩
    · rw [e] at hh; cases hh
    · omega
    · omega

def nextD (d : Nat × Nat) (r : Int) : Op → Nat × Nat
  | .reset => (0, 0)
  | .push m _ => if r = Err.WRITE_FAILED then (d.1 + 1, d.2 + m.length) else d
  | _ => d

def uvBad (r : Int) : Op → Prop
  | .push _ ev => r = Err.WRITE_FAILED → ev.ios.uvOk = false
  | _ => True

theorem J_step {limit : Nat} {h : Hash} {s : S} {d : Nat × Nat} (hj : J h s d) (o : Op) (hne : o ≠ .disconnect)
    (hnp : ∀ ev, o ≠ .push [] ev)
    (hl : LegalOp s o) : ∃ s' r, step limit h s o = some (s', r) ∧ J h s' (nextD d r o) ∧ uvBad r o := by
  cases o with
  | disconnect => exact absurd rfl hne
  | push m ev => exact J_push hj m (fun hh => hnp ev (by rw [hh])) ev hl
  | written ev =>
    obtain ⟨s', r, a, b⟩ := J_written (limit := limit) hj ev hl
    exact ⟨s', r, a, b, trivial⟩
  | connecting =>
    refine ⟨_, _, rfl, ?_, trivial⟩
    split
    · rename_i hp
      exact ⟨hj.law, fun hh => (by cases hh), fun hh => absurd (hj.act hh) (by rw [hp]; decide)⟩
    · exact hj
  | stream =>
    refine ⟨_, _, rfl, ?_, trivial⟩
    split
    · rename_i hatt
      obtain ⟨⟨w, w1, w2, w3, w4⟩, hios, hact⟩ := hj
      have := w2 hatt
      subst this
      exact ⟨⟨[], fun _ => ⟨[], [], [], sinit_ok h, rfl⟩, fun _ => rfl, w3, w4⟩, fun _ _ => rfl, fun _ => rfl⟩
    · exact hj
  | listen =>
    refine ⟨_, _, rfl, ?_, trivial⟩
    split
    · exact ⟨hj.law, fun _ hh => (by cases hh), fun _ => rfl⟩
    · exact hj
  | memory =>
    refine ⟨_, _, rfl, ?_, trivial⟩
    split
    · exact ⟨hj.law, fun _ hh => (by cases hh), fun _ => rfl⟩
    · exact hj
  | shut f =>
    refine ⟨_, _, rfl, ?_, trivial⟩
    split
    · rename_i hatt
      obtain ⟨⟨w, w1, w2, w3, w4⟩, hios, hact⟩ := hj
      obtain ⟨blocks, pushed, cbs, hi, rfl⟩ := w1 hatt
      obtain ⟨c', r, cbs', blocks', hs, hi', -, -⟩ := sstep_ok limit h s.chan blocks pushed cbs hi (.disconnect f) trivial
      simp only [sstep, Option.some.injEq, Prod.mk.injEq] at hs
      obtain ⟨rfl, rfl, rfl⟩ := hs
      obtain ⟨l1, l2⟩ := SI_len hi hi'
      have lb : bytes [] = 0 := rfl
      simp only [SEv.pushes, lb, List.length_nil, List.map_nil] at l1 l2
      refine ⟨⟨blocks'.flatten, fun _ => ⟨blocks', _, _, hi', rfl⟩, fun hh => ?_, ?_, ?_⟩, hios, hact⟩
      · exact absurd (hatt.symm.trans hh) (by decide)
      · simp only [nextD]; omega
      · simp only [nextD]; omega
    · exact hj
  | reset =>
    refine ⟨_, _, rfl, ?_, trivial⟩
    obtain ⟨⟨w, w1, w2, w3, w4⟩, hios, hact⟩ := hj
    unfold reset disconnect
    split
    · rename_i hp
      have hatt : s.attached ≠ true := fun hh => absurd (hact hh) (by rw [hp]; decide)
      exact ⟨⟨[], fun hh => absurd hh hatt, fun _ => rfl, rfl, rfl⟩, hios, hact⟩
    · exact ⟨⟨[], fun hh => (by cases hh), fun _ => rfl, rfl, rfl⟩, fun hh => (by cases hh), fun hh => (by cases hh)⟩

/-- The accounting of a history from any state. -/
theorem J_run (limit : Nat) (h : Hash) (os : List Op) : ∀ (s : S) (d : Nat × Nat), J h s d → Regular os → Legal limit h s os →
    ∃ s' rs, run limit h s os = some (s', rs) ∧ J h s' (refused d os rs) ∧
      ((∀ m ev, Op.push m ev ∈ os → ev.ios.uvOk = true) → d = (0, 0) → refused d os rs = (0, 0)) := by
  induction os with
  | nil => intro s d hj _ _; exact ⟨s, [], rfl, by simpa [refused] using hj, fun _ hd => by simpa [refused] using hd⟩
  | cons o os ih =>
    intro s d hj hr hl
    obtain ⟨s1, r, hs, hj1, hu⟩ := J_step (limit := limit) hj o (fun hh => hr.1 (by simp [hh])) (fun ev hh => hr.2 ev (by simp [hh])) hl.1
    have hr1 : Regular os := ⟨fun hh => hr.1 (List.mem_cons_of_mem _ hh), fun ev hh => hr.2 ev (List.mem_cons_of_mem _ hh)⟩
    obtain ⟨s', rs, hrun, hj', hz⟩ := ih s1 _ hj1 hr1 (hl.2 _ hs)
    refine ⟨s', r :: rs, by simp only [run, hs, hrun], ?_, ?_⟩
    · cases o <;> simpa only [refused, nextD] using hj'
    · intro huv hd
      have huv' := fun m ev hm => huv m ev (List.mem_cons_of_mem _ hm)
      cases o with
      | push m ev =>
        simp only [refused]
        refine hz huv' ?_
        have : ¬ r = Err.WRITE_FAILED := fun hh => by
          have h1 := hu hh
          rw [huv m ev (List.mem_cons_self ..)] at h1
          cases h1
        simp only [nextD]; rw [if_neg this]; exact hd
      | reset => simp only [refused]; exact hz huv' rfl
      | _ => simp only [refused]; exact hz huv' hd

/-- The law behind C53 for every history: pushes started, plus those whose write could not be started, are the
successful, the failed and the waiting ones.  A push whose write cannot be started is counted as failed although
its message stays in the queue, and is counted once more when that message is written. -/
theorem C53_law (limit : Nat) (h : Hash) (os : List Op) (hr : Regular os) (hl : Legal limit h init os) :
    ∃ s rs waiting, run limit h init os = some (s, rs) ∧
      (s.attached = true → s.chan.q.flatten = frames h waiting) ∧ (s.attached = false → waiting = []) ∧
      s.stat.startN + (refused (0, 0) os rs).1 = s.stat.okN + s.stat.badN + waiting.length ∧
      s.stat.startB + (refused (0, 0) os rs).2 = s.stat.okB + s.stat.badB + bytes waiting := by
  obtain ⟨s, rs, hrun, ⟨⟨w, w1, w2, w3, w4⟩, -, -⟩, -⟩ := J_run limit h os init (0, 0) (J_init h) hr hl
  refine ⟨s, rs, w, hrun, fun hatt => ?_, w2, w3, w4⟩
  obtain ⟨blocks, pushed, cbs, hi, rfl⟩ := w1 hatt
  rw [hi.q, flatten_frames]

/-- C53 if `uv_write` accepts every request made by a push: at any time, in number and in bytes, the
pushes started are the successful, the failed and the waiting ones. -/
theorem C53_account_partial (limit : Nat) (h : Hash) (os : List Op) (hr : Regular os) (hl : Legal limit h init os)
    (huv : ∀ m ev, Op.push m ev ∈ os → ev.ios.uvOk = true) :
    ∃ s rs waiting, run limit h init os = some (s, rs) ∧
      (s.attached = true → s.chan.q.flatten = frames h waiting) ∧ (s.attached = false → waiting = []) ∧
      s.stat.startN = s.stat.okN + s.stat.badN + waiting.length ∧
      s.stat.startB = s.stat.okB + s.stat.badB + bytes waiting := by
  obtain ⟨s, rs, hrun, ⟨⟨w, w1, w2, w3, w4⟩, -, -⟩, hz⟩ := J_run limit h os init (0, 0) (J_init h) hr hl
  rw [hz huv rfl] at w3 w4
  refine ⟨s, rs, w, hrun, fun hatt => ?_, w2, w3, w4⟩
  obtain ⟨blocks, pushed, cbs, hi, rfl⟩ := w1 hatt
  rw [hi.q, flatten_frames]

/-- Number and total size of the pushes since the last reset with a certain result. -/
def since (p : Int → Bool) : Nat × Nat → List Op → List Int → Nat × Nat
  | a, .reset :: os, _ :: rs => (fun _ => since p (0, 0) os rs) a
  | a, .push m _ :: os, r :: rs => since p (if p r then (a.1 + 1, a.2 + m.length) else a) os rs
  | a, _ :: os, _ :: rs => since p a os rs
  | a, _, _ => a

theorem since_run (limit : Nat) (h : Hash) (os : List Op) : ∀ (s : S), s.fn ≠ .ios → s.attached = false → Op.stream ∉ os →
    ∃ s' rs, run limit h s os = some (s', rs) ∧
      since (fun r => decide (0 ≤ r)) (s.stat.okN, s.stat.okB) os rs = (s'.stat.okN, s'.stat.okB) ∧
      since (fun r => decide (r < 0)) (s.stat.badN, s.stat.badB) os rs = (s'.stat.badN, s'.stat.badB) := by
  induction os with
  | nil => intro s _ _ _; exact ⟨s, [], rfl, rfl, rfl⟩
  | cons o os ih =>
    intro s hf ha hn
    have hn' : Op.stream ∉ os := fun hh => hn (List.mem_cons_of_mem _ hh)
    cases o with
    | stream => exact absurd List.mem_cons_self hn
    | connecting =>
      obtain ⟨s', rs, h1, h2, h3⟩ := ih (if s.phase = .idle then { s with phase := .connecting } else s)
        (by split <;> exact hf) (by split <;> exact ha) hn'
      refine ⟨s', 0 :: rs, by simp only [run, step, h1], ?_, ?_⟩
      · rw [← h2]; simp only [since]; split <;> rfl
      · rw [← h3]; simp only [since]; split <;> rfl
    | listen =>
      obtain ⟨s', rs, h1, h2, h3⟩ := ih (if s.phase ≠ .active ∧ s.attached = false then { s with phase := .active, fn := .none } else s)
        (by split <;> first | exact hf | exact fun hh => by cases hh) (by split <;> exact ha) hn'
      refine ⟨s', 0 :: rs, by simp only [run, step, h1], ?_, ?_⟩
      · rw [← h2]; simp only [since]; split <;> rfl
      · rw [← h3]; simp only [since]; split <;> rfl
    | memory =>
      obtain ⟨s', rs, h1, h2, h3⟩ := ih (if s.phase = .idle then { s with phase := .active, fn := .mem } else s)
        (by split <;> first | exact hf | exact fun hh => by cases hh) (by split <;> exact ha) hn'
      refine ⟨s', 0 :: rs, by simp only [run, step, h1], ?_, ?_⟩
      · rw [← h2]; simp only [since]; split <;> rfl
      · rw [← h3]; simp only [since]; split <;> rfl
    | push m ev =>
      have key : ∃ s1 r, push limit h ev s m = some (s1, r) ∧ s1.fn = s.fn ∧ s1.attached = s.attached ∧
          (0 ≤ r → s1.stat.okN = s.stat.okN + 1 ∧ s1.stat.okB = s.stat.okB + m.length ∧
            s1.stat.badN = s.stat.badN ∧ s1.stat.badB = s.stat.badB) ∧
          (r < 0 → s1.stat.badN = s.stat.badN + 1 ∧ s1.stat.badB = s.stat.badB + m.length ∧
            s1.stat.okN = s.stat.okN ∧ s1.stat.okB = s.stat.okB) := by
        unfold push
        simp only
        split
        · exact ⟨_, _, rfl, rfl, rfl, fun hh => absurd hh (by decide), fun _ => ⟨rfl, rfl, rfl, rfl⟩⟩
        · split
          · exact ⟨_, _, rfl, rfl, rfl, fun hh => absurd hh (by decide), fun _ => ⟨rfl, rfl, rfl, rfl⟩⟩
          · unfold memPush
            split
            · next hm => exact ⟨_, _, rfl, rfl, rfl, fun _ => ⟨rfl, rfl, rfl, rfl⟩, fun hh => by omega⟩
            · next hm => exact ⟨_, _, rfl, rfl, rfl, fun hh => absurd hh hm, fun _ => ⟨rfl, rfl, rfl, rfl⟩⟩
          · next hi => exact absurd hi hf
      obtain ⟨s1, r, h0, hf1, ha1, hok, hbad⟩ := key
      obtain ⟨s', rs, h1, h2, h3⟩ := ih s1 (by rw [hf1]; exact hf) (by rw [ha1]; exact ha) hn'
      refine ⟨s', r :: rs, by simp only [run, step, h0, h1], ?_, ?_⟩
      · rw [← h2]
        simp only [since]
        by_cases hr : 0 ≤ r
        · simp only [hr, decide_true, if_true, hok hr]
        · have hb := hbad (by omega)
          simp only [hr, decide_false, hb]; rfl
      · rw [← h3]
        simp only [since]
        by_cases hr : r < 0
        · simp only [hr, decide_true, if_true, hbad hr]
        · have hb := hok (by omega)
          simp only [hr, decide_false, hb]; rfl
    | written ev =>
      obtain ⟨s', rs, h1, h2, h3⟩ := ih s hf ha hn'
      exact ⟨s', 0 :: rs, by simp [run, step, ha, h1], by simpa only [since] using h2, by simpa only [since] using h3⟩
    | shut f =>
      obtain ⟨s', rs, h1, h2, h3⟩ := ih s hf ha hn'
      exact ⟨s', 0 :: rs, by simp [run, step, ha, h1], by simpa only [since] using h2, by simpa only [since] using h3⟩
    | disconnect =>
      obtain ⟨s', rs, h1, h2, h3⟩ := ih (disconnect s) (by unfold disconnect; split <;> first | exact hf | exact fun hh => by cases hh)
        (by unfold disconnect; split <;> first | exact ha | rfl) hn'
      refine ⟨s', 0 :: rs, by simp only [run, step, h1], ?_, ?_⟩
      · rw [← h2]; simp only [since]; unfold disconnect; split <;> rfl
      · rw [← h3]; simp only [since]; unfold disconnect; split <;> rfl
    | reset =>
      obtain ⟨s', rs, h1, h2, h3⟩ := ih (reset s)
        (by unfold reset disconnect; split <;> first | exact hf | exact fun hh => by cases hh)
        (by unfold reset disconnect; split <;> first | exact ha | rfl) hn'
      refine ⟨s', 0 :: rs, by simp only [run, step, h1], ?_, ?_⟩
      · rw [← h2]; simp only [since]; rfl
      · rw [← h3]; simp only [since]; rfl

/-- C53 for a connection that is not a stream: the successful pushes are those that returned no error, the failed ones those
that returned one, in number and in bytes. -/
theorem C53_results (limit : Nat) (h : Hash) (os : List Op) (hn : Op.stream ∉ os) :
    ∃ s rs, run limit h init os = some (s, rs) ∧
      since (fun r => decide (0 ≤ r)) (0, 0) os rs = (s.stat.okN, s.stat.okB) ∧
      since (fun r => decide (r < 0)) (0, 0) os rs = (s.stat.badN, s.stat.badB) :=
  since_run limit h os init (by intro hh; cases hh) rfl hn

example : (run 0 (fun _ => (0, 0, 0, 0)) init [.push [1] ⟨⟨none, 1, true⟩, 0⟩, .memory, .push [1, 2] ⟨⟨none, 1, true⟩, 0⟩,
    .push [3] ⟨⟨none, 1, true⟩, -203⟩]).map (fun r => (r.1.stat.okN, r.1.stat.okB, r.1.stat.badN, r.1.stat.badB)) =
    some (1, 2, 2, 2) := by decide +kernel

/-! ### Where C53 fails -/

/-- `Legal` as a computation. -/
def legalB (limit : Nat) (h : Hash) (s : S) : List Op → Bool
  | [] => true
  | o :: os =>
    (match o with
      | .written _ => !s.attached || s.chan.writing
      | .push m ev => decide (m.length < 2 ^ 63) && (ev.ios.push == none) && decide (ev.mem ≠ Err.WRITE_FAILED)
      | _ => true) &&
    (match step limit h s o with
      | none => true
      | some r => legalB limit h r.1 os)

theorem legalB_sound (limit : Nat) (h : Hash) (os : List Op) : ∀ s, legalB limit h s os = true → Legal limit h s os := by
  induction os with
  | nil => intro s _; trivial
  | cons o os ih =>
    intro s hb
    simp only [legalB, Bool.and_eq_true] at hb
    refine ⟨?_, fun r hr => ?_⟩
    · cases o with
      | written ev =>
        intro hatt
        simpa [hatt] using hb.1
      | push m ev =>
        simp only [Bool.and_eq_true, decide_eq_true_eq, beq_iff_eq] at hb
        exact ⟨hb.1.1.1, fun x hx => (by rw [hb.1.1.2] at hx; cases hx), hb.1.2⟩
      | _ => trivial
    · have := hb.2
      rw [hr] at this
      exact ih _ this

def wHash : Hash := fun p => (p.headD 0, 0, 0, 0)

/-- C53 fails when `uv_write` refuses a request: two pushes, but one success, one failure and one waiting. -/
theorem C53_write_refused_false : ∃ limit h os s rs waiting, Regular os ∧ Legal limit h init os ∧
    run limit h init os = some (s, rs) ∧ s.attached = true ∧ s.chan.q.flatten = frames h waiting ∧
    s.stat.startN = 2 ∧ s.stat.okN = 1 ∧ s.stat.badN = 1 ∧ waiting.length = 1 := by
  refine ⟨0, wHash, [.connecting, .stream, .push [1] ⟨⟨none, 1, false⟩, 0⟩, .push [2] ⟨⟨none, 1, true⟩, 0⟩, .written ⟨none, 1, true⟩],
    ⟨.active, .ios, ⟨2, 2, 1, 1, 1, 1⟩, ⟨[[2, 0, 0, 0, 1, 2]], true, false, true, [1, 0, 0, 0, 1, 1, 2, 0, 0, 0, 1, 2]⟩, true⟩,
    [0, 0, Err.WRITE_FAILED, 0, 0], [[2]], ⟨by decide, fun ev => by simp⟩, ?_, ?_, rfl, ?_, rfl, rfl, rfl, rfl⟩
  · exact legalB_sound _ _ _ _ (by decide +kernel)
  · decide +kernel
  · decide +kernel

/-- C53 fails for a push of zero bytes into a stream: it is started, and nothing else ever happens to it. -/
theorem C53_empty_false : ∃ limit h os s rs, Op.disconnect ∉ os ∧ Legal limit h init os ∧
    run limit h init os = some (s, rs) ∧ s.attached = true ∧ s.chan.q = [] ∧
    s.stat.startN = 1 ∧ s.stat.okN = 0 ∧ s.stat.badN = 0 := by
  refine ⟨0, wHash, [.connecting, .stream, .push [] ⟨⟨none, 1, true⟩, 0⟩],
    ⟨.active, .ios, ⟨1, 0, 0, 0, 0, 0⟩, sinit, true⟩, [0, 0, 0], by decide, ?_, ?_, rfl, rfl, rfl, rfl, rfl⟩
  · exact legalB_sound _ _ _ _ (by decide +kernel)
  · decide +kernel

/-- C53 fails when the application calls `disconnect` without `reset`: the pushes waiting in the stream are never
reported. -/
theorem C53_disconnect_false : ∃ limit h os s rs, (∀ ev, Op.push [] ev ∉ os) ∧ Legal limit h init os ∧
    (∀ m ev, Op.push m ev ∈ os → ev.ios.uvOk = true) ∧
    run limit h init os = some (s, rs) ∧ s.attached = false ∧ s.stat.startN = 1 ∧ s.stat.okN = 0 ∧ s.stat.badN = 0 := by
  refine ⟨0, wHash, [.connecting, .stream, .push [1] ⟨⟨none, 1, true⟩, 0⟩, .disconnect, .written ⟨none, 1, true⟩],
    ⟨.idle, .none, ⟨1, 1, 0, 0, 0, 0⟩, ⟨[[1, 0, 0, 0, 1, 1]], true, false, false, [1, 0, 0, 0, 1, 1]⟩, false⟩, [0, 0, 0, 0, 0],
    fun ev => by simp, ?_, ?_, ?_, rfl, rfl, rfl, rfl⟩
  · exact legalB_sound _ _ _ _ (by decide +kernel)
  · intro m ev hh
    simp at hh
    rw [hh.2]
  · decide +kernel

/-! ### Examples -/

def exOps : List Op :=
  [.push [9] ⟨⟨none, 1, true⟩, 0⟩, .connecting, .stream, .push [1, 2] ⟨⟨none, 1, true⟩, 0⟩, .push [3] ⟨⟨none, 1, true⟩, 0⟩,
    .push [4] ⟨⟨none, 1, true⟩, 0⟩, .written ⟨none, 2, true⟩, .shut true, .push [5] ⟨⟨none, 1, true⟩, 0⟩]

/-- Five pushes: two fail at once, one is written, two are waiting. -/
example : (run 0 wHash init exOps).map (fun r => (r.1.stat, r.1.chan.q.length)) =
    some (⟨5, 6, 1, 2, 2, 2⟩, 1) := by decide +kernel

example : Regular exOps ∧ Legal 0 wHash init exOps ∧ ∀ m ev, Op.push m ev ∈ exOps → ev.ios.uvOk = true := by
  refine ⟨⟨by decide, fun ev => by simp [exOps]⟩, legalB_sound _ _ _ _ (by decide +kernel), ?_⟩
  intro m ev hh
  simp [exOps] at hh
  rcases hh with hh | hh | hh | hh | hh <;> rw [hh.2]

end Verif.Node.PushStat
