import Verif.Node.Loop

/-!
C102: which settings a node and its streams have, and on which loop they run.
-/
namespace Verif.Node.Loop

/-! ### Specification -/

/-- The settings that the documentation promises for none. -/
def standard : Conf where
  evLoop := none
  subnets := []
  flags := 0
  parentAddress := []
  loopTimes := 128
  ttl := 16
  version := 2
  minimal := 2
  backlog := 128
  firstIdle := 30
  pingInterval := 8
  retryInterval := 3
  faultTolerant := 2
  tokenMax := 5
  tokens := []
  msgSize := 262144
  recvSize := 8388608
  sendSize := 2097152
  sendNumber := 0

/-- The loop that settings ask for. -/
def wanted (c : Conf) : Lp :=
  match c.evLoop with
  | some n => .app n
  | none => .dflt

/-- The channel has the settings of the node. -/
structure Fits (pad : Nat) (i : IoConf) (c : Conf) : Prop where
  recvLimit : i.recvLimit = c.msgSize + 1024
  recvMax : i.recvMax = 2 * c.msgSize + 2048
  sendLimit : i.sendLimit = c.msgSize + 1024 + pad
  sendMax : i.sendMax = c.sendSize
  sendStatic : i.sendStatic = c.sendNumber
  confirm : i.confirm = c.firstIdle
  backlog : i.backlog = c.backlog
  other : i.keepalive = 60 ∧ i.noblock = true ∧ i.nodelay = true ∧ i.recvStatic = 0

/-- The channel is not asked for before the node is initialised (or after it is reset): `es` from state `s` on. -/
def Late (pad : Nat) : S → List Ev → Prop
  | _, [] => True
  | s, e :: es => (e = .getChannel → s.created = false) ∧ ∀ s', step pad s e = some s' → Late pad s' es

/-! ### Settings -/

/-- C102 (copies): a copy of settings has all of them, whatever was there before. -/
theorem C102_copy (this other : Conf) : assign this other = other := by
  cases this; cases other; rfl

/-- C102 (defaults): all settings get their defaults, whatever was there before. -/
theorem C102_default (this : Conf) : setDefault this = standard := by
  cases this; rfl

/-- C102 (init): after `init` the settings are those given (or the defaults), of the access tokens as many as the limit allows, and the version
of the protocol is the one of the code; nothing of an earlier life of the node is left. -/
theorem C102_init (pad : Nat) (s s' : S) (conf : Option Conf) (h : step pad s (.init conf) = some s') :
    s'.conf = { conf.getD standard with tokens := (conf.getD standard).tokens.take (conf.getD standard).tokenMax, version := 2, minimal := 2 } ∧
      s'.created = false ∧ s'.evLoop = (conf.getD standard).evLoop.map .app := by
  have key : ∀ old : Conf, initConf old conf =
      { conf.getD standard with tokens := (conf.getD standard).tokens.take (conf.getD standard).tokenMax, version := 2, minimal := 2 } := by
    intro old
    unfold initConf
    cases conf with
    | none => simp only [C102_default, Option.getD_none]; rfl
    | some c =>
      simp only [C102_copy, Option.getD_some]
      split
      · rfl
      · next hl => rw [List.take_of_length_le (by omega)]
  simp only [step] at h
  split at h
  · cases h
  · cases h
    rw [key]
    exact ⟨rfl, rfl, rfl⟩

/-! ### The channel -/

structure Inv (pad : Nat) (s : S) : Prop where
  chan : ∀ c, s.chan = some c → s.created = false ∧ s.evLoop = c.loop ∧ c.loop = some (wanted s.conf) ∧ c.conf = ioConf pad s.conf
  iconf : ∀ i, s.iconf = some i → s.chan ≠ none
  loop : s.created = false → ∀ l, s.evLoop = some l → l = wanted s.conf
  refs : s.refs ≠ 0 → s.chan ≠ none

theorem inv_new (pad : Nat) (junk : Conf) : Inv pad (new junk) := by
  constructor <;> simp [new]

theorem evloop_of {s : S} (hc : s.created = false) (hl : ∀ l, s.evLoop = some l → l = wanted s.conf) :
    getEvloop s = ({ s with evLoop := some (wanted s.conf) }, some (wanted s.conf)) := by
  unfold getEvloop
  rw [if_neg (by simp [hc])]
  split
  · next l h =>
    have := hl l h
    subst this
    rw [← h]
  · next h =>
    split
    · next n hn => simp [wanted, hn]
    · next hn => simp [wanted, hn]

theorem inv_evloop {pad : Nat} {s : S} (i : Inv pad s) : Inv pad (getEvloop s).1 := by
  by_cases hc : s.created = true
  · unfold getEvloop
    rw [if_pos hc]
    exact i
  · simp only [Bool.not_eq_true] at hc
    rw [evloop_of hc (i.loop hc)]
    refine ⟨fun c h => ?_, i.iconf, fun _ l h => ?_, i.refs⟩
    · obtain ⟨h1, h2, h3, h4⟩ := i.chan c h
      exact ⟨h1, h3.symm, h3, h4⟩
    · exact (Option.some.inj h).symm

theorem inv_getChannel {pad : Nat} {s : S} (i : Inv pad s) (hc : s.created = false) :
    Inv pad (getChannel pad s) ∧ (getChannel pad s).chan ≠ none ∧ (getChannel pad s).created = false := by
  unfold getChannel
  split
  · next c h => exact ⟨i, by simp [h], hc⟩
  · next h =>
    rw [evloop_of hc (i.loop hc)]
    have hi : s.iconf = none := by
      cases h' : s.iconf with
      | none => rfl
      | some x => exact absurd h (i.iconf x h')
    simp only [getIoConf, hi]
    refine ⟨⟨fun c h => ?_, by simp, fun _ l h => (Option.some.inj h).symm, by simp⟩, by simp, hc⟩
    cases h
    exact ⟨hc, rfl, rfl, rfl⟩

theorem reset_ok {pad : Nat} {s : S} (i : Inv pad s) : ∃ s', reset s = some s' ∧ Inv pad s' ∧ s'.created = true ∧ s'.chan = none ∧ s'.refs = 0 := by
  unfold reset
  simp only
  split
  · exact ⟨_, rfl, ⟨by simp, by simp, by simp, by simp⟩, rfl, rfl, rfl⟩
  · next hr =>
    have hn := i.refs hr
    cases hch : s.chan with
    | none => exact absurd hch hn
    | some c =>
      obtain ⟨h1, h2, h3, h4⟩ := i.chan c hch
      rw [evloop_of h1 (i.loop h1)]
      simp only [hch, h3, ne_eq, reduceCtorEq, not_false_eq_true, and_self, if_true]
      exact ⟨_, rfl, ⟨by simp, by simp, by simp, by simp⟩, rfl, rfl, rfl⟩

theorem inv_step {pad : Nat} {s : S} {e : Ev} (i : Inv pad s) (he : e = .getChannel → s.created = false) : ∃ s', step pad s e = some s' ∧ Inv pad s' := by
  cases e with
  | init conf =>
    have key : ∃ s1, (if s.created then some s else reset s) = some s1 ∧ s1.chan = none ∧ s1.iconf = none ∧ s1.refs = 0 := by
      split
      · next hc =>
        have hch : s.chan = none := by
          cases h : s.chan with
          | none => rfl
          | some c => have := (i.chan c h).1; simp [hc] at this
        refine ⟨s, rfl, hch, ?_, ?_⟩
        · cases h : s.iconf with
          | none => rfl
          | some x => exact absurd hch (i.iconf x h)
        · by_cases hr : s.refs = 0
          · exact hr
          · exact absurd hch (i.refs hr)
      · obtain ⟨s', h1, h2, h3, h4, h5⟩ := reset_ok i
        refine ⟨s', h1, h4, ?_, h5⟩
        cases h : s'.iconf with
        | none => rfl
        | some x => exact absurd h4 (h2.iconf x h)
    obtain ⟨s1, h1, h2, h3, h4⟩ := key
    simp only [step, h1]
    refine ⟨_, rfl, ⟨by simp [h2], by simp [h3], ?_, by simp [h4]⟩⟩
    intro _ l hl
    simp only [Option.map_eq_some_iff] at hl
    obtain ⟨n, hn, rfl⟩ := hl
    simp [wanted, hn]
  | reset =>
    obtain ⟨s', h1, h2, -⟩ := reset_ok i
    exact ⟨s', h1, h2⟩
  | getEvloop => exact ⟨_, rfl, inv_evloop i⟩
  | getChannel => exact ⟨_, rfl, (inv_getChannel i (he rfl)).1⟩
  | op =>
    simp only [step]
    split
    · exact ⟨s, rfl, i⟩
    · next hc =>
      simp only [Bool.not_eq_true] at hc
      obtain ⟨j, hj, hcr⟩ := inv_getChannel i hc
      refine ⟨_, rfl, ?_⟩
      generalize getChannel pad s = t at j hj hcr
      cases h : t.chan with
      | none => exact absurd h hj
      | some c =>
        obtain ⟨h1, h2, h3, h4⟩ := j.chan c h
        have hg : getLoop c = c := by unfold getLoop; rw [h3]
        refine ⟨fun d hd => ?_, by simp, j.loop, by simp⟩
        simp only [Option.map_some, Option.some.injEq] at hd
        rw [hg] at hd
        subst hd
        exact ⟨h1, h2, h3, h4⟩
  | run l n =>
    simp only [step]
    split
    · exact ⟨s, rfl, i⟩
    · next c h =>
      split
      · refine ⟨_, rfl, ⟨i.chan, i.iconf, i.loop, fun _ => by simp [h]⟩⟩
      · exact ⟨s, rfl, i⟩

theorem inv_run {pad : Nat} : ∀ (es : List Ev) (s : S), Inv pad s → Late pad s es → ∃ s', run pad s es = some s' ∧ Inv pad s' := by
  intro es
  induction es with
  | nil => intro s i _; exact ⟨s, rfl, i⟩
  | cons e es ih =>
    intro s i hl
    obtain ⟨s1, h1, i1⟩ := inv_step i hl.1
    obtain ⟨s2, h2, i2⟩ := ih s1 i1 (hl.2 s1 h1)
    exact ⟨s2, by simp only [run, h1]; exact h2, i2⟩

/-- C102 (one loop): if the channel is not asked for while the node is not initialised, then in every life of the node its channel has the
current settings and runs on the loop of the current settings (the default loop if there is none there), and that is also the loop of the
node, which `reset` runs. -/
theorem C102_one_loop_partial (pad : Nat) (junk : Conf) (es : List Ev) (hl : Late pad (new junk) es) (s : S) (h : run pad (new junk) es = some s) (c : Chan)
    (hc : s.chan = some c) : Fits pad c.conf s.conf ∧ c.loop = some (wanted s.conf) ∧ (getEvloop s).2 = some (wanted s.conf) := by
  obtain ⟨s', h1, i⟩ := inv_run es _ (inv_new pad junk) hl
  rw [h] at h1
  cases h1
  obtain ⟨h1, h2, h3, h4⟩ := i.chan c hc
  refine ⟨?_, h3, by rw [evloop_of h1 (i.loop h1)]⟩
  rw [h4]
  constructor <;> simp [ioConf, ioDefault] <;> omega

/-- C102 (reset ends): under the same condition no call waits for operations on a loop that is not run. -/
theorem C102_reset_ends_partial (pad : Nat) (junk : Conf) (es : List Ev) (hl : Late pad (new junk) es) : ∃ s, run pad (new junk) es = some s := by
  obtain ⟨s, h, -⟩ := inv_run es _ (inv_new pad junk) hl
  exact ⟨s, h⟩

/-- An application that never asks for the channel itself. -/
theorem late_of_never {pad : Nat} : ∀ (es : List Ev) (s : S), Ev.getChannel ∉ es → Late pad s es := by
  intro es
  induction es with
  | nil => intro s _; trivial
  | cons e es ih =>
    intro s h
    simp only [List.mem_cons, not_or] at h
    exact ⟨fun he => absurd he.symm h.1, fun s' _ => ih s' h.2⟩

/-- C102 (applications): an application that leaves the channel alone gets this always. -/
theorem C102_polite (pad : Nat) (junk : Conf) (es : List Ev) (he : Ev.getChannel ∉ es) : ∃ s, run pad (new junk) es = some s ∧
    ∀ c, s.chan = some c → Fits pad c.conf s.conf ∧ c.loop = some (wanted s.conf) ∧ (getEvloop s).2 = some (wanted s.conf) := by
  have hl := late_of_never (pad := pad) es (new junk) he
  obtain ⟨s, h⟩ := C102_reset_ends_partial pad junk es hl
  exact ⟨s, h, C102_one_loop_partial pad junk es hl s h⟩

/-! ### Counterexamples -/

/-- Settings with larger messages and a loop of the application. -/
def exConf : Conf := { standard with msgSize := 1000000, evLoop := some 7 }

/-- C102 (reset ends) is false of the code if the channel is asked for before `init`: it makes a loop of its own, `reset` runs that of the
node, and an operation that is not finished never is. -/
theorem C102_hang_false (pad : Nat) (junk : Conf) (conf : Option Conf) : run pad (new junk) [.getChannel, .init conf, .op, .reset] = none := by
  cases conf with
  | none => simp [run, step, new, getChannel, getEvloop, getIoConf, getLoop, reset, initConf, setDefault]
  | some c =>
    simp only [run, step, new, getChannel, getEvloop, getIoConf, getLoop, reset, initConf, C102_copy]
    cases h : c.evLoop <;> by_cases hl : c.tokens.length > c.tokenMax <;> simp [h, hl, getLoop]

/-- C102 (one loop) is false of the code in that case: the channel keeps the default settings, so a node for messages of a million bytes has
streams for 262144. -/
theorem C102_settings_false (pad : Nat) : ∃ s c, run pad (new standard) [.getChannel, .init (some exConf)] = some s ∧ s.chan = some c ∧
    s.conf.msgSize = 1000000 ∧ c.conf.recvLimit = 262144 + 1024 := by
  refine ⟨_, _, rfl, rfl, rfl, rfl⟩

/-- C102 (one loop) is false of the code if the channel is asked for between `reset` and `init`: it is on the loop of the life before, and
stays there when the node gets another one. -/
theorem C102_old_loop_false (pad : Nat) : ∃ s c, run pad (new standard) [.init (some exConf), .reset, .getChannel, .init none] = some s ∧
    s.chan = some c ∧ c.loop = some (.app 7) ∧ c.conf.recvLimit = 1000000 + 1024 ∧ s.conf = standard ∧ (getEvloop s).2 = some .dflt := by
  refine ⟨_, _, rfl, rfl, rfl, rfl, rfl, rfl⟩

/-! ### Examples -/

/-- Two lives with different loops; the first ends with an operation unfinished. -/
example : ∃ s, run 160 (new standard) [.init (some exConf), .op, .op, .run (.app 7) 1, .init none, .getChannel, .op] = some s ∧
    s.chan = some ⟨ioConf 160 standard, some .dflt⟩ ∧ s.refs = 1 := by
  refine ⟨_, rfl, rfl, rfl⟩

example : Late 160 (new standard) [.init none, .getChannel, .reset, .getEvloop] := by
  refine ⟨by simp, fun s h => ?_⟩
  cases h
  refine ⟨fun _ => rfl, fun s h => ?_⟩
  cases h
  refine ⟨by simp, fun s h => ⟨by simp, fun _ _ => trivial⟩⟩

end Verif.Node.Loop
