import Verif.Node.Mesh
import Verif.Address.Props

/-!
Properties C64 (which of two nodes opens connections to the other), C65 (requests to connect directly) and C66 (memory channels).
-/
namespace Verif.Node.Mesh

open Verif.Address (isDuplex isSimplex isLocalHost isLocalProcess prefixCI SchemeIs C27_duplex_iff C27_simplex_iff C27_local C27_simplex_xor_duplex)

/-! ### Specification -/

/-- An address of a stream: not empty, not in memory or shared memory. -/
def Stream (a : Text) : Prop := a ≠ [] ∧ ¬ SchemeIs 'm' 'e' 'm' a ∧ ¬ SchemeIs 's' 'h' 'm' a

/-- A unix socket. -/
def Unix (a : Text) : Prop := prefixCI "unix:".toList a = true

/-- The node listens on a stream. -/
def HasStream (n : Info) : Prop := ∃ a ∈ n.listens, Stream a

/-- What `ep` listens on at `a` can be reached by `self`. -/
def Reachable (self ep : Info) (a : Text) : Prop :=
  (SchemeIs 'm' 'e' 'm' a → self.host = ep.host ∧ self.pid = ep.pid) ∧
  (SchemeIs 's' 'h' 'm' a → self.host = ep.host) ∧ (Unix a → self.host = ep.host)

/-- `self` opens a stream to `ep`. -/
def Opens (self ep : Info) (res : Text → Int) : Prop := ∃ a ∈ (plan self ep res).calls, Stream a

theorem stream_iff (a : Text) : isDuplex (some a) = true ↔ Stream a := C27_duplex_iff a

theorem connectable_iff (self ep : Info) : connectable self ep = true ↔ HasStream self := by
  unfold connectable HasStream
  rw [List.any_eq_true]
  constructor
  · rintro ⟨a, h1, h2⟩
    rw [Bool.and_eq_true] at h2
    exact ⟨a, h1, (stream_iff a).1 h2.1⟩
  · rintro ⟨a, h1, h2⟩
    refine ⟨a, h1, ?_⟩
    have hp : isLocalProcess (some a) = false := by
      rw [← Bool.not_eq_true, (C27_local a).1]; exact h2.2.1
    simp [(stream_iff a).2 h2, hp]

theorem localHost_iff (a : Text) : isLocalHost (some a) = true ↔ SchemeIs 'm' 'e' 'm' a ∨ SchemeIs 's' 'h' 'm' a ∨ Unix a := by
  have h1 := C27_simplex_iff a
  have h2 := (C27_local a).1
  by_cases h : a = []
  · subst h; simp [isLocalHost, SchemeIs, Unix]; decide
  · have hs : isSimplex (some a) = (prefixCI "mem:".toList a || prefixCI "shm:".toList a) := by
      simp [isSimplex, Address.empty_of a h]
    have hh : isLocalHost (some a) = true ↔ isSimplex (some a) = true ∨ Unix a := by
      rw [hs]
      simp only [isLocalHost, Address.empty_of a h, Bool.false_eq_true, if_false, isLocalProcess, Unix, Bool.or_eq_true]
      cases prefixCI "mem:".toList a <;> cases prefixCI "shm:".toList a <;> cases prefixCI "unix:".toList a <;> simp
    rw [hh, h1, or_assoc]

theorem reach_iff (self ep : Info) (a : Text) :
    ((isLocalHost (some a) && !sameHost self ep) = false ∧ (isLocalProcess (some a) && !samePid self ep) = false) ↔ Reachable self ep a := by
  have h1 := localHost_iff a
  have h2 := (C27_local a).1
  have e1 : sameHost self ep = true ↔ self.host = ep.host := by simp [sameHost]
  have e2 : samePid self ep = true ↔ self.pid = ep.pid := by simp [samePid]
  constructor
  · rintro ⟨x, y⟩
    have hx : isLocalHost (some a) = true → self.host = ep.host := by
      intro h; rw [h] at x; rw [← e1]; simpa using x
    have hy : isLocalProcess (some a) = true → self.pid = ep.pid := by
      intro h; rw [h] at y; rw [← e2]; simpa using y
    exact ⟨fun h => ⟨hx (h1.2 (.inl h)), hy (h2.2 h)⟩, fun h => hx (h1.2 (.inr (.inl h))), fun h => hx (h1.2 (.inr (.inr h)))⟩
  · rintro ⟨r1, r2, r3⟩
    have hx : isLocalHost (some a) = true → sameHost self ep = true := by
      intro h; rw [e1]
      rcases h1.1 h with h | h | h
      · exact (r1 h).1
      · exact r2 h
      · exact r3 h
    have hy : isLocalProcess (some a) = true → samePid self ep = true := by
      intro h; rw [e2]; exact (r1 (h2.1 h)).2
    constructor
    · cases h : isLocalHost (some a)
      · rfl
      · rw [hx h]; rfl
    · cases h : isLocalProcess (some a)
      · rfl
      · rw [hy h]; rfl

/-- The node waits for the other one to connect. -/
def Waits (self ep : Info) : Prop := HasStream self ∧ ep.id < self.id

/-- An address is used: reachable, and not a stream the node waits on. -/
def Used (self ep : Info) (a : Text) : Prop := a ≠ [] ∧ Reachable self ep a ∧ ¬ (Waits self ep ∧ Stream a)

noncomputable instance (self ep : Info) (a : Text) : Decidable (Used self ep a) := Classical.propDecidable _

theorem wait_iff (self ep : Info) : (connectable self ep && decide (self.id > ep.id)) = true ↔ Waits self ep := by
  rw [Bool.and_eq_true, connectable_iff]; simp [Waits]

/-- What one round does. -/
theorem visit_used (self ep : Info) (res : Text → Int) (s : Acc) (a : Text) (h0 : self.id ≠ 0 ∧ ep.id ≠ 0) :
    (Used self ep a → (visit self ep res s a).calls = s.calls ++ [a] ∧
      (visit self ep res s a).listens = (if res a < 0 then s.listens else s.listens ++ [a])) ∧
    (¬ Used self ep a → (visit self ep res s a).calls = s.calls ∧ (visit self ep res s a).listens = s.listens) ∧
    ((visit self ep res s a).hasData = true ↔ s.hasData = true ∨ (a ≠ [] ∧ Waits self ep) ∨ (Used self ep a ∧ ¬ res a < 0)) := by
  unfold visit
  by_cases ha : a = []
  · subst ha
    simp [Used]
  have hw := wait_iff self ep
  have hst := stream_iff a
  have hr := reach_iff self ep a
  rw [if_neg ha]
  generalize (connectable self ep && decide (self.id > ep.id)) = w at hw ⊢
  generalize isDuplex (some a) = d at hst ⊢
  generalize (isLocalHost (some a) && !sameHost self ep) = x at hr ⊢
  generalize (isLocalProcess (some a) && !samePid self ep) = y at hr ⊢
  have hu : Used self ep a ↔ (x = false ∧ y = false) ∧ ¬ (w = true ∧ d = true) := by
    unfold Used; rw [hr, hw, hst]; simp [ha]
  rw [hu, ← hw]
  cases w <;> cases d <;> cases x <;> cases y <;> by_cases hneg : res a < 0 <;> simp [h0, ha, hneg]

open Classical in
/-- The whole loop. -/
theorem plan_eq (self ep : Info) (res : Text → Int) (h0 : self.id ≠ 0 ∧ ep.id ≠ 0) :
    (plan self ep res).calls = ep.listens.filter (fun a => decide (Used self ep a)) ∧
    (plan self ep res).listens = ep.listens.filter (fun a => decide (Used self ep a ∧ ¬ res a < 0)) ∧
    ((plan self ep res).hasData = true ↔ ∃ a ∈ ep.listens, (a ≠ [] ∧ Waits self ep) ∨ (Used self ep a ∧ ¬ res a < 0)) := by
  have key : ∀ (l : List Text) (s : Acc),
      (l.foldl (visit self ep res) s).calls = s.calls ++ l.filter (fun a => decide (Used self ep a)) ∧
      (l.foldl (visit self ep res) s).listens = s.listens ++ l.filter (fun a => decide (Used self ep a ∧ ¬ res a < 0)) ∧
      ((l.foldl (visit self ep res) s).hasData = true ↔
        s.hasData = true ∨ ∃ a ∈ l, (a ≠ [] ∧ Waits self ep) ∨ (Used self ep a ∧ ¬ res a < 0)) := by
    intro l
    induction l with
    | nil => intro s; simp
    | cons a t ih =>
      intro s
      obtain ⟨v1, v2, v3⟩ := visit_used self ep res s a h0
      obtain ⟨i1, i2, i3⟩ := ih (visit self ep res s a)
      simp only [List.foldl_cons]
      refine ⟨?_, ?_, ?_⟩
      · rw [i1]
        by_cases hu : Used self ep a
        · rw [(v1 hu).1, List.filter_cons_of_pos (by simpa using hu)]; simp
        · rw [(v2 hu).1, List.filter_cons_of_neg (by simpa using hu)]
      · rw [i2]
        by_cases hu : Used self ep a
        · rw [(v1 hu).2]
          by_cases hn : res a < 0
          · rw [if_pos hn, List.filter_cons_of_neg (by simp [hn])]
          · rw [if_neg hn, List.filter_cons_of_pos (by simpa [hu] using hn)]; simp
        · rw [(v2 hu).2, List.filter_cons_of_neg (by simp [hu])]
      · rw [i3, v3]
        simp only [List.mem_cons, exists_eq_or_imp, or_assoc]
  have := key ep.listens {}
  unfold plan
  simpa using this

/-! ### C64 -/

/-- The addresses a node connects to when an endpoint registers: exactly the ones of the endpoint it can reach, in this order, without the
streams if it waits for the other side. -/
theorem C64_calls (self ep : Info) (res : Text → Int) (h1 : self.id ≠ 0) (h2 : ep.id ≠ 0) (a : Text) :
    (a ∈ (plan self ep res).calls ↔ a ∈ ep.listens ∧ a ≠ [] ∧ Reachable self ep a ∧
      (Stream a → HasStream self → self.id ≤ ep.id)) ∧
    (plan self ep res).calls.Sublist ep.listens := by
  rw [(plan_eq self ep res ⟨h1, h2⟩).1]
  refine ⟨?_, List.filter_sublist⟩
  rw [List.mem_filter, decide_eq_true_eq]
  unfold Used Waits
  constructor
  · rintro ⟨x, y, z, w⟩
    refine ⟨x, y, z, fun hs hh => ?_⟩
    rcases Nat.lt_or_ge ep.id self.id with h | h
    · exact absurd ⟨⟨hh, h⟩, hs⟩ w
    · exact h
  · rintro ⟨x, y, z, w⟩
    refine ⟨x, y, z, ?_⟩
    rintro ⟨⟨hh, h⟩, hs⟩
    have := w hs hh
    omega

/-- Two nodes never both open streams to each other. -/
theorem C64_one_way (a b : Info) (resA resB : Text → Int) (ha : a.id ≠ 0) (hb : b.id ≠ 0) (hab : a.id ≠ b.id) :
    ¬ (Opens a b resA ∧ Opens b a resB) := by
  rintro ⟨⟨x, hx, sx⟩, ⟨y, hy, sy⟩⟩
  obtain ⟨x1, _, _, x4⟩ := (C64_calls a b resA ha hb x).1.1 hx
  obtain ⟨y1, _, _, y4⟩ := (C64_calls b a resB hb ha y).1.1 hy
  have h1 := x4 sx ⟨y, y1, sy⟩
  have h2 := y4 sy ⟨x, x1, sx⟩
  omega

/-- C64, the documented rule: if one of two nodes listens on streams the other one connects, if both do the one with the smaller id
connects; proved if they are on the same host or use no unix sockets.
Missing: unix sockets of other hosts (`C64_unix_false`); addresses that stand for any interface (`C64_wildcard_false`). -/
theorem C64_rule_partial (a b : Info) (res : Text → Int) (ha : a.id ≠ 0) (hb : b.id ≠ 0) (hab : a.id ≠ b.id)
    (hu : a.host = b.host ∨ ∀ x ∈ b.listens, ¬ Unix x) :
    Opens a b res ↔ HasStream b ∧ (HasStream a → a.id < b.id) := by
  constructor
  · rintro ⟨x, hx, sx⟩
    obtain ⟨x1, _, _, x4⟩ := (C64_calls a b res ha hb x).1.1 hx
    refine ⟨⟨x, x1, sx⟩, fun hh => ?_⟩
    have := x4 sx hh
    omega
  · rintro ⟨⟨x, x1, sx⟩, h⟩
    refine ⟨x, (C64_calls a b res ha hb x).1.2 ⟨x1, sx.1, ?_, fun _ hh => Nat.le_of_lt (h hh)⟩, sx⟩
    refine ⟨fun hm => absurd hm sx.2.1, fun hm => absurd hm sx.2.2, fun hx => ?_⟩
    rcases hu with hu | hu
    · exact hu
    · exact absurd hx (hu x x1)

/-- Exactly one of two such nodes opens streams, if one of them listens on a stream at all. -/
theorem C64_exactly_one (a b : Info) (resA resB : Text → Int) (ha : a.id ≠ 0) (hb : b.id ≠ 0) (hab : a.id ≠ b.id)
    (hu : a.host = b.host ∨ ((∀ x ∈ a.listens, ¬ Unix x) ∧ ∀ x ∈ b.listens, ¬ Unix x)) (hs : HasStream a ∨ HasStream b) :
    (Opens a b resA ∧ ¬ Opens b a resB) ∨ (¬ Opens a b resA ∧ Opens b a resB) := by
  have h1 := C64_rule_partial a b resA ha hb hab (hu.imp id (·.2))
  have h2 := C64_rule_partial b a resB hb ha (Ne.symm hab) (hu.imp Eq.symm (·.1))
  have h3 := C64_one_way a b resA resB ha hb hab
  by_cases hA : HasStream a <;> by_cases hB : HasStream b
  · rcases Nat.lt_or_ge a.id b.id with h | h
    · have o := h1.2 ⟨hB, fun _ => h⟩
      exact .inl ⟨o, fun o' => h3 ⟨o, o'⟩⟩
    · have o := h2.2 ⟨hA, fun _ => by omega⟩
      exact .inr ⟨fun o' => h3 ⟨o', o⟩, o⟩
  · have o := h2.2 ⟨hA, fun h => absurd h hB⟩
    exact .inr ⟨fun o' => h3 ⟨o', o⟩, o⟩
  · have o := h1.2 ⟨hB, fun h => absurd h hA⟩
    exact .inl ⟨o, fun o' => h3 ⟨o, o'⟩⟩
  · exact absurd hs (by simp [hA, hB])

/-- A new endpoint is discarded exactly if the node listens on no stream and no connection to it was started. -/
theorem C64_discarded (self ep : Info) (res : Text → Int) (h1 : self.id ≠ 0) (h2 : ep.id ≠ 0) :
    discarded self ep res = true ↔ ¬ HasStream self ∧ ∀ a ∈ (plan self ep res).calls, res a < 0 := by
  obtain ⟨p1, _, p3⟩ := plan_eq self ep res ⟨h1, h2⟩
  unfold discarded
  rw [Bool.and_eq_true, Bool.not_eq_true', Bool.not_eq_true', ← Bool.not_eq_true, ← Bool.not_eq_true, connectable_iff, p3, p1]
  constructor
  · rintro ⟨x, y⟩
    refine ⟨y, fun a ha => ?_⟩
    rw [List.mem_filter, decide_eq_true_eq] at ha
    apply Decidable.byContradiction
    intro hn
    exact x ⟨a, ha.1, .inr ⟨ha.2, hn⟩⟩
  · rintro ⟨x, y⟩
    refine ⟨?_, x⟩
    rintro ⟨a, ha, ⟨_, hw⟩ | ⟨hu, hn⟩⟩
    · exact x hw.1
    · exact hn (y a (by rw [List.mem_filter, decide_eq_true_eq]; exact ⟨ha, hu⟩))

/-- The rule is false with a unix socket of another host: the node with the larger id listens on a unix socket only and waits; the
other one cannot reach it; although it could itself be reached, no stream is opened. -/
theorem C64_unix_false : ∃ a b : Info, a.id ≠ 0 ∧ b.id ≠ 0 ∧ a.id ≠ b.id ∧ HasStream a ∧
    (∃ x ∈ b.listens, Stream x ∧ Reachable a b x) ∧ (∀ res, ¬ Opens a b res ∧ ¬ Opens b a res) := by
  have hu : Stream "unix:///tmp/a".toList := (stream_iff _).1 (by decide +kernel)
  have hi : Stream "ipv4://10.0.0.1:80".toList := (stream_iff _).1 (by decide +kernel)
  have hl : isLocalHost (some "ipv4://10.0.0.1:80".toList) = false := by decide +kernel
  have hp : isLocalProcess (some "ipv4://10.0.0.1:80".toList) = false := by decide +kernel
  have hx : Unix "unix:///tmp/a".toList := by unfold Unix; decide +kernel
  generalize "unix:///tmp/a".toList = u at hu hx
  generalize "ipv4://10.0.0.1:80".toList = i at hi hl hp
  refine ⟨⟨2, 0, 10, [u]⟩, ⟨1, 1, 11, [i]⟩, by simp, by simp, by simp, ⟨u, by simp, hu⟩, ⟨i, by simp, hi, ?_⟩, fun res => ⟨?_, ?_⟩⟩
  · exact (reach_iff _ _ _).1 ⟨by rw [hl]; rfl, by rw [hp]; rfl⟩
  · rintro ⟨x, h, s⟩
    have := ((C64_calls _ _ res (by simp) (by simp) x).1.1 h).2.2.2 s ⟨u, by simp, hu⟩
    simp at this
  · rintro ⟨x, h, s⟩
    have := (C64_calls _ _ res (by simp) (by simp) x).1.1 h
    have hxu : x = u := by simpa using this.1
    subst hxu
    have := this.2.2.1.2.2 hx
    simp at this

/-- "io_stream channel only need one connection" (`src/atbus_msg_handler.cpp:930`) is not what is done: every stream address is connected
to. -/
theorem C64_many_false : ∃ a b : Info, ∃ x y, x ≠ y ∧ Stream x ∧ Stream y ∧ ∀ res, (plan a b res).calls = [x, y] := by
  have hx : Stream "ipv4://10.0.0.1:80".toList := (stream_iff _).1 (by decide +kernel)
  have hy : Stream "ipv4://10.0.0.1:81".toList := (stream_iff _).1 (by decide +kernel)
  have hne : "ipv4://10.0.0.1:80".toList ≠ "ipv4://10.0.0.1:81".toList := by decide +kernel
  have rx : Reachable ⟨1, 0, 10, []⟩ ⟨2, 0, 11, []⟩ "ipv4://10.0.0.1:80".toList := (reach_iff _ _ _).1 (by decide +kernel)
  have ry : Reachable ⟨1, 0, 10, []⟩ ⟨2, 0, 11, []⟩ "ipv4://10.0.0.1:81".toList := (reach_iff _ _ _).1 (by decide +kernel)
  generalize "ipv4://10.0.0.1:80".toList = x at hx hne rx
  generalize "ipv4://10.0.0.1:81".toList = y at hy hne ry
  refine ⟨⟨1, 0, 10, []⟩, ⟨2, 0, 11, [x, y]⟩, x, y, hne, hx, hy, fun res => ?_⟩
  have ux : Used ⟨1, 0, 10, []⟩ ⟨2, 0, 11, [x, y]⟩ x := ⟨hx.1, rx, fun h => by have := h.1.2; simp at this⟩
  have uy : Used ⟨1, 0, 10, []⟩ ⟨2, 0, 11, [x, y]⟩ y := ⟨hy.1, ry, fun h => by have := h.1.2; simp at this⟩
  rw [(plan_eq _ _ res ⟨by simp, by simp⟩).1]
  simp [List.filter_cons, ux, uy]

/-- A node that listens on any interface is connected to at the loopback address of the connecting node, whatever the hosts are. -/
theorem C64_wildcard_false (h h' : Nat) (p p' : Int) :
    (∀ res, "ipv4://0.0.0.0:80".toList ∈ (plan ⟨1, h, p, []⟩ ⟨2, h', p', ["ipv4://0.0.0.0:80".toList]⟩ res).calls) ∧
    target "ipv4://0.0.0.0:80".toList = "ipv4://127.0.0.1:80".toList := by
  refine ⟨fun res => ?_, by decide +kernel⟩
  refine (C64_calls _ _ res (by simp) (by simp) _).1.2 ⟨by simp, by decide +kernel, ?_, ?_⟩
  · refine (reach_iff _ _ _).1 ?_
    have h2 : isLocalHost (some "ipv4://0.0.0.0:80".toList) = false := by decide +kernel
    have h3 : isLocalProcess (some "ipv4://0.0.0.0:80".toList) = false := by decide +kernel
    simp only [h2, h3]; exact ⟨rfl, rfl⟩
  · rintro _ ⟨x, hx, _⟩
    cases hx

example : (plan ⟨1, 0, 10, ["ipv4://a:1".toList]⟩ ⟨2, 0, 11, ["shm://3".toList, "ipv4://b:2".toList, "mem://4".toList, "unix:///x".toList]⟩ (fun _ => 0)).calls =
    ["shm://3".toList, "ipv4://b:2".toList, "unix:///x".toList] ∧
    (plan ⟨2, 0, 11, ["shm://3".toList, "ipv4://b:2".toList]⟩ ⟨1, 0, 10, ["ipv4://a:1".toList, "shm://4".toList]⟩ (fun _ => 0)).calls = ["shm://4".toList] := by
  decide +kernel

/-! ### C65 -/

theorem find_some {l : List Text} {same : Bool} {a : Text} (h : select l same = some a) :
    a ∈ l ∧ prefixCI "mem:".toList a = false ∧ prefixCI "shm:".toList a = false ∧ (Unix a → same = true) := by
  unfold select at h
  have h1 := List.mem_of_find?_eq_some h
  have h2 := List.find?_some h
  refine ⟨h1, ?_⟩
  unfold Unix
  generalize prefixCI "mem:".toList a = m at h2 ⊢
  generalize prefixCI "shm:".toList a = s at h2 ⊢
  generalize prefixCI "unix:".toList a = u at h2 ⊢
  revert h2
  cases m <;> cases s <;> cases u <;> cases same <;> simp

theorem stream_of_prefix {a : Text} (h : a ≠ []) (hm : prefixCI "mem:".toList a = false) (hs : prefixCI "shm:".toList a = false) : Stream a := by
  rw [← stream_iff]
  simp only [isDuplex, isSimplex, Address.empty_of a h, hm, hs]
  rfl

theorem prefix_of_stream {a : Text} (h : Stream a) : prefixCI "mem:".toList a = false ∧ prefixCI "shm:".toList a = false := by
  have := (stream_iff a).2 h
  simp only [isDuplex, isSimplex, Address.empty_of a h.1, Bool.false_eq_true, if_false, Bool.not_eq_true', Bool.or_eq_false_iff] at this
  exact this

/-- C65: the address in a request to connect directly is a stream address the destination listens on, which the child asked can
reach; and there is such a request exactly if there is such an address among those that the node connected to itself when the destination
registered.
Missing: there is no request otherwise (`C65_larger_false`), and an address that stands for any interface leads elsewhere
(`C65_wildcard_false`). -/
theorem C65_address_partial (self src dst : Info) (res : Text → Int) (h1 : self.id ≠ 0) (h2 : dst.id ≠ 0) :
    (∀ a, syncAddr self src dst res = some a → a ∈ dst.listens ∧ Stream a ∧ Reachable src dst a) ∧
    ((∃ a, syncAddr self src dst res = some a) ↔
      ∃ a ∈ (plan self dst res).calls, ¬ res a < 0 ∧ Stream a ∧ Reachable src dst a) := by
  obtain ⟨p1, p2, _⟩ := plan_eq self dst res ⟨h1, h2⟩
  have hmem : ∀ a, a ∈ (plan self dst res).listens ↔ a ∈ (plan self dst res).calls ∧ ¬ res a < 0 := by
    intro a
    rw [p1, p2, List.mem_filter, List.mem_filter, decide_eq_true_eq, decide_eq_true_eq, and_assoc]
  have hne : ∀ a, a ∈ (plan self dst res).calls → a ≠ [] ∧ a ∈ dst.listens := by
    intro a ha
    have := (C64_calls self dst res h1 h2 a).1.1 ha
    exact ⟨this.2.1, this.1⟩
  have hsome : ∀ a, syncAddr self src dst res = some a →
      a ∈ (plan self dst res).listens ∧ Stream a ∧ Reachable src dst a := by
    intro a ha
    unfold syncAddr at ha
    split at ha
    · split at ha
      · rename_i b hb
        split at ha
        · cases ha
        · rename_i hn
          cases ha
          obtain ⟨f1, f2, f3, f4⟩ := find_some hb
          have hst := stream_of_prefix hn f2 f3
          exact ⟨f1, hst, fun hm => absurd hm hst.2.1, fun hm => absurd hm hst.2.2, fun hu => by simpa [sameHost] using f4 hu⟩
      · cases ha
    · cases ha
  refine ⟨fun a ha => ?_, ?_, ?_⟩
  · obtain ⟨x, y, z⟩ := hsome a ha
    exact ⟨(hne a ((hmem a).1 x).1).2, y, z⟩
  · rintro ⟨a, ha⟩
    obtain ⟨x, y, z⟩ := hsome a ha
    obtain ⟨x1, x2⟩ := (hmem a).1 x
    exact ⟨a, x1, x2, y, z⟩
  · rintro ⟨a, ha, hr, hs, hreach⟩
    have hl := (hmem a).2 ⟨ha, hr⟩
    obtain ⟨q1, q2⟩ := prefix_of_stream hs
    have hfd : listenFd (plan self dst res).listens = true := by
      unfold listenFd
      rw [List.any_eq_true]
      exact ⟨a, hl, by simp only [q1, q2]; rfl⟩
    have hsel : ∃ b, select (plan self dst res).listens (sameHost src dst) = some b := by
      rw [← Option.isSome_iff_exists]
      unfold select
      rw [List.find?_isSome]
      refine ⟨a, hl, ?_⟩
      by_cases hu : Unix a
      · have hh : src.host = dst.host := hreach.2.2 hu
        have : sameHost src dst = true := by simp [sameHost, hh]
        simp only [q1, q2, this, Bool.not_true, Bool.and_false]; rfl
      · have : prefixCI "unix:".toList a = false := by
          rw [← Bool.not_eq_true]; exact hu
        simp only [q1, q2, this, Bool.false_and]; rfl
    obtain ⟨b, hb⟩ := hsel
    have hbn : b ≠ [] := by
      have := (find_some hb).1
      exact (hne b ((hmem b).1 this).1).1
    refine ⟨b, ?_⟩
    unfold syncAddr
    rw [if_pos hfd, hb]
    simp [hbn]

/-- C65 is false if the forwarding node listens on a stream and has the larger id: it has not connected to any stream address of the
destination and so does not know one; there is never a request, whatever the destination listens on. -/
theorem C65_larger_false (self src dst : Info) (res : Text → Int) (h2 : dst.id ≠ 0) (hs : HasStream self)
    (hid : dst.id < self.id) : syncAddr self src dst res = none := by
  cases h : syncAddr self src dst res with
  | none => rfl
  | some a =>
    have h1 : self.id ≠ 0 := by omega
    obtain ⟨b, hb, _, hst, _⟩ := (C65_address_partial self src dst res h1 h2).2.1 ⟨a, h⟩
    have := ((C64_calls self dst res h1 h2 b).1.1 hb).2.2.2 hst hs
    omega

/-- The address named leads to the asking child itself if the destination listens on any interface. -/
theorem C65_wildcard_false (h h' h'' : Nat) (p p' p'' : Int) (l : List Text) :
    syncAddr ⟨1, h, p, []⟩ ⟨2, h', p', l⟩ ⟨3, h'', p'', ["ipv4://0.0.0.0:80".toList]⟩ (fun _ => 0) = some "ipv4://0.0.0.0:80".toList ∧
    target "ipv4://0.0.0.0:80".toList = "ipv4://127.0.0.1:80".toList := by
  refine ⟨?_, by decide +kernel⟩
  have h2 : isLocalHost (some "ipv4://0.0.0.0:80".toList) = false := by decide +kernel
  have h3 : isLocalProcess (some "ipv4://0.0.0.0:80".toList) = false := by decide +kernel
  have hs : Stream "ipv4://0.0.0.0:80".toList := (stream_iff _).1 (by decide +kernel)
  generalize "ipv4://0.0.0.0:80".toList = w at h2 h3 hs
  have hr : ∀ self ep : Info, Reachable self ep w := fun self ep => (reach_iff self ep w).1 ⟨by rw [h2]; rfl, by rw [h3]; rfl⟩
  have hc : w ∈ (plan ⟨1, h, p, []⟩ ⟨3, h'', p'', [w]⟩ (fun _ => 0)).calls := by
    refine (C64_calls _ _ _ (by simp) (by simp) _).1.2 ⟨by simp, hs.1, hr _ _, ?_⟩
    rintro _ ⟨x, hx, _⟩
    cases hx
  have key := C65_address_partial ⟨1, h, p, []⟩ ⟨2, h', p', l⟩ ⟨3, h'', p'', [w]⟩ (fun _ => 0) (by simp) (by simp)
  obtain ⟨a, ha⟩ := key.2.2 ⟨w, hc, by simp, hs, hr _ _⟩
  have := (key.1 a ha).1
  rw [ha]
  simpa using this

example : syncAddr ⟨1, 0, 10, ["ipv4://p:1".toList]⟩ ⟨2, 1, 11, []⟩ ⟨3, 0, 12, ["shm://5".toList, "unix:///d".toList, "ipv4://d:2".toList]⟩ (fun _ => 0) =
    some "ipv4://d:2".toList := by decide +kernel

/-! ### C66 -/

theorem scheme_prefix {s : Text} {x : Address.Addr} (h : Address.parse s = .ok x) : ∃ n, x.scheme = s.take n := by
  unfold Address.parse at h
  split at h
  · cases h
  · rename_i se _
    simp only at h
    split at h
    · cases h
    · split at h
      · cases h
      · cases h
        exact ⟨se, rfl⟩

/-- A text opened as memory with a colon as the fourth character is one that the address tests take for memory. -/
theorem memory_scheme {a h : Text} (hm : memoryAt a = some h) (hc : a[3]? = some ':') : SchemeIs 'm' 'e' 'm' a := by
  unfold memoryAt at hm
  split at hm
  · rename_i x hx
    split at hm
    · rename_i hp
      obtain ⟨n, hn⟩ := scheme_prefix hx
      rw [hn] at hp
      have hp' : prefixCI ['m', 'e', 'm'] (a.take n) = true := hp
      match a, hc with
      | y0 :: y1 :: y2 :: y3 :: rest, hc =>
        simp only [List.getElem?_cons_succ, List.getElem?_cons_zero, Option.some.injEq] at hc
        subst hc
        match n with
        | 0 => simp [prefixCI] at hp'
        | 1 => simp [prefixCI] at hp'
        | 2 => simp [prefixCI] at hp'
        | n + 3 =>
          simp [prefixCI] at hp'
          exact ⟨y0, y1, y2, rest, rfl, hp'.1, hp'.2.1, hp'.2.2⟩
    · cases hm
  · cases hm

/-- C66: of the addresses in a registration, memory is opened only if the other node is in the same process; and a connect without an
endpoint, as asked for by a request to connect, opens none.
Missing: addresses in which the letters `mem` are not followed by a colon (`C66_text_false`, `C66_request_false`), and that host and
process are what the other node claims (`C66_claim_false`). -/
theorem C66_memory_partial (self ep : Info) (res : Text → Int) (h1 : self.id ≠ 0) (h2 : ep.id ≠ 0) (a h : Text)
    (hm : memoryAt a = some h) (hc : a[3]? = some ':') :
    (a ∈ (plan self ep res).calls → self.host = ep.host ∧ self.pid = ep.pid) ∧
    (∀ cf s sys, (Connect.connect cf s a sys).2 = Err.ACCESS_DENY ∨ (Connect.connect cf s a sys) = (s, Err.SUCCESS)) := by
  have hs := memory_scheme hm hc
  refine ⟨fun ha => ((C64_calls self ep res h1 h2 a).1.1 ha).2.2.1.1 hs, fun cf s sys => ?_⟩
  have hp : prefixCI "mem:".toList a = true := (Address.prefix3 'm' 'e' 'm' a Address.lower_colon).2 hs
  unfold Connect.connect
  split
  · exact .inr rfl
  · left
    simp only [hp, Bool.true_or, if_true]

/-- The address given as memory at `n` with the scheme `memx`. -/
def disguised (n : Nat) : Text := Address.format "memx".toList (Address.dec n) 0

theorem disguised_memory (n : Nat) : memoryAt (disguised n) = some (Address.dec n) := by
  have hd : ':' ∉ Address.dec n := by
    intro h
    have := Address.dec_digit n _ h
    revert this; decide
  have hp : Address.parse (disguised n) = .ok ⟨"memx".toList, Address.dec n, 0⟩ :=
    Address.C26_no_port _ _ 0 (by simp [Address.Sep]) hd (by decide)
  unfold memoryAt
  rw [hp]
  rfl

theorem disguised_eq (n : Nat) : disguised n = 'm' :: 'e' :: 'm' :: 'x' :: ':' :: '/' :: '/' :: Address.dec n := by
  unfold disguised Address.format
  simp

theorem disguised_stream (n : Nat) : Stream (disguised n) := by
  rw [disguised_eq]
  refine ⟨by simp, ?_, ?_⟩
  · rintro ⟨x, y, z, r, h, _⟩
    simp at h
  · rintro ⟨x, y, z, r, h, _⟩
    simp at h

theorem disguised_reach (self ep : Info) (n : Nat) : Reachable self ep (disguised n) := by
  have hs := disguised_stream n
  refine ⟨fun h => absurd h hs.2.1, fun h => absurd h hs.2.2, fun h => ?_⟩
  rw [disguised_eq] at h
  unfold Unix at h
  revert h
  simp [prefixCI]

/-- C66 is false: a node in any process on any host can make another one open, and initialise, memory at any place, by an
address with the scheme `memx`. -/
theorem C66_text_false (self : Info) (h1 : self.id ≠ 0) (n : Nat) : ∃ ep : Info, ep.id ≠ 0 ∧ self.host ≠ ep.host ∧
    ∀ res, ∃ a ∈ (plan self ep res).calls, memoryAt a = some (Address.dec n) := by
  refine ⟨⟨self.id + 1, self.host + 1, 0, [disguised n]⟩, by simp, by simp, fun res => ⟨disguised n, ?_, disguised_memory n⟩⟩
  refine (C64_calls _ _ res h1 (by simp) _).1.2 ⟨by simp, (disguised_stream n).1, disguised_reach _ _ n, fun _ _ => ?_⟩
  simp

/-- The same with a request to connect: the call is not refused. -/
theorem C66_request_false (cf : Connect.Conf) (s : Connect.S) (n : Nat) (hf : Connect.found s (fun _ => true) (disguised n) = false) :
    (Connect.connect cf s (disguised n) true).2 = Err.SUCCESS ∧ memoryAt (disguised n) = some (Address.dec n) := by
  refine ⟨?_, disguised_memory n⟩
  obtain ⟨q1, q2⟩ := prefix_of_stream (disguised_stream n)
  have hd : ':' ∉ Address.dec n := by
    intro h
    have := Address.dec_digit n _ h
    revert this; decide
  have hp : Address.parse (disguised n) = .ok ⟨"memx".toList, Address.dec n, 0⟩ :=
    Address.C26_no_port _ _ 0 (by simp [Address.Sep]) hd (by decide)
  have hsh : Connect.isShared (disguised n) = true := by
    unfold Connect.isShared; rw [hp]; rfl
  unfold Connect.connect
  rw [hf]
  simp only [Bool.false_eq_true, if_false, q1, q2, Bool.or_false]
  unfold Connect.connConnect
  rw [hp]
  simp [hsh]

/-- Host and process are taken from the registration: a node that claims those of the other one has it open memory at any place. -/
theorem C66_claim_false (self : Info) (h1 : self.id ≠ 0) (n : Nat) :
    ∀ res, ∃ a ∈ (plan self ⟨self.id + 1, self.host, self.pid, [Address.format "mem".toList (Address.dec n) 0]⟩ res).calls,
      memoryAt a = some (Address.dec n) := by
  intro res
  have hd : ':' ∉ Address.dec n := by
    intro h
    have := Address.dec_digit n _ h
    revert this; decide
  have hp : Address.parse (Address.format "mem".toList (Address.dec n) 0) = .ok ⟨"mem".toList, Address.dec n, 0⟩ :=
    Address.C26_no_port _ _ 0 (by simp [Address.Sep]) hd (by decide)
  refine ⟨_, (C64_calls _ _ res h1 (by simp) (Address.format "mem".toList (Address.dec n) 0)).1.2 ⟨by simp, ?_, ?_, ?_⟩, ?_⟩
  · unfold Address.format; simp
  · exact ⟨fun _ => ⟨rfl, rfl⟩, fun _ => rfl, fun _ => rfl⟩
  · intro _ _; simp
  · unfold memoryAt; rw [hp]; rfl

example : memoryAt "mem://4096".toList = some "4096".toList ∧ memoryAt "memx://4096".toList = some "4096".toList ∧
    memoryAt "shm://4096".toList = none ∧ isDuplex (some "memx://4096".toList) = true := by decide +kernel

end Verif.Node.Mesh
