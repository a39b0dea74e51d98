import Verif.Node.Forward
import Verif.Subnet.Table
import Verif.Subnet.Props
import Verif.Endpoint.Lemmas

/-!
C84: `node::is_endpoint_available`, and what it says about sending.
-/
namespace Verif.Node

open Verif.Subnet (Rng Ep Table findRoute Covers Hist)

/-! ### Model -/

/-- `node::get_endpoint`, `src/atbus_node.cpp:1046-1057`. -/
def Node.endpoint (n : Node) (tid : Nat) : Option Ep :=
  if n.isParent tid then n.parent
  else match findRoute n.routes tid with
    | none => none
    | some e => if e.id = tid then some e else none

/-- `node::is_endpoint_available`, `src/atbus_node.cpp:1128-1143` (the node has its own endpoint).  `actived`: the flag ACTIVED;
`dataOnly`: `get_data_connection` without the control connection as a substitute. -/
def isAvailable (n : Node) (actived : Bool) (dataOnly : Nat → Option Nat) (tid : Nat) : Bool :=
  if !actived then false
  else match n.endpoint tid with
    | none => false
    | some e => decide (n.id = 0) || (dataOnly e.ref).isSome

/-! ### Specification -/

/-- Asking for a data connection with a substitute gives the data connection if there is one, as `get_data_connection` does
(`fallback_extends`). -/
def Extends (dataOnly data : Nat → Option Nat) : Prop := ∀ e c, dataOnly e = some c → data e = some c

/-- The endpoints a node is registered with. -/
def Node.Knows (n : Node) (reg : List Ep) (e : Ep) : Prop := n.parent = some e ∨ e ∈ reg

end Verif.Node

namespace Verif.Endpoint

/-- `get_data_connection` with a substitute gives the connection it gives without. -/
theorem fallback_extends (s : S) (me : Nat) :
    Node.Extends (fun e => (dataConnection me e false s).2) (fun e => (dataConnection me e true s).2) := by
  intro e c h
  unfold dataConnection at h ⊢
  by_cases he : me = e
  · simp [he] at h
  · simp only [if_neg he] at h ⊢
    split at h
    · rename_i x hx
      simp only [hx]
      exact h
    · simp at h

end Verif.Endpoint

namespace Verif.Node

open Verif.Subnet (Rng Ep Table findRoute Covers Hist)

theorem contain_of_covers {l : List Rng} {id : Nat} (h0 : id ≠ 0) (h : Covers l id) : l.any (fun r => r.contain id) = true := by
  obtain ⟨r, hr, h1, h2⟩ := h
  rw [List.any_eq_true]
  refine ⟨r, hr, ?_⟩
  simp [Rng.contain, h0, h1, h2]

theorem avail_isParent_iff (n : Node) (tid : Nat) : n.isParent tid = true ↔ n.id ≠ 0 ∧ ∃ p, n.parent = some p ∧ p.id = tid := by
  unfold Node.isParent
  by_cases h0 : n.id = 0
  · simp [h0]
  · simp only [if_neg h0]
    cases n.parent with
    | none => simp
    | some p => simp [h0, eq_comm]

theorem endpoint_iff {n : Node} {reg : List Ep} {tid : Nat} (h0 : n.id ≠ 0) (ht : tid ≠ 0) (hh : Hist n.routes reg)
    (hu : ∀ p e, n.parent = some p → e ∈ reg → e.id ≠ p.id) (e : Ep) :
    n.endpoint tid = some e ↔ n.Knows reg e ∧ e.id = tid := by
  have hs := Subnet.hist_sim hh
  unfold Node.endpoint Node.Knows
  by_cases hp : n.isParent tid = true
  · rw [if_pos hp]
    obtain ⟨-, p, h1, h2⟩ := (avail_isParent_iff n tid).1 hp
    constructor
    · intro h
      refine ⟨.inl h, ?_⟩
      rw [h1] at h; cases h; exact h2
    · rintro ⟨h | h, h3⟩
      · exact h
      · exact absurd (h3.trans h2.symm) (hu p e h1 h)
  · rw [if_neg hp]
    constructor
    · intro h
      split at h
      · cases h
      · rename_i x hx
        split at h
        · rename_i hi
          cases h
          exact ⟨.inr ((Subnet.findRoute_iff hs ht).1 hx).1, hi⟩
        · cases h
    · rintro ⟨h | h, h3⟩
      · exact absurd ((avail_isParent_iff n tid).2 ⟨h0, e, h, h3⟩) hp
      · have hf := (Subnet.findRoute_iff hs ht).2 ⟨h, h3 ▸ (hs.wf e h).self⟩
        simp only [hf, h3, if_true]

/-- C84: an endpoint is available exactly if the node is active, is registered with a node of that id, and has a data connection to
it that it can use.  For nodes that have an id, after every history of registrations. -/
theorem C84_exact_partial (n : Node) (reg : List Ep) (actived : Bool) (dataOnly : Nat → Option Nat) (tid : Nat)
    (h0 : n.id ≠ 0) (ht : tid ≠ 0) (hh : Hist n.routes reg) (hu : ∀ p e, n.parent = some p → e ∈ reg → e.id ≠ p.id) :
    isAvailable n actived dataOnly tid = true ↔
      actived = true ∧ ∃ e c, n.Knows reg e ∧ e.id = tid ∧ dataOnly e.ref = some c := by
  have he := endpoint_iff h0 ht hh hu
  unfold isAvailable
  cases actived with
  | false => simp
  | true =>
    simp only [Bool.not_true, Bool.false_eq_true, if_false, true_and]
    cases hx : n.endpoint tid with
    | none =>
      simp only [Bool.false_eq_true, false_iff]
      rintro ⟨e, c, h1, h2, -⟩
      rw [(he e).2 ⟨h1, h2⟩] at hx
      cases hx
    | some x =>
      have h1 := (he x).1 hx
      simp only [h0, decide_false, Bool.false_or]
      constructor
      · intro h
        obtain ⟨c, hc⟩ := Option.isSome_iff_exists.1 h
        exact ⟨x, c, h1.1, h1.2, hc⟩
      · rintro ⟨e, c, h2, h3, h4⟩
        rw [(he e).2 ⟨h2, h3⟩] at hx
        cases hx
        rw [h4]; rfl

/-- C84: a message to an available endpoint is given to a connection of that very node (or to the node itself); sending fails only if
that connection refuses the message. -/
theorem C84_sends_partial (n : Node) (reg : List Ep) (actived : Bool) (dataOnly : Nat → Option Nat) (tid : Nat) (m : Msg)
    (h0 : n.id ≠ 0) (ht : tid ≠ 0) (hh : Hist n.routes reg) (hf : Extends dataOnly n.dataConn) (hc : n.created = false)
    (ha : isAvailable n actived dataOnly tid = true) :
    sendMsg n n.dataConn tid m = ([.toSelf m], Err.SUCCESS) ∨
    ∃ e c, e.id = tid ∧ dataOnly e.ref = some c ∧
      sendMsg n n.dataConn tid m = (if n.push c m < 0 then [.refused e c m] else [.sent e c m], n.push c m) := by
  have hs := Subnet.hist_sim hh
  unfold isAvailable at ha
  cases actived with
  | false => simp at ha
  | true =>
    simp only [Bool.not_true, Bool.false_eq_true, if_false] at ha
    cases hx : n.endpoint tid with
    | none => simp [hx] at ha
    | some e =>
      simp only [hx, h0, decide_false, Bool.false_or] at ha
      obtain ⟨c, hd⟩ := Option.isSome_iff_exists.1 ha
      unfold sendMsg
      simp only [hc, Bool.false_eq_true, if_false]
      by_cases hi : tid = n.id
      · rw [if_pos hi]; exact .inl rfl
      · rw [if_neg hi]
        right
        have hid : e.id = tid ∧ remoteChannel n n.dataConn tid = useChannel n.dataConn e := by
          unfold remoteChannel
          simp only [hc, Bool.false_eq_true, if_false, if_neg hi]
          unfold Node.endpoint at hx
          by_cases hp : n.isParent tid = true
          · rw [if_pos hp] at hx
            obtain ⟨-, p, h1, h2⟩ := (avail_isParent_iff n tid).1 hp
            rw [h1] at hx
            cases hx
            simp only [hp, if_true, h1]
            exact ⟨h2, trivial⟩
          · rw [if_neg hp] at hx
            split at hx
            · cases hx
            · rename_i x hr
              split at hx
              · rename_i hi2
                cases hx
                refine ⟨hi2, ?_⟩
                have hreg := (Subnet.findRoute_iff hs ht).1 hr
                have hch : directChild n tid = some e := by
                  unfold directChild
                  simp only [hr]
                  rw [if_pos]
                  unfold Subnet.isChildNode
                  rw [if_neg (by rw [hi2]; exact ht)]
                  exact contain_of_covers ht hreg.2
                simp only [hp, Bool.false_eq_true, if_false, hch]
              · cases hx
        refine ⟨e, c, hid.1, hd, ?_⟩
        rw [hid.2]
        simp only [useChannel, finishChannel, hf _ _ hd]
        rw [if_neg (by decide)]
        split <;> rfl

/-- a node with a child 0x21 that has a data connection and a child 0x31 that has a control connection only -/
def availNode (id : Nat) : Node :=
  { id, subnets := [⟨0, 0xff, 8⟩]
    routes := [(⟨0x20, 0x2f, 4⟩, ⟨1, 0x21, [⟨0x20, 0x2f, 4⟩]⟩), (⟨0x30, 0x3f, 4⟩, ⟨2, 0x31, [⟨0x30, 0x3f, 4⟩]⟩)]
    dataConn := fun e => if e = 1 then some 7 else if e = 2 then some 9 else none
    ctrlConn := fun e => if e = 1 then some 6 else if e = 2 then some 9 else none
    push := fun _ _ => 0 }

/-- its data connections -/
def availData : Nat → Option Nat := fun e => if e = 1 then some 7 else none

/- 0x21 is available, its subnet is not; 0x31 is reached over the control connection only and is not available -/
example : isAvailable (availNode 0x11) true availData 0x21 = true ∧ isAvailable (availNode 0x11) true availData 0x22 = false ∧
    isAvailable (availNode 0x11) true availData 0x31 = false ∧ isAvailable (availNode 0x11) false availData 0x21 = false ∧
    (sendMsg (availNode 0x11) (availNode 0x11).dataConn 0x31 {}).2 = 0 := by decide

/-- C84: a node without an id calls every known endpoint available, also one to which it has no connection at all. -/
theorem C84_zero_false : ∃ n : Node, n.id = 0 ∧ (∀ e, n.dataConn e = none) ∧ isAvailable n true n.dataConn 0x21 = true ∧
    (sendMsg n n.dataConn 0x21 {}).2 = Err.ATNODE_NO_CONNECTION :=
  ⟨{ availNode 0 with dataConn := fun _ => none }, rfl, fun _ => rfl, by decide, by decide⟩

end Verif.Node
