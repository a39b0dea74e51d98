import Verif.Node.RelayPath
import Verif.Node.TreeProps

/-!
C91, continued: any two nodes of a network that is a tree (C71), over streams (C87).
-/
namespace Verif.Node.Relay

open Verif.IoStream
open Verif.Subnet (Ep)
open Verif.Node.Tree (World Next Far Whole left)

/-! ### Specification -/

/-- The streams of a network: stream `c` leads from node `owner c` to node `reader c`. -/
structure Wires (w : World) where
  owner : Nat → Nat
  reader : Nat → Nat
  /-- a connection that a node finds for a target leads from this node to the endpoint found -/
  wire : ∀ x n u e c, w.node x = some n → remoteChannel n n.dataConn u = (Err.SUCCESS, some e, some c) → owner c = x ∧ reader c = e.id

/-- The nodes act with the tables that they have in the network (only `send_data` may be refused), and handle what comes to them. -/
def Wires.acts {w : World} (v : Wires w) : Ev → Prop
  | .send h _ _ _ _ _ => ∃ n, w.node h.n.id = some n ∧ h.n = { n with push := h.n.push }
  | .handle l h => w.node (v.reader l) = some h.n ∧ h.bound = some (v.owner l) ∧ h.connected = true
  | _ => True

/-! ### The way -/

section
variable {w : World} {par : Nat → Option Nat} {dep : Nat → Nat} {top : Nat} {reg : Nat → List Ep}

/-- The way from a node to another: at each node the connection found for the target leads to the next node, and not back. -/
structure Way (w : World) (par : Nat → Option Nat) (dep : Nat → Nat) (top : Nat) (b : Nat) (p : Path) : Prop where
  last : p.x p.k = b
  ne : ∀ i, i < p.k → p.x i ≠ b
  hop : ∀ i, i < p.k → ∃ n e, w.node (p.x i) = some n ∧ remoteChannel n n.dataConn b = (Err.SUCCESS, some e, some (p.p i)) ∧
    (∀ m, 0 ≤ n.push (p.p i) m) ∧ e.id = p.x (i + 1) ∧ Next w par (p.x i) b (p.x (i + 1))
  less : ∀ i, i < p.k → left w dep top (p.x (i + 1)) b < left w dep top (p.x i) b

theorem way_exists (h : Tree.Ok w par dep top reg) (hwh : Whole w reg) {b : Nat} (hb : (w.node b).isSome) (f : Nat) :
    ∀ a, (w.node a).isSome → left w dep top a b ≤ f → ∃ p : Path, p.x 0 = a ∧ Way w par dep top b p ∧ ∀ d, Far par dep a b d → p.k ≤ d := by
  obtain ⟨nb, hnb⟩ := Option.isSome_iff_exists.1 hb
  have hb0 : b ≠ 0 := (h.node b nb hnb).2.1
  induction f with
  | zero =>
    intro a ha hl
    by_cases hab : a = b
    · exact ⟨⟨0, fun _ => a, fun _ => 0⟩, rfl, ⟨hab, fun i hi => absurd hi (Nat.not_lt_zero i), fun i hi => absurd hi (Nat.not_lt_zero i),
        fun i hi => absurd hi (Nat.not_lt_zero i)⟩, fun _ _ => Nat.zero_le _⟩
    · exfalso
      obtain ⟨n, hn⟩ := Option.isSome_iff_exists.1 ha
      rcases h.route hn hb0 (Ne.symm hab) n.dataConn (fun e he => (h.conn a n e hn he).1) (fun e he => (h.side a n e hn he).1) with
        ⟨e, c, -, -, h3, h4⟩ | ⟨e, p, -, h2, h3, -⟩ | ⟨-, h2, -⟩
      · have := h.left_lt ha h4 h3; omega
      · exact (hwh a n e hn h3).1 h2
      · rw [hnb] at h2; cases h2
  | succ f ih =>
    intro a ha hl
    by_cases hab : a = b
    · exact ⟨⟨0, fun _ => a, fun _ => 0⟩, rfl, ⟨hab, fun i hi => absurd hi (Nat.not_lt_zero i), fun i hi => absurd hi (Nat.not_lt_zero i),
        fun i hi => absurd hi (Nat.not_lt_zero i)⟩, fun _ _ => Nat.zero_le _⟩
    · obtain ⟨n, hn⟩ := Option.isSome_iff_exists.1 ha
      rcases h.route hn hb0 (Ne.symm hab) n.dataConn (fun e he => (h.conn a n e hn he).1) (fun e he => (h.side a n e hn he).1) with
        ⟨e, c, h1, h2, h3, h4⟩ | ⟨e, p, -, h2, h3, -⟩ | ⟨-, h2, -⟩
      · have hlt := h.left_lt ha h4 h3
        obtain ⟨q, q0, q1, q2⟩ := ih e.id h4 (by omega)
        refine ⟨⟨q.k + 1, fun i => if i = 0 then a else q.x (i - 1), fun i => if i = 0 then c else q.p (i - 1)⟩, rfl, ⟨?_, ?_, ?_, ?_⟩, ?_⟩
        · show (if q.k + 1 = 0 then a else q.x (q.k + 1 - 1)) = b
          rw [if_neg (by omega)]; exact q1.last
        · intro i hi
          show (if i = 0 then a else q.x (i - 1)) ≠ b
          split
          · exact hab
          · exact q1.ne (i - 1) (by simp only at hi; omega)
        · intro i hi
          show ∃ n e, w.node (if i = 0 then a else q.x (i - 1)) = some n ∧
            remoteChannel n n.dataConn b = (Err.SUCCESS, some e, some (if i = 0 then c else q.p (i - 1))) ∧
            (∀ m, 0 ≤ n.push (if i = 0 then c else q.p (i - 1)) m) ∧ e.id = (if i + 1 = 0 then a else q.x (i + 1 - 1)) ∧
            Next w par (if i = 0 then a else q.x (i - 1)) b (if i + 1 = 0 then a else q.x (i + 1 - 1))
          rw [if_neg (show i + 1 ≠ 0 by omega)]
          by_cases h0 : i = 0
          · subst h0
            rw [if_pos rfl, if_pos rfl]
            exact ⟨n, e, hn, h1, h2, q0.symm, by rw [show (0 : Nat) + 1 - 1 = 0 from rfl, q0]; exact h3⟩
          · rw [if_neg h0, if_neg h0, show i + 1 - 1 = i - 1 + 1 by omega]
            exact q1.hop (i - 1) (by simp only at hi; omega)
        · intro i hi
          show left w dep top (if i + 1 = 0 then a else q.x (i + 1 - 1)) b < left w dep top (if i = 0 then a else q.x (i - 1)) b
          rw [if_neg (show i + 1 ≠ 0 by omega)]
          by_cases h0 : i = 0
          · subst h0
            rw [if_pos rfl, show (0 : Nat) + 1 - 1 = 0 from rfl, q0]; exact hlt
          · rw [if_neg h0, show i + 1 - 1 = i - 1 + 1 by omega]
            exact q1.less (i - 1) (by simp only at hi; omega)
        · intro d hd
          obtain ⟨d', rfl, hd'⟩ := h.far ha hb h4 (Ne.symm hab) h3 hd
          have := q2 d' hd'
          show q.k + 1 ≤ d' + 1
          omega
      · exact absurd h2 (hwh a n e hn h3).1
      · rw [hnb] at h2; cases h2

/-- The nodes on the way are different. -/
theorem Way.inj {b : Nat} {p : Path} (g : Way w par dep top b p) : ∀ i j, i < p.k → j < p.k → p.x i = p.x j → i = j := by
  have hdec : ∀ i d, i + d + 1 ≤ p.k → left w dep top (p.x (i + d + 1)) b < left w dep top (p.x i) b := by
    intro i d
    induction d with
    | zero => intro hd; exact g.less i (by omega)
    | succ d ih =>
      intro hd
      have h1 := ih (by omega)
      have h2 := g.less (i + d + 1) (by omega)
      rw [show i + (d + 1) + 1 = i + d + 1 + 1 by omega]
      omega
  intro i j hi hj he
  rcases Nat.lt_trichotomy i j with hlt | heq | hlt
  · have := hdec i (j - i - 1) (by omega)
    rw [show i + (j - i - 1) + 1 = j by omega, he] at this
    omega
  · exact heq
  · have := hdec j (i - j - 1) (by omega)
    rw [show j + (i - j - 1) + 1 = i by omega, he] at this
    omega

theorem way_ok (h : Tree.Ok w par dep top reg) (v : Wires w) {b : Nat} (hb : (w.node b).isSome) {p : Path} (g : Way w par dep top b p) (hk : 0 < p.k) :
    p.Ok := by
  obtain ⟨nb, hnb⟩ := Option.isSome_iff_exists.1 hb
  refine ⟨hk, fun i j hi hj he => ?_, fun i hi => by rw [g.last]; exact g.ne i hi, by rw [g.last]; exact (h.node b nb hnb).2.1⟩
  obtain ⟨n, e, a1, a2, -, -, -⟩ := g.hop i hi
  obtain ⟨n', e', b1, b2, -, -, -⟩ := g.hop j hj
  have h1 := (v.wire _ _ _ _ _ a1 a2).1
  have h2 := (v.wire _ _ _ _ _ b1 b2).1
  exact g.inj i j hi hj (by rw [← h1, ← h2, he])

theorem remoteChannel_push (n : Node) (f : Nat → Msg → Int) (fn : Nat → Option Nat) (u : Nat) :
    remoteChannel { n with push := f } fn u = remoteChannel n fn u := rfl

/-- Nodes that act with their tables follow the way. -/
theorem way_follows (h : Tree.Ok w par dep top reg) (v : Wires w) (ttl : Nat) (hT : ∀ x n, w.node x = some n → (ttl : Int) ≤ n.ttl ∧ n.ttl < 2 ^ 64)
    {b : Nat} (hb : (w.node b).isSome) {p : Path} (g : Way w par dep top b p) (hk : 0 < p.k) (hkt : p.k ≤ ttl) (e : Ev) (ha : v.acts e) : p.follows e := by
  obtain ⟨nb, hnb⟩ := Option.isSome_iff_exists.1 hb
  cases e with
  | send hh limit tid content seq nr =>
    intro hid ht e' c' hr
    obtain ⟨n, hn, he⟩ := ha
    obtain ⟨n0, e0, a1, a2, -, -, -⟩ := g.hop 0 hk
    rw [hid] at hn
    rw [a1] at hn
    cases hn
    rw [he, remoteChannel_push, g.last] at hr
    simp only at hr
    rw [a2] at hr
    simp only [Prod.mk.injEq, Option.some.injEq] at hr
    exact hr.2.2.symm
  | handle l hh =>
    intro i hi hl
    subst hl
    obtain ⟨ha1, ha2, ha3⟩ := ha
    obtain ⟨n0, e0, a1, a2, a3, a4, a5⟩ := g.hop i hi
    obtain ⟨w1, w2⟩ := v.wire _ _ _ _ _ a1 a2
    rw [w2, a4] at ha1
    rw [w1] at ha2
    obtain ⟨k1, k2, k3, k4, -⟩ := h.node _ _ ha1
    refine ⟨fun hi1 => ?_, fun hi1 => ⟨by rw [k1, hi1], ha3, k4⟩⟩
    obtain ⟨n1, e1, c1, c2, c3, c4, c5⟩ := g.hop (i + 1) hi1
    rw [ha1] at c1
    cases c1
    refine ⟨k1, ha3, k4, ?_, ⟨e1, p.x i, by rw [g.last]; exact c2, ha2, (h.node _ _ a1).2.1, ?_⟩, c3⟩
    · have := hT _ _ ha1
      have hmod : hh.n.ttl % (W64 : Int) = hh.n.ttl := Int.emod_eq_of_lt (by omega) (by have := this.2; simpa [W64] using this)
      rw [hmod]
      omega
    · rw [c4]
      exact h.not_back (by rw [ha1]; rfl) (h.came (by rw [a1]; rfl) a5) c5
  | other c b' ev => trivial
  | lane l e' => trivial

/-- C91 (trees): in a network of nodes that form trees, all of whose connections are streams and work, whatever is sent and in whatever order
things happen: for every two nodes, the application of the second gets an initial part of the messages to it that `send_data` accepted at the
first, in order, without change, loss or repetition; and all of them, when the streams have come to rest. -/
theorem C91_tree_partial (h : Tree.Ok w par dep top reg) (hwh : Whole w reg) (v : Wires w) (ttl : Nat)
    (hT : ∀ x n, w.node x = some n → (ttl : Int) ≤ n.ttl ∧ n.ttl < 2 ^ 64) (cf : Conf) (hcod : cf.Codec) (hf bf ag : Nat)
    (hag : ∀ i, ag ≤ (cf.stream i).recv.maxAgain) (es : List Ev) (hc : Cans cf True (init hf bf ag) es) (hv : ∀ e ∈ es, v.acts e) :
    ∃ s, run cf (init hf bf ag) es = some s ∧ (∀ x ∈ s.delivered, x.2.to = x.1) ∧
      ∀ a b d, (w.node a).isSome → (w.node b).isSome → a ≠ b → Far par dep a b d → d ≤ ttl →
        gotBy a b s <+: sentBy a b s ∧ ((∀ c, Rest s c) → gotBy a b s = sentBy a b s) := by
  obtain ⟨s, h1, h2, -⟩ := C91_once_partial cf hcod hf bf ag hag es hc
  refine ⟨s, h1, h2, fun a b d ha hb hab hd hdt => ?_⟩
  obtain ⟨p, p0, g, hk⟩ := way_exists h hwh hb _ a ha (Nat.le_refl _)
  have hk0 : 0 < p.k := by
    rcases Nat.eq_zero_or_pos p.k with h0 | h0
    · have := g.last
      rw [h0, p0] at this
      exact absurd this hab
    · exact h0
  have hok := way_ok h v hb g hk0
  have hfo : ∀ e ∈ es, p.follows e := fun e he => way_follows h v ttl hT hb g hk0 (Nat.le_trans (hk d hd) hdt) e (hv e he)
  obtain ⟨s1, e1, e2⟩ := C91_order_partial cf hcod p hok hf bf ag hag es hc hfo
  obtain ⟨s2, e3, e4⟩ := C91_arrives_partial cf hcod p hok hf bf ag hag es hc hfo
  rw [h1] at e1 e3
  cases e1
  cases e3
  rw [p0, g.last] at e2 e4
  exact ⟨e2, fun hs => e4 fun i _ => hs (p.p i)⟩

end

end Verif.Node.Relay
