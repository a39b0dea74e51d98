import Verif.Node.PeerAddr
import Verif.Address.Props

/-!
C94: which address a stream connection has, and which connections count as the connection to the parent.
-/
namespace Verif.Node.PeerAddr

open Verif.Address

theorem load_wire (p : Nat) (h : p < 65536) : load (wire p) = p ↔ p / 256 = p % 256 := by
  unfold load wire
  omega

theorem load_lt (p : Nat) (h : p < 65536) : load (wire p) < 65536 := by unfold load wire; omega

theorem load_inj {p q : Nat} (hp : p < 65536) (hq : q < 65536) (h : load (wire p) = load (wire q)) : p = q := by
  unfold load wire at h
  omega

theorem load_pos {p : Nat} (h : 0 < p) : 0 < load (wire p) := by unfold load wire; omega

theorem load_load (p : Nat) (h : p < 65536) : load (wire (load (wire p))) = p := by unfold load wire; omega

theorem scheme_sep (v : Bool) : ∀ c ∈ scheme v, ¬ Address.Sep c := by cases v <;> simp [scheme, Address.Sep]

theorem scheme_inj {a b : Bool} (h : scheme a = scheme b) : a = b := by
  cases a <;> cases b <;> first | rfl | (revert h; decide)

/-- The text of an accepted connection says exactly its scheme, host and (stored) port. -/
theorem accept_parse (p : Sock) (h0 : 0 < p.port) (h1 : p.port < 65536) :
    ∃ n, acceptTcp (some p) = some n ∧ parse n.text = .ok ⟨scheme p.v6, p.ip, load (wire p.port)⟩ := by
  refine ⟨_, rfl, C26_round_trip _ _ _ (scheme_sep _) (load_pos h0) ?_⟩
  have := load_lt p.port h1
  omega

/-- C94 (accepted): the address of an accepted connection has the family and the IP address of the other end; its port is the other end's
port exactly if the two bytes of the port are equal.  Missing: the other ports (false, `C94_port_false`), and connections whose other end is
gone before its address was asked for: the code then reads an uninitialised
address (`acceptTcp none`). -/
theorem C94_accepted_partial (p : Sock) (h0 : 0 < p.port) (h1 : p.port < 65536) :
    ∃ (n : Name) (q : Nat), acceptTcp (some p) = some n ∧ parse n.text = .ok ⟨if p.v6 then "ipv6".toList else "ipv4".toList, p.ip, q⟩ ∧
      (q = p.port ↔ p.port / 256 = p.port % 256) := by
  obtain ⟨n, h2, h3⟩ := accept_parse p h0 h1
  exact ⟨n, _, h2, h3, load_wire p.port h1⟩

/-- C94 (accepted) is false: a connection from port 16387 is named as one from port 832. -/
theorem C94_port_false : ∃ n, acceptTcp (some ⟨false, "127.0.0.1".toList, 16387⟩) = some n ∧ n.text = "ipv4://127.0.0.1:832".toList := by
  refine ⟨_, rfl, ?_⟩
  decide +kernel

/-- C94 (distinct): connections from different places have different addresses. -/
theorem C94_distinct (p q : Sock) (hp0 : 0 < p.port) (hp : p.port < 65536) (hq0 : 0 < q.port) (hq : q.port < 65536) (m n : Name)
    (hm : acceptTcp (some p) = some m) (hn : acceptTcp (some q) = some n) (h : m.text = n.text) : p = q := by
  obtain ⟨m', a1, a2⟩ := accept_parse p hp0 hp
  obtain ⟨n', b1, b2⟩ := accept_parse q hq0 hq
  rw [hm] at a1; cases a1
  rw [hn] at b1; cases b1
  rw [h, b2] at a2
  simp only [Parsed.ok.injEq, Addr.mk.injEq] at a2
  obtain ⟨c1, c2, c3⟩ := a2
  have e1 := scheme_inj c1
  have e3 := load_inj hq hp (by exact_mod_cast c3)
  cases p; cases q
  simp_all

/-- C94 (unix): a connection from a socket with a path is named by the path. -/
theorem C94_unix (max : Nat) (own peer : List Char) (h0 : peer ≠ []) (h1 : '\x00' ∉ peer) (h2 : peer.length < max) :
    acceptPipe max own peer = make "unix".toList peer 0 := by
  have hh : ¬ (peer.length = 0 ∨ peer.headD '\x00' = '\x00') := by
    rintro (h | h)
    · exact h0 (List.length_eq_zero_iff.1 h)
    · cases peer with
      | nil => exact h0 rfl
      | cons c l => exact h1 (by rw [show c = '\x00' from h]; exact List.mem_cons_self)
  have ht : peer.takeWhile (· ≠ '\x00') = peer := by
    clear h0 h2 hh
    induction peer with
    | nil => rfl
    | cons c l ih =>
      simp only [List.mem_cons, not_or] at h1
      have : ¬ c = '\x00' := fun e => h1.1 e.symm
      have := ih h1.2
      simp_all
  unfold acceptPipe getName
  simp only [h2, if_true]
  rw [if_neg hh]
  simp only
  rw [ht]

/-- C94 (unix) is false for clients that did not bind: the code means to use the name of the socket itself, but gives the call a buffer of
size 0; the address is `unix://`, whatever socket it came in on. -/
theorem C94_unix_false (max : Nat) (own : List Char) (h : 0 < max) : (acceptPipe max own []).text = "unix://".toList := by
  have h1 : getName [] [] max = ([], 0) := by unfold getName; exact if_pos h
  have h2 : getName own [] 0 = ([], own.length + 1) := by unfold getName; rw [if_neg (by omega)]
  unfold acceptPipe
  rw [h1]
  simp only [true_or, if_true, h2]
  rfl

/-- C94 (target): an address with a TCP scheme and a port below 65536 leads to that host and port. -/
theorem C94_target_partial (v6 : Bool) (host : List Char) (port : Nat) (h0 : 0 < port) (h : port < 65536) :
    ∃ a, parse (format (scheme v6) host port) = .ok a ∧ target a = some ⟨v6, host, port⟩ := by
  refine ⟨_, C26_round_trip _ _ _ (scheme_sep _) h0 (by omega), ?_⟩
  have h1 : ((port : Int) % 65536).toNat = port := by omega
  cases v6 <;> simp [target, scheme, prefixCI, h1] <;> decide

/-- C94 (target) is false for larger and negative ports: they are taken modulo 65536. -/
theorem C94_target_false :
    (∃ a, parse "ipv4://h:65616".toList = .ok a ∧ target a = some ⟨false, "h".toList, 80⟩) ∧
    (∃ a, parse "ipv4://h:-1".toList = .ok a ∧ target a = some ⟨false, "h".toList, 65535⟩) := by
  refine ⟨⟨⟨"ipv4".toList, "h".toList, 65616⟩, ?_, ?_⟩, ⟨⟨"ipv4".toList, "h".toList, -1⟩, ?_, ?_⟩⟩ <;> decide +kernel

/-- C94 (names): a name is resolved to an address with the port that was asked for, and that is where the system is sent to. -/
theorem C94_resolved (a : Addr) (port : Nat) (ha : a.port = port) (h : port < 65536) (v6 : Bool) (ip : List Char) :
    target (resolved a v6 ip).addr = some ⟨v6, ip, port⟩ := by
  have h1 : ((port : Int) % 65536).toNat = port := by omega
  cases v6 <;> simp [target, resolved, make, scheme, prefixCI, ha, h1] <;> decide

/-- C94 (parent): an accepted TCP connection counts as the one to the parent exactly if it comes from the parent's host and from the port
whose bytes are those of the parent's port in reverse. -/
theorem C94_parent_iff (p : Sock) (hp0 : 0 < p.port) (hp : p.port < 65536) (v6 : Bool) (host : List Char) (port : Nat) (h0 : 0 < port)
    (h1 : port < 65536) (n : Name) (hn : acceptTcp (some p) = some n) :
    ofParent (format (scheme v6) host port) n = true ↔ p.v6 = v6 ∧ p.ip = host ∧ port / 256 = p.port % 256 ∧ port % 256 = p.port / 256 := by
  obtain ⟨n', a1, a2⟩ := accept_parse p hp0 hp
  rw [hn] at a1; cases a1
  simp only [ofParent, beq_iff_eq]
  constructor
  · intro h
    rw [h, C26_round_trip _ _ _ (scheme_sep _) h0 (by omega)] at a2
    simp only [Parsed.ok.injEq, Addr.mk.injEq] at a2
    obtain ⟨c1, c2, c3⟩ := a2
    have c3 : port = load (wire p.port) := by exact_mod_cast c3
    refine ⟨(scheme_inj c1).symm, c2.symm, ?_, ?_⟩ <;> · rw [c3]; unfold load wire; omega
  · rintro ⟨e1, e2, e3, e4⟩
    have e : load (wire p.port) = port := by unfold load wire; omega
    simp only [acceptTcp, Option.map_some, Option.some.injEq] at hn
    rw [← hn, e1, e2, e]
    rfl

/-- C94 (parent): no accepted connection counts as the one to a parent whose address is given by name. -/
theorem C94_parent_name (peer : Option Sock) (n : Name) (hn : acceptTcp peer = some n) (max : Nat) (own other rest : List Char) :
    ofParent ("dns".toList ++ rest) n = false ∧ ofParent ("dns".toList ++ rest) (acceptPipe max own other) = false := by
  constructor
  · cases peer with
    | none => cases hn
    | some p =>
      simp only [acceptTcp, Option.map_some, Option.some.injEq] at hn
      rw [← hn]
      cases h : p.v6 <;> simp [ofParent, make, format, scheme]
  · simp [ofParent, acceptPipe, make, format]

/-- C94 (parent) is false: a connection that the node did not make to its parent is taken for that one.  A process on the host of the parent
that connects from the right port and closes the connection again, without a token and without sending anything, shuts down a node
that is waiting for the answer of its parent. -/
theorem C94_parent_false : ∃ (s s' : Life.S) (n : Name), Life.run (fun _ => []) 4 [.init true true, .start true] = some s ∧
    s.shutdown = false ∧ s.st = .connectingParent ∧ acceptTcp (some ⟨false, "10.0.0.1".toList, 832⟩) = some n ∧
    lost some "ipv4://10.0.0.1:16387".toList n s = some s' ∧ s'.shutdown = true ∧ s'.st = .lostParent := by
  have h : ofParent "ipv4://10.0.0.1:16387".toList (make (scheme false) "10.0.0.1".toList (load (wire 832))) = true := by decide +kernel
  refine ⟨{ st := .connectingParent, hasId := true, parentAddr := true, log := [.other] },
    { st := .lostParent, hasId := true, parentAddr := true, shutdown := true, log := [.other, .other] },
    make (scheme false) "10.0.0.1".toList (load (wire 832)), rfl, rfl, rfl, rfl, ?_, rfl, rfl⟩
  unfold lost
  rw [if_pos h]
  rfl

/-- C94 (parent): a client of a unix socket that did not bind never counts as the parent with a path. -/
theorem C94_parent_unix (max : Nat) (own path : List Char) (h : 0 < max) (hp : path ≠ []) :
    ofParent ("unix://".toList ++ path) (acceptPipe max own []) = false := by
  simp only [ofParent, C94_unix_false max own h]
  cases path with
  | nil => exact absurd rfl hp
  | cons c l => simp

/-- A connection that does not count as the one to the parent leaves the state of the node alone when it is lost. -/
theorem C94_others_harmless (hook : Life.S → Option Life.S) (v6 : Bool) (host : List Char) (port : Nat) (h0 : 0 < port) (h1 : port < 65536)
    (p : Sock) (hp0 : 0 < p.port) (hp : p.port < 65536) (hd : p.ip ≠ host) (n : Name) (hn : acceptTcp (some p) = some n) (s : Life.S) :
    lost hook (format (scheme v6) host port) n s = some s := by
  have : ofParent (format (scheme v6) host port) n = false := by
    cases h : ofParent (format (scheme v6) host port) n with
    | false => rfl
    | true => exact absurd ((C94_parent_iff p hp0 hp v6 host port h0 h1 n hn).1 h).2.1 hd
  simp [lost, this]

/-- Two clients on one host, and a client with a path. -/
example : acceptTcp (some ⟨true, "::1".toList, 257⟩) = some ⟨"ipv6://::1:257".toList, ⟨"ipv6".toList, "::1".toList, 257⟩⟩ ∧
    acceptPipe 4096 "/run/a.sock".toList "/run/b.sock".toList = ⟨"unix:///run/b.sock".toList, ⟨"unix".toList, "/run/b.sock".toList, 0⟩⟩ := by
  decide +kernel

/-- A name with a port, resolved. -/
example : target (resolved ⟨"dns".toList, "localhost".toList, 8000⟩ false "127.0.0.1".toList).addr = some ⟨false, "127.0.0.1".toList, 8000⟩ :=
  C94_resolved _ 8000 rfl (by decide) _ _

end Verif.Node.PeerAddr
