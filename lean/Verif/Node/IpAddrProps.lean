import Verif.Node.IpAddr
import Verif.Address.Props

/-!
C100: which socket address an address in text form stands for.
-/
namespace Verif.Node.IpAddr

open Verif.Address

/-! ### Specification -/

/-- `t` is the number `n` of a byte in decimal digits, without needless zeros. -/
def Octet (t : List Char) (n : Nat) : Prop :=
  t ≠ [] ∧ (∀ c ∈ t, isDigit c = true) ∧ digitsVal t = n ∧ n ≤ 255 ∧ (1 < t.length → t.head? ≠ some '0')

/-- `t` is the dotted quad of the bytes `q`. -/
def Quad (t : List Char) (q : List Nat) : Prop :=
  ∃ t0 t1 t2 t3 q0 q1 q2 q3, t = t0 ++ '.' :: t1 ++ '.' :: t2 ++ '.' :: t3 ∧ q = [q0, q1, q2, q3] ∧
    Octet t0 q0 ∧ Octet t1 q1 ∧ Octet t2 q2 ∧ Octet t3 q3

/-- Four bytes. -/
def Ip4 (q : List Nat) : Prop := ∃ a b c d, q = [a, b, c, d] ∧ a ≤ 255 ∧ b ≤ 255 ∧ c ≤ 255 ∧ d ≤ 255

/-! ### Octets -/

theorem digitsVal_snoc (t : List Char) (c : Char) : digitsVal (t ++ [c]) = digitsVal t * 10 + (c.toNat - 48) := by
  simp [digitsVal, List.foldl_append]

theorem digit_zero {c : Char} (h : isDigit c = true) : c.toNat - 48 = 0 ↔ c = '0' := by
  unfold isDigit at h
  simp only [Bool.and_eq_true, decide_eq_true_eq] at h
  constructor
  · intro hc
    have : c.toNat = '0'.toNat := by
      show c.toNat = 48
      omega
    exact Char.toNat_inj.1 this
  · rintro rfl
    rfl

/-- The value of digits that do not begin with zero is not zero. -/
theorem digitsVal_pos : ∀ (t : List Char), t ≠ [] → (∀ c ∈ t, isDigit c = true) → t.head? ≠ some '0' → digitsVal t ≠ 0 := by
  intro t h0 hd hh
  cases t with
  | nil => exact absurd rfl h0
  | cons c t =>
    have hc : c.toNat - 48 ≠ 0 := by
      intro hz
      exact hh (by rw [(digit_zero (hd c (by simp))).1 hz]; rfl)
    have key : ∀ (l : List Char) (a : Nat), a ≠ 0 → l.foldl (fun acc c => acc * 10 + (c.toNat - 48)) a ≠ 0 := by
      intro l
      induction l with
      | nil => intro a ha; exact ha
      | cons x l ih => intro a ha; exact ih (a * 10 + (x.toNat - 48)) (by omega)
    simp only [digitsVal, List.foldl_cons]
    exact key t _ (by omega)

theorem octet_one {c : Char} (h : isDigit c = true) : Octet [c] (c.toNat - 48) := by
  refine ⟨by simp, by simpa using h, by simp [digitsVal], ?_, by simp⟩
  unfold isDigit at h
  simp only [Bool.and_eq_true, decide_eq_true_eq] at h
  omega

theorem octet_snoc {t : List Char} {n : Nat} {c : Char} (h : Octet t n) (hn : n ≠ 0) (hc : isDigit c = true) (hb : n * 10 + (c.toNat - 48) ≤ 255) :
    Octet (t ++ [c]) (n * 10 + (c.toNat - 48)) := by
  obtain ⟨h0, h1, h2, h3, h4⟩ := h
  refine ⟨by simp, ?_, by rw [digitsVal_snoc, h2], hb, ?_⟩
  · intro x hx
    rcases List.mem_append.1 hx with hx | hx
    · exact h1 x hx
    · rw [List.mem_singleton.1 hx]; exact hc
  · intro _
    cases t with
    | nil => exact absurd rfl h0
    | cons x t =>
      intro hx
      simp only [List.cons_append, List.head?_cons, Option.some.injEq] at hx
      subst hx
      cases t with
      | nil => exact hn (by rw [← h2]; rfl)
      | cons y t => exact h4 (by simp) rfl

/-- The text of an octet, taken apart at its last digit. -/
theorem octet_last {t : List Char} {c : Char} {n : Nat} (h : Octet (t ++ [c]) n) (ht : t ≠ []) :
    Octet t (digitsVal t) ∧ digitsVal t ≠ 0 ∧ isDigit c = true ∧ n = digitsVal t * 10 + (c.toNat - 48) := by
  obtain ⟨h0, h1, h2, h3, h4⟩ := h
  rw [digitsVal_snoc] at h2
  have hl : 1 < (t ++ [c]).length := by
    have := List.length_pos_iff.2 ht
    simp; omega
  have hh : t.head? ≠ some '0' := by
    intro hx
    refine h4 hl ?_
    rw [List.head?_append, hx]; rfl
  have hd : ∀ x ∈ t, isDigit x = true := fun x hx => h1 x (List.mem_append_left _ hx)
  exact ⟨⟨ht, hd, rfl, by omega, fun _ => hh⟩, digitsVal_pos t ht hd hh, h1 c (by simp), h2.symm⟩

/-! ### `inet_pton4` -/

theorem not_digit_dot : isDigit '.' = false := by decide

/-- What has been read so far. -/
def Shape (s : Scan) (t : List Char) : Prop :=
  ∃ (ts : List (List Char × Nat)) (l : List Char), t = (ts.map fun x => x.1 ++ ['.']).flatten ++ l ∧ s.before = ts.map Prod.snd ∧
    (∀ x ∈ ts, Octet x.1 x.2) ∧ (if s.saw then Octet l s.cur else l = [] ∧ s.cur = 0) ∧ s.octets ≤ 4 ∧ s.before.length ≤ 3

theorem shape_scan {s s' : Scan} {t : List Char} {c : Char} (h : Shape s t) (hs : scan s c = some s') : Shape s' (t ++ [c]) := by
  obtain ⟨b, cur, saw⟩ := s
  obtain ⟨ts, l, h1, h2, h3, h4, h5, h6⟩ := h
  unfold scan at hs
  split at hs
  · next hd =>
    simp only at hs
    split at hs
    · cases hs
    next hz =>
    split at hs
    · cases hs
    next hnw =>
    split at hs
    · next hsaw =>
      cases hs
      simp only at hsaw h2 h4 h6
      subst hsaw
      rw [if_pos rfl] at h4
      simp at hz
      refine ⟨ts, l ++ [c], by rw [h1]; simp, h2, h3, ?_, h5, h6⟩
      show if true = true then _ else _
      rw [if_pos rfl]
      exact octet_snoc h4 hz hd (by simp at hnw; omega)
    · next hsaw =>
      split at hs
      · cases hs
      next ho =>
      cases hs
      simp only [Bool.not_eq_true] at hsaw h2 h4 h6
      subst hsaw
      simp only [Bool.false_eq_true, if_false] at h4
      obtain ⟨rfl, rfl⟩ := h4
      refine ⟨ts, [c], by rw [h1]; simp, h2, h3, ?_, ?_, h6⟩
      · show if true = true then _ else _
        rw [if_pos rfl, Nat.zero_mul, Nat.zero_add]
        exact octet_one hd
      · simp only [Scan.octets] at ho ⊢
        simp at ho ⊢
        omega
  · split at hs
    · next hd hdot =>
      simp only [Bool.and_eq_true, beq_iff_eq] at hdot
      obtain ⟨rfl, hsaw⟩ := hdot
      simp only at hsaw h2 h4 h6
      subst hsaw
      rw [if_pos rfl] at h4
      split at hs
      · cases hs
      next ho =>
      cases hs
      refine ⟨ts ++ [(l, cur)], [], by rw [h1]; simp, by simp [h2], ?_, ⟨rfl, rfl⟩, ?_, ?_⟩
      · intro x hx
        rcases List.mem_append.1 hx with hx | hx
        · exact h3 x hx
        · rw [List.mem_singleton.1 hx]; exact h4
      · simp only [Scan.octets] at ho h5 ⊢
        simp at ho h5 ⊢
        omega
      · simp only [Scan.octets] at ho h5 ⊢
        simp at ho h5 ⊢
        omega
    · cases hs

theorem shape_run (t : List Char) : ∀ (s s' : Scan) (u : List Char), Shape s u → t.foldlM scan s = some s' → Shape s' (u ++ t) := by
  induction t with
  | nil => intro s s' u h hs; cases hs; simpa using h
  | cons c t ih =>
    intro s s' u h hs
    rw [List.foldlM_cons] at hs
    cases hc : scan s c with
    | none => rw [hc] at hs; cases hs
    | some s1 =>
      rw [hc] at hs
      have := ih s1 s' (u ++ [c]) (shape_scan h hc) hs
      simpa using this

/-- An octet is read. -/
theorem scan_octet (b : List Nat) (hb : b.length ≤ 3) : ∀ (k : Nat) (t : List Char) (n : Nat), t.length = k → Octet t n →
    t.foldlM scan ⟨b, 0, false⟩ = some ⟨b, n, true⟩ := by
  intro k
  induction k with
  | zero => intro t n hk h; exact absurd (List.length_eq_zero_iff.1 hk) h.1
  | succ k ih =>
    intro t n hk h
    rcases List.eq_nil_or_concat t with rfl | ⟨u, c, rfl⟩
    · cases hk
    rw [List.concat_eq_append] at h hk ⊢
    rw [List.foldlM_append]
    by_cases hu : u = []
    · subst hu
      obtain ⟨-, h1, h2, h3, -⟩ := h
      have hd := h1 c (by simp)
      simp only [List.nil_append, digitsVal, List.foldl_cons, List.foldl_nil, Nat.zero_mul, Nat.zero_add] at h2
      simp only [List.foldlM_nil, List.nil_append, List.foldlM_cons, Option.pure_def, Option.bind_eq_bind, Option.bind_some]
      unfold scan Scan.octets
      simp [hd, h2]
      omega
    · obtain ⟨g1, g2, g3, g4⟩ := octet_last h hu
      rw [ih u _ (by simpa using hk) g1]
      have h3 := h.2.2.2.1
      simp only [List.foldlM_cons, List.foldlM_nil, Option.pure_def, Option.bind_eq_bind, Option.bind_some]
      unfold scan
      simp [g3, g2, g4]
      omega

theorem scan_dot (b : List Nat) (hb : b.length < 3) (n : Nat) : scan ⟨b, n, true⟩ '.' = some ⟨b ++ [n], 0, false⟩ := by
  unfold scan Scan.octets
  simp [not_digit_dot]
  omega

/-- C100 (syntax): the texts that are taken for an address are exactly the dotted quads, and the bytes are those written. -/
theorem C100_quad_iff (t : List Char) (q : List Nat) : pton4 t = some q ↔ Quad t q := by
  constructor
  · intro h
    unfold pton4 at h
    split at h
    · cases h
    next s hs =>
    split at h
    · cases h
    next ho =>
    cases h
    obtain ⟨ts, l, h1, h2, h3, h4, h5, h6⟩ := shape_run t ⟨[], 0, false⟩ s [] ⟨[], [], rfl, rfl, by simp, ⟨rfl, rfl⟩, by decide, by simp⟩ hs
    obtain ⟨b, cur, saw⟩ := s
    simp only [Scan.octets] at ho h5
    simp only at h2 h4 h6
    cases saw with
    | false => simp at ho; omega
    | true =>
      simp only [if_true] at h4
      simp at ho
      have hl : ts.length = 3 := by
        have : b.length = ts.length := by rw [h2, List.length_map]
        omega
      match ts, hl with
      | [x, y, z], _ =>
        refine ⟨x.1, y.1, z.1, l, x.2, y.2, z.2, cur, ?_, ?_, h3 x (by simp), h3 y (by simp), h3 z (by simp), h4⟩
        · simpa using h1
        · simp [h2]
  · rintro ⟨t0, t1, t2, t3, q0, q1, q2, q3, rfl, rfl, h0, h1, h2, h3⟩
    have e : t0 ++ '.' :: t1 ++ '.' :: t2 ++ '.' :: t3 = t0 ++ ('.' :: (t1 ++ ('.' :: (t2 ++ ('.' :: t3))))) := by simp
    have hr : (t0 ++ '.' :: t1 ++ '.' :: t2 ++ '.' :: t3).foldlM scan ⟨[], 0, false⟩ = some ⟨[q0, q1, q2], q3, true⟩ := by
      rw [e, List.foldlM_append, scan_octet [] (by simp) _ _ _ rfl h0]
      simp only [Option.bind_eq_bind, Option.bind_some, List.foldlM_cons]
      rw [scan_dot _ (by simp)]
      simp only [Option.bind_some]
      rw [List.foldlM_append, scan_octet _ (by simp) _ _ _ rfl h1]
      simp only [Option.bind_eq_bind, Option.bind_some, List.foldlM_cons]
      rw [scan_dot _ (by simp)]
      simp only [Option.bind_some]
      rw [List.foldlM_append, scan_octet _ (by simp) _ _ _ rfl h2]
      simp only [Option.bind_eq_bind, Option.bind_some, List.foldlM_cons]
      rw [scan_dot _ (by simp)]
      simp only [Option.bind_some]
      rw [scan_octet _ (by simp) _ _ _ rfl h3]
      rfl
    unfold pton4
    rw [hr]
    rfl

/-! ### Names -/

theorem dec_head (n : Nat) : 1 < (dec n).length → (dec n).head? ≠ some '0' := by
  induction n using Nat.strongRecOn with
  | ind n ih =>
    intro hl
    rw [dec] at hl ⊢
    split at hl
    · simp at hl
    next hn =>
    rw [if_neg hn]
    rw [List.head?_append]
    cases hd : dec (n / 10) with
    | nil => exact absurd hd (dec_ne _)
    | cons c cs =>
      intro hc
      simp only [List.head?_cons, Option.some_or, Option.some.injEq] at hc
      subst hc
      by_cases hcs : 1 < (dec (n / 10)).length
      · exact ih (n / 10) (by omega) hcs (by rw [hd]; rfl)
      · have hcs' : cs = [] := by
          rw [hd, List.length_cons] at hcs
          cases cs with
          | nil => rfl
          | cons x xs => exact absurd (Nat.succ_lt_succ (Nat.succ_pos xs.length)) hcs
        have hv := dec_val (n / 10)
        rw [hd, hcs'] at hv
        have : digitsVal ['0'] = 0 := rfl
        omega

/-- A byte is printed as an octet. -/
theorem octet_dec (n : Nat) (h : n ≤ 255) : Octet (dec n) n := ⟨dec_ne n, dec_digit n, dec_val n, h, dec_head n⟩

theorem octet_fun {t : List Char} {m n : Nat} (h1 : Octet t m) (h2 : Octet t n) : m = n := by rw [← h1.2.2.1, h2.2.2.1]

/-- C100 (names): the text that is made of an IPv4 address is its dotted quad, and fits the buffers of the code. -/
theorem C100_name (q : List Nat) (h : Ip4 q) : Quad (name4 q) q ∧ (name4 q).length < 17 := by
  obtain ⟨a, b, c, d, rfl, ha, hb, hc, hd⟩ := h
  refine ⟨⟨dec a, dec b, dec c, dec d, a, b, c, d, by simp [name4], rfl, octet_dec a ha, octet_dec b hb, octet_dec c hc, octet_dec d hd⟩, ?_⟩
  have h1 := dec_length 2 a (by omega)
  have h2 := dec_length 2 b (by omega)
  have h3 := dec_length 2 c (by omega)
  have h4 := dec_length 2 d (by omega)
  simp [name4]
  omega

/-- C100 (names differ): two IPv4 addresses with the same text are the same. -/
theorem C100_name_inj (p q : List Nat) (hp : Ip4 p) (hq : Ip4 q) (h : name4 p = name4 q) : p = q := by
  have h1 := (C100_quad_iff _ _).2 (C100_name p hp).1
  have h2 := (C100_quad_iff _ _).2 (C100_name q hq).1
  rw [h, h2] at h1
  exact (Option.some.inj h1).symm

theorem digit_self {c : Char} (h : isDigit c = true) (m : Nat) : c = digit (m * 10 + (c.toNat - 48)) := by
  unfold isDigit at h
  simp only [Bool.and_eq_true, decide_eq_true_eq] at h
  apply Char.toNat_inj.1
  rw [digit_val]
  omega

theorem octet_text : ∀ (k : Nat) (t : List Char) (n : Nat), t.length = k → Octet t n → t = dec n := by
  intro k
  induction k with
  | zero => intro t n hk h; exact absurd (List.length_eq_zero_iff.1 hk) h.1
  | succ k ih =>
    intro t n hk h
    rcases List.eq_nil_or_concat t with rfl | ⟨u, c, rfl⟩
    · cases hk
    rw [List.concat_eq_append] at h hk ⊢
    by_cases hu : u = []
    · subst hu
      obtain ⟨-, h1, h2, h3, -⟩ := h
      have hd := h1 c (by simp)
      have hs := digit_self hd 0
      simp only [List.nil_append, digitsVal, List.foldl_cons, List.foldl_nil, Nat.zero_mul, Nat.zero_add] at h2 hs
      rw [h2] at hs
      unfold isDigit at hd
      simp only [Bool.and_eq_true, decide_eq_true_eq] at hd
      rw [dec, if_pos (by omega), List.nil_append, ← hs]
    · obtain ⟨g1, g2, g3, g4⟩ := octet_last h hu
      have e := ih u _ (by simpa using hk) g1
      have hs := digit_self g3 (digitsVal u)
      rw [← g4] at hs
      unfold isDigit at g3
      simp only [Bool.and_eq_true, decide_eq_true_eq] at g3
      rw [dec, if_neg (by omega), ← hs, show n / 10 = digitsVal u by omega, ← e]

/-- C100 (one text): an IPv4 address has one dotted quad, the one that the code prints.  So the comparison of texts by which a node knows
its parent (C94) cannot be misled by the host if both are dotted quads. -/
theorem C100_text (t : List Char) (q : List Nat) (h : Quad t q) : t = name4 q := by
  obtain ⟨t0, t1, t2, t3, q0, q1, q2, q3, rfl, rfl, h0, h1, h2, h3⟩ := h
  rw [octet_text _ _ _ rfl h0, octet_text _ _ _ rfl h1, octet_text _ _ _ rfl h2, octet_text _ _ _ rfl h3]
  simp [name4]

/-! ### Listening and connecting -/

/-- A dotted quad stands for four bytes. -/
theorem quad_ip4 {t : List Char} {q : List Nat} (h : Quad t q) : Ip4 q := by
  obtain ⟨_, _, _, _, a, b, c, d, -, rfl, h0, h1, h2, h3⟩ := h
  exact ⟨a, b, c, d, rfl, h0.2.2.2.1, h1.2.2.2.1, h2.2.2.2.1, h3.2.2.2.1⟩

theorem lower_small {d e : Char} (he : e.toNat < 97) (h : d.toLower = e) : d = e := by
  unfold Char.toLower at h
  split at h
  · rename_i hu
    simp only [UInt32.le_iff_toNat_le] at hu
    have h1 := congrArg Char.toNat h
    simp only [Char.toNat] at h1 he
    have h2 : (d.val + 32).toNat = e.val.toNat := h1
    rw [UInt32.toNat_add] at h2
    have h3 : (UInt32.toNat 65) ≤ d.val.toNat := hu.1
    have h4 : d.val.toNat ≤ UInt32.toNat 90 := hu.2
    have e1 : UInt32.toNat 65 = 65 := rfl
    have e2 : UInt32.toNat 90 = 90 := rfl
    have e3 : UInt32.toNat 32 = 32 := rfl
    omega
  · exact h

theorem fourth {a b c d : Char} {t : List Char} (hd : d.toNat < 97) (h : prefixCI [a, b, c, d] t = true) : t[3]? = some d := by
  unfold prefixCI at h
  match t, h with
  | [], h => simp at h
  | [_], h => simp at h
  | [_, _], h => simp at h
  | [_, _, _], h => simp at h
  | x :: y :: z :: w :: rest, h =>
    simp only [List.length_cons, List.length_nil, List.take_succ_cons, List.take_zero, List.map_cons, List.map_nil, beq_iff_eq,
      List.cons.injEq, and_true] at h
    simp [lower_small hd h.2.2.2]

/-- The socket address for an address with the scheme of IPv4. -/
theorem sock4 (pton6 : List Char → Option (List Nat)) {a : Addr} (h : prefixCI "ipv4".toList a.scheme = true) :
    sockAddr pton6 a = ip4 a.host a.port := if_pos (fourth (by decide) h)

/-- The socket address for an address with the scheme of IPv6. -/
theorem sock6 (pton6 : List Char → Option (List Nat)) {a : Addr} (h : prefixCI "ipv6".toList a.scheme = true) :
    sockAddr pton6 a = ip6 pton6 a.host a.port := by
  refine if_neg ?_
  rw [fourth (a := 'i') (b := 'p') (c := 'v') (d := '6') (by decide) h]
  decide

theorem ipv4_self : prefixCI "ipv4".toList "ipv4".toList = true := by decide +kernel

/-- Where a call listens or connects to, if it succeeds. -/
theorem where_ (pton6 : List Char → Option (List Nat)) (sys : Sys) (a : Addr) (s : Sock)
    (h : (listenTcp pton6 sys a).2 = some s ∨ (connectTcp pton6 sys a).2 = some s) : s = sockAddr pton6 a := by
  unfold listenTcp connectTcp at h
  simp only at h
  rcases h with h | h
  · split at h
    · cases h
    split at h
    · cases h
    cases h; rfl
  · split at h
    · cases h
    cases h; rfl

/-- The answer if the system agrees. -/
theorem agreed {pton6 : List Char → Option (List Nat)} {sys : Sys} {a : Addr} {s : Sock} (hs : sockAddr pton6 a = s) :
    (sys.bind s = true → sys.listen s = true → listenTcp pton6 sys a = (Err.SUCCESS, some s)) ∧
      (sys.connect s = true → connectTcp pton6 sys a = (Err.SUCCESS, some s)) := by
  subst hs
  exact ⟨fun h1 h2 => by simp [listenTcp, h1, h2], fun h1 => by simp [connectTcp, h1]⟩

/-- C100 (listen and connect): a text with the scheme of IPv4, in upper or lower case, a dotted quad and a port leads to the socket address
with these bytes and this port, and to no other.  That is so if the host is a dotted quad; see `C100_host_false`. -/
theorem C100_exact_partial (pton6 : List Char → Option (List Nat)) (sys : Sys) (scheme host : List Char) (q : List Nat) (port : Nat)
    (h4 : prefixCI "ipv4".toList scheme = true) (hs : ∀ c ∈ scheme, ¬ Sep c) (hq : Quad host q) (h0 : 0 < port) (h1 : port < 65536) :
    ∃ a, parse (scheme ++ "://".toList ++ host ++ ':' :: dec port) = .ok a ∧ isTcp a = true ∧
      (∀ s, (listenTcp pton6 sys a).2 = some s ∨ (connectTcp pton6 sys a).2 = some s → s = ⟨false, q, port⟩) ∧
      ((listenTcp pton6 sys a).1 = Err.SUCCESS ↔ sys.bind ⟨false, q, port⟩ = true ∧ sys.listen ⟨false, q, port⟩ = true) ∧
      ((connectTcp pton6 sys a).1 = Err.SUCCESS ↔ sys.connect ⟨false, q, port⟩ = true) := by
  have hp := C26_round_trip scheme host port hs h0 (by omega)
  have e : format scheme host port = scheme ++ "://".toList ++ host ++ ':' :: dec port := by
    unfold format
    rw [if_pos (by omega), Int.toNat_natCast, printPort_eq port (by omega)]
  rw [e] at hp
  have hsock : sockAddr pton6 ⟨scheme, host, port⟩ = ⟨false, q, port⟩ := by
    rw [sock4 pton6 h4]
    simp only [ip4, (C100_quad_iff _ _).2 hq, Option.getD_some]
    congr 1
    omega
  refine ⟨_, hp, by rw [isTcp, h4, Bool.true_or], fun s h => by rw [where_ pton6 sys _ s h, hsock], ?_, ?_⟩
  · unfold listenTcp
    simp only [hsock]
    cases sys.bind ⟨false, q, port⟩ <;> cases sys.listen ⟨false, q, port⟩ <;> simp [SOCK_BIND_FAILED, SOCK_LISTEN_FAILED, Err.SUCCESS]
  · unfold connectTcp
    simp only [hsock]
    cases sys.connect ⟨false, q, port⟩ <;> simp [SOCK_CONNECT_FAILED, Err.SUCCESS]

/-- C100 (no other address): an IPv4 socket other than one for all addresses of the machine is bound only if the text of the host is its
dotted quad. -/
theorem C100_only_if_written (pton6 : List Char → Option (List Nat)) (sys : Sys) (a : Addr) (h4 : prefixCI "ipv4".toList a.scheme = true) (s : Sock)
    (h : (listenTcp pton6 sys a).2 = some s ∨ (connectTcp pton6 sys a).2 = some s) (hn : s.ip ≠ [0, 0, 0, 0]) : Quad a.host s.ip := by
  have h := where_ pton6 sys a s h
  rw [sock4 pton6 h4] at h
  subst h
  rw [← C100_quad_iff]
  unfold ip4 at hn ⊢
  cases hp : pton4 a.host with
  | none => rw [hp] at hn; exact absurd rfl hn
  | some q => rfl

/-- C100 (anything else): a host that is not a dotted quad is not refused.  It leads to the address 0.0.0.0: all addresses of the machine for
`listen`, the machine itself for `connect`. -/
theorem C100_otherwise_any (pton6 : List Char → Option (List Nat)) (a : Addr) (h4 : prefixCI "ipv4".toList a.scheme = true)
    (hn : ∀ q, ¬ Quad a.host q) (sys : Sys) :
    ∃ port, (sys.bind ⟨false, [0, 0, 0, 0], port⟩ = true → sys.listen ⟨false, [0, 0, 0, 0], port⟩ = true →
        listenTcp pton6 sys a = (Err.SUCCESS, some ⟨false, [0, 0, 0, 0], port⟩)) ∧
      (sys.connect ⟨false, [0, 0, 0, 0], port⟩ = true → connectTcp pton6 sys a = (Err.SUCCESS, some ⟨false, [0, 0, 0, 0], port⟩)) := by
  have hs : sockAddr pton6 a = ⟨false, [0, 0, 0, 0], (a.port % 65536).toNat⟩ := by
    rw [sock4 pton6 h4]
    unfold ip4
    cases hp : pton4 a.host with
    | none => rfl
    | some q => exact absurd ((C100_quad_iff _ _).1 hp) (hn q)
  exact ⟨_, (agreed hs).1, (agreed hs).2⟩

/-- C100 is false of the code for a host with a slip of the pen, with a leading zero, or given by its name: the node listens on all addresses
of the machine, or connects to its own machine, and the call succeeds. -/
theorem C100_host_false (pton6 : List Char → Option (List Nat)) :
    ∀ t ∈ ["ipv4://127.0.0.256:80".toList, "ipv4://127.0.0.01:80".toList, "ipv4://127.0.0:80".toList, "ipv4://localhost:80".toList],
      ∃ a, parse t = .ok a ∧ listenTcp pton6 ⟨fun _ => true, fun _ => true, fun _ => true⟩ a = (Err.SUCCESS, some ⟨false, [0, 0, 0, 0], 80⟩) ∧
        connectTcp pton6 ⟨fun _ => true, fun _ => true, fun _ => true⟩ a = (Err.SUCCESS, some ⟨false, [0, 0, 0, 0], 80⟩) := by
  have key : ∀ t h, parse t = .ok ⟨"ipv4".toList, h, 80⟩ → pton4 h = none →
      ∃ a, parse t = .ok a ∧ listenTcp pton6 ⟨fun _ => true, fun _ => true, fun _ => true⟩ a = (Err.SUCCESS, some ⟨false, [0, 0, 0, 0], 80⟩) ∧
        connectTcp pton6 ⟨fun _ => true, fun _ => true, fun _ => true⟩ a = (Err.SUCCESS, some ⟨false, [0, 0, 0, 0], 80⟩) := by
    intro t h h1 h2
    have hs : sockAddr pton6 ⟨"ipv4".toList, h, 80⟩ = ⟨false, [0, 0, 0, 0], 80⟩ := by
      rw [sock4 pton6 (a := ⟨"ipv4".toList, h, 80⟩) ipv4_self]
      simp [ip4, h2]
    exact ⟨_, h1, (agreed hs).1 rfl rfl, (agreed hs).2 rfl⟩
  intro t ht
  simp only [List.mem_cons, List.not_mem_nil, or_false] at ht
  rcases ht with rfl | rfl | rfl | rfl
  · exact key _ "127.0.0.256".toList (by decide +kernel) (by decide +kernel)
  · exact key _ "127.0.0.01".toList (by decide +kernel) (by decide +kernel)
  · exact key _ "127.0.0".toList (by decide +kernel) (by decide +kernel)
  · exact key _ "localhost".toList (by decide +kernel) (by decide +kernel)

/-- C100 (IPv6): a host that libuv takes for an IPv6 address leads to that address. -/
theorem C100_v6_partial (pton6 : List Char → Option (List Nat)) (sys : Sys) (scheme host : List Char) (q : List Nat) (port : Nat)
    (h6 : prefixCI "ipv6".toList scheme = true) (hs : ∀ c ∈ scheme, ¬ Sep c) (hq : pton6 host = some q) (h0 : 0 < port) (h1 : port < 65536) :
    ∃ a, parse (scheme ++ "://".toList ++ host ++ ':' :: dec port) = .ok a ∧ isTcp a = true ∧
      ∀ s, (listenTcp pton6 sys a).2 = some s ∨ (connectTcp pton6 sys a).2 = some s → s = ⟨true, q, port⟩ := by
  have hp := C26_round_trip scheme host port hs h0 (by omega)
  have e : format scheme host port = scheme ++ "://".toList ++ host ++ ':' :: dec port := by
    unfold format
    rw [if_pos (by omega), Int.toNat_natCast, printPort_eq port (by omega)]
  rw [e] at hp
  refine ⟨_, hp, by rw [isTcp, h6, Bool.or_true], fun s h => ?_⟩
  rw [where_ pton6 sys _ s h, sock6 pton6 h6]
  simp only [ip6, hq, Option.getD_some]
  congr 1
  omega

/-- C100 is false of the code for an IPv6 host in brackets, as in a URL: the brackets stay in the host, no text with a bracket is an IPv6
address, and the node listens on all addresses. -/
theorem C100_brackets_false (pton6 : List Char → Option (List Nat)) (hb : ∀ t, '[' ∈ t → pton6 t = none) :
    ∃ a, parse "ipv6://[::1]:80".toList = .ok a ∧
      listenTcp pton6 ⟨fun _ => true, fun _ => true, fun _ => true⟩ a = (Err.SUCCESS, some ⟨true, List.replicate 16 0, 80⟩) := by
  refine ⟨⟨"ipv6".toList, "[::1]".toList, 80⟩, by decide +kernel, ?_⟩
  have hs : sockAddr pton6 ⟨"ipv6".toList, "[::1]".toList, 80⟩ = ⟨true, List.replicate 16 0, 80⟩ := by
    rw [sock6 pton6 (by decide +kernel)]
    simp only [ip6, hb "[::1]".toList (by decide +kernel), Option.getD_none]
    rfl
  exact (agreed hs).1 rfl rfl

/-- C100 is false of the code for an address without a port: the node listens at port 0, for which the system takes any free port. -/
theorem C100_port_false (pton6 : List Char → Option (List Nat)) : ∃ a, parse "ipv4://127.0.0.1".toList = .ok a ∧
    listenTcp pton6 ⟨fun _ => true, fun _ => true, fun _ => true⟩ a = (Err.SUCCESS, some ⟨false, [127, 0, 0, 1], 0⟩) := by
  refine ⟨⟨"ipv4".toList, "127.0.0.1".toList, 0⟩, by decide +kernel, (agreed ?_).1 rfl rfl⟩
  rw [sock4 pton6 (by decide +kernel)]
  decide +kernel

/-- C100 (resolved): a name that was resolved to an IPv4 address leads to this address and the port that was asked for. -/
theorem C100_resolved (pton6 : List Char → Option (List Nat)) (sys : Sys) (q : List Nat) (hq : Ip4 q) (port : Nat) (hp : port < 65536) (s : Sock)
    (h : (listenTcp pton6 sys (resolved4 q port)).2 = some s ∨ (connectTcp pton6 sys (resolved4 q port)).2 = some s) : s = ⟨false, q, port⟩ := by
  rw [where_ pton6 sys _ s h, sock4 pton6 (a := resolved4 q port) ipv4_self]
  simp only [ip4, resolved4, (C100_quad_iff _ _).2 (C100_name q hq).1, Option.getD_some]
  congr 1
  omega

/-! ### Examples -/

example : Quad "192.168.0.1".toList [192, 168, 0, 1] := (C100_quad_iff _ _).1 (by decide +kernel)

example : ¬ Quad "192.168.00.1".toList [192, 168, 0, 1] := fun h => by
  have := (C100_quad_iff _ _).2 h
  exact absurd this (by decide +kernel)

example (pton6 : List Char → Option (List Nat)) : ∃ a, parse "IPv4://10.0.255.3:16387".toList = .ok a ∧
    listenTcp pton6 ⟨fun s => s.port == 16387, fun _ => true, fun _ => false⟩ a = (Err.SUCCESS, some ⟨false, [10, 0, 255, 3], 16387⟩) := by
  refine ⟨⟨"IPv4".toList, "10.0.255.3".toList, 16387⟩, by decide +kernel, ?_⟩
  have hs : sockAddr pton6 ⟨"IPv4".toList, "10.0.255.3".toList, 16387⟩ = ⟨false, [10, 0, 255, 3], 16387⟩ := by
    rw [sock4 pton6 (by decide +kernel)]
    decide +kernel
  exact (agreed hs).1 rfl rfl

end Verif.Node.IpAddr
