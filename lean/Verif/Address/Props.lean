import Verif.Address.Model

/-! Properties C26, C27, C54: addresses. -/
namespace Verif.Address

theorem findFirst_append (p : Char → Bool) (a b : List Char) (c : Char) (ha : ∀ x ∈ a, p x = false) (hc : p c = true) :
    findFirst p (a ++ c :: b) = some a.length := by
  induction a with
  | nil => simp [findFirst, hc]
  | cons x a ih =>
    simp only [List.cons_append, findFirst, ha x (List.mem_cons_self ..), Bool.false_eq_true, if_false]
    rw [ih fun y hy => ha y (List.mem_cons_of_mem _ hy)]
    simp

theorem findLast_none (p : Char → Bool) (b : List Char) (hb : ∀ x ∈ b, p x = false) : findLast p b = none := by
  induction b with
  | nil => rfl
  | cons x b ih =>
    simp only [findLast]
    rw [ih fun y hy => hb y (List.mem_cons_of_mem _ hy)]
    simp [hb x (List.mem_cons_self ..)]

theorem findLast_append (p : Char → Bool) (a b : List Char) (c : Char) (hb : ∀ x ∈ b, p x = false) (hc : p c = true) :
    findLast p (a ++ c :: b) = some a.length := by
  induction a with
  | nil => simp [findLast, findLast_none p b hb, hc]
  | cons x a ih => simp only [List.cons_append, findLast, ih]; rfl

theorem digit_val (n : Nat) : (digit n).toNat = 48 + n % 10 := by
  have h : n % 10 < 10 := Nat.mod_lt _ (by decide)
  unfold digit
  generalize n % 10 = k at h
  have : ∀ k, k < 10 → (Char.ofNat (48 + k)).toNat = 48 + k := by decide
  exact this k h

theorem dec_digit (n : Nat) : ∀ c ∈ dec n, isDigit c = true := by
  induction n using Nat.strongRecOn with
  | ind n ih =>
    unfold dec
    have hd : isDigit (digit n) = true := by
      unfold isDigit; rw [digit_val]
      have : n % 10 < 10 := Nat.mod_lt _ (by decide)
      simp only [Bool.and_eq_true, decide_eq_true_eq]; omega
    by_cases h : n < 10
    · rw [if_pos h]; simpa using hd
    · rw [if_neg h]
      intro c hc
      rcases List.mem_append.mp hc with hc | hc
      · exact ih (n / 10) (by omega) c hc
      · simp only [List.mem_singleton] at hc; subst hc; exact hd

theorem dec_val (n : Nat) : digitsVal (dec n) = n := by
  induction n using Nat.strongRecOn with
  | ind n ih =>
    unfold dec
    by_cases h : n < 10
    · rw [if_pos h]
      simp only [digitsVal, List.foldl_cons, List.foldl_nil, digit_val]
      omega
    · rw [if_neg h]
      have := ih (n / 10) (by omega)
      unfold digitsVal at this ⊢
      rw [List.foldl_append, this]
      simp only [List.foldl_cons, List.foldl_nil, digit_val]
      omega

theorem dec_ne (n : Nat) : dec n ≠ [] := by
  unfold dec
  by_cases h : n < 10
  · rw [if_pos h]; simp
  · rw [if_neg h]; simp

theorem dec_length (k : Nat) : ∀ n, n < 10 ^ (k + 1) → (dec n).length ≤ k + 1 := by
  induction k with
  | zero =>
    intro n hn
    unfold dec
    rw [if_pos (by simpa using hn)]; simp
  | succ k ih =>
    intro n hn
    unfold dec
    by_cases h : n < 10
    · rw [if_pos h]; simp
    · rw [if_neg h]
      have := ih (n / 10) (by rw [Nat.pow_succ] at hn; omega)
      simp only [List.length_append, List.length_cons, List.length_nil]; omega

theorem printPort_eq (n : Nat) (h : n ≤ 2147483647) : printPort n = dec n := by
  unfold printPort
  exact List.take_of_length_le (by have := dec_length 9 n (by omega); omega)

theorem takeWhile_all (p : Char → Bool) (l : List Char) (h : ∀ c ∈ l, p c = true) : l.takeWhile p = l := by
  induction l with
  | nil => rfl
  | cons c l ih =>
    rw [List.takeWhile_cons_of_pos (h c (List.mem_cons_self ..)), ih fun x hx => h x (List.mem_cons_of_mem _ hx)]

theorem scan_dec (n : Nat) (h : n ≤ 2147483647) : scanInt (dec n) = some (n : Int) := by
  have hall := dec_digit n
  have hne := dec_ne n
  have hv := dec_val n
  cases hd : dec n with
  | nil => exact absurd hd hne
  | cons c l =>
    rw [hd] at hall hv
    have hc := hall c (List.mem_cons_self ..)
    have hcn : 48 ≤ c.toNat ∧ c.toNat ≤ 57 := by simpa [isDigit] using hc
    have hsp : isSpace c = false := by
      unfold isSpace
      have h1 : ¬ c = ' ' := by intro he; subst he; revert hcn; decide
      simp only [Bool.or_eq_false_iff, beq_eq_false_iff_ne, ne_eq, h1, not_false_eq_true, Bool.and_eq_false_iff, decide_eq_false_iff_not, true_and]
      omega
    have h1 : ¬ c = '-' := by intro he; subst he; revert hcn; decide
    have h2 : ¬ c = '+' := by intro he; subst he; revert hcn; decide
    unfold scanInt
    rw [List.dropWhile_cons_of_neg (by simp [hsp])]
    have e1 : ((c :: l).head? == some '-') = false := by simpa using h1
    have e2 : ((c :: l).head? == some '+') = false := by simpa using h2
    simp only [e1, e2, Bool.or_self, Bool.false_eq_true, if_false]
    rw [takeWhile_all _ _ hall, hv]
    simp only [List.isEmpty_cons, Bool.false_eq_true, if_false]
    rw [if_neg (by omega)]

/-- A character that ends a scheme. -/
def Sep (c : Char) : Prop := c = ':' ∨ c = '/'

theorem sep_false {scheme : List Char} (hs : ∀ c ∈ scheme, ¬ Sep c) : ∀ x ∈ scheme, (x == ':' || x == '/') = false := by
  intro x hx
  have := hs x hx
  unfold Sep at this
  simp only [not_or] at this
  simp [this.1, this.2]

/-- C26: for every scheme without `:` and `/`, every host and every positive `int` port, parsing the formatted
address gives the same scheme, host and port. -/
theorem C26_round_trip (scheme host : List Char) (port : Nat) (hs : ∀ c ∈ scheme, ¬ Sep c) (hp : 0 < port)
    (hp2 : port ≤ 2147483647) : parse (format scheme host port) = .ok ⟨scheme, host, port⟩ := by
  have hpi : (port : Int) > 0 := by omega
  have hf : format scheme host port = scheme ++ ':' :: ("//".toList ++ host ++ ':' :: dec port) := by
    unfold format
    rw [if_pos hpi, show (port : Int).toNat = port from rfl, printPort_eq port hp2]
    simp [List.append_assoc]
  have hf2 : format scheme host port = (scheme ++ "://".toList ++ host) ++ ':' :: dec port := by
    rw [hf]; simp [List.append_assoc]
  have h1 : findFirst (fun c => c == ':' || c == '/') (format scheme host port) = some scheme.length := by
    rw [hf]; exact findFirst_append _ _ _ _ (sep_false hs) (by decide)
  have h2 : findLast (· == ':') (format scheme host port) = some (scheme.length + 3 + host.length) := by
    rw [hf2, findLast_append]
    · simp; omega
    · intro x hx
      have := dec_digit port x hx
      have hcn : 48 ≤ x.toNat ∧ x.toNat ≤ 57 := by simpa [isDigit] using this
      have : ¬ x = ':' := by intro he; subst he; revert hcn; decide
      simpa using this
    · decide
  have h3 : (format scheme host port).drop (scheme.length + 3 + host.length + 1) = dec port := by
    rw [hf2]
    have : scheme.length + 3 + host.length + 1 = ((scheme ++ "://".toList ++ host) ++ [':']).length := by simp; omega
    rw [this, show (scheme ++ "://".toList ++ host) ++ ':' :: dec port = ((scheme ++ "://".toList ++ host) ++ [':']) ++ dec port by simp]
    exact List.drop_left
  have h4 : (format scheme host port).drop (scheme.length + 3) = host ++ ':' :: dec port := by
    rw [hf2]
    have : scheme.length + 3 = (scheme ++ "://".toList).length := by simp
    rw [this, List.append_assoc, List.drop_left]
  have h5 : (format scheme host port).take scheme.length = scheme := by rw [hf, List.take_left]
  have hlen : scheme.length + 3 ≤ (format scheme host port).length := by rw [hf2]; simp
  unfold parse
  rw [h1]
  simp only [portOf, h2, h3, h4, h5]
  rw [if_pos (by omega), scan_dec port hp2]
  simp only
  rw [if_neg (by omega), if_pos (by omega)]
  have : scheme.length + 3 + host.length - scheme.length - 3 = host.length := by omega
  rw [this, List.take_left]

example : parse (format "ipv6".toList "::1".toList 8123) = .ok ⟨"ipv6".toList, "::1".toList, 8123⟩ :=
  C26_round_trip _ _ _ (by simp [Sep]) (by decide) (by decide)

/-- C26, addition: without a port the round trip still works for hosts without `:`. -/
theorem C26_no_port (scheme host : List Char) (port : Int) (hs : ∀ c ∈ scheme, ¬ Sep c) (hh : ':' ∉ host) (hp : port ≤ 0) :
    parse (format scheme host port) = .ok ⟨scheme, host, 0⟩ := by
  have hf : format scheme host port = scheme ++ ':' :: ("//".toList ++ host) := by
    unfold format
    rw [if_neg (by omega)]
    simp [List.append_assoc]
  have h1 : findFirst (fun c => c == ':' || c == '/') (format scheme host port) = some scheme.length := by
    rw [hf]; exact findFirst_append _ _ _ _ (sep_false hs) (by decide)
  have h2 : findLast (· == ':') (format scheme host port) = some scheme.length := by
    rw [hf, findLast_append]
    · intro x hx
      have : ¬ x = ':' := by
        rintro rfl
        rcases List.mem_append.mp hx with hx | hx
        · revert hx; decide
        · exact hh hx
      simpa using this
    · decide
  have h4 : (format scheme host port).drop (scheme.length + 3) = host := by
    have e : format scheme host port = (scheme ++ "://".toList) ++ host := by rw [hf]; simp
    have : scheme.length + 3 = (scheme ++ "://".toList).length := by simp
    rw [e, this, List.drop_left]
  have h5 : (format scheme host port).take scheme.length = scheme := by rw [hf, List.take_left]
  have hlen : scheme.length + 3 ≤ (format scheme host port).length := by rw [hf]; simp
  unfold parse
  rw [h1]
  simp only [portOf, h2, h4, h5]
  rw [if_neg (by omega)]
  simp only
  rw [if_neg (by omega), if_neg (by omega)]

/-- C26, the limit of the addition: a host with a `:` and no port (an IPv6 address) is cut at its last `:`. -/
theorem C26_no_port_colon : parse (format "ipv6".toList "::1".toList 0) = .ok ⟨"ipv6".toList, ":".toList, 1⟩ := by
  decide +kernel

/-- The text starts with the given three letters in any case, followed by a colon. -/
def SchemeIs (a b c : Char) (s : List Char) : Prop :=
  ∃ x y z rest, s = x :: y :: z :: ':' :: rest ∧ x.toLower = a ∧ y.toLower = b ∧ z.toLower = c

theorem prefix3 (a b c : Char) (s : List Char) (h : ∀ d : Char, d.toLower = ':' ↔ d = ':') :
    prefixCI [a, b, c, ':'] s = true ↔ SchemeIs a b c s := by
  unfold prefixCI SchemeIs
  constructor
  · intro hp
    match s, hp with
    | [], hp => simp at hp
    | [_], hp => simp at hp
    | [_, _], hp => simp at hp
    | [_, _, _], hp => simp at hp
    | x :: y :: z :: d :: rest, hp =>
      simp only [List.length_cons, List.length_nil, List.take_succ_cons, List.take_zero, List.map_cons, List.map_nil, beq_iff_eq,
        List.cons.injEq, and_true] at hp
      obtain ⟨h1, h2, h3, h4⟩ := hp
      exact ⟨x, y, z, rest, by rw [(h d).mp h4], h1, h2, h3⟩
  · rintro ⟨x, y, z, rest, rfl, h1, h2, h3⟩
    simp [h1, h2, h3, (h ':').mpr rfl]

theorem lower_colon (d : Char) : d.toLower = ':' ↔ d = ':' := by
  constructor
  · intro h
    unfold Char.toLower at h
    split at h
    · rename_i hu
      simp only [UInt32.le_iff_toNat_le] at hu
      have := congrArg Char.toNat h
      simp only [Char.toNat] at this
      have h2 : (d.val + 32).toNat = 58 := this
      rw [UInt32.toNat_add] at h2
      have h3 : (UInt32.toNat 65) ≤ d.val.toNat := hu.1
      have h4 : d.val.toNat ≤ UInt32.toNat 90 := hu.2
      have e1 : UInt32.toNat 65 = 65 := rfl
      have e2 : UInt32.toNat 90 = 90 := rfl
      have e3 : UInt32.toNat 32 = 32 := rfl
      omega
    · exact h
  · rintro rfl; decide

theorem empty_of (s : List Char) (h : s ≠ []) : s.isEmpty = false := by simpa using h

/-- C27: every non-empty address is simplex or duplex and not both. -/
theorem C27_simplex_xor_duplex (s : List Char) (h : s ≠ []) : isDuplex (some s) = !isSimplex (some s) := by
  simp [isDuplex, empty_of s h]

/-- C27: exactly the addresses whose scheme is mem or shm in any letter case are simplex. -/
theorem C27_simplex_iff (s : List Char) : isSimplex (some s) = true ↔ SchemeIs 'm' 'e' 'm' s ∨ SchemeIs 's' 'h' 'm' s := by
  by_cases h : s = []
  · subst h; simp [isSimplex, SchemeIs]
  · simp only [isSimplex, empty_of s h, Bool.false_eq_true, if_false, Bool.or_eq_true]
    rw [show "mem:".toList = ['m', 'e', 'm', ':'] from rfl, show "shm:".toList = ['s', 'h', 'm', ':'] from rfl,
      prefix3 _ _ _ _ lower_colon, prefix3 _ _ _ _ lower_colon]

/-- C27: the duplex addresses are exactly the other non-empty ones. -/
theorem C27_duplex_iff (s : List Char) :
    isDuplex (some s) = true ↔ s ≠ [] ∧ ¬ SchemeIs 'm' 'e' 'm' s ∧ ¬ SchemeIs 's' 'h' 'm' s := by
  by_cases h : s = []
  · subst h; simp [isDuplex]
  · rw [C27_simplex_xor_duplex s h]
    have := C27_simplex_iff s
    cases hs : isSimplex (some s)
    · rw [hs] at this
      simp only [Bool.false_eq_true, false_iff, not_or] at this
      simp [h, this]
    · rw [hs] at this
      simp only [true_iff] at this
      rcases this with h1 | h1 <;> simp [h1]

/-- C27: exactly the mem addresses are process-local, and those are host-local; a null or empty address is of no class. -/
theorem C27_local (s : List Char) :
    (isLocalProcess (some s) = true ↔ SchemeIs 'm' 'e' 'm' s) ∧
    (isLocalProcess (some s) = true → isLocalHost (some s) = true) ∧
    (isSimplex (some s) = true → isLocalHost (some s) = true) := by
  by_cases h : s = []
  · subst h; simp [isLocalProcess, isSimplex, SchemeIs]
  · refine ⟨?_, ?_, ?_⟩
    · simp only [isLocalProcess, empty_of s h, Bool.false_eq_true, if_false]
      rw [show "mem:".toList = ['m', 'e', 'm', ':'] from rfl, prefix3 _ _ _ _ lower_colon]
    · intro hl; simp [isLocalHost, empty_of s h, hl]
    · simp only [isSimplex, isLocalHost, isLocalProcess, empty_of s h, Bool.false_eq_true, if_false, Bool.or_eq_true]
      rintro (h1 | h1)
      · rw [if_pos h1]
      · by_cases h2 : prefixCI "mem:".toList s = true
        · rw [if_pos h2]
        · rw [if_neg h2, h1]; rfl

/-- C27: a null or empty address belongs to no class. -/
theorem C27_empty : ∀ a ∈ [none, some []], isSimplex a = false ∧ isDuplex a = false ∧ isLocalHost a = false ∧ isLocalProcess a = false := by
  decide

example : isSimplex (some "ShM:0x1234".toList) = true ∧ isLocalProcess (some "shm:1".toList) = false ∧
    isLocalHost (some "UNIX:///tmp/a".toList) = true ∧ isDuplex (some "ipv4://1:2".toList) = true ∧
    isDuplex (some "memory".toList) = true := by decide +kernel

/-- C54, where it holds: if at least two characters follow the first separator and no number after a colon is too
long, parsing ends normally; it is refused exactly when there is no separator. -/
theorem C54_parse_defined_partial (s : List Char)
    (hlen : ∀ se, findFirst (fun c => c == ':' || c == '/') s = some se → se + 3 ≤ s.length)
    (hnum : ∀ pre rest, s = pre ++ ':' :: rest → scanInt rest ≠ none) :
    (parse s = .refused ∧ ∀ c ∈ s, ¬ Sep c) ∨ (∃ a, parse s = .ok a ∧ a.scheme <+: s ∧ (∀ c ∈ a.scheme, ¬ Sep c) ∧ a.host <:+: s) := by
  have hfn : ∀ (p : Char → Bool) (l : List Char), findFirst p l = none → ∀ c ∈ l, p c = false := by
    intro p l
    induction l with
    | nil => intro _ c hc; cases hc
    | cons x l ih =>
      intro hf c hc
      simp only [findFirst] at hf
      by_cases hx : p x = true
      · simp [hx] at hf
      · simp only [hx, Bool.false_eq_true, if_false, Option.map_eq_none_iff] at hf
        rcases List.mem_cons.mp hc with rfl | hc
        · simpa using hx
        · exact ih hf c hc
  have hfs : ∀ (p : Char → Bool) (l : List Char) (i : Nat), findFirst p l = some i → ∀ c ∈ l.take i, p c = false := by
    intro p l
    induction l with
    | nil => intro i hf; cases hf
    | cons x l ih =>
      intro i hf c hc
      simp only [findFirst] at hf
      by_cases hx : p x = true
      · simp only [hx, if_true, Option.some.injEq] at hf; subst hf; simp at hc
      · simp only [hx, Bool.false_eq_true, if_false, Option.map_eq_some_iff] at hf
        obtain ⟨j, hj, rfl⟩ := hf
        rw [List.take_succ_cons] at hc
        rcases List.mem_cons.mp hc with rfl | hc
        · simpa using hx
        · exact ih j hj c hc
  have hfl : ∀ (p : Char → Bool) (l : List Char) (i : Nat), findLast p l = some i → ∃ pre c rest, l = pre ++ c :: rest ∧ p c = true ∧ pre.length = i := by
    intro p l
    induction l with
    | nil => intro i hf; cases hf
    | cons x l ih =>
      intro i hf
      simp only [findLast] at hf
      cases hl : findLast p l with
      | none =>
        rw [hl] at hf
        simp only at hf
        by_cases hx : p x = true
        · rw [if_pos hx] at hf; cases hf; exact ⟨[], x, l, rfl, hx, rfl⟩
        · rw [if_neg hx] at hf; cases hf
      | some j =>
        rw [hl] at hf
        simp only [Option.some.injEq] at hf
        obtain ⟨pre, c, rest, e, hc, hlen⟩ := ih j hl
        exact ⟨x :: pre, c, rest, by simp [e], hc, by simp [hlen, hf]⟩
  have hsep : ∀ c : Char, (c == ':' || c == '/') = false → ¬ Sep c := by
    intro c hc
    simp only [Bool.or_eq_false_iff, beq_eq_false_iff_ne] at hc
    rintro (rfl | rfl)
    · exact hc.1 rfl
    · exact hc.2 rfl
  cases hf : findFirst (fun c => c == ':' || c == '/') s with
  | none =>
    left
    refine ⟨by unfold parse; rw [hf], fun c hc => hsep c (hfn _ _ hf c hc)⟩
  | some se =>
    right
    have hle := hlen se hf
    have hport : ∃ port, portOf s se = some port := by
      unfold portOf
      cases hl : findLast (· == ':') s with
      | none => exact ⟨0, rfl⟩
      | some e =>
        simp only
        by_cases he : e ≥ se + 3
        · rw [if_pos he]
          obtain ⟨pre, c, rest, e1, hc, hpl⟩ := hfl _ _ _ hl
          have hcc : c = ':' := by simpa using hc
          subst hcc
          have hd : s.drop (e + 1) = rest := by
            have : s = (pre ++ [':']) ++ rest := by rw [e1]; simp
            rw [this, show e + 1 = (pre ++ [':']).length by simp [hpl], List.drop_left]
          rw [hd]
          exact Option.ne_none_iff_exists'.mp (hnum pre rest e1)
        · rw [if_neg he]; exact ⟨0, rfl⟩
    obtain ⟨port, hport⟩ := hport
    unfold parse
    rw [hf]
    simp only
    rw [hport]
    simp only
    rw [if_neg (by omega)]
    refine ⟨_, rfl, List.take_prefix _ _, fun c hc => hsep c (hfs _ _ _ hf c hc), ?_⟩
    have hsuf : s.drop (se + 3) <:+: s := (List.drop_suffix _ _).isInfix
    cases findLast (· == ':') s with
    | none => exact hsuf
    | some e =>
      simp only
      by_cases he : e ≥ se + 3
      · rw [if_pos he]; exact (List.take_prefix _ _).isInfix.trans hsuf
      · rw [if_neg he]; exact hsuf

example : parse "ipv4://127.0.0.1:8123".toList = .ok ⟨"ipv4".toList, "127.0.0.1".toList, 8123⟩ ∧
    parse "nothing".toList = .refused := by decide +kernel

/-- C54 is false: a text ending within two characters of its first separator makes `substr` throw, and a port number
that does not fit an `int` is undefined behaviour of `sscanf`. -/
theorem C54_parse_false : parse "mem:".toList = .throws ∧ parse "a/b".toList = .throws ∧
    parse "ipv4://1.2.3.4:99999999999".toList = .undef := by decide +kernel

end Verif.Address
