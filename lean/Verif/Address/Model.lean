import Verif.Basic

/-!
Model of `src/channel_utility.cpp` (all of it).

A C string is the list of its characters (none of them NUL, each one byte).
-/
namespace Verif.Address

/-- `UTIL_STRFUNC_STRNCASE_CMP(p, in, strlen(p)) == 0` for a lower-case `p` without NUL: equal up to the
case of ASCII letters; a shorter `in` differs at its terminating NUL. -/
def prefixCI (p s : List Char) : Bool := (s.take p.length).map Char.toLower == p

/-- `is_simplex_address`, `src/channel_utility.cpp:61-75`; `none` is the null pointer. -/
def isSimplex : Option (List Char) → Bool
  | none => false
  | some s => if s.isEmpty then false else prefixCI "mem:".toList s || prefixCI "shm:".toList s

/-- `is_duplex_address`, `src/channel_utility.cpp:53-59`. -/
def isDuplex : Option (List Char) → Bool
  | none => false
  | some s => if s.isEmpty then false else !isSimplex (some s)

/-- `is_local_process_address`, `src/channel_utility.cpp:97-107`. -/
def isLocalProcess : Option (List Char) → Bool
  | none => false
  | some s => if s.isEmpty then false else prefixCI "mem:".toList s

/-- `is_local_host_address`, `src/channel_utility.cpp:77-95`. -/
def isLocalHost : Option (List Char) → Bool
  | none => false
  | some s =>
    if s.isEmpty then false
    else if isLocalProcess (some s) then true
    else prefixCI "shm:".toList s || prefixCI "unix:".toList s

/-- The members of `channel_address_t` besides the text, `include/detail/libatbus_channel_types.h:52-57`. -/
structure Addr where
  scheme : List Char
  host : List Char
  port : Int
deriving DecidableEq, Repr

/-- Outcome of parsing. -/
inductive Parsed where
  /-- the function returns `false` -/
  | refused
  /-- `std::string::substr` throws `std::out_of_range` -/
  | throws
  /-- `sscanf("%d")` on a number that does not fit an `int`: undefined -/
  | undef
  | ok (a : Addr)
deriving DecidableEq, Repr

/-- White space skipped by `%d` (`isspace` in the C locale). -/
def isSpace (c : Char) : Bool := c == ' ' || (9 ≤ c.toNat && c.toNat ≤ 13)

/-- Digits accepted by `%d` (`isdigit`), used by `make_address`, `src/channel_utility.cpp`. -/
def isDigit (c : Char) : Bool := 48 ≤ c.toNat && c.toNat ≤ 57

/-- Value of a run of digits. -/
def digitsVal (l : List Char) : Nat := l.foldl (fun acc c => acc * 10 + (c.toNat - 48)) 0

/-- `sscanf(s, "%d", &port)` with `port` 0 before: white space, sign, digits.  `none`: the value does not
fit. -/
def scanInt (s : List Char) : Option Int :=
  let s := s.dropWhile isSpace
  let neg := s.head? == some '-'
  let s := if s.head? == some '-' || s.head? == some '+' then s.drop 1 else s
  let ds := s.takeWhile isDigit
  if ds.isEmpty then some 0
  else
    let v : Int := if neg then -(digitsVal ds : Int) else digitsVal ds
    if v < -2147483648 ∨ 2147483647 < v then none else some v

/-- `find_first_of`: index of the first character satisfying `p`. -/
def findFirst (p : Char → Bool) : List Char → Option Nat
  | [] => none
  | c :: s => if p c then some 0 else (findFirst p s).map (· + 1)

/-- `find_last_of`: index of the last character satisfying `p`. -/
def findLast (p : Char → Bool) : List Char → Option Nat
  | [] => none
  | c :: s =>
    match findLast p s with
    | some i => some (i + 1)
    | none => if p c then some 0 else none

/-- The port part of `make_address(in, addr)`, `src/channel_utility.cpp:25-30`, with the scheme ending at `se`. -/
def portOf (s : List Char) (se : Nat) : Option Int :=
  match findLast (· == ':') s with
  | none => some 0
  | some e => if e ≥ se + 3 then scanInt (s.drop (e + 1)) else some 0

/-- `make_address(in, addr)`, `src/channel_utility.cpp:15-36`.  (`find_first_of("://")` looks for any of the
characters `:` and `/`.)  `port_end - scheme_end - 3` wraps to a huge count when `port_end` is smaller, so
`substr` then takes everything to the end. -/
def parse (s : List Char) : Parsed :=
  match findFirst (fun c => c == ':' || c == '/') s with
  | none => .refused
  | some se =>
    let pe := findLast (· == ':') s
    match portOf s se with
    | none => .undef
    | some port =>
      if se + 3 > s.length then .throws
      else
        let rest := s.drop (se + 3)
        let host := match pe with
          | none => rest
          | some e => if e ≥ se + 3 then rest.take (e - se - 3) else rest
        .ok ⟨s.take se, host, port⟩

/-- A decimal digit. -/
def digit (n : Nat) : Char := Char.ofNat (48 + n % 10)

/-- `%d` for a non-negative number. -/
def dec (n : Nat) : List Char :=
  if n < 10 then [digit n] else dec (n / 10) ++ [digit n]
termination_by n
decreasing_by omega

/-- `snprintf(port_str, 16, "%d", port)` for a positive port: at most 15 characters are stored. -/
def printPort (port : Nat) : List Char := (dec port).take 15

/-- `make_address(scheme, host, port, addr)`: the text, `src/channel_utility.cpp:38-51`. -/
def format (scheme host : List Char) (port : Int) : List Char :=
  scheme ++ "://".toList ++ host ++ (if port > 0 then ':' :: printPort port.toNat else [])

end Verif.Address
