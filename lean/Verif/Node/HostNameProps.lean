import Verif.Node.HostName

/-!
# C95: which nodes have the same host name and the same hash code

The specification is about the addresses of the interfaces themselves: `Has is m` says that one of the interfaces is
external and has the six bytes `m`.
-/

namespace Verif.Node.HostName

/-- The machine has an external interface with these six bytes. -/
def Has (is : List Inter) (m : List (Fin 256)) : Prop :=
  ∃ i, i ∈ is ∧ i.internal = false ∧ i.phys = m ∧ ∃ b, b ∈ m ∧ b ≠ 0

/-- `phys_addr` has six bytes. -/
def Six (is : List Inter) : Prop := ∀ i, i ∈ is → i.phys.length = 6

/-- What is assumed of `dumphex`: different digits for different values, and `':'` is not a digit. -/
structure Digits (dig : Fin 16 → Nat) : Prop where
  inj : ∀ a b, dig a = dig b → a = b
  colon : ∀ a, dig a ≠ 58

/-- The usual table. -/
def lower (d : Fin 16) : Nat := if d.val < 10 then 48 + d.val else 87 + d.val

theorem lower_digits : Digits lower := by
  constructor
  · decide
  · decide

/-! ## digits -/

theorem hex_length (dig : Fin 16 → Nat) : ∀ l, (hex dig l).length = 2 * l.length
  | [] => rfl
  | _ :: bs => by simp only [hex, List.length_cons, hex_length dig bs]; omega

theorem hex_inj {dig : Fin 16 → Nat} (hd : Digits dig) : ∀ a b, hex dig a = hex dig b → a = b
  | [], [], _ => rfl
  | [], _ :: _, h => by simp [hex] at h
  | _ :: _, [], h => by simp [hex] at h
  | x :: xs, y :: ys, h => by
    simp only [hex, List.cons.injEq] at h
    obtain ⟨h1, h2, h3⟩ := h
    have e1 := hd.inj _ _ h1
    have e2 := hd.inj _ _ h2
    have e1' : x.val / 16 = y.val / 16 := congrArg Fin.val e1
    have e2' : x.val % 16 = y.val % 16 := congrArg Fin.val e2
    have : x = y := Fin.ext (by omega)
    rw [this, hex_inj hd xs ys h3]

theorem hex_colon {dig : Fin 16 → Nat} (hd : Digits dig) : ∀ l, 58 ∉ hex dig l
  | [] => by simp [hex]
  | x :: xs => by
    simp only [hex, List.mem_cons, not_or]
    exact ⟨fun h => hd.colon _ h.symm, fun h => hd.colon _ h.symm, hex_colon hd xs⟩

theorem trim_split : ∀ l, ∃ k, l = List.replicate k 0 ++ trim l
  | [] => ⟨0, rfl⟩
  | b :: bs => by
    unfold trim
    by_cases h : b = 0
    · obtain ⟨k, hk⟩ := trim_split bs
      refine ⟨k + 1, ?_⟩
      rw [if_pos h, List.replicate_succ, List.cons_append, ← hk, h]
    · exact ⟨0, by rw [if_neg h]; rfl⟩

theorem trim_inj {a b : List (Fin 256)} (hl : a.length = b.length) (h : trim a = trim b) : a = b := by
  obtain ⟨k, hk⟩ := trim_split a
  obtain ⟨l, hk'⟩ := trim_split b
  have e1 := congrArg List.length hk
  have e2 := congrArg List.length hk'
  simp only [List.length_append, List.length_replicate] at e1 e2
  rw [h] at e1
  have : k = l := by omega
  rw [hk, hk', h, this]

theorem trim_nil : ∀ l, trim l = [] ↔ ∀ b, b ∈ l → b = 0
  | [] => by simp [trim]
  | b :: bs => by
    unfold trim
    by_cases h : b = 0
    · rw [if_pos h, trim_nil bs]
      simp [h]
    · rw [if_neg h]
      simp [h]

theorem hex_nil (dig : Fin 16 → Nat) (l) : hex dig l = [] ↔ l = [] := by
  cases l <;> simp [hex]

theorem mem_found (dig : Fin 16 → Nat) (t : Text) : ∀ is, t ∈ found dig is ↔
    ∃ i, i ∈ is ∧ i.internal = false ∧ hex dig (trim i.phys) = t ∧ t ≠ []
  | [] => by simp [found]
  | i :: is => by
    have ih := mem_found dig t is
    unfold found
    by_cases hi : i.internal = true
    · rw [if_pos hi, ih]
      constructor
      · rintro ⟨j, h1, h2⟩; exact ⟨j, List.mem_cons_of_mem _ h1, h2⟩
      · rintro ⟨j, h1, h2, h3⟩
        rcases List.mem_cons.mp h1 with rfl | h1
        · rw [hi] at h2; cases h2
        · exact ⟨j, h1, h2, h3⟩
    · rw [if_neg hi]
      by_cases he : (hex dig (trim i.phys)).isEmpty = true
      · rw [if_pos he, ih]
        constructor
        · rintro ⟨j, h1, h2⟩; exact ⟨j, List.mem_cons_of_mem _ h1, h2⟩
        · rintro ⟨j, h1, h2, h3, h4⟩
          rcases List.mem_cons.mp h1 with rfl | h1
          · rw [List.isEmpty_iff] at he; exact absurd (h3.symm.trans he) h4
          · exact ⟨j, h1, h2, h3, h4⟩
      · rw [if_neg he, List.mem_cons, ih]
        constructor
        · rintro (h | ⟨j, h1, h2⟩)
          · refine ⟨i, List.mem_cons_self, by simpa using hi, h.symm, ?_⟩
            rw [h]; simpa using he
          · exact ⟨j, List.mem_cons_of_mem _ h1, h2⟩
        · rintro ⟨j, h1, h2, h3, h4⟩
          rcases List.mem_cons.mp h1 with rfl | h1
          · exact Or.inl h3.symm
          · exact Or.inr ⟨j, h1, h2, h3, h4⟩

/-! ## order -/

theorem lt_irrefl : ∀ a, lt a a = false
  | [] => rfl
  | a :: as => by simp [lt, lt_irrefl as]

theorem lt_trans : ∀ a b c, lt a b = true → lt b c = true → lt a c = true
  | [], [], _, h, _ => by simp [lt] at h
  | [], _ :: _, [], _, h => by simp [lt] at h
  | [], _ :: _, _ :: _, _, _ => rfl
  | _ :: _, [], _, h, _ => by simp [lt] at h
  | _ :: _, _ :: _, [], _, h => by simp [lt] at h
  | a :: as, b :: bs, c :: cs, h1, h2 => by
    have ih := lt_trans as bs cs
    simp only [lt] at h1 h2 ⊢
    by_cases x1 : a < b
    · by_cases x2 : b < c
      · rw [if_pos (by omega)]
      · rw [if_neg x2] at h2
        by_cases x3 : c < b
        · rw [if_pos x3] at h2; cases h2
        · rw [if_pos (by omega)]
    · rw [if_neg x1] at h1
      by_cases x3 : b < a
      · rw [if_pos x3] at h1; cases h1
      · rw [if_neg x3] at h1
        by_cases x2 : b < c
        · rw [if_pos (by omega)]
        · rw [if_neg x2] at h2
          by_cases x4 : c < b
          · rw [if_pos x4] at h2; cases h2
          · rw [if_neg x4] at h2
            rw [if_neg (by omega), if_neg (by omega)]
            exact ih h1 h2

theorem lt_total : ∀ a b, lt a b = false → lt b a = false → a = b
  | [], [], _, _ => rfl
  | [], _ :: _, h, _ => by simp [lt] at h
  | _ :: _, [], _, h => by simp [lt] at h
  | a :: as, b :: bs, h1, h2 => by
    simp only [lt] at h1 h2
    by_cases x : a < b
    · rw [if_pos x] at h1; cases h1
    · rw [if_neg x] at h1 h2
      by_cases y : b < a
      · rw [if_pos y] at h2; cases h2
      · rw [if_neg y] at h1 h2
        rw [lt_total as bs h1 h2, show a = b by omega]

theorem mem_insert (t x : Text) : ∀ l, x ∈ insert t l ↔ x = t ∨ x ∈ l
  | [] => by simp [insert]
  | u :: us => by
    unfold insert
    by_cases h : lt u t = true
    · rw [if_pos h, List.mem_cons, mem_insert t x us, List.mem_cons]
      constructor
      · rintro (h | h | h)
        · exact Or.inr (Or.inl h)
        · exact Or.inl h
        · exact Or.inr (Or.inr h)
      · rintro (h | h | h)
        · exact Or.inr (Or.inl h)
        · exact Or.inl h
        · exact Or.inr (Or.inr h)
    · rw [if_neg h, List.mem_cons]

theorem mem_sort (x : Text) : ∀ l, x ∈ sort l ↔ x ∈ l
  | [] => by simp [sort]
  | t :: ts => by rw [sort, mem_insert, mem_sort x ts, List.mem_cons]

theorem mem_unique (x : Text) : ∀ l, x ∈ unique l ↔ x ∈ l
  | [] => by simp [unique]
  | [t] => by simp [unique]
  | t :: u :: us => by
    have ih := mem_unique x (u :: us)
    unfold unique
    by_cases h : t = u
    · rw [if_pos h, ih, h]; simp
    · rw [if_neg h, List.mem_cons, ih, ← List.mem_cons]

/-- Not descending. -/
def Asc (l : List Text) : Prop := l.Pairwise fun a b => lt b a = false

/-- Ascending, no two equal. -/
def Strict (l : List Text) : Prop := l.Pairwise fun a b => lt a b = true

theorem lt_asymm {a b : Text} (h : lt a b = true) : lt b a = false := by
  cases hh : lt b a with
  | false => rfl
  | true => have := lt_trans _ _ _ h hh; rw [lt_irrefl] at this; cases this

theorem le_trans' {a b c : Text} (h1 : lt b a = false) (h2 : lt c b = false) : lt c a = false := by
  cases hh : lt c a with
  | false => rfl
  | true =>
    cases h3 : lt a b with
    | true => have := lt_trans _ _ _ hh h3; rw [h2] at this; cases this
    | false => rw [← lt_total a b h3 h1, hh] at h2; cases h2

theorem asc_insert (t : Text) : ∀ l, Asc l → Asc (insert t l)
  | [], _ => by simp [insert, Asc]
  | u :: us, h => by
    unfold insert
    obtain ⟨h1, h2⟩ := List.pairwise_cons.mp h
    by_cases c : lt u t = true
    · rw [if_pos c]
      refine List.pairwise_cons.mpr ⟨fun x hx => ?_, asc_insert t us h2⟩
      rcases (mem_insert t x us).mp hx with rfl | hx
      · exact lt_asymm c
      · exact h1 x hx
    · rw [if_neg c]
      have c' : lt u t = false := by simpa using c
      refine List.pairwise_cons.mpr ⟨fun x hx => ?_, h⟩
      rcases List.mem_cons.mp hx with rfl | hx
      · exact c'
      · exact le_trans' c' (h1 x hx)

theorem asc_sort : ∀ l, Asc (sort l)
  | [] => List.Pairwise.nil
  | t :: ts => asc_insert t _ (asc_sort ts)

theorem strict_unique : ∀ l, Asc l → Strict (unique l)
  | [], _ => List.Pairwise.nil
  | [t], _ => by simp [unique, Strict]
  | t :: u :: us, h => by
    obtain ⟨h1, h2⟩ := List.pairwise_cons.mp h
    unfold unique
    by_cases c : t = u
    · rw [if_pos c]; exact strict_unique _ h2
    · rw [if_neg c]
      refine List.pairwise_cons.mpr ⟨fun x hx => ?_, strict_unique _ h2⟩
      have hu : lt t u = true := by
        cases hh : lt t u with
        | true => rfl
        | false => exact absurd (lt_total t u hh (h1 u List.mem_cons_self)) c
      have hx' := (mem_unique x (u :: us)).mp hx
      rcases List.mem_cons.mp hx' with rfl | hx'
      · exact hu
      · cases hh : lt t x with
        | true => rfl
        | false =>
          have e := lt_total t x hh (h1 x (List.mem_cons_of_mem _ hx'))
          have := (List.pairwise_cons.mp h2).1 x hx'
          rw [← e, hu] at this; cases this

theorem strict_ext : ∀ l m, Strict l → Strict m → (∀ x, x ∈ l ↔ x ∈ m) → l = m
  | [], [], _, _, _ => rfl
  | [], y :: _, _, _, h => by have := (h y).mpr List.mem_cons_self; cases this
  | x :: _, [], _, _, h => by have := (h x).mp List.mem_cons_self; cases this
  | x :: xs, y :: ys, hl, hm, h => by
    obtain ⟨l1, l2⟩ := List.pairwise_cons.mp hl
    obtain ⟨m1, m2⟩ := List.pairwise_cons.mp hm
    have hxy : x = y := by
      rcases List.mem_cons.mp ((h x).mp List.mem_cons_self) with e | hx
      · exact e
      · rcases List.mem_cons.mp ((h y).mpr List.mem_cons_self) with e | hy
        · exact e.symm
        · have := lt_trans _ _ _ (l1 y hy) (m1 x hx)
          rw [lt_irrefl] at this; cases this
    subst hxy
    have irr : ∀ {zs : List Text}, (∀ z, z ∈ zs → lt x z = true) → x ∉ zs := fun hz hx => by
      have := hz x hx; rw [lt_irrefl] at this; cases this
    rw [strict_ext xs ys l2 m2 fun z => ?_]
    have hz := h z
    simp only [List.mem_cons] at hz
    constructor
    · intro q
      rcases hz.mp (Or.inr q) with e | q'
      · subst e; exact absurd q (irr l1)
      · exact q'
    · intro q
      rcases hz.mpr (Or.inr q) with e | q'
      · subst e; exact absurd q (irr m1)
      · exact q'

theorem strict_names (dig is) : Strict (names dig is) := strict_unique _ (asc_sort _)

theorem mem_names (dig is t) : t ∈ names dig is ↔
    ∃ i, i ∈ is ∧ i.internal = false ∧ hex dig (trim i.phys) = t ∧ t ≠ [] := by
  rw [names, mem_unique, mem_sort, mem_found]

theorem names_mac {dig is} (m) : Has is m → hex dig (trim m) ∈ names dig is := by
  rintro ⟨i, h1, h2, h3, b, h4, h5⟩
  rw [mem_names]
  refine ⟨i, h1, h2, by rw [h3], fun h => ?_⟩
  rw [hex_nil, trim_nil] at h
  exact h5 (h b h4)

theorem mac_of_names {dig is t} (h : t ∈ names dig is) : ∃ m, Has is m ∧ hex dig (trim m) = t := by
  obtain ⟨i, h1, h2, h3, h4⟩ := (mem_names dig is t).mp h
  refine ⟨i.phys, ⟨i, h1, h2, rfl, ?_⟩, h3⟩
  refine Classical.byContradiction fun hn => h4 ?_
  rw [← h3, hex_nil, trim_nil]
  intro b hb
  exact Classical.byContradiction fun hb' => hn ⟨b, hb, hb'⟩

theorem names_eq_iff {dig is js} (hd : Digits dig) (hi : Six is) (hj : Six js) :
    names dig is = names dig js ↔ ∀ m, Has is m ↔ Has js m := by
  have half : ∀ {as bs : List Inter}, Six as → Six bs → names dig as = names dig bs → ∀ m, Has as m → Has bs m := by
    intro as bs ha hb h m hm
    have := names_mac (dig := dig) m hm
    rw [h] at this
    obtain ⟨m', h1, h2⟩ := mac_of_names this
    obtain ⟨i, hi1, _, hi3, _⟩ := hm
    obtain ⟨j, hj1, _, hj3, _⟩ := h1
    have e : m' = m := by
      refine trim_inj ?_ (hex_inj hd _ _ h2)
      rw [← hi3, ← hj3, ha i hi1, hb j hj1]
    rw [← e]; exact ⟨j, hj1, by assumption, hj3, by assumption⟩
  constructor
  · exact fun h m => ⟨half hi hj h m, half hj hi h.symm m⟩
  · intro h
    refine strict_ext _ _ (strict_names _ _) (strict_names _ _) fun t => ?_
    constructor
    · intro ht
      obtain ⟨m, h1, h2⟩ := mac_of_names ht
      rw [← h2]; exact names_mac m ((h m).mp h1)
    · intro ht
      obtain ⟨m, h1, h2⟩ := mac_of_names ht
      rw [← h2]; exact names_mac m ((h m).mpr h1)

/-! ## joining -/

/-- What the joined texts are like. -/
def Parts (l : List Text) : Prop := ∀ t, t ∈ l → t ≠ [] ∧ 58 ∉ t

theorem parts_names {dig is} (hd : Digits dig) : Parts (names dig is) := by
  intro t ht
  obtain ⟨i, _, _, h3, h4⟩ := (mem_names dig is t).mp ht
  exact ⟨h4, h3 ▸ hex_colon hd _⟩

theorem cut : ∀ (a b x y : Text), 58 ∉ a → 58 ∉ b → a ++ 58 :: x = b ++ 58 :: y → a = b ∧ x = y
  | [], [], _, _, _, _, h => ⟨rfl, by simpa using h⟩
  | [], b :: bs, _, _, _, hb, h => by
    simp only [List.nil_append, List.cons_append, List.cons.injEq] at h
    exact absurd (h.1 ▸ List.mem_cons_self) hb
  | a :: as, [], _, _, ha, _, h => by
    simp only [List.nil_append, List.cons_append, List.cons.injEq] at h
    exact absurd (h.1 ▸ List.mem_cons_self) ha
  | a :: as, b :: bs, x, y, ha, hb, h => by
    simp only [List.cons_append, List.cons.injEq] at h
    have := cut as bs x y (fun q => ha (List.mem_cons_of_mem _ q)) (fun q => hb (List.mem_cons_of_mem _ q)) h.2
    exact ⟨by rw [h.1, this.1], this.2⟩

theorem join_ne : ∀ t ts, Parts (t :: ts) → join (t :: ts) ≠ []
  | t, [], h => (h t List.mem_cons_self).1
  | t, _ :: _, _ => by simp [join]

theorem join_inj : ∀ l m, Parts l → Parts m → join l = join m → l = m
  | [], [], _, _, _ => rfl
  | [], y :: ys, _, hm, h => absurd h.symm (join_ne y ys hm)
  | x :: xs, [], hl, _, h => absurd h (join_ne x xs hl)
  | [x], [y], _, _, h => by simpa [join] using h
  | [x], y :: z :: zs, hl, _, h => by
    simp only [join] at h
    exact absurd (h ▸ by simp) (hl x List.mem_cons_self).2
  | x :: z :: zs, [y], _, hm, h => by
    simp only [join] at h
    exact absurd (h ▸ by simp) (hm y List.mem_cons_self).2
  | x :: x' :: xs, y :: y' :: ys, hl, hm, h => by
    simp only [join] at h
    obtain ⟨e1, e2⟩ := cut _ _ _ _ (hl x List.mem_cons_self).2 (hm y List.mem_cons_self).2 h
    rw [e1, join_inj (x' :: xs) (y' :: ys) (fun t ht => hl t (List.mem_cons_of_mem _ ht))
      (fun t ht => hm t (List.mem_cons_of_mem _ ht)) e2]

theorem names_ne {dig is m} (h : Has is m) : names dig is ≠ [] := fun hn => by
  have := names_mac (dig := dig) m h
  rw [hn] at this; cases this

theorem get_names {dig is m h} (hd : Digits dig) (hm : Has is m) : get dig ⟨is, h⟩ [] = join (names dig is) := by
  have hne := names_ne (dig := dig) hm
  have hp := parts_names (is := is) hd
  unfold get
  rw [if_neg (by simp)]
  refine if_pos ?_
  cases hx : names dig is with
  | nil => exact absurd hx hne
  | cons t ts =>
    rw [hx] at hp
    have := join_ne t ts hp
    cases hj : join (t :: ts) with
    | nil => exact absurd hj this
    | cons _ _ => rfl

/-! ## the theorems on names -/

/-- Two machines with external addresses get the same name exactly if they have the same set of external addresses:
the order of the interfaces, repeated and internal interfaces do not matter, and the texts are never mixed up. -/
theorem C95_host_iff {dig is js h h'} (hd : Digits dig) (hi : Six is) (hj : Six js)
    (ei : ∃ m, Has is m) (ej : ∃ m, Has js m) :
    get dig ⟨is, h⟩ [] = get dig ⟨js, h'⟩ [] ↔ ∀ m, Has is m ↔ Has js m := by
  obtain ⟨m, hm⟩ := ei
  obtain ⟨m', hm'⟩ := ej
  rw [get_names hd hm, get_names hd hm', ← names_eq_iff hd hi hj]
  constructor
  · exact join_inj _ _ (parts_names hd) (parts_names hd)
  · exact fun e => by rw [e]

/-- Two interfaces and the loopback device, in two orders; one address begins with a zero byte. -/
example : get lower ⟨[⟨false, [2, 0, 0, 0, 0, 9]⟩, ⟨true, [0, 0, 0, 0, 0, 0]⟩, ⟨false, [0, 1, 0, 0, 0, 171]⟩], none⟩ [] =
      get lower ⟨[⟨false, [0, 1, 0, 0, 0, 171]⟩, ⟨false, [2, 0, 0, 0, 0, 9]⟩, ⟨false, [0, 1, 0, 0, 0, 171]⟩], some [104]⟩ [] ∧
    get lower ⟨[⟨false, [2, 0, 0, 0, 0, 9]⟩, ⟨false, [0, 1, 0, 0, 0, 171]⟩], none⟩ [] =
      [48, 49, 48, 48, 48, 48, 48, 48, 97, 98, 58, 48, 50, 48, 48, 48, 48, 48, 48, 48, 48, 48, 57] := by decide

/-- The name is empty exactly if the machine has no external address and `gethostname` fails or gives nothing. -/
theorem C95_empty_iff {dig is h} (hd : Digits dig) :
    get dig ⟨is, h⟩ [] = [] ↔ (∀ m, ¬ Has is m) ∧ (h = none ∨ h = some []) := by
  by_cases e : ∃ m, Has is m
  · obtain ⟨m, hm⟩ := e
    rw [get_names hd hm]
    constructor
    · intro hj
      have hp := parts_names (is := is) hd
      cases hx : names dig is with
      | nil => exact absurd hx (names_ne hm)
      | cons t ts => rw [hx] at hj hp; exact absurd hj (join_ne t ts hp)
    · exact fun hh => absurd hm (hh.1 m)
  · have hn : names dig is = [] := by
      cases hx : names dig is with
      | nil => rfl
      | cons t ts =>
        obtain ⟨m, hm, _⟩ := mac_of_names (dig := dig) (is := is) (t := t) (hx ▸ List.mem_cons_self)
        exact absurd ⟨m, hm⟩ e
    have hg : get dig ⟨is, h⟩ [] = h.getD [] := by
      unfold get
      rw [hn]
      rfl
    rw [hg]
    constructor
    · intro hh
      refine ⟨fun m hm => e ⟨m, hm⟩, ?_⟩
      cases h with
      | none => exact Or.inl rfl
      | some x => exact Or.inr (by rw [show x = [] from hh])
    · rintro ⟨_, rfl | rfl⟩ <;> rfl

example : get lower ⟨[⟨true, [1, 2, 3, 4, 5, 6]⟩, ⟨false, [0, 0, 0, 0, 0, 0]⟩], none⟩ [] = [] ∧
    get lower ⟨[⟨true, [1, 2, 3, 4, 5, 6]⟩, ⟨false, [0, 0, 0, 0, 0, 0]⟩], some [110, 49]⟩ [] = [110, 49] := by decide

/-- That equal names mean the same machine is false where the fallback is used: the `gethostname` of a machine without
addresses can be the text of the address of another machine, and two machines where nothing is known have the same,
empty, name, which `get_data_connection` and the handlers compare like any other. -/
theorem C95_fallback_false :
    (∃ is js h h', Six is ∧ Six js ∧ (∃ m, Has is m ∧ ¬ Has js m) ∧
      get lower ⟨is, h⟩ [] = get lower ⟨js, h'⟩ [] ∧ get lower ⟨is, h⟩ [] ≠ []) ∧
    get lower ⟨[], none⟩ [] = [] := by
  refine ⟨⟨[⟨false, [0, 0, 0, 0, 0, 171]⟩], [], none, some [97, 98], ?_, ?_, ?_, by decide, by decide⟩, by decide⟩
  · intro i hi; rw [List.mem_singleton.mp hi]; rfl
  · intro i hi; cases hi
  · refine ⟨[0, 0, 0, 0, 0, 171], ⟨_, List.mem_singleton.mpr rfl, rfl, rfl, 171, by decide, by decide⟩, ?_⟩
    rintro ⟨i, hi, _⟩; cases hi

/-- The call is not a forced `set_hostname`. -/
def Op.mild : Op → Prop
  | .set _ force => force = false
  | _ => True

theorem get_of_ne {dig e buf} (h : buf ≠ []) : get dig e buf = buf := by
  unfold get
  refine if_pos ?_
  cases buf with
  | nil => exact absurd rfl h
  | cons _ _ => rfl

theorem step_mild {dig} {s : Proc} {o} (hb : s.buf ≠ []) (ho : Op.mild o) :
    (s.step dig o).buf = s.buf ∧ ((s.step dig o).self = s.self ∨ (s.step dig o).self = some s.buf) ∧
      ((s.step dig o).seen = s.seen ∨ (s.step dig o).seen = s.seen ++ [s.buf]) := by
  cases o with
  | get e => simp only [Proc.step, get_of_ne hb]; exact ⟨trivial, Or.inl trivial, Or.inr trivial⟩
  | init e => simp only [Proc.step, get_of_ne hb]; exact ⟨trivial, Or.inr trivial, Or.inr trivial⟩
  | reg e => simp only [Proc.step, get_of_ne hb]; exact ⟨trivial, Or.inl trivial, Or.inr trivial⟩
  | set hn force =>
    have hf : force = false := ho
    subst hf
    have : HostName.set hn false s.buf = (false, s.buf) := by
      unfold HostName.set
      refine if_neg ?_
      cases hx : s.buf with
      | nil => exact absurd hx hb
      | cons _ _ => simp
    simp only [Proc.step, this]
    exact ⟨trivial, Or.inl trivial, Or.inl trivial⟩

/-- Once a process has a name it keeps it, whatever happens to the interfaces, until a forced `set_hostname`: every
later reading gives this name, and it is the name of every node that is initialised and of every registration. -/
theorem C95_kept {dig} : ∀ (ops : List Op) (s : Proc), s.buf ≠ [] → (∀ o, o ∈ ops → o.mild) →
    (s.run dig ops).buf = s.buf ∧ ((s.run dig ops).self = s.self ∨ (s.run dig ops).self = some s.buf) ∧
      ∃ k, (s.run dig ops).seen = s.seen ++ List.replicate k s.buf
  | [], _, _, _ => ⟨rfl, Or.inl rfl, 0, by simp [Proc.run]⟩
  | o :: os, s, hb, ho => by
    obtain ⟨h1, h2, h3⟩ := step_mild (dig := dig) hb (ho o List.mem_cons_self)
    obtain ⟨i1, i2, k, i3⟩ := C95_kept (dig := dig) os (s.step dig o) (by rw [h1]; exact hb)
      (fun p hp => ho p (List.mem_cons_of_mem _ hp))
    have e : s.run dig (o :: os) = (s.step dig o).run dig os := rfl
    rw [e]
    refine ⟨i1.trans h1, ?_, ?_⟩
    · rcases i2 with i2 | i2
      · rcases h2 with h2 | h2
        · exact Or.inl (i2.trans h2)
        · exact Or.inr (i2.trans h2)
      · exact Or.inr (by rw [i2, h1])
    · rcases h3 with h3 | h3
      · exact ⟨k, by rw [i3, h3, h1]⟩
      · refine ⟨k + 1, ?_⟩
        rw [i3, h3, h1, List.append_assoc, List.replicate_succ]
        rfl

/-- All interfaces go away and the program proposes another name: nothing changes. -/
example : ((({ } : Proc).run lower [.init ⟨[⟨false, [0, 0, 0, 0, 0, 171]⟩], none⟩]).run lower
      [.set [120] false, .get ⟨[], some [104]⟩, .reg ⟨[⟨false, [1, 0, 0, 0, 0, 1]⟩], none⟩]).seen =
    [[97, 98], [97, 98], [97, 98]] := by decide

/-- `set_hostname` succeeds exactly if it is forced or there is no name yet; then the name is the given one, and if it is
not empty the next reading gives it on every machine; otherwise nothing changes. -/
theorem C95_set {dig e} (hn buf : Text) (force : Bool) :
    ((set hn force buf).1 = true ↔ force = true ∨ buf = []) ∧
    ((set hn force buf).1 = true → hn ≠ [] → get dig e (set hn force buf).2 = hn) ∧
    ((set hn force buf).1 = false → get dig e (set hn force buf).2 = buf) := by
  cases force with
  | true => exact ⟨by simp [set], fun _ h => get_of_ne h, by simp [set]⟩
  | false =>
    cases buf with
    | nil => exact ⟨by simp [set], fun _ h => get_of_ne h, by simp [set]⟩
    | cons b bs => exact ⟨by simp [set], by simp [set], fun _ => get_of_ne (by simp [set])⟩

example : set [120] false [] = (true, [120]) ∧ set [120] false [97] = (false, [97]) ∧ set [120] true [97] = (true, [120]) := by
  decide

/-- A forced empty name is forgotten: the next reading asks the machine again. -/
theorem C95_forget {dig e} (buf : Text) : get dig e (set [] true buf).2 = get dig e [] := rfl

example : get lower ⟨[⟨false, [0, 0, 0, 0, 0, 171]⟩], none⟩ (set [] true [120]).2 = [97, 98] := by decide

/-- That a node announces the name that its own endpoint has is false: `init` copies the name, a forced `set_hostname`
changes what is announced afterwards but not the copy, so a node of the same process that is initialised later counts
as another host in `get_data_connection` and as the same host when its registration is handled. -/
theorem C95_self_false : ∃ ops, let s := ({ } : Proc).run lower ops
    s.self = some [97] ∧ s.buf = [98] ∧ s.seen = [[97], [98]] :=
  ⟨[.set [97] false, .init ⟨[], none⟩, .set [98] true, .reg ⟨[], none⟩], by decide⟩

/-! ## the hash code -/

theorem le_length : ∀ n v, (le n v).length = n
  | 0, _ => rfl
  | n + 1, v => by rw [le, List.length_cons, le_length n]

theorem le_inj : ∀ n v w, v < 256 ^ n → w < 256 ^ n → le n v = le n w → v = w
  | 0, v, w, hv, hw, _ => by simp at hv hw; omega
  | n + 1, v, w, hv, hw, h => by
    simp only [le, List.cons.injEq] at h
    rw [Nat.pow_succ] at hv hw
    have := le_inj n (v / 256) (w / 256) (by omega) (by omega) h.2
    omega

/-- The widths of the types: `int`, a pointer, `bus_id_t` and `time_t`. -/
structure Ident.Ok (n : Ident) : Prop where
  pid : n.pid < 256 ^ 4
  addr : n.addr < 256 ^ 8
  id : n.id < 256 ^ 8
  sec : n.sec < 256 ^ 8
  usec : n.usec < 256 ^ 8

theorem hashed_split {dig is js hn hn' n n'} (hn1 : n.Ok) (hn2 : n'.Ok)
    (h : hashed dig is hn n = hashed dig js hn' n') :
    n = n' ∧ concat (names dig is) ++ hn = concat (names dig js) ++ hn' := by
  unfold hashed at h
  obtain ⟨h1, h2⟩ := List.append_inj' h (by simp [le_length])
  refine ⟨?_, h1⟩
  obtain ⟨h2, a5⟩ := List.append_inj' h2 (by simp [le_length])
  obtain ⟨h2, a4⟩ := List.append_inj' h2 (by simp [le_length])
  obtain ⟨h2, a3⟩ := List.append_inj' h2 (by simp [le_length])
  obtain ⟨a1, a2⟩ := List.append_inj' h2 (by simp [le_length])
  have e1 := le_inj _ _ _ hn1.pid hn2.pid a1
  have e2 := le_inj _ _ _ hn1.addr hn2.addr a2
  have e3 := le_inj _ _ _ hn1.id hn2.id a3
  have e4 := le_inj _ _ _ hn1.sec hn2.sec a4
  have e5 := le_inj _ _ _ hn1.usec hn2.usec a5
  cases n; cases n'
  simp only at e1 e2 e3 e4 e5
  subst e1 e2 e3 e4 e5
  rfl

/-- The bytes that are hashed determine the process, the object, the id and the time of the start, whatever the names
of the hosts are: two runs that differ in one of them are hashed differently. -/
theorem C95_hash_ident {dig is js hn hn' n n'} (hn1 : n.Ok) (hn2 : n'.Ok)
    (h : hashed dig is hn n = hashed dig js hn' n') : n = n' := (hashed_split hn1 hn2 h).1

/-- Two nodes of one process with the same id, started at the same time. -/
example : hashed lower [⟨false, [0, 0, 0, 0, 0, 171]⟩] [97, 98] ⟨7, 4096, 1, 5, 6⟩ ≠
    hashed lower [⟨false, [0, 0, 0, 0, 0, 171]⟩] [97, 98] ⟨7, 8192, 1, 5, 6⟩ := by decide

theorem concat_colon : ∀ l, Parts l → (concat l).count 58 = 0
  | [], _ => rfl
  | t :: ts, h => by
    have := concat_colon ts (fun u hu => h u (List.mem_cons_of_mem _ hu))
    rw [concat, List.count_append, this, List.count_eq_zero.mpr (h t List.mem_cons_self).2]

theorem join_colon : ∀ t ts, Parts (t :: ts) → (join (t :: ts)).count 58 = ts.length
  | t, [], h => List.count_eq_zero.mpr (h t List.mem_cons_self).2
  | t, u :: us, h => by
    have := join_colon u us (fun v hv => h v (List.mem_cons_of_mem _ hv))
    rw [join, List.count_append, List.count_cons_self, this, List.count_eq_zero.mpr (h t List.mem_cons_self).2]
    simp

theorem join_length : ∀ t ts, (join (t :: ts)).length = (concat (t :: ts)).length + ts.length
  | t, [] => by simp [join, concat]
  | t, u :: us => by
    rw [join, List.length_append, List.length_cons, join_length u us]
    simp only [concat, List.length_append, List.length_cons]
    omega

/-- With names that were made from the addresses, the bytes that are hashed are the same exactly for the same set of
external addresses and the same run, although the addresses are appended without separators. -/
theorem C95_hash_iff {dig is js h h' n n'} (hd : Digits dig) (hi : Six is) (hj : Six js)
    (ei : ∃ m, Has is m) (ej : ∃ m, Has js m) (hn1 : n.Ok) (hn2 : n'.Ok) :
    hashed dig is (get dig ⟨is, h⟩ []) n = hashed dig js (get dig ⟨js, h'⟩ []) n' ↔
      n = n' ∧ ∀ m, Has is m ↔ Has js m := by
  obtain ⟨m, hm⟩ := ei
  obtain ⟨m', hm'⟩ := ej
  rw [get_names hd hm, get_names hd hm', ← names_eq_iff hd hi hj]
  constructor
  · intro hh
    obtain ⟨e, h1⟩ := hashed_split hn1 hn2 hh
    refine ⟨e, ?_⟩
    have p1 := parts_names (is := is) hd
    have p2 := parts_names (is := js) hd
    cases hx : names dig is with
    | nil => exact absurd hx (names_ne hm)
    | cons t ts =>
      cases hy : names dig js with
      | nil => exact absurd hy (names_ne hm')
      | cons u us =>
        rw [hx, hy] at h1
        rw [hx] at p1
        rw [hy] at p2
        have c := congrArg (List.count 58) h1
        rw [List.count_append, List.count_append, concat_colon _ p1, concat_colon _ p2, join_colon _ _ p1,
          join_colon _ _ p2] at c
        have l := congrArg List.length h1
        rw [List.length_append, List.length_append, join_length, join_length] at l
        obtain ⟨_, h2⟩ := List.append_inj h1 (by omega)
        exact join_inj _ _ p1 p2 h2
  · rintro ⟨rfl, e⟩
    unfold hashed
    rw [e]

/-- Addresses that are the same when they are written one after the other. -/
example :
    concat (names lower [⟨false, [0, 0, 0, 0, 17, 34]⟩]) =
      concat (names lower [⟨false, [0, 0, 0, 0, 0, 17]⟩, ⟨false, [0, 0, 0, 0, 0, 34]⟩]) ∧
    hashed lower [⟨false, [0, 0, 0, 0, 17, 34]⟩] (get lower ⟨[⟨false, [0, 0, 0, 0, 17, 34]⟩], none⟩ []) ⟨1, 1, 1, 1, 1⟩ ≠
      hashed lower [⟨false, [0, 0, 0, 0, 0, 17]⟩, ⟨false, [0, 0, 0, 0, 0, 34]⟩]
        (get lower ⟨[⟨false, [0, 0, 0, 0, 0, 17]⟩, ⟨false, [0, 0, 0, 0, 0, 34]⟩], none⟩ []) ⟨1, 1, 1, 1, 1⟩ := by decide

/-- With a name that the program has set this is false: other addresses, or addresses and name together, can be written
in the same way. -/
theorem C95_hash_false :
    (∃ is js hn n, Six is ∧ Six js ∧ (∃ m, Has is m ∧ ¬ Has js m) ∧ hashed lower is hn n = hashed lower js hn n) ∧
    (∃ is js hn hn' n, hn ≠ hn' ∧ Six is ∧ Six js ∧ hashed lower is hn n = hashed lower js hn' n) := by
  refine ⟨⟨[⟨false, [0, 0, 0, 0, 17, 34]⟩], [⟨false, [0, 0, 0, 0, 0, 17]⟩, ⟨false, [0, 0, 0, 0, 0, 34]⟩], [104],
    ⟨1, 1, 1, 1, 1⟩, ?_, ?_, ?_, by decide⟩, ⟨[⟨false, [0, 0, 0, 0, 0, 17]⟩], [], [104], [49, 49, 104], ⟨1, 1, 1, 1, 1⟩,
    by decide, ?_, ?_, by decide⟩⟩
  · intro i hi; rw [List.mem_singleton.mp hi]; rfl
  · intro i hi
    rcases List.mem_cons.mp hi with rfl | hi
    · rfl
    · rw [List.mem_singleton.mp hi]; rfl
  · refine ⟨[0, 0, 0, 0, 17, 34], ⟨_, List.mem_singleton.mpr rfl, rfl, rfl, 17, by decide, by decide⟩, ?_⟩
    rintro ⟨i, hi, _, h, _⟩
    rcases List.mem_cons.mp hi with rfl | hi
    · exact absurd h (by decide)
    · rw [List.mem_singleton.mp hi] at h
      exact absurd h (by decide)
  · intro i hi; rw [List.mem_singleton.mp hi]; rfl
  · intro i hi; cases hi

/-- The code that is kept for a peer is the last one that it announced; announcements without a code change nothing. -/
theorem C95_kept_code (old : Text) (codes : List Text) :
    codes.foldl updateHash old = ((codes.filter (· ≠ [])).getLast?).getD old := by
  induction codes generalizing old with
  | nil => rfl
  | cons c cs ih =>
    rw [List.foldl_cons, ih]
    unfold updateHash
    cases c with
    | nil => simp
    | cons b bs =>
      simp only [List.isEmpty_cons, Bool.false_eq_true, if_false]
      rw [List.filter_cons_of_pos (by simp)]
      cases hx : List.filter (fun x => decide (x ≠ [])) cs with
      | nil => rfl
      | cons y ys => rw [List.getLast?_cons_cons]; simp [List.getLast?_cons]

example : [[1, 2], [], [3], []].foldl updateHash [9] = [3] ∧ [[], []].foldl updateHash [9] = [9] := by decide

end Verif.Node.HostName
