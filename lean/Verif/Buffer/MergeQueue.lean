import Verif.Buffer.Refine

/-!
Model of the merge step of `io_stream_try_write`
(`src/channel_io_stream.cpp:1677-1720`) on both kinds of buffer manager, and
the lemmas behind property C25.
-/
namespace Verif.Buffer

/-- The merge loop on a static manager, `src/channel_io_stream.cpp:1685-1705`.
`uv` is `sizeof(uv_write_t)`, `avail` is `available_bytes`, `prev` the address of
`preview_bb`, `taken` is `free_buffer - buffer_start`.  The fuel `n` is the number
of queued blocks; each round removes one.  Result: manager after the loop and
bytes collected.  (The copied bytes themselves are not part of this function.) -/
def mergeTake (uv : Nat) : Nat → SBuf → Nat → Option Nat → Nat → Option (SBuf × Nat)
  | 0, st, _, _, taken => some (st, taken)
  | n + 1, st, avail, prev, taken =>
    if st.head = st.tail ∨ avail = 0 then some (st, taken)
    else match st.block 0 with
      | none => none
      | some (p, hd, _) =>
        if hd.size > avail then some (st, taken)
        else if prev.any (fun p' => p' > p) then some (st, taken)
        else match st.step (.popFront hd.size true) with
          | none => none
          | some (st', _, _) =>
            mergeTake uv n st' (avail - (hd.size - uv)) (some p) (taken + (hd.size - uv))

/-- The merge loop on a dynamic manager: no address test. -/
def dmergeTake (uv : Nat) : Nat → DBuf → Nat → Nat → Option (DBuf × Nat)
  | 0, st, _, taken => some (st, taken)
  | n + 1, st, avail, taken =>
    if st.blocks = [] ∨ avail = 0 then some (st, taken)
    else match st.blocks[0]? with
      | none => none
      | some b =>
        if b.cells.length > avail then some (st, taken)
        else match st.step (.popFront b.cells.length true) with
          | none => none
          | some (st', _) =>
            dmergeTake uv n st' (avail - (b.cells.length - uv)) (taken + (b.cells.length - uv))

/-! ### Lemmas -/

theorem popFront_tail {st st' : SBuf} {s : Nat} {fu : Bool} {r : Int}
    (e : staticPopFront st s fu = some (st', r)) (h : st.head ≠ st.tail) (h' : st'.head ≠ st'.tail) :
    st'.tail = st.tail ∧ ∀ j, j ≠ st.head → st'.idx[j]? = st.idx[j]? := by
  unfold staticPopFront at e
  rw [if_neg h] at e
  split at e
  · simp at e
  split at e
  · split at e
    · simp at e
    · extract_lets s' at e
      clear_value s'
      split at e
      · simp at e
      · split at e
        · simp only [Option.some.injEq, Prod.mk.injEq] at e
          obtain ⟨rfl, -⟩ := e
          unfold popFinish at h' ⊢
          split at h'
          · exact absurd rfl h'
          · rename_i hne
            simp only [hne, if_false]
            exact ⟨trivial, fun j hj => sub_set (fun e => hj e.symm)⟩
        · simp only [Option.some.injEq, Prod.mk.injEq] at e
          obtain ⟨rfl, -⟩ := e
          unfold popFinish at h' ⊢
          split at h'
          · exact absurd rfl h'
          · rename_i hne
            simp only [hne, if_false]
            exact ⟨trivial, fun j hj => trivial⟩
  · simp at e

/-- Room in front of the first block after blocks of total extent `S` have been
popped from the front in ascending address order. -/
def Room (st : SBuf) (bs : List PB) (S : Nat) (prev : Option Nat) : Prop :=
  (bs = [] → S ≤ st.size) ∧
  (bs ≠ [] → ∃ t, Core st bs t ∧
    ((hp bs t ≤ t ∧ S ≤ hp bs t) ∨ (t < hp bs t ∧ S < hp bs t - t) ∨
     (hp bs t ≤ t ∧ S < st.size - t ∧ ∃ p, prev = some p ∧ t < p)))

theorem Room.init {st : SBuf} {bs : List PB} (h : Inv st bs) : Room st bs 0 none := by
  refine ⟨fun _ => Nat.zero_le _, fun hb => ?_⟩
  rcases h with ⟨_, t, hc⟩ | ⟨rfl, _⟩
  · refine ⟨t, hc, ?_⟩
    by_cases h : hp bs t ≤ t
    · exact Or.inl ⟨h, Nat.zero_le _⟩
    · exact Or.inr (Or.inl ⟨by omega, by omega⟩)
  · exact absurd rfl hb

theorem Room.pop {st st' : SBuf} {b : PB} {rest : List PB} {S s : Nat} {prev : Option Nat} {r : Int}
    (h : Room st (b :: rest) S prev) (hprev : ∀ p, prev = some p → p ≤ b.p)
    (e : staticPopFront st s true = some (st', r)) (hsz : st'.size = st.size)
    (hi : Inv st' rest) : Room st' rest (S + full b.cells.length) (some b.p) := by
  obtain ⟨t, hc, hr⟩ := h.2 (by simp)
  have hz := hc.lay.bound (b := b) (by simp)
  have hC : ¬ (hp (b :: rest) t ≤ t ∧ S < st.size - t ∧ ∃ p, prev = some p ∧ t < p) := by
    rintro ⟨h1, -, p, hp1, h3⟩
    have := hprev p hp1
    simp [hp] at h1
    omega
  have hr : (hp (b :: rest) t ≤ t ∧ S ≤ hp (b :: rest) t) ∨
      (t < hp (b :: rest) t ∧ S < hp (b :: rest) t - t) := by
    rcases hr with h | h | h
    · exact Or.inl h
    · exact Or.inr h
    · exact absurd h hC
  simp only [hp] at hr
  simp only [PB.fin] at hz
  refine ⟨fun _ => ?_, fun hne => ?_⟩
  · rw [hsz]; omega
  · rcases hi with ⟨_, t', hc'⟩ | ⟨rfl, _⟩
    · have ht : t' = t := by
        obtain ⟨a, c⟩ := popFront_tail e (hc.ht_ne (by simp)) (hc'.ht_ne hne)
        have h1 := hc'.tslot
        rw [a, c _ (Ne.symm (hc.ht_ne (by simp))), hc.tslot] at h1
        simpa using h1.symm
      subst ht
      refine ⟨t', hc', ?_⟩
      rw [hsz]
      have hlay := hc.lay
      rcases hlay with ⟨hch, htz⟩ | ⟨b0, hi, lo, heq, c1, c2, c3⟩
      · -- unwrapped
        obtain ⟨hlo, hch2⟩ := hch
        have hle : b.p ≤ t' := by have := hch2.le; simp [PB.fin] at this; omega
        cases rest with
        | nil => exact absurd rfl hne
        | cons b2 r2 =>
          have h2 := hch2.1
          have h3 := hch2.2.le
          simp only [PB.fin] at h2 h3
          have := full_ge b2.cells.length
          left
          simp only [hp]
          omega
      · -- wrapped
        simp only [List.cons_append, List.cons.injEq] at heq
        obtain ⟨rfl, rfl⟩ := heq
        have hs : t' < b.p ∧ S < b.p - t' := by omega
        cases hi with
        | cons b2 r2 =>
          have h2 := c1.2.1
          simp only [PB.fin] at h2
          right; left
          simp only [hp, List.cons_append]
          omega
        | nil =>
          simp only [List.nil_append] at *
          have h4 : hp lo t' ≤ t' := by
            cases lo with
            | nil => exact absurd rfl hne
            | cons b2 r2 => have := (c2.mem (b := b2) (by simp)).2
                            have := full_ge b2.cells.length
                            simp [hp, PB.fin] at *; omega
          right; right
          exact ⟨h4, by omega, b.p, rfl, c3⟩
    · exact absurd rfl hne

theorem Room.push {st : SBuf} {bs : List PB} {S s : Nat} {prev : Option Nat} (h : Room st bs S prev)
    (hi : Inv st bs) (hlen : bs.length + 1 < st.idx.length) (hs : full s ≤ S)
    (hs0 : bs = [] → full s < S) :
    ∃ st' ptr, staticPushFront st s = some (st', Err.SUCCESS, ptr) := by
  have hf := full_ge s
  by_cases hb : bs = []
  · subst hb
    rcases hi with ⟨hb, _⟩ | ⟨-, hh, ht, hn, h0⟩
    · exact absurd rfl hb
    have := empty_pushFront hh ht hn h0 s
    rw [if_pos (by have := h.1 rfl; have := hs0 rfl; omega)] at this
    rcases he : staticPushFront st s with _ | ⟨st', r, ptr⟩
    · rw [he] at this; simp at this
    · rw [he] at this
      simp only [Option.map_some, Option.some.injEq, Prod.mk.injEq] at this
      exact ⟨st', ptr, by rw [this.1]⟩
  · obtain ⟨t, hc, hr⟩ := h.2 hb
    have hhz := hc.lay.hp_le
    have htz := hc.lay.t_le
    have sub : ∀ p, p + full s ≤ st.size →
        ∃ st' ptr, subHead { st with mem := putHdr st.mem p ⟨s, 0, p + 32⟩ } p =
          some (st', Err.SUCCESS, ptr) := by
      intro p hp
      simp only [subHead]
      rw [readHdr_of (putHdr_at _ _ _) (by omega)]
      exact ⟨_, _, rfl⟩
    unfold staticPushFront
    rw [if_neg (by omega), if_neg (fun e => by have := hc.tplus.1 e; omega)]
    have e3 : emptyInit st (some (hp bs t)) (some t) = (st, hp bs t, t) := rfl
    simp only [hc.hslot, hc.tslot, e3]
    by_cases hcase : t ≥ hp bs t
    · rw [if_pos hcase, offset_ge (Nat.zero_le _)]
      by_cases hA : hp bs t - 0 ≥ full s
      · rw [if_pos hA, create_of (Nat.le_refl _) (by omega)]
        exact sub _ (by omega)
      · rw [if_neg hA, offset_le htz, if_neg (by omega), create_of (Nat.le_refl _) (by omega)]
        exact sub _ (by omega)
    · rw [if_neg hcase, offset_le (by omega), if_neg (by omega),
        create_of (Nat.le_refl _) (by omega)]
      exact sub _ (by omega)

/-- Payload bytes (without the request area of `uv` bytes) of blocks. -/
def payload (uv : Nat) (q : Deque) : Nat := (q.map fun b => b.data.length - uv).sum

/-- Extent of blocks in the area. -/
def extent (q : Deque) : Nat := (q.map fun b => full b.data.length).sum

theorem merged_fits {uv : Nat} : ∀ (q : Deque), (∀ b ∈ q, uv ≤ b.data.length) → q ≠ [] →
    full (uv + payload uv q) + 32 * (q.length - 1) ≤ extent q := by
  have key : ∀ (q : Deque), (∀ b ∈ q, uv ≤ b.data.length) → ∀ a,
      full (a + payload uv q) + 32 * q.length ≤ full a + extent q := by
    intro q
    induction q with
    | nil => intro _ a; simp [payload, extent]
    | cons b q ih =>
      intro h a
      have h1 := ih (fun c hc => h c (by simp [hc])) (a + (b.data.length - uv))
      have h2 : payload uv (b :: q) = (b.data.length - uv) + payload uv q := by simp [payload]
      have h3 : extent (b :: q) = full b.data.length + extent q := by simp [extent]
      rw [h2, h3, ← Nat.add_assoc]
      have h4 := padding_add a (b.data.length - uv)
      have h5 := padding_mono (show b.data.length - uv ≤ b.data.length by omega)
      simp only [full_eq, List.length_cons] at *
      omega
  intro q h hne
  cases q with
  | nil => exact absurd rfl hne
  | cons b q =>
    have h1 := key q (fun c hc => h c (by simp [hc])) b.data.length
    have h0 := h b (by simp)
    have h2 : payload uv (b :: q) = (b.data.length - uv) + payload uv q := by simp [payload]
    have h3 : extent (b :: q) = full b.data.length + extent q := by simp [extent]
    rw [h2, h3, ← Nat.add_assoc, show uv + (b.data.length - uv) = b.data.length by omega]
    simpa using h1

theorem mergeTake_spec {maxSize maxNum uv : Nat} (hS : 0 < maxSize) (hN : 0 < maxNum) :
    ∀ (n : Nat) (st : SBuf) (q : Deque) (bs : List PB) (avail : Nat) (prev : Option Nat) (taken S : Nat),
    SReach maxSize maxNum st q → Good maxSize maxNum st q bs → Room st bs S prev → n = q.length →
    (∀ b ∈ q, b.consumed = 0 ∧ uv ≤ b.data.length ∧ 0 < b.data.length) →
    ∃ st' k bs' prev', mergeTake uv n st avail prev taken = some (st', taken + payload uv (q.take k)) ∧
      k ≤ q.length ∧ SReach maxSize maxNum st' (q.drop k) ∧
      Good maxSize maxNum st' (q.drop k) bs' ∧ Room st' bs' (S + extent (q.take k)) prev' ∧
      payload uv (q.take k) ≤ avail ∧
      (prev = none → ∀ b r, q = b :: r → b.data.length ≤ avail → 1 ≤ k) := by
  intro n
  induction n with
  | zero =>
    intro st q bs avail prev taken S hre hg hr hn hq
    have : q = [] := List.eq_nil_of_length_eq_zero hn.symm
    subst this
    exact ⟨st, 0, bs, prev, by simp [mergeTake, payload], by simp, hre, hg, by simpa [extent] using hr,
      by simp [payload], by simp⟩
  | succ n ih =>
    intro st q bs avail prev taken S hre hg hr hn hq
    have stop : (prev = none → ∀ b r, q = b :: r → b.data.length ≤ avail → False) →
      mergeTake uv (n + 1) st avail prev taken = some (st, taken) →
      ∃ st' k bs' prev', mergeTake uv (n + 1) st avail prev taken =
          some (st', taken + payload uv (q.take k)) ∧
        k ≤ q.length ∧ SReach maxSize maxNum st' (q.drop k) ∧
        Good maxSize maxNum st' (q.drop k) bs' ∧ Room st' bs' (S + extent (q.take k)) prev' ∧
        payload uv (q.take k) ≤ avail ∧
        (prev = none → ∀ b r, q = b :: r → b.data.length ≤ avail → 1 ≤ k) := by
      intro h1 h2
      exact ⟨st, 0, bs, prev, by simpa [payload] using h2, by simp, by simpa using hre,
        by simpa using hg, by simpa [extent] using hr, by simp [payload],
        fun a b r c d => (h1 a b r c d).elim⟩
    cases q with
    | nil => simp at hn
    | cons b0 rest =>
      have habs := hg.abs
      cases bs with
      | nil => simp at habs
      | cons pb bs =>
        simp only [List.map_cons, List.cons.injEq] at habs
        obtain ⟨hb0, habs⟩ := habs
        have hlen0 : pb.cells.length = b0.data.length := by rw [← hb0]; rfl
        have hblk := block_of hg.inv (i := 0) (b := pb) (by simp)
        have hne := hg.inv.nonempty.2 (by simp)
        obtain ⟨hc0, huv0, hpos⟩ := hq b0 (by simp)
        by_cases ha : avail = 0
        · refine stop (fun _ b r hbr hle => ?_) (by simp [mergeTake, ha])
          simp only [List.cons.injEq] at hbr
          rw [← hbr.1] at hle; omega
        by_cases hsz : pb.hdr.size > avail
        · refine stop (fun _ b r hbr hle => ?_) (by simp [mergeTake, hne, hblk, hsz])
          simp only [List.cons.injEq] at hbr
          rw [← hbr.1] at hle
          simp only [PB.hdr] at hsz
          omega
        by_cases hpv : prev.any (fun p' => p' > pb.p) = true
        · refine stop (fun hp _ _ _ _ => by rw [hp] at hpv; simp at hpv) ?_
          simp only [mergeTake, hne, ha, or_self, if_false, hblk, hsz, hpv, if_true]
        have hq' : Deque.apply (b0 :: rest) (.popFront pb.hdr.size true) = rest := by
          simp only [Deque.apply]
          rw [if_pos]
          simp only [Blk.unread, Blk.consume, PB.hdr, hc0, true_and]
          omega
        obtain ⟨st', r, ptr, bs', e, hg', -, hrr, hnd, hlim⟩ :=
          good_step hS hN (.popFront pb.hdr.size true) hg (by trivial)
        have hr0 : r = Err.SUCCESS := by
          rcases hrr with h | h | h
          · exact h
          · exact absurd rfl ((hlim h).2.1 _ _)
          · exact absurd (hnd.1 h).1 (by simp)
        subst hr0
        have hre' := SReach.step hre (by trivial) e
        rw [if_pos rfl, hq'] at hg' hre'
        -- identify the concrete blocks after the pop
        obtain ⟨st2, r2, e2, hgeo, hinv2, -, -⟩ :=
          staticPopFront_spec pb.hdr.size true hg.inv hg.cnt
        have hst2 : st2 = st' := by
          simp only [SBuf.step, e2, Option.map_some, Option.some.injEq, Prod.mk.injEq] at e
          exact e.1
        subst hst2
        have hu : pb.used = 0 := by
          have := congrArg Blk.consumed hb0
          simpa [PB.toBlk, hc0] using this
        have hpop : popFrontB (pb :: bs) pb.hdr.size true = bs := by
          simp only [popFrontB]
          rw [if_pos]
          simp [PB.left, PB.pop, PB.hdr, hu]
        rw [hpop] at hinv2
        have hroom := hr.pop (fun p hp => by
          rw [hp] at hpv
          simp only [Option.any_some, decide_eq_true_eq] at hpv
          omega) e2 hgeo.size hinv2
        have hg2 : Good maxSize maxNum st2 rest bs := by
          obtain ⟨a1, a2, a3, a4, a5, a6, a7, a8, a9⟩ := hg'
          refine ⟨hinv2, ?_, habs, a4, a5, a6, a7, a8, a9⟩
          have hc2 := counted_abs a2
          rw [a3, ← habs] at hc2
          refine ⟨by simpa using hc2.1, ?_⟩
          rw [hc2.2]; unfold Deque.unread; rw [List.map_map]; rfl
        obtain ⟨st3, k, bs3, prev3, e3, hk, hre3, hg3, hroom3, hpl, -⟩ :=
          ih st2 rest bs (avail - (pb.hdr.size - uv)) (some pb.p) (taken + (pb.hdr.size - uv))
            (S + full pb.cells.length) hre' hg2 hroom (by simpa using hn)
            (fun b hb => hq b (by simp [hb]))
        refine ⟨st3, k + 1, bs3, prev3, ?_, by simp; omega, by simpa using hre3, by simpa using hg3,
          ?_, ?_, fun _ _ _ _ _ => by omega⟩
        · simp only [mergeTake, hne, ha, or_self, if_false, hblk, hsz, hpv, e, e3,
            Bool.false_eq_true]
          have : payload uv ((b0 :: rest).take (k + 1)) =
              (b0.data.length - uv) + payload uv (rest.take k) := by simp [payload]
          rw [this]
          simp only [PB.hdr, hlen0, Nat.add_assoc]
        · have : extent ((b0 :: rest).take (k + 1)) =
              full b0.data.length + extent (rest.take k) := by simp [extent]
          rw [this, ← Nat.add_assoc, ← hlen0]; exact hroom3
        · have : payload uv ((b0 :: rest).take (k + 1)) =
              (b0.data.length - uv) + payload uv (rest.take k) := by simp [payload]
          rw [this]
          simp only [PB.hdr, hlen0] at hpl hsz
          omega

theorem payload_unread {uv : Nat} : ∀ (q : Deque), (∀ b ∈ q, b.consumed = 0 ∧ uv ≤ b.data.length) →
    payload uv q + uv * q.length = Deque.unread q := by
  intro q
  induction q with
  | nil => intro _; simp [payload, Deque.unread]
  | cons b q ih =>
    intro h
    have h1 := ih (fun c hc => h c (by simp [hc]))
    obtain ⟨h2, h3⟩ := h b (by simp)
    simp only [payload, Deque.unread, List.map_cons, List.sum_cons, List.length_cons, Blk.unread, h2,
      Nat.mul_add, Nat.mul_one] at *
    omega

theorem unread_split (q : Deque) (k : Nat) :
    Deque.unread q = Deque.unread (q.take k) + Deque.unread (q.drop k) := by
  have h := congrArg Deque.unread (List.take_append_drop k q).symm
  rw [h]
  unfold Deque.unread
  rw [List.map_append, List.sum_append]

theorem dmergeTake_spec {limSize limNum uv : Nat} :
    ∀ (n : Nat) (d : DBuf) (q : Deque) (avail taken : Nat),
    DReach limSize limNum d q → n = q.length →
    (∀ b ∈ q, b.consumed = 0 ∧ uv ≤ b.data.length ∧ 0 < b.data.length) →
    ∃ d' k, dmergeTake uv n d avail taken = some (d', taken + payload uv (q.take k)) ∧
      k ≤ q.length ∧ DReach limSize limNum d' (q.drop k) ∧ payload uv (q.take k) ≤ avail ∧
      (∀ b r, q = b :: r → b.data.length ≤ avail → 1 ≤ k) := by
  intro n
  induction n with
  | zero =>
    intro d q avail taken hre hn hq
    have : q = [] := List.eq_nil_of_length_eq_zero hn.symm
    subst this
    exact ⟨d, 0, by simp [dmergeTake, payload], by simp, hre, by simp [payload], by simp⟩
  | succ n ih =>
    intro d q avail taken hre hn hq
    have hg := dreach_good hre
    have habs := hg.abs
    have stop : (∀ b r, q = b :: r → b.data.length ≤ avail → False) →
      dmergeTake uv (n + 1) d avail taken = some (d, taken) →
      ∃ d' k, dmergeTake uv (n + 1) d avail taken = some (d', taken + payload uv (q.take k)) ∧
      k ≤ q.length ∧ DReach limSize limNum d' (q.drop k) ∧ payload uv (q.take k) ≤ avail ∧
      (∀ b r, q = b :: r → b.data.length ≤ avail → 1 ≤ k) := by
      intro h1 h2
      exact ⟨d, 0, by simpa [payload] using h2, by simp, by simpa using hre, by simp [payload],
        fun b r c e => (h1 b r c e).elim⟩
    cases q with
    | nil => simp at hn
    | cons b0 rest =>
      obtain ⟨hc0, huv0, hpos⟩ := hq b0 (by simp)
      rcases hbl : d.blocks with _ | ⟨db, bs⟩
      · rw [hbl] at habs; simp at habs
      · rw [hbl] at habs
        simp only [List.map_cons, List.cons.injEq] at habs
        have hlen0 : db.cells.length = b0.data.length := by rw [← habs.1]; rfl
        by_cases ha : avail = 0
        · refine stop (fun b r hbr hle => ?_) (by simp [dmergeTake, ha])
          simp only [List.cons.injEq] at hbr
          rw [← hbr.1] at hle; omega
        by_cases hsz : db.cells.length > avail
        · refine stop (fun b r hbr hle => ?_) (by simp [dmergeTake, hbl, hsz])
          simp only [List.cons.injEq] at hbr
          rw [← hbr.1] at hle; omega
        obtain ⟨d', e, -⟩ := dgood_step (.popFront db.cells.length true) hg (by trivial)
        have hv : Deque.verdict limNum limSize (b0 :: rest) (.popFront db.cells.length true) =
            Err.SUCCESS := by simp [Deque.verdict]
        rw [hv] at e
        have hre' := DReach.step hre (by trivial) e
        have hq' : Deque.apply (b0 :: rest) (.popFront db.cells.length true) = rest := by
          simp only [Deque.apply]
          rw [if_pos]
          simp only [Blk.unread, Blk.consume, hc0, true_and]
          omega
        rw [if_pos rfl, hq'] at hre'
        obtain ⟨d3, k, e3, hk, hre3, hpl, -⟩ :=
          ih d' rest (avail - (db.cells.length - uv)) (taken + (db.cells.length - uv)) hre'
            (by simpa using hn) (fun b hb => hq b (by simp [hb]))
        have hpe : payload uv ((b0 :: rest).take (k + 1)) =
              (b0.data.length - uv) + payload uv (rest.take k) := by simp [payload]
        refine ⟨d3, k + 1, ?_, by simp; omega, by simpa using hre3, ?_, fun _ _ _ _ => by omega⟩
        · simp only [dmergeTake, hbl, ha, or_false, if_false, hsz, List.getElem?_cons_zero, e, e3,
            reduceCtorEq]
          rw [hpe, hlen0, Nat.add_assoc]
        · rw [hpe]; omega

end Verif.Buffer
