import Verif.IoStream.SendInv
import Verif.IoStream.RecvExact

/-!
Properties C20 to C24: framing on stream connections.

Specification: `RecvSpec.lean` (`Dec`: the frames of a byte stream; `verdict`,
`process`: what is to be reported for them) and, below, the bytes of a list of
messages.  A run of the receiver is a list of read events; `Legal` says that a
read never brings more bytes than the allocation callback offered.
-/
namespace Verif.IoStream
set_option maxRecDepth 10000

/-- A receiver that never fails on small frames: its read buffer holds every block that fits the head
buffer. -/
def HoldsSmall (cf : RConf) : Prop := ∀ n, n ≤ headCap → cf.accept n = true

theorem HoldsSmall.ok {cf : RConf} (h : HoldsSmall cf) (s : List Byte) : SmallOk cf s :=
  fun _ _ _ _ _ hl => h _ hl

/-- The message is within the limits of the receiver. -/
def Fits (cf : RConf) (m : List Byte) : Prop :=
  m.length < 2 ^ 63 ∧ cf.accept (4 + m.length) = true ∧ (cf.limit = 0 ∨ m.length ≤ cf.limit)

/-- The channel has not yet counted enough "nothing to read" events to give up. -/
def Patient (cf : RConf) (ag : Nat) (es : List REv) : Prop := REv.fail ∉ es ∧ ag + agains es ≤ cf.maxAgain

/-- C20: the bytes of messages `ms`, each within the receiver's limits, followed by
the beginning of one more frame, arrive in any pieces: the connection stays open
and the receive callback is invoked once per message of `ms`, in order, with
exactly its bytes. -/
theorem C20_chunks (cf : RConf) (h : Hash) (hf0 bf0 ag : Nat) (es : List REv) (ms : List (List Byte)) (last p : List Byte)
    (hms : ∀ m ∈ ms, Fits cf m) (hlast : Fits cf last) (hp : p <+: encode h last) (hpl : p ≠ encode h last)
    (hrec : received es = (ms.map (encode h)).flatten ++ p)
    (hleg : Legal cf h (rinit hf0 bf0 ag) es) (hpat : Patient cf ag es) :
    ∃ st, rrun cf h (rinit hf0 bf0 ag) es = some (st, ms.map fun m => ⟨Err.SUCCESS, m⟩) ∧ st.closed = false ∧
      st.hashFail = hf0 ∧ st.blockFail = bf0 := by
  have hml : ∀ m ∈ ms, m.length < 2 ^ 63 := fun m hm => (hms m hm).1
  have hpn : decode1 p = none := by
    cases hd : decode1 p with
    | none => rfl
    | some x =>
      obtain ⟨f, p'⟩ := x
      obtain ⟨t, ht⟩ := hp
      have h1 := decode1_append t hd
      rw [ht] at h1
      have h2 := encode_decode h last [] hlast.1
      rw [List.append_nil] at h2
      rw [h2] at h1
      simp only [Option.some.injEq, Prod.mk.injEq] at h1
      have hnil : p' = [] ∧ t = [] := by simpa using h1.2.symm
      rw [hnil.2] at ht
      exact absurd (by simpa using ht) hpl
  have hdec : Dec (received es) (ms.map fun m => (h.bytes m, m)) p := by
    rw [hrec]; exact dec_frames h ms p hpn hml
  have hhp : header p = none ∨ header p = some (last.length, (Vint.writeVint last.length 16).2.length) := by
    cases hh : header p with
    | none => exact Or.inl rfl
    | some x =>
      obtain ⟨t, ht⟩ := hp
      have h1 := header_append t (v := x.1) (l := x.2) hh
      rw [ht] at h1
      have h2 := (encode_header h last [] hlast.1).1
      rw [List.append_nil] at h2
      rw [h2] at h1
      exact Or.inr h1.symm
  have hnw : NoWrap (received es) := by
    intro fs r hd
    obtain ⟨rfl, rfl⟩ := hdec.det hd
    unfold wraps
    rcases hhp with hh | hh
    · rw [hh]
    · rw [hh]
      have := (encode_header h last [] hlast.1).2
      simp only [decide_eq_false_iff_not]
      omega
  have hsm : SmallOk cf (received es) := by
    intro fs r hd f hf _
    obtain ⟨rfl, rfl⟩ := hdec.det hd
    obtain ⟨m, hm, rfl⟩ := List.mem_map.mp hf
    exact (hms m hm).2.1
  have hver : ∀ m, Fits cf m → verdict cf h (h.bytes m, m) = Err.SUCCESS := by
    intro m hm
    unfold verdict
    rw [if_neg (by simp), if_neg]
    have := hm.2.2
    simp only; omega
  have hproc : ∀ l : List (List Byte), (∀ m ∈ l, Fits cf m) →
      process cf h hf0 bf0 (l.map fun m => (h.bytes m, m)) = (l.map fun m => ⟨Err.SUCCESS, m⟩, hf0, bf0, false) := by
    intro l hl
    induction l with
    | nil => rfl
    | cons m l ih =>
      have hm := hl m (List.mem_cons_self ..)
      simp only [List.map_cons, process, hver m hm]
      rw [if_neg (by simp [hm.2.1])]
      have n2 : ¬ Err.SUCCESS = Err.BAD_DATA := by decide
      have n3 : ¬ Err.SUCCESS = Err.INVALID_SIZE := by decide
      simp only [n2, n3, false_and, or_self, if_false]
      rw [ih fun m hm' => hl m (List.mem_cons_of_mem _ hm')]
  obtain ⟨st, cbs, hr, hfin⟩ := rrun_ok cf h hf0 bf0 es _ [] [] (Or.inl (opened_init cf h hf0 bf0 ag)) hleg hpat.1
    (Or.inr hpat.2) (by simpa using hnw) (by simpa using hsm)
  simp only [List.nil_append] at hfin
  rcases hfin with ho | hdr
  · obtain ⟨hcl, fs, r, hd, hpr, _, _⟩ := ho
    obtain ⟨rfl, rfl⟩ := hdec.det hd
    rw [hproc ms hms] at hpr
    simp only [Prod.mk.injEq] at hpr
    refine ⟨st, ?_, hcl, hpr.2.1.symm, hpr.2.2.1.symm⟩
    rw [hr, ← hpr.1]
  · obtain ⟨_, fs, r, more, left, hd, hfat, _⟩ := hdr
    obtain ⟨rfl, rfl⟩ := hdec.det hd
    exfalso
    rcases hfat with hf | hf
    · rw [hproc ms hms] at hf; cases hf
    · unfold tooLarge at hf
      rcases hhp with hh | hh
      · rw [hh] at hf; cases hf
      · rw [hh] at hf
        simp only [Bool.not_eq_true'] at hf
        rw [hlast.2.1] at hf; cases hf

/-- Beyond C20, for arbitrary bytes: on a receiver that holds small frames, the callbacks
and the fate of the connection are those the stream itself determines, whatever
the pieces it arrived in.  While the connection is open the callbacks are exactly
those of the frames received so far; it is closed exactly when the stream has
reached a fatal frame, and then the callbacks up to that frame have been made
(more may follow: frames read together with the fatal one). -/
theorem C20_any_bytes (cf : RConf) (h : Hash) (hf0 bf0 ag : Nat) (es : List REv) (fs : List Fr) (r : List Byte)
    (hcf : HoldsSmall cf) (hdec : Dec (received es) fs r) (hw : wraps r = false)
    (hleg : Legal cf h (rinit hf0 bf0 ag) es) (hpat : Patient cf ag es) :
    ∃ st cbs, rrun cf h (rinit hf0 bf0 ag) es = some (st, cbs) ∧
      (st.closed = true ↔ ((process cf h hf0 bf0 fs).2.2.2 = true ∨ tooLarge cf r = true)) ∧
      (st.closed = false → cbs = (process cf h hf0 bf0 fs).1) ∧
      (process cf h hf0 bf0 fs).1 <+: cbs := by
  obtain ⟨st, cbs, hr, hfin⟩ := rrun_ok cf h hf0 bf0 es _ [] [] (Or.inl (opened_init cf h hf0 bf0 ag)) hleg hpat.1
    (Or.inr hpat.2) (by intro fs' r' hd; obtain ⟨rfl, rfl⟩ := hdec.det (by simpa using hd); exact hw)
    (hcf.ok _)
  simp only [List.nil_append] at hfin
  refine ⟨st, cbs, hr, ?_⟩
  rcases hfin with ho | hdr
  · obtain ⟨hcl, fs', r', hd, hpr, hrest, _⟩ := ho
    obtain ⟨rfl, rfl⟩ := hdec.det hd
    rw [hpr]
    refine ⟨⟨fun hh => (by rw [hcl] at hh; cases hh), fun hh => ?_⟩, fun _ => rfl, List.prefix_rfl⟩
    exfalso
    rcases hh with hh | hh
    · cases hh
    · unfold tooLarge at hh
      rcases hrest with ⟨_, _, _, hn⟩ | ⟨_, v, l, hn, _, _, ha, _⟩
      · rw [hn] at hh; cases hh
      · rw [hn] at hh
        simp only [Bool.not_eq_true'] at hh
        rw [ha] at hh; cases hh
  · obtain ⟨hcl, fs', r', more, left, hd, hfat, he, _⟩ := hdr
    obtain ⟨rfl, rfl⟩ := hdec.det hd
    refine ⟨⟨fun _ => hfat, fun _ => hcl⟩, fun hh => (by rw [hcl] at hh; cases hh), ?_⟩
    rw [he]
    exact ⟨more ++ left, by simp [List.append_assoc]⟩

/-- Beyond C20, two ways to split the same bytes: same fate, and the same callbacks while the connection is open. -/
theorem C20_two_splits (cf : RConf) (h : Hash) (hf0 bf0 ag : Nat) (es es' : List REv)
    (hcf : HoldsSmall cf) (hsame : received es = received es')
    (hw : ∀ fs r, Dec (received es) fs r → wraps r = false)
    (hleg : Legal cf h (rinit hf0 bf0 ag) es) (hleg' : Legal cf h (rinit hf0 bf0 ag) es')
    (hpat : Patient cf ag es) (hpat' : Patient cf ag es') :
    ∃ st cbs st' cbs', rrun cf h (rinit hf0 bf0 ag) es = some (st, cbs) ∧ rrun cf h (rinit hf0 bf0 ag) es' = some (st', cbs') ∧
      st.closed = st'.closed ∧ (st.closed = false → cbs = cbs') := by
  obtain ⟨fs, r, hdec⟩ := Dec.total (received es)
  have hw0 := hw _ _ hdec
  obtain ⟨st, cbs, h1, h2, h3, _⟩ := C20_any_bytes cf h hf0 bf0 ag es fs r hcf hdec hw0 hleg hpat
  obtain ⟨st', cbs', h1', h2', h3', _⟩ := C20_any_bytes cf h hf0 bf0 ag es' fs r hcf (hsame ▸ hdec) hw0 hleg' hpat'
  have hc : st.closed = st'.closed := by
    have := h2.trans h2'.symm
    cases ha : st.closed <;> cases hb : st'.closed <;> simp_all
  exact ⟨st, cbs, st', cbs', h1, h1', hc, fun hh => by rw [h3 hh, h3' (hc ▸ hh)]⟩

/-- C22, except for lengths that overflow 64 bits: whatever bytes arrive, in whatever
pieces, mixed with errors, the receiver reads only bytes it has received, and
every read leaves room it really has. -/
theorem C22_hostile_stream_partial (cf : RConf) (h : Hash) (hf0 bf0 ag : Nat) (es : List REv)
    (hleg : Legal cf h (rinit hf0 bf0 ag) es)
    (hw : ∀ fs r, Dec (received es) fs r → wraps r = false) :
    ∃ st cbs, rrun cf h (rinit hf0 bf0 ag) es = some (st, cbs) ∧
      (st.closed = false → st.head.length ≤ headCap ∧ st.bufs.length ≤ 1 ∧
        (∀ b ∈ st.bufs, b.1.length < b.2 ∧ cf.accept b.2 = true ∧ st.offered = b.2 - b.1.length) ∧
        (st.bufs = [] → st.offered = headCap - st.head.length)) := by
  obtain ⟨st, cbs, hr, hi⟩ := rrun_safe cf h hf0 bf0 es _ [] [] (safe_init cf h hf0 bf0 ag) hleg (by simpa [NoWrap] using hw)
  refine ⟨st, cbs, hr, fun hcl => ?_⟩
  obtain ⟨fs, r, hd, _, ho⟩ := hi
  obtain ⟨hrest, _⟩ := ho hcl
  rcases hrest with ⟨hb, hh, hl, hn⟩ | ⟨hh, v, l, hn, hnw, hlt, ha, hb⟩
  · refine ⟨by rw [hh]; exact hl, by simp [hb], by simp [hb], fun _ => ?_⟩
    unfold RConn.offered; rw [hcl, hb]; simp
  · obtain ⟨g1, g2, g3, g4⟩ := header_some hn
    refine ⟨by simp [hh], by simp [hb], ?_, fun hx => by rw [hb] at hx; cases hx⟩
    intro b hbm
    rw [hb] at hbm
    simp only [List.mem_singleton] at hbm
    subst hbm
    have hlen : (r.take 4 ++ r.drop (4 + l)).length = r.length - l := by simp; omega
    refine ⟨by simp only [hlen]; omega, ha, ?_⟩
    unfold RConn.offered
    rw [hcl, hb]
    simp only [Bool.false_eq_true, if_false, List.getLast?_singleton]
    rw [if_neg (by rw [hlen]; omega)]

/-- Fourteen bytes whose length field says `2^64 - 14`: checksum, length field of ten bytes. -/
def overflowHeader : List Byte := [0, 0, 0, 0, 0x81, 0xff, 0xff, 0xff, 0xff, 0xff, 0xff, 0xff, 0xff, 0x72]

/-- C22 does not hold for every stream: a length field close to 2^64 makes the sum of checksum, length field and
payload wrap around, the frame counts as complete, and the receiver reads (and hands to the user) far more
than it has received. -/
theorem C22_overflow_false (h : Hash) :
    ∃ (cf : RConf) (es : List REv), HoldsSmall cf ∧ Legal cf h (rinit 0 0 0) es ∧ rrun cf h (rinit 0 0 0) es = none := by
  refine ⟨⟨fun n => decide (n ≤ 524288), 262144, 10, 10, 256⟩, [.data overflowHeader], ?_, ?_, ?_⟩
  · intro n hn
    simp only [headCap] at hn
    simp only [decide_eq_true_eq]; omega
  · refine ⟨Or.inr ⟨by simp [overflowHeader], by simp [RConn.offered, rinit, overflowHeader, headCap]⟩, fun _ _ => trivial⟩
  · have hv : Vint.readVint (overflowHeader.drop 4) = (2 ^ 64 - 14, 10) := by decide +kernel
    have hl : overflowHeader.length = 14 := rfl
    simp only [rrun, rstep, rinit, onData, RConn.headPhase, List.getLast?_nil, List.nil_append, headLoop, hv, hl]
    simp [overflowHeader, W64]

/-- C22: the exact extent of the failure.  A run reaches a read outside what was received exactly when, on a connection that is still open,
bytes arrive with which the stream contains a length that overflows 64 bits. -/
theorem C22_exact (cf : RConf) (h : Hash) (hf0 bf0 ag : Nat) (es : List REv) (hleg : Legal cf h (rinit hf0 bf0 ag) es) :
    rrun cf h (rinit hf0 bf0 ag) es = none ↔
      ∃ es1 c es2 st cbs, es = es1 ++ .data c :: es2 ∧ rrun cf h (rinit hf0 bf0 ag) es1 = some (st, cbs) ∧ st.closed = false ∧
        ∃ fs r, Dec (received es1 ++ c) fs r ∧ wraps r = true := by
  have := rrun_none cf h hf0 bf0 es _ [] [] (safe_init cf h hf0 bf0 ag) hleg
  rw [this]
  have hnw : ∀ s, ¬ NoWrap s ↔ ∃ fs r, Dec s fs r ∧ wraps r = true := by
    intro s
    constructor
    · intro hn
      obtain ⟨fs, r, hd⟩ := Dec.total s
      refine ⟨fs, r, hd, ?_⟩
      cases hw : wraps r with
      | true => rfl
      | false => exact absurd (fun fs' r' hd' => by obtain ⟨-, rfl⟩ := hd.det hd'; exact hw) hn
    · rintro ⟨fs, r, hd, hw⟩ hn
      rw [hn fs r hd] at hw; cases hw
  simp only [List.nil_append, hnw]

theorem verdict_good {cf : RConf} {h : Hash} {f : Fr} {fs : List Fr} {d : List Byte} (hf : f ∈ fs) (hdat : d = f.2)
    (hver : verdict cf h f = Err.SUCCESS) : (h.bytes d, d) ∈ fs ∧ (cf.limit = 0 ∨ d.length ≤ cf.limit) := by
  unfold verdict at hver
  by_cases h1 : h.bytes f.2 ≠ f.1
  · rw [if_pos h1] at hver; exact absurd hver (by decide)
  · rw [if_neg h1] at hver
    by_cases h2 : cf.limit > 0 ∧ f.2.length > cf.limit
    · rw [if_pos h2] at hver; exact absurd hver (by decide)
    · have he : h.bytes f.2 = f.1 := by simpa using h1
      rw [hdat, he]
      exact ⟨hf, by omega⟩

/-- A run that stays defined. -/
theorem goodRun (cf : RConf) (h : Hash) (hf0 bf0 ag : Nat) (es : List REv) (fs : List Fr) (r : List Byte)
    (hleg : Legal cf h (rinit hf0 bf0 ag) es) (hdec : Dec (received es) fs r) {st : RConn} {cbs : List Cb}
    (hr : rrun cf h (rinit hf0 bf0 ag) es = some (st, cbs)) :
    (∀ cb ∈ cbs, cb.code = Err.SUCCESS →
        (h.bytes cb.data, cb.data) ∈ fs ∧ (cf.limit = 0 ∨ cb.data.length ≤ cf.limit)) ∧
      (let bad := cbs.countP fun c => c.code == Err.BAD_DATA
       let big := cbs.countP fun c => c.code == Err.INVALID_SIZE
       (0 < bad ∧ hf0 + bad > cf.maxHash) ∨ (0 < big ∧ bf0 + big > cf.maxBlock) → st.closed = true) := by
  have hi := rrun_some cf h hf0 bf0 es _ [] [] (safe_init cf h hf0 bf0 ag) hleg hr
  simp only [List.nil_append] at hi
  obtain ⟨fs', r', hd, hm, ho⟩ := hi
  obtain ⟨rfl, rfl⟩ := hdec.det hd
  refine ⟨?_, ?_⟩
  · intro cb hcb hco
    obtain ⟨f, hf, hdat, hver⟩ := hm cb hcb hco
    exact verdict_good hf hdat hver
  · intro bad big hcond
    cases hcl : st.closed with
    | true => rfl
    | false =>
      obtain ⟨_, k1, k2, k3, k4⟩ := ho hcl
      have kb : st.hashFail = hf0 + bad := k1
      have kg : st.blockFail = bf0 + big := k2
      omega

/-- The loop makes callbacks for frames at the start of the bytes, nothing else. -/
theorem headCbs_frames (cf : RConf) (h : Hash) {b : List Byte} {fs : List Fr} {r : List Byte} (hd : Dec b fs r) :
    ∀ (fuel : Nat) (st : RConn), ∀ cb ∈ headCbs cf h fuel st b, ∃ f ∈ fs, cb = ⟨verdict cf h f, f.2⟩ := by
  induction hd with
  | @stop s hs =>
    intro fuel st cb hcb
    exfalso
    cases fuel with
    | zero => cases hcb
    | succ fuel =>
      unfold headCbs at hcb
      split at hcb
      · cases hcb
      · rename_i hlen
        cases hv : Vint.readVint (s.drop 4) with
        | mk v l =>
          rw [hv] at hcb
          dsimp only at hcb
          split at hcb
          · cases hcb
          · rename_i hl
            have hh : header s = some (v, l) := by
              unfold header; rw [if_neg hlen, hv, if_neg hl]
            split at hcb
            · cases hcb
            · split at hcb
              · rw [decode1_of hh (by omega) (by omega)] at hs; cases hs
              · cases hcb
  | @more s s' r f fs hs hd ih =>
    intro fuel st cb hcb
    cases fuel with
    | zero => cases hcb
    | succ fuel =>
      obtain ⟨v, l, hh, hle, hnw, hf', hs'⟩ := decode1_some hs
      obtain ⟨h1, h2, h3, h4⟩ := header_some hh
      have hnw' : ¬ (4 + l + v ≥ W64) := by omega
      have e1 : slice s 0 4 = some f.1 := by
        rw [slice_some _ _ _ (by omega), hf']; simp
      have e2 : slice s (4 + l) v = some f.2 := by
        rw [slice_some _ _ _ (by omega), hf']
      unfold headCbs at hcb
      rw [if_neg (by omega : ¬ s.length ≤ 4), h2] at hcb
      simp only [if_neg h3, if_neg hnw', if_pos (show s.length ≥ 4 + l + v from hle), e1, e2] at hcb
      rw [judge_eq] at hcb
      simp only [← hs'] at hcb
      rcases List.mem_cons.mp hcb with rfl | hcb
      · exact ⟨f, by simp, rfl⟩
      · obtain ⟨g, hg, he⟩ := ih fuel _ cb hcb
        exact ⟨g, List.mem_cons_of_mem _ hg, he⟩

/-- While the run is defined these are its callbacks. -/
theorem madeCbs_run (cf : RConf) (h : Hash) : ∀ (es1 es2 : List REv) (st : RConn) {st1 : RConn} {cbs : List Cb},
    rrun cf h st es1 = some (st1, cbs) → madeCbs cf h st (es1 ++ es2) = cbs ++ madeCbs cf h st1 es2 := by
  intro es1
  induction es1 with
  | nil => intro es2 st st1 cbs hr; cases hr; rfl
  | cons e es1 ih =>
    intro es2 st st1 cbs hr
    simp only [rrun, Option.bind_eq_bind] at hr
    cases hs : rstep cf h st e with
    | none => rw [hs] at hr; cases hr
    | some x =>
      rw [hs, Option.bind_some] at hr
      cases hr2 : rrun cf h x.1 es1 with
      | none => rw [hr2] at hr; cases hr
      | some y =>
        rw [hr2] at hr
        cases hr
        simp only [List.cons_append, madeCbs, stepCbs, hs, ih es2 x.1 hr2, List.append_assoc]

theorem received_append : ∀ a b : List REv, received (a ++ b) = received a ++ received b
  | [], _ => rfl
  | e :: a, b => by cases e <;> simp [received, received_append a b]

theorem legal_prefix {cf : RConf} {h : Hash} : ∀ (a b : List REv) (st : RConn), Legal cf h st (a ++ b) → Legal cf h st a
  | [], _, _, _ => trivial
  | _ :: a, b, _, hl => ⟨hl.1, fun r hr => legal_prefix a b r.1 (hl.2 r hr)⟩

/-- What was a frame of the bytes so far stays one. -/
theorem Dec.mem_append {a b : List Byte} {fs gs : List Fr} {r r' : List Byte} (h : Dec a fs r) (h2 : Dec (a ++ b) gs r') {f : Fr} (hf : f ∈ fs) :
    f ∈ gs := by
  obtain ⟨gs', r2, hg⟩ := Dec.total (r ++ b)
  obtain ⟨rfl, -⟩ := (h.append hg).det h2
  exact List.mem_append_left _ hf

theorem madeCbs_good (cf : RConf) (h : Hash) (hf0 bf0 : Nat) (es : List REv) : ∀ (st : RConn) (s : List Byte) (c0 : List Cb),
    SafeI cf h hf0 bf0 st s c0 → Legal cf h st es → ∀ cb ∈ madeCbs cf h st es, cb.code = Err.SUCCESS →
    ∀ {fs : List Fr} {r : List Byte}, Dec (s ++ received es) fs r → ∃ f ∈ fs, cb.data = f.2 ∧ verdict cf h f = Err.SUCCESS := by
  induction es with
  | nil => intro st s c0 _ _ cb hcb; cases hcb
  | cons e es ih =>
    intro st s c0 hi hl cb hcb hco fs r hdec
    rw [show e :: es = [e] ++ es from rfl, received_append, ← List.append_assoc] at hdec
    cases hs : rstep cf h st e with
    | some x =>
      simp only [madeCbs, stepCbs, hs] at hcb
      have h1 := rstep_some cf h hf0 bf0 st s c0 hi e hl.1 hs
      rcases List.mem_append.mp hcb with hcb | hcb
      · obtain ⟨gs, r1, hd1, hm, -⟩ := h1.good
        obtain ⟨f, hf, hh⟩ := hm cb (List.mem_append_right _ hcb) hco
        exact ⟨f, hd1.mem_append hdec hf, hh⟩
      · exact ih x.1 _ _ h1 (hl.2 _ hs) cb hcb hco hdec
    | none =>
      have hcl : st.closed = false := by
        cases hcl : st.closed with
        | false => rfl
        | true => simp [rstep, hcl] at hs
      cases e with
      | again => simp [rstep, hcl] at hs
      | fail => simp [rstep, hcl] at hs
      | data c =>
        simp only [madeCbs, stepCbs, hs, List.append_nil] at hcb
        obtain ⟨gs, r1, hd, -, hop⟩ := hi.good
        obtain ⟨hrest, -⟩ := hop hcl
        rcases hrest with ⟨hb, hhead, -⟩ | ⟨hhead, v, l, hh, hnw, hlt, ha, hb⟩
        · split at hcb
          · obtain ⟨gs2, r2, hg⟩ := Dec.total (r1 ++ c)
            rw [hhead] at hcb
            obtain ⟨f, hf, rfl⟩ := headCbs_frames cf h hg _ _ cb hcb
            refine ⟨f, ?_, rfl, hco⟩
            have hall := hd.append hg
            simp only [received, List.append_nil] at hdec
            exact hall.mem_append hdec (List.mem_append_right _ hf)
          · cases hcb
        · have hph : st.headPhase = false := by
            obtain ⟨g1, g2, g3, g4⟩ := header_some hh
            unfold RConn.headPhase; rw [hb]; simp; omega
          rw [hph] at hcb
          cases hcb

/-- C23: whatever arrives in whatever pieces, even if the run later becomes undefined (`C22_exact` says when), every callback made up to
then reports success only for the payload of a frame of the stream whose checksum is right and whose length is within the limit; and
whenever, after a read, one more bad checksum (or one more oversized message) than the configured maximum has been counted the
connection is closed.  (`hf0`, `bf0`: failures counted by the channel before this connection.) -/
theorem C23_only_good_frames (cf : RConf) (h : Hash) (hf0 bf0 ag : Nat) (es : List REv) (fs : List Fr) (r : List Byte)
    (hleg : Legal cf h (rinit hf0 bf0 ag) es) (hdec : Dec (received es) fs r) :
    (∀ cb ∈ madeCbs cf h (rinit hf0 bf0 ag) es, cb.code = Err.SUCCESS →
        (h.bytes cb.data, cb.data) ∈ fs ∧ (cf.limit = 0 ∨ cb.data.length ≤ cf.limit)) ∧
      ∀ es1 es2 st cbs, es = es1 ++ es2 → rrun cf h (rinit hf0 bf0 ag) es1 = some (st, cbs) →
        cbs <+: madeCbs cf h (rinit hf0 bf0 ag) es ∧
        let bad := cbs.countP fun c => c.code == Err.BAD_DATA
        let big := cbs.countP fun c => c.code == Err.INVALID_SIZE
        (0 < bad ∧ hf0 + bad > cf.maxHash) ∨ (0 < big ∧ bf0 + big > cf.maxBlock) → st.closed = true := by
  refine ⟨?_, ?_⟩
  · intro cb hcb hco
    obtain ⟨f, hf, hdat, hver⟩ := madeCbs_good cf h hf0 bf0 es _ [] [] (safe_init cf h hf0 bf0 ag) hleg cb hcb hco hdec
    exact verdict_good hf hdat hver
  · intro es1 es2 st cbs he hr1
    subst he
    obtain ⟨fs1, r1, hd1⟩ := Dec.total (received es1)
    refine ⟨⟨_, (madeCbs_run cf h es1 es2 _ hr1).symm⟩, (goodRun cf h hf0 bf0 ag es1 fs1 r1 (legal_prefix es1 es2 _ hleg) hd1 hr1).2⟩

/-- A good frame followed by the header of `C22_overflow_false`: the good one is reported, then the run becomes undefined. -/
example : madeCbs ⟨fun n => decide (n ≤ 524288), 262144, 10, 10, 256⟩ (fun _ => (1, 2, 3, 4)) (rinit 0 0 0)
      [.data ([1, 2, 3, 4, 1, 7] ++ overflowHeader), .again] = [⟨Err.SUCCESS, [7]⟩] ∧
    (rrun ⟨fun n => decide (n ≤ 524288), 262144, 10, 10, 256⟩ (fun _ => (1, 2, 3, 4)) (rinit 0 0 0)
      [.data ([1, 2, 3, 4, 1, 7] ++ overflowHeader), .again]).isNone = true := by
  decide +kernel

/-! ### Sending -/

/-- Messages whose send returned success. -/
def acceptedBySend (rs : List (List Byte × Int)) : List (List Byte) :=
  (rs.filter fun r => decide (r.2 = Err.SUCCESS ∧ r.1 ≠ [])).map Prod.fst

/-- Every `uv_write` of the run is accepted by the event loop. -/
def WritesStart (es : List SEv) : Prop := ∀ e ∈ es, e.uvOk = true

theorem queued_accepted (rs : List (List Byte × Int)) (h : ∀ r ∈ rs, r.2 ≠ Err.WRITE_FAILED) : queued rs = acceptedBySend rs := by
  unfold queued acceptedBySend
  congr 1
  apply List.filter_congr
  intro r hr
  have := h r hr
  simp [this]

/-- C24, if `uv_write` never refuses a request: at every point of every run the write
callbacks made so far, followed by the messages still waiting, are exactly the
accepted messages in order; and as soon as no write is in flight nothing is
waiting, so every accepted message has had its one callback. -/
theorem C24_one_completion_partial (limit : Nat) (h : Hash) (es : List SEv) (hleg : SLegal limit h sinit es) (huv : WritesStart es) :
    ∃ c rs cbs waiting, srun limit h sinit es = some (c, rs, cbs) ∧
      cbs.map Cb.data ++ waiting = acceptedBySend rs ∧ (c.writing = false → waiting = []) ∧
      (∀ cb ∈ cbs, cb.code = Err.SUCCESS ∨ (cb.code = Err.CLOSING ∧ c.connected = false)) := by
  obtain ⟨c, rs, cbs, blocks, hr, hi, hu⟩ := srun_ok limit h es sinit [] [] [] (sinit_ok h) hleg
  obtain ⟨hu1, hu2⟩ := hu huv
  simp only [List.nil_append] at hi
  refine ⟨c, rs, cbs, blocks.flatten, hr, ?_, ?_, hi.code⟩
  · rw [← queued_accepted rs hu1]; exact hi.all
  · intro hw
    have := hu2 (fun _ => rfl) hw
    rw [this]; rfl

/-- C24, whatever `uv_write` answers: no message is reported twice or out of order, none that was not sent. -/
theorem C24_no_duplicate (limit : Nat) (h : Hash) (es : List SEv) (hleg : SLegal limit h sinit es) :
    ∃ c rs cbs waiting, srun limit h sinit es = some (c, rs, cbs) ∧ cbs.map Cb.data ++ waiting = queued rs := by
  obtain ⟨c, rs, cbs, blocks, hr, hi, _⟩ := srun_ok limit h es sinit [] [] [] (sinit_ok h) hleg
  simp only [List.nil_append] at hi
  exact ⟨c, rs, cbs, blocks.flatten, hr, hi.all⟩

/-- C24 fails when `uv_write` refuses a request.  First, a message accepted with success while
another one was being written is left in the queue, and closing the connection drops it without
any callback.  Second, a message whose send returned an error is written by the next send. -/
theorem C24_write_refused_false (h : Hash) :
    (∃ es c rs cbs, SLegal 0 h sinit es ∧ srun 0 h sinit es = some (c, rs, cbs) ∧
      c.closing = true ∧ c.writing = false ∧ ([2], Err.SUCCESS) ∈ rs ∧ ∀ cb ∈ cbs, cb.data ≠ [2]) ∧
    (∃ es c rs cbs, SLegal 0 h sinit es ∧ srun 0 h sinit es = some (c, rs, cbs) ∧
      ([1], Err.WRITE_FAILED) ∈ rs ∧ (⟨Err.SUCCESS, [1]⟩ : Cb) ∈ cbs) := by
  have hv : Vint.writeVint 1 16 = (1, [1]) := by decide +kernel
  have e1 : encode h [1] = [(h [1]).1, (h [1]).2.1, (h [1]).2.2.1, (h [1]).2.2.2, 1, 1] := by simp [encode, Hash.bytes, hv]
  have e2 : encode h [2] = [(h [2]).1, (h [2]).2.1, (h [2]).2.2.1, (h [2]).2.2.2, 1, 2] := by simp [encode, Hash.bytes, hv]
  have r1 : ∀ a b c d : Byte, report Err.SUCCESS 7 [a, b, c, d, 1, 1] = some [⟨Err.SUCCESS, [1]⟩] := fun _ _ _ _ => rfl
  constructor
  · refine ⟨[.send [1] ⟨none, 1, true⟩, .send [2] ⟨none, 1, true⟩, .written ⟨none, 1, false⟩, .disconnect false],
      ⟨[encode h [2]], false, true, false, encode h [1]⟩, [([1], Err.SUCCESS), ([2], Err.SUCCESS)], [⟨Err.SUCCESS, [1]⟩], ?_, ?_, rfl, rfl, ?_, ?_⟩
    · refine ⟨⟨by decide, fun _ hh => by cases hh⟩, fun r hr => ?_⟩
      simp [sstep, send, tryWrite, sinit, mergeFront, e1] at hr
      subst hr
      refine ⟨⟨by decide, fun _ hh => by cases hh⟩, fun r hr => ?_⟩
      simp [sstep, send, tryWrite] at hr
      subst hr
      exact ⟨rfl, fun r hr => ⟨trivial, fun _ _ => trivial⟩⟩
    · simp [srun, sstep, send, tryWrite, sinit, mergeFront, written, disconnect, disconnectRun, e1, e2, r1]
    · decide +kernel
    · decide +kernel
  · refine ⟨[.send [1] ⟨none, 1, false⟩, .send [2] ⟨none, 1, true⟩, .written ⟨none, 1, true⟩],
      ⟨[encode h [2]], true, false, true, encode h [1] ++ encode h [2]⟩, [([1], Err.WRITE_FAILED), ([2], Err.SUCCESS)], [⟨Err.SUCCESS, [1]⟩], ?_, ?_, ?_, ?_⟩
    · refine ⟨⟨by decide, fun _ hh => by cases hh⟩, fun r hr => ?_⟩
      simp [sstep, send, tryWrite, sinit, mergeFront, e1] at hr
      subst hr
      refine ⟨⟨by decide, fun _ hh => by cases hh⟩, fun r hr => ?_⟩
      simp [sstep, send, tryWrite, mergeFront, e2] at hr
      subst hr
      exact ⟨rfl, fun _ _ => trivial⟩
    · simp [srun, sstep, send, tryWrite, sinit, mergeFront, written, e1, e2, r1]
    · decide +kernel
    · decide +kernel

/-- A receiver that has got some first part of the frames of `sent`, in any pieces. -/
theorem recv_prefix (cf : RConf) (h : Hash) (hf0 bf0 ag : Nat) (sent : List (List Byte)) (res : List REv)
    (hsent : ∀ m ∈ sent, Fits cf m) (hrec : received res <+: frames h sent)
    (hrleg : Legal cf h (rinit hf0 bf0 ag) res) (hpat : Patient cf ag res) :
    ∃ st ms, rrun cf h (rinit hf0 bf0 ag) res = some (st, ms.map fun m => ⟨Err.SUCCESS, m⟩) ∧
      st.closed = false ∧ ms <+: sent ∧ (received res = frames h sent → ms = sent) := by
  -- split what was received into whole frames and a rest
  have hsplit : ∀ (l : List (List Byte)) (x : List Byte), x <+: frames h l →
      ∃ ms p, ms <+: l ∧ x = frames h ms ++ p ∧ (p = [] ∨ ∃ last ∈ l, p <+: encode h last ∧ p ≠ encode h last) ∧
        (x = frames h l → ms = l ∧ p = []) := by
    intro l
    induction l with
    | nil =>
      intro x hx
      have : x = [] := by simpa [frames] using hx
      exact ⟨[], [], List.prefix_rfl, by simp [this, frames], Or.inl rfl, fun _ => ⟨rfl, rfl⟩⟩
    | cons m l ih =>
      intro x hx
      have hfr : frames h (m :: l) = encode h m ++ frames h l := by simp [frames]
      rw [hfr] at hx
      by_cases hle : (encode h m).length ≤ x.length
      · obtain ⟨t, ht⟩ := hx
        have hx' : x = encode h m ++ x.drop (encode h m).length := by
          have e1 : encode h m = x.take (encode h m).length := by
            have := congrArg (List.take (encode h m).length) ht
            rw [List.take_left, List.take_append_of_le_length hle] at this
            exact this.symm
          have := (List.take_append_drop (encode h m).length x).symm
          rw [← e1] at this
          exact this
        generalize x.drop (encode h m).length = y at hx'
        subst hx'
        rw [List.append_assoc] at ht
        have ht' := List.append_cancel_left ht
        obtain ⟨ms, p, q1, q2, q3, q4⟩ := ih y ⟨t, ht'⟩
        refine ⟨m :: ms, p, ?_, ?_, ?_, ?_⟩
        · exact List.cons_prefix_cons.mpr ⟨rfl, q1⟩
        · simp [frames, q2]
        · rcases q3 with q3 | ⟨last, ql, q3⟩
          · exact Or.inl q3
          · exact Or.inr ⟨last, List.mem_cons_of_mem _ ql, q3⟩
        · intro hxe
          rw [hfr] at hxe
          obtain ⟨q5, q6⟩ := q4 (List.append_cancel_left hxe)
          exact ⟨by rw [q5], q6⟩
      · have hpre : x <+: encode h m := by
          obtain ⟨t, ht⟩ := hx
          have := congrArg (List.take x.length) ht
          rw [List.take_left, List.take_append_of_le_length (by omega)] at this
          rw [this]
          exact List.take_prefix _ _
        have hne : x ≠ encode h m := by intro he; rw [he] at hle; omega
        refine ⟨[], x, List.nil_prefix, by simp [frames], Or.inr ⟨m, List.mem_cons_self .., hpre, hne⟩, fun hxe => ?_⟩
        rw [hxe, hfr, List.length_append] at hle
        omega
  obtain ⟨ms, p, q1, q2, q3, q4⟩ := hsplit sent _ hrec
  have hmsfit : ∀ m ∈ ms, Fits cf m := fun m hm => hsent m (q1.subset hm)
  have hmain : ∃ st, rrun cf h (rinit hf0 bf0 ag) res = some (st, ms.map fun m => ⟨Err.SUCCESS, m⟩) ∧ st.closed = false := by
    rcases q3 with rfl | ⟨last, hl, hpre, hne⟩
    · cases hms : ms with
      | nil =>
        subst hms
        -- nothing received: use any frame as the one to come
        cases hs : sent with
        | nil =>
          have hnil : received res = [] := by rw [q2]; simp [frames]
          have hd0 : Dec (received res) [] [] := by rw [hnil]; exact .stop (by simp [decode1, header])
          obtain ⟨st, cbs1, hr1, hfin⟩ := rrun_ok cf h hf0 bf0 res _ [] [] (Or.inl (opened_init cf h hf0 bf0 ag)) hrleg hpat.1
            (Or.inr hpat.2)
            (by intro fs' r' hd; obtain ⟨rfl, rfl⟩ := hd0.det (by simpa using hd); simp [wraps, header])
            (by intro fs' r' hd f hf; obtain ⟨rfl, rfl⟩ := hd0.det (by simpa using hd); cases hf)
          simp only [List.nil_append] at hfin
          rcases hfin with ho | hdr
          · obtain ⟨hcl, fs, r, hd, hpr, _, _⟩ := ho
            obtain ⟨rfl, rfl⟩ := hd0.det hd
            simp only [process, Prod.mk.injEq] at hpr
            exact ⟨st, by rw [hr1, ← hpr.1]; rfl, hcl⟩
          · obtain ⟨_, fs, r, more, left, hd, hfat, _⟩ := hdr
            obtain ⟨rfl, rfl⟩ := hd0.det hd
            exfalso
            rcases hfat with hf | hf
            · cases hf
            · simp [tooLarge, header] at hf
        | cons m0 _ =>
          have hm0 : m0 ∈ sent := by rw [hs]; exact List.mem_cons_self ..
          obtain ⟨st, e1, e2, _⟩ := C20_chunks cf h hf0 bf0 ag res [] m0 [] (by simp) (hsent m0 hm0) List.nil_prefix
            (by intro he; have := congrArg List.length he; rw [encode_length] at this; simp at this; omega) (by simpa [frames] using q2) hrleg hpat
          exact ⟨st, e1, e2⟩
      | cons m0 _ =>
        have hm0 : m0 ∈ ms := by rw [hms]; exact List.mem_cons_self ..
        rw [← hms]
        obtain ⟨st, e1, e2, _⟩ := C20_chunks cf h hf0 bf0 ag res ms m0 [] hmsfit (hmsfit m0 hm0) List.nil_prefix
          (by intro he; have := congrArg List.length he; rw [encode_length] at this; simp at this; omega) (by simpa [frames] using q2) hrleg hpat
        exact ⟨st, e1, e2⟩
    · obtain ⟨st, e1, e2, _⟩ := C20_chunks cf h hf0 bf0 ag res ms last p hmsfit (hsent last hl) hpre hne q2 hrleg hpat
      exact ⟨st, e1, e2⟩
  obtain ⟨st, e1, e2⟩ := hmain
  exact ⟨st, ms, e1, e2, q1, fun hall => (q4 hall).1⟩

/-- C21, whatever `uv_write` answers: the receiver gets, in order and unchanged, first messages of those that were queued; these are the
accepted ones and those whose send reported that the write failed. -/
theorem C21_any_write (limit : Nat) (cf : RConf) (h : Hash) (hf0 bf0 ag : Nat) (ses : List SEv) (res : List REv)
    (c : SConn) (rs : List (List Byte × Int)) (cbs : List Cb)
    (hsleg : SLegal limit h sinit ses) (hsrun : srun limit h sinit ses = some (c, rs, cbs))
    (hfit : ∀ m ∈ queued rs, Fits cf m)
    (hrec : received res <+: c.wire)
    (hrleg : Legal cf h (rinit hf0 bf0 ag) res) (hpat : Patient cf ag res) :
    ∃ st ms, rrun cf h (rinit hf0 bf0 ag) res = some (st, ms.map fun m => ⟨Err.SUCCESS, m⟩) ∧
      st.closed = false ∧ ms <+: queued rs := by
  obtain ⟨c', rs', cbs', blocks, hr, hi, -⟩ := srun_ok limit h ses sinit [] [] [] (sinit_ok h) hsleg
  rw [hsrun] at hr
  cases hr
  simp only [List.nil_append] at hi
  obtain ⟨sent, dropped, hw1, hw2, -⟩ := hi.wire
  have hpre : sent <+: queued rs := by
    rw [← hw2]
    exact ⟨_, (List.append_assoc ..).symm⟩
  rw [hw1] at hrec
  obtain ⟨st, ms, e1, e2, e3, -⟩ := recv_prefix cf h hf0 bf0 ag sent res (fun m hm => hfit m (hpre.subset hm)) hrec hrleg hpat
  exact ⟨st, ms, e1, e2, e3.trans hpre⟩

/-- C21, if `uv_write` never refuses a request: any run of the sending side, and any run of the receiving
side that has received some first part of what was written, in any pieces: the receiver's callbacks are
exactly the first messages accepted by the sender, in order, all successful; they are all accepted
messages once everything was written and received. -/
theorem C21_end_to_end_partial (limit : Nat) (cf : RConf) (h : Hash) (hf0 bf0 ag : Nat) (ses : List SEv) (res : List REv)
    (c : SConn) (rs : List (List Byte × Int)) (cbs : List Cb)
    (hsleg : SLegal limit h sinit ses) (huv : WritesStart ses) (hsrun : srun limit h sinit ses = some (c, rs, cbs))
    (hfit : ∀ m ∈ acceptedBySend rs, Fits cf m)
    (hrec : received res <+: c.wire)
    (hrleg : Legal cf h (rinit hf0 bf0 ag) res) (hpat : Patient cf ag res) :
    ∃ st ms, rrun cf h (rinit hf0 bf0 ag) res = some (st, ms.map fun m => ⟨Err.SUCCESS, m⟩) ∧
      st.closed = false ∧ ms <+: acceptedBySend rs ∧
      (received res = c.wire → c.connected = true → c.writing = false → ms = acceptedBySend rs) := by
  obtain ⟨c', rs', cbs', blocks, hr, hi, hu⟩ := srun_ok limit h ses sinit [] [] [] (sinit_ok h) hsleg
  rw [hsrun] at hr
  cases hr
  obtain ⟨hu1, hu2⟩ := hu huv
  simp only [List.nil_append] at hi
  rw [queued_accepted rs hu1] at hi
  obtain ⟨sent, dropped, hw1, hw2, hw3⟩ := hi.wire
  rw [hw1] at hrec
  have hsentpre : sent <+: acceptedBySend rs := by
    rw [← hw2]
    exact ⟨_, (List.append_assoc ..).symm⟩
  have hsent : ∀ m ∈ sent, Fits cf m := fun m hm => hfit m (hsentpre.subset hm)
  obtain ⟨st, ms, e1, e2, q1, q4⟩ := recv_prefix cf h hf0 bf0 ag sent res hsent hrec hrleg hpat
  refine ⟨st, ms, e1, e2, q1.trans hsentpre, ?_⟩
  intro hall hcon hwr
  rw [hw1] at hall
  have q5 := q4 hall
  have hb := hu2 (fun _ => rfl) hwr
  rw [hb] at hw2
  have hdr : dropped = [] := by
    cases hd : dropped with
    | nil => rfl
    | cons a l => have := (hw3 (by simp [hd])).1; rw [hcon] at this; cases this
  rw [q5, ← hw2, hdr]
  simp

/-- A checksum for the examples: length and first byte. -/
def exHash : Hash := fun p => (⟨p.length % 256, Nat.mod_lt _ (by decide)⟩, p.headD 0, 5, 5)

def exConf : RConf := ⟨fun n => decide (n ≤ 524288), 262144, 0, 10, 256⟩

/-- C21 is false when `uv_write` refuses a request: the receiver gets a message whose send reported an error, and not as one of those that
were accepted. -/
theorem C21_refused_false :
    ∃ (ses : List SEv) (res : List REv) (c : SConn) (rs : List (List Byte × Int)) (cbs : List Cb),
      SLegal 0 exHash sinit ses ∧ srun 0 exHash sinit ses = some (c, rs, cbs) ∧ received res = c.wire ∧
      Legal exConf exHash (rinit 0 0 0) res ∧ Patient exConf 0 res ∧
      ([1], Err.WRITE_FAILED) ∈ rs ∧ acceptedBySend rs = [[2]] ∧
      (rrun exConf exHash (rinit 0 0 0) res).map Prod.snd = some [⟨Err.SUCCESS, [1]⟩, ⟨Err.SUCCESS, [2]⟩] := by
  refine ⟨[.send [1] ⟨none, 1, false⟩, .send [2] ⟨none, 1, true⟩, .written ⟨none, 1, true⟩],
    [.data [1, 1, 5, 5, 1, 1, 1, 2, 5, 5, 1, 2]],
    ⟨[[1, 2, 5, 5, 1, 2]], true, false, true, [1, 1, 5, 5, 1, 1, 1, 2, 5, 5, 1, 2]⟩,
    [([1], Err.WRITE_FAILED), ([2], Err.SUCCESS)], [⟨Err.SUCCESS, [1]⟩], ?_, by decide +kernel, rfl, ?_, ⟨by decide, by decide⟩, by decide,
    by decide +kernel, by decide +kernel⟩
  · refine ⟨⟨by decide, fun _ hh => by cases hh⟩, fun r hr => ?_⟩
    cases hr
    refine ⟨⟨by decide, fun _ hh => by cases hh⟩, fun r hr => ?_⟩
    cases hr
    exact ⟨rfl, fun r hr => trivial⟩
  · exact ⟨Or.inr ⟨by simp, by decide +kernel⟩, fun r hr => trivial⟩

/-! ### Concrete cases -/

/-- Two messages and a bit of a third, in reads that split the frames. -/
def exReads : List REv := [.data [2, 7, 5, 5, 2, 7], .again, .data [8], .data [1, 9], .data [5, 5, 1, 9, 3]]

theorem exReads_legal : Legal exConf exHash (rinit 0 0 0) exReads := by
  refine ⟨Or.inr ⟨by simp, by decide +kernel⟩, fun r hr => ?_⟩
  cases hr
  refine ⟨trivial, fun r hr => ?_⟩
  cases hr
  refine ⟨Or.inr ⟨by simp, by decide +kernel⟩, fun r hr => ?_⟩
  cases hr
  refine ⟨Or.inr ⟨by simp, by decide +kernel⟩, fun r hr => ?_⟩
  cases hr
  exact ⟨Or.inr ⟨by simp, by decide +kernel⟩, fun r hr => trivial⟩

/-- C20: all hypotheses are met and the run delivers both messages. -/
example : Legal exConf exHash (rinit 0 0 0) exReads ∧ Patient exConf 0 exReads ∧
    received exReads = ([[7, 8], [9]].map (encode exHash)).flatten ++ [3] ∧ [3] <+: encode exHash [1, 2, 3] ∧
    (rrun exConf exHash (rinit 0 0 0) exReads).map Prod.snd = some [⟨Err.SUCCESS, [7, 8]⟩, ⟨Err.SUCCESS, [9]⟩] := by
  refine ⟨exReads_legal, ⟨by decide, by decide⟩, by decide +kernel, by decide +kernel, by decide +kernel⟩

/-- C20 for arbitrary bytes, C23: a frame with a wrong checksum and then a good one, read together:
the connection is closed after the bad one, yet the good one is still reported (the part of the
callbacks the stream does not determine). -/
example : (rrun exConf exHash (rinit 0 0 0) [.data [9, 9, 9, 9, 1, 7, 1, 9, 5, 5, 1, 9]]).map (fun r => (r.1.closed, r.2)) =
      some (true, [⟨Err.BAD_DATA, [7]⟩, ⟨Err.SUCCESS, [9]⟩]) ∧
    (rrun exConf exHash (rinit 0 0 0) [.data [9, 9, 9, 9, 1, 7], .data [1, 9, 5, 5, 1, 9]]).map (fun r => (r.1.closed, r.2)) =
      some (true, [⟨Err.BAD_DATA, [7]⟩]) := by decide +kernel

/-- C22: a frame too large for the head buffer goes through a block of its own. -/
example : ((rrun exConf exHash (rinit 0 0 0) [.data [0, 0, 0, 0, 0xa0, 0x00, 1, 2, 3]]).map fun r =>
    (r.1.head.length, r.1.bufs, r.1.offered)) = some (0, [([0, 0, 0, 0, 1, 2, 3], 4100)], 4093) := by decide +kernel

/-- C22: the bytes before the overflowing length are handled, the read with the last byte of the length is the undefined one. -/
example :
    let es1 : List REv := [.data [1, 9, 5, 5, 1, 9], .data [0, 0, 0, 0, 129, 255, 255, 255, 255, 255, 255, 255, 255]]
    (rrun exConf exHash (rinit 0 0 0) es1).map (fun r => (r.1.closed, r.2)) = some (false, [⟨Err.SUCCESS, [9]⟩]) ∧
    rrun exConf exHash (rinit 0 0 0) (es1 ++ [.data [127]]) = none := by decide +kernel

/-- C21, C24: two messages are sent while the first one is being written, then written merged, and
the connection is closed with a fourth one queued behind a write that is cancelled. -/
def exSends : List SEv :=
  [.send [7, 8] ⟨none, 1, true⟩, .send [9] ⟨none, 1, true⟩, .send [1, 2, 3] ⟨none, 1, true⟩, .written ⟨none, 2, true⟩,
   .send [4] ⟨none, 1, true⟩, .disconnect true, .written ⟨none, 1, true⟩]

example : (srun 0 exHash sinit exSends).map (fun r => (r.1.wire, r.2.2)) =
    some (([[7, 8], [9], [1, 2, 3]].map (encode exHash)).flatten,
      [⟨Err.SUCCESS, [7, 8]⟩, ⟨Err.SUCCESS, [9]⟩, ⟨Err.SUCCESS, [1, 2, 3]⟩, ⟨Err.CLOSING, [4]⟩]) := by decide +kernel

end Verif.IoStream
