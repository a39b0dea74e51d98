import Verif.IoStream.Send
import Verif.IoStream.RecvRun
import Verif.Vint.Props

/-! The sending half keeps whole frames in order. -/
namespace Verif.IoStream
set_option maxRecDepth 10000
open Vint

/-- The bytes of a sequence of messages. -/
def frames (h : Hash) (ms : List (List Byte)) : List Byte := (ms.map (encode h)).flatten

theorem frames_append (h : Hash) (a b : List (List Byte)) : frames h (a ++ b) = frames h a ++ frames h b := by
  simp [frames]

theorem vint_enc (n : Nat) (hn : n < W64) (t : List Byte) :
    readVint ((writeVint n 16).2 ++ t) = (n, (writeVint n 16).2.length) ∧ (writeVint n 16).2 ≠ [] ∧
      (writeVint n 16).2.length ≤ 16 := by
  have hok := C01_vint_ten_bytes_suffice n 16 hn (by decide)
  obtain ⟨h1, h2⟩ := C01_vint_round_trip n 16 hn t hok
  refine ⟨by rw [h1, h2], ?_, (C02_vint_write_bounds n 16).1⟩
  intro he
  rw [he] at h2
  exact hok h2.symm

theorem bytes_length (h : Hash) (m : List Byte) : (h.bytes m).length = 4 := rfl

theorem encode_header (h : Hash) (m t : List Byte) (hm : m.length < 2 ^ 63) :
    header (encode h m ++ t) = some (m.length, (writeVint m.length 16).2.length) ∧
    4 + (writeVint m.length 16).2.length + m.length < W64 := by
  have hW : m.length < W64 := by simp only [W64]; omega
  obtain ⟨v1, v2, v3⟩ := vint_enc m.length hW (m ++ t)
  have hl : 0 < (writeVint m.length 16).2.length := List.length_pos_iff.mpr v2
  have hdrop : (encode h m ++ t).drop 4 = (writeVint m.length 16).2 ++ (m ++ t) := by
    unfold encode
    rw [List.append_assoc, List.append_assoc, List.drop_append_of_le_length (by simp [bytes_length]),
      List.drop_of_length_le (by simp [bytes_length]), List.nil_append]
  constructor
  · unfold header
    rw [hdrop, v1, if_neg, if_neg]
    · simp only; omega
    · unfold encode
      simp only [List.length_append, bytes_length]
      omega
  · simp only [W64] at *; omega

theorem encode_length (h : Hash) (m : List Byte) :
    (encode h m).length = 4 + (writeVint m.length 16).2.length + m.length := by
  unfold encode; simp only [List.length_append, bytes_length]

theorem encode_decode (h : Hash) (m t : List Byte) (hm : m.length < 2 ^ 63) :
    decode1 (encode h m ++ t) = some ((h.bytes m, m), t) := by
  obtain ⟨h1, h2⟩ := encode_header h m t hm
  have hl := encode_length h m
  rw [decode1_of h1 (by simp only [List.length_append]; omega) h2]
  have e1 : (encode h m ++ t).take 4 = h.bytes m := by
    unfold encode
    rw [List.append_assoc, List.append_assoc, List.take_append_of_le_length (by simp [bytes_length]),
      List.take_of_length_le (by simp [bytes_length])]
  have e2 : ((encode h m ++ t).drop (4 + (writeVint m.length 16).2.length)).take m.length = m := by
    unfold encode
    have : (4 + (writeVint m.length 16).2.length) = (h.bytes m ++ (writeVint m.length 16).2).length := by
      simp only [List.length_append, bytes_length]
    rw [this, List.append_assoc (h.bytes m ++ _), List.drop_left, List.take_left]
  have e3 : (encode h m ++ t).drop (4 + (writeVint m.length 16).2.length + m.length) = t := by
    rw [← hl, List.drop_left]
  rw [e1, e2, e3]

theorem dec_frames (h : Hash) (ms : List (List Byte)) (p : List Byte) (hp : decode1 p = none) (hm : ∀ m ∈ ms, m.length < 2 ^ 63) :
    Dec (frames h ms ++ p) (ms.map fun m => (h.bytes m, m)) p := by
  induction ms with
  | nil => simpa [frames] using Dec.stop hp
  | cons m ms ih =>
    have hd := encode_decode h m (frames h ms ++ p) (hm m (List.mem_cons_self ..))
    have : frames h (m :: ms) ++ p = encode h m ++ (frames h ms ++ p) := by simp [frames]
    rw [this]
    exact .more hd (ih fun m hm' => hm m (List.mem_cons_of_mem _ hm'))

theorem report_frames (h : Hash) (code : Int) (ms : List (List Byte)) (hm : ∀ m ∈ ms, m.length < 2 ^ 63) :
    ∀ fuel, (frames h ms).length < fuel → report code fuel (frames h ms) = some (ms.map fun m => ⟨code, m⟩) := by
  induction ms with
  | nil =>
    intro fuel hf
    cases fuel with
    | zero => omega
    | succ n => simp [report, frames]
  | cons m ms ih =>
    intro fuel hf
    cases fuel with
    | zero => omega
    | succ n =>
      have hfr : frames h (m :: ms) = encode h m ++ frames h ms := by simp [frames]
      rw [hfr] at hf ⊢
      have hm0 := hm m (List.mem_cons_self ..)
      obtain ⟨h1, h2⟩ := encode_header h m (frames h ms) hm0
      have hd := encode_decode h m (frames h ms) hm0
      obtain ⟨v, l, hh, hle, hnw, hf', hs'⟩ := decode1_some hd
      rw [h1] at hh
      cases hh
      obtain ⟨g1, g2, g3, g4⟩ := header_some h1
      have hel := encode_length h m
      simp only [List.length_append] at hf
      unfold report
      rw [if_neg (by simp only [List.length_append]; omega), if_neg (by omega), g2]
      simp only
      rw [if_neg (by omega), slice_some _ _ _ hle, ← hs', ih (fun m hm' => hm m (List.mem_cons_of_mem _ hm')) n (by omega)]
      have : List.take m.length ((encode h m ++ frames h ms).drop (4 + (writeVint m.length 16).2.length)) = m := by
        have := congrArg Prod.snd hf'
        simpa using this.symm
      rw [this]
      simp

/-- Blocks of whole frames: the messages of each block. -/
structure SI (h : Hash) (c : SConn) (blocks : List (List (List Byte))) (pushed : List (List Byte)) (cbs : List Cb) : Prop where
  q : c.q = blocks.map (frames h)
  ne : ∀ b ∈ blocks, b ≠ []
  small : ∀ m ∈ pushed, m.length < 2 ^ 63 ∧ m ≠ []
  all : cbs.map Cb.data ++ blocks.flatten = pushed
  wr : c.writing = true → blocks ≠ []
  cl : c.closing = true → c.connected = false
  wire : ∃ sent dropped, c.wire = frames h sent ∧
    sent ++ (if c.writing then blocks.tail else blocks).flatten ++ dropped = pushed ∧
    (dropped ≠ [] → c.connected = false ∧ c.closing = true)
  code : ∀ cb ∈ cbs, cb.code = Err.SUCCESS ∨ (cb.code = Err.CLOSING ∧ c.connected = false)

theorem cancelAll_frames (h : Hash) (blocks : List (List (List Byte))) (hm : ∀ m ∈ blocks.flatten, m.length < 2 ^ 63) :
    cancelAll (blocks.map (frames h)) = some (blocks.flatten.map fun m => ⟨Err.CLOSING, m⟩) := by
  induction blocks with
  | nil => rfl
  | cons b bs ih =>
    simp only [List.flatten_cons, List.mem_append] at hm
    simp only [List.map_cons, cancelAll]
    rw [report_frames h _ b (fun m h' => hm m (Or.inl h')) _ (by omega), ih (fun m h' => hm m (Or.inr h'))]
    simp

theorem frames_ne (h : Hash) (b : List (List Byte)) (hb : b ≠ []) : (frames h b).length ≠ 0 := by
  cases b with
  | nil => exact absurd rfl hb
  | cons m b =>
    simp only [frames, List.map_cons, List.flatten_cons, List.length_append]
    have := encode_length h m
    omega

theorem flatten_frames (h : Hash) (bs : List (List (List Byte))) : (bs.map (frames h)).flatten = frames h bs.flatten := by
  induction bs with
  | nil => rfl
  | cons b bs ih => simp [ih, frames_append]

/-- The blocks after merging. -/
def mergeBlocks (k : Nat) (bs : List (List (List Byte))) : List (List (List Byte)) :=
  if bs.length > 1 then (bs.take (max 1 k)).flatten :: bs.drop (max 1 k) else bs

theorem mergeFront_blocks (h : Hash) (k : Nat) (bs : List (List (List Byte))) :
    mergeFront k (bs.map (frames h)) = (mergeBlocks k bs).map (frames h) := by
  unfold mergeFront mergeBlocks
  rw [List.length_map]
  by_cases h1 : bs.length > 1
  · rw [if_pos h1, if_pos h1, ← List.map_take, flatten_frames]
    simp
  · rw [if_neg h1, if_neg h1]

theorem mergeBlocks_flatten (k : Nat) (bs : List (List (List Byte))) : (mergeBlocks k bs).flatten = bs.flatten := by
  unfold mergeBlocks
  by_cases h1 : bs.length > 1
  · rw [if_pos h1, List.flatten_cons, ← List.flatten_append, List.take_append_drop]
  · rw [if_neg h1]

theorem mergeBlocks_ne (k : Nat) (bs : List (List (List Byte))) (hb : ∀ b ∈ bs, b ≠ []) : ∀ b ∈ mergeBlocks k bs, b ≠ [] := by
  unfold mergeBlocks
  by_cases h1 : bs.length > 1
  · rw [if_pos h1]
    intro b hbm
    rcases List.mem_cons.mp hbm with rfl | hbm
    · cases bs with
      | nil => simp at h1
      | cons b0 bs =>
        have : max 1 k = (max 1 k - 1) + 1 := by omega
        rw [this, List.take_succ_cons, List.flatten_cons]
        have := hb b0 (List.mem_cons_self ..)
        simp [this]
    · exact hb b (List.mem_of_mem_drop hbm)
  · rw [if_neg h1]; exact hb

theorem mergeBlocks_nil (k : Nat) (bs : List (List (List Byte))) (hb : bs ≠ []) : mergeBlocks k bs ≠ [] := by
  unfold mergeBlocks
  by_cases h1 : bs.length > 1
  · rw [if_pos h1]; simp
  · rw [if_neg h1]; exact hb

/-- `io_stream_try_write` keeps the invariant. -/
theorem tryWrite_ok (h : Hash) (ev : Env) (c : SConn) (blocks : List (List (List Byte))) (pushed : List (List Byte))
    (cbs : List Cb) (hi : SI h c blocks pushed cbs) (fuel : Nat) :
    ∃ c' r cbs' blocks', tryWrite ev (fuel + 1) c = some (c', r, cbs') ∧ SI h c' blocks' pushed (cbs ++ cbs') ∧
      (r = Err.SUCCESS ∨ (r = Err.WRITE_FAILED ∧ ev.uvOk = false)) ∧ c'.connected = c.connected ∧ c'.closing = c.closing ∧
      (c'.writing = false → blocks' = [] ∨ ev.uvOk = false) := by
  obtain ⟨iq, ine, ism, iall, iwr, icl, ⟨sent, dropped, iw1, iw2, iw3⟩, ico⟩ := hi
  unfold tryWrite
  by_cases hw : c.writing = true
  · rw [if_pos hw]
    exact ⟨c, _, [], blocks, rfl, by simpa using ⟨iq, ine, ism, iall, iwr, icl, ⟨sent, dropped, iw1, iw2, iw3⟩, ico⟩,
      Or.inl rfl, rfl, rfl, fun hh => by rw [hw] at hh; cases hh⟩
  · rw [if_neg hw]
    have hwf : c.writing = false := by simpa using hw
    by_cases he : blocks = []
    · subst he
      rw [if_pos (by rw [iq]; rfl)]
      exact ⟨c, _, [], [], rfl, by simpa using ⟨iq, ine, ism, iall, iwr, icl, ⟨sent, dropped, iw1, iw2, iw3⟩, ico⟩,
        Or.inl rfl, rfl, rfl, fun _ => Or.inl rfl⟩
    · rw [if_neg (by rw [iq]; simpa using he)]
      rw [hwf] at iw2
      simp only [Bool.false_eq_true, if_false] at iw2
      by_cases hc : c.closing = true
      · rw [if_pos hc, iq, cancelAll_frames h blocks (fun m hm => (ism m (by rw [← iall]; exact List.mem_append_right _ hm)).1)]
        have hcon := icl hc
        refine ⟨_, _, _, [], rfl, ⟨rfl, by simp, ism, ?_, ?_, icl, ⟨sent, blocks.flatten ++ dropped, iw1, ?_, fun _ => ⟨hcon, hc⟩⟩, ?_⟩,
          Or.inl rfl, rfl, rfl, fun _ => Or.inl rfl⟩
        · simp only [List.map_append, List.map_map, List.flatten_nil, List.append_nil]
          rw [← iall]
          congr 1
          exact List.map_id _
        · intro hh; exact absurd hh hw
        · simp [← iw2, hwf]
        · intro cb hcb
          rcases List.mem_append.mp hcb with hcb | hcb
          · exact ico cb hcb
          · obtain ⟨m, _, rfl⟩ := List.mem_map.mp hcb
            exact Or.inr ⟨rfl, hcon⟩
      · rw [if_neg hc, iq, mergeFront_blocks]
        have hmf := mergeBlocks_flatten ev.merge blocks
        have hmn := mergeBlocks_ne ev.merge blocks ine
        cases hmb : mergeBlocks ev.merge blocks with
        | nil => exact absurd hmb (mergeBlocks_nil _ _ he)
        | cons b rest =>
          rw [hmb] at hmf hmn
          simp only [List.map_cons]
          rw [if_neg (frames_ne h b (hmn b (List.mem_cons_self ..)))]
          by_cases hok : ev.uvOk = true
          · rw [if_pos hok]
            refine ⟨_, _, [], b :: rest, rfl, ⟨rfl, hmn, ism, ?_, fun _ => by simp, icl, ⟨sent ++ b, dropped, ?_, ?_, iw3⟩, ?_⟩,
              Or.inl rfl, rfl, rfl, fun hh => (by cases hh)⟩
            · simp only [List.append_nil]; rw [hmf]; exact iall
            · simp only [frames_append]; rw [iw1]
            · simp only [if_true, List.tail_cons]
              rw [← iw2, ← hmf]; simp
            · simpa using ico
          · rw [if_neg hok]
            have hok' : ev.uvOk = false := by simpa using hok
            refine ⟨_, _, [], b :: rest, rfl, ⟨rfl, hmn, ism, ?_, fun _ => by simp, icl, ⟨sent, dropped, iw1, ?_, iw3⟩, ?_⟩,
              Or.inr ⟨rfl, hok'⟩, rfl, rfl, fun _ => Or.inr hok'⟩
            · simp only [List.append_nil]; rw [hmf]; exact iall
            · simp only [hwf, Bool.false_eq_true, if_false]
              rw [hmf]; exact iw2
            · simpa using ico

/-- The messages an event adds to the queue. -/
def SEv.pushes (limit : Nat) (c : SConn) : SEv → List (List Byte)
  | .send m ev => if ¬ (limit > 0 ∧ m.length > limit) ∧ c.connected = true ∧ m ≠ [] ∧ ev.push = none then [m] else []
  | _ => []

/-- All `uv_write` calls of an event succeed. -/
def SEv.uvOk : SEv → Bool
  | .send _ ev => ev.uvOk
  | .written ev => ev.uvOk
  | .disconnect _ => true

/-- An idle connection has nothing queued. -/
def Idle (c : SConn) (blocks : List (List (List Byte))) : Prop := c.writing = false → blocks = []

theorem SI.disc {h : Hash} {c : SConn} {blocks : List (List (List Byte))} {pushed : List (List Byte)} {cbs : List Cb}
    (hi : SI h c blocks pushed cbs) (cl : Bool) (hcl : cl = c.closing ∨ cl = true) :
    SI h { c with connected := false, closing := cl } blocks pushed cbs := by
  obtain ⟨iq, ine, ism, iall, iwr, icl, ⟨sent, dropped, iw1, iw2, iw3⟩, ico⟩ := hi
  refine ⟨iq, ine, ism, iall, iwr, fun _ => rfl, ⟨sent, dropped, iw1, iw2, fun hd => ⟨rfl, ?_⟩⟩, ?_⟩
  · rcases hcl with hcl | hcl
    · show cl = true; rw [hcl]; exact (iw3 hd).2
    · exact hcl
  · intro cb hcb
    rcases ico cb hcb with hx | hx
    · exact Or.inl hx
    · exact Or.inr ⟨hx.1, rfl⟩

theorem sstep_ok (limit : Nat) (h : Hash) (c : SConn) (blocks : List (List (List Byte))) (pushed : List (List Byte))
    (cbs : List Cb) (hi : SI h c blocks pushed cbs) (e : SEv)
    (hl : match e with
      | .written _ => c.writing = true
      | .send m ev => m.length < 2 ^ 63 ∧ ∀ x, ev.push = some x → x = Err.BUFF_LIMIT ∨ x = Err.MALLOC
      | _ => True) :
    ∃ c' r cbs' blocks', sstep limit h c e = some (c', r, cbs') ∧
      SI h c' blocks' (pushed ++ e.pushes limit c) (cbs ++ cbs') ∧
      (match e with
        | .send m _ => ∃ x, r = some x ∧
          ((x = Err.SUCCESS ∨ x = Err.WRITE_FAILED) ∧ m ≠ [] ↔ e.pushes limit c = [m]) ∧
          (e.pushes limit c ≠ [] → e.pushes limit c = [m]) ∧ (x = Err.WRITE_FAILED → e.uvOk = false)
        | _ => True) ∧
      (e.uvOk = true → Idle c blocks → Idle c' blocks') := by
  cases e with
  | disconnect f =>
    simp only [sstep, disconnect, disconnectRun, SEv.pushes, List.append_nil]
    by_cases hc : c.connected = true
    · rw [if_pos hc]
      by_cases hf : (!f && c.writing) = true
      · rw [if_pos hf]
        refine ⟨_, _, _, blocks, rfl, by simpa using hi.disc c.closing (Or.inl rfl), trivial, fun _ h => h⟩
      · rw [if_neg hf]
        refine ⟨_, _, _, blocks, rfl, by simpa using hi.disc true (Or.inr rfl), trivial, fun _ h => h⟩
    · rw [if_neg hc]
      exact ⟨_, _, _, blocks, rfl, by simpa using hi, trivial, fun _ h => h⟩
  | written ev =>
    simp only at hl
    obtain ⟨iq, ine, ism, iall, iwr, icl, ⟨sent, dropped, iw1, iw2, iw3⟩, ico⟩ := hi
    cases blocks with
    | nil => exact absurd rfl (iwr hl)
    | cons b rest =>
      simp only [sstep, written, SEv.pushes, List.append_nil]
      rw [iq]
      simp only [List.map_cons]
      have hsmb : ∀ m ∈ b, m.length < 2 ^ 63 := fun m hm => (ism m (by rw [← iall]; exact List.mem_append_right _ (by simp [hm]))).1
      rw [report_frames h Err.SUCCESS b hsmb _ (by omega)]
      simp only [List.length_map]
      rw [hl] at iw2
      simp only [if_true, List.tail_cons] at iw2
      have hi2 : SI h { c with q := rest.map (frames h), writing := false } rest pushed (cbs ++ b.map fun m => ⟨Err.SUCCESS, m⟩) := by
        refine ⟨rfl, fun x hx => ine x (List.mem_cons_of_mem _ hx), ism, ?_, fun hh => (by cases hh), icl, ⟨sent, dropped, iw1, ?_, iw3⟩, ?_⟩
        · rw [← iall]
          simp only [List.map_append, List.map_map, List.flatten_cons, List.append_assoc]
          congr 2
          exact List.map_id _
        · simpa using iw2
        · intro cb hcb
          rcases List.mem_append.mp hcb with hcb | hcb
          · exact ico cb hcb
          · obtain ⟨m, _, rfl⟩ := List.mem_map.mp hcb
            exact Or.inl rfl
      obtain ⟨c', r, cbs', blocks', ht, hi3, hr, hcon, hclo, hidle⟩ := tryWrite_ok h ev _ rest pushed _ hi2 rest.length
      rw [ht]
      simp only [Option.map_some]
      refine ⟨_, _, _, blocks', rfl, ?_, trivial, ?_⟩
      · rw [← List.append_assoc]
        by_cases hd : (!c'.connected && !c'.writing) = true
        · rw [if_pos hd]
          have := hi3.disc true (Or.inr rfl)
          have hcf : c'.connected = false := by
            simp only [Bool.and_eq_true, Bool.not_eq_true'] at hd; exact hd.1
          rw [← hcf] at this
          exact this
        · rw [if_neg hd]; exact hi3
      · intro hu _ hw
        have hw' : c'.writing = false := by
          by_cases hd : (!c'.connected && !c'.writing) = true
          · rw [if_pos hd] at hw; exact hw
          · rw [if_neg hd] at hw; exact hw
        rcases hidle hw' with hx | hx
        · exact hx
        · simp only [SEv.uvOk] at hu; rw [hu] at hx; cases hx
  | send m ev =>
    simp only at hl
    simp only [sstep, send, SEv.pushes, SEv.uvOk]
    have nw : Err.INVALID_SIZE ≠ Err.WRITE_FAILED ∧ Err.INVALID_SIZE ≠ Err.SUCCESS ∧ Err.CLOSING ≠ Err.WRITE_FAILED ∧
      Err.CLOSING ≠ Err.SUCCESS ∧ Err.BUFF_LIMIT ≠ Err.WRITE_FAILED ∧ Err.BUFF_LIMIT ≠ Err.SUCCESS ∧
      Err.MALLOC ≠ Err.WRITE_FAILED ∧ Err.MALLOC ≠ Err.SUCCESS := by decide
    by_cases h1 : limit > 0 ∧ m.length > limit
    · rw [if_pos h1, if_neg (by intro hh; exact hh.1 h1)]
      refine ⟨_, _, _, blocks, rfl, by simpa using hi, ⟨_, rfl, ⟨fun hh => ?_, fun hh => (by cases hh)⟩, fun hh => absurd rfl hh, fun hh => absurd hh nw.1⟩, fun _ h => h⟩
      rcases hh.1 with hx | hx
      · exact absurd hx nw.2.1
      · exact absurd hx nw.1
    · rw [if_neg h1]
      by_cases hc : c.connected = true
      · rw [if_neg (by simp [hc])]
        by_cases hm : m = []
        · subst hm
          rw [if_neg (by simp), if_neg (by simp)]
          obtain ⟨c', r, cbs', blocks', ht, hi3, hr, hcon, hclo, hidle⟩ := tryWrite_ok h ev c blocks pushed cbs hi c.q.length
          rw [ht]
          refine ⟨_, _, _, blocks', rfl, by simpa using hi3, ⟨_, rfl, by simp, fun hh => absurd rfl hh, fun hh => ?_⟩, ?_⟩
          · rcases hr with hr | hr
            · exact absurd (hr.symm.trans hh) (by decide)
            · exact hr.2
          · intro hu _ hw
            rcases hidle hw with hx | hx
            · exact hx
            · rw [hu] at hx; cases hx
        · have hlen : m.length > 0 := List.length_pos_iff.mpr hm
          rw [if_pos hlen]
          cases hp : ev.push with
          | some x =>
            rw [if_neg (by simp)]
            refine ⟨_, _, _, blocks, rfl, by simpa using hi, ⟨_, rfl, ⟨fun hh => ?_, fun hh => (by cases hh)⟩, fun hh => absurd rfl hh, fun hh => ?_⟩, fun _ h => h⟩
            · rcases hl.2 x hp with rfl | rfl
              · rcases hh.1 with hx | hx
                · exact absurd hx nw.2.2.2.2.2.1
                · exact absurd hx nw.2.2.2.2.1
              · rcases hh.1 with hx | hx
                · exact absurd hx nw.2.2.2.2.2.2.2
                · exact absurd hx nw.2.2.2.2.2.2.1
            · rcases hl.2 x hp with rfl | rfl
              · exact absurd hh nw.2.2.2.2.1
              · exact absurd hh nw.2.2.2.2.2.2.1
          | none =>
            rw [if_pos ⟨h1, hc, hm, rfl⟩]
            have hi2 : SI h { c with q := c.q ++ [encode h m] } (blocks ++ [[m]]) (pushed ++ [m]) cbs := by
              obtain ⟨iq, ine, ism, iall, iwr, icl, ⟨sent, dropped, iw1, iw2, iw3⟩, ico⟩ := hi
              refine ⟨?_, ?_, ?_, ?_, fun _ => by simp, icl, ⟨sent, dropped, iw1, ?_, iw3⟩, ico⟩
              · simp [iq, frames]
              · intro b hb
                rcases List.mem_append.mp hb with hb | hb
                · exact ine b hb
                · simp only [List.mem_singleton] at hb; subst hb; simp
              · intro m' hm'
                rcases List.mem_append.mp hm' with hm' | hm'
                · exact ism m' hm'
                · simp only [List.mem_singleton] at hm'; subst hm'; exact ⟨hl.1, hm⟩
              · rw [← iall]; simp
              · have hdr : dropped = [] := by
                  cases dropped with
                  | nil => rfl
                  | cons a as => have := (iw3 (by simp)).1; rw [hc] at this; cases this
                subst hdr
                rw [← iw2]
                by_cases hw : c.writing = true
                · have := iwr hw
                  cases blocks with
                  | nil => exact absurd rfl this
                  | cons b bs => simp [hw]
                · simp [hw]
            obtain ⟨c', r, cbs', blocks', ht, hi3, hr, hcon, hclo, hidle⟩ := tryWrite_ok h ev _ _ _ _ hi2 (c.q.length + 1)
            rw [ht]
            refine ⟨_, _, _, blocks', rfl, hi3, ⟨_, rfl, ⟨fun _ => rfl, fun _ => ⟨?_, hm⟩⟩, fun _ => rfl, fun hh => ?_⟩, ?_⟩
            · rcases hr with hr | hr
              · exact Or.inl hr
              · exact Or.inr hr.1
            · rcases hr with hr | hr
              · exact absurd (hr.symm.trans hh) (by decide)
              · exact hr.2
            · intro hu _ hw
              rcases hidle hw with hx | hx
              · exact hx
              · rw [hu] at hx; cases hx
      · have hcf : c.connected = false := by simpa using hc
        rw [if_pos (by simp [hcf]), if_neg (by intro hh; exact hc hh.2.1)]
        refine ⟨_, _, _, blocks, rfl, by simpa using hi, ⟨_, rfl, ⟨fun hh => ?_, fun hh => (by cases hh)⟩, fun hh => absurd rfl hh, fun hh => absurd hh nw.2.2.1⟩, fun _ h => h⟩
        rcases hh.1 with hx | hx
        · exact absurd hx nw.2.2.2.1
        · exact absurd hx nw.2.2.1

/-- The messages that are in the queue or were: those sends that returned success, or the error of a
write that could not be started. -/
def queued (rs : List (List Byte × Int)) : List (List Byte) :=
  (rs.filter fun r => decide ((r.2 = Err.SUCCESS ∨ r.2 = Err.WRITE_FAILED) ∧ r.1 ≠ [])).map Prod.fst

theorem srun_ok (limit : Nat) (h : Hash) (es : List SEv) : ∀ (c : SConn) (blocks : List (List (List Byte)))
    (pushed : List (List Byte)) (cbs : List Cb), SI h c blocks pushed cbs → SLegal limit h c es →
    ∃ c' rs cbs' blocks', srun limit h c es = some (c', rs, cbs') ∧ SI h c' blocks' (pushed ++ queued rs) (cbs ++ cbs') ∧
      ((∀ e ∈ es, e.uvOk = true) → (∀ r ∈ rs, r.2 ≠ Err.WRITE_FAILED) ∧ (Idle c blocks → Idle c' blocks')) := by
  induction es with
  | nil =>
    intro c blocks pushed cbs hi _
    exact ⟨c, [], [], blocks, rfl, by simpa [queued] using hi, fun _ => ⟨by simp, id⟩⟩
  | cons e es ih =>
    intro c blocks pushed cbs hi hl
    obtain ⟨c1, r1, cbs1, blocks1, hs, hi1, hr1, hid1⟩ := sstep_ok limit h c blocks pushed cbs hi e hl.1
    obtain ⟨c', rs, cbs', blocks', hrun, hi', huv⟩ := ih c1 blocks1 _ _ hi1 (hl.2 _ hs)
    simp only [srun]
    rw [hs]
    simp only [Option.bind_eq_bind, Option.bind_some, hrun]
    cases e with
    | disconnect f =>
      refine ⟨_, _, _, blocks', rfl, by simpa [SEv.pushes, List.append_assoc] using hi', fun hu => ?_⟩
      have := huv fun e he => hu e (List.mem_cons_of_mem _ he)
      exact ⟨this.1, fun hx => this.2 (hid1 (hu _ (List.mem_cons_self ..)) hx)⟩
    | written ev =>
      refine ⟨_, _, _, blocks', rfl, by simpa [SEv.pushes, List.append_assoc] using hi', fun hu => ?_⟩
      have := huv fun e he => hu e (List.mem_cons_of_mem _ he)
      exact ⟨this.1, fun hx => this.2 (hid1 (hu _ (List.mem_cons_self ..)) hx)⟩
    | send m ev =>
      obtain ⟨x, rfl, hx1, hx3, hx2⟩ := hr1
      refine ⟨_, _, _, blocks', rfl, ?_, fun hu => ?_⟩
      · have hq : queued ((m, x) :: rs) = (SEv.send m ev).pushes limit c ++ queued rs := by
          unfold queued
          by_cases hp : (SEv.send m ev).pushes limit c = [m]
          · have := hx1.mpr hp
            rw [List.filter_cons_of_pos (by simpa using this), hp]
            rfl
          · have hn : ¬ ((x = Err.SUCCESS ∨ x = Err.WRITE_FAILED) ∧ m ≠ []) := fun hh => hp (hx1.mp hh)
            rw [List.filter_cons_of_neg (by simpa using hn)]
            have : (SEv.send m ev).pushes limit c = [] := by
              by_cases hz : (SEv.send m ev).pushes limit c = []
              · exact hz
              · exact absurd (hx3 hz) hp
            rw [this, List.nil_append]
        simp only
        rw [hq]
        simpa [List.append_assoc] using hi'
      · have := huv fun e he => hu e (List.mem_cons_of_mem _ he)
        have hu0 := hu _ (List.mem_cons_self ..)
        refine ⟨?_, fun hx => this.2 (hid1 hu0 hx)⟩
        intro r hr
        rcases List.mem_cons.mp hr with rfl | hr
        · intro hh
          have := hx2 hh
          rw [this] at hu0; cases hu0
        · exact this.1 r hr

theorem sinit_ok (h : Hash) : SI h sinit [] [] [] := by
  refine ⟨rfl, by simp, by simp, rfl, fun hh => (by cases hh), fun hh => (by cases hh), ⟨[], [], rfl, by simp [sinit], fun hh => absurd rfl hh⟩, by simp⟩

end Verif.IoStream
