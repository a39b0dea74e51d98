import Verif.IoStream.Props

/-!
C21, closing without force: `io_stream_disconnect` (`src/channel_io_stream.cpp:1505-1542`) waits for the writes, so that everything accepted
before is written.
-/
namespace Verif.IoStream

/-! ### Specification -/

/-- No disconnect of the run is forced (the code forces one only after UV_ECONNRESET, `src/channel_io_stream.cpp:425`, and in
`io_stream_close`). -/
def Unforced (es : List SEv) : Prop := SEv.disconnect true ∉ es

/-! ### Proof -/

/-- Nothing is lost: what was given to `uv_write` and what is queued behind it are all the frames. -/
structure Flow (h : Hash) (c : SConn) (pushed : List (List Byte)) : Prop where
  all : c.wire ++ (if c.writing then c.q.tail else c.q).flatten = frames h pushed
  idle : c.writing = false → c.q = []
  busy : c.writing = true → c.q ≠ []
  closing : c.closing = true → c.writing = false ∧ c.connected = false

theorem mergeFront_flatten (k : Nat) (q : List (List Byte)) : (mergeFront k q).flatten = q.flatten := by
  unfold mergeFront
  split
  · rw [List.flatten_cons, ← List.flatten_append, List.take_append_drop]
  · rfl

theorem mergeFront_length (k : Nat) (q : List (List Byte)) : (mergeFront k q).length ≤ q.length := by
  unfold mergeFront
  split
  · simp only [List.length_cons, List.length_drop]; omega
  · exact Nat.le_refl _

/-- `io_stream_try_write` on a connection that is open, or has nothing queued. -/
theorem tryWrite_flow (h : Hash) (ev : Env) (hok : ev.uvOk = true) (pushed : List (List Byte)) : ∀ (fuel : Nat) (c : SConn),
    c.q.length < fuel →
    c.wire ++ (if c.writing then c.q.tail else c.q).flatten = frames h pushed → (c.writing = true → c.q ≠ []) →
    (c.closing = true → c.q = [] ∧ c.connected = false) →
    ∃ c' cbs, tryWrite ev fuel c = some (c', Err.SUCCESS, cbs) ∧ Flow h c' pushed ∧ c'.connected = c.connected ∧ c'.closing = c.closing := by
  intro fuel
  induction fuel with
  | zero => intro c hl; omega
  | succ fuel ih =>
    intro c hl h1 h2 h3
    unfold tryWrite
    by_cases hw : c.writing = true
    · rw [if_pos hw]
      exact ⟨c, [], rfl, ⟨h1, (fun hh => by rw [hw] at hh; cases hh), h2, fun hc => absurd (h3 hc).1 (h2 hw)⟩, rfl, rfl⟩
    · rw [if_neg hw]
      have hwf : c.writing = false := by simpa using hw
      by_cases he : c.q.isEmpty = true
      · rw [if_pos he]
        have hq : c.q = [] := by simpa using he
        exact ⟨c, [], rfl, ⟨h1, fun _ => hq, fun hh => absurd hh hw, fun hc => ⟨hwf, (h3 hc).2⟩⟩, rfl, rfl⟩
      · rw [if_neg he]
        have hq : c.q ≠ [] := by simpa using he
        have hc : ¬ c.closing = true := fun hc => hq (h3 hc).1
        rw [if_neg hc]
        have hf := mergeFront_flatten ev.merge c.q
        have hlen := mergeFront_length ev.merge c.q
        rw [hwf] at h1
        simp only [Bool.false_eq_true, if_false] at h1
        cases hm : mergeFront ev.merge c.q with
        | nil =>
          exfalso
          unfold mergeFront at hm
          split at hm
          · cases hm
          · exact hq hm
        | cons b rest =>
          rw [hm] at hf hlen
          simp only
          by_cases hb : b.length = 0
          · rw [if_pos hb]
            have hb' : b = [] := List.eq_nil_of_length_eq_zero hb
            obtain ⟨c', cbs, e1, e2, e3, e4⟩ := ih { c with q := rest } (by simp only [List.length_cons] at hlen; show rest.length < fuel; omega)
              (by show c.wire ++ (if c.writing then rest.tail else rest).flatten = _
                  rw [hwf]
                  simp only [Bool.false_eq_true, if_false]
                  rw [← h1, ← hf, hb']; rfl)
              (fun hh => absurd hh hw) (fun hh => absurd hh hc)
            exact ⟨c', cbs, e1, e2, e3, e4⟩
          · rw [if_neg hb, if_pos hok]
            refine ⟨_, _, rfl, ⟨?_, fun hh => (by cases hh), fun _ => by simp, fun hh => absurd hh hc⟩, rfl, rfl⟩
            show (c.wire ++ b) ++ (if true = true then rest else _).flatten = _
            rw [if_pos rfl, ← h1, ← hf]
            simp

/-- One event keeps everything flowing. -/
theorem sstep_flow (limit : Nat) (h : Hash) (c c' : SConn) (pushed : List (List Byte)) (e : SEv) (r : Option Int) (cbs : List Cb)
    (hl : match e with
      | .written _ => c.writing = true
      | .send m ev => m.length < 2 ^ 63 ∧ ∀ x, ev.push = some x → x = Err.BUFF_LIMIT ∨ x = Err.MALLOC
      | _ => True)
    (hi : Flow h c pushed) (huv : e.uvOk = true) (hf : e ≠ .disconnect true) (hs : sstep limit h c e = some (c', r, cbs)) :
    Flow h c' (pushed ++ match e, r with | .send m _, some x => if x = Err.SUCCESS ∧ m ≠ [] then [m] else [] | _, _ => []) := by
  cases e with
  | disconnect f =>
    cases f with
    | true => exact absurd rfl hf
    | false =>
      simp only [sstep, Option.some.injEq, Prod.mk.injEq] at hs
      obtain ⟨rfl, rfl, rfl⟩ := hs
      simp only [List.append_nil]
      unfold disconnect disconnectRun
      by_cases hc : c.connected = true
      · rw [if_pos hc]
        by_cases hw : c.writing = true
        · rw [if_pos (by rw [hw]; rfl)]
          exact ⟨hi.all, hi.idle, hi.busy, fun hh => absurd (hi.closing hh).1 (by rw [hw]; decide)⟩
        · rw [if_neg (by simpa using hw)]
          exact ⟨hi.all, hi.idle, hi.busy, fun _ => ⟨by simpa using hw, rfl⟩⟩
      · rw [if_neg hc]; exact hi
  | written ev =>
    simp only at hl
    simp only [sstep] at hs
    have hcl : ¬ c.closing = true := fun hh => absurd (hi.closing hh).1 (by rw [hl]; decide)
    cases hq : c.q with
    | nil => exact absurd hq (hi.busy hl)
    | cons b rest =>
      have hall := hi.all
      rw [hl, hq] at hall
      simp only [if_true, List.tail_cons] at hall
      unfold written at hs
      rw [hq] at hs
      simp only at hs
      cases hr : report Err.SUCCESS (b.length + 1) b with
      | none => rw [hr] at hs; cases hs
      | some cb1 =>
        rw [hr] at hs
        simp only at hs
        obtain ⟨c1, cb2, e1, e2, e3, e4⟩ := tryWrite_flow h ev huv pushed (rest.length + 1) { c with q := rest, writing := false }
          (Nat.lt_succ_self _) (by simpa using hall) (fun hh => by cases hh) (fun hh => absurd hh hcl)
        rw [e1] at hs
        simp only [Option.map_some, Option.some.injEq, Prod.mk.injEq] at hs
        obtain ⟨rfl, rfl, rfl⟩ := hs
        simp only [List.append_nil]
        by_cases hd : (!c1.connected && !c1.writing) = true
        · rw [if_pos hd]
          simp only [Bool.and_eq_true, Bool.not_eq_true'] at hd
          exact ⟨e2.all, e2.idle, e2.busy, fun _ => ⟨hd.2, hd.1⟩⟩
        · rw [if_neg hd]; exact e2
  | send m ev =>
    simp only at hl
    simp only [sstep, send] at hs
    by_cases h1 : limit > 0 ∧ m.length > limit
    · rw [if_pos h1] at hs
      simp only [Option.map_some, Option.some.injEq, Prod.mk.injEq] at hs
      obtain ⟨rfl, rfl, rfl⟩ := hs
      simp only
      rw [if_neg (by intro hh; exact absurd hh.1 (by decide)), List.append_nil]
      exact hi
    · rw [if_neg h1] at hs
      by_cases hc : c.connected = true
      · rw [if_neg (by simp [hc])] at hs
        have hncl : ¬ c.closing = true := fun hh => by have := (hi.closing hh).2; rw [hc] at this; cases this
        by_cases hm : m = []
        · subst hm
          rw [if_neg (by simp)] at hs
          obtain ⟨c1, cb1, e1, e2, e3, e4⟩ := tryWrite_flow h ev huv pushed (c.q.length + 1) c (Nat.lt_succ_self _) hi.all hi.busy
            (fun hh => absurd hh hncl)
          rw [e1] at hs
          simp only [Option.map_some, Option.some.injEq, Prod.mk.injEq] at hs
          obtain ⟨rfl, rfl, rfl⟩ := hs
          simp only
          rw [if_neg (by simp), List.append_nil]
          exact e2
        · rw [if_pos (List.length_pos_iff.mpr hm)] at hs
          cases hp : ev.push with
          | some x =>
            rw [hp] at hs
            simp only [Option.map_some, Option.some.injEq, Prod.mk.injEq] at hs
            obtain ⟨rfl, rfl, rfl⟩ := hs
            have hx : x ≠ Err.SUCCESS := by
              rcases hl.2 x hp with rfl | rfl <;> decide
            simp only
            rw [if_neg (by intro hh; exact hx hh.1), List.append_nil]
            exact hi
          | none =>
            rw [hp] at hs
            simp only at hs
            have hall : c.wire ++ (if c.writing then (c.q ++ [encode h m]).tail else c.q ++ [encode h m]).flatten = frames h (pushed ++ [m]) := by
              rw [frames_append, ← hi.all]
              cases hw : c.writing with
              | true =>
                have hq := hi.busy hw
                simp only [if_true]
                rw [List.tail_append_of_ne_nil hq]
                simp [frames]
              | false => simp [frames]
            obtain ⟨c1, cb1, e1, e2, e3, e4⟩ := tryWrite_flow h ev huv (pushed ++ [m]) (c.q.length + 2) { c with q := c.q ++ [encode h m] }
              (by simp) hall (fun _ => by simp) (fun hh => absurd hh hncl)
            rw [e1] at hs
            simp only [Option.map_some, Option.some.injEq, Prod.mk.injEq] at hs
            obtain ⟨rfl, rfl, rfl⟩ := hs
            simp only
            rw [if_pos ⟨trivial, hm⟩]
            exact e2
      · rw [if_pos (by simpa using hc)] at hs
        simp only [Option.map_some, Option.some.injEq, Prod.mk.injEq] at hs
        obtain ⟨rfl, rfl, rfl⟩ := hs
        simp only
        rw [if_neg (by intro hh; exact absurd hh.1 (by decide)), List.append_nil]
        exact hi

theorem acceptedBySend_cons (m : List Byte) (x : Int) (rs : List (List Byte × Int)) :
    acceptedBySend ((m, x) :: rs) = (if x = Err.SUCCESS ∧ m ≠ [] then [m] else []) ++ acceptedBySend rs := by
  unfold acceptedBySend
  by_cases hx : x = Err.SUCCESS ∧ m ≠ []
  · rw [if_pos hx, List.filter_cons_of_pos (by simpa using hx)]; rfl
  · rw [if_neg hx, List.filter_cons_of_neg (by simpa using hx)]; rfl

theorem srun_flow (limit : Nat) (h : Hash) (es : List SEv) : ∀ (c c' : SConn) (pushed : List (List Byte)) (rs : List (List Byte × Int))
    (cbs : List Cb), Flow h c pushed → SLegal limit h c es → WritesStart es → Unforced es → srun limit h c es = some (c', rs, cbs) →
    Flow h c' (pushed ++ acceptedBySend rs) := by
  induction es with
  | nil =>
    intro c c' pushed rs cbs hi _ _ _ hr
    simp only [srun, Option.some.injEq, Prod.mk.injEq] at hr
    obtain ⟨rfl, rfl, rfl⟩ := hr
    simpa [acceptedBySend] using hi
  | cons e es ih =>
    intro c c' pushed rs cbs hi hl hu hf hr
    simp only [srun, Option.bind_eq_bind] at hr
    cases hs : sstep limit h c e with
    | none => rw [hs] at hr; cases hr
    | some x =>
      obtain ⟨c1, r1, cbs1⟩ := x
      rw [hs] at hr
      simp only [Option.bind_some] at hr
      have hi1 := sstep_flow limit h c c1 pushed e r1 cbs1 hl.1 hi (hu e List.mem_cons_self)
        (fun he => hf (by rw [← he]; exact List.mem_cons_self)) hs
      cases hr2 : srun limit h c1 es with
      | none => rw [hr2] at hr; cases hr
      | some y =>
        obtain ⟨c2, rs2, cbs2⟩ := y
        rw [hr2] at hr
        simp only [Option.bind_some, Option.some.injEq, Prod.mk.injEq] at hr
        obtain ⟨rfl, rfl, rfl⟩ := hr
        have h2 := ih c1 c2 _ rs2 cbs2 hi1 (hl.2 _ hs) (fun e he => hu e (List.mem_cons_of_mem _ he)) (fun he => hf (List.mem_cons_of_mem _ he)) hr2
        cases e with
        | send m ev =>
          cases r1 with
          | none => simpa using h2
          | some x =>
            simp only at h2 ⊢
            rw [acceptedBySend_cons, ← List.append_assoc]
            exact h2
        | written ev => simpa using h2
        | disconnect f => simpa using h2

theorem sinit_flow (h : Hash) : Flow h sinit [] :=
  ⟨rfl, fun _ => rfl, fun hh => (by cases hh), fun hh => (by cases hh)⟩

/-! ### C21 -/

/-- C21, closing: if no `uv_write` is refused and no disconnect is forced, a connection is closed only when everything accepted on it was
written; and a receiver that has got all the bytes has got all the accepted messages, also if the sender has disconnected meanwhile. -/
theorem C21_graceful_partial (limit : Nat) (cf : RConf) (h : Hash) (hf0 bf0 ag : Nat) (ses : List SEv) (res : List REv)
    (c : SConn) (rs : List (List Byte × Int)) (cbs : List Cb)
    (hsleg : SLegal limit h sinit ses) (huv : WritesStart ses) (hun : Unforced ses) (hsrun : srun limit h sinit ses = some (c, rs, cbs))
    (hfit : ∀ m ∈ acceptedBySend rs, Fits cf m)
    (hrec : received res = c.wire)
    (hrleg : Legal cf h (rinit hf0 bf0 ag) res) (hpat : Patient cf ag res) :
    (c.closing = true → c.wire = ((acceptedBySend rs).map (encode h)).flatten) ∧
    (c.writing = false → ∃ st, rrun cf h (rinit hf0 bf0 ag) res = some (st, (acceptedBySend rs).map fun m => ⟨Err.SUCCESS, m⟩) ∧
      st.closed = false) := by
  have hi := srun_flow limit h ses sinit c [] rs cbs (sinit_flow h) hsleg huv hun hsrun
  simp only [List.nil_append] at hi
  have hall : c.writing = false → c.wire = frames h (acceptedBySend rs) := by
    intro hw
    have := hi.all
    rw [hw, hi.idle hw] at this
    simpa using this
  refine ⟨fun hc => hall (hi.closing hc).1, fun hw => ?_⟩
  have hw1 := hall hw
  obtain ⟨st, ms, e1, e2, e3, e4⟩ := recv_prefix cf h hf0 bf0 ag (acceptedBySend rs) res hfit
    (by rw [hrec, hw1]; exact List.prefix_rfl) hrleg hpat
  have := e4 (by rw [hrec, hw1])
  subst this
  exact ⟨st, e1, e2⟩

/-- Two messages, the second one still queued when the connection is disconnected: it is written before the connection is closed. -/
example : (srun 0 exHash sinit [.send [1] ⟨none, 1, true⟩, .send [2] ⟨none, 1, true⟩, .disconnect false, .send [3] ⟨none, 1, true⟩,
      .written ⟨none, 1, true⟩, .written ⟨none, 1, true⟩]).map (fun r => (r.1, acceptedBySend r.2.1)) =
    some (⟨[], false, true, false, [1, 1, 5, 5, 1, 1, 1, 2, 5, 5, 1, 2]⟩, [[1], [2]]) := by decide +kernel

end Verif.IoStream
