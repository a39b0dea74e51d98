import Verif.Buffer.Mode
import Verif.Buffer.Refine
import Verif.Buffer.Props

/-!
Property C86: a buffer manager is one queue through changes of mode and limits and failing allocations, and it gives back exactly the
memory it took.
-/
namespace Verif.Buffer

/-! ## Specification -/

/-- The states of a manager after any calls, with the queue obtained from the calls that reported success.  `set_mode` with sizes whose
sum with the reserve does not fit a 64-bit number is left out (`C86_number_false`). -/
inductive Run : Mgr → Deque → Prop where
  | new : Run {} []
  | call {m q o ok m' r} : Run m q → q.Legal o → m.step ok o = some (m', r) → Run m' (if r = Err.SUCCESS then q.apply o else q)
  | setLimit {m q} (s n : Nat) : Run m q → Run (m.setLimit s n).1 q
  | setMode {m q} (ok : Bool) (s n : Nat) : Run m q → s + 32 < W64 → n + 1 < W64 → Run (m.setMode ok s n) []
  | reset {m q} : Run m q → Run m.reset []

/-- The pointer and sizes given for a block: what was read, what is left, and every byte the user wrote. -/
def View.Shows (v : View) (b : Blk) : Prop :=
  v.nread = b.consumed ∧ v.nwrite = b.data.length - b.consumed ∧ v.bytes.length = b.data.length ∧
  ∀ (j : Nat) x, b.data[j]? = some (some x) → v.bytes[j]? = some (some x)

/-- What an accessor gives for an end of the queue: no data exactly if there is no block. -/
def Given (v : Option (Option View)) (b : Option Blk) : Prop :=
  match b with
  | none => v = some none
  | some b => ∃ w, v = some (some w) ∧ w.Shows b

/-! ## Lemmas -/

/-- The heap holds exactly the blocks `D`, each once. -/
structure HOK (h : Heap) (D : List Nat) : Prop where
  bad : h.bad = false
  nodup : h.live.Nodup
  perm : h.live.Perm D
  lt : ∀ a ∈ h.live, a < h.next

theorem HOK.to {h : Heap} {D D' : List Nat} (k : HOK h D) (p : D.Perm D') : HOK h D' := ⟨k.bad, k.nodup, k.perm.trans p, k.lt⟩

theorem HOK.alloc {h : Heap} {D : List Nat} (k : HOK h D) : HOK (h.malloc true).1 (h.next :: D) := by
  refine ⟨k.bad, ?_, k.perm.cons _, ?_⟩
  · exact List.nodup_cons.2 ⟨fun hm => absurd (k.lt _ hm) (Nat.lt_irrefl _), k.nodup⟩
  · intro a ha
    rcases List.mem_cons.1 ha with rfl | ha
    · exact Nat.lt_succ_self _
    · exact Nat.lt_succ_of_lt (k.lt a ha)

theorem HOK.release {h : Heap} {a : Nat} {D : List Nat} (k : HOK h (a :: D)) : HOK (h.free a) D := by
  have hm : a ∈ h.live := k.perm.mem_iff.2 List.mem_cons_self
  unfold Heap.free
  rw [if_pos hm]
  refine ⟨k.bad, k.nodup.erase a, ?_, fun x hx => k.lt x (List.mem_of_mem_erase hx)⟩
  have := k.perm.erase a
  rwa [List.erase_cons_head] at this

theorem HOK.releaseAll : ∀ (l : List (Nat × DBlk)) {h : Heap}, HOK h (l.map Prod.fst) → HOK (l.foldl (fun h b => h.free b.1) h) []
  | [], _, k => k
  | b :: l, _, k => HOK.releaseAll l (HOK.release k)

/-- The blocks the manager refers to. -/
def Mgr.owned (m : Mgr) : List Nat := (m.area.map Prod.fst).toList ++ m.dyn.map Prod.fst

/-- A dynamic-mode manager without the numbers. -/
def Mgr.toD (m : Mgr) : DBuf := ⟨m.dyn.map Prod.snd, m.costNum, m.costSize, m.limNum, m.limSize⟩

/-- What a dynamic step does: the step of the model of C04, or a failed allocation and no change. -/
def Sim (m : Mgr) (ok : Bool) (o : Op) (m' : Mgr) (r : Int) : Prop :=
  m'.area = m.area ∧ ((m.toD.step o = some (m'.toD, r)) ∨ (r = Err.MALLOC ∧ ok = false ∧ m' = m))

theorem push_sim (m : Mgr) (ok : Bool) (s : Nat) :
    Sim m ok (.pushBack s) (m.push ok s true).1 (m.push ok s true).2 ∧ Sim m ok (.pushFront s) (m.push ok s false).1 (m.push ok s false).2 := by
  unfold Mgr.push Sim
  by_cases h1 : m.limNum > 0 ∧ m.costNum ≥ m.limNum
  · simp [Mgr.overPush, h1, DBuf.step, DBuf.pushBack, DBuf.pushFront, Mgr.toD]
  · by_cases h2 : m.limSize > 0 ∧ m.costSize + s > m.limSize
    · simp [Mgr.overPush, h1, h2, DBuf.step, DBuf.pushBack, DBuf.pushFront, Mgr.toD]
    · have h3 : m.overPush s = false := by simp only [Mgr.overPush, decide_eq_false h1, decide_eq_false h2]; rfl
      rw [h3]
      cases ok
      · simp [Heap.malloc]
      · simp [Heap.malloc, DBuf.step, DBuf.pushBack, DBuf.pushFront, Mgr.toD, h1, h2]

theorem popEnd_toD (m : Mgr) (s : Nat) : (m.popEnd s).toD = m.toD.popFinish s ∧ (m.popEnd s).area = m.area := by
  unfold Mgr.popEnd DBuf.popFinish Mgr.toD
  cases m.dyn with
  | nil => simp
  | cons b l => simp

theorem getLast?_snd (l : List (Nat × DBlk)) : (l.map Prod.snd).getLast? = l.getLast?.map Prod.snd := by
  rw [List.getLast?_map]

theorem sim_step (m m' : Mgr) (ok : Bool) (o : Op) (r : Int) (h : m.dynStep ok o = some (m', r)) : Sim m ok o m' r := by
  cases o with
  | pushBack s =>
    simp only [Mgr.dynStep, Option.some.injEq] at h
    have := (push_sim m ok s).1
    rw [h] at this
    exact this
  | pushFront s =>
    simp only [Mgr.dynStep, Option.some.injEq] at h
    have := (push_sim m ok s).2
    rw [h] at this
    exact this
  | popBack s fu =>
    simp only [Mgr.dynStep, Option.some.injEq] at h
    unfold Mgr.popBack at h
    unfold Sim
    simp only [DBuf.step, DBuf.popBack]
    have hl : m.toD.blocks.getLast? = m.dyn.getLast?.map Prod.snd := getLast?_snd _
    rw [hl]
    cases hd : m.dyn.getLast? with
    | none => rw [hd] at h; cases h; exact ⟨rfl, .inl rfl⟩
    | some b =>
      obtain ⟨a, t⟩ := b
      rw [hd] at h
      simp only [Option.map_some] at h ⊢
      generalize (if s > t.left then t.left else s) = n at h ⊢
      split at h
      · next hc =>
        obtain ⟨rfl, rfl⟩ := Prod.mk.inj h
        rw [if_pos hc]
        refine ⟨(popEnd_toD _ _).2, .inl ?_⟩
        rw [(popEnd_toD _ _).1]
        simp [Mgr.toD, List.map_dropLast]
      · next hc =>
        obtain ⟨rfl, rfl⟩ := Prod.mk.inj h
        rw [if_neg hc]
        refine ⟨(popEnd_toD _ _).2, .inl ?_⟩
        rw [(popEnd_toD _ _).1]
        simp [Mgr.toD, List.map_dropLast]
  | popFront s fu =>
    simp only [Mgr.dynStep, Option.some.injEq] at h
    unfold Mgr.popFront at h
    unfold Sim
    simp only [DBuf.step, DBuf.popFront]
    cases hd : m.dyn with
    | nil => rw [hd] at h; cases h; exact ⟨rfl, .inl (by simp [Mgr.toD, hd])⟩
    | cons b l =>
      obtain ⟨a, t⟩ := b
      have hb : m.toD.blocks = t :: l.map Prod.snd := by simp [Mgr.toD, hd]
      rw [hd] at h
      rw [hb]
      simp only at h ⊢
      generalize (if s > t.left then t.left else s) = n at h ⊢
      split at h
      · next hc =>
        obtain ⟨rfl, rfl⟩ := Prod.mk.inj h
        rw [if_pos hc]
        refine ⟨(popEnd_toD _ _).2, .inl ?_⟩
        rw [(popEnd_toD _ _).1]
        simp [Mgr.toD]
      · next hc =>
        obtain ⟨rfl, rfl⟩ := Prod.mk.inj h
        rw [if_neg hc]
        refine ⟨(popEnd_toD _ _).2, .inl ?_⟩
        rw [(popEnd_toD _ _).1]
        simp [Mgr.toD]
  | mergeBack s =>
    simp only [Mgr.dynStep, Option.some.injEq] at h
    unfold Mgr.mergeBack at h
    have hl : m.toD.blocks.getLast? = m.dyn.getLast?.map Prod.snd := getLast?_snd _
    cases hd : m.dyn.getLast? with
    | none =>
      rw [hd] at h hl
      have := (push_sim m ok s).1
      simp only at h
      rw [h] at this
      simp only [Sim, DBuf.step, DBuf.mergeBack, hl] at this ⊢
      exact this
    | some b =>
      obtain ⟨a, t⟩ := b
      rw [hd] at h hl
      unfold Sim
      simp only [DBuf.step, DBuf.mergeBack, hl, Option.map_some] at h ⊢
      by_cases h1 : m.limSize > 0 ∧ m.costSize + s > m.limSize
      · rw [if_pos h1] at h; cases h
        exact ⟨rfl, .inl (by rw [if_pos (by exact h1)])⟩
      · rw [if_neg h1] at h
        have h1' : ¬ (m.toD.limSize > 0 ∧ m.toD.costSize + s > m.toD.limSize) := h1
        rw [if_neg h1']
        by_cases h2 : s = 0
        · rw [if_pos h2] at h ⊢; cases h; exact ⟨rfl, .inl rfl⟩
        · rw [if_neg h2] at h ⊢
          cases ok
          · cases h; exact ⟨rfl, .inr ⟨rfl, rfl, rfl⟩⟩
          · cases h; exact ⟨rfl, .inl (by simp [Mgr.toD, List.map_dropLast])⟩
  | mergeFront s =>
    simp only [Mgr.dynStep, Option.some.injEq] at h
    unfold Mgr.mergeFront at h
    cases hd : m.dyn with
    | nil =>
      have hl : m.toD.blocks = [] := by simp [Mgr.toD, hd]
      rw [hd] at h
      have := (push_sim m ok s).2
      simp only at h
      rw [h] at this
      simp only [Sim, DBuf.step, DBuf.mergeFront, hl] at this ⊢
      exact this
    | cons b l =>
      obtain ⟨a, t⟩ := b
      have hl : m.toD.blocks = t :: l.map Prod.snd := by simp [Mgr.toD, hd]
      rw [hd] at h
      unfold Sim
      simp only [DBuf.step, DBuf.mergeFront, hl] at h ⊢
      by_cases h1 : m.limSize > 0 ∧ m.costSize + s > m.limSize
      · rw [if_pos h1] at h; cases h
        exact ⟨rfl, .inl (by rw [if_pos (by exact h1)])⟩
      · rw [if_neg h1] at h
        have h1' : ¬ (m.toD.limSize > 0 ∧ m.toD.costSize + s > m.toD.limSize) := h1
        rw [if_neg h1']
        by_cases h2 : s = 0
        · rw [if_pos h2] at h ⊢; cases h; exact ⟨rfl, .inl rfl⟩
        · rw [if_neg h2] at h ⊢
          cases ok
          · cases h; exact ⟨rfl, .inr ⟨rfl, rfl, by rw [← hd]⟩⟩
          · cases h; exact ⟨rfl, .inl (by simp [Mgr.toD])⟩
  | write i off d =>
    simp only [Mgr.dynStep] at h
    have hb : m.toD.blocks[i]? = m.dyn[i]?.map Prod.snd := by simp [Mgr.toD]
    unfold Sim
    simp only [DBuf.step, hb]
    cases hd : m.dyn[i]? with
    | none => rw [hd] at h; cases h
    | some b =>
      obtain ⟨a, b⟩ := b
      rw [hd] at h
      simp only [Option.map_some] at h ⊢
      cases hw : b.write off d with
      | none => rw [hw] at h; cases h
      | some b' =>
        rw [hw] at h
        cases h
        exact ⟨rfl, .inl (by simp [Mgr.toD, List.map_set])⟩

theorem popEnd_keeps (m : Mgr) (s : Nat) : (m.popEnd s).heap = m.heap ∧ (m.popEnd s).dyn = m.dyn ∧ (m.popEnd s).area = m.area := by
  unfold Mgr.popEnd
  split <;> exact ⟨rfl, rfl, rfl⟩

theorem getLast?_split {l : List (Nat × DBlk)} {b : Nat × DBlk} (h : l.getLast? = some b) : l = l.dropLast ++ [b] := by
  obtain ⟨m, rfl⟩ := List.getLast?_eq_some_iff.1 h
  simp

/-- The blocks stay accounted for in every call in dynamic mode. -/
theorem dyn_memory (m m' : Mgr) (ok : Bool) (o : Op) (r : Int) (h : m.dynStep ok o = some (m', r))
    (k : HOK m.heap (m.dyn.map Prod.fst)) : HOK m'.heap (m'.dyn.map Prod.fst) := by
  have hpush : ∀ s b, HOK (m.push ok s b).1.heap ((m.push ok s b).1.dyn.map Prod.fst) := by
    intro s b
    unfold Mgr.push
    split
    · exact k
    · cases ok
      · exact k
      · cases b
        · exact k.alloc
        · refine k.alloc.to ?_
          simp only [Heap.malloc, if_true, List.map_append, List.map_cons, List.map_nil]
          exact (List.perm_append_singleton _ _).symm
  cases o with
  | pushBack s =>
    simp only [Mgr.dynStep, Option.some.injEq] at h
    have := hpush s true
    rw [h] at this
    exact this
  | pushFront s =>
    simp only [Mgr.dynStep, Option.some.injEq] at h
    have := hpush s false
    rw [h] at this
    exact this
  | popBack s fu =>
    simp only [Mgr.dynStep, Option.some.injEq] at h
    unfold Mgr.popBack at h
    cases hd : m.dyn.getLast? with
    | none => rw [hd] at h; cases h; exact k
    | some b =>
      obtain ⟨a, t⟩ := b
      rw [hd] at h
      have hs := getLast?_split hd
      rw [hs, List.map_append, List.map_cons, List.map_nil] at k
      simp only at h
      generalize (if s > t.left then t.left else s) = n at h
      split at h
      · obtain ⟨rfl, rfl⟩ := Prod.mk.inj h
        rw [(popEnd_keeps _ _).1, (popEnd_keeps _ _).2.1]
        exact (k.to (List.perm_append_singleton _ _)).release
      · obtain ⟨rfl, rfl⟩ := Prod.mk.inj h
        rw [(popEnd_keeps _ _).1, (popEnd_keeps _ _).2.1]
        simpa using k
  | popFront s fu =>
    simp only [Mgr.dynStep, Option.some.injEq] at h
    unfold Mgr.popFront at h
    cases hd : m.dyn with
    | nil => rw [hd] at h; cases h; exact k
    | cons b l =>
      obtain ⟨a, t⟩ := b
      rw [hd] at h k
      simp only at h
      generalize (if s > t.left then t.left else s) = n at h
      split at h
      · obtain ⟨rfl, rfl⟩ := Prod.mk.inj h
        rw [(popEnd_keeps _ _).1, (popEnd_keeps _ _).2.1]
        exact HOK.release k
      · obtain ⟨rfl, rfl⟩ := Prod.mk.inj h
        rw [(popEnd_keeps _ _).1, (popEnd_keeps _ _).2.1]
        exact k
  | mergeBack s =>
    simp only [Mgr.dynStep, Option.some.injEq] at h
    unfold Mgr.mergeBack at h
    cases hd : m.dyn.getLast? with
    | none =>
      rw [hd] at h
      have := hpush s true
      simp only at h
      rw [h] at this
      exact this
    | some b =>
      obtain ⟨a, t⟩ := b
      rw [hd] at h
      have hs := getLast?_split hd
      have k0 := k
      rw [hs, List.map_append, List.map_cons, List.map_nil] at k
      simp only at h
      split at h
      · cases h; exact k0
      · split at h
        · cases h; exact k0
        · cases ok
          · cases h; exact k0
          · cases h
            simp only [List.map_append, List.map_cons, List.map_nil]
            refine HOK.to (D := m.heap.next :: m.dyn.dropLast.map Prod.fst) ?_ (List.perm_append_singleton _ _).symm
            refine HOK.release (HOK.to k.alloc ?_)
            exact ((List.perm_append_singleton _ _).cons _).trans (List.Perm.swap _ _ _)
  | mergeFront s =>
    simp only [Mgr.dynStep, Option.some.injEq] at h
    unfold Mgr.mergeFront at h
    cases hd : m.dyn with
    | nil =>
      rw [hd] at h
      have := hpush s false
      simp only at h
      rw [h] at this
      exact this
    | cons b l =>
      obtain ⟨a, t⟩ := b
      have k0 := k
      rw [hd] at h k
      simp only at h
      split at h
      · cases h; exact k0
      · split at h
        · cases h; exact k0
        · cases ok
          · cases h; exact k
          · cases h
            exact HOK.release (HOK.to k.alloc (List.Perm.swap _ _ _))
  | write i off d =>
    simp only [Mgr.dynStep] at h
    cases hd : m.dyn[i]? with
    | none => rw [hd] at h; cases h
    | some b =>
      obtain ⟨a, b⟩ := b
      rw [hd] at h
      simp only at h
      cases hw : b.write off d with
      | none => rw [hw] at h; cases h
      | some b' =>
        rw [hw] at h
        cases h
        have : (m.dyn.set i (a, b')).map Prod.fst = m.dyn.map Prod.fst := by
          rw [List.map_set]
          refine List.ext_getElem? fun j => ?_
          rw [List.getElem?_set]
          split
          · next hij =>
            subst hij
            have : i < m.dyn.length := lt_of_getElem? hd
            simp [this, hd]
            have := List.getElem?_eq_some_iff.1 hd
            obtain ⟨h1, h2⟩ := this
            rw [h2]
          · rfl
        simp only [this]
        exact k

/-- The invariant. -/
structure Ok (m : Mgr) (q : Deque) : Prop where
  mem : HOK m.heap m.owned
  dynamic : m.area = none → DGood m.limSize m.limNum m.toD q
  static : ∀ a st, m.area = some (a, st) → m.dyn = [] ∧ ∃ S N bs, 0 < S ∧ 0 < N ∧ Good S N st q bs

theorem reset_ok {m : Mgr} (k : HOK m.heap m.owned) : HOK m.reset.heap [] := by
  unfold Mgr.reset
  unfold Mgr.owned at k
  cases ha : m.area with
  | none => rw [ha] at k; exact HOK.releaseAll _ k
  | some x => rw [ha] at k; exact HOK.releaseAll _ (HOK.release k)

theorem new_dgood : DGood 0 0 ⟨[], 0, 0, 0, 0⟩ [] := ⟨rfl, by simp, rfl, rfl, rfl, rfl⟩

theorem padding64 {s : Nat} (h : s + 32 < W64) : Size64.padding ((s + 16) % W64) = padding (s + 16) := by
  have h1 : (s + 16) % W64 = s + 16 := Nat.mod_eq_of_lt (by omega)
  rw [h1]
  unfold Size64.padding padding
  split
  · rfl
  · rw [Nat.mod_eq_of_lt]
    omega

theorem run_ok {m : Mgr} {q : Deque} (h : Run m q) : Ok m q := by
  induction h with
  | new => exact ⟨⟨rfl, List.nodup_nil, .refl _, fun a ha => by cases ha⟩, fun _ => new_dgood, fun a st h => by cases h⟩
  | @call m q o ok m' r _ hl e ih =>
    unfold Mgr.step at e
    cases ha : m.area with
    | none =>
      rw [ha] at e
      simp only at e
      have hm := dyn_memory m m' ok o r e (by have := ih.mem; simpa [Mgr.owned, ha] using this)
      obtain ⟨h1, h2⟩ := sim_step m m' ok o r e
      have hg := ih.dynamic ha
      rw [ha] at h1
      refine ⟨by simpa [Mgr.owned, h1] using hm, fun _ => ?_, fun a st h => by rw [h1] at h; cases h⟩
      rcases h2 with h2 | ⟨rfl, _, rfl⟩
      · obtain ⟨d', e1, e2⟩ := dgood_step o hg hl
        rw [h2] at e1
        simp only [Option.some.injEq, Prod.mk.injEq] at e1
        obtain ⟨rfl, rfl⟩ := e1
        have l1 : m'.limSize = m.limSize := e2.ls
        have l2 : m'.limNum = m.limNum := e2.ln
        rw [l1, l2]
        exact e2
      · rw [if_neg (by decide)]
        exact hg
    | some x =>
      obtain ⟨a, st⟩ := x
      rw [ha] at e
      obtain ⟨hd, S, N, bs, hS, hN, hg⟩ := ih.static a st ha
      obtain ⟨st', r', ptr, bs', e1, e2, _⟩ := good_step hS hN o hg hl
      simp only [e1, Option.some.injEq, Prod.mk.injEq] at e
      obtain ⟨rfl, rfl⟩ := e
      refine ⟨by have := ih.mem; simpa [Mgr.owned, ha] using this, fun h => (by cases h), fun a2 st2 h2 => ?_⟩
      simp only [Option.some.injEq, Prod.mk.injEq] at h2
      obtain ⟨rfl, rfl⟩ := h2
      exact ⟨hd, S, N, bs', hS, hN, e2⟩
  | @setLimit m q s n _ ih =>
    cases ha : m.area with
    | none =>
      have hg := ih.dynamic ha
      have e : (m.setLimit s n).1 = { m with limNum := n, limSize := s } := by unfold Mgr.setLimit; rw [ha]
      rw [e]
      exact ⟨ih.mem, fun _ => ⟨hg.abs, hg.used, hg.cn, hg.cs, rfl, rfl⟩, fun a st h => by
        rw [show m.area = some (a, st) from h] at ha; cases ha⟩
    | some x =>
      have e : (m.setLimit s n).1 = m := by unfold Mgr.setLimit; rw [ha]
      rw [e]
      exact ih
  | @setMode m q ok s n _ h1 h2 ih =>
    have hr := reset_ok ih.mem
    have hz : Ok m.reset [] := ⟨hr, fun _ => new_dgood, fun a st h => by cases h⟩
    unfold Mgr.setMode
    simp only
    split
    · next hc =>
      cases ok
      · exact hz
      · refine ⟨hr.alloc, fun h => (by cases h), fun a st h => ?_⟩
        simp only [Heap.malloc, if_true, Option.some.injEq, Prod.mk.injEq] at h
        obtain ⟨_, rfl⟩ := h
        refine ⟨rfl, s, n, [], by omega, hc.2, ?_⟩
        rw [padding64 h1, Nat.mod_eq_of_lt h2]
        exact good_init hc.2
    · exact hz
  | reset _ ih => exact ⟨reset_ok ih.mem, fun _ => new_dgood, fun a st h => by cases h⟩

theorem view_static {st : SBuf} {b : PB} (hr : readHdr st.size st.mem b.p = some ⟨b.cells.length, b.used, b.p + 32⟩) (hb : BlkOK st.mem b) :
    ∃ w, (st.viewAt b.p).map some = some (some w) ∧ w.Shows b.toBlk := by
  unfold SBuf.viewAt
  rw [hr]
  refine ⟨_, rfl, ?_, ?_, ?_, ?_⟩
  · have := hb.2.1
    simp only [Hdr.left, PB.toBlk]
    omega
  · rfl
  · simp [PB.toBlk]
  · intro j x hj
    have hjl : j < b.cells.length := lt_of_getElem? hj
    rw [List.getElem?_map, List.getElem?_range hjl]
    simp [hb.2.2 j x hj, Cell.seen]

theorem view_dyn {b : DBlk} (h : b.used ≤ b.cells.length) : b.view.Shows b.toBlk := by
  refine ⟨?_, rfl, rfl, fun j x hj => hj⟩
  simp only [DBlk.view, DBlk.left, DBlk.toBlk]
  omega

/-- Block `i` of the ring, as an accessor finds it. -/
theorem slot_view {st : SBuf} {bs : List PB} {t i : Nat} {b : PB} (hc : Core st bs t) (hb : bs[i]? = some b) :
    st.idx[(st.head + i) % st.idx.length]? = some (some b.p) ∧ ∃ w, (st.viewAt b.p).map some = some (some w) ∧ w.Shows b.toBlk :=
  ⟨hc.slots i b hb, view_static (hc.read (List.mem_of_getElem? hb)) (hc.mem b (List.mem_of_getElem? hb))⟩

/-! ## Property theorems -/

/-- **C86.**  After any calls, with any changes of mode and limits and any failing allocations: the next call has no undefined behaviour,
`front` and `back` give the first and the last block of the queue, with what was read, what is left and every byte that was written, and
report no data exactly if the queue is empty. -/
theorem C86_queue_partial {m : Mgr} {q : Deque} (h : Run m q) :
    Given m.front q.head? ∧ Given m.back q.getLast? ∧ ∀ ok o, q.Legal o → m.step ok o ≠ none := by
  have k := run_ok h
  cases ha : m.area with
  | none =>
    have hg := k.dynamic ha
    have hu : ∀ b ∈ m.dyn, b.2.used ≤ b.2.cells.length := fun b hb => by
      have := hg.used b.2.toBlk (by rw [← hg.abs]; exact List.mem_map_of_mem (List.mem_map_of_mem hb))
      exact this
    have hq : q = m.dyn.map fun b => b.2.toBlk := by rw [← hg.abs]; simp [Mgr.toD, Function.comp_def]
    refine ⟨?_, ?_, fun ok o hl => ?_⟩
    · unfold Mgr.front
      rw [ha, hq]
      cases hd : m.dyn with
      | nil => exact rfl
      | cons b l => exact ⟨_, rfl, view_dyn (hu b (by rw [hd]; exact List.mem_cons_self))⟩
    · unfold Mgr.back
      rw [ha, hq, List.getLast?_map]
      cases hd : m.dyn.getLast? with
      | none => exact rfl
      | some b => exact ⟨_, rfl, view_dyn (hu b (List.mem_of_getLast? hd))⟩
    · unfold Mgr.step
      rw [ha]
      simp only
      cases o with
      | write i off d =>
        obtain ⟨b, hb, hw⟩ := hl
        rw [hq, List.getElem?_map, Option.map_eq_some_iff] at hb
        obtain ⟨⟨a, c⟩, hc, rfl⟩ := hb
        unfold Mgr.dynStep
        simp only [hc]
        have : c.write off d = some { c with cells := c.cells.take off ++ d.map some ++ c.cells.drop (off + d.length) } := by
          unfold DBlk.write
          exact if_pos hw
        rw [this]
        intro hx
        cases hx
      | _ => intro hx; cases hx
  | some x =>
    obtain ⟨a, st⟩ := x
    obtain ⟨_, S, N, bs, hS, hN, hg⟩ := k.static a st ha
    refine ⟨?_, ?_, fun ok o hl => ?_⟩
    · unfold Mgr.front
      rw [ha, ← hg.abs]
      simp only
      rcases hg.inv with ⟨hne, t, hc⟩ | ⟨rfl, h1, h2, _⟩
      · cases bs with
        | nil => exact absurd rfl hne
        | cons b l =>
          obtain ⟨s1, s2⟩ := slot_view (i := 0) hc rfl
          rw [Nat.add_zero, Nat.mod_eq_of_lt hc.hlt] at s1
          have hne2 : st.head ≠ st.tail := by
            rw [hc.teq]
            have h3 := hc.hlt
            have h4 := hc.len
            rw [ring_eq h3 (by omega)]
            have : 0 < (b :: l).length := Nat.zero_lt_succ _
            split <;> omega
          rw [if_neg hne2, s1]
          exact s2
      · rw [if_pos (by rw [h1, h2])]
        exact rfl
    · unfold Mgr.back
      rw [ha, ← hg.abs]
      simp only
      rcases hg.inv with ⟨hne, t, hc⟩ | ⟨rfl, h1, h2, _⟩
      · have hpos : 0 < bs.length := List.length_pos_iff.2 hne
        obtain ⟨b, hb⟩ : ∃ b, bs[bs.length - 1]? = some b := ⟨_, List.getElem?_eq_getElem (by omega)⟩
        obtain ⟨s1, s2⟩ := slot_view hc hb
        have h3 := hc.hlt
        have h4 := hc.len
        have h5 := hc.teq
        have hne2 : st.head ≠ st.tail := by
          rw [h5, ring_eq h3 (by omega)]
          split <;> omega
        have hi : (st.tail + st.idx.length - 1) % st.idx.length = (st.head + (bs.length - 1)) % st.idx.length := by
          rw [h5, ring_eq h3 (by omega)]
          split
          · rw [show st.head + bs.length + st.idx.length - 1 = st.head + (bs.length - 1) + st.idx.length by omega, Nat.add_mod_right]
          · congr 1
            omega
        rw [if_neg hne2, if_neg (by omega), hi, s1, List.getLast?_map, List.getLast?_eq_getElem?, hb]
        exact s2
      · rw [if_pos (by rw [h1, h2])]
        exact rfl
    · obtain ⟨st', r', ptr, bs', e1, _⟩ := good_step hS hN o hg hl
      unfold Mgr.step
      rw [ha]
      simp only [e1]
      intro hx
      cases hx

/-- **C86.**  Nothing is given back that was not allocated or was given back before; the blocks that are allocated are exactly those the
manager refers to; after `reset`, and so after the destructor, there is none. -/
theorem C86_memory_partial {m : Mgr} {q : Deque} (h : Run m q) :
    m.heap.bad = false ∧ m.heap.live.Perm ((m.area.map Prod.fst).toList ++ m.dyn.map Prod.fst) ∧ m.heap.live.Nodup ∧
    m.reset.heap.bad = false ∧ m.reset.heap.live = [] := by
  have k := (run_ok h).mem
  have r := reset_ok k
  exact ⟨k.bad, k.perm, k.nodup, r.bad, List.Perm.eq_nil r.perm⟩

/-- **C86.**  In dynamic mode a call reports what the limits demand, or that the allocation failed; then nothing has changed. -/
theorem C86_failing_partial {m m' : Mgr} {q : Deque} (h : Run m q) (ha : m.area = none) (ok : Bool) (o : Op) (r : Int) (hl : q.Legal o)
    (e : m.step ok o = some (m', r)) : r = q.verdict m.limNum m.limSize o ∨ (ok = false ∧ r = Err.MALLOC ∧ m' = m) := by
  have hg := (run_ok h).dynamic ha
  unfold Mgr.step at e
  rw [ha] at e
  obtain ⟨_, h2⟩ := sim_step m m' ok o r e
  rcases h2 with h2 | ⟨h3, h4, h5⟩
  · obtain ⟨d', e1, e2⟩ := dgood_step o hg hl
    rw [h2] at e1
    simp only [Option.some.injEq, Prod.mk.injEq] at e1
    exact .inl e1.2
  · exact .inr ⟨h4, h3, h5⟩

/-- A block of four bytes is pushed, written and half read; a second push fails for lack of memory; the first block grows by a merge. -/
def exampleRun : Option Mgr :=
  (Mgr.step {} true (.pushBack 4)).bind fun x => (x.1.step true (.write 0 0 [1, 2, 3, 4])).bind fun x =>
    (x.1.step true (.popFront 2 true)).bind fun x => (x.1.step false (.pushBack 9)).bind fun x =>
      (x.1.step true (.mergeBack 2)).map Prod.fst

example : exampleRun.map (fun m => (m.front, m.heap.live, m.heap.next, m.dyn.map Prod.fst, m.reset.heap.live)) =
    some (some (some ⟨[some 1, some 2, some 3, some 4, none, none], 2, 4⟩), [1], 2, [1], []) := by decide +kernel

/-- The same in static mode: the area is one allocation. -/
example : ((Mgr.step (Mgr.setMode {} true 200 3) true (.pushBack 4)).bind fun x => (x.1.step true (.write 0 0 [1, 2, 3, 4])).bind fun x =>
      (x.1.step true (.pushFront 1)).map fun x => (x.1.back, x.1.heap.live, x.1.reset.heap.live)) =
    some (some (some ⟨[some 1, some 2, some 3, some 4], 0, 4⟩), [0], []) := by decide +kernel

/-- **C86, false part.**  `set_mode` cannot report that it did not get the memory for the area: the manager stays in dynamic mode without
any limit, and takes a block of 5000 bytes although 100 bytes in two blocks were asked for. -/
theorem C86_silent_false : Run (Mgr.setMode {} false 100 2) [] ∧
    ∃ m, (Mgr.setMode {} false 100 2).step true (.pushBack 5000) = some (m, Err.SUCCESS) :=
  ⟨.setMode false 100 2 .new (by decide) (by decide), _, rfl⟩

/-- **C86, false part.**  With the largest number of blocks the ring has no entry, and the first push divides by zero. -/
theorem C86_number_false : (Mgr.setMode {} true 100 (W64 - 1)).step true (.pushBack 1) = none := by
  have h : (W64 - 1 + 1) % W64 = 0 := by decide
  unfold Mgr.setMode
  rw [if_pos (by decide)]
  simp only [h, Mgr.reset, Heap.malloc, if_true, List.replicate_zero, Mgr.step, SBuf.step, SBuf.pushBack]
  rfl

/-- **C86, false part.**  A limit set below what the manager already holds is accepted: the manager then holds more than its limits. -/
theorem C86_lowered_false : ∃ m, Run m [Blk.fresh 8] ∧ m.limSize = 4 ∧ m.costSize = 8 :=
  ⟨_, .setLimit 4 1 (.call (q := []) (o := .pushBack 8) (ok := true) .new trivial rfl), rfl, rfl⟩

end Verif.Buffer
