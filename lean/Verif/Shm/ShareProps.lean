import Verif.Shm.Share
import Verif.Shm.Props

/-! Sharing of memory channels between processes (C70). -/
namespace Verif.Shm.Share

attribute [local irreducible] pred

/-! ### Specification -/

/-- The connections `hs` (with their processes) are open by this name and the messages `q` are under way.  The history
goes on as it should: what is received by this name is the oldest message sent by this name and not yet received,
whoever sent it and whatever happened in between; sending succeeds if there is room. -/
def Fifo (name : List Char) : List (Nat × Nat) → List Msg → List Op → List Res → Prop
  | hs, q, .open p n _ _ _ :: os, .opened h :: rs => Fifo name (if n = name then (h, p) :: hs else hs) q os rs
  | hs, q, .attach p n _ _ :: os, .opened h :: rs => Fifo name (if n = name then (h, p) :: hs else hs) q os rs
  | hs, q, .init p n _ _ :: os, .opened h :: rs => Fifo name (if n = name then (h, p) :: hs else hs) q os rs
  | hs, q, .send h m room :: os, r :: rs =>
    (h ∈ hs.map Prod.fst → r = if room then .sent else .none) ∧
      Fifo name hs (if h ∈ hs.map Prod.fst ∧ r = .sent then q ++ [m] else q) os rs
  | hs, q, .recv h :: os, r :: rs =>
    (h ∈ hs.map Prod.fst → r = .got q.head?) ∧ Fifo name hs (if h ∈ hs.map Prod.fst then q.tail else q) os rs
  | hs, q, .close h :: os, _ :: rs => Fifo name (hs.filter fun x => x.1 != h) q os rs
  | hs, q, .die p :: os, _ :: rs => Fifo name (hs.filter fun x => x.2 != p) q os rs
  | hs, q, _ :: os, _ :: rs => Fifo name hs q os rs
  | _, _, _, _ => True

/-- The name by which an operation opens. -/
def Op.opens : Op → Option (List Char)
  | .open _ n _ _ _ => some n
  | .attach _ n _ _ => some n
  | .init _ n _ _ => some n
  | _ => none

/-! ### Invariant -/

/-- The state seen by the connections with one name, for a System V key that is not `IPC_PRIVATE`. -/
structure Inv (cf : Cfg) (name : List Char) (b : Nat) (hs : List (Nat × Nat)) (q : List Msg) (s : S) : Prop where
  nlt : ∀ k g, s.names k = some g → g < s.nseg
  ninj : ∀ k k' g, s.names k = some g → s.names k' = some g → k = k'
  mlt : ∀ m, m < s.nmap → (s.map m).seg < s.nseg
  tlt : ∀ p t r, s.tab p t = some r → r.map < s.nmap
  hlt : ∀ x ∈ s.hnd, x.map < s.nmap
  tk : ∀ p r, s.tab p (normalize cf.num name).text = some r →
    (s.map r.map).live = true ∧ (s.map r.map).proc = p ∧ s.names (osKey (normalize cf.num name)) = some (s.map r.map).seg
  tc : ∀ p r, s.tab p (normalize cf.num name).text = some r →
    0 < r.count ∧ r.count = s.hnd.countP fun x => x.proc == p && x.name == name
  to : ∀ p t r, t ≠ (normalize cf.num name).text → s.tab p t = some r → s.names (osKey (normalize cf.num name)) ≠ some (s.map r.map).seg
  ho : ∀ x ∈ s.hnd, x.name ≠ name → osKey (normalize cf.num x.name) ≠ osKey (normalize cf.num name) ∧
    s.names (osKey (normalize cf.num name)) ≠ some (s.map x.map).seg
  hk : ∀ x ∈ s.hnd, x.name = name → ∃ r, s.tab x.proc (normalize cf.num name).text = some r ∧ r.map = x.map ∧
    verify (normalize cf.num name).text = true
  qn : s.names (osKey (normalize cf.num name)) = none → q = []
  qs : ∀ g, s.names (osKey (normalize cf.num name)) = some g →
    ((s.seg g).chan = some (b, q) ∧ Mem.minLen ≤ (s.seg g).size) ∨
    ((s.seg g).chan = none ∧ q = [] ∧ ∀ x ∈ s.hnd, x.name ≠ name)
  id1 : hs = (s.hnd.filter fun x => x.name == name).map fun x => (x.id, x.proc)
  id2 : ∀ x ∈ s.hnd, x.id < s.nh
  id3 : (s.hnd.map fun x => x.id).Nodup

/-- The first entry found. -/
theorem split_find {l : List Handle} {i : Nat} {x : Handle} (h : l.find? (·.id == i) = some x) :
    ∃ l1 l2, x.id = i ∧ l = l1 ++ x :: l2 ∧ l.eraseP (·.id == i) = l1 ++ l2 := by
  induction l with
  | nil => cases h
  | cons y l ih =>
    by_cases k : y.id = i
    · rw [List.find?_cons_of_pos (by simp [k])] at h
      cases h
      exact ⟨[], l, k, rfl, by simp [k]⟩
    · rw [List.find?_cons_of_neg (by simp [k])] at h
      obtain ⟨l1, l2, e1, e2, e3⟩ := ih h
      exact ⟨y :: l1, l2, e1, by rw [e2]; rfl, by rw [List.eraseP_cons_of_neg (by simp [k]), e3]; rfl⟩

theorem erase_filter {l : List Handle} {i : Nat} (h : (l.map fun x => x.id).Nodup) :
    l.eraseP (·.id == i) = l.filter fun x => x.id != i := by
  induction l with
  | nil => rfl
  | cons y l ih =>
    rw [List.map_cons, List.nodup_cons] at h
    by_cases k : y.id = i
    · rw [List.eraseP_cons_of_pos (by simp [k]), List.filter_cons_of_neg (by simp [k])]
      rw [List.filter_eq_self.2]
      intro x hx
      simp only [bne_iff_ne]
      intro e
      exact h.1 (List.mem_map.2 ⟨x, hx, by rw [e, k]⟩)
    · rw [List.eraseP_cons_of_neg (by simp [k]), List.filter_cons_of_pos (by simp [k]), ih h.2]

/-- Closing, as the specification sees it. -/
theorem hs_close {l : List Handle} {i : Nat} {name : List Char} (h : (l.map fun x => x.id).Nodup) {hs : List (Nat × Nat)}
    (e : hs = (l.filter fun x => x.name == name).map fun x => (x.id, x.proc)) :
    (hs.filter fun x => x.1 != i) = ((l.eraseP (·.id == i)).filter fun x => x.name == name).map fun x => (x.id, x.proc) := by
  rw [erase_filter h, e, List.filter_map, List.filter_filter, List.filter_filter]
  congr 2
  funext x
  simp [Bool.and_comm, Function.comp]

theorem id_inj {l : List Handle} (h : (l.map fun x => x.id).Nodup) {x y : Handle} (hx : x ∈ l) (hy : y ∈ l) (e : x.id = y.id) : x = y := by
  induction l with
  | nil => cases hx
  | cons z l ih =>
    rw [List.map_cons, List.nodup_cons] at h
    rcases List.mem_cons.1 hx with a | a <;> rcases List.mem_cons.1 hy with c | c
    · rw [a, c]
    · exact absurd (List.mem_map.2 ⟨y, c, by rw [← e, a]⟩) h.1
    · exact absurd (List.mem_map.2 ⟨x, a, by rw [e, c]⟩) h.1
    · exact ih h.2 a c

section
variable {cf : Cfg} {name : List Char} {b : Nat} {hs : List (Nat × Nat)} {q : List Msg} {s : S}

/-! ### Changes elsewhere -/

theorem Inv.setTab (h : Inv cf name b hs q s) {p : Nat} {t : List Char} {r : Option Rec} (ht : t ≠ (normalize cf.num name).text)
    (hr : ∀ x, r = some x → x.map < s.nmap ∧ s.names (osKey (normalize cf.num name)) ≠ some (s.map x.map).seg) :
    Inv cf name b hs q (s.setTab p t r) := by
  have e : ∀ p', (s.setTab p t r).tab p' (normalize cf.num name).text = s.tab p' (normalize cf.num name).text := by
    intro p'; simp only [S.setTab]; rw [if_neg (fun k => ht k.2.symm)]
  refine ⟨h.nlt, h.ninj, h.mlt, ?_, h.hlt, ?_, ?_, ?_, h.ho, ?_, h.qn, h.qs, h.id1, h.id2, h.id3⟩
  · intro p' t' x hx
    simp only [S.setTab] at hx
    split at hx
    · exact (hr x hx).1
    · exact h.tlt p' t' x hx
  · intro p' x hx; rw [e] at hx; exact h.tk p' x hx
  · intro p' x hx; rw [e] at hx; exact h.tc p' x hx
  · intro p' t' x ht' hx
    simp only [S.setTab] at hx
    split at hx
    · exact (hr x hx).2
    · exact h.to p' t' x ht' hx
  · intro x hx hn; rw [e]; exact h.hk x hx hn

theorem Inv.unmap (h : Inv cf name b hs q s) {m : Nat} (hm : ∀ p r, s.tab p (normalize cf.num name).text = some r → r.map ≠ m) :
    Inv cf name b hs q (s.unmap m) := by
  have e : ∀ x, ((s.unmap m).map x).seg = (s.map x).seg := by
    intro x; simp only [S.unmap]; split
    · next k => rw [k]
    · rfl
  refine ⟨h.nlt, h.ninj, fun x hx => by rw [e]; exact h.mlt x hx, h.tlt, h.hlt, ?_, h.tc, ?_, ?_, h.hk, h.qn, h.qs, h.id1, h.id2, h.id3⟩
  · intro p r hr
    obtain ⟨h1, h2, h3⟩ := h.tk p r hr
    have hne : r.map ≠ m := hm p r hr
    have : (s.unmap m).map r.map = s.map r.map := by simp only [S.unmap]; rw [if_neg hne]
    rw [this]; exact ⟨h1, h2, h3⟩
  · intro p t r ht hr; rw [e]; exact h.to p t r ht hr
  · intro x hx hn; rw [e]; exact h.ho x hx hn

theorem Inv.newMap (h : Inv cf name b hs q s) {g p : Nat} (hg : g < s.nseg) : Inv cf name b hs q (s.newMap g p) := by
  have e : ∀ x, x < s.nmap → (s.newMap g p).map x = s.map x := by
    intro x hx; simp only [S.newMap]; rw [if_neg (Nat.ne_of_lt hx)]
  refine ⟨h.nlt, h.ninj, ?_, fun p t r hr => Nat.lt_succ_of_lt (h.tlt p t r hr), fun x hx => Nat.lt_succ_of_lt (h.hlt x hx), ?_, h.tc,
    ?_, ?_, h.hk, h.qn, h.qs, h.id1, h.id2, h.id3⟩
  · intro m hm
    by_cases k : m = s.nmap
    · simp only [S.newMap]; rw [if_pos k]; exact hg
    · rw [e m (by have : m < s.nmap + 1 := hm; omega)]; exact h.mlt m (by have : m < s.nmap + 1 := hm; omega)
  · intro p' r hr
    have hr' : s.tab p' (normalize cf.num name).text = some r := hr
    rw [e _ (h.tlt p' _ r hr')]; exact h.tk p' r hr'
  · intro p' t r ht hr
    have hr' : s.tab p' t = some r := hr
    rw [e _ (h.tlt p' _ r hr')]; exact h.to p' t r ht hr'
  · intro x hx hn
    rw [e _ (h.hlt x hx)]; exact h.ho x hx hn

theorem Inv.newSeg (h : Inv cf name b hs q s) (size : Nat) : Inv cf name b hs q (s.newSeg size) := by
  refine ⟨fun k g hg => Nat.lt_succ_of_lt (h.nlt k g hg), h.ninj, fun m hm => Nat.lt_succ_of_lt (h.mlt m hm), h.tlt, h.hlt, h.tk, h.tc, h.to, h.ho, h.hk, h.qn, ?_,
    h.id1, h.id2, h.id3⟩
  intro g hg
  have : g < s.nseg := h.nlt _ g hg
  have e : (s.newSeg size).seg g = s.seg g := by simp only [S.newSeg]; rw [if_neg (Nat.ne_of_lt this)]
  rw [e]; exact h.qs g hg

theorem Inv.setName (h : Inv cf name b hs q s) {k : OsKey} {g : Option Nat} (hk : k ≠ osKey (normalize cf.num name))
    (hg : ∀ x, g = some x → x < s.nseg ∧ ∀ k', s.names k' ≠ some x) : Inv cf name b hs q (s.setName k g) := by
  have e : (s.setName k g).names (osKey (normalize cf.num name)) = s.names (osKey (normalize cf.num name)) := by
    simp only [S.setName]; rw [if_neg (Ne.symm hk)]
  refine ⟨?_, ?_, h.mlt, h.tlt, h.hlt, ?_, h.tc, ?_, ?_, h.hk, ?_, ?_, h.id1, h.id2, h.id3⟩
  · intro k' x hx
    simp only [S.setName] at hx
    split at hx
    · exact (hg x hx).1
    · exact h.nlt k' x hx
  · intro k1 k2 x h1 h2
    simp only [S.setName] at h1 h2
    split at h1 <;> split at h2
    · simp_all
    · exact absurd h2 ((hg x h1).2 k2)
    · exact absurd h1 ((hg x h2).2 k1)
    · exact h.ninj k1 k2 x h1 h2
  · intro p r hr; rw [e]; exact h.tk p r hr
  · intro p t r ht hr; rw [e]; exact h.to p t r ht hr
  · intro x hx hn; rw [e]; exact h.ho x hx hn
  · rw [e]; exact h.qn
  · intro x hx; rw [e] at hx; exact h.qs x hx

theorem Inv.setChan (h : Inv cf name b hs q s) {g : Nat} {c : Option (Nat × List Msg)} (hg : s.names (osKey (normalize cf.num name)) ≠ some g) :
    Inv cf name b hs q (s.setChan g c) := by
  refine ⟨h.nlt, h.ninj, h.mlt, h.tlt, h.hlt, h.tk, h.tc, h.to, h.ho, h.hk, h.qn, ?_, h.id1, h.id2, h.id3⟩
  intro x hx
  have hne : x ≠ g := by intro k; subst k; exact hg hx
  have e : (s.setChan g c).seg x = s.seg x := by simp only [S.setChan]; rw [if_neg hne]
  rw [e]; exact h.qs x hx

/-- The next number is new. -/
theorem Inv.fresh (h : Inv cf name b hs q s) (p : Nat) (n : List Char) (m : Nat) : ((s.push p n m).hnd.map fun x => x.id).Nodup := by
  simp only [S.push, List.map_cons]
  rw [List.nodup_cons]
  refine ⟨?_, h.id3⟩
  intro k
  obtain ⟨x, hx, e⟩ := List.mem_map.1 k
  exact absurd (h.id2 x hx) (by rw [e]; exact Nat.lt_irrefl _)

theorem Inv.push (h : Inv cf name b hs q s) {p m : Nat} {n : List Char} (hn : n ≠ name) (hm : m < s.nmap)
    (hk : osKey (normalize cf.num n) ≠ osKey (normalize cf.num name))
    (hg : s.names (osKey (normalize cf.num name)) ≠ some (s.map m).seg) : Inv cf name b hs q (s.push p n m) := by
  refine ⟨h.nlt, h.ninj, h.mlt, h.tlt, ?_, h.tk, ?_, h.to, ?_, ?_, h.qn, ?_, ?_, ?_, ?_⟩
  · intro x hx
    rcases List.mem_cons.1 hx with e | e
    · rw [e]; exact hm
    · exact h.hlt x e
  · intro p' r hr
    refine ⟨(h.tc p' r hr).1, ?_⟩
    simp only [S.push]
    rw [List.countP_cons_of_neg (by simp [hn])]
    exact (h.tc p' r hr).2
  · intro x hx hxn
    rcases List.mem_cons.1 hx with e | e
    · rw [e]; exact ⟨hk, hg⟩
    · exact h.ho x e hxn
  · intro x hx hxn
    rcases List.mem_cons.1 hx with e | e
    · rw [e] at hxn; exact absurd hxn hn
    · exact h.hk x e hxn
  · intro g hg'
    rcases h.qs g hg' with e | ⟨e1, e2, e3⟩
    · exact .inl e
    · refine .inr ⟨e1, e2, ?_⟩
      intro x hx
      rcases List.mem_cons.1 hx with e | e
      · rw [e]; exact hn
      · exact e3 x e
  · simp only [S.push]
    rw [List.filter_cons_of_neg (by simp [hn])]; exact h.id1
  · intro x hx
    rcases List.mem_cons.1 hx with e | e
    · rw [e]; exact Nat.lt_succ_self _
    · exact Nat.lt_succ_of_lt (h.id2 x e)
  · exact h.fresh p n m

theorem Inv.apart (h : Inv cf name b hs q s) {m : Nat} (hm : s.names (osKey (normalize cf.num name)) ≠ some (s.map m).seg) :
    ∀ p r, s.tab p (normalize cf.num name).text = some r → r.map ≠ m := by
  intro p r hr k
  have := (h.tk p r hr).2.2
  rw [k] at this; exact hm this

/-- The text of another key. -/
theorem text_ne {n : List Char} (h : osKey (normalize cf.num n) ≠ osKey (normalize cf.num name)) :
    (normalize cf.num n).text ≠ (normalize cf.num name).text := by
  intro e
  apply h
  have := sysv_of_text cf.num n name e
  unfold osKey
  rw [e, this]

theorem enter_other (h : Inv cf name b hs q s) {p g : Nat} {k : Key} (hg : g < s.nseg)
    (hn : s.names (osKey (normalize cf.num name)) ≠ some g) (hk : k.text ≠ (normalize cf.num name).text) :
    Inv cf name b hs q (enter s p k g).1 ∧ ∀ m, (enter s p k g).2 = some m →
      m < (enter s p k g).1.nmap ∧ (enter s p k g).1.names (osKey (normalize cf.num name)) ≠ some ((enter s p k g).1.map m).seg := by
  have hs' : ((s.newMap g p).map s.nmap).seg = g := by simp [S.newMap]
  refine ⟨(h.newMap hg).setTab hk ?_, ?_⟩
  · intro x e; cases e
    exact ⟨Nat.lt_succ_self _, by rw [hs']; exact hn⟩
  · intro m e; cases e
    exact ⟨Nat.lt_succ_self _, by show s.names _ ≠ some ((s.newMap g p).map s.nmap).seg; rw [hs']; exact hn⟩

theorem open_other (h : Inv cf name b hs q s) {n : List Char} (hn : osKey (normalize cf.num n) ≠ osKey (normalize cf.num name))
    (p len : Nat) (create : Bool) (sys : Sys) :
    Inv cf name b hs q (openBuffer cf s p n len create sys).1 ∧ ∀ m, (openBuffer cf s p n len create sys).2 = some m →
      m < (openBuffer cf s p n len create sys).1.nmap ∧ (openBuffer cf s p n len create sys).1.names (osKey (normalize cf.num name)) ≠
        some ((openBuffer cf s p n len create sys).1.map m).seg := by
  have ht := text_ne hn
  unfold openBuffer
  generalize normalize cf.num n = k at *
  dsimp only
  have fresh : ∀ k', s.names k' ≠ some s.nseg := fun k' e => absurd (h.nlt k' _ e) (Nat.lt_irrefl _)
  split
  · exact ⟨h, by simp⟩
  · split
    · next r hr =>
      have := h.to p _ r ht hr
      refine ⟨h.setTab ht ?_, ?_⟩
      · intro x e; cases e; exact ⟨h.tlt p _ r hr, this⟩
      · intro m e; cases e; exact ⟨h.tlt p _ r hr, this⟩
    · next hr =>
      split
      · exact ⟨h, by simp⟩
      · split
        · split
          · exact ⟨h.newSeg _, by simp⟩
          · exact enter_other (h.newSeg _) (Nat.lt_succ_self _) (fresh _) ht
        · next n' hne hk =>
          have hnk : OsKey.sysv n' ≠ osKey (normalize cf.num name) := by rw [← hk]; exact hn
          split
          · next g hg =>
            split
            · exact ⟨h, by simp⟩
            · exact enter_other h (h.nlt _ g hg) (fun e => hnk (h.ninj _ _ g hg e)) ht
          · have h1 : Inv cf name b hs q ((s.newSeg (pages len)).setName (.sysv n') (some s.nseg)) :=
              (h.newSeg _).setName hnk fun x e => by cases e; exact ⟨Nat.lt_succ_self _, fresh⟩
            split
            · split
              · exact ⟨h1, by simp⟩
              · refine enter_other h1 (Nat.lt_succ_self _) ?_ ht
                simp only [S.setName]; rw [if_neg (Ne.symm hnk)]; exact fresh _
            · exact ⟨h, by simp⟩
        · next t hk =>
          have hnk : OsKey.posix t ≠ osKey (normalize cf.num name) := by rw [← hk]; exact hn
          split
          · next g hg =>
            split
            · exact ⟨h.setName hnk (by simp), by simp⟩
            · exact enter_other h (h.nlt _ g hg) (fun e => hnk (h.ninj _ _ g hg e)) ht
          · have h1 : Inv cf name b hs q ((s.newSeg (pages len)).setName (.posix t) (some s.nseg)) :=
              (h.newSeg _).setName hnk fun x e => by cases e; exact ⟨Nat.lt_succ_self _, fresh⟩
            split
            · refine enter_other h1 (Nat.lt_succ_self _) ?_ ht
              simp only [S.setName]; rw [if_neg (Ne.symm hnk)]; exact fresh _
            · exact ⟨h, by simp⟩

theorem close_other (h : Inv cf name b hs q s) {n : List Char} (hn : osKey (normalize cf.num n) ≠ osKey (normalize cf.num name))
    (hv : (normalize cf.num name).sysv ≠ 0) (p : Nat) : Inv cf name b hs q (closeBuffer cf s p n) := by
  have ht := text_ne hn
  unfold closeBuffer
  generalize normalize cf.num n = k at *
  dsimp only
  split
  · exact h
  · split
    · exact h
    · next r hr =>
      have h0 := h.to p _ r ht hr
      split
      · exact h.setTab ht fun x e => by cases e; exact ⟨h.tlt p _ r hr, h0⟩
      · have h1 : Inv cf name b hs q (s.setTab p k.text none) := h.setTab ht (by simp)
        have h2 := h1.unmap (h1.apart (m := r.map) h0)
        split
        · refine h2.setName ?_ (by simp)
          unfold osKey; rw [if_neg hv]; simp
        · exact h2

theorem attach_other (h : Inv cf name b hs q s) {n : List Char} (hn : osKey (normalize cf.num n) ≠ osKey (normalize cf.num name))
    (hv : (normalize cf.num name).sysv ≠ 0) (p len : Nat) (sys : Sys) : Inv cf name b hs q (attachHalf cf s p n len sys).1 := by
  have hnn : n ≠ name := by intro e; subst e; exact hn rfl
  have ho := open_other h hn p len false sys
  unfold attachHalf
  generalize openBuffer cf s p n len false sys = r at *
  obtain ⟨s1, m⟩ := r
  cases m with
  | none => exact ho.1
  | some m =>
    obtain ⟨h1, h2⟩ := ho
    obtain ⟨h2, h3⟩ := h2 m rfl
    dsimp only
    split
    · exact h1.push hnn h2 hn h3
    · exact close_other h1 hn hv p

theorem init_other (h : Inv cf name b hs q s) {n : List Char} (hn : osKey (normalize cf.num n) ≠ osKey (normalize cf.num name))
    (hv : (normalize cf.num name).sysv ≠ 0) (p len : Nat) (sys : Sys) : Inv cf name b hs q (initHalf cf s p n len sys).1 := by
  have hnn : n ≠ name := by intro e; subst e; exact hn rfl
  have ho := open_other h hn p len true sys
  unfold initHalf
  generalize openBuffer cf s p n len true sys = r at *
  obtain ⟨s1, m⟩ := r
  cases m with
  | none => exact ho.1
  | some m =>
    obtain ⟨h1, h2⟩ := ho
    obtain ⟨h2, h3⟩ := h2 m rfl
    dsimp only
    split
    · exact (h1.setChan h3).push hnn h2 hn h3
    · exact close_other h1 hn hv p

theorem chan_other (h : Inv cf name b hs q s) {n : List Char} (hn : osKey (normalize cf.num n) ≠ osKey (normalize cf.num name))
    (hv : (normalize cf.num name).sysv ≠ 0) (p len : Nat) (x y : Sys) : Inv cf name b hs q (openChan cf s p n len x y).1 := by
  have h1 := attach_other h hn hv p len x
  unfold openChan
  generalize attachHalf cf s p n len x = r at *
  obtain ⟨s1, m⟩ := r
  cases m with
  | none => exact init_other h1 hn hv p len y
  | some m => exact h1

/-! ### Changes of the channel itself -/

/-- A further connection by the name. -/
theorem Inv.gain (h : Inv cf name b hs q s) {p : Nat} {r : Rec} (hv : verify (normalize cf.num name).text = true) (h1 : r.map < s.nmap) (h2 : (s.map r.map).live = true)
    (h3 : (s.map r.map).proc = p) (h4 : s.names (osKey (normalize cf.num name)) = some (s.map r.map).seg)
    (h5 : (s.seg (s.map r.map).seg).chan = some (b, q)) (h5' : Mem.minLen ≤ (s.seg (s.map r.map).seg).size)
    (h6 : r.count = (s.hnd.countP fun x => x.proc == p && x.name == name) + 1)
    (h7 : ∀ x ∈ s.hnd, x.name = name → x.proc = p → x.map = r.map) :
    Inv cf name b ((s.nh, p) :: hs) q ((s.setTab p (normalize cf.num name).text (some r)).push p name r.map) := by
  refine ⟨h.nlt, h.ninj, h.mlt, ?_, ?_, ?_, ?_, ?_, ?_, ?_, h.qn, ?_, ?_, ?_, ?_⟩
  · intro p' t x hx
    simp only [S.push, S.setTab] at hx
    split at hx
    · cases hx; exact h1
    · exact h.tlt p' t x hx
  · intro x hx
    rcases List.mem_cons.1 hx with e | e
    · rw [e]; exact h1
    · exact h.hlt x e
  · intro p' x hx
    simp only [S.push, S.setTab] at hx
    split at hx
    · next e => cases hx; rw [e.1]; exact ⟨h2, h3, h4⟩
    · exact h.tk p' x hx
  · intro p' x hx
    simp only [S.push, S.setTab] at hx ⊢
    by_cases e : p' = p
    · rw [if_pos ⟨e, trivial⟩] at hx
      cases hx
      rw [List.countP_cons_of_pos (by simp [e]), e]
      exact ⟨by omega, h6⟩
    · rw [if_neg (fun k => e k.1)] at hx
      rw [List.countP_cons_of_neg (by simp; exact fun k => absurd k.symm e)]
      exact h.tc p' x hx
  · intro p' t x ht hx
    simp only [S.push, S.setTab] at hx
    rw [if_neg (fun k => ht k.2)] at hx
    exact h.to p' t x ht hx
  · intro x hx hxn
    rcases List.mem_cons.1 hx with e | e
    · rw [e] at hxn; exact absurd rfl hxn
    · exact h.ho x e hxn
  · intro x hx hxn
    rcases List.mem_cons.1 hx with e | e
    · refine ⟨r, ?_, ?_, hv⟩
      · simp only [S.push, S.setTab]; rw [if_pos ⟨by rw [e], trivial⟩]
      · rw [e]
    · simp only [S.push, S.setTab]
      by_cases k : x.proc = p
      · rw [if_pos ⟨k, trivial⟩]; exact ⟨r, rfl, (h7 x e hxn k).symm, hv⟩
      · rw [if_neg (fun j => k j.1)]; exact h.hk x e hxn
  · intro g hg
    have : g = (s.map r.map).seg := by
      have hg' : s.names (osKey (normalize cf.num name)) = some g := hg
      rw [h4] at hg'; cases hg'; rfl
    rw [this]; exact .inl ⟨h5, h5'⟩
  · simp only [S.push]
    rw [List.filter_cons_of_pos (by simp), List.map_cons, h.id1]; rfl
  · intro x hx
    rcases List.mem_cons.1 hx with e | e
    · rw [e]; exact Nat.lt_succ_self _
    · exact Nat.lt_succ_of_lt (h.id2 x e)
  · exact h.fresh p name r.map

/-- Without a segment there is no connection. -/
theorem Inv.nohnd (h : Inv cf name b hs q s) (hn : s.names (osKey (normalize cf.num name)) = none) : ∀ x ∈ s.hnd, x.name ≠ name := by
  intro x hx e
  obtain ⟨r, h1, _⟩ := h.hk x hx e
  have := (h.tk _ r h1).2.2
  rw [hn] at this; cases this

/-- Without a record in the process there is none of the process. -/
theorem Inv.noproc (h : Inv cf name b hs q s) {p : Nat} (hn : s.tab p (normalize cf.num name).text = none) :
    ∀ x ∈ s.hnd, x.name = name → x.proc ≠ p := by
  intro x hx e k
  obtain ⟨r, h1, _⟩ := h.hk x hx e
  rw [k, hn] at h1; cases h1

theorem Inv.nocount (h : Inv cf name b hs q s) {p : Nat} (hn : s.tab p (normalize cf.num name).text = none) :
    (s.hnd.countP fun x => x.proc == p && x.name == name) = 0 := by
  rw [List.countP_eq_zero]
  intro x hx
  simp only [Bool.and_eq_true, beq_iff_eq, not_and]
  intro k e; exact h.noproc hn x hx e k

/-- The segment is made. -/
theorem Inv.create (h : Inv cf name b hs q s) (hn : s.names (osKey (normalize cf.num name)) = none) (size : Nat) :
    Inv cf name b hs q ((s.newSeg size).setName (osKey (normalize cf.num name)) (some s.nseg)) := by
  have e : ((s.newSeg size).setName (osKey (normalize cf.num name)) (some s.nseg)).names (osKey (normalize cf.num name)) = some s.nseg := by
    simp [S.setName]
  have q0 := h.qn hn
  refine ⟨?_, ?_, fun m hm => Nat.lt_succ_of_lt (h.mlt m hm), h.tlt, h.hlt, ?_, h.tc, ?_, ?_, h.hk, fun _ => q0, ?_, h.id1, h.id2, h.id3⟩
  · intro k g hg
    simp only [S.setName] at hg
    split at hg
    · cases hg; exact Nat.lt_succ_self _
    · exact Nat.lt_succ_of_lt (h.nlt k g hg)
  · intro k k' g h1 h2
    simp only [S.setName] at h1 h2
    split at h1 <;> split at h2
    · simp_all
    · cases h1; exact absurd (h.nlt _ _ h2) (Nat.lt_irrefl _)
    · cases h2; exact absurd (h.nlt _ _ h1) (Nat.lt_irrefl _)
    · exact h.ninj k k' g h1 h2
  · intro p r hr
    have := (h.tk p r hr).2.2
    rw [hn] at this; cases this
  · intro p t r ht hr
    rw [e]
    intro k
    have := h.mlt _ (h.tlt p t r hr)
    have k : some s.nseg = some (s.map r.map).seg := k
    simp only [Option.some.injEq] at k
    omega
  · intro x hx hxn
    rw [e]
    refine ⟨(h.ho x hx hxn).1, ?_⟩
    intro k
    have := h.mlt _ (h.hlt x hx)
    have k : some s.nseg = some (s.map x.map).seg := k
    simp only [Option.some.injEq] at k
    omega
  · intro g hg
    rw [e] at hg; cases hg
    refine .inr ⟨?_, q0, h.nohnd hn⟩
    simp [S.newSeg, S.setName]

/-- The channel is initialised in an empty segment. -/
theorem Inv.fill (h : Inv cf name b hs q s) {g : Nat} (hn : s.names (osKey (normalize cf.num name)) = some g)
    (hc : (s.seg g).chan = none) (hz : Mem.minLen ≤ (s.seg g).size) :
    Inv cf name b hs [] (s.setChan g (some (b, []))) ∧ q = [] := by
  have q0 : q = [] := by
    rcases h.qs g hn with e | e
    · rw [e.1] at hc; cases hc
    · exact e.2.1
  refine ⟨⟨h.nlt, h.ninj, h.mlt, h.tlt, h.hlt, h.tk, h.tc, h.to, h.ho, h.hk, fun _ => rfl, ?_, h.id1, h.id2, h.id3⟩, q0⟩
  intro x hx
  have hx : s.names (osKey (normalize cf.num name)) = some x := hx
  rw [hn] at hx; cases hx
  exact .inl ⟨by simp [S.setChan], by simp [S.setChan]; exact hz⟩

/-- The queue changes. -/
theorem Inv.setQ (h : Inv cf name b hs q s) {g : Nat} (hn : s.names (osKey (normalize cf.num name)) = some g)
    (hc : (s.seg g).chan = some (b, q)) (q' : List Msg) : Inv cf name b hs q' (s.setChan g (some (b, q'))) := by
  refine ⟨h.nlt, h.ninj, h.mlt, h.tlt, h.hlt, h.tk, h.tc, h.to, h.ho, h.hk, ?_, ?_, h.id1, h.id2, h.id3⟩
  · intro k
    have k : s.names (osKey (normalize cf.num name)) = none := k
    rw [hn] at k; cases k
  intro x hx
  have hx : s.names (osKey (normalize cf.num name)) = some x := hx
  rw [hn] at hx; cases hx
  rcases h.qs g hn with e | e
  · exact .inl ⟨by simp [S.setChan], by simp [S.setChan]; exact e.2⟩
  · rw [e.1] at hc; cases hc

theorem open_again {p : Nat} {r : Rec} (hv : verify (normalize cf.num name).text = true)
    (ht : s.tab p (normalize cf.num name).text = some r) (len : Nat) (create : Bool) (sys : Sys) :
    openBuffer cf s p name len create sys =
      (s.setTab p (normalize cf.num name).text (some { r with count := (r.count + 1) % W64 }), some r.map) := by
  unfold openBuffer
  dsimp only
  rw [if_neg (by rw [hv]; simp), ht]

theorem open_sysv {p n : Nat} (hv : verify (normalize cf.num name).text = true)
    (ht : s.tab p (normalize cf.num name).text = none) (hk : osKey (normalize cf.num name) = .sysv n) (h0 : n ≠ 0)
    (len : Nat) (create : Bool) (sys : Sys) :
    openBuffer cf s p name len create sys =
      if sys = .failed then (s, none)
      else match s.names (osKey (normalize cf.num name)) with
        | some g => if pages len > (s.seg g).size ∨ sys = .late then (s, none) else enter s p (normalize cf.num name) g
        | none =>
          if create then
            if sys = .late then ((s.newSeg (pages len)).setName (osKey (normalize cf.num name)) (some s.nseg), none)
            else enter ((s.newSeg (pages len)).setName (osKey (normalize cf.num name)) (some s.nseg)) p (normalize cf.num name) s.nseg
          else (s, none) := by
  unfold openBuffer
  dsimp only
  rw [if_neg (by rw [hv]; simp), ht]
  cases n with
  | zero => exact absurd rfl h0
  | succ n => simp only [hk]; rfl

theorem close_last {p : Nat} {m : Nat} (hv : verify (normalize cf.num name).text = true) (h0 : (normalize cf.num name).sysv ≠ 0)
    (ht : s.tab p (normalize cf.num name).text = some ⟨1, m⟩) :
    closeBuffer cf s p name = (s.setTab p (normalize cf.num name).text none).unmap m := by
  unfold closeBuffer
  dsimp only
  rw [if_neg (by rw [hv]; simp), ht]
  dsimp only
  have : pred 1 = 0 := by unfold pred; rfl
  rw [this, if_neg (by simp), if_neg h0]

/-- Mapped and unmapped again. -/
theorem Inv.touch (h : Inv cf name b hs q s) {p g : Nat} (hg : g < s.nseg)
    (ht : s.tab p (normalize cf.num name).text = none) (hv : verify (normalize cf.num name).text = true)
    (h0 : (normalize cf.num name).sysv ≠ 0) (t : S) (e : t = closeBuffer cf (enter s p (normalize cf.num name) g).1 p name) :
    Inv cf name b hs q t ∧ t.tab = s.tab ∧ t.names = s.names ∧ t.seg = s.seg ∧ t.hnd = s.hnd ∧ t.nh = s.nh ∧ t.nseg = s.nseg := by
  have e1 : t = (((s.newMap g p).setTab p (normalize cf.num name).text (some ⟨1, s.nmap⟩)).setTab p (normalize cf.num name).text none).unmap s.nmap := by
    rw [e]
    rw [close_last (m := s.nmap) hv h0 (by simp [enter, S.setTab, h0])]
    simp only [enter, if_neg h0]
  have htab : (((s.newMap g p).setTab p (normalize cf.num name).text (some ⟨1, s.nmap⟩)).setTab p (normalize cf.num name).text none).tab = s.tab := by
    funext x y
    simp only [S.setTab, S.newMap]
    split
    · next k => rw [k.1, k.2, ht]
    · rfl
  have e2 : t = (s.newMap g p).unmap s.nmap := by
    rw [e1]
    have : ((s.newMap g p).setTab p (normalize cf.num name).text (some ⟨1, s.nmap⟩)).setTab p (normalize cf.num name).text none =
        s.newMap g p := by
      conv => rhs; rw [show s.newMap g p = { s.newMap g p with tab := s.tab } from rfl, ← htab]
      rfl
    rw [this]
  rw [e2]
  refine ⟨?_, rfl, rfl, rfl, rfl, rfl, rfl⟩
  refine (h.newMap hg).unmap ?_
  intro p' r hr k
  exact absurd (h.tlt p' _ r hr) (by rw [k]; exact Nat.lt_irrefl _)

/-- A new record with its first connection. -/
theorem Inv.first (h : Inv cf name b hs q s) {p g : Nat} (hg : s.names (osKey (normalize cf.num name)) = some g)
    (ht : s.tab p (normalize cf.num name).text = none) (hv : verify (normalize cf.num name).text = true) (h0 : (normalize cf.num name).sysv ≠ 0)
    (hc : (s.seg g).chan = some (b, q)) (hz : Mem.minLen ≤ (s.seg g).size) :
    Inv cf name b ((s.nh, p) :: hs) q ((enter s p (normalize cf.num name) g).1.push p name s.nmap) := by
  have hm : (s.newMap g p).map s.nmap = { seg := g, proc := p, live := true } := by simp [S.newMap]
  have := (h.newMap (p := p) (h.nlt _ g hg)).gain (p := p) (r := ⟨1, s.nmap⟩) hv (Nat.lt_succ_self _) (by rw [hm]) (by rw [hm])
    (by rw [hm]; exact hg) (by rw [hm]; exact hc) (by rw [hm]; exact hz) (by
      show 1 = (s.hnd.countP _) + 1
      rw [h.nocount ht]) (fun x hx e k => absurd k (h.noproc ht x hx e))
  unfold enter
  rw [if_neg h0]; exact this

theorem attach_self (h : Inv cf name b hs q s) {n : Nat} (hk : osKey (normalize cf.num name) = .sysv n) (hn : n ≠ 0)
    (h0 : (normalize cf.num name).sysv ≠ 0) (p len : Nat) (sys : Sys) (hb : cf.build p = b) (hl : s.hnd.length + 1 < W64)
    (t : S) (o : Option Nat) (he : attachHalf cf s p name len sys = (t, o)) :
    (∀ i, o = some i → i = s.nh ∧ Inv cf name b ((i, p) :: hs) q t ∧ t.hnd.length = s.hnd.length + 1) ∧
    (o = none → Inv cf name b hs q t ∧ t.hnd = s.hnd ∧ (verify (normalize cf.num name).text = true →
      t.tab p (normalize cf.num name).text = none ∧ (sys = .ok → t.names (osKey (normalize cf.num name)) = none ∨
        ∃ g, t.names (osKey (normalize cf.num name)) = some g ∧ (pages len > (t.seg g).size ∨ (t.seg g).chan = none)))) := by
  by_cases hv : verify (normalize cf.num name).text = true
  · cases ht : s.tab p (normalize cf.num name).text with
    | some r =>
      unfold attachHalf at he
      rw [open_again hv ht] at he
      dsimp only at he
      have h1 := h.tk p r ht
      have h2 := h.tc p r ht
      have hc : (s.seg (s.map r.map).seg).chan = some (b, q) ∧ Mem.minLen ≤ (s.seg (s.map r.map).seg).size := by
        rcases h.qs _ h1.2.2 with e | e
        · exact e
        · exfalso
          have : 0 < s.hnd.countP fun x => x.proc == p && x.name == name := by rw [← h2.2]; exact h2.1
          rw [List.countP_pos_iff] at this
          obtain ⟨x, hx, hp⟩ := this
          simp only [Bool.and_eq_true, beq_iff_eq] at hp
          exact e.2.2 x hx hp.2
      rw [if_pos (by
        refine ⟨hc.2, ?_⟩
        show (s.seg (s.map r.map).seg).chan.map Prod.fst = _
        rw [hc.1, hb]; rfl)] at he
      cases he
      refine ⟨?_, by simp⟩
      intro i e; cases e
      have hcount : (r.count + 1) % W64 = r.count + 1 := by
        apply Nat.mod_eq_of_lt
        have := List.countP_le_length (p := fun x : Handle => x.proc == p && x.name == name) (l := s.hnd)
        rw [← h2.2] at this
        omega
      refine ⟨rfl, ?_, rfl⟩
      rw [hcount]
      exact h.gain (r := { r with count := r.count + 1 }) hv (h.tlt p _ r ht) h1.1 h1.2.1 h1.2.2 hc.1 hc.2 (by rw [← h2.2])
        (fun x hx e k => by
          obtain ⟨r', a, c⟩ := h.hk x hx e
          rw [k, ht] at a; cases a; exact c.1.symm)
    | none =>
      unfold attachHalf at he
      rw [open_sysv hv ht hk hn] at he
      by_cases hs' : sys = .failed
      · rw [if_pos hs'] at he; cases he
        exact ⟨by simp, fun _ => ⟨h, rfl, fun _ => ⟨ht, fun k => by rw [hs'] at k; cases k⟩⟩⟩
      · rw [if_neg hs'] at he
        cases hg : s.names (osKey (normalize cf.num name)) with
        | none =>
          rw [hg] at he
          dsimp only at he
          rw [if_neg (by simp)] at he
          cases he
          exact ⟨by simp, fun _ => ⟨h, rfl, fun _ => ⟨ht, fun _ => .inl hg⟩⟩⟩
        | some g =>
          rw [hg] at he
          dsimp only at he
          by_cases hz : pages len > (s.seg g).size ∨ sys = .late
          · rw [if_pos hz] at he; cases he
            exact ⟨by simp, fun _ => ⟨h, rfl, fun _ => ⟨ht, fun k => .inr ⟨g, hg, .inl (by
              rcases hz with z | z
              · exact z
              · rw [k] at z; cases z)⟩⟩⟩⟩
          · rw [if_neg hz] at he
            have e1 : enter s p (normalize cf.num name) g = ((enter s p (normalize cf.num name) g).1, some s.nmap) := rfl
            have hm : ((enter s p (normalize cf.num name) g).1.map s.nmap).seg = g := by simp [enter, S.setTab, S.newMap]
            have hseg : (enter s p (normalize cf.num name) g).1.seg = s.seg := rfl
            rw [e1] at he
            dsimp only at he
            rw [hm, hseg] at he
            rcases h.qs g hg with e | e
            · rw [if_pos ⟨e.2, by rw [e.1, hb]; rfl⟩] at he
              cases he
              refine ⟨fun i k => ?_, by simp⟩
              cases k
              exact ⟨rfl, h.first hg ht hv h0 e.1 e.2, rfl⟩
            · rw [if_neg (by rw [e.1]; simp)] at he
              cases he
              refine ⟨by simp, fun _ => ?_⟩
              obtain ⟨i1, i2, i3, i4, i5, i6, i7⟩ := h.touch (h.nlt _ g hg) ht hv h0 _ rfl
              refine ⟨i1, i5, fun _ => ⟨by rw [i2]; exact ht, fun _ => .inr ⟨g, by rw [i3]; exact hg, .inr (by rw [i4]; exact e.1)⟩⟩⟩
  · have hv' : verify (normalize cf.num name).text = false := by
      cases k : verify (normalize cf.num name).text with
      | true => exact absurd k hv
      | false => rfl
    unfold attachHalf openBuffer at he
    dsimp only at he
    rw [if_pos hv'] at he
    cases he
    exact ⟨by simp, fun _ => ⟨h, rfl, fun k => absurd k hv⟩⟩

/-- `mem_init` in a segment that has no channel yet, or nothing. -/
theorem init_self (h : Inv cf name b hs q s) {n : Nat} (hk : osKey (normalize cf.num name) = .sysv n) (hn : n ≠ 0)
    (h0 : (normalize cf.num name).sysv ≠ 0) (p len : Nat) (sys : Sys) (hb : cf.build p = b)
    (hc : verify (normalize cf.num name).text = true → s.tab p (normalize cf.num name).text = none ∧
      (sys = .ok → s.names (osKey (normalize cf.num name)) = none ∨
        ∃ g, s.names (osKey (normalize cf.num name)) = some g ∧ (pages len > (s.seg g).size ∨ (s.seg g).chan = none)))
    (t : S) (o : Option Nat) (he : initHalf cf s p name len sys = (t, o)) :
    (∀ i, o = some i → i = s.nh ∧ Inv cf name b ((i, p) :: hs) q t ∧ t.hnd.length = s.hnd.length + 1) ∧
    (o = none → Inv cf name b hs q t ∧ t.hnd = s.hnd) := by
  by_cases hv : verify (normalize cf.num name).text = true
  · obtain ⟨ht, hc⟩ := hc hv
    -- a mapped empty segment
    have key : ∀ (u : S) (g : Nat), Inv cf name b hs q u → u.hnd = s.hnd → u.nh = s.nh → u.tab p (normalize cf.num name).text = none →
        u.names (osKey (normalize cf.num name)) = some g → (u.seg g).chan = none →
        (match enter u p (normalize cf.num name) g with
          | (s, none) => (s, none)
          | (s, some m) =>
            if Mem.minLen ≤ (s.seg (s.map m).seg).size then
              ((s.setChan (s.map m).seg (some (cf.build p, []))).push p name m, some s.nh)
            else (closeBuffer cf s p name, none)) = (t, o) →
        (∀ i, o = some i → i = s.nh ∧ Inv cf name b ((i, p) :: hs) q t ∧ t.hnd.length = s.hnd.length + 1) ∧
        (o = none → Inv cf name b hs q t ∧ t.hnd = s.hnd) := by
      intro u g hu a1 a2 a3 a4 a5 he
      have e1 : enter u p (normalize cf.num name) g = ((enter u p (normalize cf.num name) g).1, some u.nmap) := rfl
      have hm : ((enter u p (normalize cf.num name) g).1.map u.nmap).seg = g := by simp [enter, S.setTab, S.newMap]
      have hseg : (enter u p (normalize cf.num name) g).1.seg = u.seg := rfl
      rw [e1] at he
      dsimp only at he
      rw [hm, hseg] at he
      by_cases hz : Mem.minLen ≤ (u.seg g).size
      · rw [if_pos hz] at he
        cases he
        refine ⟨fun i k => ?_, by simp⟩
        cases k
        obtain ⟨f1, f2⟩ := hu.fill a4 a5 hz
        have := f1.first (p := p) a4 a3 hv h0 (by simp [S.setChan]) (by simp [S.setChan]; exact hz)
        rw [f2, hb, ← a2]
        refine ⟨rfl, this, ?_⟩
        show (_ :: u.hnd).length = _
        rw [a1]; rfl
      · rw [if_neg hz] at he
        cases he
        refine ⟨by simp, fun _ => ?_⟩
        obtain ⟨i1, i2, i3, i4, i5, i6, i7⟩ := hu.touch (hu.nlt _ g a4) a3 hv h0 _ rfl
        exact ⟨i1, by rw [i5, a1]⟩
    unfold initHalf at he
    rw [open_sysv hv ht hk hn] at he
    by_cases hs' : sys = .failed
    · rw [if_pos hs'] at he; cases he
      exact ⟨by simp, fun _ => ⟨h, rfl⟩⟩
    · rw [if_neg hs'] at he
      cases hg : s.names (osKey (normalize cf.num name)) with
      | none =>
        rw [hg] at he
        dsimp only at he
        rw [if_pos rfl] at he
        by_cases hl : sys = .late
        · rw [if_pos hl] at he; cases he
          exact ⟨by simp, fun _ => ⟨h.create hg _, rfl⟩⟩
        · rw [if_neg hl] at he
          exact key _ _ (h.create hg _) rfl rfl ht (by simp [S.setName]) (by simp [S.setName, S.newSeg]) he
      | some g =>
        rw [hg] at he
        dsimp only at he
        by_cases hz : pages len > (s.seg g).size ∨ sys = .late
        · rw [if_pos hz] at he; cases he
          exact ⟨by simp, fun _ => ⟨h, rfl⟩⟩
        · rw [if_neg hz] at he
          have hok : sys = .ok := by
            cases sys with
            | ok => rfl
            | failed => exact absurd rfl hs'
            | late => exact absurd (.inr rfl) hz
          refine key s g h rfl rfl ht hg ?_ he
          rcases hc hok with c | ⟨g', c1, c2⟩
          · rw [hg] at c; cases c
          · rw [hg] at c1; cases c1
            rcases c2 with c2 | c2
            · exact absurd (.inl c2) hz
            · exact c2
  · have hv' : verify (normalize cf.num name).text = false := by
      cases k : verify (normalize cf.num name).text with
      | true => exact absurd k hv
      | false => rfl
    unfold initHalf openBuffer at he
    dsimp only at he
    rw [if_pos hv'] at he
    cases he
    exact ⟨by simp, fun _ => ⟨h, rfl⟩⟩

theorem chan_self (h : Inv cf name b hs q s) {n : Nat} (hk : osKey (normalize cf.num name) = .sysv n) (hn : n ≠ 0)
    (h0 : (normalize cf.num name).sysv ≠ 0) (p len : Nat) (x y : Sys) (hxy : x = .ok ∨ y ≠ .ok) (hb : cf.build p = b)
    (hl : s.hnd.length + 1 < W64) (t : S) (o : Option Nat) (he : openChan cf s p name len x y = (t, o)) :
    (∀ i, o = some i → Inv cf name b ((i, p) :: hs) q t ∧ t.hnd.length = s.hnd.length + 1) ∧
    (o = none → Inv cf name b hs q t ∧ t.hnd = s.hnd) := by
  unfold openChan at he
  rcases ha : attachHalf cf s p name len x with ⟨s1, m⟩
  rw [ha] at he
  obtain ⟨a1, a2⟩ := attach_self h hk hn h0 p len x hb hl _ _ ha
  cases m with
  | some i =>
    cases he
    refine ⟨fun j k => ?_, by simp⟩
    cases k
    exact (a1 i rfl).2
  | none =>
    obtain ⟨b1, b2, b3⟩ := a2 rfl
    have := init_self b1 hk hn h0 p len y hb (fun hv => ⟨(b3 hv).1, fun hy => (b3 hv).2 (by
      rcases hxy with e | e
      · exact e
      · exact absurd hy e)⟩) _ _ he
    refine ⟨fun i k => ?_, fun k => ?_⟩
    · obtain ⟨_, c2, c3⟩ := this.1 i k
      exact ⟨c2, by rw [c3, b2]⟩
    · obtain ⟨c1, c2⟩ := this.2 k
      exact ⟨c1, by rw [c2, b2]⟩

/-- A connection by another name goes. -/
theorem Inv.drop (h : Inv cf name b hs q s) {i : Nat} {x : Handle} (hx : s.hnd.find? (·.id == i) = some x) (hn : x.name ≠ name) :
    Inv cf name b (hs.filter fun x => x.1 != i) q { s with hnd := s.hnd.eraseP (·.id == i) } := by
  have sub : ∀ y ∈ s.hnd.eraseP (·.id == i), y ∈ s.hnd := fun y hy => List.mem_of_mem_eraseP hy
  refine ⟨h.nlt, h.ninj, h.mlt, h.tlt, fun y hy => h.hlt y (sub y hy), h.tk, ?_, h.to, fun y hy => h.ho y (sub y hy), fun y hy => h.hk y (sub y hy), h.qn, ?_,
    hs_close h.id3 h.id1, fun y hy => h.id2 y (sub y hy), h.id3.sublist (List.Sublist.map _ (List.eraseP_sublist ..))⟩
  · intro p r hr
    refine ⟨(h.tc p r hr).1, ?_⟩
    rw [(h.tc p r hr).2]
    obtain ⟨l1, l2, e1, e2, e3⟩ := split_find hx
    dsimp only
    rw [e3, e2, List.countP_append, List.countP_append, List.countP_cons_of_neg (by simp [hn])]
  · intro g hg
    rcases h.qs g hg with e | ⟨e1, e2, e3⟩
    · exact .inl e
    · exact .inr ⟨e1, e2, fun y hy => e3 y (sub y hy)⟩

/-- A connection by the name goes. -/
theorem close_self (h : Inv cf name b hs q s) (h0 : (normalize cf.num name).sysv ≠ 0) (hl : s.hnd.length < W64)
    {i : Nat} {x : Handle} (hx : s.hnd.find? (·.id == i) = some x) (hn : x.name = name) :
    Inv cf name b (hs.filter fun x => x.1 != i) q (closeBuffer cf { s with hnd := s.hnd.eraseP (·.id == i) } x.proc x.name) := by
  have sub : ∀ y ∈ s.hnd.eraseP (·.id == i), y ∈ s.hnd := fun y hy => List.mem_of_mem_eraseP hy
  have hxm : x ∈ s.hnd := List.mem_of_find?_eq_some hx
  obtain ⟨r, hr, hrm, hv⟩ := h.hk x hxm hn
  obtain ⟨t1, t2, t3⟩ := h.tk _ r hr
  obtain ⟨c1, c2⟩ := h.tc _ r hr
  obtain ⟨l1, l2, e1, e2, e3⟩ := split_find hx
  have cnt : ∀ p, (s.hnd.countP fun y => y.proc == p && y.name == name) =
      ((s.hnd.eraseP (·.id == i)).countP fun y => y.proc == p && y.name == name) + (if x.proc = p then 1 else 0) := by
    intro p
    rw [e3, e2, List.countP_append, List.countP_append]
    by_cases k : x.proc = p
    · rw [List.countP_cons_of_pos (by simp [hn, k]), if_pos k]; omega
    · rw [List.countP_cons_of_neg (by simp [k]), if_neg k]; omega
  have hle := List.countP_le_length (p := fun y : Handle => y.proc == x.proc && y.name == name) (l := s.hnd)
  have cx := cnt x.proc
  rw [if_pos rfl] at cx
  have hp : pred r.count = r.count - 1 := dec_count c1 (by omega)
  rw [hn]
  unfold closeBuffer
  dsimp only
  split
  · next k => rw [hv] at k; cases k
  · rw [hr]
    dsimp only
    rw [hp]
    split
    · next hc =>
      refine ⟨h.nlt, h.ninj, h.mlt, ?_, fun y hy => h.hlt y (sub y hy), ?_, ?_, ?_, fun y hy => h.ho y (sub y hy), ?_, h.qn, ?_,
        hs_close h.id3 h.id1, fun y hy => h.id2 y (sub y hy), h.id3.sublist (List.Sublist.map _ (List.eraseP_sublist ..))⟩
      · intro p t r' hr'
        simp only [S.setTab] at hr'
        split at hr'
        · cases hr'; exact h.tlt _ _ r hr
        · exact h.tlt p t r' hr'
      · intro p r' hr'
        simp only [S.setTab] at hr'
        split at hr'
        · next k => cases hr'; rw [k.1]; exact ⟨t1, t2, t3⟩
        · exact h.tk p r' hr'
      · intro p r' hr'
        simp only [S.setTab] at hr' ⊢
        have := cnt p
        by_cases k : p = x.proc
        · rw [if_pos ⟨k, trivial⟩] at hr'
          cases hr'
          subst k
          exact ⟨hc, by dsimp only; omega⟩
        · rw [if_neg (fun j => k j.1)] at hr'
          rw [if_neg (fun j => k j.symm)] at this
          have q := h.tc p r' hr'
          exact ⟨q.1, by rw [q.2]; exact this⟩
      · intro p t r' ht hr'
        simp only [S.setTab] at hr'
        rw [if_neg (fun j => ht j.2)] at hr'
        exact h.to p t r' ht hr'
      · intro y hy hyn
        obtain ⟨r', a1, a2⟩ := h.hk y (sub y hy) hyn
        simp only [S.setTab]
        by_cases k : y.proc = x.proc
        · rw [if_pos ⟨k, trivial⟩]
          rw [k, hr] at a1; cases a1
          exact ⟨_, rfl, a2⟩
        · rw [if_neg (fun j => k j.1)]; exact ⟨r', a1, a2⟩
      · intro g hg
        rcases h.qs g hg with e | ⟨q1, q2, q3⟩
        · exact .inl e
        · exact .inr ⟨q1, q2, fun y hy => q3 y (sub y hy)⟩
    · next hc =>
      have hc1 : r.count = 1 := by omega
      have none0 : ∀ y ∈ s.hnd.eraseP (·.id == i), y.name = name → y.proc ≠ x.proc := by
        have : ((s.hnd.eraseP (·.id == i)).countP fun y => y.proc == x.proc && y.name == name) = 0 := by omega
        rw [List.countP_eq_zero] at this
        intro y hy hyn k
        exact this y hy (by simp [hyn, k])
      have ms : ∀ m, (((s.setTab x.proc (normalize cf.num name).text none).unmap r.map).map m).seg = (s.map m).seg := by
        intro m; simp only [S.unmap, S.setTab]; split
        · next k => rw [k]
        · rfl
      refine ⟨h.nlt, h.ninj, fun m hm => Nat.lt_of_le_of_lt (Nat.le_of_eq (ms m)) (h.mlt m hm), ?_, fun y hy => h.hlt y (sub y hy), ?_, ?_, ?_, ?_, ?_, h.qn, ?_,
        hs_close h.id3 h.id1, fun y hy => h.id2 y (sub y hy), h.id3.sublist (List.Sublist.map _ (List.eraseP_sublist ..))⟩
      · intro p t r' hr'
        simp only [S.setTab, S.unmap] at hr'
        split at hr'
        · cases hr'
        · exact h.tlt p t r' hr'
      · intro p r' hr'
        simp only [S.setTab, S.unmap] at hr'
        split at hr'
        · cases hr'
        · next k =>
          obtain ⟨u1, u2, u3⟩ := h.tk p r' hr'
          have hne : r'.map ≠ r.map := by
            intro j; rw [j, t2] at u2
            exact k ⟨u2.symm, trivial⟩
          have : ((s.setTab x.proc (normalize cf.num name).text none).unmap r.map).map r'.map = s.map r'.map := by
            simp only [S.unmap, S.setTab]; rw [if_neg hne]
          show (((s.setTab x.proc (normalize cf.num name).text none).unmap r.map).map r'.map).live = true ∧
            (((s.setTab x.proc (normalize cf.num name).text none).unmap r.map).map r'.map).proc = p ∧
            s.names _ = some (((s.setTab x.proc (normalize cf.num name).text none).unmap r.map).map r'.map).seg
          rw [this]; exact ⟨u1, u2, u3⟩
      · intro p r' hr'
        simp only [S.setTab, S.unmap] at hr' ⊢
        by_cases k : p = x.proc
        · rw [if_pos ⟨k, trivial⟩] at hr'; cases hr'
        · rw [if_neg (fun j => k j.1)] at hr'
          have := cnt p
          rw [if_neg (fun j => k j.symm)] at this
          have q := h.tc p r' hr'
          exact ⟨q.1, by rw [q.2]; exact this⟩
      · intro p t r' ht hr'
        simp only [S.setTab, S.unmap] at hr'
        rw [if_neg (fun j => ht j.2)] at hr'
        show s.names _ ≠ some (((s.setTab x.proc (normalize cf.num name).text none).unmap r.map).map r'.map).seg
        rw [ms]; exact h.to p t r' ht hr'
      · intro y hy hyn
        refine ⟨(h.ho y (sub y hy) hyn).1, ?_⟩
        show s.names _ ≠ some (((s.setTab x.proc (normalize cf.num name).text none).unmap r.map).map y.map).seg
        rw [ms]; exact (h.ho y (sub y hy) hyn).2
      · intro y hy hyn
        simp only [S.setTab, S.unmap]
        rw [if_neg (fun j => none0 y hy hyn j.1)]
        exact h.hk y (sub y hy) hyn
      · intro g hg
        rcases h.qs g hg with e | ⟨q1, q2, q3⟩
        · exact .inl e
        · exact .inr ⟨q1, q2, fun y hy => q3 y (sub y hy)⟩

theorem die_inv (h : Inv cf name b hs q s) (p : Nat) : Inv cf name b (hs.filter fun x => x.2 != p) q (step cf s (.die p)).1 := by
  simp only [step]
  have sub : ∀ y ∈ s.hnd.filter (fun x => x.proc != p), y ∈ s.hnd := fun y hy => (List.mem_filter.1 hy).1
  have ms : ∀ m, (if (s.map m).proc = p then { s.map m with live := false } else s.map m).seg = (s.map m).seg := by
    intro m; split <;> rfl
  refine ⟨h.nlt, h.ninj, fun m hm => by dsimp only; rw [ms]; exact h.mlt m hm, ?_, fun y hy => h.hlt y (sub y hy), ?_, ?_, ?_, ?_, ?_, h.qn, ?_,
    ?_, fun y hy => h.id2 y (sub y hy), h.id3.sublist (List.Sublist.map _ List.filter_sublist)⟩
  · intro p' t r hr
    dsimp only at hr
    split at hr
    · cases hr
    · exact h.tlt p' t r hr
  · intro p' r hr
    dsimp only at hr ⊢
    split at hr
    · cases hr
    · next k =>
      obtain ⟨u1, u2, u3⟩ := h.tk p' r hr
      rw [if_neg (by rw [u2]; exact k)]
      exact ⟨u1, u2, u3⟩
  · intro p' r hr
    dsimp only at hr ⊢
    split at hr
    · cases hr
    · next k =>
      refine ⟨(h.tc p' r hr).1, ?_⟩
      rw [(h.tc p' r hr).2, List.countP_filter]
      apply List.countP_congr
      intro y _
      simp only [Bool.and_eq_true, beq_iff_eq, bne_iff_ne]
      constructor
      · intro ⟨a, c⟩; exact ⟨⟨a, c⟩, by rw [a]; exact k⟩
      · intro ⟨a, _⟩; exact a
  · intro p' t r ht hr
    dsimp only at hr ⊢
    split at hr
    · cases hr
    · rw [ms]; exact h.to p' t r ht hr
  · intro y hy hyn
    dsimp only
    rw [ms]; exact h.ho y (sub y hy) hyn
  · intro y hy hyn
    dsimp only
    rw [if_neg (by simpa using (List.mem_filter.1 hy).2)]
    exact h.hk y (sub y hy) hyn
  · intro g hg
    rcases h.qs g hg with e | ⟨q1, q2, q3⟩
    · exact .inl e
    · exact .inr ⟨q1, q2, fun y hy => q3 y (sub y hy)⟩
  · dsimp only
    rw [h.id1, List.filter_map, List.filter_filter, List.filter_filter]
    congr 2
    funext x
    simp [Bool.and_comm, Function.comp]

theorem enter_hnd (s : S) (p : Nat) (k : Key) (g : Nat) : (enter s p k g).1.hnd = s.hnd := rfl

theorem open_hnd (p : Nat) (n : List Char) (len : Nat) (c : Bool) (y : Sys) : (openBuffer cf s p n len c y).1.hnd = s.hnd := by
  unfold openBuffer
  dsimp only
  repeat' split
  all_goals rfl

theorem close_hnd (p : Nat) (n : List Char) : (closeBuffer cf s p n).hnd = s.hnd := by
  unfold closeBuffer
  dsimp only
  repeat' split
  all_goals rfl

theorem attach_hnd (p : Nat) (n : List Char) (len : Nat) (y : Sys) :
    (attachHalf cf s p n len y).1.hnd.length ≤ s.hnd.length + ((attachHalf cf s p n len y).2.elim 0 fun _ => 1) := by
  have e := open_hnd (cf := cf) (s := s) p n len false y
  unfold attachHalf
  generalize openBuffer cf s p n len false y = r at *
  obtain ⟨s1, m⟩ := r
  cases m with
  | none => dsimp only at e ⊢; rw [e]; simp
  | some m =>
    dsimp only at e ⊢
    split
    · simp [S.push, e]
    · rw [close_hnd, e]; simp

theorem init_hnd (p : Nat) (n : List Char) (len : Nat) (y : Sys) :
    (initHalf cf s p n len y).1.hnd.length ≤ s.hnd.length + 1 := by
  have e := open_hnd (cf := cf) (s := s) p n len true y
  unfold initHalf
  generalize openBuffer cf s p n len true y = r at *
  obtain ⟨s1, m⟩ := r
  cases m with
  | none => dsimp only at e ⊢; rw [e]; simp
  | some m =>
    dsimp only at e ⊢
    split
    · simp [S.push, S.setChan, e]
    · rw [close_hnd, e]; simp

theorem step_hnd (o : Op) : (step cf s o).1.hnd.length ≤ s.hnd.length + 1 := by
  cases o with
  | «open» p n len a i =>
    simp only [step, openChan]
    have h1 := attach_hnd (cf := cf) (s := s) p n len a
    generalize attachHalf cf s p n len a = r at *
    obtain ⟨s1, m⟩ := r
    cases m with
    | some m => exact h1
    | none => exact Nat.le_trans (init_hnd (cf := cf) (s := s1) p n len i) (Nat.succ_le_succ h1)
  | attach p n len a =>
    refine Nat.le_trans (attach_hnd (cf := cf) (s := s) p n len a) ?_
    cases (attachHalf cf s p n len a).2 <;> simp
  | init p n len i => exact init_hnd p n len i
  | send h m room =>
    simp only [step]; repeat' split
    all_goals first | exact Nat.le_succ _ | (simp only [S.setChan]; exact Nat.le_succ _)
  | recv h =>
    simp only [step]; repeat' split
    all_goals first | exact Nat.le_succ _ | (simp only [S.setChan]; exact Nat.le_succ _)
  | close h =>
    simp only [step]; split
    · exact Nat.le_succ _
    · rw [close_hnd]
      exact Nat.le_trans (List.length_eraseP_le ..) (Nat.le_succ _)
  | die p =>
    simp only [step]
    exact Nat.le_trans (List.length_filter_le ..) (Nat.le_succ _)

end

/-- What is assumed of a history. -/
structure Calm (cf : Cfg) (name : List Char) (o : Op) : Prop where
  /-- no other name is taken for the same segment -/
  alias : ∀ n, o.opens = some n → osKey (normalize cf.num n) = osKey (normalize cf.num name) → n = name
  /-- nobody initialises the channel after others came in between -/
  init : ∀ p len i, o ≠ .init p name len i
  /-- the system does not refuse to open the segment and then allow it -/
  sys : ∀ p len a i, o = .open p name len a i → a = .ok ∨ i ≠ .ok

theorem run_fifo {cf : Cfg} {name : List Char} {b n : Nat} (hk : osKey (normalize cf.num name) = .sysv n) (hn : n ≠ 0)
    (h0 : (normalize cf.num name).sysv ≠ 0) (hb : ∀ p, cf.build p = b) (ops : List Op) :
    ∀ (s : S) (hs : List (Nat × Nat)) (q : List Msg), Inv cf name b hs q s → (∀ o ∈ ops, Calm cf name o) → s.hnd.length + ops.length < W64 →
      Fifo name hs q ops (run cf s ops).2 := by
  induction ops with
  | nil => intro s hs q _ _ _; simp [run, Fifo]
  | cons o os ih =>
    intro s hs q h hc hl
    have hl' : s.hnd.length + 1 < W64 := by simp at hl; omega
    have next : ∀ hs' q', Inv cf name b hs' q' (step cf s o).1 → Fifo name hs' q' os (run cf (step cf s o).1 os).2 := by
      intro hs' q' h'
      refine ih _ _ _ h' (fun x hx => hc x (List.mem_cons_of_mem _ hx)) ?_
      have := step_hnd (cf := cf) (s := s) o
      simp at hl
      omega
    have co := hc o (List.mem_cons_self ..)
    simp only [run]
    -- a connection by the name leads to the channel
    have lead : ∀ x ∈ s.hnd, x.name = name → (s.map x.map).live = true ∧
        s.names (osKey (normalize cf.num name)) = some (s.map x.map).seg ∧ (s.seg (s.map x.map).seg).chan = some (b, q) := by
      intro x hx e
      obtain ⟨r, r1, r2, _⟩ := h.hk x hx e
      obtain ⟨t1, _, t3⟩ := h.tk _ r r1
      rw [r2] at t1 t3
      refine ⟨t1, t3, ?_⟩
      rcases h.qs _ t3 with k | k
      · exact k.1
      · exact absurd e (k.2.2 x hx)
    have mem : ∀ x ∈ s.hnd, (x.name = name ↔ x.id ∈ hs.map Prod.fst) := by
      intro x hx
      rw [h.id1, List.map_map]
      constructor
      · intro e
        exact List.mem_map.2 ⟨x, List.mem_filter.2 ⟨hx, by simp [e]⟩, rfl⟩
      · intro k
        obtain ⟨y, y1, y2⟩ := List.mem_map.1 k
        obtain ⟨y3, y4⟩ := List.mem_filter.1 y1
        rw [← id_inj h.id3 y3 hx y2]
        simpa using y4
    have nomem : ∀ j, s.hnd.find? (·.id == j) = none → j ∉ hs.map Prod.fst := by
      intro j hf k
      rw [h.id1, List.map_map] at k
      obtain ⟨y, y1, y2⟩ := List.mem_map.1 k
      have := List.find?_eq_none.1 hf y (List.mem_filter.1 y1).1
      exact this (by simpa using y2)
    cases o with
    | «open» p n' len a i =>
      simp only [step] at next ⊢
      by_cases e : n' = name
      · subst e
        have hx := chan_self h hk hn h0 p len a i (co.sys p len a i rfl) (hb p) hl' _ _ rfl
        cases hr : (openChan cf s p n' len a i).2 with
        | none => simp only [Res.ofOpen, Fifo]; exact next _ _ (hx.2 hr).1
        | some j => simp only [Res.ofOpen, Fifo, if_true]; exact next _ _ (hx.1 j hr).1
      · have hne : osKey (normalize cf.num n') ≠ osKey (normalize cf.num name) := fun k => e (co.alias n' rfl k)
        have hx := chan_other h hne h0 p len a i
        cases hr : (openChan cf s p n' len a i).2 with
        | none => simp only [Res.ofOpen, Fifo]; exact next _ _ hx
        | some j => simp only [Res.ofOpen, Fifo]; rw [if_neg e]; exact next _ _ hx
    | attach p n' len a =>
      simp only [step] at next ⊢
      by_cases e : n' = name
      · subst e
        have hx := attach_self h hk hn h0 p len a (hb p) hl' _ _ rfl
        cases hr : (attachHalf cf s p n' len a).2 with
        | none => simp only [Res.ofOpen, Fifo]; exact next _ _ (hx.2 hr).1
        | some j => simp only [Res.ofOpen, Fifo, if_true]; exact next _ _ (hx.1 j hr).2.1
      · have hne : osKey (normalize cf.num n') ≠ osKey (normalize cf.num name) := fun k => e (co.alias n' rfl k)
        have hx := attach_other h hne h0 p len a
        cases hr : (attachHalf cf s p n' len a).2 with
        | none => simp only [Res.ofOpen, Fifo]; exact next _ _ hx
        | some j => simp only [Res.ofOpen, Fifo]; rw [if_neg e]; exact next _ _ hx
    | init p n' len i =>
      simp only [step] at next ⊢
      by_cases e : n' = name
      · subst e; exact absurd rfl (co.init p len i)
      · have hne : osKey (normalize cf.num n') ≠ osKey (normalize cf.num name) := fun k => e (co.alias n' rfl k)
        have hx := init_other h hne h0 p len i
        cases hr : (initHalf cf s p n' len i).2 with
        | none => simp only [Res.ofOpen, Fifo]; exact next _ _ hx
        | some j => simp only [Res.ofOpen, Fifo]; rw [if_neg e]; exact next _ _ hx
    | send j m room =>
      simp only [Fifo]
      cases hf : s.hnd.find? (·.id == j) with
      | none =>
        have e : step cf s (.send j m room) = (s, .none) := by simp only [step, hf]
        rw [e] at next ⊢
        exact ⟨fun k => absurd k (nomem j hf), by rw [if_neg (by simp)]; exact next _ _ h⟩
      | some x =>
        have hx : x ∈ s.hnd := List.mem_of_find?_eq_some hf
        have hid : x.id = j := by simpa using List.find?_some hf
        by_cases e : x.name = name
        · obtain ⟨l1, l2, l3⟩ := lead x hx e
          cases room with
          | true =>
            have e' : step cf s (.send j m true) = (s.setChan (s.map x.map).seg (some (b, q ++ [m])), .sent) := by
              simp [step, hf, l1, l3]
            rw [e'] at next ⊢
            refine ⟨by simp, ?_⟩
            rw [if_pos ⟨by rw [← hid]; exact (mem x hx).1 e, rfl⟩]
            exact next _ _ (h.setQ l2 l3 _)
          | false =>
            have e' : step cf s (.send j m false) = (s, .none) := by simp [step, hf, l1, l3]
            rw [e'] at next ⊢
            exact ⟨by simp, by rw [if_neg (by simp)]; exact next _ _ h⟩
        · have hj : j ∉ hs.map Prod.fst := by rw [← hid]; exact fun k => e ((mem x hx).2 k)
          have hi : Inv cf name b hs q (step cf s (.send j m room)).1 := by
            simp only [step, hf]
            repeat' split
            all_goals first | exact h | exact h.setChan (h.ho x hx e).2
          exact ⟨fun k => absurd k hj, by rw [if_neg (fun k => hj k.1)]; exact next _ _ hi⟩
    | recv j =>
      simp only [Fifo]
      cases hf : s.hnd.find? (·.id == j) with
      | none =>
        have e : step cf s (.recv j) = (s, .none) := by simp only [step, hf]
        rw [e] at next ⊢
        exact ⟨fun k => absurd k (nomem j hf), by rw [if_neg (nomem j hf)]; exact next _ _ h⟩
      | some x =>
        have hx : x ∈ s.hnd := List.mem_of_find?_eq_some hf
        have hid : x.id = j := by simpa using List.find?_some hf
        by_cases e : x.name = name
        · obtain ⟨l1, l2, l3⟩ := lead x hx e
          have e' : step cf s (.recv j) = (s.setChan (s.map x.map).seg (some (b, q.tail)), .got q.head?) := by
            simp [step, hf, l1, l3]
          rw [e'] at next ⊢
          refine ⟨fun _ => rfl, ?_⟩
          rw [if_pos (by rw [← hid]; exact (mem x hx).1 e)]
          exact next _ _ (h.setQ l2 l3 _)
        · have hj : j ∉ hs.map Prod.fst := by rw [← hid]; exact fun k => e ((mem x hx).2 k)
          have hi : Inv cf name b hs q (step cf s (.recv j)).1 := by
            simp only [step, hf]
            repeat' split
            all_goals first | exact h | exact h.setChan (h.ho x hx e).2
          exact ⟨fun k => absurd k hj, by rw [if_neg hj]; exact next _ _ hi⟩
    | close j =>
      have hi : Inv cf name b (hs.filter fun x => x.1 != j) q (step cf s (.close j)).1 := by
        simp only [step]
        split
        · next hf =>
          rw [List.filter_eq_self.2]
          · exact h
          · intro x hx
            simp only [bne_iff_ne]
            exact fun e => nomem j hf (List.mem_map.2 ⟨x, hx, e⟩)
        · next x hf =>
          by_cases e : x.name = name
          · exact close_self h h0 (by omega) hf e
          · exact close_other (h.drop hf e) (h.ho x (List.mem_of_find?_eq_some hf) e).1 h0 x.proc
      have := next _ _ hi
      simp only [Fifo]; exact this
    | die p =>
      have := next _ _ (die_inv h p)
      simp only [Fifo]; exact this

/-- C70: connections of any processes that opened a channel by the same number share it: each message received is
the oldest one sent and not yet received, whoever sent it, and no message is lost or doubled when connections and
processes come and go.  Assumed: all processes have the same build; the number is not a multiple of 2^32; no other
name in use has the same number modulo 2^32; nobody else comes in between the two halves of opening; the system does
not refuse the first half for other reasons than size and allow the second.  Names of POSIX segments are left out.
Each of this is needed, see below. -/
theorem C70_share_partial (cf : Cfg) (name : List Char) (n : Nat) (hk : osKey (normalize cf.num name) = .sysv n) (hn : n ≠ 0)
    (hb : ∀ p p', cf.build p = cf.build p') (ops : List Op) (hl : ops.length < 2 ^ 64)
    (ha : ∀ o ∈ ops, ∀ m, o.opens = some m → osKey (normalize cf.num m) = osKey (normalize cf.num name) → m = name)
    (hi : ∀ p len i, Op.init p name len i ∉ ops)
    (hs : ∀ p len a i, Op.open p name len a i ∈ ops → a = .ok ∨ i ≠ .ok) :
    Fifo name [] [] ops (run cf {} ops).2 := by
  have h0 : (normalize cf.num name).sysv ≠ 0 := by
    intro e; unfold osKey at hk; rw [if_pos e] at hk; cases hk
  refine run_fifo (b := cf.build 0) hk hn h0 (fun p => hb p 0) ops {} [] [] ?_ ?_ ?_
  · refine ⟨?_, ?_, ?_, ?_, ?_, ?_, ?_, ?_, ?_, ?_, ?_, ?_, ?_, ?_, ?_⟩ <;> simp
  · intro o ho
    exact ⟨ha o ho, fun p len i e => hi p len i (e ▸ ho), fun p len a i e => hs p len a i (e ▸ ho)⟩
  · show 0 + ops.length < W64
    unfold W64; omega

/-! ### Examples and counterexamples -/

/-- `str2int` on a few names, used in the examples. -/
def exNum (t : List Char) : Int :=
  if t = ['1'] then 1 else if t = "4294967297".toList then 4294967297 else if t = "4294967296".toList then 4294967296 else 0

/-- All processes have the same build, except process 9. -/
def exCf : Cfg := ⟨exNum, fun p => if p = 9 then 3 else 2⟩

/-- The same without exception. -/
def exSame : Cfg := ⟨exNum, fun _ => 2⟩

/-- Process 1 listens, process 2 connects, sends twice and dies; the first message is received; process 1 dies and is
started again. -/
def exOps : List Op :=
  [.open 1 ['1'] 70000 .ok .ok, .open 2 ['1'] 70000 .ok .ok, .send 1 10 true, .send 1 11 true, .die 2, .recv 0, .die 1,
    .open 1 ['1'] 70000 .ok .ok, .recv 2, .recv 2]

example : (run exSame {} exOps).2 =
    [.opened 0, .opened 1, .sent, .sent, .none, .got (some 10), .none, .opened 2, .got (some 11), .got none] := by decide +kernel

example : osKey (normalize exSame.num ['1']) = .sysv 1 ∧
    (∀ o ∈ exOps, ∀ m, o.opens = some m → osKey (normalize exSame.num m) = .sysv 1 → m = ['1']) := by
  refine ⟨by decide +kernel, ?_⟩
  intro o ho m hm _
  simp only [exOps, List.mem_cons, List.not_mem_nil, or_false] at ho
  rcases ho with e | e | e | e | e | e | e | e | e | e <;> subst e <;> simp [Op.opens] at hm <;> exact hm.symm

/-- C70 is false of the code: a process of another build that opens the channel destroys the messages in it. -/
theorem C70_build_false : ∃ ops, (run exCf {} ops).2 =
    [.opened 0, .opened 1, .sent, .opened 2, .got none] ∧ ops = [.open 1 ['1'] 70000 .ok .ok, .open 2 ['1'] 70000 .ok .ok, .send 1 10 true,
      .open 9 ['1'] 70000 .ok .ok, .recv 0] ∧ ¬ Fifo ['1'] [] [] ops (run exCf {} ops).2 := by
  refine ⟨_, by decide +kernel, rfl, ?_⟩
  have e : (run exCf {} [.open 1 ['1'] 70000 .ok .ok, .open 2 ['1'] 70000 .ok .ok, .send 1 10 true, .open 9 ['1'] 70000 .ok .ok, .recv 0]).2 =
    [.opened 0, .opened 1, .sent, .opened 2, .got none] := by decide +kernel
  rw [e]; simp [Fifo]

/-- C70 is false of the code: two processes that open a new channel at the same time; the second one initialises it
after the first one has sent a message. -/
theorem C70_race_false : ∃ ops, (run exSame {} ops).2 = [.none, .none, .opened 0, .sent, .opened 1, .got none] ∧
    ops = [.attach 1 ['1'] 70000 .ok, .attach 2 ['1'] 70000 .ok, .init 1 ['1'] 70000 .ok, .send 0 10 true, .init 2 ['1'] 70000 .ok, .recv 1] ∧
    ¬ Fifo ['1'] [] [] ops (run exSame {} ops).2 := by
  refine ⟨_, by decide +kernel, rfl, ?_⟩
  have e : (run exSame {} [.attach 1 ['1'] 70000 .ok, .attach 2 ['1'] 70000 .ok, .init 1 ['1'] 70000 .ok, .send 0 10 true,
    .init 2 ['1'] 70000 .ok, .recv 1]).2 = [.none, .none, .opened 0, .sent, .opened 1, .got none] := by decide +kernel
  rw [e]; simp [Fifo]

/-- C70 is false of the code: attaching fails for a passing reason (no file descriptors, say), then initialising
succeeds and destroys the messages. -/
theorem C70_transient_false : ∃ ops, (run exSame {} ops).2 = [.opened 0, .sent, .opened 1, .got none] ∧
    ops = [.open 1 ['1'] 70000 .ok .ok, .send 0 10 true, .open 2 ['1'] 70000 .failed .ok, .recv 0] ∧
    ¬ Fifo ['1'] [] [] ops (run exSame {} ops).2 := by
  refine ⟨_, by decide +kernel, rfl, ?_⟩
  have e : (run exSame {} [.open 1 ['1'] 70000 .ok .ok, .send 0 10 true, .open 2 ['1'] 70000 .failed .ok, .recv 0]).2 =
    [.opened 0, .sent, .opened 1, .got none] := by decide +kernel
  rw [e]; simp [Fifo]

/-- C70 is false of the code: names that differ by 2^32 are one channel. -/
theorem C70_alias_false : (run exSame {} [.open 1 ['1'] 70000 .ok .ok, .open 2 "4294967297".toList 70000 .ok .ok, .send 1 10 true, .recv 0]).2 =
    [.opened 0, .opened 1, .sent, .got (some 10)] := by decide +kernel

/-- C70 is false of the code: a multiple of 2^32 is the key `IPC_PRIVATE`: every opener has a channel of its own. -/
theorem C70_private_false : ∃ ops, (run exSame {} ops).2 = [.opened 0, .opened 1, .sent, .got none] ∧
    ops = [.open 1 "4294967296".toList 70000 .ok .ok, .open 2 "4294967296".toList 70000 .ok .ok, .send 1 10 true, .recv 0] ∧
    ¬ Fifo "4294967296".toList [] [] ops (run exSame {} ops).2 := by
  refine ⟨_, by decide +kernel, rfl, ?_⟩
  have e : (run exSame {} [.open 1 "4294967296".toList 70000 .ok .ok, .open 2 "4294967296".toList 70000 .ok .ok, .send 1 10 true, .recv 0]).2 =
    [.opened 0, .opened 1, .sent, .got none] := by decide +kernel
  rw [e]; simp [Fifo]

/-- C70 is false of the code for POSIX names: a process that opens twice and closes once removes the name, and those
who come later are alone. -/
theorem C70_posix_false : ∃ ops, (run exSame {} ops).2 = [.opened 0, .opened 1, .opened 2, .none, .opened 3, .sent, .got none] ∧
    ops = [.open 1 ['/', 'a'] 70000 .ok .ok, .open 2 ['/', 'a'] 70000 .ok .ok, .open 2 ['/', 'a'] 70000 .ok .ok, .close 2,
      .open 3 ['/', 'a'] 70000 .ok .ok, .send 3 10 true, .recv 0] ∧ ¬ Fifo ['/', 'a'] [] [] ops (run exSame {} ops).2 := by
  refine ⟨_, by decide +kernel, rfl, ?_⟩
  have e : (run exSame {} [.open 1 ['/', 'a'] 70000 .ok .ok, .open 2 ['/', 'a'] 70000 .ok .ok, .open 2 ['/', 'a'] 70000 .ok .ok, .close 2,
      .open 3 ['/', 'a'] 70000 .ok .ok, .send 3 10 true, .recv 0]).2 =
    [.opened 0, .opened 1, .opened 2, .none, .opened 3, .sent, .got none] := by decide +kernel
  rw [e]; simp [Fifo]

/-- C70 is false of the code for POSIX names: the other connection of that process uses memory that is not mapped any
more. -/
theorem C70_unmapped_false : (run exSame {} [.open 2 ['/', 'a'] 70000 .ok .ok, .open 2 ['/', 'a'] 70000 .ok .ok, .close 1, .send 0 10 true]).2 =
    [.opened 0, .opened 1, .none, .ub] := by decide +kernel

end Verif.Shm.Share
