import Verif.IoStream.PoolInv

/-!
Every step of the channel is a sequence of small changes that keep the invariant.
-/
namespace Verif.IoStream.Pool

/-- Frames that are taken from the stack without effect. -/
def Frame.plain : Frame → Bool
  | .cbEnd | .recv _ _ _ | .recvErr _ _ => true
  | _ => false

/-- Events that say nothing about a connection. -/
def Ev.plain : Ev → Bool
  | .ret _ _ => true
  | .answer _ code none => code != Err.SUCCESS
  | _ => false

/-- Not a write. -/
def Req.plain : Req → Bool
  | .write _ => false
  | _ => true

/-- A small change; `re`: a rehash may happen. -/
inductive Mic (re : Bool) : St → St → Prop where
  | cbk {s : St} {r : Ref} (cb : Option Tok) (hr : r < s.next) : Mic re s (s.set r { s.conn r with cbk := cb })
  | mark {s : St} {r : Ref} (hr : r < s.next) (hs : (s.conn r).status = .connected) :
      Mic re s (s.set r { s.conn r with status := .disconnecting })
  | shut {s : St} {r : Ref} (ev : Env) (he : ev.rehash = true → re = true) (hr : r < s.next)
      (hc : (s.conn r).closing = false) (hs : (s.conn r).status = .disconnecting) : Mic re s (shut ev s r)
  | merge {s : St} {r : Ref} (n : Nat) (hr : r < s.next) (hw : (s.conn r).writing = false) (hq : (s.conn r).q ≠ [])
      (hc : (s.conn r).closing = false) :
      Mic re s (s.set r { s.conn r with q := ((s.conn r).q.take (n + 1)).flatten :: (s.conn r).q.drop (n + 1) })
  | start {s : St} {r : Ref} (hr : r < s.next) (hw : (s.conn r).writing = false) (hq : (s.conn r).q ≠ [])
      (hc : (s.conn r).closing = false) :
      Mic re s { s.set r { s.conn r with writing := true } with reqs := s.reqs ++ [.write r], active := s.active + 1 }
  | accept {s : St} {r : Ref} (m : Nat) (hr : r < s.next) (hs : (s.conn r).status = .connected) :
      Mic re s ((s.set r { s.conn r with q := (s.conn r).q ++ [[m]] }).emit (.sent r m))
  | wbegin {s : St} {r : Ref} {m : Nat} {rest : List Nat} {bs : List (List Nat)} (ok : Bool)
      (hu : s.stack.any Frame.uv = false) (hm : .write r ∈ s.reqs) (hq : (s.conn r).q = (m :: rest) :: bs) :
      Mic re s (((s.done (.write r)).emit (.written r m Err.SUCCESS ok)).push (.written r rest ok))
  | wmore {s : St} {r : Ref} {m : Nat} {rest : List Nat} {ok : Bool} {fs : List Frame}
      (hk : s.stack = .written r (m :: rest) ok :: fs) :
      Mic re s ((s.pop.emit (.written r m Err.SUCCESS ok)).push (.written r rest ok))
  | wend {s : St} {r : Ref} {ok : Bool} {fs : List Frame} (hk : s.stack = .written r [] ok :: fs) :
      Mic re s (s.pop.set r { s.conn r with q := (s.conn r).q.tail, writing := false })
  | cbegin {s : St} {r : Ref} {m : Nat} {rest : List Nat} {bs : List (List Nat)} (after : Bool)
      (hu : s.stack.any Frame.uv = false) (hr : r < s.next) (hs : (s.conn r).status = .disconnecting)
      (hc : (s.conn r).closing = true) (hw : (s.conn r).writing = false) (hq : (s.conn r).q = (m :: rest) :: bs) :
      Mic re s ((s.emit (.written r m Err.CLOSING false)).push (.cancel r rest after))
  | cmore {s : St} {r : Ref} {m : Nat} {rest : List Nat} {after : Bool} {fs : List Frame}
      (hk : s.stack = .cancel r (m :: rest) after :: fs) :
      Mic re s ((s.pop.emit (.written r m Err.CLOSING false)).push (.cancel r rest after))
  | cend {s : St} {r : Ref} {after : Bool} {fs : List Frame} (hk : s.stack = .cancel r [] after :: fs) :
      Mic re s (s.pop.set r { s.conn r with q := (s.conn r).q.tail })
  | lret {s : St} {t : Tok} {fs : List Frame} (hk : s.stack = .listenRet t :: fs) :
      Mic re s (s.pop.emit (.ret t Err.SUCCESS))
  | pop {s : St} {f : Frame} {fs : List Frame} (hk : s.stack = f :: fs) (hf : f.plain = true) : Mic re s s.pop
  | loose {s : St} {fs : List Frame} (hk : s.stack = .loose :: fs) :
      Mic re s { s.pop with hands := s.hands ++ [.loose] }
  | second {s : St} {r : Ref} {v : Bool} {fs : List Frame} (t : Tok) (hk : s.stack = .onClose r v false :: fs) :
      Mic re s ((s.pop.emit (.discCb t r)).push (.onClose r v true))
  | free {s : St} {r : Ref} {v b : Bool} {fs : List Frame} (hk : s.stack = .onClose r v b :: fs) :
      Mic re s { s.pop with gc := erase s.gc r }
  | rmore {s : St} {r : Ref} {n : Nat} {b : Bool} {fs : List Frame} (hk : s.stack = .recv r (n + 1) b :: fs) :
      Mic re s ((s.pop.emit (.recv r)).push (.recv r n b))
  | rbegin {s : St} {r : Ref} (f : Frame) (hu : s.stack.any Frame.uv = false) (hr : r < s.next)
      (hs : (s.conn r).status = .connected) (hf : (∃ n b, f = .recv r n b) ∨ ∃ b, f = .recvErr r b) :
      Mic re s ((s.emit (.recv r)).push f)
  | again {s : St} : Mic re s { s with again := s.again + 1 }
  | flag {s : St} (b : Bool) : Mic re s { s with closing := b }
  | call {s : St} : Mic re s { s with calls := s.calls + 1 }
  | note {s : St} (e : Ev) (he : e.plain = true) : Mic re s (s.emit e)
  | req {s : St} (q : Req) (hq : q.plain = true) : Mic re s { s with reqs := s.reqs ++ [q], active := s.active + 1 }
  | done {s : St} (q : Req) (hq : q.plain = true) (hm : q ∈ s.reqs) : Mic re s (s.done q)
  | hand {s : St} : Mic re s { s with hands := s.hands ++ [.loose] }
  | unhand {s : St} : Mic re s { s with hands := s.hands.erase .loose }
  | make {s : St} (fd : Nat) (hf : ∀ p ∈ s.pool, p.1 ≠ fd) (e : Ev)
      (he : (∃ t, e = .answer t Err.SUCCESS (some s.next)) ∨
        ∃ l, e = .accepted l Err.SUCCESS (some s.next) ∧ l < s.next ∧ (s.conn l).status ≠ .disconnected) :
      Mic re s ((make s fd).1.emit e)
  | refused {s : St} {l : Ref} (code : Int) (hcode : code ≠ Err.SUCCESS) (hr : l < s.next) (hs : (s.conn l).status ≠ .disconnected) :
      Mic re s (s.emit (.accepted l code none))
  | pushL {s : St} (t : Tok) : Mic re s (s.push (.listenRet t))
  | push {s : St} (f : Frame) (hu : s.stack.any Frame.uv = false) (hf : f = .cbEnd ∨ f = .loose ∨ f = .closeWait) :
      Mic re s (s.push f)
  | waitEnd {s : St} {fs : List Frame} (hk : s.stack = .closeWait :: fs) : Mic re s s.pop
  | closed {s : St} {r : Ref} (hu : s.stack.any Frame.uv = false) (hm : .conn r ∈ s.hands) (hw : .write r ∉ s.reqs) :
      Mic re s ((({ s with hands := s.hands.erase (.conn r) }.set r { s.conn r with status := .disconnected }).emit
        (.disconnected r)).push (.onClose r true false))

/-- Sequences of small changes. -/
inductive Mics (re : Bool) : St → St → Prop where
  | refl (s : St) : Mics re s s
  | head {a b c : St} : Mic re a b → Mics re b c → Mics re a c

theorem Mics.one {re : Bool} {a b : St} (h : Mic re a b) : Mics re a b := .head h (.refl b)

theorem Mics.trans {re : Bool} {a b c : St} (h : Mics re a b) (h' : Mics re b c) : Mics re a c := by
  induction h with
  | refl => exact h'
  | head h1 _ ih => exact .head h1 (ih h')

theorem Mics.tail {re : Bool} {a b c : St} (h : Mics re a b) (h' : Mic re b c) : Mics re a c := h.trans (.one h')

/-- Parts of the state the invariant does not look at, and the stack. -/
theorem core_stack {s t : St} (h : Core s) (hc : t.conn = s.conn) (hn : t.next = s.next) (hp : t.pool = s.pool)
    (hg : t.gc = s.gc) (hr : t.reqs = s.reqs) (ha : t.active = s.active)
    (hh : ∀ r, t.hands.count (.conn r) = s.hands.count (.conn r)) (hs : shape t.stack)
    (hf : ∀ f ∈ t.stack, FrameOk s f) (hw : ∀ r, t.stack.countP (isW r) = s.stack.countP (isW r)) : Core t := by
  constructor
  · rw [hp]; exact h.pk
  · rw [hp, hc, hn]; exact h.p
  · rw [hg]; exact h.gk
  · rw [hg, hc, hn]; exact h.g
  · rw [hp, hc, hn]; exact h.op
  · intro r; rw [hc, hn, hg, hh]; exact h.sd r
  · intro r hm
    rw [hc, hn]
    refine h.h r ?_
    rw [← List.count_pos_iff, ← hh, List.count_pos_iff]
    exact hm
  · rw [hc, hn]; exact h.new
  · exact hs
  · intro f hm
    have := hf f hm
    cases f <;> simpa only [FrameOk, hc, hn, hg] using this
  · rw [ha, hr]; exact h.act
  · intro r; rw [hw, hr, hc]; exact h.wr r
  · rw [hc]; exact h.wl
  · rw [hc]; exact h.ne

/-- Pushing a frame while no callback of libuv is active. -/
theorem core_push {s : St} (h : Core s) {f : Frame} (hu : s.stack.any Frame.uv = false) (hf : FrameOk s f)
    (hw : ∀ r, isW r f = false) (log : List Ev) : Core { s with stack := f :: s.stack, log := log } := by
  refine core_stack h rfl rfl rfl rfl rfl rfl (fun _ => rfl) ⟨Or.inr hu, h.sh⟩ ?_ ?_
  · intro g hg
    rcases List.mem_cons.1 hg with rfl | hg
    · exact hf
    · exact h.fr g hg
  · intro r; simp [List.countP_cons, hw r]

/-- The top frame is replaced by one that says the same. -/
theorem core_swap {s : St} (h : Core s) {f g : Frame} {fs : List Frame} (hk : s.stack = f :: fs)
    (hu : fs.any Frame.uv = false) (hg : FrameOk s g) (hw : ∀ r, isW r g = isW r f) (log : List Ev) :
    Core { s with stack := g :: fs, log := log } := by
  have hsh := h.sh
  rw [hk] at hsh
  refine core_stack h rfl rfl rfl rfl rfl rfl (fun _ => rfl) ⟨Or.inr hu, hsh.2⟩ ?_ ?_
  · intro x hx
    rcases List.mem_cons.1 hx with rfl | hx
    · exact hg
    · exact h.fr x (by rw [hk]; exact List.mem_cons_of_mem _ hx)
  · intro r; simp [List.countP_cons, hw r, hk]

theorem core_pop {s : St} (h : Core s) {f : Frame} {fs : List Frame} (hk : s.stack = f :: fs)
    (hw : ∀ r, isW r f = false) (hands : List Hand) (hh : ∀ r, hands.count (.conn r) = s.hands.count (.conn r))
    (log : List Ev) : Core { s with stack := fs, log := log, hands := hands } := by
  have hsh := h.sh
  rw [hk] at hsh
  refine core_stack h rfl rfl rfl rfl rfl rfl hh hsh.2 ?_ ?_
  · intro x hx
    exact h.fr x (by rw [hk]; exact List.mem_cons_of_mem _ hx)
  · intro r; simp [List.countP_cons, hw r, hk]

end Verif.IoStream.Pool
