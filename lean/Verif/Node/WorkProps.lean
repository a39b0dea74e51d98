import Verif.Node.Work

/-!
C77: what `node::proc` and `node::poll` return.
-/
namespace Verif.Node.Work

open Verif.Node.Poll

/-- Number of messages in a list of calls of `on_recv`. -/
def messages (l : List Ev) : Nat := l.countP fun e => match e with
  | .message => true
  | _ => false

@[simp] theorem messages_nil : messages [] = 0 := rfl
@[simp] theorem messages_message (l : List Ev) : messages (.message :: l) = messages l + 1 := by simp [messages]
@[simp] theorem messages_error (c : Int) (l : List Ev) : messages (.error c :: l) = messages l := by simp [messages]
theorem messages_append (a b : List Ev) : messages (a ++ b) = messages a + messages b := by simp [messages]

/-- The loop is that of `Node.Poll`. -/
theorem recvRet_state (cf : Conf) (c : Nat) (code : Int) : ∀ (k : Nat) (rs : List Rcv) (s : S) (ret : Int),
    (recvRet cf c code k rs s ret).1 = recvLoop cf c k rs s := by
  intro k
  induction k with
  | zero => intro rs s ret; rfl
  | succ k ih =>
    intro rs s ret
    unfold recvRet recvLoop
    split
    · rfl
    · split <;> first | rfl | exact ih _ _ _

/-- So the state after a polled connection is that of `Node.Poll`. -/
theorem procRet_state (cf : Conf) (s : S) (c : Nat) (rs : List Rcv) (code : Int) : (procRet cf s c rs code).1 = proc cf s c rs := by
  unfold procRet proc
  simp only
  split
  · exact recvRet_state ..
  · rfl

/-- The result a list of calls of `on_recv` should give: the error if the last call was one, otherwise the number of messages. -/
def result (l : List Ev) : Int :=
  match l.getLast? with
  | some (.error e) => e
  | _ => messages l

theorem recvRet_result (cf : Conf) (c : Nat) (code : Int) : ∀ (k : Nat) (rs : List Rcv) (s : S) (ret : Int),
    let r := recvRet cf c code k rs s ret
    (∃ e, r.2.2.getLast? = some (.error e) ∧ r.2.1 = e ∧ (e = code ∨ e = Err.PARAMS)) ∨
      ((∀ e, Ev.error e ∉ r.2.2) ∧ r.2.1 = ret + messages r.2.2) := by
  intro k
  induction k with
  | zero => intro rs s ret; exact Or.inr ⟨fun e he => (List.not_mem_nil he).elim, by simp [recvRet]⟩
  | succ k ih =>
    intro rs s ret
    unfold recvRet
    by_cases hu : (s.conn c).up = false
    · simp only [hu, if_true]
      exact Or.inl ⟨_, rfl, rfl, Or.inr rfl⟩
    · have hu' : (s.conn c).up = true := by simpa using hu
      simp only [hu', Bool.true_eq_false, if_false]
      match rs with
      | [] => exact Or.inr ⟨fun e he => (List.not_mem_nil he).elim, by simp⟩
      | .none :: _ => exact Or.inr ⟨fun e he => (List.not_mem_nil he).elim, by simp⟩
      | .fail :: _ => exact Or.inl ⟨_, rfl, rfl, Or.inl rfl⟩
      | .garbage :: rs => exact ih rs s ret
      | .msg acts ok :: rs =>
        simp only
        rcases ih rs (if ok then (acts.foldl act s).set c { (acts.foldl act s).conn c with fault := 0 } else addFault cf (acts.foldl act s) c)
          (ret + 1) with ⟨e, h1, h2, h3⟩ | ⟨h1, h2⟩
        · refine Or.inl ⟨e, ?_, h2, h3⟩
          rw [List.getLast?_cons, h1]; rfl
        · refine Or.inr ⟨?_, ?_⟩
          · intro e he
            rcases List.mem_cons.1 he with he | he
            · cases he
            · exact h1 e he
          · rw [h2, messages_message, Int.natCast_add]
            rw [Int.add_assoc, Int.add_comm 1]
            rfl

/-- C77 for one connection, in every state and for whatever the channel holds and the handlers do: the result of `connection::proc` is the
number of messages it handled, unless the loop ended with an error, and then it is the error. -/
theorem C77_connection (cf : Conf) (s : S) (c : Nat) (rs : List Rcv) (code : Int) :
    (procRet cf s c rs code).2.1 = result (procRet cf s c rs code).2.2 := by
  unfold procRet
  simp only
  split
  · rcases recvRet_result cf c code cf.loop rs { s with polled := c :: s.polled } 0 with ⟨e, h1, h2, -⟩ | ⟨h1, h2⟩
    · rw [h2]; unfold result; rw [h1]
    · rw [h2]
      unfold result
      split
      · rename_i e he
        exact absurd (List.mem_of_getLast? he) (h1 e)
      · omega
  · rfl

theorem loopRet_sum (cf : Conf) : ∀ (l : List (List Rcv × Int)) (s : S), (∀ e, Ev.error e ∉ (loopRet cf l s).2.2) →
    (loopRet cf l s).2.1 = messages (loopRet cf l s).2.2 := by
  intro l
  induction l with
  | nil => intro s _; rfl
  | cons x l ih =>
    intro s h
    obtain ⟨rs, code⟩ := x
    unfold loopRet at h ⊢
    cases ha : s.at_ with
    | none => rfl
    | some c =>
      simp only [ha] at h ⊢
      have h1 : ∀ e, Ev.error e ∉ (procRet cf s c rs code).2.2 := fun e he => h e (List.mem_append_left _ he)
      have h2 : ∀ e, Ev.error e ∉ (loopRet cf l (advance (procRet cf s c rs code).1 c)).2.2 :=
        fun e he => h e (List.mem_append_right _ he)
      rw [ih _ h2, messages_append, C77_connection]
      unfold result
      split
      · rename_i e he
        exact absurd (List.mem_of_getLast? he) (h1 e)
      · omega

/-- C77 for `node::proc` if no receive of the loop ends with an error: it returns the number of messages handled, and one more if the node
was shut down. -/
theorem C77_proc_partial (cf : Conf) (l : List (List Rcv × Int)) (self : Nat) (shutdown : Bool) (s : S)
    (h : ∀ e, Ev.error e ∉ (nodeProc cf l self shutdown s).2) :
    (nodeProc cf l self shutdown s).1 = messages (nodeProc cf l self shutdown s).2 + self + (if shutdown then 1 else 0) := by
  unfold nodeProc at h ⊢
  simp only at h ⊢
  rw [loopRet_sum cf l _ h]

theorem dispatchTimes_eq (l : List PEv) : ∀ n, n < W64 → dispatchTimes n l = (n + l.count .dispatched) % W64 := by
  induction l with
  | nil => intro n hn; simp only [dispatchTimes, List.count_nil, Nat.add_zero]; exact (Nat.mod_eq_of_lt hn).symm
  | cons x l ih =>
    intro n hn
    cases x with
    | dispatched =>
      simp only [dispatchTimes]
      rw [ih _ (Nat.mod_lt _ (by decide)), List.count_cons_self, Nat.mod_add_mod]
      congr 1; omega
    | refused =>
      simp only [dispatchTimes]
      rw [ih n hn, List.count_cons_of_ne (by decide)]

/-- C77 for `node::poll`, for fewer than 2^31 messages in one call, whatever the counter was before: it returns the number of messages
given to a handler, and one more if the node was shut down.  The counter may wrap. -/
theorem C77_poll (n : Nat) (hn : n < W64) (l : List PEv) (hl : l.length < 2 ^ 31) (self : Nat) (shutdown : Bool) :
    nodePoll n l self shutdown = l.count .dispatched + self + (if shutdown then 1 else 0) := by
  have hc : l.count .dispatched < 2 ^ 31 := Nat.lt_of_le_of_lt List.count_le_length hl
  have hd : (dispatchTimes n l + (W64 - n)) % W64 = l.count .dispatched := by
    rw [dispatchTimes_eq l n hn, Nat.mod_add_mod, show n + l.count .dispatched + (W64 - n) = l.count .dispatched + W64 by omega,
      Nat.add_mod_right, Nat.mod_eq_of_lt (Nat.lt_trans hc (by decide))]
  unfold nodePoll
  rw [hd]
  unfold toInt32
  rw [Nat.mod_eq_of_lt (Nat.lt_trans hc (by decide)), if_pos hc]

example : nodePoll (W64 - 1) [.dispatched, .refused, .dispatched] 3 true = 6 := by decide +kernel

/-- Three connections: two messages, garbage and a message, nothing; then two messages to itself. -/
def busyOps : List Op := [.act (.listen 7 0 false), .act (.listen 8 1 false), .act (.listen 9 2 false)]

example : nodeProc ⟨3, 16⟩ [([.msg [] true, .msg [] false], -203), ([.garbage, .msg [] true], -203), ([], -203)] 2 false (run ⟨3, 16⟩ {} busyOps) =
    (5, [.message, .message, .message]) := by decide +kernel

/-- C77 fails for `node::proc` when a channel reports an error: here three messages were handled and the result is the error plus the
messages of the other connection, a negative number. -/
theorem C77_error_false : ∃ (cf : Conf) (ops : List Op) (l : List (List Rcv × Int)),
    nodeProc cf l 0 false (run cf {} ops) = (-202, [.message, .message, .error (-203), .message]) :=
  ⟨⟨3, 16⟩, busyOps, [([.msg [] true, .msg [] true, .fail], -203), ([.msg [] true], -203), ([], -203)], by decide +kernel⟩

/-- Enough messages on one connection hide the error of another and the other way round: messages were handled and the result is zero, as
if there were nothing to do. -/
theorem C77_zero_false : ∃ (cf : Conf) (ops : List Op) (l : List (List Rcv × Int)) (n : Nat),
    n = 203 ∧ nodeProc cf l 0 false (run cf {} ops) = (0, .error (-203) :: List.replicate n .message) :=
  ⟨⟨3, 256⟩, busyOps, [([.fail], -203), (List.replicate 203 (.msg [] true), -203), ([], -203)], 203, rfl, by decide +kernel⟩

end Verif.Node.Work
