import Verif.Buffer.MergeQueue

/-! Property theorem C25: the merged block of the stream writer always fits. -/
namespace Verif.Buffer

/-- C25 (static mode): take any reachable static manager holding at least two
untouched blocks, each at least as large as the write request, the first of
which fits the merge buffer.  Then the merge loop runs without undefined
behaviour, takes `k ≥ 1` blocks off the front, never collects more bytes than
the merge buffer holds, and `push_front` of the merged block succeeds whatever
the ring layout is; afterwards the queue holds the merged block followed by
exactly the blocks not taken. -/
theorem C25_static_merge_fits {maxSize maxNum uv avail : Nat} (hS : 0 < maxSize) (hN : 0 < maxNum)
    {st : SBuf} {b : Blk} {q : Deque} (h : SReach maxSize maxNum st (b :: q)) (h2 : q ≠ [])
    (huv : ∀ c ∈ b :: q, c.consumed = 0 ∧ uv ≤ c.data.length ∧ 0 < c.data.length)
    (hfirst : b.data.length ≤ avail) :
    ∃ st1 taken k st2 ptr,
      mergeTake uv (q.length + 1) st avail none 0 = some (st1, taken) ∧
      1 ≤ k ∧ k ≤ q.length + 1 ∧ taken = payload uv ((b :: q).take k) ∧ taken ≤ avail ∧
      st1.step (.pushFront (uv + taken)) = some (st2, Err.SUCCESS, ptr) ∧
      SReach maxSize maxNum st2 (.fresh (uv + taken) :: (b :: q).drop k) := by
  obtain ⟨bs, hg⟩ := sreach_good hS hN h
  obtain ⟨st1, k, bs1, prev1, e1, hk, hre1, hg1, hroom, hpl, hk1⟩ :=
    mergeTake_spec (uv := uv) hS hN (q.length + 1) st (b :: q) bs avail none 0 0 h hg
      (Room.init hg.inv) rfl huv
  have hk1 := hk1 rfl b q rfl hfirst
  simp only [List.length_cons] at hk
  rw [Nat.zero_add] at e1 hroom
  -- the merged block is not larger than what was popped
  have huvt : ∀ c ∈ (b :: q).take k, uv ≤ c.data.length :=
    fun c hc => (huv c (List.mem_of_mem_take hc)).2.1
  have htk : ((b :: q).take k).length = k := by simp; omega
  have hne : (b :: q).take k ≠ [] := by
    intro e; rw [e] at htk; simp at htk; omega
  have hfit := merged_fits ((b :: q).take k) huvt hne
  rw [htk] at hfit
  have hlen1 : bs1.length = ((b :: q).drop k).length := by rw [← hg1.abs]; simp
  have hbs1 : bs1 = [] → k = q.length + 1 := by
    rintro rfl; simp at hlen1; omega
  have hql : 0 < q.length := List.length_pos_iff.2 h2
  -- limits
  have hc0 := counted_abs hg.cnt
  rw [hg.abs] at hc0
  have hc1 := counted_abs hg1.cnt
  rw [hg1.abs] at hc1
  have hnb := hg.nb
  have hsb := hg.sb
  have hpu := payload_unread (uv := uv) ((b :: q).take k)
    (fun c hc => ⟨(huv c (List.mem_of_mem_take hc)).1, huvt c hc⟩)
  rw [htk] at hpu
  have husp := unread_split (b :: q) k
  have hmul : uv ≤ uv * k := by
    calc uv = uv * 1 := by simp
      _ ≤ uv * k := Nat.mul_le_mul_left _ hk1
  simp only [List.length_drop, List.length_cons] at hc0 hc1 hlen1
  obtain ⟨st2, ptr, e2⟩ := hroom.push (s := uv + payload uv ((b :: q).take k)) hg1.inv
    (by rw [hg1.len, hlen1]; omega) (by omega) (fun e => by have := hbs1 e; omega)
  have e3 : st1.step (.pushFront (uv + payload uv ((b :: q).take k))) =
      some ({ st2 with costNum := st2.costNum + 1,
                       costSize := st2.costSize + (uv + payload uv ((b :: q).take k)) },
        Err.SUCCESS, ptr) := by
    simp only [SBuf.step, SBuf.pushFront, hg1.ln, hg1.ls]
    rw [if_neg (by omega), if_neg (by omega), e2, addCost_ok]
  refine ⟨st1, _, k, _, ptr, e1, hk1, hk, rfl, hpl, e3, ?_⟩
  have := SReach.step hre1 (by trivial) e3
  rw [if_pos rfl] at this
  exact this

/-- C25 (dynamic mode). -/
theorem C25_dynamic_merge_fits {limSize limNum uv avail : Nat}
    {d : DBuf} {b : Blk} {q : Deque} (h : DReach limSize limNum d (b :: q))
    (huv : ∀ c ∈ b :: q, c.consumed = 0 ∧ uv ≤ c.data.length ∧ 0 < c.data.length)
    (hfirst : b.data.length ≤ avail) :
    ∃ d1 taken k d2,
      dmergeTake uv (q.length + 1) d avail 0 = some (d1, taken) ∧
      1 ≤ k ∧ k ≤ q.length + 1 ∧ taken = payload uv ((b :: q).take k) ∧ taken ≤ avail ∧
      d1.step (.pushFront (uv + taken)) = some (d2, Err.SUCCESS) ∧
      DReach limSize limNum d2 (.fresh (uv + taken) :: (b :: q).drop k) := by
  obtain ⟨d1, k, e1, hk, hre1, hpl, hk1⟩ :=
    dmergeTake_spec (uv := uv) (q.length + 1) d (b :: q) avail 0 h rfl huv
  have hk1 := hk1 b q rfl hfirst
  simp only [List.length_cons] at hk
  rw [Nat.zero_add] at e1
  have htk : ((b :: q).take k).length = k := by simp; omega
  have hpu := payload_unread (uv := uv) ((b :: q).take k)
    (fun c hc => ⟨(huv c (List.mem_of_mem_take hc)).1, (huv c (List.mem_of_mem_take hc)).2.1⟩)
  rw [htk] at hpu
  have husp := unread_split (b :: q) k
  have hmul : uv ≤ uv * k := by
    calc uv = uv * 1 := by simp
      _ ≤ uv * k := Nat.mul_le_mul_left _ hk1
  obtain ⟨hb1, hb2⟩ := dreach_bound h
  obtain ⟨d2, e2, -⟩ := dgood_step (.pushFront (uv + payload uv ((b :: q).take k)))
    (dreach_good hre1) (by trivial)
  have hv : Deque.verdict limNum limSize ((b :: q).drop k)
      (.pushFront (uv + payload uv ((b :: q).take k))) = Err.SUCCESS := by
    simp only [Deque.verdict]
    rw [if_neg]
    simp only [List.length_drop, List.length_cons] at *
    omega
  rw [hv] at e2
  refine ⟨d1, _, k, d2, e1, hk1, hk, rfl, hpl, e2, ?_⟩
  have := DReach.step hre1 (by trivial) e2
  rw [if_pos rfl] at this
  exact this

/-- Three queued blocks of which the last wrapped to the start of the ring: two
are merged (`k = 2`), the third stays. -/
example : ∃ st q, SReach 200 4 st q ∧ q.length = 3 ∧
    (mergeTake 8 3 st 100 none 0).map (fun x => (x.1.count, x.2)) = some (1, 16) := by
  have h0 : SReach 200 4 _ _ := .init
  have h1 := SReach.step (op := .pushBack 16) h0 trivial rfl
  have h2 := SReach.step (op := .pushBack 16) h1 trivial rfl
  have h3 := SReach.step (op := .pushBack 16) h2 trivial rfl
  have h4 := SReach.step (op := .pushBack 16) h3 trivial rfl
  have h5 := SReach.step (op := .popFront 16 true) h4 trivial rfl
  have h6 := SReach.step (op := .popFront 16 true) h5 trivial rfl
  have h7 := SReach.step (op := .pushBack 16) h6 trivial rfl
  exact ⟨_, _, h7, by decide, by decide +kernel⟩

end Verif.Buffer
