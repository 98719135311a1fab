import Verif.Pth.Barrier
import Mathlib.Data.List.Nodup

/-!
# C183, C184: what a barrier does

The calls let in are numbered in the order in which they pass the first loop.  With a barrier for `c` threads the calls
`q * c, …, q * c + c - 1` form group `q`.  The theorems speak of the list of calls that have returned and of the threads that are in
a call; they hold after every sequence of calls, wake-ups (with and without reason) and resumptions.
-/

namespace Verif.Pth.Barrier

/-- **C183.**  A call returns only after all calls of its group have been made; the last call of the group gets 1 and the others
get 0. -/
theorem barrier_groups {c : Nat} (hc : 1 ≤ c) (hF : c ≤ 2 ^ 30) (evs : List Ev) {r : Ret} (hr : r ∈ (run c evs).rets) :
    (r.num / c + 1) * c ≤ r.seen ∧ r.val = if r.num % c = c - 1 then 1 else 0 := by
  obtain ⟨_, q, j, e, hj, h2, h3⟩ := (run_inv hc hF evs).rets r hr
  have hm : r.num % c = j := by
    rw [e, Nat.mul_comm, Nat.mul_add_mod, Nat.mod_eq_of_lt hj]
  rw [e, div_group hj, ← e, hm, Nat.succ_mul, h3]
  refine ⟨h2, ?_⟩
  by_cases h : j + 1 = c
  · rw [if_pos h, if_pos (by omega)]
  · rw [if_neg h, if_neg (by omega)]

/-- **C183.**  No number is given twice, and two calls of one group are calls of different threads. -/
theorem barrier_members {c : Nat} (hc : 1 ≤ c) (hF : c ≤ 2 ^ 30) (evs : List Ev) :
    ((run c evs).rets.map (·.num)).Nodup ∧
    ∀ r ∈ (run c evs).rets, ∀ r' ∈ (run c evs).rets, r.num ≠ r'.num → r.num / c = r'.num / c → r.tid ≠ r'.tid := by
  have h := run_inv hc hF evs
  constructor
  · have h1 := h.all.nodup_iff.2 List.nodup_range
    simp only [parts, List.map_append, List.map_map] at h1
    exact (List.nodup_append.1 h1).1
  · intro r hr r' hr' hne hg he
    exact hne (h.dist (r.num, r.tid) (mem_parts.2 (.inl ⟨r, hr, rfl⟩)) (r'.num, r'.tid) (mem_parts.2 (.inl ⟨r', hr', rfl⟩)) hg he)

/-- **C183.**  As soon as the last call of a group has been let in, exactly one call of the group has returned 1. -/
theorem barrier_one_serial {c : Nat} (hc : 1 ≤ c) (hF : c ≤ 2 ^ 30) (evs : List Ev) {q : Nat}
    (hq : (q + 1) * c ≤ (run c evs).adm) :
    ∃ r ∈ (run c evs).rets, (r.num / c = q ∧ r.val = 1) ∧
      ∀ r' ∈ (run c evs).rets, r'.num / c = q → r'.val = 1 → r'.num = r.num := by
  have h := run_inv hc hF evs
  rw [Nat.succ_mul] at hq
  have hmem : q * c + (c - 1) ∈ (parts (run c evs)).map (·.1) := h.all.mem_iff.2 (List.mem_range.2 (by omega))
  obtain ⟨a, ha, hae⟩ := List.mem_map.1 hmem
  have hjc : c - 1 < c := by omega
  have hret : ∃ r ∈ (run c evs).rets, r.num = q * c + (c - 1) := by
    rcases mem_parts.1 ha with ⟨r, hr, rfl⟩ | ⟨i, hi, rfl⟩
    · exact ⟨r, hr, hae⟩
    · exfalso
      simp only at hae
      obtain ⟨q', hq' | hq'⟩ := h.phase
      · have h1 := hq'.nums i hi
        have h2 := hq'.adm
        have h3 := hq'.lt
        rcases Nat.lt_or_ge q q' with hlt | hge
        · have := Nat.mul_le_mul_right c hlt
          rw [Nat.succ_mul] at this
          omega
        · have := Nat.mul_le_mul_right c hge
          omega
      · obtain ⟨h1, h2⟩ := hq'.nums i hi
        rcases Nat.lt_or_ge q q' with hlt | hge
        · have := Nat.mul_le_mul_right c hlt
          rw [Nat.succ_mul] at this
          omega
        · have := Nat.mul_le_mul_right c hge
          omega
  obtain ⟨r, hr, hn⟩ := hret
  have hmod : ∀ {j : Nat}, j < c → (q * c + j) % c = j := by
    intro j hj
    rw [Nat.mul_comm, Nat.mul_add_mod, Nat.mod_eq_of_lt hj]
  refine ⟨r, hr, ⟨by rw [hn, div_group hjc], ?_⟩, ?_⟩
  · rw [(barrier_groups hc hF evs hr).2, hn, hmod hjc, if_pos rfl]
  · intro r' hr' hg hv
    have hv' := (barrier_groups hc hF evs hr').2
    rw [hv] at hv'
    have hm : r'.num % c = c - 1 := by
      by_contra hne
      rw [if_neg hne] at hv'
      cases hv'
    have := Nat.div_add_mod r'.num c
    rw [hg, hm, Nat.mul_comm] at this
    omega

/-- **C184.**  No wake-up is lost: if no thread in a call is awake, then nobody waits to enter and fewer than `c` threads wait. -/
theorem barrier_no_lost_wakeup {c : Nat} (hc : 1 ≤ c) (hF : c ≤ 2 ^ 30) (evs : List Ev)
    (h1 : ∀ e ∈ (run c evs).ent, e.2 = false) (h2 : ∀ i ∈ (run c evs).ins, i.awake = false) :
    (run c evs).ent = [] ∧ (run c evs).ins.length < c := by
  have h := run_inv hc hF evs
  have hlen : (run c evs).ins.length < c := by
    obtain ⟨q, hq | hq⟩ := h.phase
    · rw [hq.len]; exact hq.lt
    · exact hq.len
  refine ⟨?_, hlen⟩
  rw [List.eq_nil_iff_forall_not_mem]
  intro e he
  have ht := h.ent e he (h1 e he)
  obtain ⟨q, hq | hq⟩ := h.phase
  · have := total_lt_of_fill hF hq
    omega
  · have h3 := hq.total
    have hne : (run c evs).ins ≠ [] := by
      intro h0
      rw [h0] at h3
      simp at h3
      omega
    obtain ⟨i, hi⟩ := List.exists_mem_of_ne_nil _ hne
    have := h.ins i hi (h2 i hi)
    omega

/-- **C184.**  A thread whose group is complete is awake, and returns as soon as it gets the critical section. -/
theorem barrier_member_returns {c : Nat} (hc : 1 ≤ c) (hF : c ≤ 2 ^ 30) (evs : List Ev) {i : Inside}
    (hi : i ∈ (run c evs).ins) (hg : (i.num / c + 1) * c ≤ (run c evs).adm) :
    i.awake = true ∧ ∃ r, (run c (evs ++ [.resume i.tid])).rets = r :: (run c evs).rets ∧ r.tid = i.tid ∧ r.num = i.num := by
  have h := run_inv hc hF evs
  have hT : ¬ (run c evs).total < FLAG := by
    intro hlt
    obtain ⟨q, hq | hq⟩ := h.phase
    · have h1 := hq.nums i hi
      have h2 := parts_lt' h.toInv0 hi
      have h3 := hq.adm
      have h4 := hq.lt
      have hd : i.num / c = q := by
        have := div_group (q := q) (c := c) (j := i.num - q * c) (by omega)
        rwa [show q * c + (i.num - q * c) = i.num by omega] at this
      rw [hd, Nat.succ_mul] at hg
      omega
    · have := hq.total
      omega
  have haw : i.awake = true := by
    cases hb : i.awake
    · exact absurd (h.ins i hi hb) hT
    · rfl
  refine ⟨haw, ?_⟩
  have hn := h.tids
  have hent : (i.tid, true) ∉ (run c evs).ent := by
    intro hm
    have := (List.nodup_append.1 hn).2.2 i.tid (List.mem_map.2 ⟨_, hm, rfl⟩) i.tid (List.mem_map.2 ⟨i, hi, rfl⟩)
    exact this rfl
  have hfind : (run c evs).ins.find? (fun j => j.tid == i.tid && j.awake) = some i := by
    cases hf : (run c evs).ins.find? (fun j => j.tid == i.tid && j.awake) with
    | none =>
      have := List.find?_eq_none.1 hf i hi
      simp [haw] at this
    | some j =>
      have hj := List.mem_of_find?_eq_some hf
      have ht := List.find?_some hf
      simp only [Bool.and_eq_true, beq_iff_eq] at ht
      rw [List.inj_on_of_nodup_map (List.nodup_append.1 hn).2.1 hj hi ht.1]
  have hs : run c (evs ++ [.resume i.tid]) = insideBody { run c evs with ins := (run c evs).ins.erase i } i.tid i.num := by
    show (evs ++ [Ev.resume i.tid]).foldl step (init c) = _
    rw [List.foldl_append]
    show step (run c evs) (.resume i.tid) = _
    simp only [step]
    rw [if_neg hent, hfind]
  rw [hs]
  unfold insideBody
  rw [if_neg hT]
  dsimp only
  split
  · exact ⟨_, rfl, rfl, rfl⟩
  · exact ⟨_, rfl, rfl, rfl⟩

/-- `pthread_barrier_destroy` (881-894), one look at the condition of its loop: does it go on to delete the barrier? -/
def destroyGoes (s : St) : Bool := ¬ FLAG < s.total

/-- **C184.**  When the barrier is deleted, every thread of a complete group has left it. -/
theorem barrier_destroy_waits {c : Nat} (hc : 1 ≤ c) (hF : c ≤ 2 ^ 30) (evs : List Ev) (hd : destroyGoes (run c evs) = true)
    {i : Inside} (hi : i ∈ (run c evs).ins) : (run c evs).adm < (i.num / c + 1) * c := by
  by_contra hg
  have h := run_inv hc hF evs
  have hT : ¬ FLAG < (run c evs).total := by simpa [destroyGoes] using hd
  obtain ⟨q, hq | hq⟩ := h.phase
  · have h1 := hq.nums i hi
    have h2 := parts_lt' h.toInv0 hi
    have h3 := hq.adm
    have h4 := hq.lt
    have hdv : i.num / c = q := by
      have := div_group (q := q) (c := c) (j := i.num - q * c) (by omega)
      rwa [show q * c + (i.num - q * c) = i.num by omega] at this
    rw [hdv, Nat.succ_mul] at hg
    omega
  · have h1 := hq.total
    have : 0 < (run c evs).ins.length := List.length_pos_of_mem hi
    omega

/-! ## Examples -/

/-- Two threads, two rounds: the second to come gets 1; thread 0 comes again before thread 1 … -/
def demo : List Ev := [.call 0, .spurious 0, .resume 0, .call 1, .call 1, .resume 0, .resume 1, .call 0]

example : (run 2 demo).rets = [⟨0, 3, 1, 4⟩, ⟨0, 0, 0, 2⟩, ⟨1, 1, 1, 2⟩] := by decide
example : (run 2 demo).ins = [⟨1, 2, true⟩] ∧ (2 / 2 + 1) * 2 ≤ (run 2 demo).adm := by decide
example : (run 2 (demo.take 5)).ent = [(1, false)] ∧ destroyGoes (run 2 (demo.take 5)) = false := by decide
example : (∀ e ∈ (run 2 [.call 0]).ent, e.2 = false) ∧ (∀ i ∈ (run 2 [.call 0]).ins, i.awake = false) := by decide

end Verif.Pth.Barrier
