import Verif.Tasks.Groups
import Verif.Arrays.Lemmas
import Verif.Future.WaitProps
import Mathlib.Data.List.Perm.Basic
import Mathlib.Data.List.Nodup
import Mathlib.Data.List.Range

/-!
Task groups (C38), waitgroups (C39), round-robin placement (C40).
-/
namespace Verif.Tasks.Groups

/-! ### `tasks_wait` runs like `queue_wait` -/

/-- The same moment of the two loops. -/
structure Sim (hasRes : T → Bool) (s : WS) (w : Future.Wait.WS) : Prop where
  work : w.work = s.work
  idx : w.idx = s.idx
  ret : w.returned = s.returned
  res : s.results = w.called.filter hasRes
  del : w.spent = s.deleted

theorem sim_step {hasRes : T → Bool} {haltAt : Nat → T → Bool} {orig : List T} (hn : orig.Nodup) {t : Nat} {s : WS} {w : Future.Wait.WS}
    (h : Sim hasRes s w) (hi : Future.Wait.Inv orig haltAt t w) :
    Sim hasRes (wstep hasRes (haltAt t) s) (Future.Wait.wstep true (haltAt t) w) := by
  unfold wstep Future.Wait.wstep
  rw [h.ret, h.work, h.idx]
  by_cases hr : s.returned = true
  · rw [if_pos hr, if_pos hr]
    exact h
  rw [if_neg hr, if_neg hr]
  cases hp : s.work[s.idx]? with
  | some p =>
    simp only [visit, Future.Wait.visit]
    by_cases hh : haltAt t p = true
    · have hmem : p ∈ w.work := by rw [h.work]; exact List.mem_of_getElem? hp
      have hnc := (Future.Wait.nodup_parts hn hi.perm).2.2 p hmem
      simp only [if_pos hh, if_true]
      rw [if_neg (fun e => hnc ((hi.spent p).1 e))]
      refine ⟨by simp [h.work, h.idx], by simp [h.idx], h.ret, ?_, by simp [h.del]⟩
      simp only [List.filter_append, List.filter_cons, List.filter_nil, h.res]
      cases hasRes p <;> simp
    · simp only [if_neg hh]
      exact ⟨h.work, by simp [h.idx], h.ret, h.res, h.del⟩
  | none =>
    simp only
    split
    · exact ⟨rfl, rfl, rfl, h.res, h.del⟩
    · exact ⟨rfl, rfl, rfl, h.res, h.del⟩

theorem sim_run {hasRes : T → Bool} {haltAt : Nat → T → Bool} {orig : List T} (hn : orig.Nodup) : ∀ (n : Nat) {t : Nat} {s : WS}
    {w : Future.Wait.WS}, Sim hasRes s w → Future.Wait.Inv orig haltAt t w →
    Sim hasRes (wrun hasRes haltAt t n s) (Future.Wait.wrun true haltAt t n w)
  | 0, _, _, _, h, _ => h
  | n + 1, _, _, _, h, hi => sim_run hn n (sim_step hn h hi) (Future.Wait.inv_step hn hi)

theorem sim_init (hasRes : T → Bool) (orig : List T) : Sim hasRes (WS.init orig) (Future.Wait.WS.init orig []) :=
  ⟨rfl, rfl, rfl, rfl, rfl⟩

/-! ### C38 -/

/-- C38.  For every group of (distinct) tasks and every behaviour of the tasks: when `tasks_wait` returns, all tasks of
the group have finished, and the results are exactly one entry for each task that finished with a result; at every
moment before, each task has at most one entry and only if it has finished.
`_partial`: the caller's last `task_group` only (`earlier_group_not_waited`); whether the tasks get to run while it
waits is another matter, as the loop puts queued tasks on the run queue again (`Verif.Sched.requeue_drops`). -/
theorem tasks_wait_collects_partial (group : List T) (hn : group.Nodup) (hasRes : T → Bool) (haltAt : Nat → T → Bool) (n : Nat)
    (s : WS) (hs : s = wrun hasRes haltAt 0 n (WS.init group)) :
    s.results.Nodup ∧ (∀ p ∈ s.results, p ∈ group ∧ hasRes p = true ∧ ∃ u < n, haltAt u p = true) ∧
    (s.returned = true → (∀ p ∈ group, ∃ u < n, haltAt u p = true) ∧ s.results.Perm (group.filter hasRes)) := by
  have h := sim_run hn n (sim_init hasRes group) (Future.Wait.inv_init group haltAt)
  rw [← hs] at h
  obtain ⟨h1, h2, h3⟩ := Future.Wait.queue_wait_once group hn haltAt n
  rw [h.res, ← h.ret]
  refine ⟨h1.filter _, ?_, ?_⟩
  · intro p hp
    rw [List.mem_filter] at hp
    exact ⟨(h2 p hp.1).1, hp.2, (h2 p hp.1).2⟩
  · intro hr
    exact ⟨fun p hp => (h2 p ((h3 hr).mem_iff.2 hp)).2, (h3 hr).filter _⟩

/-- If every task of the group finishes sooner or later, `tasks_wait` returns. -/
theorem tasks_wait_returns (group : List T) (hn : group.Nodup) (hasRes : T → Bool) (haltAt : Nat → T → Bool) (m : Nat)
    (hd : ∀ p ∈ group, ∀ u ≥ m, haltAt u p = true) : ∃ n, (wrun hasRes haltAt 0 n (WS.init group)).returned = true := by
  obtain ⟨n, h⟩ := Future.Wait.queue_wait_returns true group [] haltAt m hd
  have hs := sim_run hn n (sim_init hasRes group) (Future.Wait.inv_init group haltAt)
  exact ⟨n, by rw [← hs.ret]; exact (h n (Nat.le_refl n)).1⟩

/-- Every group task is deleted once, and only after it has finished. -/
theorem tasks_wait_deletes_once (group : List T) (hn : group.Nodup) (hasRes : T → Bool) (haltAt : Nat → T → Bool) (n : Nat)
    (s : WS) (hs : s = wrun hasRes haltAt 0 n (WS.init group)) (hr : s.returned = true) :
    ∀ p, p ∈ s.deleted ↔ p ∈ group := by
  have h := sim_run hn n (sim_init hasRes group) (Future.Wait.inv_init group haltAt)
  have hi := Future.Wait.inv_run hn n (Future.Wait.inv_init group haltAt)
  rw [← hs] at h
  obtain ⟨_, _, h3⟩ := Future.Wait.queue_wait_once group hn haltAt n
  intro p
  rw [← h.del, hi.spent, (h3 (by rw [h.ret]; exact hr)).mem_iff]

/-- A task that made a second group cannot wait for the first: `tasks_wait` returns at once, whatever state its tasks are in. -/
theorem earlier_group_not_waited (c : Caller) (g1 g2 : Nat) (h : g1 ≠ g2) :
    waitEntered (taskGroup (taskGroup c g1) g2) g1 = false ∧ waitEntered (taskGroup c g1) g1 = true := by
  simp [waitEntered, taskGroup, h.symm]

/-! ### C39 -/

theorem popN_ok : ∀ (n : Nat) (g : List T), n ≤ g.length →
    popN n g = .ok ((g.drop (g.length - n)).reverse, g.take (g.length - n)) := by
  intro n
  induction n with
  | zero => intro g _; simp [popN]
  | succ n ih =>
    intro g hg
    induction g using List.reverseRecOn with
    | nil => simp at hg
    | append_singleton g t _ =>
      simp only [List.length_append, List.length_singleton] at hg
      rw [popN, List.getLast?_concat]
      simp only [List.dropLast_concat]
      rw [ih g (by omega), Res.ok_bind]
      have e : g.length + 1 - (n + 1) = g.length - n := by omega
      simp only [List.length_append, List.length_singleton, e]
      rw [List.drop_append_of_le_length (by omega), List.take_append_of_le_length (by omega)]
      simp

theorem popN_ub : ∀ (n : Nat) (g : List T), g.length < n → popN n g = .ub := by
  intro n
  induction n with
  | zero => intro g h; omega
  | succ n ih =>
    intro g hg
    rw [popN]
    split
    · rfl
    · rw [ih _ (by rw [List.length_dropLast]; rename_i h; have : g ≠ [] := by (rintro rfl; simp at h)
                   have := List.length_pos_iff.2 this; omega)]
      rfl

theorem poster_ok : ∀ (n : Nat) (ks : List Nat) (g : List T), ks.length * n ≤ g.length →
    ∃ asg rest, poster n ks g = .ok (asg, rest) ∧ asg.map (·.1) = ks ∧ (∀ x ∈ asg, x.2.length = n) ∧
      (asg.flatMap (·.2) ++ rest).Perm g := by
  intro n ks
  induction ks with
  | nil => intro g _; exact ⟨[], g, rfl, rfl, by simp, by simp⟩
  | cons k ks ih =>
    intro g hg
    simp only [List.length_cons, Nat.add_mul, Nat.one_mul] at hg
    obtain ⟨asg, rest, e, h1, h2, h3⟩ := ih (g.take (g.length - n)) (by rw [List.length_take]; omega)
    refine ⟨(k, (g.drop (g.length - n)).reverse) :: asg, rest, ?_, by simp [h1], ?_, ?_⟩
    · rw [poster, popN_ok n g (by omega), Res.ok_bind]
      simp only
      rw [e, Res.ok_bind]
    · intro x hx
      rcases List.mem_cons.1 hx with rfl | hx
      · simp; omega
      · exact h2 x hx
    · simp only [List.flatMap_cons, List.append_assoc]
      refine ((List.reverse_perm _).append h3).trans ?_
      refine List.perm_append_comm.trans ?_
      rw [List.take_append_drop]

/-- C39.  For every number of pool threads, declared capacity and group with at least `threads * share` tasks — in
particular every group with as many tasks as declared —: nothing goes wrong, each thread gets the same share, and
the threads' jobs together with what stays with the caller are exactly the tasks of the group, each once.
`_partial`: smaller groups are undefined (`short_group_ub`), and so is what follows on a pool thread with two or more
jobs (`pool_wait_ub`); the arrays must not move (`waitgroup_reserve_dangles`). -/
theorem waitgroup_partition_partial (threads : List Nat) (capacity : Nat) (group : List T) (hn : group.Nodup)
    (h : threads.length * share threads.length capacity ≤ group.length) :
    ∃ asg rest, poster (share threads.length capacity) threads group = .ok (asg, rest) ∧ asg.map (·.1) = threads ∧
      (∀ x ∈ asg, x.2.length = share threads.length capacity) ∧ (asg.flatMap (·.2) ++ rest).Perm group ∧
      (asg.flatMap (·.2) ++ rest).Nodup := by
  obtain ⟨asg, rest, e, h1, h2, h3⟩ := poster_ok _ threads group h
  exact ⟨asg, rest, e, h1, h2, h3, h3.nodup_iff.2 hn⟩

/-- As many tasks as declared always suffice. -/
theorem full_group_suffices (threads capacity tasks : Nat) (h : capacity ≤ tasks) : threads * share threads capacity ≤ tasks := by
  have h1 : (threads + 1) * (capacity / (threads + 1)) ≤ capacity := Nat.mul_div_le _ _
  have h2 : threads * (capacity / (threads + 1)) ≤ (threads + 1) * (capacity / (threads + 1)) := Nat.mul_le_mul_right _ (by omega)
  unfold share
  omega

/-- With fewer tasks the distribution dereferences NULL. -/
theorem short_group_ub (n : Nat) : ∀ (ks : List Nat) (g : List T), g.length < ks.length * n → poster n ks g = .ub := by
  intro ks
  induction ks with
  | nil => intro g h; simp at h
  | cons k ks ih =>
    intro g hg
    simp only [List.length_cons, Nat.add_mul, Nat.one_mul] at hg
    rw [poster]
    by_cases hn : n ≤ g.length
    · rw [popN_ok n g hn, Res.ok_bind]
      simp only
      rw [ih _ (by rw [List.length_take]; omega)]
      rfl
    · rw [popN_ub n g (by omega)]
      rfl

/-- `waitgroup` with a capacity beyond that of a new array: if the reallocation moves, `wg->group` points to freed memory and
adding the first task is undefined. -/
theorem waitgroup_reserve_dangles (m : Arrays.Heap) (h : Arrays.Handle) (k : Arrays.Kind) (cap capacity : Nat)
    (R : Arrays.Rep m h k [] cap) (hc : cap < capacity) (mv : Bool) (v : Arrays.Val) :
    ∃ m', dataReserve true m h (capacity + 1) = .ok m' ∧ Arrays.dataAppend mv m' h v = .ub := by
  obtain ⟨m', e, _, hd, _⟩ := Arrays.grow_move R (capacity + 1) (by simp)
  obtain ⟨⟨s, hs, _, _⟩, _⟩ := R
  refine ⟨m', ?_, ?_⟩
  · simp only [dataReserve, Arrays.load_of_getElem? hs, Res.ok_bind]
    rw [if_pos (by omega), e, Res.ok_bind]
    rfl
  · simp [Arrays.dataAppend, Arrays.Heap.load, hd]

/-! #### On a pool thread -/

theorem tinv {last : T} {hasRes : T → Bool} {haltAt : Nat → T → Bool} : ∀ (n t : Nat) (s s' : TS), s.jobs ≠ [] →
    (s.freed = false → 2 ≤ s.jobs.length) → s.returned = false → trun last hasRes haltAt t n s = .ok s' →
    s'.jobs ≠ [] ∧ (s'.freed = false → 2 ≤ s'.jobs.length) ∧ s'.returned = false := by
  intro n
  induction n with
  | zero => intro t s s' hj hl hr h; cases h; exact ⟨hj, hl, hr⟩
  | succ n ih =>
    intro t s s' hj hlen hr h
    rw [trun, Res.bind_eq_ok] at h
    obtain ⟨s1, h1, h3⟩ := h
    unfold tstep at h1
    rw [if_neg (by simp [hr])] at h1
    split at h1
    · rename_i x hx
      have hi := (List.getElem?_eq_some_iff.1 hx).1
      split at h1
      · cases h1
      · rename_i hf
        have hf' : s.freed = false := by simpa using hf
        split at h1
        · cases h1
          refine ih (t + 1) { s with jobs := s.jobs.eraseIdx s.idx, idx := s.idx + 1, freed := true, results := _ } s' ?_
            (fun e => nomatch e) hr h3
          intro e
          have := congrArg List.length e
          simp only [List.length_nil] at this
          rw [List.length_eraseIdx_of_lt hi] at this
          have := hlen hf'
          omega
        · cases h1
          exact ih (t + 1) { s with idx := s.idx + 1 } s' hj hlen hr h3
    · rw [if_neg hj] at h1
      cases h1
      exact ih (t + 1) { s with idx := 0 } s' hj hlen hr h3

theorem tadd {last : T} {hasRes : T → Bool} {haltAt : Nat → T → Bool} : ∀ (a b t : Nat) (s : TS),
    trun last hasRes haltAt t (a + b) s = trun last hasRes haltAt t a s >>= fun s => trun last hasRes haltAt (t + a) b s := by
  intro a
  induction a with
  | zero => intro b t s; simp [trun]
  | succ a ih =>
    intro b t s
    rw [Nat.add_right_comm, trun, trun]
    cases tstep last hasRes (haltAt t) s with
    | ub => rfl
    | ok s1 =>
      simp only [Res.ok_bind]
      rw [ih, Nat.add_assoc, Nat.add_comm 1 a]

/-- Two or more jobs on a pool thread: the wait never comes to an end, whatever the tasks do. -/
theorem pool_wait_never_returns (jobs : List T) (h2 : 2 ≤ jobs.length) (last : T) (hasRes : T → Bool) (haltAt : Nat → T → Bool)
    (n : Nat) (s : TS) (h : trun last hasRes haltAt 0 n (TS.init jobs) = .ok s) : s.returned = false := by
  exact (tinv n 0 _ s (by intro e; simp only [TS.init] at e; rw [e] at h2; simp at h2) (by intro _; exact h2) rfl h).2.2

/-- And once the last of them has finished, it uses the deleted task. -/
theorem pool_wait_ub (jobs : List T) (h2 : 2 ≤ jobs.length) (last : T) (hasRes : T → Bool) (haltAt : Nat → T → Bool) (m : Nat)
    (hh : ∀ u ≥ m, haltAt u last = true) : ∃ n, trun last hasRes haltAt 0 n (TS.init jobs) = .ub := by
  -- steps that do not look at a job only reset the index
  have look : ∀ (t : Nat) (s : TS), s.jobs ≠ [] → s.returned = false → s.jobs[s.idx]? = none →
      tstep last hasRes (haltAt t) s = .ok { s with idx := 0 } := by
    intro t s hj hr hn
    unfold tstep
    rw [if_neg (by simp [hr]), hn]
    simp [hj]
  have dead : ∀ (t : Nat) (s : TS), s.jobs ≠ [] → s.returned = false → s.freed = true → ∃ n, trun last hasRes haltAt t n s = .ub := by
    intro t s hj hr hf
    have now : ∀ (t : Nat) (s : TS) (x : T), s.returned = false → s.freed = true → s.jobs[s.idx]? = some x →
        tstep last hasRes (haltAt t) s = .ub := by
      intro t s x hr hf hx
      unfold tstep
      rw [if_neg (by simp [hr]), hx]
      simp [hf]
    cases hx : s.jobs[s.idx]? with
    | some x => exact ⟨1, by rw [trun, now t s x hr hf hx]; rfl⟩
    | none =>
      refine ⟨2, ?_⟩
      rw [trun, look t s hj hr hx, Res.ok_bind, trun]
      obtain ⟨y, ys, e⟩ := List.exists_cons_of_ne_nil hj
      rw [now (t + 1) { s with idx := 0 } y hr hf (by simp [e])]
      rfl
  have hit : ∀ (t : Nat) (s : TS), m ≤ t → 2 ≤ s.jobs.length → s.returned = false → ∃ n, trun last hasRes haltAt t n s = .ub := by
    intro t s hm hl hr
    have hj : s.jobs ≠ [] := by intro e; rw [e] at hl; simp at hl
    cases hf : s.freed with
    | true => exact dead t s hj hr hf
    | false =>
      have now : ∀ (t : Nat) (s : TS) (x : T), m ≤ t → 2 ≤ s.jobs.length → s.returned = false → s.freed = false → s.jobs[s.idx]? = some x →
          ∃ n, trun last hasRes haltAt t n s = .ub := by
        intro t s x hm hl hr hf hx
        have hi := (List.getElem?_eq_some_iff.1 hx).1
        have e : tstep last hasRes (haltAt t) s = .ok { s with jobs := s.jobs.eraseIdx s.idx, idx := s.idx + 1, freed := true, results := if hasRes last then s.results ++ [last] else s.results } := by
          unfold tstep
          rw [if_neg (by simp [hr]), hx]
          simp [hf, hh t hm]
        obtain ⟨n, hn⟩ := dead (t + 1) { s with jobs := s.jobs.eraseIdx s.idx, idx := s.idx + 1, freed := true, results := if hasRes last then s.results ++ [last] else s.results }
          (by
            intro e
            have := congrArg List.length e
            simp only [List.length_nil] at this
            rw [List.length_eraseIdx_of_lt hi] at this
            omega) hr rfl
        exact ⟨n + 1, by rw [trun, e, Res.ok_bind]; exact hn⟩
      cases hx : s.jobs[s.idx]? with
      | some x => exact now t s x hm hl hr hf hx
      | none =>
        obtain ⟨y, ys, e⟩ := List.exists_cons_of_ne_nil hj
        obtain ⟨n, hn⟩ := now (t + 1) { s with idx := 0 } y (by omega) hl hr hf (by simp [e])
        exact ⟨n + 1, by rw [trun, look t s hj hr hx, Res.ok_bind]; exact hn⟩
  -- run until the last job has finished; it either fails before or is still waiting
  cases hr : trun last hasRes haltAt 0 m (TS.init jobs) with
  | ub => exact ⟨m, hr⟩
  | ok s =>
    obtain ⟨i1, i2, i3⟩ := tinv m 0 _ s (by intro e; simp only [TS.init] at e; rw [e] at h2; simp at h2) (by intro _; exact h2) rfl hr
    have : ∃ n, trun last hasRes haltAt m n s = .ub := by
      cases hf : s.freed with
      | true => exact dead m s i1 i3 hf
      | false => exact hit m s (Nat.le_refl m) (i2 hf) i3
    obtain ⟨n, hn⟩ := this
    exact ⟨m + n, by rw [tadd, hr, Res.ok_bind, Nat.zero_add]; exact hn⟩

/-- One job per pool thread works: the wait ends when it has finished, with its result. -/
theorem pool_wait_single (p : T) (hasRes : T → Bool) (haltAt : Nat → T → Bool) (m : Nat) (h0 : ∀ u < m, haltAt u p = false)
    (hm : haltAt m p = true) (hm1 : haltAt (m + 1) p = true) :
    ∃ n s, trun p hasRes haltAt 0 n (TS.init [p]) = .ok s ∧ s.returned = true ∧ s.results = (if hasRes p then [p] else []) := by
  -- the index is 0 or 1 while the job runs
  have wait : ∀ (n t i : Nat), (∀ u, t ≤ u → u < t + n → haltAt u p = false) → i ≤ 1 →
      ∃ j ≤ 1, trun p hasRes haltAt t n ⟨[p], i, false, [], false⟩ = .ok ⟨[p], j, false, [], false⟩ := by
    intro n
    induction n with
    | zero => intro t i _ hi; exact ⟨i, hi, rfl⟩
    | succ n ih =>
      intro t i hh hi
      have : ∃ j ≤ 1, tstep p hasRes (haltAt t) ⟨[p], i, false, [], false⟩ = .ok ⟨[p], j, false, [], false⟩ := by
        have hf := hh t (Nat.le_refl t) (by omega)
        rcases Nat.le_one_iff_eq_zero_or_eq_one.1 hi with rfl | rfl
        · exact ⟨1, Nat.le_refl 1, by simp [tstep, hf]⟩
        · exact ⟨0, by omega, by simp [tstep]⟩
      obtain ⟨j, hj, e⟩ := this
      rw [trun, e, Res.ok_bind]
      exact ih (t + 1) j (fun u h1 h2 => hh u (by omega) (by omega)) hj
  obtain ⟨j, hj, e⟩ := wait m 0 0 (fun u _ h => h0 u (by omega)) (by omega)
  rcases Nat.le_one_iff_eq_zero_or_eq_one.1 hj with rfl | rfl
  · refine ⟨m + 2, ⟨[], 1, true, if hasRes p then [p] else [], true⟩, ?_, rfl, rfl⟩
    rw [tadd, TS.init, e, Res.ok_bind, Nat.zero_add]
    simp [trun, tstep, hm]
  · refine ⟨m + 3, ⟨[], 1, true, if hasRes p then [p] else [], true⟩, ?_, rfl, rfl⟩
    rw [tadd, TS.init, e, Res.ok_bind, Nat.zero_add]
    simp [trun, tstep, hm1]

/-! ### C40 -/

/-- C40, cyclic order: from one submission to the next the thread number goes up by one, back to 0 after the last —
for every start value of the counter, as long as the counter does not wrap around or the number of threads is a power
of two (divides 2^64).  `_partial`: see `wrap_breaks_order`. -/
theorem placement_cyclic_partial (n c j : Nat) (_hn : 0 < n) (h : c + j + 1 < 2 ^ 64 ∨ n ∣ 2 ^ 64) :
    pick n c (j + 1) = (pick n c j + 1) % n := by
  unfold pick
  rcases h with h | h
  · rw [Nat.mod_eq_of_lt (by omega : c + (j + 1) < 2 ^ 64), Nat.mod_eq_of_lt (by omega : c + j < 2 ^ 64), ← Nat.add_assoc,
      Nat.mod_add_mod]
  · rw [Nat.mod_mod_of_dvd _ h, Nat.mod_mod_of_dvd _ h, ← Nat.add_assoc, Nat.mod_add_mod]

theorem round_count (n c i : Nat) (hi : i < n) : ((List.range n).map (fun j => (c + j) % n)).count i = 1 := by
  have hnd : ((List.range n).map (fun j => (c + j) % n)).Nodup := by
    refine List.Nodup.map_on ?_ List.nodup_range
    intro x hx y hy e
    rw [List.mem_range] at hx hy
    have : x % n = y % n := Nat.ModEq.add_left_cancel' c e
    rwa [Nat.mod_eq_of_lt hx, Nat.mod_eq_of_lt hy] at this
  rw [List.count_eq_one_of_mem hnd]
  rw [List.mem_map]
  refine ⟨(i + (n - c % n)) % n, by rw [List.mem_range]; exact Nat.mod_lt _ (by omega), ?_⟩
  rw [Nat.add_mod_mod]
  have h1 := Nat.div_add_mod c n
  have h2 := Nat.mod_lt c (by omega : 0 < n)
  have : c + (i + (n - c % n)) = i + n * (c / n + 1) := by rw [Nat.mul_add]; omega
  rw [this, Nat.add_mul_mod_self_left, Nat.mod_eq_of_lt hi]

/-- C40, fairness: `k * n` submissions in a row give each of the `n` threads exactly `k`. -/
theorem placement_fair_partial (n c k i : Nat) (hi : i < n) (h : c + k * n ≤ 2 ^ 64 ∨ n ∣ 2 ^ 64) :
    ((List.range (k * n)).map (pick n c)).count i = k := by
  have e : (List.range (k * n)).map (pick n c) = (List.range (k * n)).map (fun j => (c + j) % n) := by
    apply List.map_congr_left
    intro j hj
    rw [List.mem_range] at hj
    unfold pick
    rcases h with h | h
    · rw [Nat.mod_eq_of_lt (by omega : c + j < 2 ^ 64)]
    · rw [Nat.mod_mod_of_dvd _ h]
  rw [e]
  clear e h
  induction k with
  | zero => simp
  | succ k ih =>
    rw [Nat.add_mul, Nat.one_mul, List.range_add, List.map_append, List.count_append, ih, List.map_map]
    have := round_count n (c + k * n) i hi
    simp only [Function.comp_def, ← Nat.add_assoc]
    rw [this]

/-- At the wrap-around the order breaks unless the number of threads divides 2^64: the counter goes from 2^64-1 to 0,
and thread 0 does not follow the last thread. -/
theorem wrap_breaks_order (n : Nat) (hn : 0 < n) (h : ¬ n ∣ 2 ^ 64) : pick n (2 ^ 64 - 1) 1 ≠ (pick n (2 ^ 64 - 1) 0 + 1) % n := by
  unfold pick
  intro e
  apply h
  simp only [Nat.add_zero] at e
  rw [Nat.mod_eq_of_lt (by norm_num : 2 ^ 64 - 1 < 2 ^ 64), Nat.mod_add_mod] at e
  rw [Nat.sub_add_cancel (by norm_num), Nat.mod_self, Nat.zero_mod] at e
  exact Nat.dvd_of_mod_eq_zero e.symm

/-! ### Instances -/

/-- Three tasks, the second without a result, finishing at different times. -/
example : (wrun (fun p => p != 5) (fun t p => decide ((p = 3 ∧ 9 ≤ t) ∨ p = 5 ∨ (p = 8 ∧ 4 ≤ t))) 0 20 (WS.init [3, 5, 8]))
    = ⟨[], 1, [8, 3], [3, 8, 5], true⟩ := by decide

/-- Seven tasks declared and created, two pool threads: two each, three stay. -/
example : poster (share 2 7) [4, 6] [0, 1, 2, 3, 4, 5, 6] = .ok ([(4, [6, 5]), (6, [4, 3])], [0, 1, 2]) := by decide

example : (List.range 6).map (pick 3 7) = [1, 2, 0, 1, 2, 0] := by decide

end Verif.Tasks.Groups
