import Verif.Sched.SleepLemmas
import Verif.Sched.QueueProps

/-!
# C28, C29: sleeping
-/

namespace Verif.Sched

theorem inv_init (mem : Id → Links) (alarm : Id → Nat) (system : Id → Bool) (tc : Int) :
    Inv tc (SS.init mem alarm system tc) [] [] [] [] :=
  ⟨empty_rep mem, empty_rep mem, by simp, by simp, by simp [SS.init, countUser], by simp [SS.init, countUser],
    by simp [SS.init], by simp, by simp, by simp, by simp, by simp, by simp [SS.init], by simp, by simp [SS.init]⟩

theorem sorted_step {a a' : AS} {op : SOp} (h : a.sleepers.Pairwise (fun x y => x.2 ≤ y.2)) (hs : specS a op = some a') :
    a'.sleepers.Pairwise (fun x y => x.2 ≤ y.2) := by
  cases op with
  | sleep t ms now =>
    simp only [specS] at hs
    split at hs
    · simp only [Option.some.injEq] at hs
      subst hs
      have : Std.Total (fun x y : Id × Nat => x.2 ≤ y.2) := ⟨fun x y => Nat.le_total _ _⟩
      have : IsTrans (Id × Nat) (fun x y => x.2 ≤ y.2) := ⟨fun x y z => Nat.le_trans⟩
      exact h.orderedInsert _ _
    · simp at hs
  | ready t =>
    simp only [specS] at hs
    split at hs
    · simp only [Option.some.injEq] at hs; subst hs; exact h
    · simp at hs
  | pop =>
    simp only [specS] at hs
    split at hs <;> (simp only [Option.some.injEq] at hs; subst hs; exact h)
  | wake now =>
    simp only [specS, Option.some.injEq] at hs
    subst hs
    exact h.filter _
  | wait t w =>
    simp only [specS] at hs
    split at hs
    · simp only [Option.some.injEq] at hs; subst hs; exact h
    · simp at hs
  | finish t =>
    simp only [specS] at hs
    split at hs
    · simp only [Option.some.injEq] at hs; subst hs; exact h
    · simp at hs

theorem sleep_step {base : Int} {s : SS} {out : List (Option Id)} {a a' : AS} {op : SOp}
    (h : Inv base s a.sleepers a.ready a.waits a.finished) (ho : out = a.out)
    (hp : a.sleepers.Pairwise (fun x y => x.2 ≤ y.2)) (hs : specS a op = some a') :
    ∃ s', implS (s, out) op = some (s', a'.out) ∧ s'.system = s.system ∧
      Inv base s' a'.sleepers a'.ready a'.waits a'.finished := by
  subst ho
  cases op with
  | sleep t ms now =>
    simp only [specS] at hs
    split at hs
    · rename_i hc
      simp only [Option.some.injEq] at hs
      subst hs
      obtain ⟨s', e1, e2, e3⟩ := inv_addTimeout h hc.1.1 hc.1.2.1 hc.1.2.2.1 hc.1.2.2.2 hc.2
      exact ⟨s', by simp [implS, e1], e2, e3⟩
    · simp at hs
  | ready t =>
    simp only [specS] at hs
    split at hs
    · rename_i hc
      simp only [Option.some.injEq] at hs
      subst hs
      exact ⟨_, rfl, rfl, inv_makeReady h hc.1 hc.2.1 hc.2.2.1⟩
    · simp at hs
  | pop =>
    simp only [specS] at hs
    split at hs
    · rename_i hr
      simp only [Option.some.injEq] at hs
      subst hs
      have hq := h.rq
      rw [hr] at hq
      have e := taskDequeue_nil hq
      refine ⟨s, ?_, rfl, h⟩
      simp only [implS, popRun, e]
      rfl
    · rename_i x xs hr
      simp only [Option.some.injEq] at hs
      subst hs
      have hq := h.rq
      rw [hr] at hq
      have e := taskDequeue_cons hq
      have hhd : s.runQ.head = some x := by rw [hq.head]; rfl
      have ed : (taskDequeue s.runQ).2 = dequeue s.runQ x := by simp [taskDequeue, hhd]
      rw [ed] at e
      refine ⟨s.setRunQ (dequeue s.runQ x), by simp only [implS, popRun, e.1, ed], rfl, ?_⟩
      have hsub : ∀ y ∈ xs, y ∈ a.ready := by intro y hy; rw [hr]; simp [hy]
      refine ⟨?_, e.2, fun y hy hm => h.dis y hy (hsub y hm), h.alarm, h.cnt, h.tcnt, h.sl, h.wk, h.wknd, h.wvnd, h.wvL,
        fun q hq hm => h.wvR q hq (hsub _ hm), h.halt, h.finL, h.fuel⟩
      exact rep_congr h.sq (m := (dequeue s.runQ x).mem) fun y hy => dequeue_frame hq (by simp) (by
        have := h.dis y hy; rw [hr] at this; exact this)
  | wake now =>
    simp only [specS, Option.some.injEq] at hs
    subst hs
    obtain ⟨s', e1, e2, e3⟩ := inv_wakeLoop (now := now) h hp h.fuel
    exact ⟨s', by simp only [implS, wakePass, e1]; rfl, e2, e3⟩
  | wait t w =>
    simp only [specS] at hs
    split at hs
    · rename_i hc
      simp only [Option.some.injEq] at hs
      subst hs
      refine ⟨_, rfl, rfl, ⟨h.sq, h.rq, h.dis, h.alarm, h.cnt, h.tcnt, ?_, ?_, ?_, ?_, ?_, ?_, h.halt, h.finL, h.fuel⟩⟩
      · intro x y
        simp only [waitOn, List.mem_cons, Prod.mk.injEq]
        by_cases hx : x = t
        · subst hx
          rw [Function.update_self]
          constructor
          · rintro (⟨_, rfl⟩ | hm)
            · rfl
            · exact absurd (List.mem_map_of_mem hm) hc.2.1
          · intro e; left; exact ⟨rfl, by simpa using e.symm⟩
        · rw [Function.update_of_ne hx, ← h.sl]
          simp [hx]
      · intro q hq
        rcases List.mem_cons.1 hq with rfl | hq
        · exact hc.1
        · exact h.wk q hq
      · rw [List.map_cons, List.nodup_cons]; exact ⟨hc.2.1, h.wknd⟩
      · rw [List.map_cons, List.nodup_cons]; exact ⟨hc.2.2.2.2.1, h.wvnd⟩
      · intro q hq
        rcases List.mem_cons.1 hq with rfl | hq
        · exact hc.2.2.1
        · exact h.wvL q hq
      · intro q hq
        rcases List.mem_cons.1 hq with rfl | hq
        · exact hc.2.2.2.1
        · exact h.wvR q hq
    · simp at hs
  | finish t =>
    simp only [specS] at hs
    split at hs
    · rename_i hc
      simp only [Option.some.injEq] at hs
      subst hs
      refine ⟨_, rfl, rfl, ⟨h.sq, h.rq, h.dis, h.alarm, h.cnt, h.tcnt, h.sl, h.wk, h.wknd, h.wvnd, h.wvL, h.wvR, ?_, ?_, h.fuel⟩⟩
      · intro x
        simp only [Sched.finish, List.mem_cons]
        by_cases hx : x = t
        · subst hx; simp
        · rw [Function.update_of_ne hx, h.halt]; simp [hx]
      · intro x hx
        simp only [List.mem_cons, not_or]
        exact ⟨by rintro rfl; exact hc.1 hx, h.finL x hx⟩
    · simp at hs

theorem sleep_run {base : Int} {ops : List SOp} : ∀ {s : SS} {out : List (Option Id)} {a a' : AS},
    Inv base s a.sleepers a.ready a.waits a.finished → out = a.out → a.sleepers.Pairwise (fun x y => x.2 ≤ y.2) →
    specSs a ops = some a' →
    ∃ s', implSs (s, out) ops = some (s', a'.out) ∧ s'.system = s.system ∧
      Inv base s' a'.sleepers a'.ready a'.waits a'.finished ∧ a'.sleepers.Pairwise (fun x y => x.2 ≤ y.2) := by
  induction ops with
  | nil =>
    intro s out a a' h ho hp hs
    simp only [specSs, Option.some.injEq] at hs
    subst hs
    exact ⟨s, by simp [implSs, ho], rfl, h, hp⟩
  | cons op ops ih =>
    intro s out a a' h ho hp hs
    simp only [specSs, Option.bind_eq_some_iff] at hs
    obtain ⟨a1, h1, h2⟩ := hs
    obtain ⟨s1, e1, e2, e3⟩ := sleep_step h ho hp h1
    obtain ⟨s2, f1, f2, f3, f4⟩ := ih e3 rfl (sorted_step hp h1) h2
    exact ⟨s2, by simp only [implSs, e1, Option.bind_some, f1], by rw [f2, e2], f3, f4⟩

/-- C28 (refinement): for every possible history of sleeping, waking, running and waiting, the code does exactly what the
specification says: the scheduler is given the specified tasks in the specified order, the run queue and the sleep queue
hold the specified tasks in order, the count of sleepers is the number of sleeping user tasks, and the thread counts one
extra task exactly as long as some user task sleeps.  In particular no list operation goes wrong and no loop runs on. -/
theorem sleep_refines_spec (mem : Id → Links) (alarm : Id → Nat) (system : Id → Bool) (tc : Int) (ops : List SOp) (a : AS)
    (h : specSs AS.init ops = some a) :
    ∃ s, implSs (SS.init mem alarm system tc, []) ops = some (s, a.out) ∧
      (∀ k, forward s.mem (a.ready.length + k) s.runHead = a.ready) ∧
      (∀ k, forward s.mem (a.sleepers.length + k) s.sleepHead = a.sleepers.map (·.1)) ∧
      (∀ p ∈ a.sleepers, s.alarm p.1 = p.2) ∧
      s.sleepCount = (a.sleepers.filter fun p => !system p.1).length ∧
      s.taskCount = tc + (if ∃ p ∈ a.sleepers, system p.1 = false then 1 else 0) := by
  obtain ⟨s, e1, e2, e3, _⟩ := sleep_run (inv_init mem alarm system tc) rfl (by simp [AS.init]) h
  refine ⟨s, e1, ?_, ?_, e3.alarm, ?_, ?_⟩
  · intro k
    have := e3.rq.head
    simp only [SS.runQ] at this
    rw [this]
    exact forward_seg e3.rq.seg
  · intro k
    have := e3.sq.head
    simp only [SS.sleepQ] at this
    rw [this]
    have := forward_seg (k := k) e3.sq.seg
    simpa [SS.sleepQ] using this
  · have := e3.cnt
    rw [e2] at this
    exact this
  · have := e3.tcnt
    rw [e2] at this
    rw [this]
    congr 1
    have : countUser system a.sleepers = 0 ↔ ¬ ∃ p ∈ a.sleepers, system p.1 = false := by
      unfold countUser
      rw [List.length_eq_zero_iff, List.filter_eq_nil_iff]
      push Not
      constructor
      · intro h p hp; have := h p hp; simpa using this
      · intro h p hp; have := h p hp; simpa using this
    have e : (SS.init mem alarm system tc).system = system := rfl
    rw [e]
    by_cases hx : countUser system a.sleepers = 0
    · rw [if_pos hx, if_neg (this.1 hx)]
    · rw [if_neg hx, if_pos (by_contra fun hh => hx (this.2 hh))]

example : specSs AS.init [.sleep 1 30 1000, .sleep 2 10 2000, .sleep 3 30 1000, .ready 4, .wait 2 5, .wake 20000000, .pop,
    .pop, .pop, .sleep 2 5 20000000, .wake 30001000, .pop, .pop] =
    some ⟨[], [1], [], [], [some 4, some 2, some 5, some 2, some 3]⟩ := by decide +kernel

/-- C28: a wake-up pass at time `now` after any history.  Every task it makes ready is a sleeper whose deadline has been
reached, or waits for one; every sleeper whose deadline has been reached is made ready; deadlines ascend; and who goes on
sleeping has a deadline in the future. -/
theorem wake_pass_correct (mem : Id → Links) (alarm : Id → Nat) (system : Id → Bool) (tc : Int) (ops : List SOp) (a : AS)
    (now : Nat) (h : specSs AS.init ops = some a) :
    ∃ (s s' : SS) (woken : List (Id × Nat)) (newReady : List Id),
      implSs (SS.init mem alarm system tc, []) ops = some (s, a.out) ∧ wakePass s now = some s' ∧
      (∀ k, forward s'.mem (a.ready.length + newReady.length + k) s'.runHead = a.ready ++ newReady) ∧
      newReady = woken.flatMap (fun p => p.1 :: waiters a.waits p.1) ∧
      woken.Pairwise (fun x y => x.2 ≤ y.2) ∧
      (∀ p, p ∈ woken ↔ p ∈ a.sleepers ∧ p.2 ≤ now) ∧
      (∀ k, forward s'.mem (a.sleepers.length + k) s'.sleepHead = (a.sleepers.filter (now < ·.2)).map (·.1)) := by
  obtain ⟨s, e1, e2, e3, e4⟩ := sleep_run (inv_init mem alarm system tc) rfl (by simp [AS.init]) h
  obtain ⟨s', f1, f2, f3⟩ := inv_wakeLoop (now := now) e3 e4 e3.fuel
  refine ⟨s, s', a.sleepers.filter (·.2 ≤ now), _, e1, f1, ?_, rfl, e4.filter _, by simp, ?_⟩
  · intro k
    have := f3.rq.head
    simp only [SS.runQ] at this
    rw [this, ← List.length_append]
    exact forward_seg f3.rq.seg
  · intro k
    have := f3.sq.head
    simp only [SS.sleepQ] at this
    rw [this]
    have hl := List.length_filter_le (fun p : Id × Nat => decide (now < p.2)) a.sleepers
    obtain ⟨j, hj⟩ : ∃ j, a.sleepers.length + k = ((a.sleepers.filter (now < ·.2)).map (·.1)).length + j :=
      ⟨a.sleepers.length + k - (a.sleepers.filter (now < ·.2)).length, by rw [List.length_map]; omega⟩
    rw [hj]
    have := forward_seg (k := j) f3.sq.seg
    simpa [SS.sleepQ] using this

/-- The deadlines in the specification come from the calls: a sleeper's deadline is the time of a call of `delay` by that
task plus the milliseconds asked for. -/
theorem deadline_from_call (ops : List SOp) (a : AS) (h : specSs AS.init ops = some a) (p : Id × Nat)
    (hp : p ∈ a.sleepers) : ∃ ms now, SOp.sleep p.1 ms now ∈ ops ∧ p.2 = now + ms * 1000000 := by
  suffices H : ∀ (ops : List SOp) (b : AS) (P : Id × Nat → Prop), (∀ q ∈ b.sleepers, P q) →
      (∀ t ms now, SOp.sleep t ms now ∈ ops → P (t, now + ms * 1000000)) → ∀ a, specSs b ops = some a →
      ∀ q ∈ a.sleepers, P q from
    H ops AS.init (fun p => ∃ ms now, SOp.sleep p.1 ms now ∈ ops ∧ p.2 = now + ms * 1000000) (by simp [AS.init])
      (fun t ms now hm => ⟨ms, now, hm, rfl⟩) a h p hp
  clear h hp p a ops
  intro ops
  induction ops with
  | nil =>
    intro b P hb _ a h
    simp only [specSs, Option.some.injEq] at h
    subst h; exact hb
  | cons op ops ih =>
    intro b P hb hop a h
    simp only [specSs, Option.bind_eq_some_iff] at h
    obtain ⟨b1, h1, h2⟩ := h
    refine ih b1 P ?_ (fun t ms now hm => hop t ms now (by simp [hm])) a h2
    cases op with
    | sleep t ms now =>
      simp only [specS] at h1
      split at h1
      · simp only [Option.some.injEq] at h1
        subst h1
        intro q hq
        simp only [List.mem_orderedInsert] at hq
        rcases hq with rfl | hq
        · exact hop t ms now (by simp)
        · exact hb q hq
      · simp at h1
    | ready t =>
      simp only [specS] at h1
      split at h1
      · simp only [Option.some.injEq] at h1; subst h1; exact hb
      · simp at h1
    | pop =>
      simp only [specS] at h1
      split at h1 <;> (simp only [Option.some.injEq] at h1; subst h1; exact hb)
    | wake now =>
      simp only [specS, Option.some.injEq] at h1
      subst h1
      intro q hq
      exact hb q (List.mem_filter.1 hq).1
    | wait t w =>
      simp only [specS] at h1
      split at h1
      · simp only [Option.some.injEq] at h1; subst h1; exact hb
      · simp at h1
    | finish t =>
      simp only [specS] at h1
      split at h1
      · simp only [Option.some.injEq] at h1; subst h1; exact hb
      · simp at h1

/-! ### C29 -/

/-- The value `delay` returns, `(uint32_t)(events_nsec() - now) / 1000000`, src/events.c:1394: the cast binds tighter than
the division. -/
def delayValue (start stop : Nat) : Nat := ((stop + 2 ^ 64 - start) % 2 ^ 64 % 2 ^ 32) / 1000000

/-- C29 (partial): right when fewer than 2^32 nanoseconds (4.29 s) have passed.  Missing: longer sleeps, see below. -/
theorem delay_value_partial (start stop : Nat) (h : start ≤ stop) (hd : stop - start < 2 ^ 32) :
    delayValue start stop = (stop - start) / 1000000 := by
  unfold delayValue
  congr 1
  omega

example : delayValue 1700000000000000000 1700000001500000000 = 1500 := by decide

/-- C29 is false for every longer sleep: the value returned is less than the time that has passed. -/
theorem delay_value_wrong (start stop : Nat) (h : start ≤ stop) (hs : stop < 2 ^ 64) (hd : 2 ^ 32 ≤ stop - start) :
    delayValue start stop < (stop - start) / 1000000 := by
  unfold delayValue
  omega

example : delayValue 1700000000000000000 1700000005000000000 = 705 := by decide

/-- Whoever asks for 4295 ms or more is always told a smaller number, although the task slept long enough. -/
theorem delay_long_understated (start stop ms : Nat) (h : start + ms * 1000000 ≤ stop) (hm : 4295 ≤ ms) :
    delayValue start stop < ms := by
  unfold delayValue
  have : (stop + 2 ^ 64 - start) % 2 ^ 64 % 2 ^ 32 < 2 ^ 32 := Nat.mod_lt _ (by norm_num)
  omega

end Verif.Sched
