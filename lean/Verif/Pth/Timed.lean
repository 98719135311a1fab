import Verif.Basic

/-!
# Waiting with a time limit in the bundled POSIX threads for Windows (`include/compat/pthread.h` 431-489, 846-876, 1158-1170), C195

Times are in milliseconds since 1970, as `_pthread_time_in_ms` (431-437) gives them; `unsigned long long` is a number below 2^64.
The condition variable, the critical section and the read-write lock are Windows' own: an oracle says what they do, within what
Windows promises.
-/

namespace Verif.Pth.Timed

/-- `_pthread_time_in_ms_from_timespec` (439-444).  `tv_sec * 1000` is signed: out of range it is undefined.  Conversion to unsigned
takes the remainder; the division of `tv_nsec` rounds toward 0. -/
def deadline (sec nsec : Int) : Res Nat :=
  if -(2 ^ 63) ≤ sec * 1000 ∧ sec * 1000 < 2 ^ 63 then .ok ((sec * 1000 + nsec.tdiv 1000000) % 2 ^ 64).toNat else .ub

/-- `_pthread_rel_time_in_ms` (446-453), the deadline already in milliseconds. -/
def rel (d now : Nat) : Nat := if d < now then 0 else d - now

/-- What the callers hand to Windows: a `DWORD`, the low 32 bits. -/
def dword (ms : Nat) : Nat := ms % 2 ^ 32

/-- `INFINITE` of Windows. -/
def INFINITE : Nat := 2 ^ 32 - 1

/-- How `SleepConditionVariableCS` ended. -/
inductive Wake where
  | woken | timeout
  deriving DecidableEq

/-- What Windows promises of a sleep of `dw` milliseconds begun at `now` and ended at `now'`: without a limit it does not time out, with
a limit not before it has passed. -/
def Promised (dw now : Nat) (w : Wake) (now' : Nat) : Prop := now ≤ now' ∧ (w = .timeout → dw ≠ INFINITE ∧ now + dw ≤ now')

/-- `pthread_cond_timedwait` (1158-1170) with the sleep ended as `w` at `now'`: `true` for `ETIMEDOUT`, `false` for 0. -/
def condResult (d : Nat) (w : Wake) (now' : Nat) : Bool :=
  match w with
  | .timeout => true
  | .woken => decide (rel d now' = 0)

/-- The loop of `pthread_mutex_timedlock` (865-876): each element says whether the lock was got after the wait, and the time looked at
then.  `some true` is `ETIMEDOUT`; `none`: still waiting.  Simplified: how long each wait lasts is the oracle's. -/
def lockLoop (d ct : Nat) : List (Bool × Nat) → Option Bool
  | [] => if d < ct then some true else none
  | (got, now) :: t => if d < ct then some true else if got then some false else lockLoop d now t

/-- `pthread_mutex_timedlock` (846-876): first try at once, at time `now`. -/
def mutexTimed (d : Nat) (first : Bool) (now : Nat) (its : List (Bool × Nat)) : Option Bool :=
  if first then some false else lockLoop d now its

/-- `pthread_rwlock_timedrdlock`, `pthread_rwlock_timedwrlock` (455-489): try, look at the clock, again. -/
def rwTimed (d : Nat) : List (Bool × Nat) → Option Bool
  | [] => none
  | (got, now) :: t => if got then some false else if d < now then some true else rwTimed d t

/-! ## Waiting on a condition -/

/-- A time of day that POSIX allows: not before 1970, nanoseconds below a second, and no overflow. -/
def Legal (sec nsec : Int) : Prop := 0 ≤ sec ∧ sec * 1000 < 2 ^ 63 ∧ 0 ≤ nsec ∧ nsec < 1000000000

/-- The deadline in milliseconds, rounded down. -/
theorem deadline_legal {sec nsec : Int} (h : Legal sec nsec) :
    ∃ d : Nat, deadline sec nsec = .ok d ∧ (d : Int) = (sec * 1000000000 + nsec) / 1000000 := by
  obtain ⟨h1, h2, h3, h4⟩ := h
  have hd : nsec.tdiv 1000000 = nsec / 1000000 := Int.tdiv_eq_ediv_of_nonneg h3
  refine ⟨_, by rw [deadline, if_pos ⟨by omega, h2⟩], ?_⟩
  rw [hd]
  omega

theorem woken_iff (d n : Nat) : condResult d .woken n = true ↔ d ≤ n := by
  unfold condResult rel
  rw [decide_eq_true_iff]
  split <;> omega

theorem woken_iff' (d n : Nat) : condResult d .woken n = false ↔ n < d := by
  rw [← Bool.not_eq_true, woken_iff]; omega

/-- With a wait of less than 2^32 - 1 milliseconds ahead: `ETIMEDOUT` only when the clock, in milliseconds, has reached the deadline
(so less than a millisecond early), 0 only when it has not; and the sleep can time out.  Missing: longer waits, and dates before
1970. -/
theorem cond_timed_partial {sec nsec : Int} (h : Legal sec nsec) {d now now' : Nat} {w : Wake} (hd : deadline sec nsec = .ok d)
    (hr : rel d now < INFINITE) (hp : Promised (dword (rel d now)) now w now') :
    (condResult d w now' = true → sec * 1000000000 + nsec < (now' + 1) * 1000000) ∧
      (condResult d w now' = false → (now' : Int) * 1000000 < sec * 1000000000 + nsec) ∧
      (∀ late, now + rel d now ≤ late → Promised (dword (rel d now)) now .timeout late) := by
  obtain ⟨d', hd', he⟩ := deadline_legal h
  rw [hd] at hd'
  obtain rfl : d = d' := by simpa using hd'
  have hm : dword (rel d now) = rel d now := Nat.mod_eq_of_lt (by unfold INFINITE at hr; omega)
  rw [hm] at hp ⊢
  refine ⟨fun hc => ?_, fun hc => ?_, fun late hl => ⟨by omega, fun _ => ⟨by omega, hl⟩⟩⟩
  · have : d ≤ now' := by
      cases w with
      | timeout =>
        have := (hp.2 rfl).2
        unfold rel at this
        split at this <;> omega
      | woken => exact (woken_iff d now').1 hc
    omega
  · cases w with
    | timeout => simp [condResult] at hc
    | woken =>
      have := (woken_iff' d now').1 hc
      omega

example : Legal 100 500000 ∧ deadline 100 500000 = .ok 100000 ∧ rel 100000 99000 = 1000 ∧ Promised (dword 1000) 99000 .timeout 100000 := by
  refine ⟨⟨by decide, by decide, by decide, by decide⟩, by decide, by decide, by decide, fun _ => ⟨by decide, by decide⟩⟩

/-- A wait of 2^32 milliseconds (49.7 days) or more can end with `ETIMEDOUT` at least 2^32 milliseconds before its time. -/
theorem cond_early (d now : Nat) (hl : 2 ^ 32 ≤ rel d now) (hi : dword (rel d now) ≠ INFINITE) :
    ∃ now', Promised (dword (rel d now)) now .timeout now' ∧ condResult d .timeout now' = true ∧ now' + 2 ^ 32 ≤ d := by
  refine ⟨now + dword (rel d now), ⟨by omega, fun _ => ⟨hi, by omega⟩⟩, rfl, ?_⟩
  unfold rel dword at *
  split at hl
  · omega
  · rw [if_neg (by assumption)]
    omega

/-- If the low 32 bits are all ones the wait has no limit: it does not time out, however late it is. -/
theorem cond_forever (d now : Nat) (hi : dword (rel d now) = INFINITE) (w : Wake) (now' : Nat)
    (hp : Promised (dword (rel d now)) now w now') : w = .woken := by
  cases w with
  | woken => rfl
  | timeout => exact absurd hi (hp.2 rfl).1

example : dword (rel (1000 + INFINITE) 1000) = INFINITE := by decide

/-- A deadline before 1970 is long past, but is taken for one far in the future: a waiter that is woken is told 0. -/
theorem cond_before_1970 {sec nsec : Int} (h1 : sec < 0) (h2 : -(2 ^ 53) ≤ sec) (h3 : 0 ≤ nsec) (h4 : nsec < 1000000000) :
    ∃ d, deadline sec nsec = .ok d ∧ ∀ now', now' < 2 ^ 63 → condResult d .woken now' = false := by
  have hd : nsec.tdiv 1000000 = nsec / 1000000 := Int.tdiv_eq_ediv_of_nonneg h3
  refine ⟨_, by rw [deadline, if_pos ⟨by omega, by omega⟩], fun now' hn => ?_⟩
  rw [hd, woken_iff']
  have hq : nsec / 1000000 < 1000 ∧ 0 ≤ nsec / 1000000 := by omega
  generalize nsec / 1000000 = q at hq
  have hx : sec * 1000 + q < 0 ∧ -(2 ^ 63) ≤ sec * 1000 + q := by omega
  generalize sec * 1000 + q = x at hx
  omega

/-! ## Locks -/

theorem lockLoop_spec (d : Nat) (its : List (Bool × Nat)) : ∀ now,
    (lockLoop d now its = some true → ∃ done rest t, its = done ++ rest ∧ (∀ i ∈ done, i.1 = false) ∧
      (now :: done.map (·.2)).getLast? = some t ∧ d < t) ∧
    (lockLoop d now its = some false → now ≤ d ∧ ∃ done t rest, its = done ++ (true, t) :: rest ∧
      ∀ i ∈ done, i.1 = false ∧ i.2 ≤ d) := by
  induction its with
  | nil =>
    intro now
    simp only [lockLoop]
    split
    · next h => exact ⟨fun _ => ⟨[], [], now, rfl, by simp, rfl, h⟩, by simp⟩
    · simp
  | cons x t ih =>
    intro now
    obtain ⟨got, n⟩ := x
    simp only [lockLoop]
    split
    · next h => exact ⟨fun _ => ⟨[], _, now, rfl, by simp, rfl, h⟩, by simp⟩
    · next h =>
      cases got with
      | true => exact ⟨by simp, fun _ => ⟨by omega, [], n, t, rfl, by simp⟩⟩
      | false =>
        simp only [Bool.false_eq_true, if_false]
        obtain ⟨h1, h2⟩ := ih n
        refine ⟨fun hx => ?_, fun hx => ?_⟩
        · obtain ⟨done, rest, s, rfl, ha, hb, hc⟩ := h1 hx
          refine ⟨(false, n) :: done, rest, s, rfl, by simpa using ha, ?_, hc⟩
          rw [List.map_cons, List.getLast?_cons_cons]
          exact hb
        · obtain ⟨hn, done, s, rest, rfl, ha⟩ := h2 hx
          refine ⟨by omega, (false, n) :: done, s, rest, rfl, ?_⟩
          intro i hi
          rcases List.mem_cons.1 hi with rfl | hi
          · exact ⟨rfl, hn⟩
          · exact ha i hi

/-- `pthread_mutex_timedlock` tells `ETIMEDOUT` only when every try failed and the time it looked at last is after the deadline; 0 only
when its last try got the lock, no time looked at before being after the deadline. -/
theorem mutex_timed (d : Nat) (first : Bool) (now : Nat) (its : List (Bool × Nat)) :
    (mutexTimed d first now its = some true → first = false ∧ ∃ done rest t, its = done ++ rest ∧ (∀ i ∈ done, i.1 = false) ∧
      (now :: done.map (·.2)).getLast? = some t ∧ d < t) ∧
    (mutexTimed d first now its = some false → first = true ∨ now ≤ d ∧ ∃ done t rest, its = done ++ (true, t) :: rest ∧
      ∀ i ∈ done, i.1 = false ∧ i.2 ≤ d) := by
  unfold mutexTimed
  cases first with
  | true => simp
  | false => simpa using lockLoop_spec d its now

example : mutexTimed 5 false 3 [(false, 4), (false, 6), (true, 7)] = some true ∧ mutexTimed 5 false 3 [(false, 4), (true, 6)] = some false := by
  decide

/-- The timed read-write locks: `ETIMEDOUT` only when every try failed and the clock is past the deadline, 0 only when the last try got
the lock. -/
theorem rw_timed (d : Nat) (its : List (Bool × Nat)) :
    (rwTimed d its = some true → ∃ done t rest, its = done ++ (false, t) :: rest ∧ (∀ i ∈ done, i.1 = false) ∧ d < t) ∧
    (rwTimed d its = some false → ∃ done t rest, its = done ++ (true, t) :: rest ∧ ∀ i ∈ done, i.1 = false ∧ i.2 ≤ d) ∧
    (rwTimed d its = none → ∀ i ∈ its, i.1 = false ∧ i.2 ≤ d) := by
  induction its with
  | nil => simp [rwTimed]
  | cons x t ih =>
    obtain ⟨got, n⟩ := x
    cases got with
    | true => exact ⟨by simp [rwTimed], fun _ => ⟨[], n, t, rfl, by simp⟩, by simp [rwTimed]⟩
    | false =>
      simp only [rwTimed, Bool.false_eq_true, if_false]
      split
      · next h => exact ⟨fun _ => ⟨[], n, t, rfl, by simp, h⟩, by simp, by simp⟩
      · next h =>
        obtain ⟨h1, h2, h3⟩ := ih
        refine ⟨fun hx => ?_, fun hx => ?_, fun hx => ?_⟩
        · obtain ⟨done, s, rest, rfl, ha, hb⟩ := h1 hx
          exact ⟨(false, n) :: done, s, rest, rfl, by simpa using ha, hb⟩
        · obtain ⟨done, s, rest, rfl, ha⟩ := h2 hx
          refine ⟨(false, n) :: done, s, rest, rfl, ?_⟩
          intro i hi
          rcases List.mem_cons.1 hi with rfl | hi
          · exact ⟨rfl, by omega⟩
          · exact ha i hi
        · intro i hi
          rcases List.mem_cons.1 hi with rfl | hi
          · exact ⟨rfl, by omega⟩
          · exact h3 hx i hi

example : rwTimed 5 [(false, 4), (false, 6)] = some true := by decide

end Verif.Pth.Timed
