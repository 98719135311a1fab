import Mathlib.Tactic.Linarith
import Mathlib.Data.Int.Basic

/-!
# Threads' deadlines and sleeping (`_timespec_addms`, `os_join`, `os_exit`, `os_sleep` in `src/os_unix.c`), C88

Times are in nanoseconds.  Linux.
-/

namespace Verif.Proc.Time

/-- `struct timespec`. -/
structure Ts where
  sec : Nat
  nsec : Nat
  deriving DecidableEq, Repr

/-- `_timespec_addms`, src/os_unix.c:766-773.  Simplified: `tv_sec` does not overflow. -/
def addms (ts : Ts) (ms : Nat) : Ts :=
  let s := ts.sec + ms / 1000
  let n := ts.nsec + ms % 1000 * 1000 * 1000
  if n ≥ 1000 * 1000 * 1000 then ⟨s + 1, n - 1000 * 1000 * 1000⟩ else ⟨s, n⟩

/-- The kernel's reading of a `timespec`: it refuses fractions of a second or more. -/
def nanos (ts : Ts) : Option Nat := if ts.nsec < 1000000000 then some (ts.sec * 1000000000 + ts.nsec) else none

/-- `clock_gettime(CLOCK_REALTIME)` at time `t`. -/
def gettime (t : Nat) : Ts := ⟨t / 1000000000, t % 1000000000⟩

inductive Errno where
  | ebusy
  | etimedout
  | einval
  deriving DecidableEq, Repr

/-- The thread that is joined: when it ends, and with what (`none`: it never ends). -/
structure Thread where
  fate : Option (Nat × BitVec 64)

/-- The library calls at time `now`: the time of return and the result; `none` if the call never returns. -/
def pthreadJoin (th : Thread) (now : Nat) : Option (Nat × Except Errno (BitVec 64)) :=
  match th.fate with
  | none => none
  | some (t, v) => some (max now t, .ok v)

def tryJoin (th : Thread) (now : Nat) : Nat × Except Errno (BitVec 64) :=
  match th.fate with
  | none => (now, .error .ebusy)
  | some (t, v) => if t ≤ now then (now, .ok v) else (now, .error .ebusy)

def timedJoin (th : Thread) (now : Nat) (ts : Ts) : Nat × Except Errno (BitVec 64) :=
  match nanos ts with
  | none => (now, .error .einval)
  | some d =>
    match th.fate with
    | none => (max now d, .error .etimedout)
    | some (t, v) => if t ≤ now then (now, .ok v) else if t ≤ d then (t, .ok v) else (max now d, .error .etimedout)

/-- `os_join`, src/os_unix.c:775-812: the time of return, and the exit code or `errno`. -/
def osJoin (th : Thread) (timeout : BitVec 32) (now : Nat) : Option (Nat × Except Errno (BitVec 32)) :=
  let r := if timeout = -1 then pthreadJoin th now
    else if timeout = 0 then
      match tryJoin th now with
      | (t, .error .ebusy) => some (t, .error .etimedout)
      | r => some r
    else some (timedJoin th now (addms (gettime now) timeout.toNat))
  match r with
  | none => none
  | some (t, .error e) => some (t, .error e)
  | some (t, .ok v) => some (t, .ok (v.setWidth 32))

/-- What `os_exit(code)` leaves for the joiner, src/os_unix.c:818-820: `uint32_t` to `intptr_t`. -/
def osExit (code : BitVec 32) : BitVec 64 := code.setWidth 64

/-- `nanosleep` for `d` nanoseconds (`none`: a time the kernel refuses): time of return and result; `signal`: when a handled
signal next arrives. -/
def nanosleep (d : Option Nat) (now : Nat) (signal : Option Nat) : Nat × Int :=
  match d, signal with
  | none, _ => (now, -1)
  | some d, none => (now + d, 0)
  | some d, some t => if now ≤ t ∧ t < now + d then (t, -1) else (now + d, 0)

/-- `os_sleep`, src/os_unix.c:880-886. -/
def osSleep (msec : BitVec 32) (now : Nat) (signal : Option Nat) : Nat × Int :=
  nanosleep (nanos ⟨msec.toNat / 1000, msec.toNat % 1000 * 1000000⟩) now signal

/-! ## Claims -/

/-- C88: adding milliseconds to a proper time gives a proper time, later by exactly that much. -/
theorem deadline_exact (ts : Ts) (ms : Nat) (h : ts.nsec < 1000000000) :
    nanos (addms ts ms) = some (ts.sec * 1000000000 + ts.nsec + ms * 1000000) := by
  unfold addms nanos
  simp only
  split_ifs with h1 h2 h3
  · simp only [Option.some.injEq]; omega
  · exfalso; apply h2; dsimp only; omega
  · simp only [Option.some.injEq]; omega
  · exfalso; apply h3; dsimp only; omega

theorem nanos_gettime (t : Nat) : (gettime t).nsec < 1000000000 ∧ (gettime t).sec * 1000000000 + (gettime t).nsec = t := by
  unfold gettime
  dsimp only
  omega

/-- C88: joining a thread that has ended with `os_exit(code)` gives this code, with every timeout, and at once. -/
theorem join_ended_thread (code timeout : BitVec 32) (t now : Nat) (h : t ≤ now) :
    osJoin ⟨some (t, osExit code)⟩ timeout now = some (now, .ok code) := by
  have e : (osExit code).setWidth 32 = code := by
    unfold osExit
    rw [BitVec.setWidth_setWidth_of_le _ (by omega)]
    simp
  unfold osJoin
  simp only
  by_cases h1 : timeout = -1
  · simp only [h1, if_true, pthreadJoin, e]
    rw [max_eq_left h]
  · by_cases h2 : timeout = 0
    · simp only [h2, if_true, tryJoin, h]
      simp [e]
    · simp only [h1, h2, if_false, timedJoin]
      rw [deadline_exact _ _ (nanos_gettime now).1]
      simp [h, e]

/-- A join with a deadline of the kernel's clock, kept apart so that no proof computes with nanoseconds. -/
theorem osJoin_timed (fate : Option (Nat × BitVec 32)) (timeout : BitVec 32) (ht : timeout ≠ -1) (h0 : timeout ≠ 0)
    (now d : Nat) (hd : nanos (addms (gettime now) timeout.toNat) = some d) (hle : now ≤ d) :
    osJoin ⟨fate.map fun p => (p.1, osExit p.2)⟩ timeout now = some
      (match fate with
        | none => (d, .error .etimedout)
        | some (t, code) => if t ≤ d then (max now t, .ok code) else (d, .error .etimedout)) := by
  unfold osJoin timedJoin
  simp only [ht, h0, if_false, hd]
  cases fate with
  | none => simp only [Option.map_none, max_eq_right hle]
  | some p =>
    obtain ⟨t, code⟩ := p
    have e : (osExit code).setWidth 32 = code := by
      unfold osExit
      rw [BitVec.setWidth_setWidth_of_le _ (by omega)]
      simp
    simp only [Option.map_some]
    by_cases h1 : t ≤ now
    · have h2 : t ≤ d := Nat.le_trans h1 hle
      simp only [h1, h2, if_true, e, max_eq_left h1]
    · by_cases h2 : t ≤ d
      · simp only [h1, h2, if_true, if_false, e, max_eq_right (Nat.le_of_not_le h1)]
      · simp only [h1, h2, if_false, max_eq_right hle]

theorem osJoin_poll (fate : Option (Nat × BitVec 32)) (now d : Nat) (hd : now = d) :
    osJoin ⟨fate.map fun p => (p.1, osExit p.2)⟩ 0 now = some
      (match fate with
        | none => (d, .error .etimedout)
        | some (t, code) => if t ≤ d then (max now t, .ok code) else (d, .error .etimedout)) := by
  subst hd
  cases fate with
  | none => simp [osJoin, tryJoin]
  | some p =>
    obtain ⟨t, code⟩ := p
    by_cases h1 : t ≤ now
    · have := join_ended_thread code 0 t now h1
      simp only [Option.map_some, if_pos h1]
      rw [this, max_eq_left h1]
    · simp [osJoin, tryJoin, h1]

theorem nanos_deadline (ms now d : Nat) (hd : now + ms * 1000000 = d) :
    nanos (addms (gettime now) ms) = some d := by
  rw [deadline_exact _ _ (nanos_gettime now).1, (nanos_gettime now).2, hd]

/-- C88: a join with a timeout of `ms` (not `-1`) returns within `ms` milliseconds: with the code of a thread that ends
within that time, as soon as it ends, and otherwise with "timed out", and not earlier than the timeout. -/
theorem join_keeps_timeout (fate : Option (Nat × BitVec 32)) (timeout : BitVec 32) (ht : timeout ≠ -1) (now : Nat) :
    osJoin ⟨fate.map fun p => (p.1, osExit p.2)⟩ timeout now = some
      (match fate with
        | none => (now + timeout.toNat * 1000000, .error .etimedout)
        | some (t, code) =>
          if t ≤ now + timeout.toNat * 1000000 then (max now t, .ok code)
          else (now + timeout.toNat * 1000000, .error .etimedout)) := by
  obtain ⟨d, hd⟩ : ∃ d, now + timeout.toNat * 1000000 = d := ⟨_, rfl⟩
  have hle : now ≤ d := by omega
  have hn := nanos_deadline _ _ _ hd
  rw [hd]
  by_cases h0 : timeout = 0
  · subst h0
    have : now = d := by simpa using hd
    exact osJoin_poll fate now d this
  · exact osJoin_timed fate timeout ht h0 now d hn hle

/-- C88: with timeout `-1` a join waits for the thread, however long that takes. -/
theorem join_forever (fate : Option (Nat × BitVec 32)) (now : Nat) :
    osJoin ⟨fate.map fun p => (p.1, osExit p.2)⟩ (-1) now = fate.map fun p => (max now p.1, .ok p.2) := by
  cases fate with
  | none => rfl
  | some p =>
    have e : (osExit p.2).setWidth 32 = p.2 := by
      unfold osExit
      rw [BitVec.setWidth_setWidth_of_le _ (by omega)]
      simp
    simp [osJoin, pthreadJoin, e]

theorem nanos_ms (n : Nat) : nanos ⟨n / 1000, n % 1000 * 1000000⟩ = some (n * 1000000) := by
  have h1 : n % 1000 * 1000000 < 1000000000 := by omega
  have h2 : n / 1000 * 1000000000 + n % 1000 * 1000000 = n * 1000000 := by omega
  unfold nanos
  simp only [h1, if_true, h2]

/-- C88: undisturbed, `os_sleep` takes exactly the time asked for and succeeds. -/
theorem sleep_exact_partial (msec : BitVec 32) (now : Nat) : osSleep msec now none = (now + msec.toNat * 1000000, 0) := by
  have hn := nanos_ms msec.toNat
  obtain ⟨d, hd⟩ : ∃ d, msec.toNat * 1000000 = d := ⟨_, rfl⟩
  rw [hd] at hn ⊢
  unfold osSleep
  rw [hn]
  rfl

/-- C88 is false when a signal is handled during the sleep: `os_sleep` returns -1 then, before the time is over, and does not
say how much is left. -/
theorem sleep_cut_short (msec : BitVec 32) (now t : Nat) (h1 : now ≤ t) (h2 : t < now + msec.toNat * 1000000) :
    osSleep msec now (some t) = (t, -1) := by
  have hn := nanos_ms msec.toNat
  obtain ⟨d, hd⟩ : ∃ d, msec.toNat * 1000000 = d := ⟨_, rfl⟩
  rw [hd] at hn h2
  unfold osSleep
  rw [hn]
  exact if_pos ⟨h1, h2⟩

/-! ## Concrete cases -/

example : addms ⟨10, 999000000⟩ 1501 = ⟨12, 500000000⟩ := by decide
example : osJoin ⟨some (7000000, osExit 42)⟩ 5 1000000 = some (6000000, .error .etimedout) := by decide +kernel
example : osJoin ⟨some (7000000, osExit 42)⟩ 6 1000000 = some (7000000, .ok 42) := by decide +kernel
example : osSleep 1500 0 (some 3) = (3, -1) := by decide +kernel

end Verif.Proc.Time
