import Verif.Basic

/-!
# Clocks (`src/events.c` 813-883), C202, C203
-/

namespace Verif.Io.Clock

/-- A `uint64_t`. -/
def wrap (x : Nat) : Nat := x % 18446744073709551616

/-- `gettimeofday` and `clock_gettime` answer seconds and micro- or nanoseconds, or fail. -/
abbrev Reading := Option (Nat × Nat)

/-- `events_nsec` where `time_t` has 64 bits, src/events.c:813-820; failure gives all ones. -/
def nsec : Reading → Nat
  | none => 18446744073709551615
  | some (s, u) => wrap (wrap (s * 1000000000) + u * 1000)

/-- `events_now` on Linux, src/events.c:868-882: the monotonic clock, or the time of day if it fails or says zero. -/
def now (mono day : Reading) : Nat :=
  let lapse := match mono with
    | none => 0
    | some (s, n) => wrap (s * 1000000000 + n)
  if lapse = 0 then
    match day with
    | none => 0
    | some (s, u) => wrap (s * 1000000000 + u * 1000)
  else lapse

/-- `events_now` on Windows, src/events.c:862-865: `count.QuadPart * 1000000000` is a product of `LONGLONG`s.  (The counter
always works since Windows XP, so the fallback is not modelled.) -/
def nowWindows (count freq : Nat) : Res Nat :=
  if 9223372036854775807 < count * 1000000000 ∨ freq = 0 then .ub else .ok (count * 1000000000 / freq)

/-- What `GetSystemTime` and `SystemTimeToFileTime` say at the given millisecond since 1970: the file time in units of 100 ns since 1601
(low and high half), and the milliseconds within the second. -/
def systemTime (ms : Nat) : Nat × Nat × Nat :=
  ((116444736000000000 + ms * 10000) % 4294967296, (116444736000000000 + ms * 10000) / 4294967296, ms % 1000)

/-- `(long)`: 32 bits on Windows; here as the `uint64_t` it becomes at src/events.c:819. -/
def long32 (x : Nat) : Nat :=
  let y := x % 4294967296
  if y < 2147483648 then y else y + 18446744069414584320

/-- `events_nsec` with `events_timeofday` on Windows, src/events.c:813-845. -/
def nsecWindows (st : Nat × Nat × Nat) : Nat :=
  let time := wrap (st.1 + wrap (st.2.1 * 4294967296))
  let sec := long32 (wrap (time + (18446744073709551616 - 116444736000000000)) / 10000000)
  wrap (wrap (sec * 1000000000) + st.2.2 * 1000 * 1000)

/-! ## Claims -/

/-- C202 on Linux: readings of a clock which does not go back, for 584 years from its start, give times which do not go back; and the
difference of two times is the time between them. -/
theorem now_forward_partial {s n s' n' : Nat} (d d' : Reading) (h0 : 0 < s * 1000000000 + n) (hn : n < 1000000000) (hn' : n' < 1000000000)
    (hle : s < s' ∨ s = s' ∧ n ≤ n') (hs : s' < 18446744073) :
    now (some (s, n)) d ≤ now (some (s', n')) d' ∧
      now (some (s', n')) d' - now (some (s, n)) d + (s * 1000000000 + n) = s' * 1000000000 + n' := by
  have w : wrap (s * 1000000000 + n) = s * 1000000000 + n := Nat.mod_eq_of_lt (by omega)
  have w' : wrap (s' * 1000000000 + n') = s' * 1000000000 + n' := Nat.mod_eq_of_lt (by omega)
  unfold now
  dsimp only
  rw [w, w', if_neg (by omega), if_neg (by omega)]
  omega

example : now (some (5, 999999999)) none = 5999999999 ∧ now (some (6, 0)) none = 6000000000 := by decide

/-- If the monotonic clock fails once, the time jumps: the time of day is counted from 1970, not from the start of the system. -/
theorem now_mixes {s n s' u : Nat} (hs : s < s') (hs' : s' < 18446744073) (hn : n < 1000000000) (hu : u < 1000000) (h0 : 0 < s * 1000000000 + n) :
    now (some (s, n)) none < now none (some (s', u)) := by
  have w : wrap (s * 1000000000 + n) = s * 1000000000 + n := Nat.mod_eq_of_lt (by omega)
  have w' : wrap (s' * 1000000000 + u * 1000) = s' * 1000000000 + u * 1000 := Nat.mod_eq_of_lt (by omega)
  unfold now
  dsimp only
  rw [w, w', if_neg (by omega), if_pos rfl]
  omega

/-- C202 on Windows, as long as the count times 10^9 is less than 2^63. -/
theorem now_windows_partial {a b freq : Nat} (hf : 0 < freq) (hab : a ≤ b) (hb : b * 1000000000 < 9223372036854775808) :
    ∃ x y, nowWindows a freq = .ok x ∧ nowWindows b freq = .ok y ∧ x ≤ y ∧ x * freq ≤ a * 1000000000 ∧ a * 1000000000 < (x + 1) * freq := by
  have ha : a * 1000000000 ≤ b * 1000000000 := Nat.mul_le_mul_right _ hab
  refine ⟨_, _, by unfold nowWindows; rw [if_neg (by omega)], by unfold nowWindows; rw [if_neg (by omega)], Nat.div_le_div_right ha,
    Nat.div_mul_le_self _ _, ?_⟩
  exact Nat.lt_mul_of_div_lt (Nat.lt_succ_self _) hf

/-- It overflows from then on: with the usual ten million counts a second, after 923 seconds. -/
theorem now_windows_overflows {count freq : Nat} (h : 9223372036854775808 ≤ count * 1000000000) : nowWindows count freq = .ub := by
  unfold nowWindows
  rw [if_pos (by omega)]

example : nowWindows (922 * 10000000) 10000000 = .ok 922000000000 ∧ nowWindows (923 * 10000000) 10000000 = .ub := by decide

/-- C203: the clock behind `delay` and timers reads the nanoseconds since 1970, to the microsecond. -/
theorem nsec_exact {s u : Nat} (hu : u < 1000000) (hs : s < 18446744073) : nsec (some (s, u)) = (s * 1000000 + u) * 1000 := by
  unfold nsec
  dsimp only
  rw [show wrap (s * 1000000000) = s * 1000000000 from Nat.mod_eq_of_lt (by omega)]
  unfold wrap
  omega

/-- C203 on Windows until 2038, to the millisecond. -/
theorem nsec_windows_partial {ms : Nat} (h : ms / 1000 < 2147483648) : nsecWindows (systemTime ms) = ms * 1000000 := by
  unfold nsecWindows systemTime
  dsimp only
  have w : wrap ((116444736000000000 + ms * 10000) % 4294967296 + wrap ((116444736000000000 + ms * 10000) / 4294967296 * 4294967296)) =
      116444736000000000 + ms * 10000 := by
    unfold wrap
    omega
  rw [w]
  have w2 : wrap (116444736000000000 + ms * 10000 + (18446744073709551616 - 116444736000000000)) / 10000000 = ms / 1000 := by
    rw [show 116444736000000000 + ms * 10000 + (18446744073709551616 - 116444736000000000) = ms * 10000 + 18446744073709551616 by omega]
    unfold wrap
    rw [Nat.add_mod_right, Nat.mod_eq_of_lt (by omega)]
    omega
  rw [w2]
  have w3 : long32 (ms / 1000) = ms / 1000 := by
    unfold long32
    dsimp only
    rw [Nat.mod_eq_of_lt (by omega), if_pos (by omega)]
  rw [w3]
  unfold wrap
  omega

example : nsecWindows (systemTime 1700000000123) = 1700000000123000000 := by decide

/-- From 2038 on, for 68 years, the time on Windows is 448 years ahead. -/
theorem nsec_windows_2038 {ms : Nat} (h : 2147483648 ≤ ms / 1000) (h' : ms / 1000 < 4294967296) :
    nsecWindows (systemTime ms) = ms * 1000000 + 14151776777709551616 := by
  unfold nsecWindows systemTime
  dsimp only
  have w : wrap ((116444736000000000 + ms * 10000) % 4294967296 + wrap ((116444736000000000 + ms * 10000) / 4294967296 * 4294967296)) =
      116444736000000000 + ms * 10000 := by
    unfold wrap
    omega
  rw [w]
  have w2 : wrap (116444736000000000 + ms * 10000 + (18446744073709551616 - 116444736000000000)) / 10000000 = ms / 1000 := by
    rw [show 116444736000000000 + ms * 10000 + (18446744073709551616 - 116444736000000000) = ms * 10000 + 18446744073709551616 by omega]
    unfold wrap
    rw [Nat.add_mod_right, Nat.mod_eq_of_lt (by omega)]
    omega
  rw [w2]
  have w3 : long32 (ms / 1000) = ms / 1000 + 18446744069414584320 := by
    unfold long32
    dsimp only
    rw [Nat.mod_eq_of_lt (by omega), if_neg (by omega)]
  rw [w3]
  unfold wrap
  omega

example : nsecWindows (systemTime 2147483647999) = 2147483647999000000 ∧ nsecWindows (systemTime 2147483648000) = 16299260425709551616 := by decide

end Verif.Io.Clock
