/-!
# How long epoll for Windows waits (src/wepoll.c)

`epoll_pwait2` turns a time in seconds and nanoseconds into milliseconds;
`port_wait` divides the milliseconds among the calls it makes to the kernel.
-/

namespace Verif.Wepoll.Timeout

/-! ## `epoll_pwait2` -/

/-- A conversion to the 32 bit `int`, keeping the low bits. -/
def toInt (x : Int) : Int := (x + 2147483648) % 4294967296 - 2147483648

/-- The value of an `int` expression, `none` where it overflows. -/
def inInt (x : Int) : Option Int :=
  if -2147483648 ≤ x ∧ x ≤ 2147483647 then some x else none

/-- The milliseconds which `epoll_pwait2` (`src/wepoll.c` lines 658-670) passes
on for a pointer to seconds and nanoseconds, or for `NULL`.  `none`: signed
overflow.  `%` of C rounds towards zero. -/
def pwait2 : Option (Int × Int) → Option Int
  | none => some (-1)
  | some (sec, nsec) =>
    match inInt (toInt sec * 1000) with
    | none => none
    | some a =>
      match inInt (toInt nsec + 1000000) with
      | none => none
      | some b => inInt (a + (b - 1).tmod 1000000)

/-- `k` milliseconds are the time asked for, rounded up. -/
def Rounded (sec nsec k : Int) : Prop :=
  sec * 1000000000 + nsec ≤ k * 1000000 ∧ k * 1000000 < sec * 1000000000 + nsec + 1000000

/-- A time as `timespec` has it, short enough not to overflow. -/
def Short (sec nsec : Int) : Prop := 0 ≤ sec ∧ sec ≤ 2146483 ∧ 0 ≤ nsec ∧ nsec < 1000000000

theorem pwait2_value {sec nsec : Int} (h : Short sec nsec) :
    pwait2 (some (sec, nsec)) = some (sec * 1000 + (nsec + 999999) % 1000000) := by
  obtain ⟨h1, h2, h3, h4⟩ := h
  have e1 : toInt sec = sec := by unfold toInt; omega
  have e2 : toInt nsec = nsec := by unfold toInt; omega
  simp only [pwait2, e1, e2]
  rw [show inInt (sec * 1000) = some (sec * 1000) from if_pos (by omega)]
  dsimp only
  rw [show inInt (nsec + 1000000) = some (nsec + 1000000) from if_pos (by omega)]
  dsimp only
  rw [show (nsec + 1000000 - 1).tmod 1000000 = (nsec + 999999) % 1000000 by
    rw [Int.tmod_eq_emod_of_nonneg (by omega)]; congr 1; omega]
  exact if_pos (by omega)

/-! ## `port_wait` -/

/-- One turn of the loop in `port_wait`: whether `port__update_events` failed
(with which last error), what `GetQueuedCompletionStatusEx` did, and the clock
when it returned. -/
inductive Kernel where
  | failed (err : Nat)
  | got (events : Nat)
deriving DecidableEq, Repr

structure Turn where
  upd : Option Nat
  gq : Kernel
  now : Nat

/-- `WAIT_TIMEOUT`. -/
def WAIT_TIMEOUT : Nat := 258
/-- `INFINITE`, the largest `DWORD`. -/
def INFINITE : Nat := 0xffffffff

/-- A call of the kernel: the clock when its limit was computed, the limit. -/
abbrev Call := Nat × Nat

/-- The loop of `port_wait` (`src/wepoll.c` lines 1262-1287) with `port__poll`
(1195-1225): the calls made and, unless the turns run out, `result` with the
last error.  `c` is the clock when the limit `l` was computed.  Which events
the packets are is the subject of `Verif.Wepoll.Port`; here only their
number. -/
def loop (timeout : Int) (due : Nat) : Nat → Nat → List Turn → List Call × Option (Int × Nat)
  | _, _, [] => ([], none)
  | c, l, t :: ts =>
    match t.upd with
    | some e => ([], some (-1, e))
    | none =>
      match t.gq with
      | .failed e => ([(c, l)], some (-1, e))
      | .got k =>
        if 0 < k then ([(c, l)], some (k, 0))
        else if timeout < 0 then
          let r := loop timeout due t.now l ts
          ((c, l) :: r.1, r.2)
        else if due ≤ t.now then ([(c, l)], some (0, WAIT_TIMEOUT))
        else
          let r := loop timeout due t.now ((due - t.now) % 0x100000000) ts
          ((c, l) :: r.1, r.2)

/-- `due` and the first limit (`src/wepoll.c` lines 1250-1258), the clock
reading `t0`. -/
def start (timeout : Int) (t0 : Nat) : Nat × Nat :=
  if 0 < timeout then (t0 + timeout.toNat, timeout.toNat % 0x100000000)
  else if timeout = 0 then (0, 0)
  else (0, INFINITE)

/-- How many packets are asked for, and the room there is for them
(`src/wepoll.c` lines 1241-1248). -/
def room (maxevents : Nat) (mallocOk : Bool) : Nat × Nat :=
  if maxevents ≤ 256 then (maxevents, 256)
  else if mallocOk then (maxevents, maxevents)
  else (256, 256)

/-- What `port_wait` (`src/wepoll.c` lines 1227-1303) gives for `maxevents > 0`.
`late` is the last error set by `port__update_events_if_polling` (line 1289),
if another thread is waiting and an update fails. -/
def portWait (timeout : Int) (t0 : Nat) (ts : List Turn) (late : Option Nat) :
    List Call × Option Int :=
  let r := loop timeout (start timeout t0).1 t0 (start timeout t0).2 ts
  (r.1, r.2.map fun (result, err) =>
    if 0 ≤ result then result
    else if late.getD err = WAIT_TIMEOUT then 0
    else -1)

end Verif.Wepoll.Timeout
