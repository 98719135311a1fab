import Verif.Basic
import Verif.Io.Pseudo
import Mathlib.Data.Finset.Card
import Mathlib.Order.Interval.Finset.Nat

/-!
# The caller's side of starting and waiting for processes (`exec`, `exec_wait` in `src/os_unix.c`), C81-C84

The table of pseudo descriptors is that of `Verif.Io.Pseudo`.  The child is known by what the kernel answers.
-/

namespace Verif.Proc

/-- What is known of an entry's process: `process->detached`, `process->ps`, and the entry's `event_fd`. -/
structure Rec where
  detached : Bool
  ps : Int
  eventFd : Int

/-- `opn`: the descriptors of the calling program that are open. -/
structure St where
  tab : Io.Pseudo.St
  proc : Nat → Rec
  opn : Int → Bool

/-- After `os_init`; other descriptors may be open. -/
def St.init (opn : Int → Bool) : St := ⟨Io.Pseudo.init, fun _ => ⟨false, 0, 0⟩, opn⟩

/-- `exec_info` and the parent's side of `os_exec_info`, src/os_unix.c:580-603 and 512-526, as far as the table is
concerned.  `efd`: the result of `eventfd` (-1 on failure), which opens the descriptor; `active` as in
`Io.Pseudo.newFd`; `fork`: the result of `vfork`, the process number or -1 on failure.  `fdTable[-1]` is accessed if there is
no entry. -/
def start (detached : Bool) (active : Option Nat) (efd fork : Int) (s : St) : Res (Nat × St) :=
  let opn := if efd = -1 then s.opn else Function.update s.opn efd true
  match Io.Pseudo.newFd active efd (-1) s.tab with
  | (none, _) => .ub
  | (some i, t) =>
    .ok (i, ⟨{ t with fd := Function.update t.fd i fork }, Function.update s.proc i ⟨detached, fork, efd⟩, opn⟩)

/-- How a process ended. -/
inductive End where
  | exited (status : Nat)
  | killed (sig : Nat)
  deriving DecidableEq, Repr

/-- The child at some moment: still running, ended but not yet waited for, or no child of the caller (any more). -/
inductive Life where
  | running
  | ended (e : End)
  | unknown
  deriving DecidableEq, Repr

/-- A moment at which the kernel looks at a call of `waitid`: the state of the child, and whether a signal arrives. -/
structure Moment where
  life : Life
  signal : Bool
  deriving DecidableEq, Repr

inductive Errno where
  | eintr
  | echild
  | einval
  | etimedout
  deriving DecidableEq, Repr

/-- The answer of `waitid`: an error, nothing (`si_pid` left at 0, only with `WNOHANG`), or the child's end. -/
inductive Ans where
  | error (e : Errno)
  | nothing
  | done (e : End)

/-- `waitid(P_PID, pid, &s, WEXITED | nohang)`: `none` while it has not returned; the rest of the moments is returned. -/
def waitid (nohang : Bool) (pid : Int) : List Moment → Option (Ans × List Moment)
  | [] => none
  | m :: ms =>
    if pid ≤ 0 then some (.error .einval, ms)
    else match m.life with
      | .unknown => some (.error .echild, ms)
      | .ended e => some (.done e, ms)
      | .running =>
        if nohang then some (.nothing, ms)
        else if m.signal then some (.error .eintr, ms)
        else waitid nohang pid ms

/-- The loop that repeats interrupted calls, src/os_unix.c:628-630, for at most `fuel` rounds (each uses up a moment). -/
def waitLoop (nohang : Bool) (pid : Int) : Nat → List Moment → Option Ans
  | 0, _ => none
  | k + 1, ms =>
    match waitid nohang pid ms with
    | none => none
    | some (.error .eintr, ms) => waitLoop nohang pid k ms
    | some (a, _) => some a

/-- `close` of one of the caller's descriptors. -/
def closeOne (opn : Int → Bool) (d : Int) : Int → Bool := Function.update opn d false

/-- `os_close` on an entry, src/os_unix.c:347-360: `events_free_fd` closes the `event_fd`, then the entry's `fd` is closed. -/
def osClose (i : Nat) (s : St) : St :=
  let v := Io.Pseudo.valid s.tab i
  let opn := if v then closeOne s.opn (s.proc i).eventFd else s.opn
  let opn := closeOne opn (Io.Pseudo.getFd s.tab i)
  ⟨Io.Pseudo.osClose i s.tab, s.proc, opn⟩

/-- The value stored through `exit_code`, src/os_unix.c:639-643. -/
def exitCode : End → Int
  | .exited n => n
  | .killed n => -n

/-- What `exec_wait` returned: 0 with the exit code that was stored, if any, or -1 with `errno`. -/
inductive Ret where
  | ok (code : Option Int)
  | fail (e : Errno)
  deriving DecidableEq, Repr

/-- `exec_wait`, src/os_unix.c:616-647, on an index that was given out: `none` while it has not returned. -/
def execWait (i : Nat) (timeout : Nat) (ms : List Moment) (s : St) : Option (Ret × St) :=
  if (s.proc i).detached then some (.ok none, s)
  else
    match waitLoop (timeout = 0) (s.proc i).ps (ms.length + 1) ms with
    | none => none
    | some (.error e) => some (.fail e, s)
    | some .nothing => some (.fail .etimedout, s)
    | some (.done e) => some (.ok (some (exitCode e)), osClose i s)

end Verif.Proc
