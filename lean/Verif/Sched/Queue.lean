import Mathlib.Logic.Function.Basic
import Mathlib.Tactic

/-!
# Model of the intrusive task list, `src/events.c`

`tasklist_t` has `head` and `tail`; every task has `prev` and `next`.  A pointer is `Option Id`, NULL being `none`.
Used for the run queue, the sleep queue and the timer list.
-/

namespace Verif.Sched

abbrev Id := Nat

/-- The two link fields of a task (or timer). -/
structure Links where
  prev : Option Id
  next : Option Id
  deriving DecidableEq

/-- A list and the link fields of all tasks. -/
structure TL where
  head : Option Id
  tail : Option Id
  mem : Id → Links

/-- A zero-initialised list. -/
def TL.empty (mem : Id → Links) : TL := { head := none, tail := none, mem := mem }

def setNext (m : Id → Links) (i : Id) (v : Option Id) : Id → Links := Function.update m i { m i with next := v }
def setPrev (m : Id → Links) (i : Id) (v : Option Id) : Id → Links := Function.update m i { m i with prev := v }

/-- The macro `enqueue(l, t)`, src/events.c:15-26. -/
def enqueue (l : TL) (t : Id) : TL :=
  let l := match l.tail with
    | some z => { l with mem := setPrev (setNext l.mem z (some t)) t (some z) }
    | none => { l with head := some t, mem := setPrev l.mem t none }
  { l with tail := some t, mem := setNext l.mem t none }

/-- First half of the macro `dequeue(l, t)`, src/events.c:5-8: the predecessor (or the head) skips `t`. -/
def skipForward (l : TL) (t : Id) : TL :=
  match (l.mem t).prev with
  | some p => { l with mem := setNext l.mem p (l.mem t).next }
  | none => { l with head := (l.mem t).next }

/-- Second half of the macro `dequeue(l, t)`, src/events.c:9-12: the successor (or the tail) skips `t`. -/
def skipBackward (l : TL) (t : Id) : TL :=
  match (l.mem t).next with
  | some n => { l with mem := setPrev l.mem n (l.mem t).prev }
  | none => { l with tail := (l.mem t).prev }

/-- The macro `dequeue(l, t)`, src/events.c:3-13. -/
def dequeue (l : TL) (t : Id) : TL := skipBackward (skipForward l t) t

/-- `task_dequeue(l)`, src/events.c:1070-1078. -/
def taskDequeue (l : TL) : Option Id × TL :=
  match l.head with
  | some t => (some t, dequeue l t)
  | none => (none, l)

end Verif.Sched
