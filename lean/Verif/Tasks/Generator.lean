import Verif.Basic

/-!
Model of generators: `generator`, `yielding`, `yielded`, src/events.c:1581-1642, and what `task_awaitable`
(1163-1170) does when the generator function returns.

Tasks are cooperative, so between two scheduling calls a task runs alone.  A history is a list of such
segments, in any order: the generator's (from one `yield()` to the next) and the consumers' (one pass of the loop
of `yielded`, with the return if it leaves the loop).

Simplified: the generator function computes its values from nothing, so it is the list of the values it gives
out; values are never freed; scheduling is arbitrary here, what `yielded` does to the run queue is
`Verif.Sched.requeue_drops`.
-/
namespace Verif.Tasks.Generator

abbrev Val := Nat

structure GS where
  todo : List Val          -- values the generator function has still to give out
  ready : Bool             -- `gen->is_ready`
  value : Option Val       -- `gen->values[0]`, `none` while never written
  freed : Bool             -- the function has returned: `gen` and its task are freed
  out : List Val           -- what the calls of `yielded` returned, in order
  deriving DecidableEq

/-- `generator(fn, …)`, src/events.c:1581-1606. -/
def GS.init (vs : List Val) : GS := { todo := vs, ready := false, value := none, freed := false, out := [] }

inductive Seg
  | gen        -- the generator task gets control
  | consume    -- a task inside `yielded` gets control, or calls it
  deriving DecidableEq

/-- A segment of the generator task.  With values left it is in `yielding`, src/events.c:1613-1619: wait while the
last value is still there, else store the next one and yield.  After the last value the function returns:
`deferred_unwind` frees `gen`, src/events.c:1167 with 1602. -/
def genSeg (s : GS) : GS :=
  if s.freed then s
  else match s.todo with
    | v :: vs => if s.ready then s else { s with todo := vs, value := some v, ready := true }
    | [] => { s with freed := true }

/-- A pass through `yielded`, src/events.c:1622-1642.  The generator is touched first of all, so
it has to be alive; while it is, `context->halt` is false. -/
def consumeSeg (s : GS) : Res GS :=
  if s.freed then .ub
  else if s.ready then match s.value with
    | some v => .ok { s with ready := false, out := s.out ++ [v] }
    | none => .ub
  else .ok s

def run (s : GS) : List Seg → Res GS
  | [] => .ok s
  | .gen :: xs => run (genSeg s) xs
  | .consume :: xs => consumeSeg s >>= fun s => run s xs

end Verif.Tasks.Generator
