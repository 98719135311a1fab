import Mathlib.Algebra.BigOperators.Group.Finset.Basic
import Mathlib.Algebra.BigOperators.Fin
import Mathlib.Data.Fintype.Basic
import Mathlib.Data.List.Infix

/-!
Model of one worker thread's job queue: `enqueue_promise` (src/future.c:241-247) called by any number of
producer threads, and the loop of `__future_wrapper` (src/events.c:2625-2669) on the worker.

Sequentially consistent interleaving of single steps.  Simplified: `sys_event.local[j->id]` is a fixed
queue; the job body is one step from "started" to "returned"; the shutdown flag is never set; the `started`
flag is already set.  The job array is a list with a capacity: appending to a full array calls `realloc`
(src/arrays.c:158-161, `data_append` takes the array by value), and if `realloc` moves the block the
handle `queue->jobs` dangles, which is recorded in `bad`.  `moves` is the realloc decision.  `$append` and
`$shift` each read the array in one step and write it in another, so that only the lock keeps them apart.
-/
namespace Verif.Future

/-- Where a producer stands in `enqueue_promise`, src/future.c:241-247. -/
inductive PPc (J : Type) where
  | idle
  | wants (j : J)      -- before `atomic_lock(&j->mutex)`, line 242
  | locked (j : J)     -- before `$append(queue->jobs, r)`, line 244
  | adding (j : J) (seen : List J)  -- inside `$append`: the array was read, the slot and size not yet written
  | appended           -- before `atomic_unlock(&j->mutex)`, line 245
  | counting           -- before `atomic_fetch_add(&queue->available, 1)`, line 246
  deriving DecidableEq

/-- Where the worker stands in `__future_wrapper`, src/events.c:2636-2655. -/
inductive WPc (J : Type) where
  | poll               -- `if ((int)atomic_load(&queue->available) > 0)`, line 2637
  | dec                -- before `atomic_fetch_sub(&queue->available, 1)`, line 2638
  | lock               -- before `atomic_lock(&work->mutex)`, line 2639
  | shift              -- before `$shift(queue->jobs)`, line 2641
  | shifting (seen : List J)  -- inside `$shift`: the array was read, `memmove` and size not yet done
  | unlock (j : J)     -- before `atomic_unlock(&work->mutex)`, line 2642
  | call (j : J)       -- before `worker->func(worker->args)`, line 2645
  | set (j : J)        -- the function has returned; before `promise_set(worker, ...)`, line 2646
  deriving DecidableEq

/-- The shared state, `n` producers; `calls`, `started` and `finished` are what the threads did so far. -/
structure QS (J : Type) (n : Nat) where
  mutex : Bool                      -- `work->mutex`
  jobs : List J                     -- `queue->jobs`
  cap : Nat                         -- its capacity
  avail : Nat                       -- `queue->available`
  prod : Fin n → PPc J
  wk : WPc J
  bad : Bool                        -- dangling `queue->jobs` or a job taken from an empty array
  calls : List (Fin n × J)          -- submissions made, in call order
  started : List J                  -- jobs whose function was called, in order
  finished : List J                 -- jobs whose promise was set, in order

/-- A fresh queue whose array has capacity `cap`. -/
def QS.init (J : Type) (n cap : Nat) : QS J n :=
  { mutex := false, jobs := [], cap := cap, avail := 0, prod := fun _ => .idle, wk := .poll, bad := false,
    calls := [], started := [], finished := [] }

/-- One scheduling decision. -/
inductive QAct (J : Type) (n : Nat) where
  | submit (p : Fin n) (j : J)     -- producer `p` calls `enqueue_promise` with `j`
  | prod (p : Fin n)               -- producer `p` takes its next step
  | work                           -- the worker takes its next step

/-- Second half of `$append(queue->jobs, r)`, src/arrays.c:153-165: `seen` is the array as read on entry; double
the capacity when full, then store the job and the new size. -/
def appendJob {J : Type} {n : Nat} (moves : Bool) (s : QS J n) (seen : List J) (j : J) : QS J n :=
  if s.cap ≤ seen.length then
    { s with jobs := seen ++ [j], cap := s.cap * 2, bad := s.bad || moves }
  else
    { s with jobs := seen ++ [j] }

/-- Next step of producer `p`, src/future.c:241-247. -/
def prodStep {J : Type} {n : Nat} (moves : Bool) (s : QS J n) (p : Fin n) : QS J n :=
  match s.prod p with
  | .idle => s
  | .wants j =>
    if s.mutex then s else { s with mutex := true, prod := Function.update s.prod p (.locked j) }
  | .locked j => { s with prod := Function.update s.prod p (.adding j s.jobs) }
  | .adding j seen => { appendJob moves s seen j with prod := Function.update s.prod p .appended }
  | .appended => { s with mutex := false, prod := Function.update s.prod p .counting }
  | .counting => { s with avail := s.avail + 1, prod := Function.update s.prod p .idle }

/-- Next step of the worker, src/events.c:2636-2655. -/
def workStep {J : Type} {n : Nat} (s : QS J n) : QS J n :=
  match s.wk with
  | .poll => if s.avail > 0 then { s with wk := .dec } else s
  | .dec => { s with avail := s.avail - 1, wk := .lock }
  | .lock => if s.mutex then s else { s with mutex := true, wk := .shift }
  | .shift => { s with wk := .shifting s.jobs }
  | .shifting seen =>
    match seen with
    | [] => { s with bad := true, wk := .poll }
    | j :: r => { s with jobs := r, wk := .unlock j }
  | .unlock j => { s with mutex := false, wk := .call j }
  | .call j => { s with started := s.started ++ [j], wk := .set j }
  | .set j => { s with finished := s.finished ++ [j], wk := .poll }

/-- One step of the whole system. -/
def qstep {J : Type} {n : Nat} (moves : Bool) (s : QS J n) : QAct J n → QS J n
  | .submit p j =>
    match s.prod p with
    | .idle => { s with calls := s.calls ++ [(p, j)], prod := Function.update s.prod p (.wants j) }
    | _ => s
  | .prod p => prodStep moves s p
  | .work => workStep s

/-- Any history. -/
def qrun {J : Type} {n : Nat} (moves : Bool) (s : QS J n) (as : List (QAct J n)) : QS J n :=
  as.foldl (qstep moves) s

/-- The jobs producer `p` submitted, in its own program order. -/
def submittedBy {J : Type} {n : Nat} (calls : List (Fin n × J)) (p : Fin n) : List J :=
  (calls.filter (·.1 = p)).map (·.2)

end Verif.Future
