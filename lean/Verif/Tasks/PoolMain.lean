import Verif.Tasks.CountProps

/-!
# The life of a pool thread (`__tasks_pool_main`, `__tasks_pool_wrapper`, src/events.c)

The queue between threads is a list here (C24-C26, C105).
-/

namespace Verif.Tasks.Count

/-- A pool thread: `pend`, the tasks handed over to it and not yet taken; `th`, its tasks, the main one of the pool being 0; `turns`, for the
statements only: the tasks that were given turns, in order; `stop`: the flag `shutdown` of the queue. -/
structure Pool where
  pend : List Nat
  th : St
  turns : List Nat
  stop : Bool
  deriving Repr, DecidableEq

/-- What happens: another thread hands over a task (`enqueue_tasks`, src/events.c:2481-2488), the thread schedules a turn (with what the task does in
it; a turn of the main task does what `mainTurn` says; `group`: a group of tasks waits at the queue and all its tasks have ended), sleepers are woken,
the pool is told to stop (`deque_destroy`, src/deque.c:155-159). -/
inductive Ev
  | push (t : Nat)
  | turn (acts : List Act) (fin : Fin) (group : Bool)
  | system (n : Nat)
  | unpark
  | stop
  deriving Repr, DecidableEq

/-- One pass of the loop of `__tasks_pool_main`, src/events.c:2498-2507: `task_take` puts all that was handed over on the run queue and counts it; if
a group waits, `__thrd_waitfor` (2144-2198) ends with lowering the count (2193); then the task yields, since the thread has a loop (`group` joins the
turns in between into one: simplified). -/
def mainTurn (p : Pool) (group : Bool) : Pool :=
  { p with pend := [], th := turn p.th (.user (p.pend.map Act.spawn ++ if group then [.waitEnd false] else []) .yield),
           turns := p.turns ++ [0] }

/-- The loop of `__tasks_pool_wrapper`, src/events.c:2528-2532: no turn if the count is zero or the thread is to stop. -/
def step (p : Pool) : Ev → Pool
  | .push t => { p with pend := p.pend ++ [t] }
  | .stop => { p with stop := true }
  | .system n => if p.th.count = 0 ∨ p.stop then p else { p with th := turn p.th (.system n) }
  | .unpark => if p.th.count = 0 ∨ p.stop then p else { p with th := turn p.th .unpark }
  | .turn acts fin group =>
    if p.th.count = 0 ∨ p.stop then p
    else
      match p.th.run with
      | [] => p
      | t :: _ => if t = 0 then mainTurn p group else { p with th := turn p.th (.user acts fin), turns := p.turns ++ [t] }

def runs (p : Pool) (es : List Ev) : Pool := es.foldl step p

/-- The thread at its start, src/events.c:2524-2525. -/
def Pool.init : Pool := ⟨[], start 0, [], false⟩

end Verif.Tasks.Count
