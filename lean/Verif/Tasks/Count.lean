import Mathlib.Tactic

/-!
# The number of tasks, and when the loops of tasks end (src/events.c)

`async_run` and the loop of a pool thread end when `task_count` is zero.  The model has the tasks of one thread, the places that change the count,
and what a task can do in its turns.
-/

namespace Verif.Tasks.Count

/-- `run`: the tasks that are ready, in order; `asleep`: those in the sleep queue, in order; `parked`: those
suspended until somebody puts them on the run queue again; `ended`: those that have ended; `count`: `task_count`;
`sleepCount`: `sleep_count`.  For the statements only: `started`, the tasks started, and `bare`, how many waits for groups lowered the count. -/
structure St where
  run : List Nat
  asleep : List Nat
  parked : List Nat
  ended : List Nat
  count : Int
  sleepCount : Int
  started : List Nat
  bare : Nat
  deriving Repr, DecidableEq

/-- What a task does in a turn that changes the count: starting a task of the same thread, or coming to the end of `tasks_wait` or `waitfor` after
having met a sleeping member (`slept`) or none. -/
inductive Act
  | spawn (t : Nat)
  | waitEnd (slept : Bool)
  deriving Repr, DecidableEq

/-- How a turn ends: `yield`, the function of the task returns, `delay`, `suspend`. -/
inductive Fin
  | yield | finish | sleep | park
  deriving Repr, DecidableEq

/-- A turn: of the first ready task, or of the task that wakes the sleepers, which wakes the first `n` of them; or somebody puts the first suspended
task on the run queue. -/
inductive Turn
  | user (acts : List Act) (fin : Fin)
  | system (n : Nat)
  | unpark
  deriving Repr, DecidableEq

/-- `spawn`: `task_push`, src/events.c:1768-1775 (a task of the same thread; `task_take`, 2460-2475, does the same for a task from another thread);
`waitEnd`: src/events.c:2331-2332 (`tasks_wait`) and 2272-2273 (`waitfor`). -/
def act (s : St) : Act → St
  | .spawn t => { s with run := s.run ++ [t], count := s.count + 1, started := s.started ++ [t] }
  | .waitEnd slept => if slept then s else { s with count := s.count - 1, bare := s.bare + 1 }

/-- The end of a turn of `t`: `yield` (src/events.c:2374-2378), the end of a task (`task_done`, 1157-1161, and `tasks_schedulering`, 2430-2434),
`delay` (`add_timeout`, 1384-1385), `suspend` (2346-2348). -/
def fin (s : St) (t : Nat) : Fin → St
  | .yield => { s with run := s.run ++ [t] }
  | .finish => { s with ended := s.ended ++ [t], count := s.count - 1 }
  | .sleep => { s with asleep := s.asleep ++ [t], sleepCount := s.sleepCount + 1,
                       count := if s.sleepCount = 0 then s.count + 1 else s.count }
  | .park => { s with parked := s.parked ++ [t] }

/-- `task_wait_system` wakes the first sleeper, src/events.c:1332-1345; simplified: tasks sleep in the order in which they began to. -/
def wakeOne (s : St) : St :=
  match s.asleep with
  | [] => s
  | t :: ts => { s with asleep := ts, run := s.run ++ [t], sleepCount := s.sleepCount - 1,
                        count := if s.sleepCount - 1 = 0 then s.count - 1 else s.count }

/-- One call of `tasks_schedulering`, src/events.c:2410-2444.  The task that wakes sleepers is a system task, not counted (`task_system`,
src/events.c:1280-1287), always ready; at which places among the others it runs is up to the script.  `unpark`: `t->sleeping` (src/events.c:1343-1348)
and the other places that queue a suspended task. -/
def turn (s : St) : Turn → St
  | .user acts f =>
    match s.run with
    | [] => s
    | t :: rest => fin (acts.foldl act { s with run := rest }) t f
  | .system n => n.repeat wakeOne s
  | .unpark =>
    match s.parked with
    | [] => s
    | t :: ts => { s with parked := ts, run := s.run ++ [t] }

/-- `async_run`, src/events.c:2338-2344: no further turn when the count is zero. -/
def loop : List Turn → St → St
  | [], s => s
  | x :: xs, s => if s.count = 0 then s else loop xs (turn s x)

/-- The thread with its first task `m` pushed, as in `events_start`, src/events.c:204-209. -/
def start (m : Nat) : St := act ⟨[], [], [], [], 0, 0, [], 0⟩ (.spawn m)

end Verif.Tasks.Count
