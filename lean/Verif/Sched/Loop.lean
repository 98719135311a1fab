import Verif.Sched.Queue

/-!
# Model of the cooperative scheduler of one thread, `src/events.c`

`tasks_schedulering` (2410-2444), `task_switch` (1545-1558; the other three variants do the same to the
handles), `suspend` (2347), `yield` (2374-2388), `resume` (2351-2372), `task_done` (1157-1161) and, as
"somebody is put on the run queue", the enqueueing done by `task_push` (1774-1780), `wait_cb` (1395-1402) and
`task_wait_system` (1338-1349), and by `tasks_wait`, `waitfor` and `yielded`.

A handle is `Option Id`; `none` is the context the scheduler itself runs in (`main_handle`).

Simplified: what a task computes between two scheduling calls is not modelled, the tasks are arbitrary lists of
scheduling actions; stack checks, names, counters and the deletion of finished tasks are left out; so is the
extra switch to the sleep task that `yield` and `resume` make in the main task while exactly one task sleeps.
-/

namespace Verif.Sched.Loop
open Verif.Sched

structure St where
  q : TL                       -- `__thrd()->run_queue`
  halt : Id → Bool
  cycles : Id → Nat
  running : Option Id          -- `__thrd()->running`
  active : Option Id           -- `__thrd()->active_handle`
  current : Option Id          -- `__thrd()->current_handle`, the one switched from
  log : List Id                -- every task that got control from a switch, in order

/-- Nothing queued, the scheduler in control; `halt` and `cycles` as `create_task` leaves them, src/events.c:1718-1727. -/
def St.init (m : Id → Links) : St :=
  { q := TL.empty m, halt := fun _ => false, cycles := fun _ => 0, running := none, active := none, current := none, log := [] }

/-- `task_switch(h)`, src/events.c:1545-1558.  If control comes back to the scheduler it clears `running`,
src/events.c:2430. -/
def switchTo (s : St) (h : Option Id) : St :=
  { s with
    active := h, current := s.active
    running := match h with | none => none | some _ => s.running
    log := match h with | none => s.log | some t => s.log ++ [t] }

/-- Put a task on the run queue, whoever does it. -/
def enq (s : St) (u : Id) : St := { s with q := enqueue s.q u }

/-- `tasks_schedulering(true)`, src/events.c:2410-2444; `pre` are the tasks woken by the callbacks of `events_once`.
Nothing happens if a task has control. -/
def sched (pre : List Id) (s : St) : St :=
  match s.active with
  | some _ => s
  | none => match taskDequeue s.q with
    | (none, _) => s
    | (some t, q) =>
      let s := { s with q := q, cycles := Function.update s.cycles t (s.cycles t + 1), running := some t }
      let s := pre.foldl enq s
      if s.halt t then { s with running := none } else switchTo s (some t)

/-- What the task in control can do. -/
inductive Act
  | enq (u : Id)        -- create `u`, or wake it
  | yield               -- `yield()`, src/events.c:2374-2378
  | block               -- `suspend()` after registering somewhere: `delay`, `async_wait`, …
  | finish              -- return: `task_done`, src/events.c:1157-1161
  | resume (co : Id)    -- `resume(co)`, src/events.c:2351-2363
  deriving DecidableEq

/-- `l = run_queue; enqueue(l, running)` of `yield` and `resume`; there always is a running task then. -/
def enqRunning (s : St) : St := match s.running with | some r => enq s r | none => s

def act (a : Act) (s : St) : St :=
  match s.active with
  | none => s
  | some t => match a with
    | .enq u => enq s u
    | .yield => switchTo (enqRunning s) s.current
    | .block => switchTo s s.current
    | .finish => switchTo { s with halt := Function.update s.halt t true } none
    | .resume co =>
      if s.cycles co > 1 then switchTo (enqRunning (enq s co)) s.current
      else switchTo (enqRunning s) (some co)

/-- How a task's turn ends. -/
inductive End
  | yield | block | finish
  deriving DecidableEq

def End.act : End → Act
  | .yield => .yield
  | .block => .block
  | .finish => .finish

/-- One round of the scheduler: wake-ups by callbacks, then the task at the head puts `during` on the run
queue and ends its turn. -/
structure Turn where
  pre : List Id
  during : List Id
  fin : End
  deriving DecidableEq

def turn (s : St) (x : Turn) : St := act x.fin.act (x.during.foldl (fun s u => act (.enq u) s) (sched x.pre s))

def turns (s : St) (xs : List Turn) : St := xs.foldl turn s

end Verif.Sched.Loop
