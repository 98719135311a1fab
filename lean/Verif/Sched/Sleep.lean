import Verif.Sched.Sorted

/-!
# Model of sleeping tasks, `src/events.c`

One thread: its run queue and its sleep queue share the link fields of the tasks.
-/

namespace Verif.Sched

/-- The parts of the per-thread data (src/events.c:55-100) and of the tasks (src/events_internal.h:400-470) that sleeping
uses.  `fuel` is a ghost: one more than the number of insertions so far, a bound on the length of the lists, used only to
make the loops total; running out of it is reported as failure. -/
structure SS where
  mem : Id → Links
  sleepHead : Option Id
  sleepTail : Option Id
  runHead : Option Id
  runTail : Option Id
  alarm : Id → Nat
  system : Id → Bool
  halt : Id → Bool
  sleeping : Id → Option Id
  sleepCount : Int
  taskCount : Int
  fuel : Nat

def SS.sleepQ (s : SS) : TL := ⟨s.sleepHead, s.sleepTail, s.mem⟩
def SS.runQ (s : SS) : TL := ⟨s.runHead, s.runTail, s.mem⟩
def SS.setSleepQ (s : SS) (l : TL) : SS := { s with sleepHead := l.head, sleepTail := l.tail, mem := l.mem }
def SS.setRunQ (s : SS) (l : TL) : SS := { s with runHead := l.head, runTail := l.tail, mem := l.mem }

/-- A thread on which nothing sleeps or waits to run (src/events.c:1050-1060 for the counters); which tasks are system
tasks is arbitrary, as are the stale link and alarm fields. -/
def SS.init (mem : Id → Links) (alarm : Id → Nat) (system : Id → Bool) (taskCount : Int) : SS :=
  { mem, sleepHead := none, sleepTail := none, runHead := none, runTail := none, alarm, system, halt := fun _ => false,
    sleeping := fun _ => none, sleepCount := 0, taskCount, fuel := 1 }

/-- `add_timeout(running, context, ms, now)` as called by `delay` with `running = context = t`, src/events.c:1356-1386.
`size_t` arithmetic is modulo 2^64.  The `status` field is not modelled (only `tasks_wait` reads it). -/
def addTimeout (s : SS) (t : Id) (ms now : Nat) : Option SS :=
  let when_ := (now + ms * 1000000 % 2 ^ 64) % 2 ^ 64
  match findSlot s.mem s.alarm s.fuel s.sleepHead when_ with
  | none => none
  | some pos =>
    let s := s.setSleepQ (insertAt s.sleepQ t pos)
    let s := { s with alarm := Function.update s.alarm t when_, fuel := s.fuel + 1 }
    if s.system t then some s
    else if s.sleepCount = 0 then some { s with sleepCount := s.sleepCount + 1, taskCount := s.taskCount + 1 }
    else some { s with sleepCount := s.sleepCount + 1 }

/-- `t->ready = true; enqueue(run_queue, t)` as in `yield`, src/events.c:2374-2379 (also `wait_cb`, 1397-1404). -/
def makeReady (s : SS) (t : Id) : SS :=
  let s := s.setRunQ (enqueue s.runQ t)
  { s with fuel := s.fuel + 1 }

/-- The first task is taken off the sleep queue and the counters are adjusted, src/events.c:1331-1333. -/
def unsleep (s : SS) (t : Id) : SS :=
  let s := s.setSleepQ (dequeue s.sleepQ t)
  if s.system t then s
  else if s.sleepCount - 1 = 0 then { s with sleepCount := s.sleepCount - 1, taskCount := s.taskCount - 1 }
  else { s with sleepCount := s.sleepCount - 1 }

/-- The task is made runnable, and after it the task that waits for it, if any, src/events.c:1335-1346. -/
def wakeOne (s : SS) (t : Id) : SS :=
  if s.halt t then s
  else
    let s := makeReady s t
    match s.sleeping t with
    | none => s
    | some w => makeReady { s with sleeping := Function.update s.sleeping t none } w

/-- The wake-up loop of `task_wait_system`, src/events.c:1329-1348. -/
def wakeLoop : Nat → SS → Nat → Option SS
  | 0, _, _ => none
  | n + 1, s, now =>
    match s.sleepHead with
    | none => some s
    | some t => if s.alarm t ≤ now ∨ s.halt t then wakeLoop n (wakeOne (unsleep s t) t) now else some s

def wakePass (s : SS) (now : Nat) : Option SS := wakeLoop s.fuel s now

/-- `tasks_wait`, src/events.c:2306-2309 (same in `waitfor`): the running task `w` notes that it waits for the sleeping
task `t` and suspends. -/
def waitOn (s : SS) (t w : Id) : SS := { s with sleeping := Function.update s.sleeping t (some w) }

/-- The scheduler takes the first task of the run queue, src/events.c:2412. -/
def popRun (s : SS) : Option Id × SS := ((taskDequeue s.runQ).1, s.setRunQ (taskDequeue s.runQ).2)

/-- `task_done`, src/events.c:1157-1161. -/
def finish (s : SS) (t : Id) : SS := { s with halt := Function.update s.halt t true }

end Verif.Sched
