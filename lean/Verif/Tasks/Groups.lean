import Verif.Arrays.Model
import Mathlib.Data.List.Basic

/-!
Model of task groups: `task_group`, `tasks_wait`, `waitgroup`, `tasks_poster`, the wait loops of `waitfor` and
`__thrd_waitfor`, and the choice of a pool thread in `task_push`, src/events.c:1773-1778, 2000-2335.

In the loops the other tasks are an oracle: `haltAt n p` says whether task `p` has finished when the loop takes
its `n`-th step.  A group task is not deleted by the scheduler (`waiting`, src/events.c:1763, 2436), only here.
What re-queueing a task does to the run queue is `Verif.Sched.requeue_drops`.
-/
namespace Verif.Tasks.Groups

abbrev T := Nat

/-! ### `tasks_wait` -/

/-- The fields of the calling task used here: `group_active` and `task_group`. -/
structure Caller where
  active : Bool
  group : Option Nat
  deriving DecidableEq

/-- `task_group()`, src/events.c:2011-2018, for the new group `g`. -/
def taskGroup (_ : Caller) (g : Nat) : Caller := { active := true, group := some g }

/-- The condition of `tasks_wait(wg)`, src/events.c:2288; if false it returns NULL at once.  Only groups made by
`task_group` are meant (`threaded` is false). -/
def waitEntered (c : Caller) (wg : Nat) : Bool := c.active && c.group == some wg

structure WS where
  work : List T            -- `wg->group`
  idx : Nat                -- `itask`
  results : List T         -- `wgr`: the tasks whose ids were appended
  deleted : List T         -- `task_delete`d
  returned : Bool
  deriving DecidableEq

def WS.init (work : List T) : WS := { work := work, idx := 0, results := [], deleted := [], returned := false }

/-- Loop body, src/events.c:2295-2316, and `itask++`; `hasRes p` is `worker->results != NULL` once finished. -/
def visit (hasRes isHalt : T → Bool) (s : WS) (p : T) : WS :=
  if isHalt p then
    { s with
      work := s.work.eraseIdx s.idx
      idx := s.idx + 1
      results := if hasRes p then s.results ++ [p] else s.results
      deleted := p :: s.deleted }
  else { s with idx := s.idx + 1 }

/-- One step of the two loops, src/events.c:2293-2318. -/
def wstep (hasRes isHalt : T → Bool) (s : WS) : WS :=
  if s.returned then s
  else match s.work[s.idx]? with
    | some p => visit hasRes isHalt s p
    | none => if s.work = [] then { s with returned := true } else { s with idx := 0 }

def wrun (hasRes : T → Bool) (haltAt : Nat → T → Bool) : Nat → Nat → WS → WS
  | _, 0, s => s
  | t, n + 1, s => wrun hasRes haltAt (t + 1) n (wstep hasRes (haltAt t) s)

/-! ### `waitgroup` and `tasks_poster` -/

/-- `resized` of `waitgroup(capacity)`, src/events.c:2105. -/
def share (cores capacity : Nat) : Nat := capacity / (cores + 1)

/-- The inner loop of `tasks_poster`, src/events.c:2029-2033: `n` times pop the last task of the group and append it
to the thread's jobs.  An empty group gives NULL, and `t->tid = k` dereferences it. -/
def popN : Nat → List T → Res (List T × List T)
  | 0, g => .ok ([], g)
  | n + 1, g => match g.getLast? with
    | none => .ub
    | some t => popN n g.dropLast >>= fun r => .ok (t :: r.1, r.2)

/-- The outer loop, src/events.c:2026-2035: the jobs of each thread, and what stays in the group. -/
def poster (n : Nat) : List Nat → List T → Res (List (Nat × List T) × List T)
  | [], g => .ok ([], g)
  | k :: ks, g => popN n g >>= fun r => poster n ks r.2 >>= fun q => .ok ((k, r.1) :: q.1, q.2)

/-- `data_reserve(v, capacity)` as called by `waitgroup`, src/arrays.c:127-130, 57-63, src/events.c:2107-2108: the new
handle stays inside. -/
def dataReserve (mv : Bool) (m : Arrays.Heap) (h : Arrays.Handle) (n : Nat) : Res Arrays.Heap := do
  let b ← m.load h
  if b.cap < n then
    let r ← Arrays.grow mv m h n
    return r.1
  else return m

/-! ### `__thrd_waitfor` -/

structure TS where
  jobs : List T            -- `q->jobs`
  idx : Nat                -- `igroup`
  freed : Bool             -- the task in `task.object` has been deleted
  results : List T
  returned : Bool
  deriving DecidableEq

def TS.init (jobs : List T) : TS := { jobs := jobs, idx := 0, freed := false, results := [], returned := false }

/-- One step of the loops of `__thrd_waitfor`, src/events.c:2165-2188.  The body looks at `task.object`, the variable of
the loop before, which holds the last job (`last`), not at the entry of this loop. -/
def tstep (last : T) (hasRes isHalt : T → Bool) (s : TS) : Res TS :=
  if s.returned then .ok s
  else match s.jobs[s.idx]? with
    | some _ =>
      if s.freed then .ub
      else if isHalt last then
        .ok { s with
              jobs := s.jobs.eraseIdx s.idx
              idx := s.idx + 1
              freed := true
              results := if hasRes last then s.results ++ [last] else s.results }
      else .ok { s with idx := s.idx + 1 }
    | none => if s.jobs = [] then .ok { s with returned := true } else .ok { s with idx := 0 }

def trun (last : T) (hasRes : T → Bool) (haltAt : Nat → T → Bool) : Nat → Nat → TS → Res TS
  | _, 0, s => .ok s
  | t, n + 1, s => tstep last hasRes (haltAt t) s >>= fun s => trun last hasRes haltAt (t + 1) n s

/-! ### Choice of the thread -/

/-- `atomic_fetch_add(&sys_event.tasks_id_count, 1) % $size(tasks_cpu_idx)`, src/events.c:1778: the thread chosen by
the `j`-th submission when the counter (a `size_t`) started at `c`. -/
def pick (n c j : Nat) : Nat := (c + j) % 2 ^ 64 % n

end Verif.Tasks.Groups
