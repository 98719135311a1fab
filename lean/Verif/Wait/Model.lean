import Verif.Fd.Model

/-!
# Model of tasks that wait for a descriptor (`async_wait`, `wait_cb`, src/events.c)

It is on top of the model of registration and dispatch in `Verif.Fd.Model`; all registrations here are those of
`async_wait`.  Every thread has one loop; loop `l` has the `loop_id` `l + 1` (ids are not 0, src/events.c:740).  The argument
of the callback is the task.  Which events a poll returns is arbitrary.  `none` is a failed assertion.
-/

namespace Verif.Wait

open Verif.Fd

/-- `waits t`: the loop, the descriptor and the direction (`true` is writing) that task `t` is suspended for; `woken`: the tasks
that `wait_cb` put on a run queue, in order. -/
structure St where
  ev : Fd.St
  waits : Nat → Option (Nat × Nat × Bool)
  woken : List Nat

def St.init : St := ⟨Fd.St.init, fun _ => none, []⟩

/-- src/events.c:1407-1415, for `rw` = 'r' and 'w'. -/
def bits (write : Bool) : BitVec 32 := if write then WRITE else READ

/-- `async_wait(fd, rw)`, src/events.c:1406-1419, called by task `t` on loop `l`.  The result of `events_add` is ignored.  A
suspended task calls nothing. -/
def asyncWait (maxFd : Nat) (s : St) (l t fd : Nat) (write : Bool) : Option St :=
  match s.waits t with
  | some _ => some s
  | none => (addFd maxFd s.ev (l + 1) fd (bits write) t).map fun r =>
      { s with ev := r.2, waits := Function.update s.waits t (some (l, fd, write)) }

/-- `wait_cb`, src/events.c:1397-1404.  A task on the run queue is resumed later. -/
def waitCb (maxFd : Nat) (s : St) (fd : Nat) (event : BitVec 32) (t : Nat) : Option St :=
  (delFd maxFd s.ev fd).map fun r =>
    ⟨setTgt r.2 fd { r.2.tgt fd with events := event.setWidth 8 }, Function.update s.waits t none, s.woken ++ [t]⟩

/-- One event of a batch, src/epoll.c:158-187, as `Verif.Fd.dispatch` with `wait_cb` for the callback. -/
def dispatch (maxFd : Nat) (s : St) (l fd : Nat) (mask : BitVec 32) : Option St :=
  if l + 1 = (s.ev.tgt fd).loopId ∧ (s.ev.tgt fd).events &&& 3 ≠ 0 then
    if revents mask ≠ 0 then waitCb maxFd s fd (revents mask) (s.ev.tgt fd).cb else some s
  else some { s with ev := setK s.ev (l + 1) fd none }

/-- `events_poll_once_internal`, src/epoll.c:149-190, on the batch that `epoll_wait` returned. -/
def poll (maxFd : Nat) (l : Nat) : St → List (Nat × BitVec 32) → Option St
  | s, [] => some s
  | s, e :: es => (dispatch maxFd s l e.1 e.2).bind fun s => poll maxFd l s es

/-- A step: a task waits, a loop polls, a descriptor is opened or closed (as in `Verif.Fd.runOp`). -/
inductive Step where
  | wait (l t fd : Nat) (write : Bool)
  | poll (l : Nat) (batch : List (Nat × BitVec 32))
  | open_ (fd : Nat)
  | close (fd : Nat)

def step (maxFd : Nat) (s : St) : Step → Option St
  | .wait l t fd w => asyncWait maxFd s l t fd w
  | .poll l batch => poll maxFd l s batch
  | .open_ fd => some { s with ev := { s.ev with opn := Function.update s.ev.opn fd true } }
  | .close fd => some { s with ev := { s.ev with opn := Function.update s.ev.opn fd false,
                                                 kset := fun l => Function.update (s.ev.kset l) fd none } }

def run (maxFd : Nat) (s : St) : List Step → Option St
  | [] => some s
  | x :: xs => (step maxFd s x).bind fun s => run maxFd s xs

end Verif.Wait
