import Verif.Sched.Sorted

/-!
# Model of actors (timers), `src/events.c:885-975`
-/

namespace Verif.Sched

/-- The timer list of a loop, the actors' fields and the loop's `active_timers`.  `live` says which actors are allocated.
`log` records the calls of actors with the clock value read by the poll.  `fuel` is a ghost, as in `SS`. -/
structure TS where
  list : TL
  alarm : Id → Nat
  repeating : Id → Bool
  live : Id → Bool
  active : Int
  log : List (Id × Nat)
  fuel : Nat

def TS.init (mem : Id → Links) (alarm : Id → Nat) : TS :=
  { list := TL.empty mem, alarm, repeating := fun _ => false, live := fun _ => false, active := 0, log := [], fuel := 1 }

/-- `when = (size_t)(events_nsec() + ms * 1000000)`, src/events.c:893.  `ms` is an `int` and so is the product: overflow is
undefined (`none`).  The sum is taken in `uint64_t`. -/
def actorDeadline (now : Nat) (ms : Int) : Option Nat :=
  if -2 ^ 31 ≤ ms * 1000000 ∧ ms * 1000000 < 2 ^ 31 then some (((now : Int) + ms * 1000000) % 2 ^ 64).toNat else none

/-- `events_actor_timeout` for an allocated actor `t`, src/events.c:892-921.  The callback and its argument are not
modelled. -/
def armActor (s : TS) (t : Id) (ms : Int) (now : Nat) : Option TS :=
  (actorDeadline now ms).bind fun w =>
  (findSlot s.list.mem s.alarm s.fuel s.list.head w).map fun pos =>
  { s with list := insertAt s.list t pos, alarm := Function.update s.alarm t w, active := s.active + 1, fuel := s.fuel + 1 }

/-- `events_actor`, src/events.c:936-938: a zeroed actor is allocated (allocation does not fail). -/
def setActor (s : TS) (t : Id) (ms : Int) (now : Nat) : Option TS :=
  armActor { s with live := Function.update s.live t true, repeating := Function.update s.repeating t false } t ms now

/-- `events_repeat_actor`, src/events.c:926-930.  Using a freed actor is undefined. -/
def repeatActor (s : TS) (t : Id) (ms : Int) (now : Nat) : Option TS :=
  if s.live t then
    armActor { s with repeating := Function.update s.repeating t true, active := s.active - 1 } t ms now
  else none

/-- `events_clear_actor`, src/events.c:932-934. -/
def clearActor (s : TS) (t : Id) : Option TS :=
  if s.live t then some { s with repeating := Function.update s.repeating t false } else none

/-- What the callback of an actor may do; the first two act on the actor itself. -/
inductive CbOp where
  | again (ms : Int) (now : Nat)
  | clear
  | set (t : Id) (ms : Int) (now : Nat)
  deriving DecidableEq

def runCb (t : Id) : TS → List CbOp → Option TS
  | s, [] => some s
  | s, .again ms now :: r => (repeatActor s t ms now).bind fun s => runCb t s r
  | s, .clear :: r => (clearActor s t).bind fun s => runCb t s r
  | s, .set t' ms now :: r => (setActor s t' ms now).bind fun s => runCb t s r

/-- The timer part of `events_execute`, src/events.c:963-973: at most one actor is called.  The polling of descriptors
before it is not modelled here.  Reading a freed actor is undefined. -/
def pollTimers (s : TS) (now : Nat) (cb : List CbOp) : Option TS :=
  match s.list.head with
  | none => some s
  | some t =>
    if s.live t then
      if s.alarm t ≤ now then
        (runCb t { s with list := dequeue s.list t, log := s.log ++ [(t, now)] } cb).map fun s =>
          if s.repeating t then s else { s with live := Function.update s.live t false, active := s.active - 1 }
      else some s
    else none

end Verif.Sched
