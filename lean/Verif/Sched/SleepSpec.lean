import Verif.Sched.Sleep

/-!
# Specification of sleeping tasks

`sleepers` holds each sleeping task with its deadline, ordered by deadline.
-/

namespace Verif.Sched

/-- What happens on a thread. -/
inductive SOp where
  | sleep (t : Id) (ms now : Nat)   -- the running task t calls delay(ms) when the clock reads now
  | ready (t : Id)                  -- t is put on the run queue (spawn, yield, i/o completion)
  | pop                             -- the scheduler picks a task
  | wake (now : Nat)                -- a wake-up pass when the clock reads now
  | wait (t w : Id)                 -- the running task w waits for the sleeping task t
  | finish (t : Id)                 -- the running task t ends
  deriving DecidableEq

structure AS where
  sleepers : List (Id × Nat)
  ready : List Id
  waits : List (Id × Id)
  finished : List Id
  out : List (Option Id)
  deriving DecidableEq

def AS.init : AS := ⟨[], [], [], [], []⟩

/-- `t` is in no queue, waits for nobody and has not ended: it may be the running task. -/
def AS.free (a : AS) (t : Id) : Prop :=
  t ∉ a.sleepers.map (·.1) ∧ t ∉ a.ready ∧ t ∉ a.waits.map (·.2) ∧ t ∉ a.finished

instance (a : AS) (t : Id) : Decidable (a.free t) := by unfold AS.free; infer_instance

/-- The tasks waiting for `t`. -/
def waiters (ws : List (Id × Id)) (t : Id) : List Id := (ws.filter (·.1 == t)).map (·.2)

/-- A wake-up pass at time `now`: the sleepers with deadline at most `now` become ready in order of deadline, each followed
by the task that waits for it; the others go on sleeping. -/
def AS.wake (a : AS) (now : Nat) : AS :=
  { a with
    sleepers := a.sleepers.filter (now < ·.2)
    ready := a.ready ++ (a.sleepers.filter (·.2 ≤ now)).flatMap fun p => p.1 :: waiters a.waits p.1
    waits := a.waits.filter fun q => (a.sleepers.filter (·.2 ≤ now)).all (·.1 != q.1) }

/-- One event; `none` if it is not one that can happen (for example a task that is not running going to sleep). -/
def specS (a : AS) : SOp → Option AS
  | .sleep t ms now =>
    if a.free t ∧ now + ms * 1000000 < 2 ^ 64 then
      some { a with sleepers := a.sleepers.orderedInsert (fun x y => x.2 ≤ y.2) (t, now + ms * 1000000) }
    else none
  | .ready t => if a.free t then some { a with ready := a.ready ++ [t] } else none
  | .pop =>
    match a.ready with
    | [] => some { a with out := a.out ++ [none] }
    | x :: xs => some { a with ready := xs, out := a.out ++ [some x] }
  | .wake now => some (a.wake now)
  | .wait t w =>
    if t ∈ a.sleepers.map (·.1) ∧ t ∉ a.waits.map (·.1) ∧ a.free w then some { a with waits := (t, w) :: a.waits }
    else none
  | .finish t => if a.free t then some { a with finished := t :: a.finished } else none

def specSs (a : AS) : List SOp → Option AS
  | [] => some a
  | op :: ops => (specS a op).bind fun a => specSs a ops

/-- The same events in the model of the code. -/
def implS (s : SS × List (Option Id)) : SOp → Option (SS × List (Option Id))
  | .sleep t ms now => (addTimeout s.1 t ms now).map fun s' => (s', s.2)
  | .ready t => some (makeReady s.1 t, s.2)
  | .pop => some ((popRun s.1).2, s.2 ++ [(popRun s.1).1])
  | .wake now => (wakePass s.1 now).map fun s' => (s', s.2)
  | .wait t w => some (waitOn s.1 t w, s.2)
  | .finish t => some (finish s.1 t, s.2)

def implSs (s : SS × List (Option Id)) : List SOp → Option (SS × List (Option Id))
  | [] => some s
  | op :: ops => (implS s op).bind fun s => implSs s ops

end Verif.Sched
