import Mathlib.Logic.Function.Basic

/-!
Model of futures on their own threads and of promises: `future_create`, `promise_set`, `promise_erred`,
`_thrd_wrapper`, `thrd_get`, `thrd_is_done`, `promise_wait`, `queue_get`, src/future.c:3-204 and 422-452.

Any number of futures, any interleaving of single steps (sequentially consistent).  `sc f` is the scope
current when future `f` was created (`fut->promise->scope = get_scope()`, src/future.c:6): futures created by one
task (or one thread outside tasks) share it, and with it the fields `err` and `_panic`, which are one value here.

Simplified: a job's result is NULL or a plain value (array results are copied to a tuple of which `thrd_get`
returns the first element; not modelled); the `errno` value in `erred` is left out; other writers of
`scope->err` (exceptions raised by the creator itself) are left out; `os_join` succeeds.  The mutex of a promise only
orders two writes of the same thread and is left out.
-/
namespace Verif.Future.Promise

/-- What a job function does: return NULL or a value, raise an exception out of the function, or raise one
that a function deferred by the job recovers from (`guard_caught`, src/except.c:1163-1179). -/
inductive Outcome (V E : Type) where
  | value (v : Option V)
  | raised (e : E)
  | recovered (e : E)
  deriving DecidableEq

/-- Where the thread of a future stands in `_thrd_wrapper`, src/future.c:98-122. -/
inductive FPc (V E : Type) where
  | absent                          -- not created
  | created                         -- `thrd_async` returned, thread not yet past line 107
  | begun                           -- after `f->promise->scope->err = null`, line 107
  | returned (o : Outcome V E)      -- the job function is over, nothing stored yet
  | stored                          -- value or exception stored, before `atomic_flag_test_and_set(&p->done)`
  | ended                           -- the wrapper is over
  deriving DecidableEq

/-- What a caller of one of the getters sees. -/
inductive Seen (V E : Type) where
  | value (v : Option V)            -- it returned this value (`none` is the zero value)
  | threw (e : E)                   -- it threw the job's exception
  | logic                           -- it threw `logic_error`
  deriving DecidableEq

/-- The getter called. -/
inductive Getter where
  | thrdGet                         -- first `thrd_get`
  | thrdGetAgain                    -- `thrd_get` on a future already collected
  | promiseWait
  | queueGet
  deriving DecidableEq

structure FS (V E : Type) where
  err : Nat → Option E              -- per scope
  pc : Nat → FPc V E                -- per future
  val : Nat → Option V              -- `promise->result->value`, zero after `events_calloc`
  done : Nat → Bool                 -- `promise->done`
  got : Nat → Bool                  -- `f->type == DATA_RESULT`
  spent : Nat → Bool                -- `result->is_array == DATA_INVALID`
  job : Nat → Option (Outcome V E)  -- what the job function of the future did
  log : List (Getter × Nat × Seen V E)

def FS.init (V E : Type) : FS V E :=
  { err := fun _ => none, pc := fun _ => .absent, val := fun _ => none, done := fun _ => false, got := fun _ => false,
    spent := fun _ => false, job := fun _ => none, log := [] }

/-- One scheduling decision. -/
inductive FAct (V E : Type) where
  | create (f : Nat)                       -- `thrd_async`
  | begin (f : Nat)                        -- the thread starts
  | call (f : Nat) (o : Outcome V E)       -- its job function runs to its end
  | store (f : Nat)                        -- `promise_set` or `promise_erred` up to the unlock
  | finish (f : Nat)                       -- `atomic_flag_test_and_set(&p->done)`
  | get (f : Nat)                          -- one turn of `thrd_get`
  | wait (f : Nat)                         -- one turn of `promise_wait`
  | qget (f : Nat)                         -- one turn of `queue_get`

/-- `promise_set` (src/future.c:42-55) and `promise_erred` (src/future.c:26-30) before the flag.  If a deferred
function recovered, `guarded_exception` calls neither (include/except.h:359). -/
def storeOutcome {V E : Type} (sc : Nat → Nat) (s : FS V E) (f : Nat) : Outcome V E → FS V E
  | .value none => { s with pc := Function.update s.pc f .stored }
  | .value (some v) => { s with val := Function.update s.val f (some v), pc := Function.update s.pc f .stored }
  | .raised e => { s with err := Function.update s.err (sc f) (some e), pc := Function.update s.pc f .stored }
  | .recovered _ => { s with pc := Function.update s.pc f .ended }

/-- `thrd_get(f)`, src/future.c:137-171: the wait for `done` and the join, then the clean-up, then the exception
of the scope or the value. -/
def thrdGet {V E : Type} (sc : Nat → Nat) (s : FS V E) (f : Nat) : FS V E :=
  if s.got f then { s with log := s.log ++ [(.thrdGetAgain, f, .value (s.val f))] }
  else if s.done f then
    { s with
      got := Function.update s.got f true
      done := Function.update s.done f false
      log := s.log ++ [(.thrdGet, f, match s.err (sc f) with | some e => .threw e | none => .value (s.val f))] }
  else s

/-- `queue_get(p)`, src/future.c:422-452. -/
def queueGet {V E : Type} (s : FS V E) (f : Nat) : FS V E :=
  if s.done f then
    if s.spent f then { s with log := s.log ++ [(.queueGet, f, .logic)] }
    else { s with spent := Function.update s.spent f true, log := s.log ++ [(.queueGet, f, .value (s.val f))] }
  else s

/-- One step of the system. -/
def fstep {V E : Type} (sc : Nat → Nat) (s : FS V E) : FAct V E → FS V E
  | .create f => match s.pc f with
    | .absent => { s with pc := Function.update s.pc f .created }
    | _ => s
  | .begin f => match s.pc f with
    | .created => { s with err := Function.update s.err (sc f) none, pc := Function.update s.pc f .begun }
    | _ => s
  | .call f o => match s.pc f with
    | .begun => { s with job := Function.update s.job f (some o), pc := Function.update s.pc f (.returned o) }
    | _ => s
  | .store f => match s.pc f with
    | .returned o => storeOutcome sc s f o
    | _ => s
  | .finish f => match s.pc f with
    | .stored => { s with done := Function.update s.done f true, pc := Function.update s.pc f .ended }
    | _ => s
  | .get f => thrdGet sc s f
  | .wait f => if s.done f then { s with log := s.log ++ [(.promiseWait, f, .value (s.val f))] } else s
  | .qget f => queueGet s f

def frun {V E : Type} (sc : Nat → Nat) (s : FS V E) (as : List (FAct V E)) : FS V E := as.foldl (fstep sc) s

/-- No future begins while another future of the same scope has begun and has not been collected. -/
def Isolated {V E : Type} (sc : Nat → Nat) : FS V E → List (FAct V E) → Prop
  | _, [] => True
  | s, a :: as =>
    (match a with
      | .begin f => ∀ g, g ≠ f → sc g = sc f → s.pc g = .absent ∨ s.pc g = .created ∨ s.got g = true
      | _ => True) ∧ Isolated sc (fstep sc s a) as

end Verif.Future.Promise
