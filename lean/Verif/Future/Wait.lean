import Mathlib.Data.List.Perm.Basic
import Mathlib.Data.List.Perm.Subperm

/-!
Model of `queue_wait` (src/future.c:393-420): visit the promises of an array over and over, call the handler
for each finished one and remove it, until the array is empty.

The worker threads are an oracle: `doneAt t p` says whether promise `p` is done when the `t`-th look at a
promise happens.  A promise that is done stays done (`atomic_flag_test_and_set`, src/future.c:56; nothing
clears the flag of a queued promise).  Every look takes one step, and so does every turn of the outer loop, so
any number of worker steps may happen in between.

Simplified: the value handed to the handler is a function of the promise (C41 is about the value); the array
entries are promises of `queue_work`, so `is_promise` holds (src/future.c:390); an entry whose result was already
collected (`is_array == DATA_INVALID`) is a member of `spent`.
-/
namespace Verif.Future.Wait

/-- Promise identities. -/
abbrev P := Nat

structure WS where
  work : List P        -- the array
  idx : Nat            -- `iworker`
  spent : List P       -- promises with `is_array == DATA_INVALID`
  called : List P      -- the handler calls made, in order
  returned : Bool      -- `queue_wait` has returned
  deriving DecidableEq

/-- Entry of `queue_wait`, src/future.c:393-396. -/
def WS.init (work spent : List P) : WS := { work := work, idx := 0, spent := spent, called := [], returned := false }

/-- `foreach(worker in work)` body, src/future.c:397-413, then `iworker++`.  `hasThen` is `!is_empty(then)`.
The removal shifts the rest of the array down while the index still goes up. -/
def visit (hasThen : Bool) (isDone : P → Bool) (s : WS) (p : P) : WS :=
  if isDone p then
    if hasThen then
      if p ∈ s.spent then
        { s with work := s.work.eraseIdx s.idx, idx := s.idx + 1 }
      else
        { s with work := s.work.eraseIdx s.idx, idx := s.idx + 1, called := s.called ++ [p], spent := p :: s.spent }
    else { s with work := s.work.eraseIdx s.idx, idx := s.idx + 1 }
  else { s with idx := s.idx + 1 }

/-- One step: the next iteration of the inner loop, or the end of it (`iworker = 0; yield()`, lines 415-416)
followed by the test of the outer loop (line 395). -/
def wstep (hasThen : Bool) (isDone : P → Bool) (s : WS) : WS :=
  if s.returned then s
  else match s.work[s.idx]? with
    | some p => visit hasThen isDone s p
    | none => if s.work = [] then { s with returned := true } else { s with idx := 0 }

/-- `n` steps, starting at time `t`. -/
def wrun (hasThen : Bool) (doneAt : Nat → P → Bool) : Nat → Nat → WS → WS
  | _, 0, s => s
  | t, n + 1, s => wrun hasThen doneAt (t + 1) n (wstep hasThen (doneAt t) s)

end Verif.Future.Wait
