import Mathlib.Tactic.Tauto

/-!
# The life of a thread of the bundled POSIX threads for Windows (`include/compat/pthread.h` 681-781), C191, C192

One `struct _pthread_v` (122-133) from `pthread_create` to its `free`, shared by the thread that creates it, the thread itself and
the one that joins or detaches it.  The three move one access to the record at a time, in any order.

Simplified: memory is sequentially consistent (the header uses volatile-like barriers); `malloc` of the record succeeds; the
function of the thread is not cancelled and may end by `return` or `pthread_exit` (both store the result, then come to line 698);
`pthread_join` is not cancelled at its beginning (752).  The record's own memory is followed, not that of its key values.
-/

namespace Verif.Pth.Life

/-- `tv->h`: -1 while `_beginthreadex` has not returned, then the handle, 0 when detached. -/
inductive Hd where
  | minus1 | handle | zero
  deriving DecidableEq

/-- How far `pthread_create` (709-747) is.  `failed` and `back` are its two ends. -/
inductive Cr where
  | begin | assign | test | close | zero | back | failed
  deriving DecidableEq

/-- How far `pthread_create_wrapper` (681-707) is: in the thread's function, before the test of line 698, before that of 704, before
the `free`, ended. -/
inductive Th where
  | none | func | spin | check | free | exited
  deriving DecidableEq

/-- How far the one that joins (749-763) or detaches (765-781) is. -/
inductive Us where
  | none | wait | close | read | free | joined | dclose | dzero | detached
  deriving DecidableEq

structure St where
  /-- `PTHREAD_CREATE_DETACHED` is set in the attributes -/
  det : Bool
  h : Hd := .minus1
  cr : Cr := .begin
  th : Th := .none
  us : Us := .none
  /-- the thread itself is the one that detaches -/
  own : Bool := false
  /-- `tv->ret_arg` after the function has ended -/
  ret : Option Nat := none
  /-- what `pthread_join` gave its caller -/
  got : Option Nat := none
  /-- how often the record was given to `free` -/
  freed : Nat := 0
  /-- how often the thread's handle was closed -/
  closed : Nat := 0
  /-- the record was used, or freed again, after it had been freed -/
  bad : Bool := false
  deriving DecidableEq

/-- What can happen next. -/
inductive Ev where
  /-- `_beginthreadex` is called (735), with success or without -/
  | create (ok : Bool)
  /-- the creating thread takes its next step -/
  | creator
  /-- the thread takes its next step; its function, if it ends now, gives `r` -/
  | thread (r : Nat)
  /-- a thread calls `pthread_join`; `pthread_detach` -/
  | join | detach
  /-- the thread calls `pthread_detach(pthread_self())` -/
  | detachSelf
  /-- the one that joins or detaches takes its next step -/
  | user
  deriving DecidableEq

/-- An access to the record. -/
def touch (s : St) : St := { s with bad := s.bad || decide (0 < s.freed) }

/-- `CloseHandle(tv->h)`; closing the pseudo handle -1 does nothing. -/
def closeH (s : St) : St := { touch s with closed := s.closed + if s.h = .handle then 1 else 0 }

/-- `free(tv)`. -/
def freeRec (s : St) : St := { touch s with freed := s.freed + 1 }

/-- One step of `pthread_create` after `_beginthreadex` has returned: 735 (the assignment), 738 and 740, 741, 743. -/
def creator (s : St) : St :=
  match s.cr with
  | .assign => { touch s with h := .handle, cr := .test }
  | .test => { touch s with cr := if s.det then .close else .back }
  | .close => { closeH s with cr := .zero }
  | .zero => { touch s with h := .zero, cr := .back }
  | _ => s

/-- One step of the thread: the end of its function (691), the loop (698-701), the test and the `free` (704).  It does not go on
while it is in its own call of `pthread_detach`. -/
def thread (s : St) (r : Nat) : St :=
  match s.th with
  | .func => if s.own ∧ s.us ≠ .detached then s else { touch s with ret := some r, th := .spin }
  | .spin => if s.h = .minus1 then touch s else { touch s with th := .check }
  | .check => { touch s with th := if s.h = .zero then .free else .exited }
  | .free => { freeRec s with th := .exited }
  | _ => s

/-- One step of `pthread_join` (754, 755, 758, 760) or `pthread_detach` (773, 775). -/
def user (s : St) : St :=
  match s.us with
  | .wait => if s.th = .exited then { touch s with us := .close } else touch s
  | .close => { closeH s with us := .read }
  | .read => { touch s with got := s.ret, us := .free }
  | .free => { freeRec s with us := .joined }
  | .dclose => { closeH s with us := .dzero }
  | .dzero => { touch s with h := .zero, us := .detached }
  | _ => s

/-- One event.  A thread is joined or detached at most once, by another one only when `pthread_create` has returned, and not if it
was created detached (anything else is not allowed by POSIX, and does nothing here).  A failed `_beginthreadex` returns 0, which is
stored (735) and `pthread_create` returns 1 (738). -/
def step (s : St) : Ev → St
  | .create ok =>
    if s.cr = .begin then
      if ok then { s with cr := .assign, th := .func } else { touch s with h := .zero, cr := .failed }
    else s
  | .creator => creator s
  | .thread r => thread s r
  | .join => if s.us = .none ∧ s.cr = .back ∧ s.det = false then { s with us := .wait } else s
  | .detach => if s.us = .none ∧ s.cr = .back ∧ s.det = false then { s with us := .dclose } else s
  | .detachSelf => if s.us = .none ∧ s.th = .func ∧ s.det = false then { s with us := .dclose, own := true } else s
  | .user => user s

/-- All that happens to a thread created detached or not. -/
def run (det : Bool) (evs : List Ev) : St := evs.foldl step { det }

/-- The thread does not detach itself before the `pthread_create` that made it has returned. -/
def Waits : St → List Ev → Prop
  | _, [] => True
  | s, e :: t => (e = .detachSelf → s.cr = .back) ∧ Waits (step s e) t

/-! ## What holds all the time -/

/-- The thread has a result once its function has ended. -/
def Live (s : St) : Prop := s.th = .func ∨ (s.th = .spin ∨ s.th = .check ∨ s.th = .exited) ∧ s.ret.isSome = true

/-- Detached: the thread frees the record, or has ended before it was detached. -/
def Gone (s : St) : Prop :=
  s.th = .func ∧ s.freed = 0 ∨ (s.th = .spin ∨ s.th = .check ∨ s.th = .free) ∧ s.freed = 0 ∧ s.ret.isSome = true ∨
    s.th = .exited ∧ s.freed ≤ 1 ∧ s.ret.isSome = true

def Ok (s : St) : Prop :=
  s.bad = false ∧
  match s.cr, s.us with
  | .begin, .none => s.h = .minus1 ∧ s.th = .none ∧ s.own = false ∧ s.freed = 0 ∧ s.closed = 0
  | .failed, .none => s.h = .zero ∧ s.th = .none ∧ s.own = false ∧ s.freed = 0 ∧ s.closed = 0
  | .assign, .none => s.h = .minus1 ∧ (s.th = .func ∨ s.th = .spin ∧ s.ret.isSome = true) ∧ s.own = false ∧ s.freed = 0 ∧ s.closed = 0
  | .test, .none => s.h = .handle ∧ Live s ∧ s.own = false ∧ s.freed = 0 ∧ s.closed = 0
  | .close, .none => s.det = true ∧ s.h = .handle ∧ Live s ∧ s.own = false ∧ s.freed = 0 ∧ s.closed = 0
  | .zero, .none => s.det = true ∧ s.h = .handle ∧ Live s ∧ s.own = false ∧ s.freed = 0 ∧ s.closed = 1
  | .back, .none =>
    s.own = false ∧
      (s.det = true ∧ s.h = .zero ∧ Gone s ∧ s.closed = 1 ∨ s.det = false ∧ s.h = .handle ∧ Live s ∧ s.freed = 0 ∧ s.closed = 0)
  | .back, .wait => s.det = false ∧ s.own = false ∧ s.h = .handle ∧ Live s ∧ s.freed = 0 ∧ s.closed = 0
  | .back, .close => s.det = false ∧ s.own = false ∧ s.h = .handle ∧ s.th = .exited ∧ s.ret.isSome = true ∧ s.freed = 0 ∧ s.closed = 0
  | .back, .read => s.det = false ∧ s.own = false ∧ s.h = .handle ∧ s.th = .exited ∧ s.ret.isSome = true ∧ s.freed = 0 ∧ s.closed = 1
  | .back, .free =>
    s.det = false ∧ s.own = false ∧ s.th = .exited ∧ s.ret.isSome = true ∧ s.got = s.ret ∧ s.freed = 0 ∧ s.closed = 1
  | .back, .joined =>
    s.det = false ∧ s.own = false ∧ s.th = .exited ∧ s.ret.isSome = true ∧ s.got = s.ret ∧ s.freed = 1 ∧ s.closed = 1
  | .back, .dclose => s.det = false ∧ (s.own = true → s.th = .func) ∧ s.h = .handle ∧ Live s ∧ s.freed = 0 ∧ s.closed = 0
  | .back, .dzero => s.det = false ∧ (s.own = true → s.th = .func) ∧ s.h = .handle ∧ Live s ∧ s.freed = 0 ∧ s.closed = 1
  | .back, .detached => s.det = false ∧ s.h = .zero ∧ Gone s ∧ s.closed = 1
  | _, _ => False

theorem init_ok (det : Bool) : Ok { det } := by simp [Ok]

theorem creator_ok {s : St} (hI : Ok s) : Ok (creator s) := by
  obtain ⟨det, h, cr, th, us, own, ret, got, freed, closed, bad⟩ := s
  cases cr <;> cases us <;> simp only [Ok, and_false] at hI <;>
    (first | exact hI | skip)
  all_goals
    simp only [creator, touch, closeH]
    simp only [Ok, Live, Gone] at hI ⊢
    cases det <;> simp_all
  all_goals tauto

theorem thread_ok {s : St} (r : Nat) (hI : Ok s) : Ok (thread s r) := by
  obtain ⟨det, h, cr, th, us, own, ret, got, freed, closed, bad⟩ := s
  cases cr <;> cases us <;> simp only [Ok, and_false] at hI <;> cases th <;>
    (first | exact hI | (simp only [Live, Gone] at hI; simp_all; done) | skip)
  all_goals
    cases h <;> cases det <;> cases own <;>
    (first | (simp only [Live, Gone] at hI; simp_all; done) | skip)
  all_goals
    simp only [thread, touch, freeRec]
    simp only [Ok, Live, Gone] at hI ⊢
    simp_all

theorem user_ok {s : St} (hI : Ok s) : Ok (user s) := by
  obtain ⟨det, h, cr, th, us, own, ret, got, freed, closed, bad⟩ := s
  cases cr <;> cases us <;> simp only [Ok, and_false] at hI <;>
    (first | exact hI | skip)
  all_goals
    cases th <;> (try simp only [Live] at hI) <;>
    (first | (simp_all; done) | skip)
  all_goals
    simp only [user, touch, closeH, freeRec]
    simp only [Ok, Live, Gone] at ⊢
    simp_all

theorem step_ok {s : St} {e : Ev} (hI : Ok s) (hw : e = .detachSelf → s.cr = .back) : Ok (step s e) := by
  cases e with
  | creator => exact creator_ok hI
  | thread r => exact thread_ok r hI
  | user => exact user_ok hI
  | create ok =>
    obtain ⟨det, h, cr, th, us, own, ret, got, freed, closed, bad⟩ := s
    simp only [step]
    split
    · next hc =>
      subst hc
      cases us <;> simp only [Ok, and_false] at hI
      cases ok <;> simp_all [Ok, touch]
    · exact hI
  | join | detach =>
    obtain ⟨det, h, cr, th, us, own, ret, got, freed, closed, bad⟩ := s
    simp only [step]
    split
    · next hc =>
      obtain ⟨rfl, rfl, rfl⟩ := hc
      simp_all [Ok, Live]
    · exact hI
  | detachSelf =>
    obtain ⟨det, h, cr, th, us, own, ret, got, freed, closed, bad⟩ := s
    have := hw rfl
    dsimp only at this; subst this
    simp only [step]
    split
    · next hc =>
      obtain ⟨rfl, rfl, rfl⟩ := hc
      simp_all [Ok, Live]
    · exact hI

theorem foldl_ok (evs : List Ev) : ∀ {s : St}, Ok s → Waits s evs → Ok (evs.foldl step s) := by
  induction evs with
  | nil => intro s h _; exact h
  | cons e t ih => intro s h hw; exact ih (step_ok h hw.1) hw.2

theorem run_ok {det : Bool} {evs : List Ev} (hw : Waits { det } evs) : Ok (run det evs) := foldl_ok evs (init_ok det) hw

end Verif.Pth.Life
