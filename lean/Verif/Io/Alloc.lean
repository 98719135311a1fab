import Mathlib.Data.List.Basic

/-!
# Installing an allocator (`src/events.c` 147-182), C49
-/

namespace Verif.Io.Alloc

variable {F : Type}

/-- `events_allocators`: the four functions in use.  An argument `none` is NULL. -/
structure A (F : Type) where
  malloc : F
  realloc : F
  calloc : F
  free : F
  deriving DecidableEq

/-- The arguments of one call. -/
structure Args (F : Type) where
  malloc : Option F
  realloc : Option F
  calloc : Option F
  free : Option F

/-- `errno` is part of the state: `EINVAL` is 22. -/
structure St (F : Type) where
  a : A F
  errno : Int

/-- `events_set_allocator`, src/events.c:151-166: the assignments happen one after the other. -/
def setAllocator (s : St F) (x : Args F) : Int × St F :=
  match x.malloc, x.realloc, x.calloc, x.free with
  | some m, some r, some c, some f =>
    let s := { s with a := { s.a with malloc := m } }
    let s := { s with a := { s.a with realloc := r } }
    let s := { s with a := { s.a with calloc := c } }
    let s := { s with a := { s.a with free := f } }
    (0, s)
  | _, _, _, _ => (-1, { s with errno := 22 })

/-- `events_free`, src/events.c:176-181: `f` is what the installed function does to `errno`. -/
def eventsFree (f : Int → Int) (s : St F) : St F :=
  let saved := s.errno
  let s := { s with errno := f s.errno }
  { s with errno := saved }

/-- A history of calls, with their results. -/
def run (s : St F) : List (Args F) → List Int × St F
  | [] => ([], s)
  | x :: xs =>
    let r := setAllocator s x
    let r' := run r.2 xs
    (r.1 :: r'.1, r'.2)

/-- Specification: a call is complete if no argument is missing. -/
def complete (x : Args F) : Option (A F) := do
  let m ← x.malloc
  let r ← x.realloc
  let c ← x.calloc
  let f ← x.free
  return ⟨m, r, c, f⟩

/-- Claim C49: after every history of calls the allocator in use consists of the four functions of the last complete call (or
is the initial one if there was none), and exactly the complete calls report success. -/
theorem set_allocator_all_or_nothing (xs : List (Args F)) (s : St F) :
    (run s xs).2.a = ((xs.filterMap complete).getLast?).getD s.a ∧
      (run s xs).1 = xs.map fun x => if (complete x).isSome then 0 else -1 := by
  induction xs generalizing s with
  | nil => exact ⟨rfl, rfl⟩
  | cons x xs ih =>
    obtain ⟨m, r, c, f⟩ := x
    obtain ⟨h1, h2⟩ := ih (setAllocator s ⟨m, r, c, f⟩).2
    refine ⟨?_, ?_⟩
    · simp only [run]
      rw [h1]
      cases m <;> cases r <;> cases c <;> cases f <;> simp [complete, setAllocator, List.getLast?_cons]
    · simp only [run, List.map_cons]
      rw [h2]
      cases m <;> cases r <;> cases c <;> cases f <;> simp [complete, setAllocator]

/-- An incomplete call sets `EINVAL`; releasing memory never changes `errno`. -/
theorem errno_after_calls (s : St F) (x : Args F) (f : Int → Int) :
    (complete x = none → (setAllocator s x).2.errno = 22) ∧ (eventsFree f s).errno = s.errno := by
  obtain ⟨m, r, c, g⟩ := x
  refine ⟨?_, rfl⟩
  cases m <;> cases r <;> cases c <;> cases g <;> simp [complete, setAllocator]

example : (run (⟨⟨0, 0, 0, 0⟩, 0⟩ : St Nat) [⟨some 1, some 2, some 3, some 4⟩, ⟨some 5, some 6, none, some 8⟩]).2.a = ⟨1, 2, 3, 4⟩ := by
  decide

end Verif.Io.Alloc
