import Verif.Basic

/-!
# Objects are recognised by their address, C223

`is_ptr_usable` (src/arrays.c:334-336) is asked in front of most uses of a pointer.
-/

namespace Verif.Tasks.Place

/-- `(ptrdiff_t)p`, where pointers have `bits` bits. -/
def signed (bits p : Nat) : Int := if p < 2 ^ (bits - 1) then p else (p : Int) - 2 ^ bits

/-- `is_ptr_usable`, src/arrays.c:334-336. -/
def usable (bits p : Nat) : Bool := decide (0x20000000 < signed bits p)

/-- `task_is_terminated`, src/events.c:1823-1825, of a task at `p` whose `halt` is `halt`. -/
def isTerminated (bits p : Nat) (halt : Bool) : Bool := if usable bits p then halt else true

/-- `spawn_is_finish`, src/async_io.c:927-929, of a process whose record is at `child`, with its task at `p`. -/
def isFinish (bits child p : Nat) (halt : Bool) : Bool := !usable bits child || !usable bits p || isTerminated bits p halt

/-- `deferred_unwind`, src/events.c:1100-1124, where the list of the task is an array at `arr` and all its elements are deferred calls: `(p, f)`
is a call of `f` whose record is at `p`.  The calls made, in order. -/
def unwind (bits arr : Nat) (l : List (Nat × Nat)) : List Nat :=
  if arr ≠ 0 ∧ usable bits arr then ((l.reverse.filter fun x => usable bits x.1).map (·.2)) else []

/-- `tasks_result_set`, src/events.c:1138-1154, for a task at `p` with a place for its result, and `data` not NULL: what is stored there. -/
def resultSet (bits p : Nat) (old : Option Nat) (data : Nat) : Option Nat := if usable bits p then some data else old

/-- With 32 bits an object is recognised exactly if it lies in the second to the fourth quarter of the lower half. -/
theorem usable_32 (p : Nat) (hp : p < 2 ^ 32) : usable 32 p = true ↔ 2 ^ 29 < p ∧ p < 2 ^ 31 := by
  have e : signed 32 p = if p < 2147483648 then (p : Int) else (p : Int) - 4294967296 := rfl
  unfold usable
  rw [decide_eq_true_eq, e]
  split <;> omega

theorem usable_64 (p : Nat) (hp : p < 2 ^ 63) : usable 64 p = true ↔ 2 ^ 29 < p := by
  have e : signed 64 p = if p < 9223372036854775808 then (p : Int) else (p : Int) - 18446744073709551616 := rfl
  unfold usable
  rw [decide_eq_true_eq, e]
  split <;> omega

/-- The addresses that are recognised: between 2^29 and half of the address space. -/
def Good (bits p : Nat) : Prop := 2 ^ 29 < p ∧ p < 2 ^ (bits - 1)

theorem good_usable {bits p : Nat} (h : Good bits p) : usable bits p = true := by
  obtain ⟨h1, h2⟩ := h
  have e : signed bits p = p := if_pos h2
  unfold usable
  rw [decide_eq_true_eq, e]
  omega

/-- **C223, the part that holds.**  If everything lies between 2^29 and half of the address space: a task is terminated if it has halted, and a
process has ended if its task has; the deferred calls are all made, the last one first; and the result of a task is stored. -/
theorem good_places_partial (bits p child arr : Nat) (l : List (Nat × Nat)) (hp : Good bits p) (hc : Good bits child) (ha : Good bits arr)
    (hl : ∀ x ∈ l, Good bits x.1) (halt : Bool) (old : Option Nat) (data : Nat) :
    isTerminated bits p halt = halt ∧ isFinish bits child p halt = halt ∧ unwind bits arr l = (l.map (·.2)).reverse ∧
      resultSet bits p old data = some data := by
  have hu := good_usable hp
  have hc' := good_usable hc
  have ha' := good_usable ha
  have hf : (l.reverse.filter fun x => usable bits x.1) = l.reverse := by
    rw [List.filter_eq_self]
    intro x hx
    exact good_usable (hl x (List.mem_reverse.1 hx))
  refine ⟨by simp [isTerminated, hu], by simp [isFinish, isTerminated, hu, hc'], ?_, by simp [resultSet, hu]⟩
  unfold unwind
  rw [if_pos ⟨by have := ha.1; omega, ha'⟩, hf, List.map_reverse]

/-- **C223 is false of the code with 32 bit pointers**: where the system maps memory in the upper half of the address space (as Linux does, from
the top), a task that runs counts as terminated, no deferred call of any task is made, and no result is stored. -/
theorem upper_half_32 (p : Nat) (h1 : 2 ^ 31 ≤ p) (h2 : p < 2 ^ 32) :
    isTerminated 32 p false = true ∧ (∀ child, isFinish 32 child p false = true) ∧ (∀ task, isFinish 32 p task false = true) ∧ (∀ l, unwind 32 p l = []) ∧
      (∀ old data, resultSet 32 p old data = old) := by
  have hu : usable 32 p = false := by
    cases h : usable 32 p with
    | false => rfl
    | true => have := (usable_32 p h2).1 h; omega
  exact ⟨by simp [isTerminated, hu], fun c => by simp [isFinish, hu], fun c => by simp [isFinish, hu], fun l => by simp [unwind, hu], fun o d => by simp [resultSet, hu]⟩

/-- **C223 is false of the code in the lowest 512 MiB** too, with 64 bits as well: a program which is not position independent has its own heap
there. -/
theorem lowest_part (bits p : Nat) (hb : 31 ≤ bits) (h : p ≤ 2 ^ 29) :
    isTerminated bits p false = true ∧ (∀ q, isFinish bits q p false = true ∧ isFinish bits p q false = true) ∧ (∀ l, unwind bits p l = []) ∧ (∀ old data, resultSet bits p old data = old) := by
  have hlt : p < 2 ^ (bits - 1) := Nat.lt_of_le_of_lt h (Nat.pow_lt_pow_right (by decide) (by omega))
  have e : signed bits p = p := if_pos hlt
  have hu : usable bits p = false := by
    unfold usable
    rw [decide_eq_false_iff_not, e]
    omega
  exact ⟨by simp [isTerminated, hu], fun q => by simp [isFinish, hu], fun l => by simp [unwind, hu], fun o d => by simp [resultSet, hu]⟩

/-- Two deferred calls, 7 and then 8; with the list at 0xf7001000 of a 32 bit system neither is made. -/
example : unwind 64 0x7f0000001000 [(0x7f0000002000, 7), (0x7f0000002040, 8)] = [8, 7] ∧
    unwind 32 0x40001000 [(0x40002000, 7), (0x40002040, 8)] = [8, 7] ∧
    unwind 32 0xf7001000 [(0xf7002000, 7), (0xf7002040, 8)] = [] := by decide

end Verif.Tasks.Place
