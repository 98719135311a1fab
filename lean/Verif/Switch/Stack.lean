import Mathlib.Tactic.Linarith
import Verif.Basic

/-!
# Where the stack of a task lies (`ucontext` and `setjmp` variants), and the check of the stack, C215, C216

`create_task` (src/events.c 1671-1707) gets one block of memory for a task; the record of the task (`tasks_t`) is at its start.
The sizes of the structures are parameters: `T` of `tasks_t`, `R` of the result record, `U` of `ucontext_t`, which is the first member
of `tasks_t` (src/events_internal.h:412-416).
-/

namespace Verif.Switch.Stack

/-- Sizes on a machine. -/
structure Sizes where
  T : Nat
  R : Nat
  U : Nat
  /-- `TASK_STACK_SIZE` -/
  least : Nat

/-- What every machine satisfies: the context is inside the record, which has other members behind it (the name of the task alone has
`MAX_PATH`, at least 260, bytes; events_internal.h:412-463), a record of a result is no larger than a context; a stack has room
for a context. -/
def Sizes.Ok (z : Sizes) : Prop := 16 ≤ z.U ∧ z.R ≤ z.U ∧ z.U + 260 ≤ z.T ∧ z.U + 64 ≤ z.least

/-- The size of the block (events.c:1679-1698), for a task that is neither the main one nor for a thread of its own. -/
def blockSize (z : Sizes) (heap : Nat) : Nat :=
  ((if heap < z.least then z.least else heap) + z.T + z.R + 15) / 16 * 16

/-- `task_derive` with `USE_UCONTEXT` (events.c:1512-1530): start and length of the stack, from the start of the block. -/
def ucontextStack (z : Sizes) (size : Nat) : Nat × Nat := (8, size - z.U - 64)

/-- `task_derive` with `USE_SJLJ` (events.c:1469-1509): start and length of the stack, from the start of the block. -/
def sjljStack (z : Sizes) (size : Nat) : Nat × Nat := (0, size - z.T)

/-- A task that has `n` bytes on its stack, which grows down, uses these: from the first to before the second. -/
def usedBytes (s : Nat × Nat) (n : Nat) : Nat × Nat := (s.1 + s.2 - n, s.1 + s.2)

/-- `tasks_stack_check(n)` (events.c:2392-2400) on a 64 bit machine: `sp` is the address of a local variable, `base` is `stack_base`, the
first byte behind the record, `magic` says that the number is in its place.  `none` is undefined (`256 + n` has the type `int`),
`some false` is `abort`. -/
def stackCheck (sp base : Nat) (magic : Bool) (n : Int) : Option Bool :=
  if sp ≤ base then some false
  else if 256 + n ≥ 2 ^ 31 then none
  else if (sp : Int) - base < 256 + n then some false
  else some magic

/-- Two ranges have a byte in common. -/
def Meet (a b : Nat × Nat) : Prop := ∃ x, a.1 ≤ x ∧ x < a.2 ∧ b.1 ≤ x ∧ x < b.2

/-- **C215 is false of the code with `ucontext`.**  The stack begins inside the record.  Whatever size is asked for, a task that uses just
that many bytes of stack overwrites its own record, and one that uses the whole of the stack it was given overwrites its context too. -/
theorem ucontext_overlaps (z : Sizes) (hz : z.Ok) (heap : Nat) (hh : z.least ≤ heap) :
    Meet (usedBytes (ucontextStack z (blockSize z heap)) heap) (0, z.T) ∧
      Meet (usedBytes (ucontextStack z (blockSize z heap)) (ucontextStack z (blockSize z heap)).2) (0, z.U) := by
  obtain ⟨h1, h2, h3, h4⟩ := hz
  have hb : heap + z.T + z.R ≤ blockSize z heap ∧ blockSize z heap < heap + z.T + z.R + 16 := by
    unfold blockSize; rw [if_neg (by omega)]; omega
  obtain ⟨hb1, hb2⟩ := hb
  simp only [Meet, usedBytes, ucontextStack]
  exact ⟨⟨z.T - 1, by omega, by omega, by omega, by omega⟩, ⟨8, by omega, by omega, by omega, by omega⟩⟩

/-- The same with `setjmp`: there the stack begins where the record begins, and the whole of the record is in it. -/
theorem sjlj_overlaps (z : Sizes) (hz : z.Ok) (heap : Nat) (hh : z.least ≤ heap) :
    Meet (usedBytes (sjljStack z (blockSize z heap)) heap) (0, z.T) ∧
      ∀ x, x < z.T → x < heap →
        (usedBytes (sjljStack z (blockSize z heap)) (sjljStack z (blockSize z heap)).2).1 ≤ x ∧
          x < (usedBytes (sjljStack z (blockSize z heap)) (sjljStack z (blockSize z heap)).2).2 := by
  obtain ⟨h1, h2, h3, h4⟩ := hz
  have hb : heap + z.T + z.R ≤ blockSize z heap ∧ blockSize z heap < heap + z.T + z.R + 16 := by
    unfold blockSize; rw [if_neg (by omega)]; omega
  obtain ⟨hb1, hb2⟩ := hb
  simp only [Meet, usedBytes, sjljStack]
  by_cases hc : heap < z.T
  · exact ⟨⟨heap - 1, by omega, by omega, by omega, by omega⟩, fun x _ _ => by omega⟩
  · exact ⟨⟨z.T - 1, by omega, by omega, by omega, by omega⟩, fun x _ _ => by omega⟩

/-- **C215, the part that holds.**  With both variants the stack is inside the block, and a task that uses no more of it than
`heap - U - 56` bytes (`ucontext`), or `heap - T` bytes (`setjmp`), leaves its record alone. -/
theorem stack_in_block_partial (z : Sizes) (hz : z.Ok) (heap n : Nat) (hh : z.least ≤ heap) :
    (n ≤ (ucontextStack z (blockSize z heap)).2 → (usedBytes (ucontextStack z (blockSize z heap)) n).2 ≤ blockSize z heap ∧
      (n + z.U + 56 ≤ heap → ¬ Meet (usedBytes (ucontextStack z (blockSize z heap)) n) (0, z.T))) ∧
    (n ≤ (sjljStack z (blockSize z heap)).2 → (usedBytes (sjljStack z (blockSize z heap)) n).2 ≤ blockSize z heap ∧
      (n + z.T ≤ heap → ¬ Meet (usedBytes (sjljStack z (blockSize z heap)) n) (0, z.T))) := by
  obtain ⟨h1, h2, h3, h4⟩ := hz
  have hb : heap + z.T + z.R ≤ blockSize z heap := by unfold blockSize; rw [if_neg (by omega)]; omega
  simp only [Meet, usedBytes, ucontextStack, sjljStack]
  refine ⟨fun _ => ⟨by omega, fun h => ?_⟩, fun _ => ⟨by omega, fun h => ?_⟩⟩ <;>
  · rintro ⟨x, a, b, c, d⟩; omega

example : (⟨1800, 40, 968, 8192⟩ : Sizes).Ok ∧ blockSize ⟨1800, 40, 968, 8192⟩ 18432 = 20272 ∧
    ucontextStack ⟨1800, 40, 968, 8192⟩ 20272 = (8, 19240) := by
  refine ⟨⟨by decide, by decide, by decide, by decide⟩, by decide, by decide⟩

/-- **C216, the part that holds.**  For `n` up to 2^31 - 257 the check never fails to answer; it lets the task go on exactly when the mark
in the record is whole and at least `256 + n` bytes are left, and then the next `n + 256` bytes of stack do not touch the record that ends
at `base`. -/
theorem check_right_partial (sp base : Nat) (magic : Bool) (n : Nat) (hn : n + 256 < 2 ^ 31) :
    (stackCheck sp base magic n = some true ↔ magic = true ∧ base + 256 + n ≤ sp) ∧
      (stackCheck sp base magic n = some false ↔ ¬ (magic = true ∧ base + 256 + n ≤ sp)) ∧
      (stackCheck sp base magic n = some true → ∀ x, sp - (n + 256) ≤ x → base ≤ x) := by
  unfold stackCheck
  cases magic
  · refine ⟨?_, ?_, ?_⟩ <;> (split; · simp) <;> (rw [if_neg (by omega)]; split <;> simp)
  · by_cases h1 : sp ≤ base
    · simp only [h1, if_true]
      refine ⟨?_, ?_, by simp⟩
      · simp; omega
      · simp; omega
    · rw [if_neg h1, if_neg (by omega)]
      by_cases h2 : (sp : Int) - base < 256 + n
      · simp only [h2, if_true]
        refine ⟨?_, ?_, by simp⟩
        · simp; omega
        · simp; omega
      · simp only [h2, if_false]
        refine ⟨?_, ?_, ?_⟩
        · simp; omega
        · simp; omega
        · intro _ x hx; omega

/-- **C216 is false of the code for the largest numbers**: the sum overflows, whatever room there is. -/
theorem check_overflows (sp base : Nat) (h : base < sp) (magic : Bool) (n : Int) (hn : 2 ^ 31 - 256 ≤ n) : stackCheck sp base magic n = none := by
  unfold stackCheck
  rw [if_neg (by omega), if_pos (by omega)]

/-- A negative `n` asks for less than the 256 bytes that are kept free: with -256 or less a task on the last byte of its stack goes on. -/
theorem check_negative (sp base : Nat) (h : base < sp) (n : Int) (hn : n ≤ -256) : stackCheck sp base true n = some true := by
  unfold stackCheck
  rw [if_neg (by omega), if_neg (by omega), if_neg (by omega)]

example : stackCheck 2000 1000 true 744 = some true ∧ stackCheck 2000 1000 true 745 = some false := by decide

end Verif.Switch.Stack
