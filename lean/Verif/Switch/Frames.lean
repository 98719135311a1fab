import Mathlib.Tactic.Linarith
import Verif.Switch.Stack

/-!
# Receiving datagrams in a task, C217

`udp_recv` (src/async_udp.c:95-131) keeps a buffer of 48 KiB on the stack of the task that calls it and sets all of it to zero.  Addresses
are counted from the start of the block of the task; those below 0 belong to something else.  The machine is one with 64 bit System V
conventions (src/asm.c:173-196).
-/

namespace Verif.Switch.Frames

open Verif.Switch.Stack

/-- The ways to make a task whose stack size the library chooses. -/
inductive Maker where
  | main
  | asyncTask
  | launch
  | go
  | generator
  | connection
  deriving DecidableEq, Repr

/-- The size given to `create_task`, and for the main task what it makes of it: events_start, async_task, launch, go, generator and
accept_handler, src/events.c:198-209, 1986, 1996, 2055, 1589, 1807; 1688-1691.  (Line 1694 adds to sizes up to 18 KiB for threads; there
are none here.) -/
def heapOf : Maker → Nat
  | .main => 18 * 1024 * 6
  | .asyncTask => 18 * 1024
  | .launch => 18 * 1024
  | .go => 26 * 1024
  | .generator => 32 * 1024
  | .connection => 32 * 1024

/-- Where the stack of a task begins, growing down: src/asm.c:182-187 (the block is aligned to 16 bytes; two words are pushed). -/
def stackTop (z : Sizes) (heap : Nat) : Int := ((blockSize z heap - 32) / 16 * 16 : Nat) - 16

/-- The bytes that `udp_recv` sets to zero when it is entered (src/async_udp.c:98): from the first to before the second.  `depth` bytes of
stack are in use, `pad` bytes lie between them and the buffer, which depends on the compiler (the 64 bytes of `buf1` are among them or
below). -/
def zeroed (z : Sizes) (heap depth pad : Nat) : Int × Int :=
  (stackTop z heap - depth - pad - 48 * 1024, stackTop z heap - depth - pad)

/-- **C217 is false of the code.**  In every task but the main one `udp_recv` overwrites memory before the block of the task, whatever the
compiler does and whoever called it: more than 8 KiB of it (up to its start, if any of the buffer is inside the block). -/
theorem udp_recv_destroys (z : Sizes) (hz : z.T + z.R ≤ 8000) (hl : z.least ≤ 18 * 1024) (k : Maker) (hk : k ≠ .main) (depth pad : Nat) :
    (zeroed z (heapOf k) depth pad).1 ≤ -8192 ∧
      (0 < stackTop z (heapOf k) - depth - pad → ∀ x : Int, -8192 ≤ x → x < 0 →
        (zeroed z (heapOf k) depth pad).1 ≤ x ∧ x < (zeroed z (heapOf k) depth pad).2) := by
  have hh : 18 * 1024 ≤ heapOf k ∧ heapOf k ≤ 32 * 1024 := by
    cases k <;> first | exact absurd rfl hk | decide
  have hb : blockSize z (heapOf k) ≤ 32 * 1024 + 8000 + 16 := by
    unfold blockSize
    rw [if_neg (by omega)]
    omega
  unfold zeroed stackTop
  dsimp only
  refine ⟨by omega, fun h x h1 h2 => ⟨by omega, by omega⟩⟩

/-- **C217, the part that holds.**  In a task with a stack of `heap` bytes of which no more than `heap - 49260` are in use or passed
over, the main task among them, the buffer is inside the block and does not touch the record. -/
theorem udp_recv_fits_partial (z : Sizes) (heap depth pad : Nat) (hh : z.least ≤ heap) (h : depth + pad + 48 * 1024 + 63 ≤ heap) :
    (z.T : Int) ≤ (zeroed z heap depth pad).1 ∧ (zeroed z heap depth pad).2 < blockSize z heap := by
  have hb : heap + z.T + z.R ≤ blockSize z heap := by unfold blockSize; rw [if_neg (by omega)]; omega
  unfold zeroed stackTop
  dsimp only
  omega

/-- The main task may have 59 KiB of stack in use. -/
example (z : Sizes) (hl : z.least ≤ 18 * 1024) (depth : Nat) (hd : depth ≤ 59 * 1024) :
    (z.T : Int) ≤ (zeroed z (heapOf .main) depth 64).1 :=
  (udp_recv_fits_partial z (heapOf .main) depth 64 (by simp only [heapOf]; omega) (by simp only [heapOf]; omega)).1

example : (zeroed ⟨800, 40, 64, 8192⟩ (heapOf .asyncTask) 200 100).1 = -30220 := by decide

end Verif.Switch.Frames
