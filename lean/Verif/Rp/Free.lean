import Verif.Rp.HeapProps

/-!
# What `rpfree` frees, C219 and C220

The library frees all its memory with `rpfree` (installed by `events_init`, src/events.c:226), which first asks `rpmalloc_is_valid`
(src/rpmalloc.c:2937-2949) whether the block can be one of its own.
-/

namespace Verif.Rp

/-- The sizes, in bits, of `intptr_t` and `long`: 64 and 64 on Linux and macOS, 32 and 32 on 32 bit systems, 64 and 32 on Windows. -/
structure Plat where
  ptr : Nat
  long : Nat

def lp64 : Plat := ⟨64, 64⟩
def ilp32 : Plat := ⟨32, 32⟩
def llp64 : Plat := ⟨64, 32⟩

/-- `(intptr_t)p`. -/
def Plat.intptr (a : Plat) (p : Nat) : Int := if p < 2 ^ (a.ptr - 1) then p else (p : Int) - 2 ^ a.ptr

/-- `rpmalloc_is_valid`, src/rpmalloc.c:2937-2944, for a block at `p`, where `span->heap` is `heap`. -/
def isValid (a : Plat) (p heap : Nat) : Bool :=
  ¬ (p / spanSize * spanSize = 0 ∨ p = 0 ∨ heap = 0 ∨ (2 : Int) ^ (a.long - 1) - 1 ≤ a.intptr heap)

/-- `rpfree`, src/rpmalloc.c:2946-2949, of block `i` of span `s` by the thread which owns the heap, whose record is at `heap`. -/
def rpfree (a : Plat) (c : Cfg) (heap : Nat) (st : St) (s i : Nat) : Option St :=
  if isValid a (addr c s i (c.size (st.span s).bin)) heap then freeDirect c st s i else some st

/-! ## The blocks of the allocator -/

theorem intptr_lp64 (p : Nat) : lp64.intptr p = if p < 9223372036854775808 then (p : Int) else (p : Int) - 18446744073709551616 := rfl
theorem intptr_llp64 (p : Nat) : llp64.intptr p = if p < 9223372036854775808 then (p : Int) else (p : Int) - 18446744073709551616 := rfl
theorem intptr_ilp32 (p : Nat) : ilp32.intptr p = if p < 2147483648 then (p : Int) else (p : Int) - 4294967296 := rfl
theorem long_lp64 : (2 : Int) ^ (lp64.long - 1) - 1 = 9223372036854775807 := by decide
theorem long_llp64 : (2 : Int) ^ (llp64.long - 1) - 1 = 2147483647 := by decide
theorem long_ilp32 : (2 : Int) ^ (ilp32.long - 1) - 1 = 2147483647 := by decide

theorem addr_ge {c : Cfg} (ok : c.Ok) (hb : ∀ s, c.base s ≠ 0) (s i z : Nat) : addr c s i z / spanSize * spanSize ≠ 0 ∧ addr c s i z ≠ 0 := by
  obtain ⟨a, ha⟩ := ok.base s
  have h0 := hb s
  have hS : spanSize = 65536 := rfl
  have hle : spanSize ≤ addr c s i z := by
    unfold addr
    rw [ha]
    have : a ≠ 0 := by rintro rfl; simp at ha; exact h0 ha
    have : spanSize * 1 ≤ spanSize * a := Nat.mul_le_mul_left _ (by omega)
    omega
  rw [hS] at hle ⊢
  omega

/-- **C219, the part that holds.**  Where `long` is as wide as a pointer, a block of the allocator given to `rpfree` is freed, wherever the
record of its heap lies (on 64 bits: below 2^63 - 1, on 32 bits: anywhere but at 2^31 - 1). -/
theorem own_block_freed_partial {c : Cfg} (ok : c.Ok) (hb : ∀ s, c.base s ≠ 0) (a : Plat) (ha : a = lp64 ∨ a = ilp32) (heap : Nat)
    (h0 : 0 < heap) (h1 : a = lp64 → heap < 2 ^ 63 - 1) (h2 : a = ilp32 → heap < 2 ^ 32 ∧ heap ≠ 2 ^ 31 - 1) (st : St) (s i : Nat) :
    rpfree a c heap st s i = freeDirect c st s i := by
  obtain ⟨g1, g2⟩ := addr_ge ok hb s i (c.size (st.span s).bin)
  unfold rpfree
  rw [if_pos]
  have hlt : a.intptr heap < (2 : Int) ^ (a.long - 1) - 1 := by
    rcases ha with rfl | rfl
    · have := h1 rfl
      rw [intptr_lp64, long_lp64]
      split <;> omega
    · have := h2 rfl
      rw [intptr_ilp32, long_ilp32]
      split <;> omega
  simp only [isValid, g1, g2, decide_eq_true_eq, false_or, not_or]
  exact ⟨by omega, by omega⟩

/-- **C219 is false of the code on 64 bit Windows**: if the record of the heap lies at or above 2^31 - 1 (and it does, unless it happens to
be mapped in the lowest 2 GiB), `rpfree` does nothing, with any block in any state. -/
theorem windows_frees_nothing (c : Cfg) (heap : Nat) (h1 : 2 ^ 31 - 1 ≤ heap) (h2 : heap < 2 ^ 63) (st : St) (s i : Nat) :
    rpfree llp64 c heap st s i = some st := by
  unfold rpfree
  rw [if_neg]
  simp only [isValid, decide_eq_true_eq, not_not]
  refine Or.inr (Or.inr (Or.inr ?_))
  rw [intptr_llp64, long_llp64, if_pos (by omega)]
  omega

/-- A program asks for a block of bin `b` and frees it, again and again; `p` says where a new span comes from if one is needed.  The
blocks it got. -/
def rounds (a : Plat) (c : Cfg) (heap b : Nat) : List Pick → St → Option (St × List (Nat × Nat))
  | [], st => some (st, [])
  | p :: ps, st => match malloc c st b p with
    | some (st, some x) => match rpfree a c heap st x.1 x.2 with
      | some st => (rounds a c heap b ps st).map fun r => (r.1, x :: r.2)
      | none => none
    | _ => none

theorem rounds_reach {c : Cfg} (heap b : Nat) (h1 : 2 ^ 31 - 1 ≤ heap) (h2 : heap < 2 ^ 63) :
    ∀ (ps : List Pick) {st : St} {held : List Held} {r : St × List (Nat × Nat)}, Reach c st held →
      rounds llp64 c heap b ps st = some r →
      Reach c r.1 ((r.2.map fun x => (⟨x.1, x.2, b⟩ : Held)).reverse ++ held) ∧ r.2.length = ps.length := by
  intro ps
  induction ps with
  | nil =>
    intro st held r h hr
    cases hr
    exact ⟨h, rfl⟩
  | cons p ps ih =>
    intro st held r h hr
    unfold rounds at hr
    split at hr
    next st' x hm =>
      rw [windows_frees_nothing c heap h1 h2] at hr
      dsimp only at hr
      cases hq : rounds llp64 c heap b ps st' with
      | none => rw [hq] at hr; cases hr
      | some q =>
        rw [hq] at hr
        cases hr
        obtain ⟨g1, g2⟩ := ih (Reach.step h (op := .malloc b p) trivial hm) hq
        refine ⟨?_, by simp [g2]⟩
        simpa [heldAfter] using g1
    next => cases hr

/-- **C219 is false of the code on 64 bit Windows**: a program that asks for a block and frees it, again and again, gets as many different
blocks as it asks for, none overlapping another, all of them in memory that stays mapped. -/
theorem windows_memory_grows {c : Cfg} (ok : c.Ok) (heap b : Nat) (h1 : 2 ^ 31 - 1 ≤ heap) (h2 : heap < 2 ^ 63) (ps : List Pick)
    {r : St × List (Nat × Nat)} (hr : rounds llp64 c heap b ps .init = some r) :
    r.2.length = ps.length ∧
      r.2.Pairwise (fun x y => addr c x.1 x.2 (c.size b) + c.size b ≤ addr c y.1 y.2 (c.size b) ∨
        addr c y.1 y.2 (c.size b) + c.size b ≤ addr c x.1 x.2 (c.size b)) ∧
      ∀ x ∈ r.2, x.1 ∈ r.1.mapped := by
  obtain ⟨g1, g2⟩ := rounds_reach heap b h1 h2 ps Reach.init hr
  obtain ⟨k1, k2⟩ := held_blocks_disjoint ok g1
  rw [List.append_nil] at k1 k2
  refine ⟨g2, ?_, fun x hx => ?_⟩
  · rw [List.pairwise_reverse, List.pairwise_map] at k1
    refine k1.imp fun {x y} h => ?_
    simp only [Held.start, Held.stop, Nat.add_mul, Nat.one_mul] at h
    unfold addr
    omega
  · exact (k2 ⟨x.1, x.2, b⟩ (by simp; exact hx)).1

/-- Five rounds with two blocks in a span: on Windows three spans, elsewhere one. -/
example : (rounds llp64 twoCfg (2 ^ 40) 0 [.fresh 7, .fail, .fresh 4, .fail, .fresh 9] .init).map (fun r => (r.2, r.1.mapped)) =
      some ([(7, 0), (7, 1), (4, 0), (4, 1), (9, 0)], [9, 4, 7]) ∧
    (rounds lp64 twoCfg (2 ^ 40) 0 [.fresh 7, .fail, .cached 0, .fail, .cached 0] .init).map (fun r => r.1.mapped) = some [7] := by
  decide +kernel

/-! ## Text from `mem_printf` -/

/-- Memory: the word at an address, if it is mapped. -/
abbrev Words := Nat → Option Nat

/-- What becomes of a block of the C library that is given to `rpfree`. -/
inductive Fate where
  /-- the program is ended by the read of `span->heap` -/
  | fault
  /-- nothing: the block is lost -/
  | lost
  /-- what lies at `span` is taken for the record of a span -/
  | wild (span : Nat)
  deriving DecidableEq, Repr

/-- The offset of `heap` in `span_t` (src/rpmalloc.c:559-594) with 64 bit pointers. -/
def heapOffset : Nat := 64

/-- `rpfree`, src/rpmalloc.c:2937-2949, of an address the allocator knows nothing about. -/
def rpfreeForeign (a : Plat) (w : Words) (p : Nat) : Fate :=
  let span := p / spanSize * spanSize
  if span = 0 ∨ p = 0 then .lost
  else match w (span + heapOffset) with
    | none => .fault
    | some heap => if isValid a p heap then .wild span else .lost

/-- `mem_printf`, src/arrays.c:951-967, where the text has `n` bytes and `vasprintf` of the C library has put it at `p`: what it returns (NULL
is `none`), and what is freed with `rpfree` at the end of the task. -/
def memPrintf (n p : Nat) : Option Nat × List Nat :=
  if 0 < n ∧ p ≠ 0 then (some p, [p]) else (none, [])

/-- **C220, the part that holds.**  The text is returned if it is not empty. -/
theorem printf_returns_partial (n p : Nat) (hp : p ≠ 0) : (memPrintf n p).1 = some p ↔ 0 < n := by
  unfold memPrintf
  by_cases h : 0 < n <;> simp [h, hp]

/-- **C220 is false of the code for an empty text**: NULL is returned, and the text is not freed. -/
theorem printf_empty (p : Nat) : memPrintf 0 p = (none, []) := rfl

/-- **C220 is false of the code, except on Windows**: what happens to the text at the end of the task depends on the word found 64 bytes
after the last multiple of 64 KiB; if that memory is not mapped the program ends, and whatever non-zero address is found there is followed. -/
theorem printf_foreign (w : Words) (n p : Nat) (hn : 0 < n) (hp : spanSize ≤ p) :
    (memPrintf n p).2 = [p] ∧
      (w (p / spanSize * spanSize + heapOffset) = none → rpfreeForeign lp64 w p = .fault) ∧
      (w (p / spanSize * spanSize + heapOffset) = some 0 → rpfreeForeign lp64 w p = .lost) ∧
      (∀ v, 0 < v → v < 2 ^ 63 - 1 → w (p / spanSize * spanSize + heapOffset) = some v →
        rpfreeForeign lp64 w p = .wild (p / spanSize * spanSize)) := by
  have hS : spanSize = 65536 := rfl
  have hne : ¬ (p / spanSize * spanSize = 0 ∨ p = 0) := by rw [hS] at hp ⊢; omega
  refine ⟨by unfold memPrintf; rw [if_pos ⟨hn, by omega⟩], fun h => ?_, fun h => ?_, fun v h1 h2 h => ?_⟩
  · simp only [rpfreeForeign]; rw [if_neg hne, h]
  · simp only [rpfreeForeign]; rw [if_neg hne, h]; simp [isValid]
  · simp only [rpfreeForeign]
    rw [if_neg hne, h]
    have hv : isValid lp64 p v = true := by
      have hlt : lp64.intptr v < (2 : Int) ^ (lp64.long - 1) - 1 := by
        rw [intptr_lp64, long_lp64]
        split <;> omega
      rw [not_or] at hne
      simp only [isValid, hne.1, hne.2, decide_eq_true_eq, false_or, not_or]
      exact ⟨by omega, by omega⟩
    simp only [hv, if_true]

example : rpfreeForeign lp64 (fun x => if x < 0x555555559000 then none else some 5) 0x5555555592a0 = .fault ∧
    rpfreeForeign lp64 (fun x => if x < 0x555555559000 then none else some 5) 0x5555555602a0 = .wild 0x555555560000 := by
  decide

end Verif.Rp
