import Mathlib.Tactic.Ring
import Mathlib.Tactic.Tauto

/-!
# The atomic operations of the library where the compiler is Microsoft's (C235)

`include/catomics.h` gives its own `atomic_…` macros.  For Microsoft's compiler on 64-bit Windows
(262-410, the `#else` branches of 287 and 326, `ATOMIC_HAS_32` not defined) `atomic_store`,
`atomic_load`, `atomic_exchange`, `atomic_fetch_add/sub/and/or/xor` and
`atomic_compare_exchange_…` all call the `_Interlocked…64` function after casting the address to
`atomic_llong *`; the size of the object plays no part.  The `…_32` macros use the 32-bit functions
and the flag macros the 8-bit ones.

Memory is a function from addresses to bytes, little endian.  One interlocked function is one step,
so what several threads do is a list of steps in some order.

Simplified: `long long` values are taken as natural numbers below `2 ^ 64` (two's complement);
memory order arguments have no effect in this branch (every function is a full barrier).
-/

namespace Verif.Win.Atomics

/-- Memory. -/
abbrev Mem := Nat → UInt8

/-- The value of the `n` bytes at `a`, little endian. -/
def rd : Nat → Nat → Mem → Nat
  | 0, _, _ => 0
  | n + 1, a, m => (m a).toNat + 256 * rd n (a + 1) m

/-- Writing the low `n` bytes of `v` at `a`, little endian. -/
def wr : Nat → Nat → Nat → Mem → Mem
  | 0, _, _, m => m
  | n + 1, a, v, m => Function.update (wr n (a + 1) (v / 256) m) a (UInt8.ofNat v)

/-- The macros of `include/catomics.h` with their operands: 64 bit 346-383 and 391-409, 32 bit
303-325 and 401, flags 385-390.  `cas` is `atomic_compare_exchange_strong/weak`; its first operand is
the address of the expected value. -/
inductive Macro
  | store (v : Nat)
  | load
  | exchange (v : Nat)
  | fetchAdd (v : Nat)
  | fetchSub (v : Nat)
  | fetchAnd (v : Nat)
  | fetchOr (v : Nat)
  | fetchXor (v : Nat)
  | cas (e : Nat) (v : Nat)
  | store32 (v : Nat)
  | load32
  | fetchAdd32 (v : Nat)
  | cas32 (e : Nat) (v : Nat)
  | flagSet
  | flagLoad
  | flagClear
  deriving DecidableEq

/-- Bytes the function behind the macro reads and writes: `_InterlockedExchange64`,
`_InterlockedCompareExchange64`, `_InterlockedExchangeAdd64`, `_InterlockedAnd64/Or64/Xor64`
(347-383: 8 bytes), `_InterlockedExchange`, `_InterlockedExchangeAdd`, `_InterlockedCompareExchange`
(303-325: 4 bytes), `_InterlockedExchange8`, `_InterlockedCompareExchange8` (386-390: 1 byte). -/
def width : Macro → Nat
  | .store _ | .load | .exchange _ | .fetchAdd _ | .fetchSub _ | .fetchAnd _ | .fetchOr _
  | .fetchXor _ | .cas _ _ => 8
  | .store32 _ | .load32 | .fetchAdd32 _ | .cas32 _ _ => 4
  | .flagSet | .flagLoad | .flagClear => 1

/-- `_InterlockedCompareExchange` of width `w` as used by `__atomic_compare_exchange_strong_explicit`
(`include/catomics.h` 362-370) and `__atomic_compare_exchange_strong_32` (313-320): `*cmp` is read
first, and written with what was found when that differs. -/
def casStep (w a e v : Nat) (m : Mem) : Nat × Mem :=
  if rd w a m = rd w e m then (1, wr w a v m) else (0, wr w e (rd w a m) m)

/-- `_InterlockedCompareExchange` with 0 and 0, which is how a value is loaded
(`include/catomics.h` 308-311, 347-350, 388). -/
def loadStep (w a : Nat) (m : Mem) : Nat × Mem :=
  if rd w a m = 0 then (rd w a m, wr w a 0 m) else (rd w a m, m)

/-- What a macro used on the object at `a` returns and leaves in memory
(`include/catomics.h` 269-410). -/
def run (x : Macro) (a : Nat) (m : Mem) : Nat × Mem :=
  match x with
  | .store v => (0, wr 8 a v m)
  | .load => loadStep 8 a m
  | .exchange v => (rd 8 a m, wr 8 a v m)
  | .fetchAdd v => (rd 8 a m, wr 8 a (rd 8 a m + v) m)
  | .fetchSub v => (rd 8 a m, wr 8 a (rd 8 a m + (2 ^ 64 - v % 2 ^ 64)) m)
  | .fetchAnd v => (rd 8 a m, wr 8 a (rd 8 a m &&& v) m)
  | .fetchOr v => (rd 8 a m, wr 8 a (rd 8 a m ||| v) m)
  | .fetchXor v => (rd 8 a m, wr 8 a (rd 8 a m ^^^ v) m)
  | .cas e v => casStep 8 a e v m
  | .store32 v => (0, wr 4 a v m)
  | .load32 => loadStep 4 a m
  | .fetchAdd32 v => (rd 4 a m, wr 4 a (rd 4 a m + v) m)
  | .cas32 e v => casStep 4 a e v m
  | .flagSet => (rd 1 a m, wr 1 a 1 m)
  | .flagLoad => loadStep 1 a m
  | .flagClear => (rd 1 a m, wr 1 a 0 m)

/-! ## What the names promise -/

/-- What a macro should return and leave in an object holding `old`, whose values wrap at `cap`;
`ex` is the expected value of a compare-and-exchange. -/
def meant (cap old ex : Nat) : Macro → Nat × Nat
  | .store v | .store32 v => (0, v % cap)
  | .load | .load32 | .flagLoad => (old, old)
  | .exchange v => (old, v % cap)
  | .fetchAdd v | .fetchAdd32 v => (old, (old + v) % cap)
  | .fetchSub v => (old, (old + (cap - v % cap)) % cap)
  | .fetchAnd v => (old, Nat.land old v % cap)
  | .fetchOr v => (old, Nat.lor old v % cap)
  | .fetchXor v => (old, Nat.xor old v % cap)
  | .cas _ v | .cas32 _ v => if old = ex then (1, v % cap) else (0, old)
  | .flagSet => (old, 1)
  | .flagClear => (old, 0)

/-- The address of the expected value of a compare-and-exchange. -/
def expected : Macro → Option Nat
  | .cas e _ | .cas32 e _ => some e
  | _ => none

/-! ## Reading and writing -/

theorem rd_lt (n a : Nat) (m : Mem) : rd n a m < 256 ^ n := by
  induction n generalizing a with
  | zero => simp [rd]
  | succ n ih =>
    have h1 := ih (a + 1)
    have h2 : (m a).toNat < 256 := (m a).toNat_lt
    rw [rd, Nat.pow_succ]
    omega

theorem wr_frame (n a v : Nat) (m : Mem) (i : Nat) (h : i < a ∨ a + n ≤ i) :
    wr n a v m i = m i := by
  induction n generalizing a v with
  | zero => rfl
  | succ n ih =>
    rw [wr, Function.update_of_ne (by omega)]
    exact ih (a + 1) (v / 256) (by omega)

theorem rd_congr (n a : Nat) (m m' : Mem) (h : ∀ i, a ≤ i → i < a + n → m i = m' i) :
    rd n a m = rd n a m' := by
  induction n generalizing a with
  | zero => rfl
  | succ n ih =>
    rw [rd, rd, h a (Nat.le_refl a) (by omega),
      ih (a + 1) (fun i h1 h2 => h i (by omega) (by omega))]

theorem rd_wr (n a v : Nat) (m : Mem) : rd n a (wr n a v m) = v % 256 ^ n := by
  induction n generalizing a v with
  | zero => simp [rd, Nat.mod_one]
  | succ n ih =>
    have h1 : rd n (a + 1) (wr (n + 1) a v m) = rd n (a + 1) (wr n (a + 1) (v / 256) m) := by
      apply rd_congr
      intro i h1 _
      rw [wr, Function.update_of_ne (by omega)]
    rw [rd, h1, ih, wr, Function.update_self, UInt8.toNat_ofNat',
      show 256 ^ (n + 1) = 256 * 256 ^ n by rw [Nat.pow_succ, Nat.mul_comm], Nat.mod_mul]

theorem wr_rd (n a : Nat) (m : Mem) : wr n a (rd n a m) m = m := by
  induction n generalizing a with
  | zero => rfl
  | succ n ih =>
    have h2 : (m a).toNat < 256 := (m a).toNat_lt
    have hd : rd (n + 1) a m / 256 = rd n (a + 1) m := by rw [rd]; omega
    rw [wr, hd, ih (a + 1)]
    funext i
    by_cases hi : i = a
    · subst hi
      rw [Function.update_self]
      apply UInt8.toNat_inj.1
      rw [UInt8.toNat_ofNat', rd]
      omega
    · rw [Function.update_of_ne hi]

theorem loadStep_eq (w a : Nat) (m : Mem) : loadStep w a m = (rd w a m, m) := by
  unfold loadStep
  split
  · rename_i h
    have := wr_rd w a m
    rw [h] at this
    rw [this, h]
  · rfl

/-- Splitting a read. -/
theorem rd_add (n k a : Nat) (m : Mem) :
    rd (n + k) a m = rd n a m + 256 ^ n * rd k (a + n) m := by
  induction n generalizing a with
  | zero => simp [rd]
  | succ n ih =>
    rw [show n + 1 + k = (n + k) + 1 by omega, rd, ih (a + 1), rd, Nat.pow_succ,
      show a + 1 + n = a + (n + 1) by omega]
    ring

theorem pow8 : (256 : Nat) ^ 8 = 2 ^ 64 := by norm_num

/-! ## C235 -/

/-- Used on an object of the size the macro was written for, every macro returns and leaves in the
object what its name says, and touches no byte outside the object and, for a compare-and-exchange
that fails, the expected value, which is then what was found. -/
theorem right_size_partial (x : Macro) (a : Nat) (m : Mem)
    (hd : ∀ e, expected x = some e → e + width x ≤ a ∨ a + width x ≤ e) :
    let ex := match expected x with
      | some e => rd (width x) e m
      | none => 0
    (run x a m).1 = (meant (256 ^ width x) (rd (width x) a m) ex x).1 ∧
    rd (width x) a (run x a m).2 = (meant (256 ^ width x) (rd (width x) a m) ex x).2 ∧
    (∀ i, (i < a ∨ a + width x ≤ i) →
      (∀ e, expected x = some e → i < e ∨ e + width x ≤ i) → (run x a m).2 i = m i) ∧
    (∀ e, expected x = some e →
      rd (width x) e (run x a m).2 =
        if rd (width x) a m = rd (width x) e m then rd (width x) e m else rd (width x) a m) := by
  have key : ∀ w, ∀ e v, (e + w ≤ a ∨ a + w ≤ e) →
      let r := casStep w a e v m
      let mt := if rd w a m = rd w e m then (1, v % 256 ^ w) else (0, rd w a m)
      r.1 = mt.1 ∧ rd w a r.2 = mt.2 ∧
      (∀ i, (i < a ∨ a + w ≤ i) → (i < e ∨ e + w ≤ i) → r.2 i = m i) ∧
      rd w e r.2 = if rd w a m = rd w e m then rd w e m else rd w a m := by
    intro w e v hd
    dsimp only
    unfold casStep
    by_cases hc : rd w a m = rd w e m
    · rw [if_pos hc, if_pos hc]
      refine ⟨rfl, rd_wr _ _ _ _, fun i h1 _ => wr_frame _ _ _ _ _ h1, ?_⟩
      rw [if_pos hc]
      exact rd_congr _ _ _ _ (fun i h1 h2 => wr_frame _ _ _ _ _ (by omega))
    · rw [if_neg hc, if_neg hc]
      refine ⟨rfl, ?_, fun i _ h2 => wr_frame _ _ _ _ _ h2, ?_⟩
      · exact rd_congr _ _ _ _ (fun i h1 h2 => wr_frame _ _ _ _ _ (by omega))
      · rw [if_neg hc, rd_wr]
        exact Nat.mod_eq_of_lt (rd_lt _ _ _)
  cases x with
  | cas e v =>
    have hk := key 8 e v (hd e rfl)
    simp only [run, width, meant, expected] at hk ⊢
    obtain ⟨h1, h2, h3, h4⟩ := hk
    refine ⟨h1, h2, fun i hi he => h3 i hi (he e rfl), ?_⟩
    intro e' he'
    cases he'
    exact h4
  | cas32 e v =>
    have hk := key 4 e v (hd e rfl)
    simp only [run, width, meant, expected] at hk ⊢
    obtain ⟨h1, h2, h3, h4⟩ := hk
    refine ⟨h1, h2, fun i hi he => h3 i hi (he e rfl), ?_⟩
    intro e' he'
    cases he'
    exact h4
  | load => exact ⟨by simp [run, loadStep_eq, meant, width], by simp [run, loadStep_eq, meant, width],
      fun i _ _ => by simp [run, loadStep_eq], fun e h => by cases h⟩
  | load32 => exact ⟨by simp [run, loadStep_eq, meant, width], by simp [run, loadStep_eq, meant, width],
      fun i _ _ => by simp [run, loadStep_eq], fun e h => by cases h⟩
  | flagLoad => exact ⟨by simp [run, loadStep_eq, meant, width],
      by simp [run, loadStep_eq, meant, width], fun i _ _ => by simp [run, loadStep_eq],
      fun e h => by cases h⟩
  | fetchSub v =>
    refine ⟨rfl, ?_, fun i h _ => wr_frame _ _ _ _ _ h, fun e h => by cases h⟩
    show rd 8 a (wr 8 a (rd 8 a m + (2 ^ 64 - v % 2 ^ 64)) m) =
      (rd 8 a m + (256 ^ 8 - v % 256 ^ 8)) % 256 ^ 8
    rw [rd_wr, pow8]
  | flagSet => exact ⟨rfl, rd_wr _ _ _ _, fun i h _ => wr_frame _ _ _ _ _ h, fun e h => by cases h⟩
  | flagClear => exact ⟨rfl, rd_wr _ _ _ _, fun i h _ => wr_frame _ _ _ _ _ h, fun e h => by cases h⟩
  | _ => exact ⟨rfl, rd_wr _ _ _ _, fun i h _ => wr_frame _ _ _ _ _ h, fun e h => by cases h⟩

/-- The hypothesis can be met by a compare-and-exchange. -/
example : ∀ e, expected (.cas 16 7) = some e → e + width (.cas 16 7) ≤ 0 ∨ 0 + width (.cas 16 7) ≤ e := by
  intro e h; cases h; decide

/-- Several threads' steps, in the order in which they happen: each entry is a macro used on the
object with that number, objects of 8 bytes lying one after another from `base`. -/
def steps (base : Nat) : List (Nat × Macro) → Mem → Mem
  | [], m => m
  | (k, x) :: l, m => steps base l (run x (base + 8 * k) m).2

/-- What the steps aimed at object `k` make of its value, the others left out. -/
def cell (k : Nat) : List (Nat × Macro) → Nat → Nat
  | [], v => v
  | (j, x) :: l, v => cell k l (if j = k then (meant (2 ^ 64) v 0 x).2 else v)

/-- Objects of 8 bytes do not disturb one another: whatever the steps and their order, the value of
each object is what its own steps make of it.  `_partial`: only for objects of 8 bytes, see
`four_byte_store_overwrites`; compare-and-exchange is left to `right_size_partial`. -/
theorem cells_independent_partial (base : Nat) (l : List (Nat × Macro)) (m : Mem)
    (hw : ∀ p ∈ l, width p.2 = 8 ∧ expected p.2 = none) (k : Nat) :
    rd 8 (base + 8 * k) (steps base l m) = cell k l (rd 8 (base + 8 * k) m) := by
  induction l generalizing m with
  | nil => rfl
  | cons p l ih =>
    obtain ⟨j, x⟩ := p
    obtain ⟨h8, hn⟩ := hw (j, x) (by simp)
    have hr := right_size_partial x (base + 8 * j) m (fun e h => by simp_all)
    simp only [h8, hn, pow8] at hr
    obtain ⟨-, h2, h3, -⟩ := hr
    rw [steps, cell, ih _ (fun p hp => hw p (by simp [hp]))]
    by_cases hj : j = k
    · rw [if_pos hj]
      subst hj
      rw [h2]
    · rw [if_neg hj, rd_congr 8 (base + 8 * k) (run x (base + 8 * j) m).2 m
        (fun i h1 h2 => h3 i (by omega) (fun e h => by cases h))]

example : ∀ p ∈ [(0, Macro.store 5), (1, Macro.fetchAdd 3), (0, Macro.fetchSub 1)],
    width p.2 = 8 ∧ expected p.2 = none := by decide

/-- False in general: `atomic_store`, `atomic_exchange` or `atomic_fetch_and` with a value of at most
32 bits on an object of 4 bytes (`atomic_int`, `atomic_uint`, `atomic_long`) sets the four bytes after
the object to 0, whatever they belong to. -/
theorem four_byte_store_overwrites (v : Nat) (hv : v < 2 ^ 32) (x : Macro)
    (hx : x = .store v ∨ x = .exchange v ∨ x = .fetchAnd v) (a : Nat) (m : Mem) :
    rd 4 (a + 4) (run x a m).2 = 0 := by
  have key : ∀ u, u < 2 ^ 32 → rd 4 (a + 4) (wr 8 a u m) = 0 := by
    intro u hu
    have h1 := rd_add 4 4 a (wr 8 a u m)
    rw [rd_wr 8 a u m] at h1
    norm_num at h1 hu
    omega
  rcases hx with rfl | rfl | rfl
  · exact key v hv
  · exact key v hv
  · exact key _ (lt_of_le_of_lt Nat.and_le_right hv)

/-- A counter of 4 bytes that wraps adds one to the four bytes after it. -/
theorem four_byte_add_carries (v a : Nat) (m : Mem) (hv : v < 2 ^ 32) :
    rd 4 (a + 4) (run (.fetchAdd v) a m).2 =
      (rd 4 (a + 4) m + (if 2 ^ 32 ≤ rd 4 a m + v then 1 else 0)) % 2 ^ 32 := by
  have h0 := rd_add 4 4 a m
  have h1 := rd_add 4 4 a (wr 8 a (rd 8 a m + v) m)
  rw [rd_wr 8 a _ m] at h1
  have h2 := rd_lt 4 a m
  have h3 := rd_lt 4 (a + 4) m
  have h4 := rd_lt 4 a (wr 8 a (rd 8 a m + v) m)
  have h5 := rd_lt 4 (a + 4) (wr 8 a (rd 8 a m + v) m)
  show rd 4 (a + 4) (wr 8 a (rd 8 a m + v) m) = _
  norm_num at h0 h1 h2 h3 h4 h5 hv ⊢
  split <;> omega

/-- A counter of 4 bytes that goes from 0 to -1 takes one from the four bytes after it. -/
theorem four_byte_sub_borrows (a : Nat) (m : Mem) (h0 : rd 4 a m = 0) (hn : 0 < rd 4 (a + 4) m) :
    rd 4 (a + 4) (run (.fetchSub 1) a m).2 = rd 4 (a + 4) m - 1 := by
  have h1 := rd_add 4 4 a m
  have h2 := rd_add 4 4 a (wr 8 a (rd 8 a m + (2 ^ 64 - 1 % 2 ^ 64)) m)
  rw [rd_wr 8 a _ m] at h2
  have h3 := rd_lt 4 (a + 4) m
  have h4 := rd_lt 4 a (wr 8 a (rd 8 a m + (2 ^ 64 - 1 % 2 ^ 64)) m)
  have h5 := rd_lt 4 (a + 4) (wr 8 a (rd 8 a m + (2 ^ 64 - 1 % 2 ^ 64)) m)
  show rd 4 (a + 4) (wr 8 a (rd 8 a m + (2 ^ 64 - 1 % 2 ^ 64)) m) = _
  norm_num at h1 h2 h3 h4 h5 ⊢
  omega

/-- The low half of what is loaded is the value of the object of 4 bytes, so a load assigned to an
`int` is right; but the loaded value itself is 0 only if the four bytes after the object are 0 as
well. -/
theorem four_byte_load (a : Nat) (m : Mem) :
    (run .load a m).1 % 2 ^ 32 = rd 4 a m ∧
    ((run .load a m).1 = 0 ↔ rd 4 a m = 0 ∧ rd 4 (a + 4) m = 0) ∧ (run .load a m).2 = m := by
  have h0 := rd_add 4 4 a m
  have h2 := rd_lt 4 a m
  have hr : run .load a m = (rd 8 a m, m) := loadStep_eq 8 a m
  rw [hr]
  norm_num at h0 h2 ⊢
  omega

/-- A compare-and-exchange on an object of 4 bytes: it fails though the object holds the expected
value whenever the bytes after the two differ, and then overwrites the four bytes after the expected
value, usually a local variable of the caller. -/
theorem four_byte_cas_fails (a e v : Nat) (m : Mem) (_heq : rd 4 a m = rd 4 e m)
    (hn : rd 4 (a + 4) m ≠ rd 4 (e + 4) m) :
    (run (.cas e v) a m).1 = 0 ∧
    rd 4 (e + 4) (run (.cas e v) a m).2 = rd 4 (a + 4) m := by
  have h0 := rd_add 4 4 a m
  have h1 := rd_add 4 4 e m
  have hne : rd 8 a m ≠ rd 8 e m := by
    intro h
    norm_num at h0 h1
    omega
  have hr : run (.cas e v) a m = (0, wr 8 e (rd 8 a m) m) := by
    show casStep 8 a e v m = _
    rw [casStep, if_neg hne]
  rw [hr]
  refine ⟨rfl, ?_⟩
  have h2 := rd_add 4 4 e (wr 8 e (rd 8 a m) m)
  rw [rd_wr] at h2
  have h3 := rd_lt 4 a m
  have h4 := rd_lt 4 (a + 4) m
  have h5 := rd_lt 4 e (wr 8 e (rd 8 a m) m)
  norm_num at h0 h2 h3 h4 h5 ⊢
  omega

/-- A memory for the examples: 7 in the object at 0, 9 after it, 7 expected at 100. -/
def sample : Mem := fun i => if i = 0 then 7 else if i = 4 then 9 else if i = 100 then 7 else 0

example : rd 4 0 sample = rd 4 100 sample ∧ rd 4 (0 + 4) sample ≠ rd 4 (100 + 4) sample := by
  decide
example : rd 4 8 sample = 0 ∧ 0 < rd 4 0 sample := by decide
example : rd 4 1 sample = 0x9000000 := by decide
example : rd 4 (0 + 4) (run (.store 1) 0 sample).2 = 0 ∧ rd 4 (0 + 4) sample = 9 := by decide
example : rd 4 96 sample = 0 ∧ 0 < rd 4 (96 + 4) sample := by decide

end Verif.Win.Atomics
