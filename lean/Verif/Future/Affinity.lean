import Mathlib.Data.List.Basic
import Mathlib.Data.Nat.Find
import Mathlib.Tactic.Cases

/-!
# Threads bound to processors (`src/os_windows.c` 1307-1313, `src/os_unix.c` 829-877), C251

On Windows a mask is a word of the machine (64 bits), on macOS a 32 bit number; there the first processor of the mask becomes the "affinity tag" of the
thread: threads with equal tags are to share a cache, and 0 (`THREAD_AFFINITY_TAG_NULL`) means no affinity.

Shifts by the width of the type or more, and of 1 into the sign of an `int`, are undefined: `none`.
-/

namespace Verif.Future.Affinity

/-- `os_cpumask_set` on Windows, os_windows.c:1307-1309. -/
def winSet (mask : BitVec 64) (i : Nat) : Option (BitVec 64) := if i < 64 then some (mask ||| (1#64 <<< i)) else none

/-- `os_affinity` on Windows, os_windows.c:1311-1313.  `SetThreadAffinityMask` fails (the value here is then 1) unless the mask is not empty and has
processors of the machine only; otherwise the thread gets the mask. -/
def winAffinity (machine mask old : BitVec 64) : Nat × BitVec 64 :=
  if mask ≠ 0 ∧ mask &&& ~~~machine = 0 then (0, mask) else (1, old)

/-- `CPU_SET` on macOS, os_unix.c:829. -/
def macSet (mask : BitVec 32) (i : Nat) : Option (BitVec 32) := if i < 31 then some (mask ||| (1#32 <<< i)) else none

/-- The loop of `pthread_setaffinity_np` on macOS, os_unix.c:854-856 with 830; `cpu_size` is 4, so it looks at 32 numbers from `core` on. -/
def macFirst (mask : BitVec 32) : Nat → Nat → Option Nat
  | 0, core => some core
  | n + 1, core => if core < 31 then if mask.getLsbD core then some core else macFirst mask n (core + 1) else none

/-- `os_affinity` on macOS, os_unix.c:850-863 and 870-877: the value returned and the tag of the thread afterwards.  `works`: whether the system carries
out `thread_policy_set` (its result is not looked at). -/
def macAffinity (works : Bool) (old : Nat) (mask : BitVec 32) : Option (Nat × Nat) :=
  (macFirst mask 32 0).map fun core => (0, if works then core else old)

/-! ## Specification: a mask is a set of processors -/

def Has {w : Nat} (mask : BitVec w) (l : List Nat) : Prop := ∀ i, mask.getLsbD i = decide (i ∈ l)

/-! ## C251 -/

theorem getLsbD_set {w : Nat} (mask : BitVec w) (i j : Nat) (hi : i < w) :
    (mask ||| (BitVec.ofNat w 1 <<< i)).getLsbD j = (mask.getLsbD j || decide (j = i)) := by
  rw [BitVec.getLsbD_or, BitVec.getLsbD_shiftLeft]
  congr 1
  by_cases hj : j = i
  · subst hj
    have : 0 < w := by omega
    simp [hi, this]
  · by_cases h1 : j < i
    · simp [h1, hj]
    · have h2 : j - i ≠ 0 := by omega
      have : (BitVec.ofNat w 1).getLsbD (j - i) = false := by
        rw [BitVec.getLsbD_ofNat]
        have : Nat.testBit 1 (j - i) = false := by
          rw [← Bool.not_eq_true, Nat.testBit_one_eq_true_iff_self_eq_zero]; exact h2
        simp [this]
      simp [this, hj]

theorem set_all {w b : Nat} (hb : b ≤ w) (set : BitVec w → Nat → Option (BitVec w))
    (hset : ∀ m i, set m i = if i < b then some (m ||| (BitVec.ofNat w 1 <<< i)) else none) (l : List Nat) (hl : ∀ i ∈ l, i < b) :
    ∀ (m : BitVec w) (k : List Nat), Has m k → ∃ m', l.foldlM set m = some m' ∧ Has m' (k ++ l) := by
  induction l with
  | nil => intro m k h; exact ⟨m, rfl, by simpa using h⟩
  | cons i l ih =>
    intro m k h
    have hi : i < b := hl i (by simp)
    obtain ⟨m', h1, h2⟩ := ih (fun j hj => hl j (List.mem_cons_of_mem _ hj)) (m ||| (BitVec.ofNat w 1 <<< i)) (k ++ [i]) (by
      intro j
      rw [getLsbD_set m i j (by omega), h j]
      simp [List.mem_append, Bool.decide_or])
    refine ⟨m', ?_, by simpa [List.append_assoc] using h2⟩
    rw [List.foldlM_cons, hset, if_pos hi]
    exact h1

/-- On Windows: for every list of processors below 64 the mask is exactly that set, and a thread is bound to it exactly if the set is not empty and all its
processors exist; otherwise it keeps what it had and the value is not 0. -/
theorem windows_bound_partial (l : List Nat) (hl : ∀ i ∈ l, i < 64) (machine old : BitVec 64) :
    ∃ mask, l.foldlM winSet 0#64 = some mask ∧ Has mask l ∧
      ((l ≠ [] ∧ ∀ i ∈ l, machine.getLsbD i = true) → winAffinity machine mask old = (0, mask)) ∧
      (¬ (l ≠ [] ∧ ∀ i ∈ l, machine.getLsbD i = true) → winAffinity machine mask old = (1, old)) := by
  obtain ⟨mask, h1, h2⟩ := set_all (w := 64) (b := 64) (by omega) winSet (fun _ _ => rfl) l hl 0#64 [] (by intro i; simp)
  rw [List.nil_append] at h2
  have hz : mask ≠ 0 ↔ l ≠ [] := by
    constructor
    · intro hm hl0
      apply hm
      apply BitVec.eq_of_getLsbD_eq
      intro i _
      rw [h2 i, hl0]; simp
    · intro hl0 hm
      obtain ⟨i, hi⟩ := List.exists_mem_of_ne_nil l hl0
      have := h2 i
      rw [hm] at this
      simp [hi] at this
  have hs : mask &&& ~~~machine = 0 ↔ ∀ i ∈ l, machine.getLsbD i = true := by
    constructor
    · intro h i hi
      have e : (mask &&& ~~~machine).getLsbD i = false := by rw [h]; simp
      rw [BitVec.getLsbD_and, h2 i, BitVec.getLsbD_not] at e
      simpa [hi, hl i hi] using e
    · intro h
      apply BitVec.eq_of_getLsbD_eq
      intro i _
      rw [BitVec.getLsbD_and, h2 i, BitVec.getLsbD_not]
      by_cases hi : i ∈ l
      · simp [hi, h i hi]
      · simp [hi]
  refine ⟨mask, h1, h2, fun h => ?_, fun h => ?_⟩
  · rw [winAffinity, if_pos ⟨hz.2 h.1, hs.2 h.2⟩]
  · rw [winAffinity, if_neg (fun hc => h ⟨hz.1 hc.1, hs.1 hc.2⟩)]

example : (∀ i ∈ [3, 0, 63], i < 64) ∧ ([3, 0, 63] : List Nat).foldlM winSet 0#64 = some 0x8000000000000009#64 := by decide

theorem set_far {w b : Nat} (set : BitVec w → Nat → Option (BitVec w))
    (hset : ∀ m i, b ≤ i → set m i = none) (l : List Nat) (i : Nat) (hi : i ∈ l) (hb : b ≤ i) : ∀ m, l.foldlM set m = none := by
  induction l with
  | nil => simp at hi
  | cons j l ih =>
    intro m
    rw [List.foldlM_cons]
    rcases List.mem_cons.1 hi with rfl | h
    · rw [hset m i hb]; rfl
    · cases set m j with
      | none => rfl
      | some m' => exact ih h m'

/-- Processors from 64 on (Windows), or 31 on (macOS), cannot be named: any sequence of calls with one of them is undefined. -/
theorem far_processors (l : List Nat) (i : Nat) (hi : i ∈ l) (m : BitVec 64) (k : BitVec 32) :
    (64 ≤ i → l.foldlM winSet m = none) ∧ (31 ≤ i → l.foldlM macSet k = none) :=
  ⟨fun h => set_far winSet (fun m i h => by rw [winSet, if_neg (by omega)]) l i hi h m,
    fun h => set_far macSet (fun m i h => by rw [macSet, if_neg (by omega)]) l i hi h k⟩

example : 64 ∈ [1, 64] ∧ [1, 64].foldlM winSet 0#64 = none := by decide

theorem macFirst_min (mask : BitVec 32) (x : Nat) (hx : mask.getLsbD x = true) (h31 : x < 31) (hmin : ∀ j < x, mask.getLsbD j = false) :
    ∀ (d core : Nat), core + d = x → ∀ n, d < n → macFirst mask n core = some x := by
  intro d
  induction d with
  | zero =>
    intro core hc n hn
    obtain ⟨n, rfl⟩ : ∃ k, n = k + 1 := ⟨n - 1, by omega⟩
    have : core = x := by omega
    subst this
    simp [macFirst, h31, hx]
  | succ d ih =>
    intro core hc n hn
    obtain ⟨n, rfl⟩ : ∃ k, n = k + 1 := ⟨n - 1, by omega⟩
    simp only [macFirst]
    rw [if_pos (by omega), if_neg (by rw [hmin core (by omega)]; simp)]
    exact ih (core + 1) (by omega) n (by omega)

/-- On macOS, for every list of processors below 31 that is not empty: the mask is that set, but the thread only gets the smallest number as tag, and the value is 0 also
if the system refused. -/
theorem mac_only_first_partial (l : List Nat) (hl : ∀ i ∈ l, i < 31) (x : Nat) (hx : x ∈ l) (hmin : ∀ i ∈ l, x ≤ i)
    (works : Bool) (old : Nat) :
    ∃ mask, l.foldlM macSet 0#32 = some mask ∧ Has mask l ∧ macAffinity works old mask = some (0, if works then x else old) := by
  obtain ⟨mask, h1, h2⟩ := set_all (w := 32) (b := 31) (by omega) macSet (fun _ _ => rfl) l hl 0#32 [] (by intro i; simp)
  rw [List.nil_append] at h2
  refine ⟨mask, h1, h2, ?_⟩
  rw [macAffinity, macFirst_min mask x (by rw [h2 x]; simp [hx]) (hl x hx) (fun j hj => by
    rw [h2 j]
    simp only [decide_eq_false_iff_not]
    intro hm
    have := hmin j hm
    omega) x 0 (by omega) 32 (by have := hl x hx; omega)]
  rfl

example : ([4, 2, 30] : List Nat).foldlM macSet 0#32 = some 0x40000014#32 ∧ macAffinity true 9 0x40000014#32 = some (0, 2) := by decide

/-- So threads bound to different processors can get equal tags, and a thread bound to the first processor gets none. -/
theorem mac_sets_confused (x y z : Nat) (hx : x < y) (hy : y < z) (hz : z < 31) (old : Nat) :
    (∃ m k, [x, y].foldlM macSet 0#32 = some m ∧ [x, z].foldlM macSet 0#32 = some k ∧ m ≠ k ∧ macAffinity true old m = macAffinity true old k) ∧
      ∃ m, [0].foldlM macSet 0#32 = some m ∧ macAffinity true old m = some (0, 0) := by
  obtain ⟨m, a1, a2, a3⟩ := mac_only_first_partial [x, y] (by simp; omega) x (by simp) (by simp; omega) true old
  obtain ⟨k, b1, b2, b3⟩ := mac_only_first_partial [x, z] (by simp; omega) x (by simp) (by simp; omega) true old
  obtain ⟨m0, c1, -, c3⟩ := mac_only_first_partial [0] (by simp) 0 (by simp) (by simp) true old
  refine ⟨⟨m, k, a1, b1, ?_, by rw [a3, b3]⟩, m0, c1, c3⟩
  intro h
  have h1 := a2 y
  rw [h, b2 y] at h1
  have : y ≠ x := by omega
  have : y ≠ z := by omega
  simp_all

/-- With an empty mask the loop runs into the sign. -/
theorem mac_empty_mask (works : Bool) (old : Nat) : macAffinity works old 0#32 = none := by
  have : macFirst 0#32 32 0 = none := by decide
  rw [macAffinity, this]; rfl

end Verif.Future.Affinity
