import Verif.Str.Misc
import Verif.Str.MiscSpec
import Mathlib.Data.List.TakeWhile

/-!
# Numbers in text: `strtoul` with base 0, and the `%u` of `sscanf`

Both are library functions; the model follows the C standard and glibc on a 64-bit machine: `unsigned long` has 64 bits, a value that does not
fit becomes `ULONG_MAX`, and `%u` stores the low 32 bits.  Simplified: the `0b` prefix of C23 is not modelled.
-/

namespace Verif.Io.Num
open Verif.Str

/-- The value of a digit; 36 for other bytes. -/
def digitVal (c : UInt8) : Nat :=
  if 48 ≤ c.toNat ∧ c.toNat ≤ 57 then c.toNat - 48
  else if 97 ≤ c.toNat ∧ c.toNat ≤ 122 then c.toNat - 87
  else if 65 ≤ c.toNat ∧ c.toNat ≤ 90 then c.toNat - 55
  else 36

def isDigit (base : Nat) (c : UInt8) : Bool := digitVal c < base

def numVal (base : Nat) (ds : Bytes) : Nat := ds.foldl (fun acc c => acc * base + digitVal c) 0

/-- Optional sign. -/
def sign : Bytes → Bool × Bytes
  | 45 :: l => (true, l)
  | 43 :: l => (false, l)
  | l => (false, l)

/-- The value of `unsigned long` for a magnitude and a sign. -/
def clamp (neg : Bool) (v : Nat) : Nat :=
  if 2 ^ 64 ≤ v then 2 ^ 64 - 1 else if neg then (2 ^ 64 - v) % 2 ^ 64 else v

/-- The base found by `strtoul` with base 0, and where the digits begin. -/
def detect : Bytes → Nat × Bytes
  | 48 :: x :: h :: l => if (x = 120 ∨ x = 88) ∧ isDigit 16 h then (16, h :: l) else (8, 48 :: x :: h :: l)
  | 48 :: l => (8, 48 :: l)
  | l => (10, l)

/-- `strtoul(l, &end, 0)`: the value and the text at `end`. -/
def strtoul0 (l : Bytes) : Nat × Bytes :=
  let (neg, l1) := sign (l.dropWhile isSpace)
  let (base, l2) := detect l1
  let ds := l2.takeWhile (isDigit base)
  if ds = [] then (0, l) else (clamp neg (numVal base ds), l2.dropWhile (isDigit base))

/-- `%u` of `sscanf`: the value stored and the rest of the input, or a matching failure. -/
def scanU (l : Bytes) : Option (Nat × Bytes) :=
  let (neg, l1) := sign (l.dropWhile isSpace)
  let ds := l1.takeWhile (isDigit 10)
  if ds = [] then none else some (clamp neg (numVal 10 ds) % 2 ^ 32, l1.dropWhile (isDigit 10))

/-- A literal character of the format. -/
def lit (c : UInt8) : Bytes → Option Bytes
  | x :: l => if x = c then some l else none
  | [] => none

/-! ## Specification: strings of decimal digits -/

/-- A non-empty string of decimal digits. -/
def Digits (s : Bytes) : Prop := s ≠ [] ∧ ∀ c ∈ s, 48 ≤ c.toNat ∧ c.toNat ≤ 57

/-- The text after a number does not go on with a digit. -/
def Ends (l : Bytes) : Prop := ∀ c, l.head? = some c → ¬ (48 ≤ c.toNat ∧ c.toNat ≤ 57)

instance (s : Bytes) : Decidable (Digits s) := by unfold Digits; infer_instance

theorem digitVal_dec {c : UInt8} (h : 48 ≤ c.toNat ∧ c.toNat ≤ 57) : digitVal c = c.toNat - 48 := by
  unfold digitVal; rw [if_pos h]

theorem isDigit10_iff (c : UInt8) : isDigit 10 c = true ↔ 48 ≤ c.toNat ∧ c.toNat ≤ 57 := by
  unfold isDigit digitVal
  simp only [decide_eq_true_eq]
  split
  · omega
  · split
    · omega
    · split <;> omega

theorem foldl_dec : ∀ (s : Bytes) (a : Nat), (∀ c ∈ s, 48 ≤ c.toNat ∧ c.toNat ≤ 57) →
    s.foldl (fun acc c => acc * 10 + digitVal c) a = s.foldl (fun acc c => acc * 10 + (c.toNat - 48)) a
  | [], _, _ => rfl
  | c :: s, a, h => by
    simp only [List.foldl_cons]
    rw [digitVal_dec (h c (List.mem_cons_self ..))]
    exact foldl_dec s _ fun x hx => h x (List.mem_cons_of_mem _ hx)

theorem numVal_dec {s : Bytes} (h : Digits s) : numVal 10 s = decValue s := foldl_dec s 0 h.2

theorem toNat_lit {c : UInt8} {n : Nat} (h : c.toNat = n) : c = UInt8.ofNat n := by
  rw [← h]; simp

theorem not_space_digit {c : UInt8} (h : 48 ≤ c.toNat ∧ c.toNat ≤ 57) : isSpace c = false := by
  unfold isSpace
  simp only [Bool.or_eq_false_iff, decide_eq_false_iff_not, Bool.and_eq_false_iff]
  refine ⟨?_, .inr ?_⟩
  · rintro rfl; revert h; decide
  · rw [UInt8.le_iff_toNat_le]
    simp only [UInt8.reduceToNat]
    omega

theorem dropWhile_digits {s : Bytes} (h : Digits s) (r : Bytes) : (s ++ r).dropWhile isSpace = s ++ r := by
  obtain ⟨hne, hd⟩ := h
  cases s with
  | nil => exact absurd rfl hne
  | cons c s => rw [List.cons_append, List.dropWhile_cons_of_neg (by rw [not_space_digit (hd c (List.mem_cons_self ..))]; simp)]

theorem sign_digits {s : Bytes} (h : Digits s) (r : Bytes) : sign (s ++ r) = (false, s ++ r) := by
  obtain ⟨hne, hd⟩ := h
  cases s with
  | nil => exact absurd rfl hne
  | cons c s =>
    have hc := hd c (List.mem_cons_self ..)
    unfold sign
    split
    · rename_i heq; simp only [List.cons_append, List.cons.injEq] at heq; obtain ⟨rfl, _⟩ := heq; exact absurd hc (by decide)
    · rename_i heq; simp only [List.cons_append, List.cons.injEq] at heq; obtain ⟨rfl, _⟩ := heq; exact absurd hc (by decide)
    · rfl

theorem takeWhile_digits {s : Bytes} (h : Digits s) {r : Bytes} (hr : Ends r) :
    (s ++ r).takeWhile (isDigit 10) = s ∧ (s ++ r).dropWhile (isDigit 10) = r := by
  have h1 : ∀ c ∈ s, isDigit 10 c = true := fun c hc => (isDigit10_iff c).2 (h.2 c hc)
  rw [List.takeWhile_append_of_pos h1, List.dropWhile_append_of_pos h1]
  cases r with
  | nil => simp
  | cons c r =>
    have : isDigit 10 c = false := by
      have := hr c rfl
      rw [← isDigit10_iff] at this
      simpa using this
    rw [List.takeWhile_cons_of_neg (by simp [this]), List.dropWhile_cons_of_neg (by simp [this])]
    simp

theorem scanU_digits {s : Bytes} (h : Digits s) {r : Bytes} (hr : Ends r) (hv : decValue s < 2 ^ 64) :
    scanU (s ++ r) = some (decValue s % 2 ^ 32, r) := by
  obtain ⟨h1, h2⟩ := takeWhile_digits h hr
  unfold scanU
  rw [dropWhile_digits h, sign_digits h]
  simp only [h1, h2]
  rw [if_neg h.1, numVal_dec h]
  unfold clamp
  rw [if_neg (by omega)]
  rfl

/-- No number at a byte that is neither blank, sign nor digit. -/
theorem scanU_none {c : UInt8} {l : Bytes} (hs : isSpace c = false) (h1 : c ≠ 45) (h2 : c ≠ 43)
    (hd : ¬ (48 ≤ c.toNat ∧ c.toNat ≤ 57)) : scanU (c :: l) = none := by
  unfold scanU
  rw [List.dropWhile_cons_of_neg (by simp [hs])]
  have : sign (c :: l) = (false, c :: l) := by
    unfold sign
    split
    · rename_i heq; simp at heq; exact absurd heq.1 h1
    · rename_i heq; simp at heq; exact absurd heq.1 h2
    · rfl
  rw [this]
  simp only
  rw [List.takeWhile_cons_of_neg (by rw [isDigit10_iff]; exact hd)]
  simp

theorem detect_digits {s : Bytes} (h : Digits s) (h0 : s.head? ≠ some 48) (r : Bytes) : detect (s ++ r) = (10, s ++ r) := by
  obtain ⟨hne, hd⟩ := h
  cases s with
  | nil => exact absurd rfl hne
  | cons c s =>
    have hc : c ≠ 48 := by rintro rfl; simp at h0
    unfold detect
    split
    · rename_i heq; simp only [List.cons_append, List.cons.injEq] at heq; exact absurd heq.1 hc
    · rename_i heq; simp only [List.cons_append, List.cons.injEq] at heq; exact absurd heq.1 hc
    · rfl

/-- A decimal number without leading zero is read as such. -/
theorem strtoul0_digits {s : Bytes} (h : Digits s) (h0 : s.head? ≠ some 48) {r : Bytes} (hr : Ends r) (hv : decValue s < 2 ^ 64) :
    strtoul0 (s ++ r) = (decValue s, r) := by
  obtain ⟨h1, h2⟩ := takeWhile_digits h hr
  unfold strtoul0
  rw [dropWhile_digits h, sign_digits h]
  simp only
  rw [detect_digits h h0]
  simp only [h1, h2]
  rw [if_neg h.1, numVal_dec h]
  unfold clamp
  rw [if_neg (by omega)]
  rfl

theorem decValue_pos {c : UInt8} {s : Bytes} (hc : 49 ≤ c.toNat) : 0 < decValue (c :: s) := by
  unfold decValue
  simp only [List.foldl_cons]
  have : ∀ (s : Bytes) (a : Nat), 0 < a → 0 < s.foldl (fun acc c => acc * 10 + (c.toNat - 48)) a := by
    intro s
    induction s with
    | nil => exact fun _ h => h
    | cons c s ih => intro a ha; exact ih (a * 10 + (c.toNat - 48)) (by omega)
  exact this s _ (by omega)

/-- A text that begins with a digit other than 0 is read as a number other than 0, whatever follows. -/
theorem strtoul0_pos {c : UInt8} {l : Bytes} (h : 49 ≤ c.toNat ∧ c.toNat ≤ 57) : (strtoul0 (c :: l)).1 ≠ 0 := by
  have hdig : Digits [c] := ⟨by simp, by simp; omega⟩
  have hn0 : ([c] : Bytes).head? ≠ some 48 := by
    simp only [List.head?_cons, ne_eq, Option.some.injEq]
    rintro rfl
    revert h; decide
  have e1 := dropWhile_digits hdig l
  have e2 := sign_digits hdig l
  have e3 := detect_digits hdig hn0 l
  simp only [List.cons_append, List.nil_append] at e1 e2 e3
  unfold strtoul0
  rw [e1, e2]
  simp only
  rw [e3]
  simp only
  have hc : isDigit 10 c = true := (isDigit10_iff c).2 (by omega)
  rw [List.takeWhile_cons_of_pos hc, if_neg (by simp)]
  have hd : Digits (c :: l.takeWhile (isDigit 10)) := by
    refine ⟨by simp, fun x hx => ?_⟩
    rcases List.mem_cons.1 hx with rfl | hx
    · omega
    · exact (isDigit10_iff x).1 (List.mem_takeWhile_imp hx)
  rw [numVal_dec hd]
  have := decValue_pos (s := l.takeWhile (isDigit 10)) h.1
  unfold clamp
  split
  · show 2 ^ 64 - 1 ≠ 0
    omega
  · simp only [Bool.false_eq_true, if_false]; omega

end Verif.Io.Num
