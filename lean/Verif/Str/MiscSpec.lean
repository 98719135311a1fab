import Verif.Mem

/-!
# Vocabulary for the theorems about repeat, pad and numerals (independent of the model)
-/

namespace Verif.Str

/-- `s` written `k` times. -/
def rep (s : Bytes) (k : Nat) : Bytes := (List.replicate k s).flatten

/-- `n` bytes of `pad` repeated cyclically. -/
def cycle (pad : Bytes) (n : Nat) : Bytes := (List.range n).map fun i => pad.getD (i % pad.length) 0

/-- The value of a digit string. -/
def decValue (d : Bytes) : Nat := d.foldl (fun acc c => acc * 10 + (c.toNat - 48)) 0

/-- `d` is the canonical decimal numeral of `n`: digits only, no leading zero, right value. -/
def IsDecimal (d : Bytes) (n : Nat) : Prop :=
  d ≠ [] ∧ (∀ c ∈ d, 48 ≤ c.toNat ∧ c.toNat ≤ 57) ∧ (1 < d.length → d.head? ≠ some 48) ∧ decValue d = n

instance (d : Bytes) (n : Nat) : Decidable (IsDecimal d n) := by unfold IsDecimal; infer_instance

/-- Fold a byte to ASCII lower case: only `A`..`Z` change. -/
def asciiLower (c : UInt8) : UInt8 := if 65 ≤ c ∧ c ≤ 90 then c + 32 else c

/-- White space of the C locale: blank, `\t`, `\n`, `\v`, `\f`, `\r`. -/
def Blank (c : UInt8) : Prop := c = 32 ∨ c = 9 ∨ c = 10 ∨ c = 11 ∨ c = 12 ∨ c = 13

instance (c : UInt8) : Decidable (Blank c) := by unfold Blank; infer_instance

end Verif.Str
