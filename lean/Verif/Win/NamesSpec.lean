import Verif.Win.Names

/-!
# Specification for the path functions for Windows
-/

namespace Verif.Win

/-- Both kinds of slash separate. -/
def Sep (x : UInt8) : Prop := x = 0x2f ∨ x = 0x5c

/-- Only separators. -/
def Seps (s : Bytes) : Prop := ∀ x ∈ s, Sep x

/-- No separator. -/
def NoSep (s : Bytes) : Prop := ∀ x ∈ s, ¬ Sep x

/-- A new name starts here: at the start of the path, after a separator, after a drive (one character and `':'`). -/
inductive Boundary : Bytes → Prop
  | start : Boundary []
  | sep (p : Bytes) (x : UInt8) : Sep x → Boundary (p ++ [x])
  | drive (p : Bytes) (x : UInt8) : Boundary p → ¬ Sep x → Boundary (p ++ [x, 0x3a])

/-- The last name of a path. -/
inductive BaseOf : Bytes → Bytes → Prop
  /-- nothing but separators: no name -/
  | none (s : Bytes) : Seps s → BaseOf s []
  /-- the last name, with separators behind it -/
  | name (p n t : Bytes) : Boundary p → n ≠ [] → NoSep n → n[1]? ≠ some 0x3a → Seps t → BaseOf (p ++ n ++ t) n
  /-- nothing behind the drive: its letter -/
  | drive (p : Bytes) (x : UInt8) (t : Bytes) : Boundary p → ¬ Sep x → Seps t → BaseOf (p ++ [x, 0x3a] ++ t) [x]

/-- The directory part of a path without a drive. -/
inductive DirOf : Bytes → Bytes → Prop
  /-- nothing but separators: the root -/
  | root (r : Bytes) : r ≠ [] → Seps r → DirOf r [0x5c]
  /-- one name, with separators behind it: the current directory -/
  | here (n t : Bytes) : n ≠ [] → NoSep n → Seps t → DirOf (n ++ t) [0x2e]
  /-- a name in the root -/
  | top (s n t : Bytes) : s ≠ [] → Seps s → n ≠ [] → NoSep n → Seps t → DirOf (s ++ n ++ t) [0x5c]
  /-- a name in a directory -/
  | dir (d : Bytes) (x : UInt8) (s n t : Bytes) : ¬ Sep x → s ≠ [] → Seps s → n ≠ [] → NoSep n → Seps t →
      DirOf (d ++ [x] ++ s ++ n ++ t) (d ++ [x])

/-- The drive in front of a path: none, or a letter and `':'`. -/
inductive Drive : Bytes → Prop
  | none : Drive []
  | letter (x : UInt8) : (0x41 ≤ x ∧ x ≤ 0x5a) ∨ (0x61 ≤ x ∧ x ≤ 0x7a) → Drive [x, 0x3a]

end Verif.Win
