import Mathlib.Data.Nat.Bitwise
import Mathlib.Tactic.IntervalCases

/-!
# The kind of a descriptor (`src/events.c` 985-1046, `include/events.h` 158-187), C250
-/

namespace Verif.Io.FdType

/-- The values of `fd_types` that `events_fd_type` returns, and -1 (converted to the enumeration). -/
inductive Kind
  | unknown | reg | dir | chr | blk | fifo | lnk | sock
  | invalid
  deriving DecidableEq, Repr

/-- `S_IFMT` and the tests of the unix branch, events.c:986-1009.  `none`: `fstat` fails. -/
def unixType : Option Nat → Kind
  | none => .invalid
  | some mode =>
    let f := mode &&& 0o170000
    if f = 0o060000 then .blk
    else if f = 0o020000 then .chr
    else if f = 0o040000 then .dir
    else if f = 0o010000 then .fifo
    else if f = 0o120000 then .lnk
    else if f = 0o100000 then .reg
    else if f = 0o140000 then .sock
    else .unknown

/-- What a handle of Windows refers to, as `GetFileType`, `GetFileInformationByHandle` and `GetNamedPipeInfo` tell. -/
inductive Obj
  | char
  /-- `none`: no information about the file. -/
  | disk (attributes : Option Nat)
  | pipe (named : Bool)
  deriving DecidableEq, Repr

/-- The tests of the Windows branch after the handle is found, events.c:1014-1044. -/
def classify : Option Obj → Kind
  | none => .unknown
  | some .char => .chr
  | some (.disk none) => .blk
  | some (.disk (some a)) => if a = 0x80 then .reg else if a = 0x10 then .dir else if a = 0x400 then .lnk else .unknown
  | some (.pipe named) => if named then .fifo else .sock

/-- The Windows branch, events.c:1010-1045: the handle asked for is `(HANDLE)&fd`, the address of the parameter. -/
def winType (handles : Nat → Option Obj) (addr _fd : Nat) : Kind := classify (handles addr)

/-! ## Specification -/

/-- The kinds of files as POSIX numbers them. -/
def posix : Nat → Option Kind
  | 1 => some .fifo
  | 2 => some .chr
  | 4 => some .dir
  | 6 => some .blk
  | 8 => some .reg
  | 10 => some .lnk
  | 12 => some .sock
  | _ => none

/-- What a handle is, in words of the same kinds: a disk object is a directory if it has that attribute (0x10), a link if it has the attribute of
reparse points (0x400), and otherwise a regular file. -/
def meant : Obj → Kind
  | .char => .chr
  | .disk none => .blk
  | .disk (some a) => if a.testBit 10 then .lnk else if a.testBit 4 then .dir else .reg
  | .pipe named => if named then .fifo else .sock

/-! ## C250 -/

theorem mask (k p : Nat) (hk : k < 16) (hp : p < 4096) : (k * 4096 + p) &&& 0o170000 = k * 4096 := by
  apply Nat.eq_of_testBit_eq
  intro i
  rw [Nat.testBit_and, show k * 4096 + p = 2 ^ 12 * k + p by omega, show k * 4096 = 2 ^ 12 * k by omega,
    show (0o170000 : Nat) = 2 ^ 12 * 15 from rfl, Nat.testBit_two_pow_mul_add k hp, Nat.testBit_two_pow_mul, Nat.testBit_two_pow_mul]
  by_cases hi : i < 12
  · simp [hi, show ¬ 12 ≤ i by omega]
  · rw [if_neg hi]
    have h12 : 12 ≤ i := by omega
    simp only [h12, decide_true, Bool.true_and]
    by_cases h4 : i - 12 < 4
    · have : Nat.testBit 15 (i - 12) = true := by
        generalize i - 12 = j at h4
        interval_cases j <;> rfl
      rw [this, Bool.and_true]
    · rw [Nat.testBit_lt_two_pow (x := k) (Nat.lt_of_lt_of_le hk (show 2 ^ 4 ≤ 2 ^ (i - 12) from Nat.pow_le_pow_right (by omega) (by omega))), Bool.false_and]

/-- On unix, whatever the permissions: the kind told is the kind of the file, and unknown exactly for numbers that are no kind. -/
theorem unix_kind_partial (k p : Nat) (hk : k < 16) (hp : p < 4096) : unixType (some (k * 4096 + p)) = (posix k).getD .unknown := by
  simp only [unixType, mask k p hk hp]
  interval_cases k <;> rfl

/-- A socket with permissions 0755. -/
example : unixType (some (12 * 4096 + 0o755)) = .sock := by decide

/-- A descriptor that is not open is told apart from every kind. -/
theorem unix_not_open (mode : Nat) : unixType none ≠ unixType (some mode) := by
  simp only [unixType]
  repeat' split
  all_goals simp

/-- On Windows, for all descriptors: as no handle has the value of an address of the stack, the kind is unknown. -/
theorem windows_always_unknown (handles : Nat → Option Obj) (addr fd : Nat) (h : handles addr = none) : winType handles addr fd = .unknown := by
  simp [winType, h, classify]

/-- Handles below 0x1000, a parameter on the stack, and a socket at handle 0x1c0. -/
example : winType (fun h => if h = 0x1c0 then some (.pipe false) else none) 0x7ffe30 0x1c0 = .unknown ∧ meant (.pipe false) = .sock := by decide

/-- With the right handle the tests would be right for devices, pipes, sockets and disk objects with just one of three attributes. -/
theorem tests_right_partial (o : Obj) (h : ∀ a, o = .disk (some a) → a = 0x80 ∨ a = 0x10 ∨ a = 0x400) : classify (some o) = meant o := by
  cases o with
  | char => rfl
  | pipe n => rfl
  | disk a =>
    cases a with
    | none => rfl
    | some a => rcases h a rfl with h | h | h <;> subst h <;> decide

/-- For every other set of attributes, such as that of a file just written (0x20, archive), the tests tell nothing. -/
theorem other_attributes_unknown (a : Nat) (h1 : a ≠ 0x80) (h2 : a ≠ 0x10) (h3 : a ≠ 0x400) :
    classify (some (.disk (some a))) = .unknown ∧ meant (.disk (some a)) ≠ .unknown := by
  refine ⟨by simp [classify, h1, h2, h3], ?_⟩
  simp only [meant]
  repeat' split
  all_goals simp

example : (0x20 : Nat) ≠ 0x80 ∧ (0x20 : Nat) ≠ 0x10 ∧ (0x20 : Nat) ≠ 0x400 ∧ meant (.disk (some 0x20)) = .reg := by decide

end Verif.Io.FdType
