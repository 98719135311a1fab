import Verif.Mem
import Mathlib.Data.Nat.Digits.Defs

/-!
# `uname` on Windows (`src/os_windows.c` 1888-1967) and the description made from it, C266

Texts are `String`s of single-byte characters.  A field the function leaves alone keeps what it held before; `none` stands for bytes
nobody has written.
-/

namespace Verif.Win.Uname

/-- `struct utsname`, include/compat/sys/utsname.h:19-33. -/
structure Names where
  sysname : Option String
  nodename : Option String
  release : Option String
  version : Option String
  machine : Option String
  deriving DecidableEq

/-- `_UTSNAME_LENGTH`, include/compat/sys/utsname.h:16. -/
def size : Nat := 65

/-- `wProcessorArchitecture`. -/
inductive Arch where
  | amd64 | ia64 | intel | ia32OnWin64 | mips | alpha | alpha64 | ppc | arm | arm64 | shx | other
  deriving DecidableEq

/-- What Windows answers. -/
structure Sys where
  /-- `events_hostname()`. -/
  host : String
  major : Nat
  minor : Nat
  /-- The product's name, `none` if the registry has none or it may not be read. -/
  product : Option String
  arch : Arch
  /-- `wProcessorLevel`. -/
  level : Nat

/-- The `switch`, src/os_windows.c:1927-1964.  On 32-bit Intel the second letter of "i386" is replaced by '3' below level 6, which
changes nothing. -/
def machineOf (a : Arch) (level : Nat) : String :=
  match a with
  | .amd64 => "x86_64"
  | .ia64 => "ia64"
  | .intel => if level < 6 then String.ofList (("i386".toList).set 1 '3') else "i386"
  | .ia32OnWin64 => "i686"
  | .mips => "mips"
  | .alpha => "alpha"
  | .alpha64 => "alpha"
  | .ppc => "powerpc"
  | .arm => "armv7"
  | .arm64 => "aarch64"
  | .shx => "sh"
  | .other => "unknown"

/-- `RegGetValueA` and `snprintf`, src/os_windows.c:1912-1924: a name that does not fit with its terminator is an error. -/
def versionOf (p : Option String) (old : Option String) : Option String :=
  match p with
  | some v => if v.length < size then some v else old
  | none => old

/-- `uname`, src/os_windows.c:1888-1967.  `none`: `strcpy_s` finds no place and ends the program. -/
def uname (y : Sys) (n : Names) : Option Names :=
  if y.host.length < size then
    some ⟨some "Windows_NT", some y.host, some (toString y.major ++ "." ++ toString y.minor), versionOf y.product n.version,
      some (machineOf y.arch y.level)⟩
  else none

/-- The text of src/async_tls.c:829 before it is cut; `none` if a field nobody has written is read. -/
def describe (cores : Nat) (n : Names) : Option String := do
  let s ← n.sysname
  let m ← n.machine
  let r ← n.release
  return toString cores ++ " Cores, " ++ s ++ " " ++ m ++ " " ++ r

/-! ## Specification -/

/-- Every field has been written. -/
def Complete (n : Names) : Prop :=
  n.sysname.isSome ∧ n.nodename.isSome ∧ n.release.isSome ∧ n.version.isSome ∧ n.machine.isSome

/-- Fields are written and fit with their terminators. -/
def FieldFits : Option String → Prop
  | some s => s.length < size
  | none => False

/-- The field of a machine at least as new as the Pentium Pro, by the name other systems use. -/
def usual (level : Nat) : String := if level < 6 then "i386" else "i686"

/-! ## Proofs -/

/-- **C266**: the program ends in `uname` exactly if the host name has more than 64 bytes. -/
theorem ends_iff (y : Sys) (n : Names) : uname y n = none ↔ 64 < y.host.length := by
  unfold uname
  by_cases h : y.host.length < size
  · simp only [h, if_true, reduceCtorEq, false_iff]
    simp only [size] at h; omega
  · simp only [h, if_false, true_iff]
    simp only [size] at h; omega

theorem machine_fits (a : Arch) (l : Nat) : (machineOf a l).length < size := by
  cases a <;> simp only [machineOf] <;> (try split) <;> decide

/-- **C266** (full statement: all fields are written; false, see `version_left`).  What holds: name of the system, of the machine,
release and kind are written, fit into their fields, and do not depend on what was there. -/
theorem written_partial (y : Sys) (n n' : Names) (h : uname y n = some n') (hM : y.major < 2 ^ 32) (hm : y.minor < 2 ^ 32) :
    n'.sysname = some "Windows_NT" ∧ n'.nodename = some y.host ∧
    n'.release = some (toString y.major ++ "." ++ toString y.minor) ∧ n'.machine = some (machineOf y.arch y.level) ∧
    FieldFits n'.sysname ∧ FieldFits n'.nodename ∧ FieldFits n'.release ∧ FieldFits n'.machine := by
  unfold uname at h
  split at h
  · rename_i hh
    obtain rfl := Option.some.inj h
    refine ⟨rfl, rfl, rfl, rfl, ?_, hh, ?_, machine_fits _ _⟩
    · show "Windows_NT".length < size
      decide
    · show (toString y.major ++ "." ++ toString y.minor).length < size
      have h1 := Nat.repr_length y.major 10 (by decide) (by omega)
      have h2 := Nat.repr_length y.minor 10 (by decide) (by omega)
      have h3 : ".".length = 1 := by decide
      simp only [String.length_append, h3, size, Nat.toString_eq_repr]
      omega
  · cases h

/-- **C266**, false of the code: the version stays as it was exactly if Windows does not tell the product's name or it has more than
64 bytes; in memory nobody has written it stays unwritten, and 0 is returned all the same. -/
theorem version_left (y : Sys) (n n' : Names) (h : uname y n = some n') (hn : n.version = none) :
    ¬ Complete n' ↔ (y.product = none ∨ ∃ v, y.product = some v ∧ 64 < v.length) := by
  unfold uname at h
  split at h
  · obtain rfl := Option.some.inj h
    cases hp : y.product with
    | none => simp [Complete, versionOf, hn]
    | some v =>
      by_cases hv : v.length < size
      · have : ¬ 64 < v.length := by simp only [size] at hv; omega
        simp only [Complete, versionOf, hv, if_true]
        simp
        omega
      · have : 64 < v.length := by simp only [size] at hv; omega
        simp only [Complete, versionOf, hv, if_false, hn]
        simp [this]
  · cases h

/-- **C266**: the description made by `events_uname` reads written fields only: it is the same whatever was in memory. -/
theorem description_given (y : Sys) (n n' : Names) (h : uname y n = some n') (cores : Nat) :
    describe cores n' = some (toString cores ++ " Cores, " ++ "Windows_NT" ++ " " ++ machineOf y.arch y.level ++ " " ++
      (toString y.major ++ "." ++ toString y.minor)) := by
  unfold uname at h
  split at h
  · obtain rfl := Option.some.inj h
    rfl
  · cases h

/-- **C266**, false of the code: a 32-bit Intel machine is an i386 whatever its level; the right name is given for old ones only. -/
theorem intel_name (level : Nat) : machineOf .intel level = "i386" ∧ (machineOf .intel level = usual level ↔ level < 6) := by
  have h0 : String.ofList (("i386".toList).set 1 '3') = "i386" := by decide
  have h1 : machineOf .intel level = "i386" := by
    simp only [machineOf, h0, ite_self]
  refine ⟨h1, ?_⟩
  rw [h1]
  unfold usual
  by_cases h : level < 6
  · simp [h]
  · simp only [h, if_false, iff_false]
    decide

/-- **C266**: otherwise two kinds of machine have the same name only if both are Alphas. -/
theorem machine_tells (a b : Arch) (l m : Nat) (h : machineOf a l = machineOf b m) :
    a = b ∨ ((a = .alpha ∨ a = .alpha64) ∧ (b = .alpha ∨ b = .alpha64)) := by
  have hi : ∀ l, machineOf .intel l = "i386" := fun l => (intel_name l).1
  cases a <;> cases b <;> first
    | exact Or.inl rfl
    | (right; decide)
    | (exfalso; simp only [hi] at h; simp only [machineOf] at h; revert h; decide)
    | (exfalso; simp only [machineOf] at h; revert h; decide)

/-- A 64-bit machine called "box" whose product name may not be read. -/
def box : Sys := ⟨"box", 10, 0, none, .amd64, 6⟩

example : uname box ⟨none, none, none, none, none⟩ = some ⟨some "Windows_NT", some "box", some "10.0", none, some "x86_64"⟩ := by
  decide +kernel
example : (uname box ⟨none, none, none, none, none⟩).bind (describe 8) = some "8 Cores, Windows_NT x86_64 10.0" := by decide +kernel
example : uname { box with host := String.ofList (List.replicate 65 'a') } ⟨none, none, none, none, none⟩ = none := by decide +kernel

end Verif.Win.Uname
