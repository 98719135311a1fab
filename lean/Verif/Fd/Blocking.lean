import Mathlib.Logic.Function.Basic

/-!
# Making descriptors blocking and nonblocking (`src/events.c` 373-389), C273

On Unix `events_set_nonblocking` and `events_set_blocking` read the flags of a descriptor with `fcntl(fd, F_GETFL)`, change one bit, and
write them back with `fcntl(fd, F_SETFL, …)`.  The flags belong to the open file, which several descriptors can share (`dup`, `fork`,
the standard streams of a terminal).
-/

namespace Verif.Fd.Blocking

/-- Flags of an open file. -/
abbrev Flags := BitVec 32

/-- The kernel: the open file behind each descriptor, and the flags of each open file. -/
structure Kern where
  file : Int → Option Nat
  flags : Nat → Flags

/-- `fcntl(fd, F_GETFL)`: -1 for a descriptor which is not open. -/
def getfl (k : Kern) (fd : Int) : Flags :=
  match k.file fd with
  | some f => k.flags f
  | none => BitVec.allOnes 32

/-- `fcntl(fd, F_SETFL, v)`: of the flags those in `m` can be changed, the others of `v` are ignored. -/
def setfl (m : Flags) (k : Kern) (fd : Int) (v : Flags) : Kern × Int :=
  match k.file fd with
  | some f => ({ k with flags := Function.update k.flags f ((k.flags f &&& ~~~m) ||| (v &&& m)) }, 0)
  | none => (k, -1)

/-- `events_set_nonblocking`, src/events.c:373-380 (not Windows); `nb` is `O_NONBLOCK`. -/
def setNonblocking (m nb : Flags) (k : Kern) (fd : Int) : Kern × Int := setfl m k fd (getfl k fd ||| nb)

/-- `events_set_blocking`, src/events.c:382-389 (not Windows). -/
def setBlocking (m nb : Flags) (k : Kern) (fd : Int) : Kern × Int := setfl m k fd (getfl k fd &&& ~~~nb)

/-! ## Proofs -/

theorem or_within {m nb x : Flags} (h : nb &&& m = nb) : (x &&& ~~~m) ||| ((x ||| nb) &&& m) = x ||| nb := by
  apply BitVec.eq_of_getLsbD_eq
  intro i hi
  have := congrArg (fun b : Flags => b.getLsbD i) h
  simp only [BitVec.getLsbD_and, BitVec.getLsbD_or, BitVec.getLsbD_not, hi, decide_true, Bool.true_and] at this ⊢
  revert this
  cases x.getLsbD i <;> cases m.getLsbD i <;> cases nb.getLsbD i <;> simp

theorem and_within {m nb x : Flags} (h : nb &&& m = nb) : (x &&& ~~~m) ||| ((x &&& ~~~nb) &&& m) = x &&& ~~~nb := by
  apply BitVec.eq_of_getLsbD_eq
  intro i hi
  have := congrArg (fun b : Flags => b.getLsbD i) h
  simp only [BitVec.getLsbD_and, BitVec.getLsbD_or, BitVec.getLsbD_not, hi, decide_true, Bool.true_and] at this ⊢
  revert this
  cases x.getLsbD i <;> cases m.getLsbD i <;> cases nb.getLsbD i <;> simp

theorem nonblocking_eq {m nb : Flags} (h : nb &&& m = nb) {k : Kern} {fd : Int} {f : Nat} (hf : k.file fd = some f) :
    setNonblocking m nb k fd = ({ k with flags := Function.update k.flags f (k.flags f ||| nb) }, 0) := by
  simp only [setNonblocking, setfl, getfl, hf, or_within h]

theorem blocking_eq {m nb : Flags} (h : nb &&& m = nb) {k : Kern} {fd : Int} {f : Nat} (hf : k.file fd = some f) :
    setBlocking m nb k fd = ({ k with flags := Function.update k.flags f (k.flags f &&& ~~~nb) }, 0) := by
  simp only [setBlocking, setfl, getfl, hf, and_within h]

/-- **C273**: for an open descriptor the call succeeds, the flag is set, every other flag stays, and the flags of every other open file
stay. -/
theorem nonblocking_only {m nb : Flags} (h : nb &&& m = nb) {k : Kern} {fd : Int} {f : Nat} (hf : k.file fd = some f) :
    (setNonblocking m nb k fd).2 = 0 ∧ (setNonblocking m nb k fd).1.flags f = k.flags f ||| nb ∧
    (∀ g, g ≠ f → (setNonblocking m nb k fd).1.flags g = k.flags g) ∧ (setNonblocking m nb k fd).1.file = k.file := by
  rw [nonblocking_eq h hf]
  exact ⟨rfl, Function.update_self .., fun g hg => Function.update_of_ne hg .., rfl⟩

/-- **C273**: the same for the flag taken away. -/
theorem blocking_only {m nb : Flags} (h : nb &&& m = nb) {k : Kern} {fd : Int} {f : Nat} (hf : k.file fd = some f) :
    (setBlocking m nb k fd).2 = 0 ∧ (setBlocking m nb k fd).1.flags f = k.flags f &&& ~~~nb ∧
    (∀ g, g ≠ f → (setBlocking m nb k fd).1.flags g = k.flags g) ∧ (setBlocking m nb k fd).1.file = k.file := by
  rw [blocking_eq h hf]
  exact ⟨rfl, Function.update_self .., fun g hg => Function.update_of_ne hg .., rfl⟩

/-- **C273**: for a descriptor which is not open both fail and change nothing. -/
theorem not_open (m nb : Flags) (k : Kern) (fd : Int) (hf : k.file fd = none) :
    setNonblocking m nb k fd = (k, -1) ∧ setBlocking m nb k fd = (k, -1) := by
  simp only [setNonblocking, setBlocking, setfl, hf, and_self]

/-- **C273**, false of the code: every other descriptor of the same open file becomes nonblocking with it. -/
theorem shared {m nb : Flags} (h : nb &&& m = nb) {k : Kern} {fd fd' : Int} {f : Nat} (hf : k.file fd = some f)
    (hf' : k.file fd' = some f) : getfl (setNonblocking m nb k fd).1 fd' = getfl k fd' ||| nb := by
  rw [nonblocking_eq h hf]
  simp only [getfl, hf', Function.update_self]

/-- **C273**, what holds: descriptors of other open files keep their flags.  Missing: descriptors sharing the open file, see
`shared`. -/
theorem others_partial (m nb : Flags) (k : Kern) (fd fd' : Int) (hf : k.file fd ≠ k.file fd') :
    getfl (setNonblocking m nb k fd).1 fd' = getfl k fd' ∧ getfl (setBlocking m nb k fd).1 fd' = getfl k fd' := by
  unfold setNonblocking setBlocking setfl
  cases e : k.file fd with
  | none => exact ⟨rfl, rfl⟩
  | some f =>
    rw [e] at hf
    unfold getfl
    cases e' : k.file fd' with
    | none => exact ⟨rfl, rfl⟩
    | some g =>
      have hg : g ≠ f := by rintro rfl; exact hf e'.symm
      simp only [Function.update_of_ne hg, and_self]

/-- **C273**: making a descriptor nonblocking and blocking again gives its flags back exactly if it was blocking before. -/
theorem restore_iff {m nb : Flags} (h : nb &&& m = nb) {k : Kern} {fd : Int} {f : Nat} (hf : k.file fd = some f) :
    getfl (setBlocking m nb (setNonblocking m nb k fd).1 fd).1 fd = getfl k fd ↔ k.flags f &&& nb = 0#32 := by
  have hf' : (setNonblocking m nb k fd).1.file fd = some f := by rw [nonblocking_eq h hf]; exact hf
  rw [blocking_eq h hf', nonblocking_eq h hf]
  simp only [getfl, hf, Function.update_self]
  constructor
  · intro e
    apply BitVec.eq_of_getLsbD_eq
    intro i hi
    have := congrArg (fun b : Flags => b.getLsbD i) e
    simp only [BitVec.getLsbD_and, BitVec.getLsbD_or, BitVec.getLsbD_not, hi, decide_true, Bool.true_and, BitVec.getLsbD_zero] at this ⊢
    revert this
    cases (k.flags f).getLsbD i <;> cases nb.getLsbD i <;> simp
  · intro e
    apply BitVec.eq_of_getLsbD_eq
    intro i hi
    have := congrArg (fun b : Flags => b.getLsbD i) e
    simp only [BitVec.getLsbD_and, BitVec.getLsbD_or, BitVec.getLsbD_not, hi, decide_true, Bool.true_and, BitVec.getLsbD_zero] at this ⊢
    revert this
    cases (k.flags f).getLsbD i <;> cases nb.getLsbD i <;> simp

/-- **C273**, false of the code: flags set by another thread between reading and writing are lost.  The other thread writes any `v`;
afterwards the flags are those from before with the one added, as if `v` had never been written. -/
theorem lost {m nb : Flags} (h : nb &&& m = nb) {k : Kern} {fd : Int} {f : Nat} (hf : k.file fd = some f) (v : Flags) :
    getfl (setfl m (setfl m k fd v).1 fd (getfl k fd ||| nb)).1 fd = getfl k fd ||| nb := by
  simp only [setfl, getfl, hf, Function.update_self]
  apply BitVec.eq_of_getLsbD_eq
  intro i hi
  have := congrArg (fun b : Flags => b.getLsbD i) h
  simp only [BitVec.getLsbD_and, BitVec.getLsbD_or, BitVec.getLsbD_not, hi, decide_true, Bool.true_and] at this ⊢
  revert this
  cases (k.flags f).getLsbD i <;> cases m.getLsbD i <;> cases nb.getLsbD i <;> cases v.getLsbD i <;> simp

/-! ## Examples -/

/-- Descriptors 0 and 1 are the terminal, 5 is a socket; `O_NONBLOCK` is 2048, `O_APPEND` 1024, and `O_RDWR` 2. -/
def box : Kern := ⟨fun fd => if fd = 0 ∨ fd = 1 then some 0 else if fd = 5 then some 1 else none, fun _ => 2#32⟩

example : (2048#32 : Flags) &&& 3072#32 = 2048#32 := by decide
example : getfl (setNonblocking 3072#32 2048#32 box 0).1 0 = 2050#32 ∧ getfl (setNonblocking 3072#32 2048#32 box 0).1 1 = 2050#32 ∧
    getfl (setNonblocking 3072#32 2048#32 box 0).1 5 = 2#32 ∧ (setNonblocking 3072#32 2048#32 box 7).2 = -1 := by decide
/-- Another thread asks for `O_APPEND` in between. -/
example : getfl (setfl 3072#32 (setfl 3072#32 box 5 1026#32).1 5 (getfl box 5 ||| 2048#32)).1 5 = 2050#32 := by decide
example : getfl (setBlocking 3072#32 2048#32 (setNonblocking 3072#32 2048#32 box 5).1 5).1 5 = 2#32 := by decide

end Verif.Fd.Blocking
