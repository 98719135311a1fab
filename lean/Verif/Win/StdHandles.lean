import Mathlib.Logic.Function.Basic
import Mathlib.Tactic.Tauto

/-!
# Standard handles of programs started on Windows (`src/os_windows.c` 710-768, 770-803), C260

`exec_info(env, detached, in, out, err)` and `exec` start a program.  A handle that is given is marked inheritable and becomes a
standard handle of the program; Windows gives a program started with `bInheritHandles` every inheritable handle of its parent.
The state here is the handles of the parent; the history is arbitrary.
-/

namespace Verif.Win.StdHandles

/-- The handles of the parent.  `own k` are its standard handles, `GetStdHandle` (721-723). -/
structure St where
  isOpen : Nat → Bool
  inheritable : Nat → Bool

/-- Arguments of `exec_info`, 785-803; `none` is `inherit` (which is `INVALID_HANDLE_VALUE`). -/
structure Args where
  detached : Bool
  inp : Option Nat
  out : Option Nat
  err : Option Nat

/-- What the program has: `std = none` if no standard handles were passed (it opens the console of the parent, if any). -/
structure Child where
  std : Option (Nat × Nat × Nat)
  holds : Nat → Bool

/-- `SetHandleInformation(h, HANDLE_FLAG_INHERIT, 1)`; it fails for a handle that is not open. -/
def setInherit (s : St) : Option Nat → St
  | none => s
  | some h => if s.isOpen h then { s with inheritable := Function.update s.inheritable h true } else s

/-- The condition at 720: `exec_info` fills the entries with index 1. -/
def anyGiven (a : Args) : Bool := a.inp.isSome || a.out.isSome || a.err.isSome

/-- `os_exec_child` for `exec` (`is_spawn` is false), 711-749.  Simplified: `CreateProcessA` finds the program; a failure would
leave the marks as they are here. -/
def start (own : Nat × Nat × Nat) (s : St) (a : Args) : St × Child :=
  if a.detached then (s, ⟨none, fun _ => false⟩)
  else
    let s' := setInherit (setInherit (setInherit s a.inp) a.out) a.err
    if anyGiven a then
      (s', ⟨some (a.inp.getD own.1, a.out.getD own.2.1, a.err.getD own.2.2), fun h => s'.isOpen h && s'.inheritable h⟩)
    else (s', ⟨none, fun _ => false⟩)

/-- What the parent does. -/
inductive Op where
  /-- It opens a handle; `inh`: with an inheritable security attribute. -/
  | opn (h : Nat) (inh : Bool)
  | close (h : Nat)
  | start (a : Args)

def step (own : Nat × Nat × Nat) (s : St) : Op → St
  | .opn h inh =>
    if s.isOpen h then s
    else ⟨Function.update s.isOpen h true, Function.update s.inheritable h inh⟩
  | .close h => { s with isOpen := Function.update s.isOpen h false, inheritable := Function.update s.inheritable h false }
  | .start a => (start own s a).1

def run (own : Nat × Nat × Nat) (s : St) (l : List Op) : St := l.foldl (step own) s

/-- No handle is open. -/
def init : St := ⟨fun _ => false, fun _ => false⟩

/-! ## Specification -/

/-- Handle `h` is given by `a`. -/
def Given (a : Args) (h : Nat) : Prop := a.inp = some h ∨ a.out = some h ∨ a.err = some h

/-- `h` is open after the history, which is written newest first. -/
def Opened (h : Nat) : List Op → Prop
  | [] => False
  | .opn k _ :: l => k = h ∨ Opened h l
  | .close k :: l => k ≠ h ∧ Opened h l
  | .start _ :: l => Opened h l

/-- `h` is open and was opened as inheritable or given to a program since it was opened. -/
def Marked (h : Nat) : List Op → Prop
  | [] => False
  | .opn k i :: l => Marked h l ∨ (k = h ∧ ¬ Opened h l ∧ i = true)
  | .close k :: l => k ≠ h ∧ Marked h l
  | .start a :: l => Marked h l ∨ (a.detached = false ∧ Given a h ∧ Opened h l)

/-! ## Proofs -/

theorem setInherit_open (s : St) (o : Option Nat) : (setInherit s o).isOpen = s.isOpen := by
  unfold setInherit
  split
  · rfl
  · split <;> rfl

theorem setInherit_iff (s : St) (o : Option Nat) (h : Nat) :
    (setInherit s o).inheritable h = true ↔ s.inheritable h = true ∨ (o = some h ∧ s.isOpen h = true) := by
  unfold setInherit
  split
  · simp
  · rename_i k
    split
    · rename_i hk
      by_cases e : h = k
      · subst e; simp [hk]
      · simp only [Function.update_of_ne e]
        simp [Ne.symm e]
    · rename_i hk
      by_cases e : h = k
      · subst e; simp [hk]
      · simp [Ne.symm e]

theorem start_st (own : Nat × Nat × Nat) (s : St) (a : Args) (h : Nat) :
    (start own s a).1.isOpen = s.isOpen ∧
    ((start own s a).1.inheritable h = true ↔ s.inheritable h = true ∨
      (a.detached = false ∧ Given a h ∧ s.isOpen h = true)) := by
  unfold start
  cases hd : a.detached with
  | true => simp
  | false =>
    simp only [Bool.false_eq_true, if_false]
    have key : (setInherit (setInherit (setInherit s a.inp) a.out) a.err).isOpen = s.isOpen ∧
        ((setInherit (setInherit (setInherit s a.inp) a.out) a.err).inheritable h = true ↔
          s.inheritable h = true ∨ (True ∧ Given a h ∧ s.isOpen h = true)) := by
      refine ⟨by simp [setInherit_open], ?_⟩
      rw [setInherit_iff, setInherit_iff, setInherit_iff]
      simp only [setInherit_open, Given]
      tauto
    split
    · simpa using key
    · simpa using key

theorem run_marks (own : Nat × Nat × Nat) : ∀ (l : List Op) (h : Nat),
    ((run own init l.reverse).isOpen h = true ↔ Opened h l) ∧
    ((run own init l.reverse).inheritable h = true ↔ Marked h l)
  | [], h => by simp [run, init, Opened, Marked]
  | o :: l, h => by
    obtain ⟨ih1, ih2⟩ := run_marks own l h
    have e : run own init (o :: l).reverse = step own (run own init l.reverse) o := by
      simp [run, List.foldl_append]
    rw [e]
    generalize run own init l.reverse = s at ih1 ih2
    cases o with
    | opn k i =>
      simp only [step, Opened, Marked]
      by_cases hk : s.isOpen k = true
      · rw [if_pos hk]
        by_cases e : k = h
        · subst e
          refine ⟨by simp [hk], ?_⟩
          rw [ih2]
          have := ih1.mp hk
          tauto
        · refine ⟨by rw [ih1]; tauto, by rw [ih2]; tauto⟩
      · rw [if_neg hk]
        by_cases e : k = h
        · subst e
          have hno : ¬ Opened k l := fun h => hk (ih1.mpr h)
          have hm : ¬ Marked k l := by
            intro hm
            have : ∀ l : List Op, Marked k l → Opened k l := by
              intro l
              induction l with
              | nil => exact id
              | cons o l ih =>
                cases o with
                | opn => simp only [Marked, Opened]; tauto
                | close => simp only [Marked, Opened]; tauto
                | start => simp only [Marked, Opened]; tauto
            exact hno (this l hm)
          simp [hno, hm]
        · simp only [Function.update_of_ne (Ne.symm e)]
          refine ⟨by rw [ih1]; tauto, by rw [ih2]; tauto⟩
    | close k =>
      simp only [step, Opened, Marked]
      by_cases e : k = h
      · subst e; simp
      · simp only [Function.update_of_ne (Ne.symm e)]
        refine ⟨by rw [ih1]; tauto, by rw [ih2]; tauto⟩
    | start a =>
      simp only [step, Opened, Marked]
      obtain ⟨k1, k2⟩ := start_st own s a h
      rw [k1, k2, ih1, ih2]
      exact ⟨Iff.rfl, Iff.rfl⟩

/-! ## C260 -/

/-- **C260**, what holds: a program that is not detached and is given a handle has the handles given as its standard handles, and
those of the parent in the other places; and it holds every handle given that is open.
Missing: detached programs (`detached_ignores`). -/
theorem std_given_partial (own : Nat × Nat × Nat) (s : St) (a : Args) (hd : a.detached = false) (h : Nat) (hg : Given a h) :
    (start own s a).2.std = some (a.inp.getD own.1, a.out.getD own.2.1, a.err.getD own.2.2) ∧
    ((start own s a).2.holds h = true ↔ s.isOpen h = true) := by
  have hany : anyGiven a = true := by
    unfold anyGiven
    rcases hg with hg | hg | hg <;> simp [hg]
  obtain ⟨k1, k2⟩ := start_st own s a h
  unfold start at k1 k2 ⊢
  simp only [hd, Bool.false_eq_true, if_false, hany, if_true] at k1 k2 ⊢
  refine ⟨trivial, ?_⟩
  rw [Bool.and_eq_true, k2, k1]
  tauto

/-- **C260**, false of the code: a detached program gets none of the handles given. -/
theorem detached_ignores (own : Nat × Nat × Nat) (s : St) (i o e : Option Nat) :
    (start own s ⟨true, i, o, e⟩).2.std = none ∧ ∀ h, (start own s ⟨true, i, o, e⟩).2.holds h = false := by
  simp [start]

/-- **C260.** After any history (newest first) a program that is not detached and is given a handle holds exactly the open
handles that were opened as inheritable or given to it or to a program before. -/
theorem holds_iff (own : Nat × Nat × Nat) (l : List Op) (a : Args) (hd : a.detached = false) (k : Nat) (hk : Given a k) (h : Nat) :
    (start own (run own init l.reverse) a).2.holds h = true ↔ Marked h (.start a :: l) := by
  obtain ⟨k1, k2⟩ := start_st own (run own init l.reverse) a h
  obtain ⟨m1, m2⟩ := run_marks own l h
  have hany : anyGiven a = true := by
    unfold anyGiven
    rcases hk with hk | hk | hk <;> simp [hk]
  have hmo : Marked h l → Opened h l := by
    clear m1 m2 k1 k2
    induction l with
    | nil => exact id
    | cons o l ih =>
      cases o with
      | opn => simp only [Marked, Opened]; tauto
      | close => simp only [Marked, Opened]; tauto
      | start => simp only [Marked, Opened]; tauto
  unfold start at k1 k2 ⊢
  simp only [hd, Bool.false_eq_true, if_false, hany, if_true] at k1 k2 ⊢
  rw [Bool.and_eq_true, k2, k1, m1, m2]
  simp only [Marked, hd]
  tauto

/-- **C260**, false of the code: a program holds as well every handle given to a program before and still open.  So the reader of a pipe whose
writing end was given to the first program sees its end only when the second one has ended too. -/
theorem holds_of_others (own : Nat × Nat × Nat) (l m : List Op) (a b : Args) (ha : a.detached = false) (hb : b.detached = false)
    (h k : Nat) (hh : Given a h) (ho : Opened h l) (hk : Given b k) (hm : ∀ o ∈ m, o ≠ .close h) :
    (start own (run own init (m ++ .start a :: l).reverse) b).2.holds h = true := by
  rw [holds_iff own _ b hb k hk]
  left
  induction m with
  | nil => exact Or.inr ⟨ha, hh, ho⟩
  | cons o m ih =>
    have ih := ih fun x hx => hm x (by simp [hx])
    cases o with
    | opn => exact Or.inl ih
    | start => exact Or.inl ih
    | close x => exact ⟨fun e => hm (.close x) (by simp) (by rw [e]), ih⟩

/-- **C260**, what holds: a program holds only the handles given to it, if no handle was opened as inheritable and every handle
given to a program before was closed.
Missing: handles still open (`holds_of_others`). -/
theorem holds_own_partial (own : Nat × Nat × Nat) (l : List Op) (a : Args) (hi : ∀ k, .opn k true ∉ l)
    (hc : ∀ l1 b l2, l = l1 ++ .start b :: l2 → ∀ k, Given b k → .close k ∈ l1) (h : Nat)
    (hh : (start own (run own init l.reverse) a).2.holds h = true) : Given a h := by
  by_cases hd : a.detached = true
  · simp [start, hd] at hh
  have hd : a.detached = false := by simpa using hd
  by_cases hany : anyGiven a = true
  · have : ∃ k, Given a k := by
      unfold anyGiven at hany
      simp only [Bool.or_eq_true, Option.isSome_iff_exists] at hany
      rcases hany with (⟨k, hk⟩ | ⟨k, hk⟩) | ⟨k, hk⟩
      · exact ⟨k, Or.inl hk⟩
      · exact ⟨k, Or.inr (Or.inl hk)⟩
      · exact ⟨k, Or.inr (Or.inr hk)⟩
    obtain ⟨k, hk⟩ := this
    rw [holds_iff own l a hd k hk] at hh
    rcases hh with hh | hh
    · exfalso
      have : ∀ (l m : List Op), (∀ k, .opn k true ∉ l) → .close h ∉ m →
          (∀ l1 b l2, m ++ l = l1 ++ .start b :: l2 → ∀ k, Given b k → .close k ∈ l1) → ¬ Marked h l := by
        intro l
        induction l with
        | nil => intro m _ _ _ hm; exact hm
        | cons o l ih =>
          intro m h1 h2 h3 hm
          have h1' : ∀ k, .opn k true ∉ l := fun k hk => h1 k (by simp [hk])
          cases o with
          | opn k i =>
            rcases hm with hm | ⟨rfl, _, rfl⟩
            · exact ih (m ++ [.opn k i]) h1' (by simpa using h2) (by simpa using h3) hm
            · exact h1 k (by simp)
          | close k =>
            exact ih (m ++ [.close k]) h1' (by simpa using ⟨h2, fun e => hm.1 e.symm⟩) (by simpa using h3) hm.2
          | start b =>
            rcases hm with hm | ⟨_, hg, _⟩
            · exact ih (m ++ [.start b]) h1' (by simpa using h2) (by simpa using h3) hm
            · exact h2 (h3 m b l rfl h hg)
      exact this l [] hi (by simp) (by simpa using hc) hh
    · exact hh.2.1
  · simp [start, hd, hany] at hh

/-- Pipe 10/11, the writing end given to the first program; the second, which is given only its input 12, holds it too. -/
example : (start (1, 2, 3) (run (1, 2, 3) init [.opn 10 false, .opn 11 false, .opn 12 false, .start ⟨false, none, some 11, none⟩])
    ⟨false, some 12, none, none⟩).2.holds 11 = true ∧
    (start (1, 2, 3) (run (1, 2, 3) init [.opn 10 false, .opn 11 false, .opn 12 false, .start ⟨false, none, some 11, none⟩])
    ⟨false, some 12, none, none⟩).2.std = some (12, 2, 3) := by decide
/-- Closed in between, it does not. -/
example : (start (1, 2, 3) (run (1, 2, 3) init [.opn 10 false, .opn 11 false, .opn 12 false, .start ⟨false, none, some 11, none⟩,
    .close 11]) ⟨false, some 12, none, none⟩).2.holds 11 = false := by decide
example : Opened 11 [.opn 12 false, .opn 11 false] ∧ Given ⟨false, none, some 11, none⟩ 11 := by simp [Opened, Given]

end Verif.Win.StdHandles
