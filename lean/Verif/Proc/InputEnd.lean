import Mathlib.Logic.Function.Basic
import Mathlib.Data.List.Basic
import Mathlib.Data.List.Induction

/-!
# The end of the input of spawned programs (`src/async_io.c` 785-795, 835-845, 882-891, `src/os_unix.c` 536-567), C275

A program started with `spawn` reads its input from a pipe whose other end `exec_fdin` gives to the parent.  It finds the end of its
input once no process holds the end for writing.  The pipes are made without `O_CLOEXEC`, so every program started later has a copy
of the ends for writing the parent has then; the child closes its own only (src/os_unix.c:542-544).  Unix is modelled, with a
function for the output; programs are numbered, and which descriptors they use is left open.
-/

namespace Verif.Proc.InputEnd

/-- Who holds the end for writing of the input of program `i`: the parent, and the programs `j` with `holds j i`.  `errs`: the number of
descriptors of pipes for errors which the parent has open. -/
structure St where
  parent : Nat → Bool
  holds : Nat → Nat → Bool
  errs : Nat

/-- What happens: the parent spawns program `j` (`env`: with an environment), it closes the input of `i` (`close(exec_fdin(i))`), or
program `j` ends and its task tidies up. -/
inductive Ev
  | spawn (j : Nat) (env : Bool)
  | closeIn (i : Nat)
  | finish (j : Nat)
deriving DecidableEq

/-- `spawn_ex` with pipes and `os_exec_info` (src/async_io.c:882-891, src/os_unix.c:536-567); closing of descriptors when a program has
ended (src/async_io.c:790-795), which leaves the pipe for errors open. -/
def step (s : St) : Ev → St
  | .spawn j env =>
    ⟨Function.update s.parent j true, Function.update s.holds j (fun i => s.parent i && decide (i ≠ j)),
      s.errs + if env then 2 else 0⟩
  | .closeIn i => { s with parent := Function.update s.parent i false }
  | .finish j => { s with parent := Function.update s.parent j false, holds := Function.update s.holds j fun _ => false }

/-- Any sequence of events. -/
def run (s : St) (l : List Ev) : St := l.foldl step s

/-- Before the first program is spawned. -/
def init : St := ⟨fun _ => false, fun _ _ => false, 0⟩

/-- A read of program `i` from its empty input finds the end. -/
def Eof (s : St) (i : Nat) : Prop := s.parent i = false ∧ ∀ j, s.holds j i = false

/-! ## Specification -/

/-- Is the event one that spawns `j`? -/
def Spawns (j : Nat) (e : Ev) : Prop := ∃ env, e = .spawn j env

/-- The parent has the input of `i` open after `l`: it spawned it, and since then neither closed it nor saw it end. -/
def InputOpen (l : List Ev) (i : Nat) : Prop :=
  ∃ l1 l2 e, l = l1 ++ e :: l2 ∧ Spawns i e ∧ .closeIn i ∉ l2 ∧ .finish i ∉ l2

/-- After `l` program `j` is running that was spawned while the parent had the input of `i` open. -/
def SpawnedMeanwhile (l : List Ev) (i j : Nat) : Prop :=
  ∃ l1 l2 e, l = l1 ++ e :: l2 ∧ Spawns j e ∧ j ≠ i ∧ InputOpen l1 i ∧ .finish j ∉ l2 ∧ ∀ e' ∈ l2, ¬ Spawns j e'

/-! ## Proofs -/

theorem run_snoc (s : St) (l : List Ev) (e : Ev) : run s (l ++ [e]) = step (run s l) e := by
  simp [run]

/-- A splitting of `l ++ [x]` at `e` is at the end, or comes from one of `l`. -/
theorem split_snoc {l l1 l2 : List Ev} {x e : Ev} (h : l ++ [x] = l1 ++ e :: l2) :
    (l2 = [] ∧ l1 = l ∧ e = x) ∨ ∃ l3, l2 = l3 ++ [x] ∧ l = l1 ++ e :: l3 := by
  rcases List.eq_nil_or_concat l2 with rfl | ⟨l3, y, rfl⟩
  · have h' := List.append_inj' h rfl
    simp only [List.cons.injEq, and_true] at h'
    exact Or.inl ⟨rfl, h'.1.symm, h'.2.symm⟩
  · have e1 : l1 ++ e :: (l3 ++ [y]) = (l1 ++ e :: l3) ++ [y] := by simp
    rw [List.concat_eq_append, e1] at h
    have h' := List.append_inj' h rfl
    simp only [List.cons.injEq, and_true] at h'
    refine Or.inr ⟨l3, by rw [h'.2, List.concat_eq_append], h'.1⟩

theorem open_snoc (l : List Ev) (x : Ev) (i : Nat) :
    InputOpen (l ++ [x]) i ↔ Spawns i x ∨ (InputOpen l i ∧ x ≠ .closeIn i ∧ x ≠ .finish i) := by
  constructor
  · rintro ⟨l1, l2, e, h, he, h1, h2⟩
    rcases split_snoc h with ⟨rfl, rfl, rfl⟩ | ⟨l3, rfl, h3⟩
    · exact Or.inl he
    · simp only [List.mem_append, List.mem_singleton, not_or] at h1 h2
      exact Or.inr ⟨⟨l1, l3, e, h3, he, h1.1, h2.1⟩, fun c => h1.2 c.symm, fun c => h2.2 c.symm⟩
  · rintro (h | ⟨⟨l1, l2, e, rfl, he, h1, h2⟩, h3, h4⟩)
    · exact ⟨l, [], x, rfl, h, by simp, by simp⟩
    · refine ⟨l1, l2 ++ [x], e, by simp, he, ?_, ?_⟩
      · simp only [List.mem_append, List.mem_singleton, not_or]
        exact ⟨h1, fun c => h3 c.symm⟩
      · simp only [List.mem_append, List.mem_singleton, not_or]
        exact ⟨h2, fun c => h4 c.symm⟩

theorem meanwhile_snoc (l : List Ev) (x : Ev) (i j : Nat) :
    SpawnedMeanwhile (l ++ [x]) i j ↔
      (Spawns j x ∧ j ≠ i ∧ InputOpen l i) ∨ (SpawnedMeanwhile l i j ∧ x ≠ .finish j ∧ ¬ Spawns j x) := by
  constructor
  · rintro ⟨l1, l2, e, h, he, hji, ho, h1, h2⟩
    rcases split_snoc h with ⟨rfl, rfl, rfl⟩ | ⟨l3, rfl, h3⟩
    · exact Or.inl ⟨he, hji, ho⟩
    · simp only [List.mem_append, List.mem_singleton, not_or] at h1
      exact Or.inr ⟨⟨l1, l3, e, h3, he, hji, ho, h1.1, fun e' m => h2 e' (by simp [m])⟩, fun c => h1.2 c.symm, h2 x (by simp)⟩
  · rintro (⟨h, hji, ho⟩ | ⟨⟨l1, l2, e, rfl, he, hji, ho, h1, h2⟩, h3, h4⟩)
    · exact ⟨l, [], x, rfl, h, hji, ho, by simp, by simp⟩
    · refine ⟨l1, l2 ++ [x], e, by simp, he, hji, ho, ?_, ?_⟩
      · simp only [List.mem_append, List.mem_singleton, not_or]
        exact ⟨h1, fun c => h3 c.symm⟩
      · intro e' m
        rcases List.mem_append.1 m with m | m
        · exact h2 e' m
        · rw [List.mem_singleton.1 m]; exact h4

theorem parent_iff (l : List Ev) (i : Nat) : (run init l).parent i = true ↔ InputOpen l i := by
  induction l using List.reverseRecOn with
  | nil =>
    refine ⟨fun h => by simp [run, init] at h, ?_⟩
    rintro ⟨l1, l2, e, h, -⟩
    simp at h
  | append_singleton l x ih =>
    rw [run_snoc, open_snoc, ← ih]
    cases x with
    | spawn j env =>
      by_cases h : i = j
      · subst h; simp [step, Spawns]
      · simp [step, Spawns, Function.update_of_ne h, Ne.symm h]
    | closeIn j =>
      by_cases h : i = j
      · subst h; simp [step, Spawns]
      · simp [step, Spawns, Function.update_of_ne h, Ne.symm h]
    | finish j =>
      by_cases h : i = j
      · subst h; simp [step, Spawns]
      · simp [step, Spawns, Function.update_of_ne h, Ne.symm h]

theorem holds_iff (l : List Ev) (i j : Nat) : (run init l).holds j i = true ↔ SpawnedMeanwhile l i j := by
  induction l using List.reverseRecOn with
  | nil =>
    refine ⟨fun h => by simp [run, init] at h, ?_⟩
    rintro ⟨l1, l2, e, h, -⟩
    simp at h
  | append_singleton l x ih =>
    rw [run_snoc, meanwhile_snoc, ← ih, ← parent_iff]
    cases x with
    | spawn k env =>
      by_cases h : j = k
      · subst h
        simp only [step, Function.update_self, Spawns, Bool.and_eq_true, decide_eq_true_eq, Ev.spawn.injEq, true_and, exists_eq',
          not_true_eq_false, and_false, or_false]
        exact ⟨fun a => ⟨a.2.symm, a.1⟩, fun a => ⟨a.2, a.1.symm⟩⟩
      · simp [step, Spawns, Function.update_of_ne h, Ne.symm h]
    | closeIn k => simp [step, Spawns]
    | finish k =>
      by_cases h : j = k
      · subst h; simp [step, Spawns]
      · simp [step, Spawns, Function.update_of_ne h, Ne.symm h]

/-- **C275**: exactly when a program finds the end of its input: the parent has closed it (or never opened it), and no other program is
running that was spawned while it was open. -/
theorem eof_iff (l : List Ev) (i : Nat) : Eof (run init l) i ↔ ¬ InputOpen l i ∧ ∀ j, ¬ SpawnedMeanwhile l i j := by
  unfold Eof
  rw [← parent_iff]
  simp only [← holds_iff, Bool.not_eq_true]

/-- **C275**, what holds: if no other program is spawned between, a program finds the end of its input as soon as the parent has closed
it.  Missing: programs spawned between, see `no_eof`. -/
theorem eof_partial (l : List Ev) (i : Nat) (env : Bool) (m : List Ev) (hl : ∀ e ∈ l, ¬ Spawns i e)
    (hm : ∀ e ∈ m, ∀ j, ¬ Spawns j e) : Eof (run init (l ++ .spawn i env :: m ++ [.closeIn i])) i := by
  have key : ∀ m : List Ev, (∀ e ∈ m, ∀ j, ¬ Spawns j e) → ∀ j, (run init (l ++ .spawn i env :: m)).holds j i = false := by
    intro m
    induction m using List.reverseRecOn with
    | nil =>
      intro _ j
      have hp : (run init l).parent i = false := by
        by_contra c
        rw [Bool.not_eq_false, parent_iff] at c
        obtain ⟨l1, l2, e, rfl, he, -⟩ := c
        exact hl e (by simp) he
      have hh : (run init l).holds j i = false := by
        by_contra c
        rw [Bool.not_eq_false, holds_iff] at c
        obtain ⟨l1, l2, e, rfl, -, -, ⟨l3, l4, e', rfl, he', -⟩, -⟩ := c
        exact hl e' (by simp) he'
      rw [run_snoc]
      by_cases h : j = i
      · subst h; simp [step]
      · simp [step, Function.update_of_ne h, hh]
    | append_singleton m x ih =>
      intro hm j
      have hi := ih (fun e he => hm e (by simp [he])) j
      rw [show l ++ Ev.spawn i env :: (m ++ [x]) = (l ++ Ev.spawn i env :: m) ++ [x] by simp, run_snoc]
      cases x with
      | spawn k e => exact absurd ⟨e, rfl⟩ (hm (.spawn k e) (by simp) k)
      | closeIn k => exact hi
      | finish k =>
        by_cases h : j = k
        · subst h; simp [step]
        · simpa [step, Function.update_of_ne h] using hi
  rw [run_snoc]
  exact ⟨by simp [step], fun j => key m hm j⟩

/-- **C275**, false of the code: a program spawned while the input of another is open keeps it open.  Whatever the parent does, also if
it closes that input, the other program does not find the end before the second program has ended. -/
theorem no_eof (s : St) (i j : Nat) (hji : i ≠ j) (env : Bool) (hs : s.parent i = true) (l : List Ev) (hf : .finish j ∉ l)
    (hj : ∀ e ∈ l, ¬ Spawns j e) : ¬ Eof (run s (.spawn j env :: l)) i := by
  have key : ∀ (l : List Ev) (t : St), t.holds j i = true → .finish j ∉ l → (∀ e ∈ l, ¬ Spawns j e) → (run t l).holds j i = true := by
    intro l
    induction l with
    | nil => exact fun _ h _ _ => h
    | cons x l ih =>
      intro t ht h1 h2
      simp only [List.mem_cons, not_or] at h1
      refine ih (step t x) ?_ h1.2 fun e he => h2 e (by simp [he])
      cases x with
      | spawn k e =>
        have hk : j ≠ k := by rintro rfl; exact h2 (.spawn j e) (by simp) ⟨e, rfl⟩
        simpa [step, Function.update_of_ne hk] using ht
      | closeIn k => exact ht
      | finish k =>
        have hk : j ≠ k := by rintro rfl; exact h1.1 rfl
        simpa [step, Function.update_of_ne hk] using ht
  intro h
  have := key l (step s (.spawn j env)) (by simp [step, hs, hji]) hf hj
  have h2 := h.2 j
  change (run (step s (.spawn j env)) l).holds j i = false at h2
  rw [this] at h2
  exact absurd h2 (by decide)

/-- **C275**, false of the code: two programs that read to the end of their input and then end.  The parent has closed both inputs, and
the first does not find the end until the second has. -/
theorem waits_for_other (i j : Nat) (h : i ≠ j) (e e' : Bool) :
    ¬ Eof (run init [.spawn i e, .spawn j e', .closeIn i, .closeIn j]) i ∧
    Eof (run init [.spawn i e, .spawn j e', .closeIn i, .closeIn j]) j ∧
    Eof (run init [.spawn i e, .spawn j e', .closeIn i, .closeIn j, .finish j]) i := by
  refine ⟨?_, ?_, ?_⟩
  · exact no_eof (step init (.spawn i e)) i j h e' (by simp [step]) [.closeIn i, .closeIn j] (by simp) (by simp [Spawns])
  · refine ⟨by simp [run, step], fun k => ?_⟩
    by_cases hk : k = j
    · subst hk; simp [run, step]
    · by_cases hk' : k = i
      · subst hk'; simp [run, step, init, Function.update_of_ne hk]
      · simp [run, step, init, Function.update_of_ne hk, Function.update_of_ne hk']
  · refine ⟨by simp [run, step, Function.update_of_ne h], fun k => ?_⟩
    by_cases hk : k = j
    · subst hk; simp [run, step]
    · by_cases hk' : k = i
      · subst hk'; simp [run, step, init, Function.update_of_ne hk]
      · simp [run, step, init, Function.update_of_ne hk, Function.update_of_ne hk']

/-- Number of programs spawned with an environment. -/
def withEnv : List Ev → Nat
  | [] => 0
  | .spawn _ true :: l => withEnv l + 1
  | _ :: l => withEnv l

/-- **C275**, false of the code: each program spawned with an environment leaves two descriptors open for good, also when all have
ended. -/
theorem errs_left (l : List Ev) (s : St) : (run s l).errs = s.errs + 2 * withEnv l := by
  induction l generalizing s with
  | nil => rfl
  | cons x l ih =>
    change (run (step s x) l).errs = _
    rw [ih]
    rcases x with ⟨j, _ | _⟩ | i | j <;> simp [step, withEnv] <;> omega

/-! ## Examples -/

/-- One program alone finds the end of its input. -/
example : Eof (run init [.spawn 0 false, .closeIn 0]) 0 := eof_partial [] 0 false [] (by simp) (by simp)
/-- Program 1 is spawned between; program 0 waits for it. -/
example : (run init [.spawn 0 true, .spawn 1 false, .closeIn 0]).holds 1 0 = true := by decide
example : ¬ Eof (run init [.spawn 0 true, .spawn 1 false, .closeIn 0, .closeIn 1]) 0 := (waits_for_other 0 1 (by decide) true false).1
example : (run init [.spawn 0 true, .finish 0, .spawn 1 true, .finish 1]).errs = 4 := by decide
example : InputOpen [.spawn 0 true, .closeIn 1] 0 := ⟨[], [.closeIn 1], .spawn 0 true, rfl, ⟨true, rfl⟩, by decide, by decide⟩

end Verif.Proc.InputEnd
