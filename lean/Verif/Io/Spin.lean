import Mathlib.Logic.Function.Basic

/-!
# The spin lock (`include/catomics.h` 710-724), C54

Any number of threads use one lock.  A step of a thread is one atomic operation; memory is sequentially consistent (the real
operations are acquire and release, see DESIGN.md).
-/

namespace Verif.Io.Spin

/-- Where a thread is: outside, before the test-and-set, in the inner loop that only reads, or between lock and unlock. -/
inductive Pc where
  | idle
  | tas
  | spin
  | crit
  deriving DecidableEq

structure St where
  flag : Bool
  pcs : Nat → Pc

inductive Act where
  | lock (i : Nat)
  | unlock (i : Nat)
  | go (i : Nat)

def St.set (s : St) (i : Nat) (p : Pc) : St := { s with pcs := Function.update s.pcs i p }

/-- `atomic_spinlock_lock` (712-720): `tas` is the outer loop, `spin` the inner one; `atomic_spinlock_unlock` (722-724).  A thread
calls `lock` only when idle and `unlock` only when it holds the lock; other requests do nothing. -/
def step (s : St) : Act → St
  | .lock i => if s.pcs i = .idle then s.set i .tas else s
  | .unlock i => if s.pcs i = .crit then { s.set i .idle with flag := false } else s
  | .go i =>
    match s.pcs i with
    | .tas => if s.flag then { s.set i .spin with flag := true } else { s.set i .crit with flag := true }
    | .spin => if s.flag then s else s.set i .tas
    | _ => s

def init : St := { flag := false, pcs := fun _ => .idle }

def run (as : List Act) : St := as.foldl step init

/-- Specification: thread `i` is between lock and unlock. -/
def Holds (s : St) (i : Nat) : Prop := s.pcs i = .crit

structure Inv (s : St) : Prop where
  unique : ∀ i j, Holds s i → Holds s j → i = j
  free : s.flag = false → ∀ i, ¬ Holds s i
  held : s.flag = true → ∃ i, Holds s i

theorem step_inv {s : St} (h : Inv s) (a : Act) : Inv (step s a) := by
  obtain ⟨flag, pcs⟩ := s
  obtain ⟨h1, h2, h3⟩ := h
  have out : ∀ (i : Nat) (p : Pc), pcs i ≠ .crit → p ≠ .crit → Inv ⟨flag, Function.update pcs i p⟩ := by
    intro i p hi hp
    have e : ∀ j, Holds ⟨flag, Function.update pcs i p⟩ j ↔ Holds ⟨flag, pcs⟩ j := by
      intro j
      unfold Holds
      by_cases hj : j = i
      · subst hj; simp [hi, hp]
      · simp [Function.update_of_ne hj]
    refine ⟨fun j k => ?_, fun hf j => ?_, fun hf => ?_⟩
    · rw [e, e]; exact h1 j k
    · rw [e]; exact h2 hf j
    · obtain ⟨j, hj⟩ := h3 hf
      exact ⟨j, (e j).2 hj⟩
  cases a with
  | lock i =>
    simp only [step]
    split
    · rename_i hi
      exact out i .tas (by rw [hi]; decide) (by decide)
    · exact ⟨h1, h2, h3⟩
  | unlock i =>
    simp only [step]
    split
    · rename_i hi
      have none_ : ∀ j, ¬ Function.update pcs i Pc.idle j = .crit := by
        intro j hj
        by_cases e : j = i
        · subst e; simp at hj
        · rw [Function.update_of_ne e] at hj
          exact e (h1 j i hj hi)
      exact ⟨fun j k hj => absurd hj (none_ j), fun _ j => none_ j, fun hf => by simp at hf⟩
    · exact ⟨h1, h2, h3⟩
  | go i =>
    simp only [step]
    split
    · rename_i hi
      split
      · rename_i hf
        subst hf
        exact out i .spin (by rw [hi]; decide) (by decide)
      · rename_i hf
        have hf : flag = false := by simpa using hf
        have hn := h2 hf
        refine ⟨fun j k hj hk => ?_, fun hf => by simp at hf, fun _ => ⟨i, by simp [Holds, St.set]⟩⟩
        have only : ∀ j, Function.update pcs i Pc.crit j = .crit → j = i := by
          intro j hj
          by_contra e
          rw [Function.update_of_ne e] at hj
          exact hn j hj
        rw [only j hj, only k hk]
    · rename_i hi
      split
      · exact ⟨h1, h2, h3⟩
      · exact out i .tas (by rw [hi]; decide) (by decide)
    · exact ⟨h1, h2, h3⟩

theorem run_inv (as : List Act) : Inv (run as) := by
  unfold run
  have : ∀ s, Inv s → Inv (as.foldl step s) := by
    induction as with
    | nil => exact fun _ h => h
    | cons a as ih => exact fun s h => ih _ (step_inv h a)
  exact this _ ⟨fun i j h => by simp [Holds, init] at h, fun _ i h => by simp [Holds, init] at h, fun h => by simp [init] at h⟩

/-- Claim C54: at most one thread holds the lock, for all numbers of threads and interleavings. -/
theorem mutual_exclusion (as : List Act) (i j : Nat) (hi : Holds (run as) i) (hj : Holds (run as) j) : i = j :=
  (run_inv as).unique i j hi hj

/-- The lock is not lost: whenever nobody holds it, a thread that wants it and runs alone gets it after at most two steps. -/
theorem free_lock_is_taken (as : List Act) (i : Nat) (hf : ∀ j, ¬ Holds (run as) j) (hi : (run as).pcs i ≠ .idle) :
    Holds (run (as ++ [.go i])) i ∨ Holds (run (as ++ [.go i, .go i])) i := by
  have h := run_inv as
  have hflag : (run as).flag = false := by
    by_contra hc
    obtain ⟨j, hj⟩ := h.held (by simpa using hc)
    exact hf j hj
  unfold run
  rw [List.foldl_append, List.foldl_append]
  change Holds ([Act.go i].foldl step (run as)) i ∨ Holds ([Act.go i, .go i].foldl step (run as)) i
  simp only [List.foldl_cons, List.foldl_nil]
  cases hp : (run as).pcs i with
  | idle => exact absurd hp hi
  | crit => exact absurd hp (hf i)
  | tas => left; simp [step, hp, hflag, Holds, St.set]
  | spin => right; simp [step, hp, hflag, Holds, St.set]

/-- A case with three threads: one holds the lock, one spins, and after the unlock the spinning one gets it. -/
example : (run [.lock 1, .lock 2, .go 1, .go 2, .go 2]).pcs 1 = .crit ∧
    (run [.lock 1, .lock 2, .go 1, .go 2, .go 2]).pcs 2 = .spin ∧
    (run [.lock 1, .lock 2, .go 1, .go 2, .unlock 1, .go 2, .go 2]).pcs 2 = .crit := by decide

end Verif.Io.Spin
