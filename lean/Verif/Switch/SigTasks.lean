import Mathlib.Logic.Function.Basic
import Mathlib.Tactic.ByContra
import Verif.Basic

/-!
# Making tasks in several threads, `setjmp` variant, C218

Without assembly (on Linux: all machines but x86; include/events.h:38-46, src/events_internal.h:6-41) `task_derive` (src/events.c:1469-1509)
makes the context of a task by raising `SIGUSR1` with a handler of its own on the stack of the new task.  The stack for signals belongs to
a thread, the handler to the whole program.

One thread after the other takes one step; which is arbitrary.  Simplified: system calls do not fail, and nobody else sends `SIGUSR1` or
changes its handler meanwhile.
-/

namespace Verif.Switch.SigTasks

/-- What the program does with `SIGUSR1`.  `board` is `_spring_board`. -/
inductive Disp where
  | default
  | ignore
  | user (h : Nat)
  | board
  deriving DecidableEq, Repr

/-- Where a thread is in `task_derive`: before `sigaction`, line 1492; before `raise`, 1493, with `old_handler`; before the second
`sigaction`, 1498, with whether `_spring_board` has run (and so the context of the task was set by `sigsetjmp`, 1449). -/
inductive Pc where
  | idle
  | armed (old : Disp)
  | raised (old : Disp) (set : Bool)
  deriving DecidableEq, Repr

structure St where
  disp : Disp
  pc : Nat → Pc := fun _ => .idle
  /-- the program was ended by the signal -/
  dead : Bool := false
  /-- tasks made, the newest first: the thread, and whether the context of the task is set -/
  made : List (Nat × Bool) := []

/-- Thread `t` takes its next step.  In line 1493 `raise` gives 0 whoever handles the signal, so the task counts as made. -/
def step (s : St) (t : Nat) : St :=
  if s.dead then s
  else match s.pc t with
    | .idle => { s with pc := Function.update s.pc t (.armed s.disp), disp := .board }
    | .armed old => match s.disp with
      | .default => { s with dead := true }
      | .board => { s with pc := Function.update s.pc t (.raised old true) }
      | _ => { s with pc := Function.update s.pc t (.raised old false) }
    | .raised old b => { s with pc := Function.update s.pc t .idle, disp := old, made := (t, b) :: s.made }

def run (s : St) (l : List Nat) : St := l.foldl step s

/-- At the start: no thread makes a task. -/
def start (d : Disp) : St := { disp := d }

/-- No thread begins to make a task while another is at it. -/
def OneAtATime (s : St) : List Nat → Prop
  | [] => True
  | t :: l => (s.pc t = .idle → ∀ u, s.pc u = .idle) ∧ OneAtATime (step s t) l

/-- At most one thread is at it; then the handler is `_spring_board`, and the thread remembers the one of the program. -/
def Inv (d : Disp) (s : St) : Prop :=
  s.dead = false ∧ (∀ e ∈ s.made, e.2 = true) ∧
    (((∀ u, s.pc u = .idle) ∧ s.disp = d) ∨
      (∃ t, (∀ u, u ≠ t → s.pc u = .idle) ∧ s.disp = .board ∧ (s.pc t = .armed d ∨ s.pc t = .raised d true)))

theorem step_inv {d : Disp} {s : St} (h : Inv d s) {t : Nat} (ht : s.pc t = .idle → ∀ u, s.pc u = .idle) : Inv d (step s t) := by
  obtain ⟨h1, h2, h3⟩ := h
  unfold step
  rw [h1]
  rw [if_neg (by decide)]
  rcases h3 with ⟨h3, h4⟩ | ⟨t', h3, h4, h5⟩
  · rw [h3 t]
    refine ⟨rfl, h2, Or.inr ⟨t, fun u hu => ?_, rfl, Or.inl ?_⟩⟩
    · show Function.update s.pc t _ u = _
      rw [Function.update_of_ne hu, h3 u]
    · show Function.update s.pc t _ t = _
      rw [Function.update_self, h4]
  · have htt : t = t' := by
      by_contra hc
      have := ht (h3 t hc) t'
      rcases h5 with h5 | h5 <;> rw [h5] at this <;> cases this
    subst htt
    rcases h5 with h5 | h5
    · rw [h5, h4]
      refine ⟨rfl, h2, Or.inr ⟨t, fun u hu => ?_, rfl, Or.inr ?_⟩⟩
      · show Function.update s.pc t _ u = _
        rw [Function.update_of_ne hu, h3 u hu]
      · show Function.update s.pc t _ t = _
        rw [Function.update_self]
    · rw [h5]
      refine ⟨rfl, ?_, Or.inl ⟨fun u => ?_, rfl⟩⟩
      · intro e he
        rcases List.mem_cons.1 he with rfl | he
        · rfl
        · exact h2 e he
      · show Function.update s.pc t _ u = _
        by_cases hu : u = t
        · rw [hu, Function.update_self]
        · rw [Function.update_of_ne hu, h3 u hu]

theorem run_inv {d : Disp} : ∀ (l : List Nat) {s : St}, Inv d s → OneAtATime s l → Inv d (run s l) := by
  intro l
  induction l with
  | nil => intro s h _; exact h
  | cons t l ih => intro s h hl; exact ih (step_inv h hl.1) hl.2

/-- **C218, the part that holds.**  As long as no two threads make tasks at the same time, in every execution: the program is not ended, the
context of every task made is set, and whenever no thread is at it `SIGUSR1` is handled as it was at first. -/
theorem one_at_a_time_partial (d : Disp) (l : List Nat) (hl : OneAtATime (start d) l) :
    (run (start d) l).dead = false ∧ (∀ e ∈ (run (start d) l).made, e.2 = true) ∧
      ((∀ u, (run (start d) l).pc u = .idle) → (run (start d) l).disp = d) := by
  obtain ⟨h1, h2, h3⟩ := run_inv l (d := d) (s := start d) ⟨rfl, by simp [start], Or.inl ⟨fun _ => rfl, rfl⟩⟩ hl
  refine ⟨h1, h2, fun h => ?_⟩
  rcases h3 with ⟨_, h3⟩ | ⟨t, _, _, h4 | h4⟩
  · exact h3
  · rw [h t] at h4; cases h4
  · rw [h t] at h4; cases h4

/-- In particular a single thread can make any number of tasks. -/
theorem one_thread_partial (t n : Nat) (s : St) (hs : ∀ u, u ≠ t → s.pc u = .idle) : OneAtATime s (List.replicate n t) := by
  induction n generalizing s with
  | zero => trivial
  | succ n ih =>
    refine ⟨fun h u => ?_, ih _ fun u hu => ?_⟩
    · by_cases hu : u = t
      · rw [hu, h]
      · exact hs u hu
    · unfold step
      split
      · exact hs u hu
      · split
        · show Function.update s.pc t _ u = _; rw [Function.update_of_ne hu, hs u hu]
        · split
          · exact hs u hu
          · show Function.update s.pc t _ u = _; rw [Function.update_of_ne hu, hs u hu]
          · show Function.update s.pc t _ u = _; rw [Function.update_of_ne hu, hs u hu]
        · show Function.update s.pc t _ u = _; rw [Function.update_of_ne hu, hs u hu]

example : OneAtATime (start (.user 5)) [1, 1, 1, 2, 2, 2] ∧ (run (start (.user 5)) [1, 1, 1, 2, 2, 2]).made = [(2, true), (1, true)] ∧
    (run (start (.user 5)) [1, 1, 1, 2, 2, 2]).disp = .user 5 := by
  refine ⟨⟨fun _ _ => rfl, by simp [step, start], by simp [step, start], fun _ u => ?_, by simp [step, start], by simp [step, start], trivial⟩,
    by simp [run, step, start], by simp [run, step, start]⟩
  by_cases hu : u = 1 <;> simp [step, start, Function.update, hu]

/-- **C218 is false of the code: the program can be ended.**  Two threads make a task each, the second takes the handler of the first for
that of the program; the first puts the default back, and the signal of the second ends the program. -/
theorem two_threads_end_program (t u : Nat) (h : t ≠ u) : (run (start .default) [t, u, t, t, u]).dead = true := by
  simp [run, step, start, h, h.symm]

/-- **C218 is false of the code: a task without a context.**  If the program has a handler for `SIGUSR1`, or ignores it, the task of the
second thread is made without its context being set; the first switch to it jumps to nowhere. -/
theorem two_threads_lose_context (t u : Nat) (h : t ≠ u) (d : Disp) (hd : d ≠ .default) (hb : d ≠ .board) :
    (run (start d) [t, u, t, t, u, u]).made = [(u, false), (t, true)] := by
  cases d with
  | default => exact absurd rfl hd
  | board => exact absurd rfl hb
  | ignore => simp [run, step, start, h, h.symm]
  | user n => simp [run, step, start, h, h.symm]

/-- **C218 is false of the code: the handler of the program is lost.**  After two overlapping calls that both succeed no thread is at it,
and `SIGUSR1` goes to `_spring_board` from then on. -/
theorem two_threads_lose_handler (t u : Nat) (h : t ≠ u) (d : Disp) :
    (run (start d) [t, u, t, u, t, u]).disp = .board ∧ (∀ x, (run (start d) [t, u, t, u, t, u]).pc x = .idle) ∧
      (run (start d) [t, u, t, u, t, u]).made = [(u, true), (t, true)] := by
  refine ⟨by simp [run, step, start, h, h.symm], fun x => ?_, by simp [run, step, start, h, h.symm]⟩
  by_cases h1 : x = t <;> by_cases h2 : x = u <;> simp [run, step, start, h, h.symm, Function.update, h1, h2]

end Verif.Switch.SigTasks
