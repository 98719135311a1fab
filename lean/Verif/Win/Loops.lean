import Mathlib.Data.List.Basic
import Mathlib.Data.List.Count
import Mathlib.Logic.Function.Basic
import Mathlib.Tactic.Cases

/-!
# Several loops and one completion port on Windows (`src/os_windows.c` 489-546, `src/events.c` 539-639, 955-956), C259

All loops, each in a thread of its own, fetch the ends of operations from one completion port.  Here any number of loops add and remove descriptors of the kinds that are served by
the port (`is_iodispatch`), operations end, and loops fetch, in any order.

Simplified: a callback is one step; the parts of `events_add` and `events_del` that deal with timeouts and with epoll are in other models (C35).
-/

namespace Verif.Win.Loops

/-- For the descriptors: the loop (`target->loop`), and `target->is_iodispatch`.  For the loops: `active_io`.  `port`: the ends of operations that wait.  `ran`: the callbacks called, each
with the loop whose thread did it. -/
structure St where
  owner : Nat → Option Nat := fun _ => none
  iod : Nat → Bool := fun _ => false
  io : Nat → Int := fun _ => 0
  port : List Nat := []
  ran : List (Nat × Nat) := []

inductive Ev where
  /-- `events_add(i, fd, …)` -/
  | add (i fd : Nat)
  /-- `events_del(fd)` -/
  | del (fd : Nat)
  /-- an operation of `fd` ends -/
  | done (fd : Nat)
  /-- loop `i` is in `os_iodispatch` and goes once round -/
  | fetch (i : Nat)

/-- One event.  `checked fd`: the type of the descriptor is one for which the `default` case looks at the registration (os_windows.c:531-534); for child processes, pipes, files
and directories (519-530) it is not looked at.  `none`: a null pointer is followed. -/
def step (checked : Nat → Bool) (s : St) : Ev → Option St
  /- events.c:539-605 -/
  | .add i fd => some { s with
      owner := Function.update s.owner fd (some i)
      iod := Function.update s.iod fd true
      io := Function.update s.io i (s.io i + 1) }
  /- events.c:607-639: 626-628 uses `loop` before the test of 631 -/
  | .del fd =>
    if s.iod fd then
      match s.owner fd with
      | none => none
      | some i => some { s with
          owner := Function.update s.owner fd none
          io := Function.update s.io i (s.io i - 1) }
    else some s
  | .done fd => some { s with port := s.port ++ [fd] }
  /- events.c:955-956, os_windows.c:499-543 -/
  | .fetch i =>
    if s.io i ≠ 0 then
      match s.port with
      | [] => some s
      | fd :: r =>
        if checked fd && (s.owner fd).isNone then some { s with port := r }
        else some { s with
          port := r
          ran := s.ran ++ [(fd, i)] }
    else some s

def run (checked : Nat → Bool) : St → List Ev → Option St
  | s, [] => some s
  | s, e :: l => (step checked s e).bind fun s => run checked s l

/-- How many operations of a descriptor ended. -/
def ended (fd : Nat) (l : List Ev) : Nat := l.countP fun e => match e with | .done f => f == fd | _ => false

/-- How often its callback was called. -/
def called (s : St) (fd : Nat) : Nat := s.ran.countP fun x => x.1 == fd

/-! ## C259 -/

theorem count_step (checked : Nat → Bool) (fd : Nat) (s s' : St) (e : Ev) (h : step checked s e = some s') :
    called s' fd + s'.port.count fd ≤ called s fd + s.port.count fd + ended fd [e] ∧
      (checked fd = false → called s' fd + s'.port.count fd = called s fd + s.port.count fd + ended fd [e]) := by
  cases e with
  | add i f => cases h; simp [called, ended]
  | del f =>
    simp only [step] at h
    split at h
    · split at h
      · cases h
      · cases h; simp [called, ended]
    · cases h; simp [ended]
  | done f =>
    cases h
    simp only [called, ended, List.count_append, List.countP_cons, List.countP_nil, List.count_singleton]
    constructor
    · omega
    · intro _; omega
  | fetch i =>
    simp only [step] at h
    split at h
    · cases hp : s.port with
      | nil => rw [hp] at h; cases h; simp [hp, ended]
      | cons f r =>
        rw [hp] at h
        simp only at h
        split at h
        · rename_i hc
          cases h
          simp only [called, ended, List.count_cons, List.countP_cons, List.countP_nil]
          constructor
          · omega
          · intro hf
            have : (f == fd) = false := by
              rw [beq_eq_false_iff_ne]
              rintro rfl
              rw [hf] at hc
              simp at hc
            simp [this]
        · cases h
          simp only [called, ended, List.count_cons, List.countP_cons, List.countP_nil, List.countP_append, Bool.false_eq_true, if_false]
          constructor
          · omega
          · intro _; omega
    · cases h; simp [ended]

/-- In every schedule: no callback is called more often than operations ended; and for the kinds that are not looked at, each end is either still in the port or was passed on
once. -/
theorem passed_once_partial (checked : Nat → Bool) (fd : Nat) (l : List Ev) : ∀ s s', run checked s l = some s' →
    called s' fd + s'.port.count fd ≤ called s fd + s.port.count fd + ended fd l ∧
      (checked fd = false → called s' fd + s'.port.count fd = called s fd + s.port.count fd + ended fd l) := by
  induction l with
  | nil => intro s s' h; cases h; simp [ended]
  | cons e l ih =>
    intro s s' h
    simp only [run] at h
    cases hs : step checked s e with
    | none => rw [hs] at h; cases h
    | some s1 =>
      rw [hs] at h
      have h1 := count_step checked fd s s1 e hs
      have h2 := ih s1 s' h
      have h3 : ended fd (e :: l) = ended fd [e] + ended fd l := by simp [ended, List.countP_cons]; omega
      rw [h3]
      constructor
      · omega
      · intro hc
        have a := h1.2 hc
        have b := h2.2 hc
        omega

/-- If only loop `i` ever adds such descriptors, all callbacks are called in its thread. -/
theorem one_loop_partial (checked : Nat → Bool) (i : Nat) (l : List Ev) (hl : ∀ j fd, Ev.add j fd ∈ l → j = i) (s' : St) (h : run checked {} l = some s') :
    ∀ x ∈ s'.ran, x.2 = i := by
  have key : ∀ (l : List Ev) (s : St), (∀ j fd, Ev.add j fd ∈ l → j = i) → (∀ j, j ≠ i → s.io j = 0) → (∀ fd j, s.owner fd = some j → j = i) → (∀ x ∈ s.ran, x.2 = i) →
      ∀ s', run checked s l = some s' → ∀ x ∈ s'.ran, x.2 = i := by
    intro l
    induction l with
    | nil => intro s _ _ _ h3 s' h; cases h; exact h3
    | cons e l ih =>
      intro s hl h1 h2 h3 s' h
      simp only [run] at h
      cases hs : step checked s e with
      | none => rw [hs] at h; cases h
      | some s1 =>
        rw [hs] at h
        replace h : run checked s1 l = some s' := h
        have hl' : ∀ j fd, Ev.add j fd ∈ l → j = i := fun j fd hm => hl j fd (List.mem_cons_of_mem _ hm)
        cases e with
        | add j f =>
          have hj := hl j f (by simp)
          subst hj
          cases hs
          refine ih _ hl' ?_ ?_ ?_ s' h
          rotate_right
          · exact h3
          · intro k hk
            simp only [Function.update_of_ne hk]
            exact h1 k hk
          · intro fd k hk
            simp only at hk
            by_cases e : fd = f
            · subst e; rw [Function.update_self] at hk; cases hk; rfl
            · rw [Function.update_of_ne e] at hk; exact h2 fd k hk
        | del f =>
          simp only [step] at hs
          split at hs
          · split at hs
            · cases hs
            · rename_i k hk
              have := h2 f k hk
              subst this
              cases hs
              refine ih _ hl' ?_ ?_ ?_ s' h
              rotate_right
              · exact h3
              · intro m hm
                simp only [Function.update_of_ne hm]
                exact h1 m hm
              · intro fd m hm
                simp only at hm
                by_cases e : fd = f
                · subst e; rw [Function.update_self] at hm; cases hm
                · rw [Function.update_of_ne e] at hm; exact h2 fd m hm
          · cases hs; exact ih s hl' h1 h2 h3 s' h
        | done f =>
          cases hs
          refine ih _ hl' ?_ ?_ ?_ s' h
          · exact h1
          · exact h2
          · exact h3
        | fetch j =>
          simp only [step] at hs
          split at hs
          · rename_i hio
            have hj : j = i := by
              by_contra hne
              exact hio (h1 j hne)
            subst hj
            split at hs
            · cases hs; exact ih _ hl' h1 h2 h3 s' h
            · split at hs
              · cases hs
                refine ih _ hl' ?_ ?_ ?_ s' h
                · exact h1
                · exact h2
                · exact h3
              · cases hs
                refine ih _ hl' ?_ ?_ ?_ s' h
                · exact h1
                · exact h2
                intro x hx
                simp only [List.mem_append, List.mem_singleton] at hx
                rcases hx with hx | rfl
                · exact h3 x hx
                · rfl
          · cases hs; exact ih _ hl' h1 h2 h3 s' h
  exact key l {} hl (fun _ _ => rfl) (fun _ _ hk => by cases hk) (fun _ hx => by cases hx) s' h

/-- With a second loop that has such a descriptor, the callback of the first loop's descriptor is called in the thread of the second, for every kind. -/
theorem other_thread (checked : Nat → Bool) (i j fd fd' : Nat) (hij : i ≠ j) (hf : fd ≠ fd') :
    ∃ s', run checked {} [.add i fd, .add j fd', .done fd, .fetch j] = some s' ∧ s'.owner fd = some i ∧ s'.ran = [(fd, j)] := by
  simp [run, step, Function.update_of_ne hf, Function.update_of_ne (Ne.symm hij)]

/-- For child processes, pipes, files and directories the callback is called after the descriptor was removed from its loop, as long as the loop has another one. -/
theorem after_removal (checked : Nat → Bool) (i fd fd' : Nat) (hf : fd ≠ fd') (hc : checked fd = false) :
    ∃ s', run checked {} [.add i fd, .add i fd', .done fd, .del fd, .fetch i] = some s' ∧ s'.owner fd = none ∧ s'.ran = [(fd, i)] := by
  simp [run, step, Function.update_of_ne hf, hc]

/-- For the other kinds it is not, in any state. -/
theorem not_after_removal_partial (checked : Nat → Bool) (s : St) (i fd : Nat) (r : List Nat) (hp : s.port = fd :: r) (hc : checked fd = true) (ho : s.owner fd = none) :
    ∃ s', step checked s (.fetch i) = some s' ∧ s'.ran = s.ran := by
  by_cases h : s.io i = 0
  · exact ⟨s, by simp [step, h], rfl⟩
  · exact ⟨{ s with port := r }, by simp [step, h, hp, hc, ho], rfl⟩

/-- Removing such a descriptor a second time follows a null pointer, in every state. -/
theorem removed_twice (checked : Nat → Bool) (s : St) (i fd : Nat) : run checked s [.add i fd, .del fd, .del fd] = none := by
  simp [run, step]

/-- Removing one that was never added does nothing. -/
theorem never_added_partial (checked : Nat → Bool) (s : St) (fd : Nat) (h : s.iod fd = false) : step checked s (.del fd) = some s := by
  simp [step, h]

/-- Two loops, a child process (3) with the first, another (4) with the second; the second fetches both ends. -/
example : (run (fun _ => false) {} [.add 0 3, .add 1 4, .done 3, .done 4, .fetch 1, .fetch 1, .fetch 0]).map St.ran = some [(3, 1), (4, 1)] := by rfl

/-- One loop with two descriptors, three ends: two passed on, one waits. -/
example : (run (fun _ => false) {} [.add 0 3, .add 0 4, .done 3, .done 4, .done 3, .fetch 0, .fetch 0]).map (fun s => (s.ran, s.port)) = some ([(3, 0), (4, 0)], [3]) := by rfl

end Verif.Win.Loops
