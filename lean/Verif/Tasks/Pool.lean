import Mathlib.Tactic

/-!
# Tasks handed to a thread of the pool (`go`, `enqueue_tasks`, `task_take`, src/events.c), C105

One thread starts tasks for a pool thread and that thread takes them, in any interleaving.  The queue itself is modelled in `Verif.Deque`: with one
producer and one thief that is not overtaken by a growth, a push adds at the end and a steal takes from the front (C24, C26).  Here it is that list; what
is modelled is the counter `available` beside it, which is not changed together with the queue.
-/

namespace Verif.Tasks.Pool

/-- Where the pool thread is in `task_take`: outside, in the loop with counter `i` and bound `n`, or between taking `t` from the queue and
decrementing `available`. -/
inductive Worker where
  | out
  | loop (i n : Int)
  | got (t : Nat) (i n : Int)
  deriving DecidableEq

/-- `queue`: the deque, oldest first; `adding`: the starting thread is between `deque_push` and the increment of `available`; `started`: the tasks given
to `go`, in order; `run`: the tasks put on the run queue of the pool thread, in order; `missed`: how often the thread found the queue empty in its
loop. -/
structure St where
  queue : List Nat
  available : Int
  adding : Bool
  worker : Worker
  started : List Nat
  run : List Nat
  missed : Nat
  deriving DecidableEq

def St.init : St := ⟨[], 0, false, .out, [], [], 0⟩

/-- The steps; the first two are of the starting thread. -/
inductive Step where
  | push (t : Nat)
  | count
  | load
  | steal
  | enqueue

/-- `enqueue_tasks`, src/events.c:2481-2488 (`push`: line 2486, `count`: line 2487), and `task_take`, src/events.c:2446-2479 (`load`: line 2451, `steal`:
lines 2452-2459, `enqueue`: lines 2461-2475).  A step that a thread cannot do now changes nothing. -/
def step (s : St) : Step → St
  | .push t => if s.adding then s else { s with queue := s.queue ++ [t], adding := true, started := s.started ++ [t] }
  | .count => if s.adding then { s with available := s.available + 1, adding := false } else s
  | .load =>
    match s.worker with
    | .out => if 0 < s.available then { s with worker := .loop 0 s.available } else s
    | _ => s
  | .steal =>
    match s.worker with
    | .loop i n =>
      if i < n then
        match s.queue with
        | [] => { s with worker := .out, missed := s.missed + 1 }
        | t :: q => { s with worker := .got t i n, queue := q }
      else { s with worker := .out }
    | _ => s
  | .enqueue =>
    match s.worker with
    | .got t i n => { s with available := s.available - 1, run := s.run ++ [t], worker := .loop (i + 1) n }
    | _ => s

def runSteps (s : St) (xs : List Step) : St := xs.foldl step s

/-- The task taken but not yet on the run queue. -/
def St.held (s : St) : List Nat :=
  match s.worker with
  | .got t _ _ => [t]
  | _ => []

/-- How many tasks the thread will still take without looking at the counter again. -/
def St.due (s : St) : Int :=
  match s.worker with
  | .out => 0
  | .loop i n => n - i
  | .got _ i n => n - i - 1

structure Inv (s : St) : Prop where
  order : s.run ++ s.held ++ s.queue = s.started
  count : s.available + (if s.adding then 1 else 0) = s.queue.length + s.held.length
  due : 0 ≤ s.due ∧ s.due ≤ s.queue.length
  due' : s.due ≤ s.available - s.held.length
  missed : s.missed = 0

theorem init_inv : Inv St.init := ⟨rfl, rfl, ⟨by decide, by decide⟩, by decide, rfl⟩

theorem step_inv {s : St} (h : Inv s) (x : Step) : Inv (step s x) := by
  obtain ⟨q, av, ad, w, st, r, m⟩ := s
  obtain ⟨h1, h2, h3, h4, h5⟩ := h
  cases x with
  | push t =>
    simp only [step]
    split
    · exact ⟨h1, h2, h3, h4, h5⟩
    · rename_i hd
      simp only [hd, Bool.false_eq_true, if_false] at h2
      refine ⟨?_, ?_, ?_, ?_, h5⟩
      · show r ++ _ ++ (q ++ [t]) = st ++ [t]
        dsimp only at h1
        rw [← List.append_assoc, ← h1]; rfl
      · cases w <;> simp [St.held] at h2 ⊢ <;> omega
      · cases w <;> simp [St.due] at h3 ⊢ <;> omega
      · cases w <;> simp [St.due, St.held] at h4 ⊢ <;> omega
  | count =>
    simp only [step]
    split
    · rename_i hd
      simp only [hd, if_true] at h2
      refine ⟨h1, ?_, h3, ?_, h5⟩
      · cases w <;> simp [St.held] at h2 ⊢ <;> omega
      · cases w <;> simp [St.due, St.held] at h4 ⊢ <;> omega
    · exact ⟨h1, h2, h3, h4, h5⟩
  | load =>
    simp only [step]
    cases w with
    | out =>
      simp only
      split
      · refine ⟨h1, h2, ?_, ?_, h5⟩
        · simp only [St.held, List.length_nil] at h2
          simp only [St.due]
          split at h2 <;> omega
        · simp [St.due, St.held]
      · exact ⟨h1, h2, h3, h4, h5⟩
    | loop i n => exact ⟨h1, h2, h3, h4, h5⟩
    | got t i n => exact ⟨h1, h2, h3, h4, h5⟩
  | steal =>
    simp only [step]
    cases w with
    | out => exact ⟨h1, h2, h3, h4, h5⟩
    | got t i n => exact ⟨h1, h2, h3, h4, h5⟩
    | loop i n =>
      simp only
      split
      · rename_i hin
        cases q with
        | nil => simp only [St.due, List.length_nil] at h3; omega
        | cons t q =>
          simp only
          refine ⟨?_, ?_, ?_, ?_, h5⟩
          · rw [← h1]; simp [St.held]
          · simp only [St.held, List.length_nil, List.length_cons] at h2 ⊢
            push_cast at h2 ⊢
            omega
          · simp only [St.due, List.length_cons] at h3 ⊢
            push_cast at h3
            omega
          · simp only [St.due, St.held, List.length_nil, List.length_singleton] at h4 ⊢
            push_cast at h4 ⊢
            omega
      · refine ⟨h1, h2, by simp [St.due], ?_, h5⟩
        simp only [St.due, St.held, List.length_nil] at h3 h4 ⊢
        omega
  | enqueue =>
    simp only [step]
    cases w with
    | out => exact ⟨h1, h2, h3, h4, h5⟩
    | loop i n => exact ⟨h1, h2, h3, h4, h5⟩
    | got t i n =>
      refine ⟨?_, ?_, ?_, ?_, h5⟩
      · rw [← h1]; simp [St.held]
      · simp only [St.held, List.length_nil, List.length_singleton] at h2 ⊢
        push_cast at h2 ⊢
        omega
      · simp only [St.due] at h3 ⊢
        omega
      · simp only [St.due, St.held, List.length_nil, List.length_singleton] at h4 ⊢
        push_cast at h4 ⊢
        omega

theorem run_inv {s : St} (h : Inv s) : ∀ xs : List Step, Inv (runSteps s xs)
  | [] => h
  | x :: xs => run_inv (step_inv h x) xs

/-! ## Claims -/

/-- Claim C105: in every interleaving, the tasks that are on the run queue of the pool thread, the one just taken and those in the queue are the started
ones, each once and in the order in which they were started; the thread never looks for a task in vain, and the counter never says more than there is. -/
theorem pool_tasks_exactly_once_partial (xs : List Step) :
    let s := runSteps St.init xs
    s.run ++ s.held ++ s.queue = s.started ∧ s.missed = 0 ∧ 0 ≤ s.available ∧ s.available ≤ s.queue.length + s.held.length := by
  have h := run_inv init_inv xs
  refine ⟨h.order, h.missed, ?_, ?_⟩
  · have h1 := h.due.1
    have h2 := h.due'
    omega
  · have := h.count
    split at this <;> omega

/-- The pool thread alone takes `k` tasks. -/
def takeAll (k : Nat) : List Step := .load :: ((List.replicate k [Step.steal, Step.enqueue]).flatten ++ [.steal])

theorem drain {st : List Nat} {m : Nat} {n : Int} : ∀ (q : List Nat) (i : Int) (r : List Nat), i + q.length = n →
    runSteps ⟨q, q.length, false, .loop i n, st, r, m⟩ ((List.replicate q.length [Step.steal, Step.enqueue]).flatten ++ [.steal]) =
      ⟨[], 0, false, .out, st, r ++ q, m⟩
  | [], i, r, h => by
    have : ¬ i < n := by simp at h; omega
    simp [runSteps, step, this]
  | t :: q, i, r, h => by
    have hlt : i < n := by simp at h; omega
    have e : runSteps ⟨t :: q, (t :: q).length, false, .loop i n, st, r, m⟩
        ((List.replicate (t :: q).length [Step.steal, Step.enqueue]).flatten ++ [.steal]) =
        runSteps ⟨q, q.length, false, .loop (i + 1) n, st, r ++ [t], m⟩
          ((List.replicate q.length [Step.steal, Step.enqueue]).flatten ++ [.steal]) := by
      simp [runSteps, step, hlt, List.replicate_succ]
    rw [e, drain q (i + 1) (r ++ [t]) (by simp at h; omega)]
    simp

/-- Claim C105: from every state that can be reached in which the starting thread is not in `enqueue_tasks` and the pool thread is not in `task_take`, a call of
`task_take` (before further tasks are started) puts all tasks that are left on the run queue. -/
theorem pool_take_drains_partial (xs : List Step) (ha : (runSteps St.init xs).adding = false) (hw : (runSteps St.init xs).worker = .out) :
    let s := runSteps St.init xs
    let s' := runSteps s (takeAll s.queue.length)
    s'.run = s.started ∧ s'.queue = [] ∧ s'.available = 0 ∧ s'.worker = .out := by
  have h := run_inv init_inv xs
  revert h ha hw
  generalize runSteps St.init xs = s
  intro ha hw h
  obtain ⟨q, av, ad, w, st, r, m⟩ := s
  simp only at ha hw
  subst ha hw
  have hc := h.count
  have ho := h.order
  simp only [St.held, Bool.false_eq_true, if_false, List.length_nil, List.append_nil] at hc ho
  have hav : av = q.length := by omega
  subst hav
  simp only
  cases q with
  | nil =>
    simp only [List.append_nil] at ho
    subst ho
    simp [takeAll, runSteps, step]
  | cons t q =>
    have e : runSteps ⟨t :: q, ((t :: q).length : Nat), false, .out, st, r, m⟩ (takeAll (t :: q).length) =
        ⟨[], 0, false, .out, st, r ++ (t :: q), m⟩ := by
      have hl : step ⟨t :: q, ((t :: q).length : Nat), false, .out, st, r, m⟩ .load =
          ⟨t :: q, ((t :: q).length : Nat), false, .loop 0 ((t :: q).length : Nat), st, r, m⟩ := by
        have : (0 : Int) < ((t :: q).length : Nat) := by simp
        simp only [step]
        rw [if_pos this]
      have := drain (st := st) (m := m) (n := ((t :: q).length : Nat)) (t :: q) 0 r (by simp)
      rw [← this]
      show runSteps (step _ .load) _ = _
      rw [hl]
    rw [e]
    exact ⟨ho, rfl, rfl, rfl⟩

/-! Task 8 is started while the pool thread takes task 7. -/
example : runSteps St.init [.push 7, .count, .load, .push 8, .steal, .count, .enqueue, .steal, .load, .steal, .enqueue, .steal] =
    ⟨[], 0, false, .out, [7, 8], [7, 8], 0⟩ := by decide +kernel
example : (runSteps St.init [.push 7, .count, .push 8, .count]).worker = .out ∧
    (runSteps (runSteps St.init [.push 7, .count, .push 8, .count]) (takeAll 2)).run = [7, 8] := by decide +kernel

end Verif.Tasks.Pool
