import Verif.Basic
import Mathlib.Logic.Function.Basic
import Mathlib.Data.List.Nodup

/-!
# Event callbacks inside of the scheduler (`src/events.c` 1385-1419, 1545-1558, 1868-1951, 2346-2388, 2410-2444), C233 and C234

`tasks_schedulering` takes the next task, says that it is running, lets the loop call its callbacks, and only then switches to
the task.  What happens if a callback yields, waits or defers?
-/

namespace Verif.Sched.Callback

abbrev Task := Nat

/-- `ready`: to be run, in the run queue; `waiting`: registered for a descriptor or a time; `ended`: its function has returned;
the scheduler frees the task right afterwards. -/
inductive Status where
  | ready | waiting | ended
  deriving DecidableEq, Repr

/-- `queue`: `__thrd()->run_queue`; `running`, `active`, `current`: `__thrd()->running`, `active_handle`, `current_handle`; a
handle `none` is that of the scheduler itself.  `early`: the tasks that got control while they waited for something. -/
structure St where
  queue : List Task
  status : Task → Status
  running : Option Task
  active : Option Task
  current : Option Task
  early : List Task

/-- How a task goes on when it gets control, up to where it gives it away: `yield()`, `delay` or `async_wait`, or it returns. -/
inductive Seg where
  | yield | wait | done
  deriving DecidableEq, Repr

/-- `enqueue(l, t)`, events.c:15-26.  With `t` already in the list its neighbours lose each other, or `t` becomes its own
predecessor; this is a fault here. -/
def enqueue (s : St) (t : Task) : Option St :=
  if t ∈ s.queue then none else some { s with queue := s.queue ++ [t] }

/-- `task_switch(u)` to a task, events.c:1545-1558.  An ended task has been freed, or comes back from the switch in `task_done`,
1157-1161, and returns into nothing: a fault. -/
def switchTask (s : St) (u : Task) : Option St :=
  if s.status u = .ended then none
  else some { s with active := some u, current := s.active,
                     early := if s.status u = .waiting then s.early ++ [u] else s.early }

/-- `task_switch` to the scheduler. -/
def switchMain (s : St) : St := { s with active := none, current := s.active }

/-- The task in control goes on to the end of its segment: `yield`, events.c:2374-2388, and `delay` or `async_wait`, 1385-1419,
queue or register the task that is *running* and switch to `current_handle`, which is the scheduler here; a return ends
(1157-1161) the task that is *active*.  Simplified: no switch to the sleep task (2379-2387). -/
def seg (s : St) : Seg → Option St
  | .yield => match s.running with
    | none => none
    | some r => (enqueue { s with status := Function.update s.status r .ready } r).map switchMain
  | .wait => match s.running with
    | none => none
    | some r => some (switchMain { s with status := Function.update s.status r .waiting })
  | .done => match s.active with
    | none => none
    | some t => some (switchMain { s with status := Function.update s.status t .ended })

/-- What a callback does.  `wake u`: it is `wait_cb` (events.c:1395-1402) of the waiting task `u`.  `yield` and `wait`: it calls
the functions for tasks; the segment is how the task that gets control thereby goes on. -/
inductive Cb where
  | plain
  | wake (u : Task)
  | yield (g : Seg)
  | wait (g : Seg)
  deriving DecidableEq, Repr

/-- `task_switch(__thrd()->current_handle)` in a callback, and the return from it; a switch to itself does nothing. -/
def away (s : St) (g : Seg) : Option St :=
  match s.current with
  | none => some s
  | some u => (switchTask s u).bind fun s => seg s g

def cb (s : St) : Cb → Option St
  | .plain => some s
  | .wake u => if s.status u = .waiting then enqueue { s with status := Function.update s.status u .ready } u else some s
  | .yield g => match s.running with
    | none => none
    | some r => (enqueue s r).bind fun s => away s g
  | .wait g => match s.running with
    | none => none
    | some r => away { s with status := Function.update s.status r .waiting } g

def cbs (s : St) : List Cb → Option St
  | [] => some s
  | c :: l => (cb s c).bind fun s => cbs s l

/-- `if (!t->halt) task_switch(t)`, events.c:2426-2427, then `running = NULL`, 2430. -/
def goOn (s : St) (t : Task) (g : Seg) : Option St :=
  if s.status t = .ended then some { s with running := none }
  else (switchTask s t).bind fun s => (seg s g).map fun s => { s with running := none }

/-- `tasks_schedulering(true)`, events.c:2410-2444: `l` are the callbacks of `events_once`, `g` what the task at the head does. -/
def round (s : St) (l : List Cb) (g : Seg) : Option St :=
  match s.queue with
  | [] => some s
  | t :: q => (cbs { s with queue := q, running := some t } l).bind fun s => goOn s t g

def rounds (s : St) : List (List Cb × Seg) → Option St
  | [] => some s
  | x :: l => (round s x.1 x.2).bind fun s => rounds s l

/-! ## Specification -/

/-- The scheduler has control; the tasks in the run queue are exactly those to be run, each once; none got control while it
waited. -/
structure Good (s : St) : Prop where
  main : s.active = none
  queue : ∀ t, t ∈ s.queue ↔ s.status t = .ready
  nodup : s.queue.Nodup
  early : s.early = []

/-- The callback uses no functions for tasks. -/
def Cb.quiet : Cb → Prop
  | .yield _ | .wait _ => False
  | _ => True

/-! ## Callbacks that stay away from tasks -/

/-- While callbacks run: task `t` is taken from the queue. -/
structure Mid (t : Task) (s : St) : Prop where
  main : s.active = none
  run : s.running = some t
  queue : ∀ u, u ∈ s.queue ↔ s.status u = .ready ∧ u ≠ t
  me : s.status t = .ready
  nodup : s.queue.Nodup
  early : s.early = []

theorem mid_start {s : St} (h : Good s) {t : Task} {q : List Task} (hq : s.queue = t :: q) :
    Mid t { s with queue := q, running := some t } := by
  have hn := h.nodup
  rw [hq] at hn
  have hn' := List.nodup_cons.mp hn
  refine ⟨h.main, rfl, fun u => ?_, ?_, hn'.2, h.early⟩
  · show u ∈ q ↔ s.status u = .ready ∧ u ≠ t
    rw [← h.queue u, hq]
    constructor
    · intro hu
      exact ⟨by simp [hu], fun e => hn'.1 (e ▸ hu)⟩
    · rintro ⟨hu, hne⟩
      rcases List.mem_cons.mp hu with e | hu
      · exact absurd e hne
      · exact hu
  · exact (h.queue t).mp (by rw [hq]; simp)

theorem mid_cb {t : Task} {s : St} (h : Mid t s) {c : Cb} (hc : c.quiet) :
    ∃ s', cb s c = some s' ∧ Mid t s' ∧ s'.current = s.current ∧ ∀ u, s.status u = .ended → s'.status u = .ended := by
  cases c with
  | plain => exact ⟨s, rfl, h, rfl, fun _ h => h⟩
  | yield g => exact absurd hc id
  | wait g => exact absurd hc id
  | wake u =>
    by_cases hw : s.status u = .waiting
    · have hne : u ≠ t := by
        intro e
        rw [e, h.me] at hw
        cases hw
      have hnq : u ∉ s.queue := by
        rw [h.queue u, hw]
        simp
      refine ⟨{ s with status := Function.update s.status u .ready, queue := s.queue ++ [u] }, ?_, ?_, rfl, ?_⟩
      · simp [cb, hw, enqueue, hnq]
      · refine ⟨h.main, h.run, fun v => ?_, ?_, ?_, h.early⟩
        · show v ∈ s.queue ++ [u] ↔ _
          by_cases e : v = u
          · subst e; simp [hne]
          · simp only [List.mem_append, List.mem_singleton, e, or_false]
            rw [h.queue v, Function.update_of_ne e]
        · show Function.update s.status u .ready t = .ready
          rw [Function.update_of_ne (Ne.symm hne)]; exact h.me
        · exact List.nodup_append.mpr ⟨h.nodup, by simp, fun a ha b hb e => by
            simp at hb; subst hb; subst e; exact hnq ha⟩
      · intro v hv
        show Function.update s.status u .ready v = .ended
        rw [Function.update_of_ne (fun e => by rw [e, hw] at hv; cases hv)]
        exact hv
    · exact ⟨s, by simp [cb, hw], h, rfl, fun _ h => h⟩

theorem mid_cbs {t : Task} {s : St} (h : Mid t s) {l : List Cb} (hl : ∀ c ∈ l, c.quiet) :
    ∃ s', cbs s l = some s' ∧ Mid t s' ∧ s'.current = s.current ∧ ∀ u, s.status u = .ended → s'.status u = .ended := by
  induction l generalizing s with
  | nil => exact ⟨s, rfl, h, rfl, fun _ h => h⟩
  | cons c l ih =>
    obtain ⟨s1, e1, h1, c1, n1⟩ := mid_cb h (hl c (by simp))
    obtain ⟨s2, e2, h2, c2, n2⟩ := ih h1 fun c hc => hl c (by simp [hc])
    exact ⟨s2, by simp [cbs, e1, e2], h2, c2.trans c1, fun u hu => n2 u (n1 u hu)⟩

theorem mid_goOn {t : Task} {s : St} (h : Mid t s) (g : Seg) : ∃ s', goOn s t g = some s' ∧ Good s' := by
  have hnq : t ∉ s.queue := by rw [h.queue t]; simp
  have h1 : s.status t ≠ .ended := by rw [h.me]; simp
  cases g with
  | yield =>
    refine ⟨{ s with status := Function.update s.status t .ready, queue := s.queue ++ [t], running := none, active := none,
                     current := some t }, ?_, ?_⟩
    · simp [goOn, switchTask, h.me, seg, h.run, enqueue, hnq, switchMain]
    · refine ⟨rfl, fun u => ?_, ?_, h.early⟩
      · show u ∈ s.queue ++ [t] ↔ Function.update s.status t .ready u = .ready
        by_cases e : u = t
        · subst e; simp
        · simp [e, h.queue u]
      · exact List.nodup_append.mpr ⟨h.nodup, by simp, fun a ha b hb e => by
            simp at hb; subst hb; subst e; exact hnq ha⟩
  | wait =>
    refine ⟨{ s with status := Function.update s.status t .waiting, running := none, active := none, current := some t }, ?_, ?_⟩
    · simp [goOn, switchTask, h.me, seg, h.run, switchMain]
    · refine ⟨rfl, fun u => ?_, h.nodup, h.early⟩
      show u ∈ s.queue ↔ Function.update s.status t .waiting u = .ready
      by_cases e : u = t
      · subst e; simp [hnq]
      · simp [e, h.queue u]
  | done =>
    refine ⟨{ s with status := Function.update s.status t .ended, running := none, active := none, current := some t }, ?_, ?_⟩
    · simp [goOn, switchTask, h.me, seg, switchMain]
    · refine ⟨rfl, fun u => ?_, h.nodup, h.early⟩
      show u ∈ s.queue ↔ Function.update s.status t .ended u = .ready
      by_cases e : u = t
      · subst e; simp [hnq]
      · simp [e, h.queue u]

/-- A round is a round without callbacks from the state the callbacks leave. -/
theorem round_eq {s : St} (h : Good s) {t : Task} {q : List Task} (hq : s.queue = t :: q) {l : List Cb} (hl : ∀ c ∈ l, c.quiet)
    (c : List Cb) (g : Seg) :
    ∃ s', Mid t s' ∧ s'.current = s.current ∧ (∀ u, s.status u = .ended → s'.status u = .ended) ∧
      round s (l ++ c) g = (cbs s' c).bind fun s => goOn s t g := by
  obtain ⟨s1, e1, h1, c1, n1⟩ := mid_cbs (mid_start h hq) hl
  refine ⟨s1, h1, c1, n1, ?_⟩
  have happ : ∀ (a : List Cb) (x : St), cbs x (a ++ c) = (cbs x a).bind fun s => cbs s c := by
    intro a
    induction a with
    | nil => intro x; rfl
    | cons y a ih =>
      intro x
      simp only [List.cons_append, cbs]
      cases cb x y with
      | none => rfl
      | some z => exact ih z
  simp only [round, hq]
  rw [happ, e1]
  rfl

/-- **C233**, what holds: as long as no callback uses functions for tasks, in every history the scheduler does not fault, runs
the tasks to be run, each once, and no task that waits. Missing: callbacks that yield or wait (`callback_yield_breaks`). -/
theorem quiet_callbacks_partial (s : St) (h : Good s) (l : List (List Cb × Seg)) (hl : ∀ x ∈ l, ∀ c ∈ x.1, c.quiet) :
    ∃ s', rounds s l = some s' ∧ Good s' := by
  induction l generalizing s with
  | nil => exact ⟨s, rfl, h⟩
  | cons x l ih =>
    have hr : ∃ s1, round s x.1 x.2 = some s1 ∧ Good s1 := by
      cases hq : s.queue with
      | nil => exact ⟨s, by simp [round, hq], h⟩
      | cons t q =>
        obtain ⟨s1, h1, -, -, e1⟩ := round_eq h hq (hl x (by simp)) [] x.2
        obtain ⟨s2, e2, h2⟩ := mid_goOn h1 x.2
        refine ⟨s2, ?_, h2⟩
        simp only [List.append_nil] at e1
        rw [e1]
        exact e2
    obtain ⟨s1, e1, h1⟩ := hr
    obtain ⟨s2, e2, h2⟩ := ih s1 h1 fun y hy => hl y (by simp [hy])
    exact ⟨s2, by simp [rounds, e1, e2], h2⟩

/-! ## Callbacks that yield or wait -/

theorem early_mono_seg {s s' : St} {g : Seg} (h : seg s g = some s') (he : s.early ≠ []) : s'.early ≠ [] := by
  cases g with
  | yield =>
    simp only [seg] at h
    split at h
    · cases h
    · unfold enqueue at h
      split at h
      · cases h
      · simp at h; subst h; exact he
  | wait =>
    simp only [seg] at h
    split at h
    · cases h
    · simp at h; subst h; exact he
  | done =>
    simp only [seg] at h
    split at h
    · cases h
    · simp at h; subst h; exact he

theorem early_mono_switch {s s' : St} {u : Task} (h : switchTask s u = some s') (he : s.early ≠ []) : s'.early ≠ [] := by
  unfold switchTask at h
  split at h
  · cases h
  · simp at h
    subst h
    simp only
    split
    · simp
    · exact he

theorem early_mono_goOn {s s' : St} {t : Task} {g : Seg} (h : goOn s t g = some s') (he : s.early ≠ []) : s'.early ≠ [] := by
  unfold goOn at h
  split at h
  · simp at h; subst h; exact he
  · cases e1 : switchTask s t with
    | none => rw [e1] at h; cases h
    | some s1 =>
      rw [e1] at h
      simp only [Option.bind_some] at h
      cases e2 : seg s1 g with
      | none => rw [e2] at h; cases h
      | some s2 =>
        rw [e2] at h
        simp at h
        subst h
        have := early_mono_seg (g := g) e2 (early_mono_switch e1 he)
        exact this

/-- Going on with a task that is in the run queue, or that waits, leaves nothing good. -/
theorem goOn_bad {s s' : St} {t : Task} {g : Seg} (hr : s.running = some t) (hm : t ∈ s.queue)
    (h : goOn s t g = some s') : ¬ Good s' := by
  intro hg
  unfold goOn at h
  by_cases he : s.status t = .ended
  · rw [if_pos he] at h
    simp at h
    subst h
    have := (hg.queue t).mp hm
    simp only at this
    rw [he] at this
    cases this
  · rw [if_neg he] at h
    simp only [switchTask, if_neg he, Option.bind_some] at h
    cases g with
    | yield => simp [seg, hr, enqueue, hm] at h
    | wait =>
      simp [seg, hr, switchMain] at h
      subst h
      have := (hg.queue t).mp hm
      simp at this
    | done =>
      simp [seg, switchMain] at h
      subst h
      have := (hg.queue t).mp hm
      simp at this

/-- **C233**, false of the code: a callback that yields, whatever ran before and whatever the tasks do next, makes the
scheduler fault, or gives control to a task that waits, or leaves a task in the run queue that is not to be run. -/
theorem callback_yield_breaks (s : St) (h : Good s) (l : List Cb) (hl : ∀ c ∈ l, c.quiet) (hq : s.queue ≠ []) (g g' : Seg)
    (s' : St) (hr : round s (l ++ [.yield g]) g' = some s') : ¬ Good s' := by
  cases hqq : s.queue with
  | nil => exact absurd hqq hq
  | cons t q =>
    obtain ⟨s1, h1, -, -, e1⟩ := round_eq h hqq hl [.yield g] g'
    rw [e1] at hr
    have hnq : t ∉ s1.queue := by rw [h1.queue t]; simp
    simp only [cbs, cb, h1.run, enqueue, hnq, if_false, Option.bind_some] at hr
    unfold away at hr
    simp only at hr
    cases hc : s1.current with
    | none =>
      rw [hc] at hr
      simp only [Option.bind_some] at hr
      exact goOn_bad rfl (by simp) hr
    | some u =>
      rw [hc] at hr
      simp only at hr
      by_cases hu : s1.status u = .ended
      · simp [switchTask, hu] at hr
      · simp only [switchTask, if_neg hu, Option.bind_some] at hr
        cases g with
        | yield => simp [seg, enqueue] at hr
        | wait =>
          simp only [seg, switchMain, Option.bind_some] at hr
          exact goOn_bad (t := t) rfl (by simp) hr
        | done =>
          simp only [seg, switchMain, Option.bind_some] at hr
          exact goOn_bad (t := t) rfl (by simp) hr

/-- **C233**, false of the code: a callback that waits (`delay`, `async_wait`) makes the scheduler fault, or gives control to
a task that waits, or leaves a task in the run queue that is not to be run. -/
theorem callback_wait_breaks (s : St) (h : Good s) (l : List Cb) (hl : ∀ c ∈ l, c.quiet) (hq : s.queue ≠ []) (g g' : Seg)
    (s' : St) (hr : round s (l ++ [.wait g]) g' = some s') : ¬ Good s' := by
  cases hqq : s.queue with
  | nil => exact absurd hqq hq
  | cons t q =>
    obtain ⟨s1, h1, -, -, e1⟩ := round_eq h hqq hl [.wait g] g'
    rw [e1] at hr
    simp only [cbs, cb, h1.run] at hr
    have late : ∀ (x : St), x.status t = .waiting → goOn x t g' = some s' → ¬ Good s' := by
      intro x hx hgo hg
      unfold goOn at hgo
      have hne : x.status t ≠ .ended := by rw [hx]; simp
      rw [if_neg hne] at hgo
      simp only [switchTask, if_neg hne, if_pos hx, Option.bind_some] at hgo
      cases e2 : seg { x with active := some t, current := x.active, early := x.early ++ [t] } g' with
      | none => rw [e2] at hgo; cases hgo
      | some s2 =>
        rw [e2] at hgo
        simp at hgo
        subst hgo
        have := early_mono_seg (g := g') e2 (by simp)
        exact this hg.early
    unfold away at hr
    simp only at hr
    cases hc : s1.current with
    | none =>
      rw [hc] at hr
      simp only [Option.bind_some] at hr
      exact late _ (by simp) hr
    | some u =>
      rw [hc] at hr
      simp only at hr
      by_cases hu : Function.update s1.status t .waiting u = .ended
      · simp [switchTask, hu] at hr
      · simp only [switchTask, if_neg hu, Option.bind_some] at hr
        cases g with
        | yield =>
          simp only [seg, enqueue] at hr
          by_cases hm : t ∈ s1.queue
          · exact absurd ((h1.queue t).mp hm).2 (by simp)
          · rw [if_neg hm] at hr
            simp only [Option.map_some, Option.bind_some, switchMain] at hr
            exact goOn_bad (t := t) rfl (by simp) hr
        | wait =>
          simp only [seg, switchMain, Option.bind_some] at hr
          exact late _ (by simp) hr
        | done =>
          simp only [seg, switchMain, Option.bind_some] at hr
          by_cases e : u = t
          · subst e
            intro hg
            have := early_mono_goOn hr (by simp)
            exact this hg.early
          · exact late _ (by simp [Ne.symm e]) hr

/-- **C233**, false of the code: a callback that yields gives control back to the task that ran last, even if that task waits. -/
theorem callback_yield_resumes_last (s : St) (h : Good s) (t u : Task) (q : List Task) (hq : s.queue = t :: q)
    (hc : s.current = some u) (hw : s.status u = .waiting) (g : Seg) (hg : g ≠ .yield) :
    (cbs { s with queue := q, running := some t } [.yield g]).map (fun x => (x.active, x.early)) = some (none, [u]) := by
  have hnq : t ∉ q := by
    have := h.nodup
    rw [hq] at this
    exact (List.nodup_cons.mp this).1
  cases g with
  | yield => exact absurd rfl hg
  | wait => simp [cbs, cb, enqueue, hnq, away, hc, switchTask, hw, seg, switchMain, h.early]
  | done => simp [cbs, cb, enqueue, hnq, away, hc, switchTask, hw, seg, switchMain, h.early]

/-- **C233**, false of the code: if the task that ran last has ended, a callback that yields is a fault. -/
theorem callback_yield_after_end (s : St) (h : Good s) (u : Task) (l : List Cb) (hl : ∀ c ∈ l, c.quiet) (hq : s.queue ≠ [])
    (hc : s.current = some u) (hw : s.status u = .ended) (g g' : Seg) : round s (l ++ [.yield g]) g' = none := by
  cases hqq : s.queue with
  | nil => exact absurd hqq hq
  | cons t q =>
    obtain ⟨s1, h1, c1, n1, e1⟩ := round_eq h hqq hl [.yield g] g'
    rw [e1]
    have hnq : t ∉ s1.queue := by rw [h1.queue t]; simp
    have hd := n1 u hw
    rw [hc] at c1
    simp [cbs, cb, h1.run, enqueue, hnq, away, c1, switchTask, hd]

/-- Task 1 waits and ran last, task 2 is to be run. -/
def demo : St :=
  { queue := [2], status := fun u => if u = 1 then .waiting else if u = 2 then .ready else .ended, running := none, active := none,
    current := some 1, early := [] }

theorem demo_good : Good demo := by
  refine ⟨rfl, fun u => ?_, by simp [demo], rfl⟩
  by_cases e : u = 1
  · subst e; simp [demo]
  · by_cases e2 : u = 2
    · subst e2; simp [demo]
    · simp [demo, e, e2]

example : (rounds demo [([.wake 1, .plain], .yield), ([], .done)]).isSome = true := by
  obtain ⟨s', h, -⟩ := quiet_callbacks_partial demo demo_good [([.wake 1, .plain], .yield), ([], .done)] (by simp [Cb.quiet])
  rw [h]; rfl
example : (round demo [.yield .wait] .wait).map (·.early) = some [1, 2] := by
  simp [round, demo, cbs, cb, enqueue, away, switchTask, seg, switchMain, goOn]
example : round demo [.yield .yield] .wait = none := by
  simp [round, demo, cbs, cb, enqueue, away, switchTask, seg]

/-! ## Callbacks that defer (C234) -/

/-- A deferred call. -/
abbrev D := Nat

/-- A round of the scheduler as far as deferring is concerned: the task, what the callbacks defer before it is switched to, what
it defers itself, and whether it ends. -/
structure Turn where
  task : Task
  cbs : List D
  own : List D
  fin : Bool
  deriving DecidableEq, Repr

/-- `garbage`: the list of each task; `log`: the deferred calls made so far. -/
structure G where
  garbage : Task → List D
  log : List D

/-- `_defer_init`, events.c:1893-1925: the list of the task that is *running*.  Simplified: no guard sections, `t->scope` unset. -/
def defer (s : G) (running : Task) (d : D) : G :=
  { s with garbage := Function.update s.garbage running (s.garbage running ++ [d]) }

/-- `task_awaitable`, events.c:1163-1170 with `deferred_unwind`, 1101-1125: the last first. -/
def unwind (s : G) (t : Task) : G :=
  { garbage := Function.update s.garbage t [], log := s.log ++ (s.garbage t).reverse }

/-- A round: `running` is set (2419) before the callbacks (2420-2424). -/
def turn (s : G) (x : Turn) : G :=
  let s := x.cbs.foldl (fun s d => defer s x.task d) s
  let s := x.own.foldl (fun s d => defer s x.task d) s
  if x.fin then unwind s x.task else s

def turns (s : G) (l : List Turn) : G := l.foldl turn s

theorem foldl_defer (l : List D) (s : G) (t : Task) :
    l.foldl (fun s d => defer s t d) s = { s with garbage := Function.update s.garbage t (s.garbage t ++ l) } := by
  induction l generalizing s with
  | nil => simp
  | cons d l ih =>
    rw [List.foldl_cons, ih]
    simp [defer]

/-- What the callbacks and the task defer in the rounds of task `t`. -/
def given (t : Task) (l : List Turn) : List D := (l.filter fun x => x.task = t).flatMap fun x => x.cbs ++ x.own

theorem turn_eq (s : G) (x : Turn) :
    turn s x = if x.fin
      then { garbage := Function.update s.garbage x.task [], log := s.log ++ (s.garbage x.task ++ (x.cbs ++ x.own)).reverse }
      else { s with garbage := Function.update s.garbage x.task (s.garbage x.task ++ (x.cbs ++ x.own)) } := by
  unfold turn
  simp only [foldl_defer]
  split
  · simp [unwind, List.append_assoc]
  · simp [List.append_assoc]

/-- Rounds in which `t` does not end only add to its list. -/
theorem garbage_grows (t : Task) (l : List Turn) (s : G) (hl : ∀ x ∈ l, x.task = t → x.fin = false) :
    (turns s l).garbage t = s.garbage t ++ given t l := by
  induction l generalizing s with
  | nil => simp [turns, given]
  | cons x l ih =>
    have e : turns s (x :: l) = turns (turn s x) l := rfl
    rw [e, ih (turn s x) fun y hy => hl y (by simp [hy]), turn_eq]
    by_cases ht : x.task = t
    · have hf := hl x (by simp) ht
      subst ht
      simp [hf, given, List.append_assoc]
    · have ht' : t ≠ x.task := Ne.symm ht
      cases x.fin <;> simp [given, ht, ht']

/-- **C234**, what holds: when a task ends, everything it has deferred is called, the last first, in between with what callbacks
deferred in its rounds.  Missing: the calls of callbacks are made only then (`callback_defer_waits`). -/
theorem task_defers_partial (s : G) (t : Task) (hs : s.garbage t = []) (l : List Turn) (hl : ∀ x ∈ l, x.task = t → x.fin = false)
    (x : Turn) (hx : x.task = t) (hf : x.fin = true) :
    (turns s (l ++ [x])).log = (turns s l).log ++ (given t (l ++ [x])).reverse ∧ (turns s (l ++ [x])).garbage t = [] := by
  have e : turns s (l ++ [x]) = turn (turns s l) x := by simp [turns]
  have hg := garbage_grows t l s hl
  rw [hs] at hg
  subst hx
  rw [e, turn_eq, if_pos hf, hg]
  refine ⟨?_, by simp⟩
  simp [given]

/-- **C234**, false of the code: what a callback defers is not called while the task that is run next, which has nothing to do
with the callback, goes on. -/
theorem callback_defer_waits (s : G) (t : Task) (d : D) (l : List Turn) (hl : ∀ x ∈ l, x.task = t → x.fin = false)
    (hfresh : d ∉ s.log ∧ ∀ u, d ∉ s.garbage u) (hown : ∀ x ∈ l, x.task ≠ t → d ∉ x.cbs ++ x.own) :
    d ∉ (turns s l).log := by
  suffices H : ∀ (l : List Turn) (s : G), (∀ x ∈ l, x.task = t → x.fin = false) → (∀ x ∈ l, x.task ≠ t → d ∉ x.cbs ++ x.own) →
      d ∉ s.log → (∀ u, u ≠ t → d ∉ s.garbage u) → d ∉ (turns s l).log from
    H l s hl hown hfresh.1 fun u _ => hfresh.2 u
  intro l
  induction l with
  | nil => intro s _ _ h _; exact h
  | cons x l ih =>
    intro s h1 h2 h3 h4
    have e : turns s (x :: l) = turns (turn s x) l := rfl
    rw [e]
    refine ih (turn s x) (fun y hy => h1 y (by simp [hy])) (fun y hy => h2 y (by simp [hy])) ?_ ?_
    · rw [turn_eq]
      by_cases ht : x.task = t
      · rw [if_neg (by simp [h1 x (by simp) ht])]; exact h3
      · have a := h2 x (by simp) ht
        have b := h4 x.task ht
        split
        · simp only [List.mem_append, List.mem_reverse, not_or] at a ⊢
          exact ⟨h3, b, a.1, a.2⟩
        · exact h3
    · intro u hu
      rw [turn_eq]
      by_cases ht : x.task = t
      · rw [if_neg (by simp [h1 x (by simp) ht])]
        simp only
        rw [Function.update_of_ne (by rw [ht]; exact hu)]
        exact h4 u hu
      · have a := h2 x (by simp) ht
        split
        · by_cases eu : u = x.task
          · simp [eu]
          · simp only
            rw [Function.update_of_ne eu]; exact h4 u hu
        · by_cases eu : u = x.task
          · simp only [eu, Function.update_self, List.mem_append, not_or]
            simp only [List.mem_append, not_or] at a
            exact ⟨by rw [← eu]; exact h4 u hu, a.1, a.2⟩
          · simp only
            rw [Function.update_of_ne eu]; exact h4 u hu

/-- Callbacks defer 7 before task 1 runs; it defers 8, then 9 in its second round, and ends. -/
example : (turns ⟨fun _ => [], []⟩ [⟨1, [7], [8], false⟩, ⟨2, [], [5], true⟩, ⟨1, [], [9], true⟩]).log = [5, 9, 8, 7] := by
  simp [turns, turn, defer, unwind]
example : 7 ∉ (turns ⟨fun _ => [], []⟩ [⟨1, [7], [8], false⟩, ⟨2, [], [5], true⟩]).log :=
  callback_defer_waits _ 1 7 _ (by simp) (by simp) (by simp)

end Verif.Sched.Callback
