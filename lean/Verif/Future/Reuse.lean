import Mathlib.Data.Finset.Card
import Mathlib.Order.Interval.Finset.Nat

/-!
# Memory of promises (`src/future.c`, `src/events.c`)

A promise and its array of arguments are shared by the caller, by the task of `queue_work_handler` and by the worker thread.  The
model follows who frees what: the caller that uses a promise again (`promise_work`, behind `promise_read`, `promise_fgets`, …),
the caller that gives it up (`promise_clean`, behind `promise_fclose` and `promise_pclose`), the scope of a caller of `queue_get`,
and the worker, which deletes the arguments after it has reported the result.  Use of freed memory is undefined: `none`.

One promise is followed; the steps of all threads interleave in any order.  Workers are told apart only by where they stand, since
all of them execute the same code with the same promise.
-/

namespace Verif.Future.Reuse

/-- Where the caller stands. -/
inductive Caller
  | ready        -- between two calls
  | deleting     -- in `promise_work`: `is_data(f->args)` was true; before `$delete(f->args)`, src/future.c:292-293
  | assigning    -- before `f->args = args`, line 295
  | cleaning     -- in `promise_clean`: before `$delete(p->args)`, src/future.c:69
  | freeing      -- before `events_free(p)`, line 73
  deriving DecidableEq, Repr

structure St where
  next : Nat            -- arrays of arguments made so far: 0, 1, …
  live : Nat → Bool     -- the array is allocated
  args : Option Nat     -- `p->args`
  pLive : Bool          -- the promise is allocated
  done : Bool           -- `p->done`
  caller : Caller
  starting : Nat        -- tasks of `queue_work_handler` that have not begun
  waiting : Nat         -- such tasks that wait for `done`
  queue : Nat           -- jobs in the queues of the workers
  called : Nat          -- workers that run the function
  reported : Nat        -- workers that have set `done` and not yet deleted the arguments
  finished : Nat        -- jobs that a worker is through with
  cdel : Nat            -- arrays that the caller deleted
  log : List Nat        -- the arrays with which the function was called

/-- A promise from `alloc_promise`, src/future.c:268-280: no arguments yet. -/
def alloc : St := ⟨0, fun _ => false, none, true, false, .ready, 0, 0, 0, 0, 0, 0, 0, []⟩

/-- A promise from `queue_work`, src/future.c:338-384: the arguments are array 0 and the task of the handler exists. -/
def queued : St := ⟨1, fun n => n == 0, some 0, true, false, .ready, 1, 0, 0, 0, 0, 0, 0, []⟩

/-- One step of some thread. -/
inductive Act
  | work       -- the caller calls `promise_work`
  | clean      -- the caller calls `promise_clean`
  | caller     -- the caller goes on inside one of them
  | release    -- the scope in which `queue_get` was called ends
  | start      -- the task of the handler begins
  | check      -- it looks at `done`
  | take       -- a worker takes the job and calls the function
  | report     -- a worker sets the result and `done`
  | tidy       -- a worker deletes the arguments
  deriving DecidableEq, Repr

/-- The array is freed. -/
def kill (live : Nat → Bool) (b : Nat) : Nat → Bool := fun x => if x = b then false else live x

/-- `f->args = args` and the rest of `promise_work`, src/future.c:295-328: a new array, `done` is cleared and a new task of the
handler is pushed. -/
def assign (s : St) : St :=
  { s with args := some s.next, live := fun x => if x = s.next then true else s.live x, next := s.next + 1, done := false,
           starting := s.starting + 1, caller := .ready }

/-- One step; an act that is not possible changes nothing.  `none`: freed memory is used.

`work`: src/future.c:282-293 (`is_promise` and `is_data(f->args)` read the promise and the head of the array).  `clean`: 66-75, it
does nothing unless `done`.  `release`: `queue_get` (422-452) waits for `done` and defers freeing the promise.  `start`, `check`:
`queue_work_handler`, 249-266.  `take`, `report`, `tidy`: `__future_wrapper`, src/events.c:2637-2648. -/
def step (s : St) : Act → Option St
  | .work =>
      if s.caller = .ready then
        if s.pLive then
          match s.args with
          | none => some { s with caller := .assigning }
          | some b => if s.live b then some { s with caller := .deleting } else none
        else none
      else some s
  | .clean =>
      if s.caller = .ready then
        if s.pLive then
          if s.done then
            match s.args with
            | none => some { s with caller := .freeing }
            | some b => if s.live b then some { s with caller := .cleaning } else none
          else some s
        else none
      else some s
  | .caller =>
      match s.caller with
      | .ready => some s
      | .deleting =>
          if s.pLive then
            match s.args with
            | none => none
            | some b =>
                if s.live b then some { s with live := kill s.live b, cdel := s.cdel + 1, caller := .assigning } else none
          else none
      | .assigning => if s.pLive then some (assign s) else none
      | .cleaning =>
          if s.pLive then
            match s.args with
            | none => none
            | some b =>
                if s.live b then some { s with live := kill s.live b, cdel := s.cdel + 1, args := none, caller := .freeing }
                else none
          else none
      | .freeing => if s.pLive then some { s with pLive := false, caller := .ready } else none
  | .release =>
      if s.caller = .ready then
        if s.pLive then (if s.done then some { s with pLive := false } else some s) else none
      else some s
  | .start =>
      if s.starting = 0 then some s
      else if s.pLive then some { s with starting := s.starting - 1, waiting := s.waiting + 1, queue := s.queue + 1 } else none
  | .check =>
      if s.waiting = 0 then some s
      else if s.pLive then (if s.done then some { s with waiting := s.waiting - 1 } else some s) else none
  | .take =>
      if s.queue = 0 then some s
      else if s.pLive then
        match s.args with
        | none => none
        | some b =>
            if s.live b then some { s with queue := s.queue - 1, called := s.called + 1, log := s.log ++ [b] } else none
      else none
  | .report =>
      if s.called = 0 then some s
      else if s.pLive then some { s with called := s.called - 1, reported := s.reported + 1, done := true } else none
  | .tidy =>
      if s.reported = 0 then some s
      else if s.pLive then
        match s.args with
        | none => some { s with reported := s.reported - 1, finished := s.finished + 1 }
        | some b =>
            if s.live b then
              some { s with reported := s.reported - 1, finished := s.finished + 1, live := kill s.live b }
            else none
      else none

/-- Any history; `none` if something undefined happened in it. -/
def run (s : St) : List Act → Option St
  | [] => some s
  | a :: as => (step s a).bind fun s' => run s' as

/-- All threads are through with the promise. -/
def Rest (s : St) : Prop :=
  s.caller = .ready ∧ s.starting = 0 ∧ s.waiting = 0 ∧ s.queue = 0 ∧ s.called = 0 ∧ s.reported = 0

instance (s : St) : Decidable (Rest s) := inferInstanceAs (Decidable (_ ∧ _))

/-! ## Lemmas -/

/-- How many arrays are allocated. -/
def alive (live : Nat → Bool) (next : Nat) : Nat := ((Finset.range next).filter fun b => live b = true).card

theorem alive_kill {live : Nat → Bool} {next b : Nat} (hb : b < next) (hl : live b = true) :
    alive (kill live b) next + 1 = alive live next := by
  unfold alive
  have : ((Finset.range next).filter fun x => kill live b x = true) = ((Finset.range next).filter fun x => live x = true).erase b := by
    ext x
    simp only [Finset.mem_filter, Finset.mem_range, Finset.mem_erase, kill]
    by_cases h : x = b
    · simp [h]
    · simp [h]
  rw [this]
  exact Finset.card_erase_add_one (by simp [hb, hl])

theorem alive_new {live : Nat → Bool} {next : Nat} :
    alive (fun x => if x = next then true else live x) (next + 1) = alive live next + 1 := by
  unfold alive
  have : ((Finset.range (next + 1)).filter fun x => (if x = next then true else live x) = true)
      = insert next ((Finset.range next).filter fun x => live x = true) := by
    ext x
    simp only [Finset.mem_filter, Finset.mem_range, Finset.mem_insert]
    by_cases h : x = next
    · simp [h]
    · simp only [h, if_false, false_or]
      constructor
      · rintro ⟨h1, h2⟩
        exact ⟨by omega, h2⟩
      · rintro ⟨h1, h2⟩
        exact ⟨by omega, h2⟩
  rw [this, Finset.card_insert_of_notMem (by simp)]

/-- The invariant: every array that is gone was deleted once, by the caller or by a worker; the caller deletes the old array
before there is a new one; jobs are not lost. -/
structure Inv (s : St) : Prop where
  argsLt : ∀ b, s.args = some b → b < s.next
  count : s.args.isSome = true ∨ s.next = 0 → alive s.live s.next + s.cdel + s.finished ≤ s.next
  ready : s.caller = .ready ∨ s.caller = .deleting ∨ s.caller = .cleaning →
    s.next ≤ s.cdel + (if s.args.isSome then 1 else 0)
  other : s.caller = .assigning ∨ s.caller = .freeing → s.next ≤ s.cdel
  first : s.caller = .assigning → s.args.isSome = true ∨ s.next = 0
  jobs : s.next = s.starting + s.queue + s.called + s.reported + s.finished

theorem inv_alloc : Inv alloc where
  argsLt := by simp [alloc]
  count := by simp [alloc, alive]
  ready := by simp [alloc]
  other := by simp [alloc]
  first := by simp [alloc]
  jobs := by simp [alloc]

theorem inv_queued : Inv queued where
  argsLt := by simp [queued]
  count := by simp only [queued]; decide
  ready := by simp [queued]
  other := by simp [queued]
  first := by simp [queued]
  jobs := by simp [queued]

theorem step_inv {s s' : St} {a : Act} (hi : Inv s) (h : step s a = some s') (hn : s.args = none → s.next = 0 ∨ s.caller = .freeing ∨
    s.pLive = false) : Inv s' := by
  obtain ⟨h1, h2, h3, h4, h5, h6⟩ := hi
  cases a with
  | work =>
      simp only [step] at h
      split at h
      · rename_i hc
        split at h
        · rename_i hp
          split at h
          · rename_i ha
            injection h with h; subst h
            have h3' := h3 (Or.inl hc)
            have h0 : s.next = 0 := by
              rcases hn ha with h | h | h
              · exact h
              · rw [hc] at h; cases h
              · rw [h] at hp; cases hp
            exact ⟨h1, h2, by simp, fun _ => by simpa [ha] using h3', fun _ => Or.inr h0, h6⟩
          · split at h
            · injection h with h; subst h
              exact ⟨h1, h2, fun _ => h3 (Or.inl hc), by simp, by simp, h6⟩
            · cases h
        · cases h
      · injection h with h; subst h; exact ⟨h1, h2, h3, h4, h5, h6⟩
  | clean =>
      simp only [step] at h
      split at h
      · rename_i hc
        split at h
        · split at h
          · split at h
            · rename_i ha
              injection h with h; subst h
              have h3' := h3 (Or.inl hc)
              exact ⟨h1, h2, by simp, fun _ => by simpa [ha] using h3', by simp, h6⟩
            · split at h
              · injection h with h; subst h
                exact ⟨h1, h2, fun _ => h3 (Or.inl hc), by simp, by simp, h6⟩
              · cases h
          · injection h with h; subst h; exact ⟨h1, h2, h3, h4, h5, h6⟩
        · cases h
      · injection h with h; subst h; exact ⟨h1, h2, h3, h4, h5, h6⟩
  | caller =>
      simp only [step] at h
      split at h
      · injection h with h; subst h; exact ⟨h1, h2, h3, h4, h5, h6⟩
      · rename_i hc
        split at h
        · split at h
          · cases h
          · rename_i b ha
            split at h
            · rename_i hl
              injection h with h; subst h
              have hb := h1 b ha
              have hk := alive_kill hb hl
              have h2' := h2 (Or.inl (by simp [ha]))
              have h3' := h3 (Or.inr (Or.inl hc))
              simp only [ha, Option.isSome_some, if_true] at h3'
              refine ⟨h1, fun _ => ?_, by simp, fun _ => ?_, fun _ => Or.inl (by simp [ha]), h6⟩
              · show alive (kill s.live b) s.next + (s.cdel + 1) + s.finished ≤ s.next
                omega
              · exact h3'
            · cases h
        · cases h
      · rename_i hc
        split at h
        · injection h with h; subst h
          have h2' := h2 (h5 hc)
          have h4' := h4 (Or.inl hc)
          refine ⟨?_, fun _ => ?_, fun _ => ?_, by simp [assign], by simp [assign], ?_⟩
          · intro b hb
            simp only [assign, Option.some.injEq] at hb ⊢
            omega
          · simp only [assign]
            rw [alive_new]
            omega
          · simp only [assign, Option.isSome_some, if_true]
            omega
          · simp only [assign]
            omega
        · cases h
      · rename_i hc
        split at h
        · split at h
          · cases h
          · rename_i b ha
            split at h
            · rename_i hl
              injection h with h; subst h
              have hb := h1 b ha
              have h3' := h3 (Or.inr (Or.inr hc))
              simp only [ha, Option.isSome_some, if_true] at h3'
              refine ⟨by simp, ?_, by simp, fun _ => h3', by simp, h6⟩
              intro h0
              exfalso
              rcases h0 with h0 | h0
              · simp at h0
              · simp only at h0
                omega
            · cases h
        · cases h
      · rename_i hc
        split at h
        · injection h with h; subst h
          have := h4 (Or.inr hc)
          exact ⟨h1, h2, fun _ => by simp only; omega, by simp, by simp, h6⟩
        · cases h
  | release =>
      simp only [step] at h
      split at h
      · split at h
        · split at h <;> (injection h with h; subst h; exact ⟨h1, h2, h3, h4, h5, h6⟩)
        · cases h
      · injection h with h; subst h; exact ⟨h1, h2, h3, h4, h5, h6⟩
  | start =>
      simp only [step] at h
      split at h
      · injection h with h; subst h; exact ⟨h1, h2, h3, h4, h5, h6⟩
      · split at h
        · injection h with h; subst h
          exact ⟨h1, h2, h3, h4, h5, by simp only; omega⟩
        · cases h
  | check =>
      simp only [step] at h
      split at h
      · injection h with h; subst h; exact ⟨h1, h2, h3, h4, h5, h6⟩
      · split at h
        · split at h <;> (injection h with h; subst h; exact ⟨h1, h2, h3, h4, h5, h6⟩)
        · cases h
  | take =>
      simp only [step] at h
      split at h
      · injection h with h; subst h; exact ⟨h1, h2, h3, h4, h5, h6⟩
      · split at h
        · split at h
          · cases h
          · split at h
            · injection h with h; subst h
              exact ⟨h1, h2, h3, h4, h5, by simp only; omega⟩
            · cases h
        · cases h
  | report =>
      simp only [step] at h
      split at h
      · injection h with h; subst h; exact ⟨h1, h2, h3, h4, h5, h6⟩
      · split at h
        · injection h with h; subst h
          exact ⟨h1, h2, h3, h4, h5, by simp only; omega⟩
        · cases h
  | tidy =>
      simp only [step] at h
      split at h
      · injection h with h; subst h; exact ⟨h1, h2, h3, h4, h5, h6⟩
      · split at h
        · split at h
          · rename_i ha
            injection h with h; subst h
            refine ⟨h1, ?_, h3, h4, h5, by simp only; omega⟩
            intro h0
            exfalso
            rcases h0 with h0 | h0
            · simp only [ha] at h0
              cases h0
            · simp only at h0
              omega
          · rename_i b ha
            split at h
            · rename_i hl
              injection h with h; subst h
              have hb := h1 b ha
              have hk := alive_kill hb hl
              refine ⟨h1, ?_, h3, h4, h5, by simp only; omega⟩
              intro _
              have h2' := h2 (Or.inl (by simp [ha]))
              show alive (kill s.live b) s.next + s.cdel + (s.finished + 1) ≤ s.next
              omega
            · cases h
        · cases h

/-- No arguments: none were made yet, or the promise is being freed, or it is freed. -/
def NoArgs (s : St) : Prop := s.args = none → s.next = 0 ∨ s.caller = .freeing ∨ s.pLive = false

theorem step_noArgs {s s' : St} {a : Act} (hi : Inv s) (hn : NoArgs s) (h : step s a = some s') : NoArgs s' := by
  unfold NoArgs at hn ⊢
  have h5 := hi.first
  cases a <;> simp only [step] at h <;> (repeat' split at h) <;>
    first
      | exact (Option.some_ne_none _ h.symm).elim
      | (injection h with h; subst h; simp_all [assign])

theorem run_inv (acts : List Act) {s s' : St} (hi : Inv s) (hn : NoArgs s) (h : run s acts = some s') : Inv s' ∧ NoArgs s' := by
  induction acts generalizing s with
  | nil =>
      injection h with h
      subst h
      exact ⟨hi, hn⟩
  | cons a as ih =>
      rw [run, Option.bind_eq_some_iff] at h
      obtain ⟨s1, h1, h2⟩ := h
      exact ih (step_inv hi h1 hn) (step_noArgs hi hn h1) h2

/-- The two ways to get a promise. -/
def Fresh (s : St) : Prop := s = alloc ∨ s = queued

theorem fresh_inv {s : St} (h : Fresh s) : Inv s ∧ NoArgs s := by
  rcases h with rfl | rfl
  · exact ⟨inv_alloc, fun _ => Or.inl rfl⟩
  · exact ⟨inv_queued, fun h => by simp [queued] at h⟩

/-- Without `promise_clean` the arguments are never given up. -/
theorem step_noClean {s s' : St} {a : Act} (hc : s.caller ≠ .cleaning ∧ s.caller ≠ .freeing ∧ (s.args = none → s.next = 0))
    (ha : a ≠ .clean) (h : step s a = some s') :
    s'.caller ≠ .cleaning ∧ s'.caller ≠ .freeing ∧ (s'.args = none → s'.next = 0) := by
  obtain ⟨h1, h2, h3⟩ := hc
  cases a <;> simp only [step] at h <;> (repeat' split at h) <;>
    first
      | exact (Option.some_ne_none _ h.symm).elim
      | exact absurd rfl ha
      | (injection h with h; subst h; simp_all [assign])

theorem run_noClean (acts : List Act) {s s' : St} (hc : s.caller ≠ .cleaning ∧ s.caller ≠ .freeing ∧ (s.args = none → s.next = 0))
    (ha : Act.clean ∉ acts) (h : run s acts = some s') : s'.args = none → s'.next = 0 := by
  induction acts generalizing s with
  | nil =>
      injection h with h
      subst h
      exact hc.2.2
  | cons a as ih =>
      rw [run, Option.bind_eq_some_iff] at h
      obtain ⟨s1, h1, h2⟩ := h
      exact ih (step_noClean hc (fun he => ha (he ▸ List.mem_cons_self ..)) h1) (fun he => ha (List.mem_cons_of_mem _ he)) h2

/-- All arrays are gone when a worker is through with a job and the caller is between two calls. -/
theorem args_gone {s : St} (hi : Inv s) (hc : s.caller = .ready) (hf : 1 ≤ s.finished) {b : Nat} (hb : s.args = some b) :
    s.live b = false := by
  have h1 := hi.count (Or.inl (by simp [hb]))
  have h2 := hi.ready (Or.inl hc)
  simp only [hb, Option.isSome_some, if_true] at h2
  have h0 : alive s.live s.next = 0 := by omega
  unfold alive at h0
  rw [Finset.card_eq_zero, Finset.filter_eq_empty_iff] at h0
  have := h0 (Finset.mem_range.2 (hi.argsLt b hb))
  simpa using this

/-! ## Properties -/

/-- **C122, negation.**  Once a worker is through with a job of the promise, every further use of the promise, and its cleaning up,
reads freed memory — whatever all threads did before. -/
theorem promise_second_use_ub (s0 s : St) (h0 : Fresh s0) (acts : List Act) (h : run s0 acts = some s) (hf : 1 ≤ s.finished)
    (hc : s.caller = .ready) : step s .work = none ∧ (s.done = true → step s .clean = none) := by
  obtain ⟨hi, hn⟩ := run_inv acts (fresh_inv h0).1 (fresh_inv h0).2 h
  have hnext : s.next ≠ 0 := by
    have := hi.jobs
    omega
  cases hp : s.pLive with
  | false => exact ⟨by simp [step, hc, hp], fun _ => by simp [step, hc, hp]⟩
  | true =>
      cases ha : s.args with
      | none =>
          rcases hn ha with h | h | h
          · exact absurd h hnext
          · rw [hc] at h
            cases h
          · rw [hp] at h
            cases h
      | some b =>
          have hl := args_gone hi hc hf ha
          exact ⟨by simp [step, hc, hp, ha, hl], fun hd => by simp [step, hc, hp, ha, hl, hd]⟩

example : ∃ s, run queued [.start, .take, .report, .check, .tidy] = some s ∧ 1 ≤ s.finished ∧ s.caller = .ready ∧ s.done = true :=
  ⟨_, rfl, by decide, rfl, rfl⟩

/-- **C122, negation.**  Without cleaning up: when a promise has been used for two jobs or more and all threads are through with
it, freed memory was used on the way, whatever the order of their steps. -/
theorem promise_reuse_ub (s0 s : St) (h0 : Fresh s0) (acts : List Act) (hclean : Act.clean ∉ acts) (h : run s0 acts = some s)
    (hrest : Rest s) : s.next ≤ 1 := by
  obtain ⟨hi, -⟩ := run_inv acts (fresh_inv h0).1 (fresh_inv h0).2 h
  have hc : s0.caller ≠ .cleaning ∧ s0.caller ≠ .freeing ∧ (s0.args = none → s0.next = 0) := by
    rcases h0 with rfl | rfl <;> simp [alloc, queued]
  have hnone := run_noClean acts hc hclean h
  obtain ⟨r1, r2, r3, r4, r5, r6⟩ := hrest
  have hj := hi.jobs
  by_cases ha : s.args = none
  · have := hnone ha
    omega
  · obtain ⟨b, hb⟩ := Option.ne_none_iff_exists'.1 ha
    have h1 := hi.count (Or.inl (by simp [hb]))
    have h2 := hi.ready (Or.inl r1)
    simp only [hb, Option.isSome_some, if_true] at h2
    omega

example : ∃ s, run alloc [.work, .caller, .start, .take, .report, .tidy, .check] = some s ∧ Rest s ∧ s.next = 1 :=
  ⟨_, rfl, by decide, rfl⟩

/-- The promise is used for one job and not given up. -/
structure Once (s : St) : Prop where
  inv : Inv s
  noArgs : s.args = none → s.next = 0
  next : s.next + (if s.caller = .assigning then 1 else 0) ≤ 1
  pLive : s.pLive = true
  caller : s.caller = .ready ∨ s.caller = .assigning
  cdel : s.cdel = 0
  live : ∀ b, s.args = some b → s.finished = 0 → s.live b = true
  args0 : ∀ b, s.args = some b → b = 0
  log : s.log = List.replicate (s.called + s.reported + s.finished) 0
  done : s.done = true → 1 ≤ s.reported + s.finished

/-- **C122.**  A promise that serves a single operation is safe until it is given up: no step of any thread in any order uses freed
memory, the function is called at most once, with the arguments of the call, and `done` means that it has returned.  (Partial: the
promise is meant for many operations, but the second one is undefined, `promise_second_use_ub`, `promise_reuse_ub`.) -/
theorem promise_single_use_partial (acts : List Act) (h : ∀ a ∈ acts, a ≠ .work ∧ a ≠ .clean ∧ a ≠ .release) (s0 : St)
    (h0 : s0 = queued ∨ s0 = assign { alloc with caller := .assigning }) :
    ∃ s, run s0 acts = some s ∧ (s.log = [] ∨ s.log = [0]) ∧ (s.done = true → s.log = [0] ∧ s.called = 0) := by
  have key : ∀ (acts : List Act) (s : St), (∀ a ∈ acts, a ≠ .work ∧ a ≠ .clean ∧ a ≠ .release) → Once s →
      ∃ s', run s acts = some s' ∧ Once s' := by
    intro acts
    induction acts with
    | nil => intro s _ ho; exact ⟨s, rfl, ho⟩
    | cons a as ih =>
        intro s ha ho
        have ha' := ha a (List.mem_cons_self ..)
        have hn : s.args = none → s.next = 0 ∨ s.caller = .freeing ∨ s.pLive = false := fun h => Or.inl (ho.noArgs h)
        have hj := ho.inv.jobs
        have hstep : ∃ s1, step s a = some s1 ∧ Once s1 := by
          obtain ⟨oi, o1, o2, o3, o4, o5, o6, o7, o8, o9⟩ := ho
          have hnext : s.next ≤ 1 := by
            split at o2 <;> omega
          cases a with
          | work => exact absurd rfl ha'.1
          | clean => exact absurd rfl ha'.2.1
          | release => exact absurd rfl ha'.2.2
          | caller =>
              rcases o4 with hc | hc
              · have hs : step s .caller = some s := by simp [step, hc]
                exact ⟨s, hs, oi, o1, o2, o3, Or.inl hc, o5, o6, o7, o8, o9⟩
              · have hs : step s .caller = some (assign s) := by simp [step, hc, o3]
                rw [if_pos hc] at o2
                have hlog : s.log = [] := by
                  rw [o8, show s.called + s.reported + s.finished = 0 by omega]
                  rfl
                refine ⟨_, hs, step_inv oi hs hn, by simp [assign], ?_, o3, Or.inl rfl, o5, ?_, ?_, ?_, by simp [assign]⟩
                · show s.next + 1 + (if Caller.ready = Caller.assigning then 1 else 0) ≤ 1
                  rw [if_neg (by decide)]
                  omega
                · intro b hb _
                  simp only [assign, Option.some.injEq] at hb ⊢
                  simp [hb]
                · intro b hb
                  simp only [assign, Option.some.injEq] at hb
                  omega
                · simp only [assign]
                  exact o8
          | start =>
              by_cases hz : s.starting = 0
              · have hs : step s .start = some s := by simp [step, hz]
                exact ⟨s, hs, oi, o1, o2, o3, o4, o5, o6, o7, o8, o9⟩
              · have hs : step s .start = some { s with starting := s.starting - 1, waiting := s.waiting + 1, queue := s.queue + 1 } := by
                  simp only [step]
                  rw [if_neg hz, if_pos o3]
                exact ⟨_, hs, step_inv oi hs hn, o1, o2, o3, o4, o5, o6, o7, o8, o9⟩
          | check =>
              by_cases hz : s.waiting = 0
              · have hs : step s .check = some s := by simp [step, hz]
                exact ⟨s, hs, oi, o1, o2, o3, o4, o5, o6, o7, o8, o9⟩
              · by_cases hd : s.done = true
                · have hs : step s .check = some { s with waiting := s.waiting - 1 } := by
                    simp only [step]
                    rw [if_neg hz, if_pos o3, if_pos hd]
                  exact ⟨_, hs, step_inv oi hs hn, o1, o2, o3, o4, o5, o6, o7, o8, o9⟩
                · have hs : step s .check = some s := by
                    simp only [step]
                    rw [if_neg hz, if_pos o3, if_neg hd]
                  exact ⟨s, hs, oi, o1, o2, o3, o4, o5, o6, o7, o8, o9⟩
          | take =>
              by_cases hz : s.queue = 0
              · have hs : step s .take = some s := by simp [step, hz]
                exact ⟨s, hs, oi, o1, o2, o3, o4, o5, o6, o7, o8, o9⟩
              · cases hargs : s.args with
                | none =>
                    have := o1 hargs
                    omega
                | some b =>
                    have hl := o6 b hargs (by omega)
                    have hb := o7 b hargs
                    subst hb
                    have hs : step s .take = some { s with queue := s.queue - 1, called := s.called + 1, log := s.log ++ [0] } := by
                      simp [step, hz, o3, hargs, hl]
                    refine ⟨_, hs, step_inv oi hs hn, o1, o2, o3, o4, o5, o6, o7, ?_, o9⟩
                    show s.log ++ [0] = List.replicate (s.called + 1 + s.reported + s.finished) 0
                    rw [o8, show s.called + 1 + s.reported + s.finished = s.called + s.reported + s.finished + 1 by omega,
                      List.replicate_succ']
          | report =>
              by_cases hz : s.called = 0
              · have hs : step s .report = some s := by simp [step, hz]
                exact ⟨s, hs, oi, o1, o2, o3, o4, o5, o6, o7, o8, o9⟩
              · have hs : step s .report = some { s with called := s.called - 1, reported := s.reported + 1, done := true } := by
                  simp only [step]
                  rw [if_neg hz, if_pos o3]
                refine ⟨_, hs, step_inv oi hs hn, o1, o2, o3, o4, o5, o6, o7, ?_, fun _ => by simp only; omega⟩
                show s.log = List.replicate (s.called - 1 + (s.reported + 1) + s.finished) 0
                rw [o8, show s.called - 1 + (s.reported + 1) + s.finished = s.called + s.reported + s.finished by omega]
          | tidy =>
              by_cases hz : s.reported = 0
              · have hs : step s .tidy = some s := by simp [step, hz]
                exact ⟨s, hs, oi, o1, o2, o3, o4, o5, o6, o7, o8, o9⟩
              · cases hargs : s.args with
                | none =>
                    have := o1 hargs
                    omega
                | some b =>
                    have hl := o6 b hargs (by omega)
                    have hs : step s .tidy = some { s with reported := s.reported - 1, finished := s.finished + 1, live := kill s.live b } := by
                      simp [step, hz, o3, hargs, hl]
                    refine ⟨_, hs, step_inv oi hs hn, o1, o2, o3, o4, o5, ?_, o7, ?_, fun h => ?_⟩
                    · intro b' _ hf
                      simp only at hf
                      omega
                    · show s.log = List.replicate (s.called + (s.reported - 1) + (s.finished + 1)) 0
                      rw [o8, show s.called + (s.reported - 1) + (s.finished + 1) = s.called + s.reported + s.finished by omega]
                    · simp only
                      omega
        obtain ⟨s1, hs1, ho1⟩ := hstep
        obtain ⟨s', hs', ho'⟩ := ih s1 (fun b hb => ha b (List.mem_cons_of_mem _ hb)) ho1
        exact ⟨s', by rw [run, hs1]; exact hs', ho'⟩
  have h0' : Once s0 := by
    rcases h0 with rfl | rfl
    · exact ⟨inv_queued, by simp [queued], by simp [queued], rfl, Or.inl rfl, rfl, by simp [queued], by simp [queued],
        by simp [queued], by simp [queued]⟩
    · have hi : Inv { alloc with caller := .assigning } := ⟨by simp [alloc], by simp [alloc, alive], by simp, by simp [alloc],
        by simp [alloc], by simp [alloc]⟩
      refine ⟨step_inv (a := .caller) hi rfl (fun _ => Or.inl rfl), by simp [assign], by simp [assign, alloc], rfl, Or.inl rfl, rfl,
        by simp [assign, alloc], by simp [assign, alloc], by simp [assign, alloc], by simp [assign, alloc]⟩
  obtain ⟨s, hs, ho⟩ := key acts s0 h h0'
  refine ⟨s, hs, ?_, ?_⟩
  · have hj := ho.inv.jobs
    have hnext := ho.next
    rw [ho.log]
    have : s.called + s.reported + s.finished ≤ 1 := by
      split at hnext <;> omega
    rcases Nat.le_one_iff_eq_zero_or_eq_one.1 this with h | h
    · left; rw [h]; rfl
    · right; rw [h]; rfl
  · intro hd
    have hj := ho.inv.jobs
    have hnext := ho.next
    have h1 := ho.done hd
    have : s.called + s.reported + s.finished = 1 := by
      split at hnext <;> omega
    rw [ho.log, this]
    exact ⟨rfl, by omega⟩

example : run queued [.start, .take, .check, .report, .tidy, .check] ≠ none := by decide

/-- **C121.**  `queue_work` and `queue_get`: if the scope of the caller ends only after the worker and the task of the handler are
through, no step of any thread before or at that moment uses freed memory, and the function was called exactly once with its
arguments.  (Partial: nothing makes the scope wait, `queue_get_early_ub`.) -/
theorem queue_get_memory_partial (acts : List Act) (h : ∀ a ∈ acts, a ≠ .work ∧ a ≠ .clean ∧ a ≠ .release) :
    ∃ s, run queued acts = some s ∧ (Rest s → s.log = [0] ∧ ∃ s', step s .release = some s' ∧ s'.pLive = false ∧
      ∀ a, a ≠ .work → a ≠ .clean → a ≠ .release → step s' a = some s') := by
  obtain ⟨s, hs, hlog, hd⟩ := promise_single_use_partial acts h queued (Or.inl rfl)
  refine ⟨s, hs, ?_⟩
  rintro ⟨r1, r2, r3, r4, r5, r6⟩
  obtain ⟨hi, -⟩ := run_inv acts inv_queued (fun h => by simp [queued] at h) hs
  have hgen : ∀ (acts : List Act) (s s' : St), (∀ a ∈ acts, a ≠ .work ∧ a ≠ .clean ∧ a ≠ .release) → run s acts = some s' →
      s.caller = .ready → s.pLive = true → (1 ≤ s.reported + s.finished → s.done = true) → s.next = 1 →
      s'.pLive = true ∧ (1 ≤ s'.reported + s'.finished → s'.done = true) ∧ s'.next = 1 := by
    intro acts
    induction acts with
    | nil =>
        intro s s' _ h _ hp hd hn
        injection h with h
        subst h
        exact ⟨hp, hd, hn⟩
    | cons a as ih =>
        intro s s' ha h hc hp hd hn
        rw [run, Option.bind_eq_some_iff] at h
        obtain ⟨s1, h1, h2⟩ := h
        have ha' := ha a (List.mem_cons_self ..)
        have : s1.caller = .ready ∧ s1.pLive = true ∧ (1 ≤ s1.reported + s1.finished → s1.done = true) ∧ s1.next = 1 := by
          cases a <;> simp only [step] at h1 <;> (repeat' split at h1) <;>
            first
              | exact (Option.some_ne_none _ h1.symm).elim
              | exact absurd rfl ha'.1
              | exact absurd rfl ha'.2.1
              | exact absurd rfl ha'.2.2
              | (injection h1 with h1; subst h1; exact ⟨hc, hp, hd, hn⟩)
              | (injection h1 with h1; subst h1; exact ⟨hc, hp, fun _ => rfl, hn⟩)
              | (injection h1 with h1; subst h1; exact ⟨hc, hp, fun _ => hd (by omega), hn⟩)
              | (rename_i hcc _; rw [hc] at hcc; cases hcc)
              | simp_all
        exact ih s1 s' (fun b hb => ha b (List.mem_cons_of_mem _ hb)) h2 this.1 this.2.1 this.2.2.1 this.2.2.2
  obtain ⟨hp, hdone, hn⟩ := hgen acts queued s h hs rfl rfl (by simp [queued]) rfl
  have hj := hi.jobs
  have hdt : s.done = true := hdone (by omega)
  refine ⟨(hd hdt).1, { s with pLive := false }, by simp [step, r1, hp, hdt], rfl, ?_⟩
  intro a h1 h2 h3
  cases a
  · exact absurd rfl h1
  · exact absurd rfl h2
  · simp [step, r1]
  · exact absurd rfl h3
  · simp [step, r2]
  · simp [step, r3]
  · simp [step, r4]
  · simp [step, r5]
  · simp [step, r6]

example : ∃ s, run queued [.start, .take, .check, .report, .tidy, .check] = some s ∧ Rest s := ⟨_, rfl, by decide⟩

/-- **C121, negation.**  The result is reported before the worker has deleted the arguments and before the task of the handler has
seen it: a caller whose scope ends in between frees the promise under both. -/
theorem queue_get_early_ub (s0 s : St) (acts : List Act) (_h : run s0 acts = some s) (hc : s.caller = .ready) (hp : s.pLive = true)
    (hd : s.done = true) : ∃ s', step s .release = some s' ∧ (1 ≤ s.reported → step s' .tidy = none) ∧
      (1 ≤ s.waiting → step s' .check = none) := by
  refine ⟨{ s with pLive := false }, by simp [step, hc, hp, hd], ?_, ?_⟩
  · intro h
    have : s.reported ≠ 0 := by omega
    simp [step, this]
  · intro h
    have : s.waiting ≠ 0 := by omega
    simp [step, this]

example : ∃ s, run queued [.start, .take, .report] = some s ∧ s.caller = .ready ∧ s.pLive = true ∧ s.done = true ∧ 1 ≤ s.reported ∧
    1 ≤ s.waiting := ⟨_, rfl, rfl, rfl, rfl, by decide, by decide⟩

end Verif.Future.Reuse
