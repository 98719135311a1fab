/-!
# Starting and stopping the library (`src/events.c`, `src/os_unix.c`)

`events_init`, `events_deinit`, `os_init` and `os_shutdown`: the flags that remember what was done and the blocks that are
allocated and freed.  What is kept in the tables is modelled elsewhere.
-/

namespace Verif.Life

/-- `fdTable` (src/os_unix.c:54): NULL, allocated but not yet cleared, or in use. -/
inductive Tab
  | null | raw | ready
  deriving DecidableEq, Repr

/-- Whether a global pointer is NULL, or points to a block; `lost` counts blocks whose last pointer was overwritten. -/
structure St where
  startup : Bool     -- `events_startup_set`
  shutdown : Bool    -- `events_shutdown_set`
  osInit : Bool      -- `os_initialized`
  tab : Tab          -- `fdTable`
  port : Bool        -- `hIoCompPort` is open
  fds : Bool         -- `sys_event.fds` and `_fds_free_addr`
  queues : Bool      -- `sys_event.local`, the deque of the main thread and its array
  gc : Bool          -- `sys_event.gc`
  sleeper : Bool     -- the sleep task of the main thread, `__thrd()->sleep_handle`
  lost : Nat
  deriving DecidableEq, Repr

/-- A process that has started, src/events.c:28-29 and src/os_unix.c:55-62. -/
def start : St := ⟨false, false, false, .null, false, false, false, false, false, 0⟩

/-- What the system grants to one call of `events_init`: the table, the event descriptor, the descriptor table. -/
structure Grant where
  tab : Bool
  port : Bool
  fds : Bool
  deriving DecidableEq, Repr

/-- `os_shutdown` with `clear_pseudo_events`, src/os_unix.c:110-123 and 366-376.  The loop over the table reads it: a NULL table or
one that was never cleared is undefined (`none`). -/
def osShutdown (s : St) : Option St :=
  if s.osInit then
    if s.tab = .ready then some { s with osInit := false, port := false, tab := .null } else none
  else some s

/-- `os_init`, src/os_unix.c:77-108: the new state and whether it succeeded. -/
def osInit (g : Grant) (s : St) : Option (St × Bool) :=
  if s.osInit then some (s, true)
  else if g.tab then
    if s.port || g.port then
      some ({ s with osInit := true, tab := .ready, port := true,
                     lost := s.lost + (if s.tab = .null then 0 else 1) }, true)
    else (osShutdown { s with osInit := true, tab := .raw }).map fun s' => (s', false)
  else some ({ s with osInit := true, tab := .null }, false)

/-- Block that is lost when a pointer to it is overwritten. -/
def over (b : Bool) : Nat := if b then 1 else 0

/-- The last part of `events_init`, src/events.c:258-293: the queues, the list `gc` and the sleep task (`__thrd_init`, 1048-1064).
That there is memory for them is assumed: the program is aborted otherwise. -/
def rest (s : St) : St :=
  { s with queues := true, gc := true, sleeper := true, lost := s.lost + over s.queues + over s.gc + over s.sleeper }

/-- `events_init`, src/events.c:217-294: the new state and whether it returned 0.  `none`: undefined. -/
def init (g : Grant) (s : St) : Option (St × Bool) :=
  if s.startup then some (s, true)
  else
    match osInit g { s with startup := true, shutdown := false } with
    | none => none
    | some (s1, false) => some (s1, false)
    | some (s1, true) =>
        if g.fds then some (rest { s1 with fds := true, lost := s1.lost + over s1.fds }, true)
        else (osShutdown { s1 with fds := false, lost := s1.lost + over s1.fds }).map fun s2 => (s2, false)

/-- `events_deinit`, src/events.c:296-367: each pointer is checked and then set to NULL. -/
def deinit (s : St) : Option St :=
  if s.shutdown then some s
  else (osShutdown { s with shutdown := true, queues := false, gc := false, sleeper := false, fds := false }).map fun s' =>
    { s' with startup := false }

/-- One call. -/
inductive Op
  | init (g : Grant)
  | deinit
  deriving DecidableEq

/-- A call and what it returned (`events_deinit` returns nothing). -/
def step (s : St) : Op → Option (St × Bool)
  | .init g => init g s
  | .deinit => (deinit s).map fun s' => (s', true)

/-- A history of calls; `none` if one of them is undefined. -/
def run (s : St) : List Op → Option St
  | [] => some s
  | o :: os => (step s o).bind fun p => run p.1 os

/-- The library can be used. -/
def Ready (s : St) : Prop := s.tab = .ready ∧ s.port = true ∧ s.fds = true ∧ s.queues = true ∧ s.gc = true ∧ s.sleeper = true

/-- Nothing is allocated. -/
def Clean (s : St) : Prop :=
  s.tab = .null ∧ s.port = false ∧ s.fds = false ∧ s.queues = false ∧ s.gc = false ∧ s.sleeper = false ∧ s.lost = 0

instance (s : St) : Decidable (Ready s) := inferInstanceAs (Decidable (_ ∧ _))
instance (s : St) : Decidable (Clean s) := inferInstanceAs (Decidable (_ ∧ _))

/-- The call is granted the table and the event descriptor. -/
def Op.basic : Op → Bool
  | .init g => g.tab && g.port
  | .deinit => true

/-- Every request of the call is granted. -/
def Op.full : Op → Bool
  | .init g => g.tab && g.port && g.fds
  | .deinit => true

/-! ## Lemmas -/

/-- The library runs. -/
def Up : St := ⟨true, false, true, .ready, true, true, true, true, true, 0⟩
/-- Nothing is there; `sd` is the flag of `events_deinit`. -/
def Down (sd : Bool) : St := ⟨false, sd, false, .null, false, false, false, false, false, 0⟩
/-- After a failure of the descriptor table. -/
def Half : St := ⟨true, false, false, .null, false, false, false, false, false, 0⟩

/-- The states that histories of granted calls reach. -/
def Reach (s : St) : Prop := s = Up ∨ s = Down true ∨ s = Down false ∨ s = Half

instance (s : St) : Decidable (Reach s) := inferInstanceAs (Decidable (_ ∨ _))

theorem init_reach {s : St} (h : Reach s) {g : Grant} (ho : (Op.init g).basic = true) :
    ∃ s' r, init g s = some (s', r) ∧ Reach s' ∧ (g.fds = true → s ≠ Half → s' ≠ Half) ∧
      (r = true → s ≠ Half → Ready s') := by
  obtain ⟨a, b, c⟩ := g
  simp only [Op.basic, Bool.and_eq_true] at ho
  obtain ⟨rfl, rfl⟩ := ho
  rcases h with rfl | rfl | rfl | rfl <;> cases c <;> exact ⟨_, _, rfl, by decide, by decide, by decide⟩

theorem deinit_reach {s : St} (h : Reach s) : ∃ s', deinit s = some s' ∧ Reach s' ∧ Clean s' ∧ s' ≠ Half := by
  rcases h with rfl | rfl | rfl | rfl <;> exact ⟨_, rfl, by decide, by decide, by decide⟩

theorem run_reach (ops : List Op) (h : ∀ o ∈ ops, o.basic = true) {s : St} (hs : Reach s) :
    ∃ s', run s ops = some s' ∧ Reach s' ∧ ((∀ o ∈ ops, o.full = true) → s ≠ Half → s' ≠ Half) := by
  induction ops generalizing s with
  | nil => exact ⟨s, rfl, hs, fun _ h => h⟩
  | cons o ops ih =>
      have ho := h o (List.mem_cons_self ..)
      have h' := fun o' ho' => h o' (List.mem_cons_of_mem _ ho')
      cases o with
      | init g =>
          obtain ⟨s1, r, h1, hr, hf, -⟩ := init_reach hs ho
          obtain ⟨s2, h2, hr2, hf2⟩ := ih h' hr
          refine ⟨s2, by rw [run, step, h1]; exact h2, hr2, fun hall hne => ?_⟩
          refine hf2 (fun o' ho' => hall o' (List.mem_cons_of_mem _ ho')) (hf ?_ hne)
          have := hall _ (List.mem_cons_self ..)
          simp only [Op.full, Bool.and_eq_true] at this
          exact this.2
      | deinit =>
          obtain ⟨s1, h1, hr, -, hne⟩ := deinit_reach hs
          obtain ⟨s2, h2, hr2, hf2⟩ := ih h' hr
          refine ⟨s2, by rw [run, step, h1]; exact h2, hr2, fun hall _ => ?_⟩
          exact hf2 (fun o' ho' => hall o' (List.mem_cons_of_mem _ ho')) hne

/-! ## Properties -/

/-- **C123.**  After any calls of `events_init` and `events_deinit` that got all they asked for, a call of `events_init` that returns
0 leaves the library ready for use.  (Partial: false after a call that failed, `init_after_failure`.) -/
theorem init_ready_partial (ops : List Op) (h : ∀ o ∈ ops, o.full = true) (g : Grant) (hg : g.tab = true ∧ g.port = true) :
    ∃ s s' r, run start ops = some s ∧ init g s = some (s', r) ∧ (r = true → Ready s') ∧ (r = false → Clean s') := by
  have hb : ∀ o ∈ ops, o.basic = true := by
    intro o ho
    have := h o ho
    cases o with
    | init g => simp only [Op.full, Op.basic, Bool.and_eq_true] at this ⊢; exact this.1
    | deinit => rfl
  obtain ⟨s, hs, hr, hne⟩ := run_reach ops hb (s := start) (Or.inr (Or.inr (Or.inl rfl)))
  have hs' : s ≠ Half := hne h (by decide)
  obtain ⟨a, b, c⟩ := g
  obtain ⟨rfl, rfl⟩ := hg
  refine ⟨s, ?_⟩
  rcases hr with rfl | rfl | rfl | rfl
  · exact ⟨_, _, hs, rfl, by decide, by decide⟩
  · cases c <;> exact ⟨_, _, hs, rfl, by decide, by decide⟩
  · cases c <;> exact ⟨_, _, hs, rfl, by decide, by decide⟩
  · exact absurd rfl hs'

example : ∃ s, run start [.init ⟨true, true, true⟩, .deinit, .deinit, .init ⟨true, true, true⟩, .init ⟨true, true, true⟩] = some s ∧
    Ready s := ⟨_, rfl, by decide⟩

/-- **C123, negation.**  After a call of `events_init` that failed, the next one returns 0 although the library is not ready: no
descriptor table, no queues.  Both when the table of descriptors and when the table of pseudo descriptors could not be had. -/
theorem init_after_failure (g g' : Grant) (hf : g.tab = false ∨ (g.port = true ∧ g.fds = false)) :
    ∃ s, init g start = some (s, false) ∧ init g' s = some (s, true) ∧ ¬Ready s ∧ s.fds = false ∧ s.queues = false := by
  obtain ⟨a, b, c⟩ := g
  cases a <;> cases b <;> cases c <;> simp at hf <;> exact ⟨_, rfl, rfl, by decide, by decide, by decide⟩

example : (⟨true, true, false⟩ : Grant).tab = false ∨ ((⟨true, true, false⟩ : Grant).port = true ∧ (⟨true, true, false⟩ : Grant).fds = false) := by
  decide

/-- **C124.**  Whatever the order and the number of calls, if each gets the table of pseudo descriptors and the event descriptor:
nothing is freed twice or lost, and after `events_deinit` nothing is allocated.  (Partial: `init_no_table_ub`, `init_no_port_ub`.) -/
theorem deinit_clean_partial (ops : List Op) (h : ∀ o ∈ ops, o.basic = true) :
    ∃ s s', run start ops = some s ∧ s.lost = 0 ∧ deinit s = some s' ∧ Clean s' := by
  obtain ⟨s, hs, hr, -⟩ := run_reach ops h (s := start) (Or.inr (Or.inr (Or.inl rfl)))
  obtain ⟨s', hd, -, hc, -⟩ := deinit_reach hr
  refine ⟨s, s', hs, ?_, hd, hc⟩
  rcases hr with rfl | rfl | rfl | rfl <;> rfl

example : ∀ o ∈ [Op.init ⟨true, true, false⟩, .init ⟨true, true, true⟩, .deinit, .init ⟨true, true, true⟩], o.basic = true := by decide

/-- **C124, negation.**  After a call that got no table of pseudo descriptors, `events_deinit` goes through a NULL table. -/
theorem init_no_table_ub (g : Grant) (hg : g.tab = false) : ∃ s, init g start = some (s, false) ∧ deinit s = none := by
  obtain ⟨a, b, c⟩ := g
  simp only at hg
  subst hg
  exact ⟨_, rfl, rfl⟩

/-- **C124, negation.**  A call that gets no event descriptor goes through a table that was never cleared (and closes the descriptors
it finds there). -/
theorem init_no_port_ub (g : Grant) (hg : g.tab = true) (hp : g.port = false) : init g start = none := by
  obtain ⟨a, b, c⟩ := g
  simp only at hg hp
  subst hg hp
  rfl

example : init ⟨false, true, true⟩ start ≠ none := by decide

end Verif.Life
