import Mathlib.Logic.Function.Basic
import Mathlib.Data.List.Flatten
import Mathlib.Tactic.ByContra

/-!
# Cancelling threads of the bundled POSIX threads for Windows (`include/compat/pthread.h` 507-576, 324-349), C186, C187

Simplified: a cleanup handler or destructor is known by its number and by whether it passes a cancellation point (the header makes
one of almost every library function: `close`, `printf`, `fclose` …, 1224-1458); it does not itself push handlers, change the
cancel state or cancel threads.  One thread moves at a time.  `longjmp` out of `pthread_exit` means that nothing after it is run.
-/

namespace Verif.Pth.Cancel

/-- A cleanup handler, or a thread-specific value with its destructor. -/
structure Handler where
  id : Nat
  /-- it passes a cancellation point -/
  point : Bool
  deriving DecidableEq

/-- What can be seen of the end of a thread. -/
inductive Act where
  | handler (id : Nat)
  | destructor (id : Nat)
  | ended
  deriving DecidableEq

/-- The loop over the handlers in `_pthread_invoke_cancel` (523-526).  `pending` is `_pthread_cancelling` after its decrement.  The
thread is still marked cancelled and cancellable, so if the counter is not zero a cancellation point in a handler calls
`_pthread_invoke_cancel` again (`again`), which does not come back. -/
def handlers (pending : Nat) (again : List Act) : List Handler → List Act → List Act
  | [], rest => rest
  | h :: t, rest => .handler h.id :: if h.point ∧ pending ≠ 0 then again else handlers pending again t rest

/-- `_pthread_cleanup_dest` (324-349) as called by `pthread_exit` (507-515), for destructors that set no values: for each value
`pthread_rwlock_rdlock`, which begins with `pthread_testcancel` (304), then the destructor.  Then the `longjmp`. -/
def destructors (pending : Nat) (again : List Act) : List Handler → List Act
  | [] => [.ended]
  | d :: t =>
    if pending ≠ 0 then again
    else .destructor d.id :: if d.point ∧ pending ≠ 0 then again else destructors pending again t

/-- `_pthread_invoke_cancel` (518-529), entered with the counter at the given value. -/
def invoke : Nat → List Handler → List Handler → List Act
  | 0, _, _ => []
  | p + 1, hs, ds => handlers p (invoke p hs ds) hs (destructors p (invoke p hs ds) ds)

/-- The value of the counter when the thread has ended: each entry of `_pthread_invoke_cancel` takes one away. -/
def leftover : Nat → List Handler → List Handler → Nat
  | 0, _, _ => 0
  | p + 1, hs, ds => if (hs.any (·.point) ∨ ds ≠ []) ∧ p ≠ 0 then leftover p hs ds else p

/-- `struct _pthread_v` (122-133) as far as cancelling goes; `hs` are the handlers, the last pushed first. -/
structure Th where
  cancelled : Bool := false
  enabled : Bool := true
  async : Bool := false
  hs : List Handler := []
  ds : List Handler := []
  log : List Act := []
  deriving DecidableEq

structure St where
  pending : Nat
  th : Nat → Th

inductive Op where
  | cancel (t : Nat)
  | point (t : Nat)
  | setState (t : Nat) (on : Bool)
  | setType (t : Nat) (async : Bool)
  | push (t : Nat) (h : Handler)
  | setValue (t : Nat) (d : Handler)
  | exit (t : Nat)
  deriving DecidableEq

def St.set (s : St) (t : Nat) (x : Th) : St := { s with th := Function.update s.th t x }

/-- The thread's record after it has been cancelled with the counter at `p`. -/
def die (s : St) (t : Nat) (p : Nat) : St :=
  { s.set t { s.th t with cancelled := true, log := invoke p (s.th t).hs (s.th t).ds } with
    pending := leftover p (s.th t).hs (s.th t).ds }

/-- `pthread_cancel` (542-576), `pthread_testcancel` (531-539), `pthread_setcancelstate`, `pthread_setcanceltype` (659-679),
`pthread_cleanup_push` (180-185), `pthread_setspecific`, `pthread_exit` (507-515).  A thread that has ended does nothing more; it may
still be cancelled by others. -/
def step (s : St) : Op → St
  | .cancel t =>
    let x := s.th t
    if x.async then
      if x.cancelled then s
      else if x.log ≠ [] then { s.set t { x with cancelled := true } with pending := s.pending + 1 }
      else die s t (s.pending + 1)
    else { s.set t { x with cancelled := true } with pending := s.pending + 1 }
  | .point t =>
    let x := s.th t
    if x.log ≠ [] then s
    else if s.pending ≠ 0 ∧ x.cancelled ∧ x.enabled then die s t s.pending else s
  | .setState t on => if (s.th t).log ≠ [] then s else s.set t { s.th t with enabled := on }
  | .setType t a => if (s.th t).log ≠ [] then s else s.set t { s.th t with async := a }
  | .push t h => if (s.th t).log ≠ [] then s else s.set t { s.th t with hs := h :: (s.th t).hs }
  | .setValue t d => if (s.th t).log ≠ [] then s else s.set t { s.th t with ds := (s.th t).ds ++ [d] }
  | .exit t =>
    let x := s.th t
    if x.log ≠ [] then s
    else
      let p := if x.cancelled ∧ x.enabled then s.pending else 0
      { s.set t { x with log := destructors p (invoke p x.hs x.ds) x.ds } with
        pending := if p ≠ 0 ∧ x.ds ≠ [] then leftover p x.hs x.ds else s.pending }

def init : St := { pending := 0, th := fun _ => {} }

def run (ops : List Op) : St := ops.foldl step init

/-! ## Specification -/

/-- What POSIX promises for a cancelled thread: its handlers, the last pushed first, then its destructors, each once; then the end. -/
def specEnd (hs ds : List Handler) : List Act :=
  hs.map (fun h => .handler h.id) ++ ds.map (fun d => .destructor d.id) ++ [.ended]

/-- The handlers up to and including the first one with a cancellation point. -/
def upToPoint : List Handler → List Handler
  | [] => []
  | h :: t => h :: if h.point then [] else upToPoint t

/-! ## Lemmas -/

theorem handlers_zero (again : List Act) (hs : List Handler) (rest : List Act) :
    handlers 0 again hs rest = hs.map (fun h => .handler h.id) ++ rest := by
  induction hs with
  | nil => rfl
  | cons h t ih => simp [handlers, ih]

theorem destructors_zero (again : List Act) (ds : List Handler) :
    destructors 0 again ds = ds.map (fun d => .destructor d.id) ++ [.ended] := by
  induction ds with
  | nil => rfl
  | cons d t ih => simp [destructors, ih]

theorem handlers_quiet {p : Nat} {again : List Act} {hs : List Handler} (h : hs.any (·.point) = false) (rest : List Act) :
    handlers p again hs rest = hs.map (fun h => .handler h.id) ++ rest := by
  induction hs with
  | nil => rfl
  | cons a t ih =>
    simp only [List.any_cons, Bool.or_eq_false_iff] at h
    simp [handlers, h.1, ih h.2]

theorem handlers_point {p : Nat} (hp : p ≠ 0) {again : List Act} {hs : List Handler} (h : hs.any (·.point) = true)
    (rest : List Act) : handlers p again hs rest = (upToPoint hs).map (fun h => .handler h.id) ++ again := by
  induction hs with
  | nil => cases h
  | cons a t ih =>
    cases ha : a.point
    · simp only [List.any_cons, ha, Bool.false_or] at h
      simp [handlers, upToPoint, ha, ih h]
    · simp [handlers, upToPoint, ha, hp]

theorem upToPoint_quiet {hs : List Handler} (h : hs.any (·.point) = false) : upToPoint hs = hs := by
  induction hs with
  | nil => rfl
  | cons a t ih =>
    simp only [List.any_cons, Bool.or_eq_false_iff] at h
    simp [upToPoint, h.1, ih h.2]

theorem invoke_one (hs ds : List Handler) : invoke 1 hs ds = specEnd hs ds := by
  simp [invoke, handlers_zero, destructors_zero, specEnd]

theorem invoke_more {p : Nat} {hs ds : List Handler} (h : hs.any (·.point) = true ∨ ds ≠ []) :
    invoke (p + 2) hs ds = (upToPoint hs).map (fun h => .handler h.id) ++ invoke (p + 1) hs ds := by
  have hp : p + 1 ≠ 0 := by omega
  rw [invoke]
  cases ha : hs.any (·.point)
  · rw [handlers_quiet ha, upToPoint_quiet ha]
    rcases h with h | h
    · rw [ha] at h; cases h
    · cases ds with
      | nil => exact absurd rfl h
      | cons d t =>
        congr 1
  · exact handlers_point hp ha _

/-! ## C186 -/

/-- **C186, part.**  A thread that reaches a cancellation point while it is the only one to be cancelled, and only once, runs its
handlers and then its destructors, each exactly once, and ends.  With other cancellations pending it is false: `cancel_repeats`. -/
theorem cancel_once_partial (ops : List Op) {t : Nat} (hl : ((run ops).th t).log = [])
    (hc : ((run ops).th t).cancelled = true) (he : ((run ops).th t).enabled = true) (hp : (run ops).pending = 1) :
    ((run (ops ++ [.point t])).th t).log = specEnd ((run ops).th t).hs ((run ops).th t).ds := by
  have e : run (ops ++ [.point t]) = step (run ops) (.point t) := by
    show (ops ++ [Op.point t]).foldl step init = _
    rw [List.foldl_append]; rfl
  rw [e]
  simp only [step, hl, hc, he, hp]
  simp [die, St.set, invoke_one]

/-- **C186, the claim fails.**  With `p + 1` cancellations pending (of this thread or of others), a cancelled thread that has a
handler with a cancellation point, or a thread-specific value, runs its handlers up to the first such point `p` times over before it
runs them as it should. -/
theorem cancel_repeats (ops : List Op) {t : Nat} (hl : ((run ops).th t).log = [])
    (hc : ((run ops).th t).cancelled = true) (he : ((run ops).th t).enabled = true) {p : Nat} (hp : (run ops).pending = p + 1)
    (hx : ((run ops).th t).hs.any (·.point) = true ∨ ((run ops).th t).ds ≠ []) :
    ((run (ops ++ [.point t])).th t).log =
      (List.replicate p ((upToPoint ((run ops).th t).hs).map fun h => Act.handler h.id)).flatten ++
        specEnd ((run ops).th t).hs ((run ops).th t).ds := by
  have e : run (ops ++ [.point t]) = step (run ops) (.point t) := by
    show (ops ++ [Op.point t]).foldl step init = _
    rw [List.foldl_append]; rfl
  have hi : ∀ p, invoke (p + 1) ((run ops).th t).hs ((run ops).th t).ds =
      (List.replicate p ((upToPoint ((run ops).th t).hs).map fun h => Act.handler h.id)).flatten ++
        specEnd ((run ops).th t).hs ((run ops).th t).ds := by
    intro p
    induction p with
    | zero => simp [invoke_one]
    | succ p ih => rw [invoke_more hx, ih]; simp [List.replicate_succ]
  rw [e]
  simp only [step, hl, hc, he, hp]
  simp only [die, St.set, ne_eq, not_true_eq_false, if_false, Nat.succ_ne_zero, not_false_eq_true, and_self, if_true,
    Function.update_self]
  exact hi p

/-- Two cancellations are enough, one of them of another thread. -/
theorem cancel_two_threads {t u : Nat} (hne : t ≠ u) (i : Nat) :
    ((run [.push t ⟨i, true⟩, .cancel u, .cancel t, .point t]).th t).log = [.handler i, .handler i, .ended] := by
  simp [run, step, init, St.set, die, invoke, handlers, destructors, hne, hne.symm, Function.update_of_ne]

/-! ## C187 -/

/-- **C187, part.**  A thread that has disabled cancellation and has the deferred type does not end, whatever cancellations and
cancellation points come. -/
theorem disabled_safe_partial (ops : List Op) {t : Nat} (hl : ((run ops).th t).log = [])
    (he : ((run ops).th t).enabled = false) (ha : ((run ops).th t).async = false) {more : List Op}
    (hm : ∀ op ∈ more, op ≠ .exit t ∧ (∀ b, op ≠ .setState t b) ∧ ∀ b, op ≠ .setType t b) :
    ((run (ops ++ more)).th t).log = [] := by
  have e : run (ops ++ more) = more.foldl step (run ops) := by
    show (ops ++ more).foldl step init = _
    rw [List.foldl_append]; rfl
  rw [e]
  generalize run ops = s at hl he ha
  clear e
  suffices ((more.foldl step s).th t).log = [] ∧ ((more.foldl step s).th t).enabled = false ∧
      ((more.foldl step s).th t).async = false from this.1
  induction more generalizing s with
  | nil => exact ⟨hl, he, ha⟩
  | cons op more ih =>
    have hop := hm op List.mem_cons_self
    rw [List.foldl_cons]
    have hcase : ∀ (u : Nat) (x : Th), (u = t → x.log = [] ∧ x.enabled = false ∧ x.async = false) →
        (Function.update s.th u x t).log = [] ∧ (Function.update s.th u x t).enabled = false ∧
          (Function.update s.th u x t).async = false := by
      intro u x hu
      by_cases h : t = u
      · subst h
        rw [Function.update_self]; exact hu rfl
      · rw [Function.update_of_ne h]; exact ⟨hl, he, ha⟩
    have key : ((step s op).th t).log = [] ∧ ((step s op).th t).enabled = false ∧ ((step s op).th t).async = false := by
      cases op with
      | cancel u =>
        simp only [step]
        split
        · rename_i hu
          have hut : u ≠ t := fun h => by subst h; rw [ha] at hu; cases hu
          split
          · exact ⟨hl, he, ha⟩
          · split
            · exact hcase u _ (fun h => absurd h hut)
            · exact hcase u _ (fun h => absurd h hut)
        · exact hcase u _ (fun h => by subst h; exact ⟨hl, he, ha⟩)
      | point u =>
        simp only [step]
        split
        · exact ⟨hl, he, ha⟩
        · split
          · rename_i hu
            exact hcase u _ (fun h => by subst h; rw [he] at hu; simp at hu)
          · exact ⟨hl, he, ha⟩
      | setState u b =>
        simp only [step]
        split
        · exact ⟨hl, he, ha⟩
        · exact hcase u _ (fun h => absurd (h ▸ rfl) (hop.2.1 b))
      | setType u b =>
        simp only [step]
        split
        · exact ⟨hl, he, ha⟩
        · exact hcase u _ (fun h => absurd (h ▸ rfl) (hop.2.2 b))
      | push u h =>
        simp only [step]
        split
        · exact ⟨hl, he, ha⟩
        · exact hcase u _ (fun h => by subst h; exact ⟨hl, he, ha⟩)
      | setValue u d =>
        simp only [step]
        split
        · exact ⟨hl, he, ha⟩
        · exact hcase u _ (fun h => by subst h; exact ⟨hl, he, ha⟩)
      | exit u =>
        simp only [step]
        split
        · exact ⟨hl, he, ha⟩
        · exact hcase u _ (fun h => absurd (h ▸ rfl) hop.1)
    exact ih (fun o ho => hm o (List.mem_cons_of_mem _ ho)) _ key.1 key.2.1 key.2.2

/-- **C187, other half.**  A thread that nobody cancels and that does not call `pthread_exit` does not end, whatever is pending for
other threads. -/
theorem not_cancelled_lives (ops : List Op) {t : Nat} (hm : ∀ op ∈ ops, op ≠ .exit t ∧ op ≠ .cancel t) :
    ((run ops).th t).log = [] := by
  suffices h : ∀ s : St, (s.th t).log = [] → (s.th t).cancelled = false →
      ((ops.foldl step s).th t).log = [] from h init rfl rfl
  induction ops with
  | nil => intro s hl _; exact hl
  | cons op ops ih =>
    intro s hl hc
    have hop := hm op List.mem_cons_self
    have hcase : ∀ (u : Nat) (x : Th), (u = t → x.log = [] ∧ x.cancelled = false) →
        (Function.update s.th u x t).log = [] ∧ (Function.update s.th u x t).cancelled = false := by
      intro u x hu
      by_cases h : t = u
      · subst h
        rw [Function.update_self]; exact hu rfl
      · rw [Function.update_of_ne h]; exact ⟨hl, hc⟩
    have key : ((step s op).th t).log = [] ∧ ((step s op).th t).cancelled = false := by
      cases op with
      | cancel u =>
        have hut : u ≠ t := fun h => hop.2 (by rw [h])
        simp only [step]
        split
        · split
          · exact ⟨hl, hc⟩
          · split
            · exact hcase u _ (fun h => absurd h hut)
            · exact hcase u _ (fun h => absurd h hut)
        · exact hcase u _ (fun h => absurd h hut)
      | point u =>
        simp only [step]
        split
        · exact ⟨hl, hc⟩
        · split
          · rename_i hu
            exact hcase u _ (fun h => by subst h; rw [hc] at hu; simp at hu)
          · exact ⟨hl, hc⟩
      | setState u b =>
        simp only [step]
        split
        · exact ⟨hl, hc⟩
        · exact hcase u _ (fun h => by subst h; exact ⟨hl, hc⟩)
      | setType u b =>
        simp only [step]
        split
        · exact ⟨hl, hc⟩
        · exact hcase u _ (fun h => by subst h; exact ⟨hl, hc⟩)
      | push u h =>
        simp only [step]
        split
        · exact ⟨hl, hc⟩
        · exact hcase u _ (fun h => by subst h; exact ⟨hl, hc⟩)
      | setValue u d =>
        simp only [step]
        split
        · exact ⟨hl, hc⟩
        · exact hcase u _ (fun h => by subst h; exact ⟨hl, hc⟩)
      | exit u =>
        simp only [step]
        split
        · exact ⟨hl, hc⟩
        · exact hcase u _ (fun h => absurd (by rw [h]) hop.1)
    exact ih (fun o ho => hm o (List.mem_cons_of_mem _ ho)) _ key.1 key.2

/-- Running handlers ends with the end of the thread. -/
theorem invoke_ne_nil (p : Nat) (hs ds : List Handler) : invoke (p + 1) hs ds ≠ [] := by
  cases hs with
  | nil =>
    cases ds with
    | nil => simp [invoke, handlers, destructors]
    | cons d t =>
      cases p with
      | zero => simp [invoke, handlers, destructors]
      | succ p =>
        simp only [invoke, handlers, destructors]
        simp only [ne_eq, Nat.succ_ne_zero, not_false_eq_true, if_true]
        exact invoke_ne_nil p [] (d :: t)
  | cons h t => simp [invoke, handlers]

/-- **C187, the claim fails.**  A thread of the asynchronous type is ended by `pthread_cancel` although it has disabled
cancellation. -/
theorem disabled_async_dies (ops : List Op) {t : Nat} (hc : ((run ops).th t).cancelled = false)
    (ha : ((run ops).th t).async = true) :
    ((run (ops ++ [.cancel t])).th t).log ≠ [] := by
  have e : run (ops ++ [.cancel t]) = step (run ops) (.cancel t) := by
    show (ops ++ [Op.cancel t]).foldl step init = _
    rw [List.foldl_append]; rfl
  rw [e]
  simp only [step, ha, hc]
  by_cases hl : ((run ops).th t).log = []
  · simp [hl, die, St.set, invoke_ne_nil]
  · simp [hl, St.set]

/-- **C186, the claim fails for `pthread_exit`**: a thread that ends itself runs none of its handlers. -/
theorem exit_skips_handlers (ops : List Op) {t : Nat} (hl : ((run ops).th t).log = [])
    (hc : ((run ops).th t).cancelled = false) (i : Nat) : Act.handler i ∉ ((run (ops ++ [.exit t])).th t).log := by
  have e : run (ops ++ [.exit t]) = step (run ops) (.exit t) := by
    show (ops ++ [Op.exit t]).foldl step init = _
    rw [List.foldl_append]; rfl
  rw [e]
  simp only [step, hl, hc]
  simp [St.set, destructors_zero]

/-! ## Examples -/

example : ((run [.push 1 ⟨7, true⟩, .push 1 ⟨8, false⟩, .setValue 1 ⟨9, false⟩, .cancel 1, .point 1]).th 1).log =
    [.handler 8, .handler 7, .destructor 9, .ended] := by decide
example : ((run [.push 1 ⟨7, true⟩, .push 1 ⟨8, false⟩, .cancel 1, .cancel 1, .point 1]).th 1).log =
    [.handler 8, .handler 7, .handler 8, .handler 7, .ended] := by decide
example : ((run [.cancel 2, .point 1, .cancel 2, .point 1]).th 1).log = [] := not_cancelled_lives _ (by decide)
example : ((run [.setState 1 false, .cancel 1, .point 1, .point 1]).th 1).log = [] := by decide
example : ((run [.setType 1 true, .setState 1 false, .cancel 1]).th 1).log = [.ended] := by decide

end Verif.Pth.Cancel
