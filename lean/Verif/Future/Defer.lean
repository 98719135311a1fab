import Verif.Basic
import Mathlib.Logic.Function.Basic
import Mathlib.Data.List.Basic
import Mathlib.Data.List.Infix

/-!
# Deferred functions outside of guard sections and tasks (`src/events.c` 1868-1951, 2625-2670, `src/except.c` 104-117,
998-1117, 1216-1219), C230 and C231

A thread that is not inside a task keeps what it defers in one of two places: in the list of its scope (`scope->defer_arr`), or,
once anything of the event library has been used in the thread, in the list (`garbage`) of the record for "no task"
(`active_buffer`).  The scope is unwound after every job of a pool thread and at the end of the process.
-/

namespace Verif.Future.Defer

/-- A deferred call. -/
abbrev D := Nat

/-- A thread.  `scope`: `scope_local()`, the outer `none` is NULL, the inner one `defer_arr == NULL`; `active`:
`tasks_is_active()`, events.c:1243-1245, true as soon as `__thrd()` was called; `buf`: `active_buffer->garbage`,
events.c:94 and 1957-1967; `log`: the deferred calls made so far. -/
structure Th where
  scope : Option (Option (List D)) := none
  active : Bool := false
  buf : List D := []
  log : List D := []
  deriving DecidableEq, Repr

/-- `get_scope` outside of guard sections and tasks, except.c:1025-1037, with `scope_init`, 998-1023. -/
def getScope (s : Th) : Th :=
  match s.scope with
  | none => { s with scope := some (some []) }
  | some _ => s

/-- `$append(scope->defer_arr, …)` between `atomic_lock($lock(scope->defer_arr))` and the unlock: with NULL the lock is in front
of address 0 (arrays.c:32-37 and 123-125). -/
def push (s : Th) (d : D) : Res Th :=
  match s.scope with
  | some (some l) => .ok { s with scope := some (some (l ++ [d])) }
  | _ => .ub

/-- `deferred`, events.c:1927-1951 with `_defer_init`, 1893-1925: `scope_is_guarded()` makes the scope; no task runs. -/
def defer (s : Th) (d : D) : Res Th :=
  let s := getScope s
  if s.active then .ok { s with buf := s.buf ++ [d] } else push s d

/-- `fence`, except.c:1105-1117 with `scope_deferred`, 1089-1103.  Simplified: the protector for exceptions is that of C48. -/
def fence (s : Th) (d : D) : Res Th := push (getScope s) d

/-- `scope_unwind(scope_local())`, except.c:1043-1087: newest first. -/
def unwind (s : Th) : Th :=
  match s.scope with
  | some (some l) => { s with scope := some none, log := s.log ++ l.reverse }
  | _ => s

inductive Act where
  | defer (d : D)
  | fence (d : D)
  deriving DecidableEq, Repr

/-- One call of a job. -/
def act (s : Th) : Act → Res Th
  | .defer d => defer s d
  | .fence d => fence s d

/-- The calls of a job. -/
def acts (s : Th) : List Act → Res Th
  | [] => .ok s
  | a :: l => match act s a with
    | .ok s' => acts s' l
    | .ub => .ub

/-- A job of a pool thread; `array`: it returns an array it has made. -/
structure Job where
  calls : List Act
  array : Bool := false
  deriving DecidableEq, Repr

/-- A round of `__future_wrapper`, events.c:2637-2652: the job, then `scope_local()->local` is read if it returned an array,
and the scope is unwound. -/
def job (s : Th) (j : Job) : Res Th :=
  match acts s j.calls with
  | .ub => .ub
  | .ok s' => if j.array && s'.scope.isNone then .ub else .ok (unwind s')

/-- All rounds of `__future_wrapper`. -/
def jobs (s : Th) : List Job → Res Th
  | [] => .ok s
  | j :: l => match job s j with
    | .ok s' => jobs s' l
    | .ub => .ub

/-- A pool thread before its first job: `__thrd()->pool = work` at events.c:2635 has set `__thrd`. -/
def pool : Th := { active := true }

/-! ## Specification -/

/-- What an action defers. -/
def Act.id : Act → D
  | .defer d => d
  | .fence d => d

def Act.isDefer : Act → Bool
  | .defer _ => true
  | .fence _ => false

/-- After each job its deferred calls are made, newest first. -/
def specLog (l : List Job) : List D := (l.map fun j => (j.calls.map Act.id).reverse).flatten

/-- Calls made with `defer`, oldest first. -/
def deferred (j : Job) : List D := (j.calls.filter Act.isDefer).map Act.id

/-- Calls registered with `fence`, oldest first. -/
def fenced (j : Job) : List D := (j.calls.filter fun a => !a.isDefer).map Act.id

/-! ## Pool threads -/

@[simp] theorem filt_defer (d : D) (l : List Act) :
    List.filter Act.isDefer (.defer d :: l) = .defer d :: List.filter Act.isDefer l := rfl
@[simp] theorem filt_fence (d : D) (l : List Act) :
    List.filter Act.isDefer (.fence d :: l) = List.filter Act.isDefer l := rfl
@[simp] theorem nfilt_defer (d : D) (l : List Act) :
    List.filter (fun a => !a.isDefer) (.defer d :: l) = List.filter (fun a => !a.isDefer) l := rfl
@[simp] theorem nfilt_fence (d : D) (l : List Act) :
    List.filter (fun a => !a.isDefer) (.fence d :: l) = .fence d :: List.filter (fun a => !a.isDefer) l := rfl

theorem acts_active : ∀ (l : List Act) (s : Th), s.active = true →
    (∃ l0, (getScope s).scope = some (some l0)) → ∃ s', acts s l = .ok s' ∧ s'.active = true ∧ s'.log = s.log ∧
      s'.buf = s.buf ++ (l.filter Act.isDefer).map Act.id ∧
      (l = [] → s' = s) ∧
      (l ≠ [] → ∀ l0, (getScope s).scope = some (some l0) →
        s'.scope = some (some (l0 ++ (l.filter fun a => !a.isDefer).map Act.id)))
  | [], s, h, _ => ⟨s, rfl, h, rfl, by simp, fun _ => rfl, fun h => absurd rfl h⟩
  | a :: l, s, h, ⟨l0, h0⟩ => by
    have hg : (getScope s).active = true := by unfold getScope; split <;> exact h
    have hb : (getScope s).buf = s.buf := by unfold getScope; split <;> rfl
    have hl : (getScope s).log = s.log := by unfold getScope; split <;> rfl
    have fin : ∀ s1 : Th, act s a = .ok s1 → s1.active = true → s1.log = s.log →
        s1.buf = s.buf ++ ([a].filter Act.isDefer).map Act.id →
        s1.scope = some (some (l0 ++ ([a].filter fun a => !a.isDefer).map Act.id)) →
        ∃ s', acts s (a :: l) = .ok s' ∧ s'.active = true ∧ s'.log = s.log ∧
        s'.buf = s.buf ++ ((a :: l).filter Act.isDefer).map Act.id ∧
        (a :: l = [] → s' = s) ∧
        (a :: l ≠ [] → ∀ l0, (getScope s).scope = some (some l0) →
          s'.scope = some (some (l0 ++ ((a :: l).filter fun a => !a.isDefer).map Act.id))) := by
      intro s1 ha h1 h2 h3 h4
      have hgs : getScope s1 = s1 := by unfold getScope; rw [h4]
      obtain ⟨s', g1, g2, g3, g4, g5, g6⟩ := acts_active l s1 h1 ⟨_, by rw [hgs, h4]⟩
      refine ⟨s', by simp [acts, ha, g1], g2, by rw [g3, h2], ?_, by simp, ?_⟩
      · rw [g4, h3]
        cases a <;> simp [Act.isDefer]
      · intro _ l1 hl1
        rw [h0] at hl1
        cases hl1
        by_cases hn : l = []
        · have := g5 hn
          subst hn
          rw [this, h4]
        · rw [g6 hn _ (by rw [hgs, h4])]
          cases a <;> simp [Act.isDefer]
    cases a with
    | defer d =>
      refine fin { getScope s with buf := (getScope s).buf ++ [d] } ?_ hg hl (by simp [hb, Act.id]) ?_
      · simp [act, defer, hg]
      · simp [h0, Act.isDefer]
    | fence d =>
      refine fin { getScope s with scope := some (some (l0 ++ [d])) } ?_ hg hl (by simp [hb, Act.isDefer]) ?_
      · simp [act, fence, push, h0]
      · simp [Act.isDefer, Act.id]

/-- A job whose thread has no list any more: fencing is undefined, deferring is not. -/
theorem acts_nolist : ∀ (l : List Act) (s : Th), s.active = true → s.scope = some none →
    if l.any (fun a => !a.isDefer) then acts s l = .ub
    else acts s l = .ok { s with buf := s.buf ++ (l.filter Act.isDefer).map Act.id }
  | [], s, _, _ => by simp [acts]
  | a :: l, s, h, hs => by
    have hg : getScope s = s := by unfold getScope; rw [hs]
    cases a with
    | fence d => simp [acts, act, fence, hg, push, hs, Act.isDefer]
    | defer d =>
      have := acts_nolist l { s with buf := s.buf ++ [d] } h hs
      have ha : acts s (.defer d :: l) = acts { s with buf := s.buf ++ [d] } l := by
        simp [acts, act, defer, hg, h]
      have hany : (Act.defer d :: l).any (fun a => !a.isDefer) = l.any (fun a => !a.isDefer) := rfl
      rw [ha, hany]
      split
      · rename_i hc; rw [if_pos hc] at this; exact this
      · rename_i hc
        rw [if_neg hc] at this
        rw [this]
        simp [Act.id]

/-- State of a pool thread between jobs, and what the remaining jobs do. -/
theorem jobs_from : ∀ (l : List Job) (s : Th), s.active = true → (s.scope = none ∨ s.scope = some none) →
    ∀ s', jobs s l = .ok s' → s'.log = s.log ++ (l.map fun j => (fenced j).reverse).flatten ∧
      s'.buf = s.buf ++ (l.map deferred).flatten ∧ s'.active = true
  | [], s, ha, _, s', h => by
    simp only [jobs, Res.ok.injEq] at h; subst h; simp [ha]
  | j :: l, s, ha, hs, s', h => by
    simp only [jobs] at h
    cases hj : job s j with
    | ub => rw [hj] at h; simp at h
    | ok s1 =>
      rw [hj] at h
      simp only at h
      have key : s1.active = true ∧ (s1.scope = none ∨ s1.scope = some none) ∧ s1.log = s.log ++ (fenced j).reverse ∧
          s1.buf = s.buf ++ deferred j := by
        unfold job at hj
        rcases hs with hs | hs
        · obtain ⟨s2, g1, g2, g3, g4, g5, g6⟩ := acts_active j.calls s ha ⟨[], by simp [getScope, hs]⟩
          rw [g1] at hj
          simp only at hj
          split at hj
          · simp at hj
          · simp only [Res.ok.injEq] at hj
            subst hj
            by_cases hn : j.calls = []
            · have := g5 hn
              subst this
              simp [unwind, hs, ha, fenced, deferred, hn]
            · have hsc := g6 hn [] (by simp [getScope, hs])
              simp [unwind, hsc, g2, g3, g4, fenced, deferred]
        · have := acts_nolist j.calls s ha hs
          split at this
          · rw [this] at hj; simp at hj
          · rename_i hc
            rw [this] at hj
            simp only [hs, Option.isNone_some, Bool.and_false, Bool.false_eq_true, if_false, Res.ok.injEq] at hj
            have hf : fenced j = [] := by
              unfold fenced
              rw [List.map_eq_nil_iff, List.filter_eq_nil_iff]
              simpa using hc
            subst hj
            simp [unwind, ha, hf, deferred]
      obtain ⟨k1, k2, k3, k4⟩ := key
      obtain ⟨e1, e2, e3⟩ := jobs_from l s1 k1 k2 s' h
      refine ⟨?_, ?_, e3⟩
      · rw [e1, k3]; simp
      · rw [e2, k4]; simp

/-- **C230**, false of the code: what the jobs of a pool thread register with `defer` is never called, and is kept as long as
the thread lives; only what they register with `fence` is called. -/
theorem pool_defers_never_run (l : List Job) (s : Th) (h : jobs pool l = .ok s) :
    s.log = (l.map fun j => (fenced j).reverse).flatten ∧ s.buf = (l.map deferred).flatten := by
  have := jobs_from l pool rfl (Or.inl rfl) s h
  simpa [pool] using And.intro this.1 this.2.1

/-- **C230**, what holds: for jobs that use `fence` only, after every job exactly its calls are made, newest first, as long as
the thread comes through.
Missing: `defer` (`pool_defers_never_run`), and that it comes through (`pool_runs_iff`). -/
theorem pool_fences_run_partial (l : List Job) (hl : ∀ j ∈ l, ∀ a ∈ j.calls, a.isDefer = false) (s : Th)
    (h : jobs pool l = .ok s) : s.log = specLog l := by
  rw [(pool_defers_never_run l s h).1]
  unfold specLog
  congr 1
  apply List.map_congr_left
  intro j hj
  unfold fenced
  rw [List.filter_eq_self.mpr]
  intro a ha
  simp [hl j hj a ha]

/-- A job registers something. -/
def Uses (j : Job) : Prop := j.calls ≠ []

theorem jobs_iff : ∀ (l : List Job) (s : Th), s.active = true → (s.scope = none ∨ s.scope = some none) →
    ((∃ s', jobs s l = .ok s') ↔
      ∀ l1 j l2, l = l1 ++ j :: l2 →
        (fenced j ≠ [] → s.scope = none ∧ ∀ k ∈ l1, ¬ Uses k) ∧
        (j.array = true → s.scope = some none ∨ ∃ k ∈ l1 ++ [j], Uses k))
  | [], s, _, _ => by simp [jobs]
  | j :: l, s, ha, hs => by
    have hfe : ∀ k : Job, fenced k ≠ [] ↔ k.calls.any (fun a => !a.isDefer) = true := by
      intro k
      unfold fenced
      rw [Ne, List.map_eq_nil_iff, List.filter_eq_nil_iff]
      simp
    have hdec : ∀ (P : List Job → Job → List Job → Prop), (∀ l1 k l2, j :: l = l1 ++ k :: l2 → P l1 k l2) ↔
        (P [] j l ∧ ∀ l1 k l2, l = l1 ++ k :: l2 → P (j :: l1) k l2) := by
      intro P
      constructor
      · intro h
        exact ⟨h [] j l rfl, fun l1 k l2 hh => h (j :: l1) k l2 (by rw [hh]; rfl)⟩
      · rintro ⟨h1, h2⟩ l1 k l2 hh
        cases l1 with
        | nil => simp at hh; obtain ⟨rfl, rfl⟩ := hh; exact h1
        | cons x l1 => simp at hh; obtain ⟨rfl, hh⟩ := hh; exact h2 l1 k l2 hh
    rw [hdec]
    simp only [jobs]
    rcases hs with hs | hs
    · obtain ⟨s2, g1, g2, g3, g4, g5, g6⟩ := acts_active j.calls s ha ⟨[], by simp [getScope, hs]⟩
      by_cases hn : j.calls = []
      · have h2 := g5 hn
        subst h2
        by_cases hr : j.array = true
        · have : job s2 j = .ub := by simp [job, g1, hr, hs]
          rw [this]
          simp [hr, hs, Uses, hn]
        · have : job s2 j = .ok s2 := by simp [job, g1, hr, hs, unwind]
          rw [this]
          simp only
          rw [jobs_iff l s2 ha (Or.inl hs)]
          have hf0 : fenced j = [] := by simp [fenced, hn]
          constructor
          · intro h
            refine ⟨⟨fun h => absurd hf0 h, fun h => absurd h hr⟩, fun l1 k l2 hh => ?_⟩
            obtain ⟨a1, a2⟩ := h l1 k l2 hh
            refine ⟨fun hf => ⟨hs, ?_⟩, fun hk => ?_⟩
            · intro x hx
              simp at hx
              rcases hx with rfl | hx
              · simp [Uses, hn]
              · exact (a1 hf).2 x hx
            · rcases a2 hk with a2 | ⟨x, hx, hu⟩
              · exact Or.inl a2
              · exact Or.inr ⟨x, by simp at hx ⊢; tauto, hu⟩
          · rintro ⟨_, h⟩ l1 k l2 hh
            obtain ⟨a1, a2⟩ := h l1 k l2 hh
            refine ⟨fun hf => ⟨hs, fun x hx => (a1 hf).2 x (by simp [hx])⟩, fun hk => ?_⟩
            rcases a2 hk with a2 | ⟨x, hx, hu⟩
            · exact Or.inl a2
            · simp at hx
              rcases hx with rfl | hx
              · exact absurd hn hu
              · exact Or.inr ⟨x, by simpa using hx, hu⟩
      · have hsc := g6 hn [] (by simp [getScope, hs])
        have : job s j = .ok (unwind s2) := by simp [job, g1, hsc]
        rw [this]
        simp only
        have hu2 : (unwind s2).scope = some none := by simp [unwind, hsc]
        have hua : (unwind s2).active = true := by simp [unwind, hsc, g2]
        rw [jobs_iff l _ hua (Or.inr hu2)]
        constructor
        · intro h
          refine ⟨⟨fun _ => ⟨hs, by simp⟩, fun _ => Or.inr ⟨j, by simp, hn⟩⟩, fun l1 k l2 hh => ?_⟩
          obtain ⟨a1, _⟩ := h l1 k l2 hh
          refine ⟨fun hf => ?_, fun _ => Or.inr ⟨j, by simp, hn⟩⟩
          have := (a1 hf).1
          rw [hu2] at this
          exact absurd this (by simp)
        · rintro ⟨_, h⟩ l1 k l2 hh
          obtain ⟨a1, _⟩ := h l1 k l2 hh
          exact ⟨fun hf => absurd hn ((a1 hf).2 j (by simp)), fun _ => Or.inl hu2⟩
    · have := acts_nolist j.calls s ha hs
      split at this
      · rename_i hc
        have hj : job s j = .ub := by simp [job, this]
        rw [hj]
        have : fenced j ≠ [] := (hfe j).mpr hc
        constructor
        · rintro ⟨_, h⟩; simp at h
        · rintro ⟨h, _⟩
          have := (h.1 this).1
          rw [hs] at this
          exact absurd this (by simp)
      · rename_i hc
        have hj : job s j = .ok (unwind { s with buf := s.buf ++ (j.calls.filter Act.isDefer).map Act.id }) := by
          simp [job, this, hs]
        rw [hj]
        simp only
        have hu2 : (unwind { s with buf := s.buf ++ (j.calls.filter Act.isDefer).map Act.id }).scope = some none := by
          simp [unwind, hs]
        rw [jobs_iff l _ (by simp [unwind, hs, ha]) (Or.inr hu2)]
        have hf0 : ¬ fenced j ≠ [] := by rw [hfe]; exact hc
        constructor
        · intro h
          refine ⟨⟨fun hf => absurd hf hf0, fun _ => Or.inl hs⟩, fun l1 k l2 hh => ?_⟩
          obtain ⟨a1, _⟩ := h l1 k l2 hh
          refine ⟨fun hf => ?_, fun _ => Or.inl hs⟩
          have := (a1 hf).1
          rw [hu2] at this
          exact absurd this (by simp)
        · rintro ⟨_, h⟩ l1 k l2 hh
          obtain ⟨a1, _⟩ := h l1 k l2 hh
          refine ⟨fun hf => ?_, fun _ => Or.inl hu2⟩
          have := (a1 hf).1
          rw [hs] at this
          exact absurd this (by simp)

/-- **C230**: a pool thread comes through its jobs exactly if no job uses `fence` after an earlier one registered anything, and
no job returns an array before anything was registered in the thread. -/
theorem pool_runs_iff (l : List Job) : (∃ s, jobs pool l = .ok s) ↔
    ∀ l1 j l2, l = l1 ++ j :: l2 →
      (fenced j ≠ [] → ∀ k ∈ l1, ¬ Uses k) ∧ (j.array = true → ∃ k ∈ l1 ++ [j], Uses k) := by
  rw [jobs_iff l pool rfl (Or.inl rfl)]
  simp [pool]

example : jobs pool [⟨[.defer 1, .fence 2, .fence 3], true⟩] =
    .ok { scope := some none, active := true, buf := [1], log := [3, 2] } := by decide
example : jobs pool [⟨[.defer 1], false⟩, ⟨[.fence 2], false⟩] = .ub := by decide
example : jobs pool [⟨[], true⟩] = .ub := by decide

/-! ## The end of the process -/

/-- The threads of the process, `atexit_ctr_c_unwind` (except.c:79 and 1016-1017) and how often `scope_destroy` was given to
`atexit` (1019). -/
structure Proc where
  th : Nat → Th
  first : Option Nat
  handlers : Nat

/-- What a thread does outside of guard sections, tasks and jobs. -/
inductive Call where
  | act (a : Act)
  /-- any function of the event library that asks for `__thrd()` -/
  | useEvents
  /-- `exit_scope`, except.c:1216-1219 -/
  | exitScope
  deriving DecidableEq, Repr

/-- One call in one thread. -/
def callTh (s : Th) : Call → Res Th
  | .act a => act s a
  | .useEvents => .ok { s with active := true }
  | .exitScope => .ok (unwind (getScope s))

/-- One call in thread `t`: `scope_init` records the first scope and registers a handler per scope, except.c:1016-1019. -/
def call (p : Proc) (t : Nat) (c : Call) : Res Proc :=
  match callTh (p.th t) c with
  | .ub => .ub
  | .ok s =>
    if (p.th t).scope = none ∧ s.scope ≠ none then
      .ok ⟨Function.update p.th t s, p.first <|> some t, p.handlers + 1⟩
    else .ok { p with th := Function.update p.th t s }

/-- A history of calls. -/
def calls (p : Proc) : List (Nat × Call) → Res Proc
  | [] => .ok p
  | (t, c) :: l => match call p t c with
    | .ok p' => calls p' l
    | .ub => .ub

/-- `scope_destroy` in thread `t`, except.c:104-117.  Simplified: all threads still exist. -/
def destroy (p : Proc) (t : Nat) : Proc :=
  match (p.th t).scope with
  | none =>
    match p.first with
    | none => p
    | some u => { p with first := none,
                         th := Function.update p.th u { unwind (p.th u) with scope := (p.th u).scope.map fun _ => none } }
  | some _ => { p with th := Function.update p.th t { unwind (p.th t) with scope := some none } }

/-- The handlers run at the end. -/
def destroyN (p : Proc) (t : Nat) : Nat → Proc
  | 0 => p
  | n + 1 => destroyN (destroy p t) t n

/-- `exit` called by thread `t`. -/
def exitP (p : Proc) (t : Nat) : Proc := destroyN p t p.handlers

/-- No thread has done anything yet. -/
def start : Proc := ⟨fun _ => {}, none, 0⟩

theorem destroy_own {p : Proc} {t : Nat} {o : Option (List D)} (h : (p.th t).scope = some o) :
    destroy p t = { p with th := Function.update p.th t { p.th t with scope := some none, log := (p.th t).log ++ (o.getD []).reverse } } := by
  unfold destroy
  rw [h]
  cases o with
  | none => simp [unwind, h]
  | some l => simp [unwind, h]

theorem destroyN_own : ∀ (n : Nat) (p : Proc) (t : Nat), (p.th t).scope = some none →
    (destroyN p t n).th = p.th
  | 0, _, _, _ => rfl
  | n + 1, p, t, h => by
    have hd := destroy_own h
    have he : (destroy p t).th = p.th := by
      rw [hd]
      funext u
      by_cases hu : u = t
      · subst hu
        simp [← h]
      · simp [hu]
    rw [destroyN, destroyN_own n _ t (by rw [he]; exact h), he]

/-- What the end does when the thread that calls `exit` has a scope. -/
theorem exit_own {p : Proc} {t : Nat} {o : Option (List D)} (h : (p.th t).scope = some o) (hh : 0 < p.handlers) :
    (exitP p t).th = Function.update p.th t { p.th t with scope := some none, log := (p.th t).log ++ (o.getD []).reverse } := by
  unfold exitP
  obtain ⟨n, hn⟩ := Nat.exists_eq_succ_of_ne_zero (Nat.pos_iff_ne_zero.mp hh)
  rw [hn]
  show (destroyN (destroy p t) t n).th = _
  have hd := destroy_own h
  rw [destroyN_own n _ t (by rw [hd]; simp), hd]

/-- What is called at the end of the process if the main thread registered `l` in this order and never called `exit_scope`:
all that was registered with `fence` and what was registered with `defer` before the event library was used. -/
def kept : Bool → List Call → List D
  | _, [] => []
  | _, .useEvents :: l => kept true l
  | u, .exitScope :: l => kept u l
  | u, .act (.fence d) :: l => d :: kept u l
  | false, .act (.defer d) :: l => d :: kept false l
  | true, .act (.defer _) :: l => kept true l

/-- All that was registered. -/
def registered (l : List Call) : List D := l.filterMap fun c => match c with
  | .act a => some a.id
  | _ => none

theorem calls_main : ∀ (l : List Call) (p : Proc), (∀ c ∈ l, c ≠ .exitScope) →
    ((p.th 0).scope = none ∨ (0 < p.handlers ∧ ∃ l0, (p.th 0).scope = some (some l0))) →
    ∃ p', calls p (l.map fun c => (0, c)) = .ok p' ∧ (p'.th 0).log = (p.th 0).log ∧
      ((registered l = [] ∧ (p'.th 0).scope = (p.th 0).scope ∧ p'.handlers = p.handlers ∧ p'.first = p.first) ∨
       (0 < p'.handlers ∧
        (p'.th 0).scope = some (some ((((p.th 0).scope.getD none).getD []) ++ kept (p.th 0).active l))))
  | [], p, _, _ => ⟨p, rfl, rfl, Or.inl ⟨rfl, rfl, rfl, rfl⟩⟩
  | c :: l, p, hl, hp => by
    have hl' : ∀ c ∈ l, c ≠ .exitScope := fun c hc => hl c (by simp [hc])
    cases c with
    | exitScope => exact absurd rfl (hl .exitScope (by simp))
    | useEvents =>
      have hc : call p 0 .useEvents = .ok { p with th := Function.update p.th 0 { p.th 0 with active := true } } := by
        simp only [call, callTh]
        rw [if_neg (by simp)]
      obtain ⟨p', h1, h2, h3⟩ := calls_main l { p with th := Function.update p.th 0 { p.th 0 with active := true } } hl'
        (by simpa using hp)
      refine ⟨p', by simp [calls, hc, h1], by simpa using h2, ?_⟩
      simpa [kept, registered] using h3
    | act a =>
      obtain ⟨s, hs1, hs2, hs3, hs4⟩ : ∃ s, callTh (p.th 0) (.act a) = .ok s ∧ s.log = (p.th 0).log ∧
          s.active = (p.th 0).active ∧
          s.scope = some (some ((((p.th 0).scope.getD none).getD []) ++ kept (p.th 0).active [.act a])) := by
        rcases hp with hp | ⟨_, l0, hp⟩
        · cases a with
          | defer d =>
            cases hact : (p.th 0).active <;> simp [callTh, act, defer, getScope, hp, hact, push, kept]
          | fence d =>
            cases hact : (p.th 0).active <;> simp [callTh, act, fence, getScope, hp, hact, push, kept]
        · cases a with
          | defer d =>
            cases hact : (p.th 0).active <;> simp [callTh, act, defer, getScope, hp, hact, push, kept]
          | fence d =>
            cases hact : (p.th 0).active <;> simp [callTh, act, fence, getScope, hp, hact, push, kept]
      obtain ⟨p1, hc, hp1, hh1⟩ : ∃ p1, call p 0 (.act a) = .ok p1 ∧ p1.th 0 = s ∧ 0 < p1.handlers := by
        unfold call
        rw [hs1]
        simp only
        split
        · exact ⟨_, rfl, by simp, by simp⟩
        · rename_i hn
          refine ⟨_, rfl, by simp, ?_⟩
          rcases hp with hp | ⟨hp, _⟩
          · exact absurd ⟨hp, by rw [hs4]; simp⟩ hn
          · exact hp
      obtain ⟨p', h1, h2, h3⟩ := calls_main l p1 hl' (Or.inr ⟨hh1, _, by rw [hp1, hs4]⟩)
      refine ⟨p', by simp [calls, hc, h1], by rw [h2, hp1, hs2], Or.inr ?_⟩
      rcases h3 with ⟨h3, h4, h5, _⟩ | ⟨h3, h4⟩
      · refine ⟨by rw [h5]; exact hh1, ?_⟩
        rw [h4, hp1, hs4]
        have : kept (p.th 0).active (.act a :: l) = kept (p.th 0).active [.act a] := by
          have hk : ∀ (l : List Call) (b : Bool), registered l = [] → kept b l = [] := by
            intro l
            induction l with
            | nil => intro b _; cases b <;> rfl
            | cons x l ih =>
              intro b hr
              cases x with
              | act a => simp [registered] at hr
              | useEvents => exact ih true (by simpa [registered] using hr)
              | exitScope => simpa [kept] using ih b (by simpa [registered] using hr)
          cases a <;> cases (p.th 0).active <;> simp [kept, hk l _ h3]
        rw [this]
      · refine ⟨h3, ?_⟩
        rw [h4, hp1, hs4, hs3]
        cases a <;> cases (p.th 0).active <;> simp [kept]

/-- **C231**: what is called at the end of the process, newest first, when only the main thread registers anything and does not
call `exit_scope`: all that was registered before the event library was first used in it, and afterwards only what was
registered with `fence`.
Missing: what was registered with `defer` afterwards (`exit_forgets_defers`). -/
theorem exit_runs_partial (l : List Call) (hl : ∀ c ∈ l, c ≠ .exitScope) :
    ∃ p, calls start (l.map fun c => (0, c)) = .ok p ∧ ((exitP p 0).th 0).log = (kept false l).reverse := by
  obtain ⟨p, h1, h2, h3⟩ := calls_main l start hl (Or.inl rfl)
  refine ⟨p, h1, ?_⟩
  rcases h3 with ⟨h3, h4, h5, h6⟩ | ⟨h3, h4⟩
  · have hk : ∀ (l : List Call) (b : Bool), registered l = [] → kept b l = [] := by
      intro l
      induction l with
      | nil => intro b _; cases b <;> rfl
      | cons x l ih =>
        intro b hr
        cases x with
        | act a => simp [registered] at hr
        | useEvents => exact ih true (by simpa [registered] using hr)
        | exitScope => simpa [kept] using ih b (by simpa [registered] using hr)
    rw [hk l false h3]
    simp only [exitP, h5, start, destroyN, List.reverse_nil]
    rw [h2]; rfl
  · rw [exit_own h4 h3]
    simp [h2, start]

/-- Without any use of the event library everything registered is called. -/
theorem kept_all : ∀ l : List Call, (∀ c ∈ l, c ≠ .useEvents ∧ c ≠ .exitScope) → kept false l = registered l
  | [], _ => rfl
  | c :: l, h => by
    have ih := kept_all l fun c hc => h c (by simp [hc])
    have := h c (by simp)
    cases c with
    | act a => cases a <;> simp [kept, registered, Act.id, ih]
    | useEvents => exact absurd rfl this.1
    | exitScope => exact absurd rfl this.2

/-- **C231**: a main program that does not use the event library: at the end exactly the registered calls are made, newest
first. -/
theorem exit_runs_all_partial (l : List Call) (hl : ∀ c ∈ l, c ≠ .useEvents ∧ c ≠ .exitScope) :
    ∃ p, calls start (l.map fun c => (0, c)) = .ok p ∧ ((exitP p 0).th 0).log = (registered l).reverse := by
  obtain ⟨p, h1, h2⟩ := exit_runs_partial l fun c hc => (hl c hc).2
  exact ⟨p, h1, by rw [h2, kept_all l hl]⟩

/-- **C231**, false of the code: nothing registered with `defer` in the main thread after the event library was used is called
at the end. -/
theorem exit_forgets_defers (ds : List D) :
    ∃ p, calls start ((.useEvents :: ds.map fun d => Call.act (.defer d)).map fun c => (0, c)) = .ok p ∧
      ((exitP p 0).th 0).log = [] := by
  obtain ⟨p, h1, h2⟩ := exit_runs_partial (.useEvents :: ds.map fun d => Call.act (.defer d)) (by simp)
  refine ⟨p, h1, ?_⟩
  rw [h2]
  have : ∀ ds : List D, kept true (ds.map fun d => Call.act (.defer d)) = [] := by
    intro ds
    induction ds with
    | nil => rfl
    | cons d ds ih => simpa [kept] using ih
  simp [kept, this]

/-- **C231**, false of the code: after `exit_scope` the next `fence`, and, unless the event library is used, the next `defer` of
the thread is undefined. -/
theorem after_exit_scope_ub (s s' : Th) (h : callTh s .exitScope = .ok s') (d : D) :
    callTh s' (.act (.fence d)) = .ub ∧ (s.active = false → callTh s' (.act (.defer d)) = .ub) := by
  have hs : s'.scope = some none ∧ s'.active = s.active := by
    simp only [callTh, Res.ok.injEq] at h
    subst h
    cases hsc : s.scope with
    | none => simp [getScope, hsc, unwind]
    | some o => cases o <;> simp [getScope, hsc, unwind]
  have hg : getScope s' = s' := by unfold getScope; rw [hs.1]
  refine ⟨by simp [callTh, act, fence, hg, push, hs.1], fun ha => ?_⟩
  simp [callTh, act, defer, hg, push, hs.1, hs.2, ha]

/-- **C231**, false of the code: when a thread that has a scope of its own calls `exit`, nothing of any other thread is called,
whatever is registered there. -/
theorem exit_elsewhere (p : Proc) (t u : Nat) (hu : u ≠ t) (h : (p.th t).scope ≠ none) (hh : 0 < p.handlers) :
    ((exitP p t).th u).log = (p.th u).log := by
  obtain ⟨o, ho⟩ := Option.ne_none_iff_exists'.mp h
  rw [exit_own ho hh]
  simp [hu]

/-- The thread that was the first to call something that needs a scope. -/
def firstCaller (l : List (Nat × Call)) : Option Nat := (l.find? fun x => x.2 != .useEvents).map (·.1)

theorem callTh_scope {s s' : Th} {c : Call} (h : callTh s c = .ok s') :
    (c = .useEvents → s'.scope = s.scope) ∧ (c ≠ .useEvents → s'.scope ≠ none) := by
  have hg : (getScope s).scope ≠ none := by
    unfold getScope; split
    · simp
    · rename_i h; rw [h]; simp
  have hp : ∀ (d : D) (s' : Th), push (getScope s) d = .ok s' → s'.scope ≠ none := by
    intro d s' h
    unfold push at h
    split at h
    · simp only [Res.ok.injEq] at h; subst h; simp
    · simp at h
  cases c with
  | useEvents => simp only [callTh, Res.ok.injEq] at h; subst h; simp
  | exitScope =>
    simp only [callTh, Res.ok.injEq] at h
    subst h
    refine ⟨by simp, fun _ => ?_⟩
    unfold unwind; split
    · simp
    · exact hg
  | act a =>
    refine ⟨by simp, fun _ => ?_⟩
    cases a with
    | defer d =>
      simp only [callTh, act, defer] at h
      split at h
      · simp only [Res.ok.injEq] at h; subst h; exact hg
      · exact hp d s' h
    | fence d =>
      simp only [callTh, act, fence] at h
      exact hp d s' h

/-- Whoever is recorded has a scope, a handler is registered, and without a record there is no scope. -/
def Recorded (p : Proc) : Prop :=
  (p.first = none → ∀ u, (p.th u).scope = none) ∧ ∀ u, p.first = some u → (p.th u).scope ≠ none ∧ 0 < p.handlers

theorem calls_first : ∀ (l : List (Nat × Call)) (p p' : Proc), Recorded p → calls p l = .ok p' →
    Recorded p' ∧ p'.first = (p.first <|> firstCaller l)
  | [], p, p', hr, h => by
    simp only [calls, Res.ok.injEq] at h; subst h
    exact ⟨hr, by simp [firstCaller]⟩
  | (t, c) :: l, p, p', hr, h => by
    simp only [calls] at h
    cases hc : call p t c with
    | ub => rw [hc] at h; simp at h
    | ok p1 =>
      rw [hc] at h
      simp only at h
      have key : Recorded p1 ∧ p1.first = (p.first <|> if c = .useEvents then none else some t) := by
        unfold call at hc
        cases hs : callTh (p.th t) c with
        | ub => rw [hs] at hc; simp at hc
        | ok s =>
          rw [hs] at hc
          obtain ⟨k1, k2⟩ := callTh_scope hs
          simp only at hc
          split at hc
          · rename_i hn
            simp only [Res.ok.injEq] at hc
            subst hc
            have hcu : c ≠ .useEvents := fun e => hn.2 (by rw [k1 e]; exact hn.1)
            refine ⟨⟨fun hf => ?_, fun u hu => ⟨?_, by simp⟩⟩, by simp [hcu]⟩
            · exfalso; cases hpf : p.first <;> simp [hpf] at hf
            · by_cases e : u = t
              · subst e; simpa using hn.2
              · simp only [Function.update_of_ne e]
                cases hpf : p.first with
                | none => simp [hpf] at hu; exact absurd hu.symm e
                | some v => simp [hpf] at hu; subst hu; exact (hr.2 v hpf).1
          · rename_i hn
            simp only [Res.ok.injEq] at hc
            subst hc
            have ht : s.scope ≠ none → (p.th t).scope ≠ none := fun h1 h2 => hn ⟨h2, h1⟩
            refine ⟨⟨fun hf u => ?_, fun u hu => ⟨?_, (hr.2 u hu).2⟩⟩, ?_⟩
            · by_cases e : u = t
              · subst e
                simp only [Function.update_self]
                by_contra hh
                exact ht hh (hr.1 hf u)
              · simp only [Function.update_of_ne e]; exact hr.1 hf u
            · by_cases e : u = t
              · subst e
                simp only [Function.update_self]
                by_cases hcu : c = .useEvents
                · rw [k1 hcu]; exact (hr.2 u hu).1
                · exact k2 hcu
              · simp only [Function.update_of_ne e]; exact (hr.2 u hu).1
            · by_cases hcu : c = .useEvents
              · simp [hcu]
              · have := ht (k2 hcu)
                cases hpf : p.first with
                | none => exact absurd (hr.1 hpf t) this
                | some v => simp
      obtain ⟨g1, g2⟩ := calls_first l p1 p' key.1 h
      refine ⟨g1, ?_⟩
      rw [g2, key.2]
      by_cases hcu : c = .useEvents
      · simp [hcu, firstCaller]
      · cases p.first <;> simp [hcu, firstCaller]

theorem destroyN_none : ∀ (n : Nat) (p : Proc) (t : Nat), (p.th t).scope = none → p.first = none → destroyN p t n = p
  | 0, _, _, _, _ => rfl
  | n + 1, p, t, h, hf => by
    have : destroy p t = p := by unfold destroy; rw [h]; simp only [hf]
    rw [destroyN, this]
    exact destroyN_none n p t h hf

/-- **C231**, false of the code: when a thread that has registered nothing calls `exit`, after any calls of any threads, what is
still registered in the thread that was the first to register anything is called, newest first, and nothing of any other
thread. -/
theorem exit_by_other (l : List (Nat × Call)) (p : Proc) (h : calls start l = .ok p) (t : Nat)
    (ht : ∀ c, (t, c) ∈ l → c = .useEvents) (u : Nat) :
    ((exitP p t).th u).log = (p.th u).log ++
      (if firstCaller l = some u then (((p.th u).scope.getD none).getD []).reverse else []) := by
  have hts : (p.th t).scope = none := by
    have : ∀ (l : List (Nat × Call)) (p0 p : Proc), calls p0 l = .ok p → (∀ c, (t, c) ∈ l → c = .useEvents) →
        (p.th t).scope = (p0.th t).scope := by
      intro l
      induction l with
      | nil => intro p0 p h _; simp only [calls, Res.ok.injEq] at h; subst h; rfl
      | cons x l ih =>
        obtain ⟨v, c⟩ := x
        intro p0 p h hl
        simp only [calls] at h
        cases hc : call p0 v c with
        | ub => rw [hc] at h; simp at h
        | ok p1 =>
          rw [hc] at h
          simp only at h
          rw [ih p1 p h fun c hc => hl c (by simp [hc])]
          unfold call at hc
          cases hs : callTh (p0.th v) c with
          | ub => rw [hs] at hc; simp at hc
          | ok s =>
            rw [hs] at hc
            simp only at hc
            have hsv : v = t → s.scope = (p0.th v).scope := fun e =>
              (callTh_scope hs).1 (hl c (by rw [e]; simp))
            split at hc <;> simp only [Res.ok.injEq] at hc <;> subst hc <;>
              · by_cases e : t = v
                · subst e; simpa using hsv rfl
                · simp only [Function.update_of_ne e]
    rw [this l start p h ht]; rfl
  obtain ⟨hr, hf⟩ := calls_first l start p ⟨fun _ _ => rfl, fun _ h => by simp [start] at h⟩ h
  have hf' : p.first = firstCaller l := by rw [hf]; simp [start]
  unfold exitP
  cases hp : p.first with
  | none =>
    rw [destroyN_none _ p t hts hp, ← hf', hp]
    simp
  | some v =>
    obtain ⟨k1, k2⟩ := hr.2 v hp
    obtain ⟨n, hn⟩ := Nat.exists_eq_succ_of_ne_zero (Nat.pos_iff_ne_zero.mp k2)
    rw [hn]
    have hd : destroy p t = { p with first := none, th := Function.update p.th v { unwind (p.th v) with scope := (p.th v).scope.map fun _ => none } } := by
      unfold destroy; rw [hts]; simp only [hp]
    have hvt : t ≠ v := fun e => k1 (by rw [← e]; exact hts)
    show ((destroyN (destroy p t) t n).th u).log = _
    rw [destroyN_none n _ t (by rw [hd]; simp only [Function.update_of_ne hvt]; exact hts) (by rw [hd]), hd, ← hf', hp]
    by_cases e : u = v
    · subst e
      obtain ⟨o, ho⟩ := Option.ne_none_iff_exists'.mp k1
      cases o <;> simp [unwind, ho]
    · simp only [Function.update_of_ne e]
      rw [if_neg (by simpa using fun h => e h.symm)]
      simp

/-- Main registers 1, uses the event library, registers 2 with `defer` and 3 with `fence`. -/
def demo : List (Nat × Call) := [(0, .act (.defer 1)), (0, .useEvents), (0, .act (.defer 2)), (0, .act (.fence 3))]

example : (match calls start demo with | .ok p => ((exitP p 0).th 0).log | .ub => []) = [3, 1] := by decide
/-- Thread 1 has registered something as well and ends the process. -/
example : (match calls start (demo ++ [(1, .act (.defer 9))]) with
    | .ok p => (((exitP p 1).th 0).log, ((exitP p 1).th 1).log) | .ub => ([], [])) = ([], [9]) := by decide

/-- Threads 1 and 2 register something, then thread 0, which has not, ends the process. -/
example : (match calls start [(0, .useEvents), (1, .act (.defer 5)), (2, .act (.defer 6)), (1, .act (.fence 7))] with
    | .ok p => (((exitP p 0).th 1).log, ((exitP p 0).th 2).log) | .ub => ([], [])) = ([7, 5], []) := by decide

end Verif.Future.Defer
