import Mathlib.Data.List.Nodup
import Mathlib.Logic.Function.Basic

/-!
# Exceptions and guard scopes of several tasks of one thread (C47, C63)

`ex_local()` (the innermost handler record), `scope_local()->arena` and `scope_local()->status` belong to the thread; a switch
of tasks neither saves nor restores them (`task_switch`, src/events.c:1545-1577, touches none of them).
-/

namespace Verif.Except.Tasks

/-! ## Handler records -/

/-- A handler record lies on the stack of the task `owner`; `next` is the record that was current when it was set up. -/
structure Rec where
  owner : Nat
  next : Option Nat
  live : Bool
  deriving DecidableEq

/-- `cur` is `ex_local()`, `none` the root record.  `own t`: the records of the `try` statements task `t` is inside of,
innermost first (where the control flow of `t` is, not a variable of the program). -/
structure St where
  recs : Nat → Rec
  n : Nat
  cur : Option Nat
  own : Nat → List Nat

inductive Op where
  | enter (t : Nat)
  | leave (t : Nat)

/-- `try_start` (src/except.c:893-906) and `try_finish` (908-921) of a statement that ends normally. -/
def step (s : St) : Op → St
  | .enter t =>
    { recs := Function.update s.recs s.n ⟨t, s.cur, true⟩, n := s.n + 1, cur := some s.n,
      own := Function.update s.own t (s.n :: s.own t) }
  | .leave t =>
    match s.own t with
    | [] => s
    | r :: rs =>
      { s with
        recs := Function.update s.recs r { s.recs r with live := false }
        cur := if s.cur = some r then (s.recs r).next else s.cur
        own := Function.update s.own t rs }

def init : St := { recs := fun _ => ⟨0, none, false⟩, n := 0, cur := none, own := fun _ => [] }

def run (os : List Op) : St := os.foldl step init

/-- Where `ex_throw` jumps to (src/except.c:484-523): the current record; `none`: the program is terminated. -/
def throwTarget (s : St) : Option Nat := s.cur

/-- Where an exception of task `t` belongs. -/
def ownHandler (s : St) (t : Nat) : Option Nat := (s.own t).head?

/-- The rule that is missing from the documentation: while a task is inside of a `try`, no other task of the thread enters
or leaves one. -/
def Alone (s : St) (t : Nat) : Prop := ∀ u, u ≠ t → s.own u = []

def Rule : St → List Op → Prop
  | _, [] => True
  | s, .enter t :: os => Alone s t ∧ Rule (step s (.enter t)) os
  | s, .leave t :: os => Alone s t ∧ Rule (step s (.leave t)) os

def Linked (m : Nat → Rec) (t : Nat) : Option Nat → List Nat → Prop
  | c, [] => c = none
  | c, r :: rs => c = some r ∧ (m r).owner = t ∧ (m r).live = true ∧ Linked m t (m r).next rs

theorem Linked.congr {m m' : Nat → Rec} {t : Nat} {c : Option Nat} {rs : List Nat} (h : Linked m t c rs)
    (he : ∀ r ∈ rs, m' r = m r) : Linked m' t c rs := by
  induction rs generalizing c with
  | nil => exact h
  | cons r rs ih =>
    obtain ⟨h1, h2, h3, h4⟩ := h
    have e := he r (List.mem_cons_self ..)
    refine ⟨h1, by rw [e]; exact h2, by rw [e]; exact h3, ?_⟩
    rw [e]
    exact ih h4 fun x hx => he x (List.mem_cons_of_mem _ hx)

structure Inv (s : St) : Prop where
  holder : ∃ t, Alone s t ∧ Linked s.recs t s.cur (s.own t)
  nodup : ∀ t, (s.own t).Nodup
  lt : ∀ t, ∀ r ∈ s.own t, r < s.n

/-- The holder may be taken to be the task that acts next. -/
theorem Inv.at {s : St} (h : Inv s) {t : Nat} (ht : Alone s t) : Linked s.recs t s.cur (s.own t) := by
  obtain ⟨u, hu, hl⟩ := h.holder
  by_cases e : u = t
  · exact e ▸ hl
  · rw [ht u e] at hl
    rw [hu t (Ne.symm e)]
    exact hl

theorem step_inv {s : St} (h : Inv s) {o : Op} {t : Nat} (ho : o = .enter t ∨ o = .leave t) (ht : Alone s t) :
    Inv (step s o) := by
  have hl := h.at ht
  rcases ho with rfl | rfl
  · refine ⟨⟨t, ?_, ?_⟩, ?_, ?_⟩
    · intro u hu
      simp only [step]
      rw [Function.update_of_ne hu]
      exact ht u hu
    · simp only [step, Function.update_self]
      refine ⟨rfl, by rw [Function.update_self], by rw [Function.update_self], ?_⟩
      rw [Function.update_self]
      exact hl.congr fun r hr => Function.update_of_ne (by have := h.lt t r hr; omega) ..
    · intro u
      simp only [step]
      by_cases e : u = t
      · subst e
        rw [Function.update_self]
        exact List.nodup_cons.2 ⟨fun k => absurd (h.lt u _ k) (by omega), h.nodup u⟩
      · rw [Function.update_of_ne e]; exact h.nodup u
    · intro u r hr
      simp only [step] at hr ⊢
      by_cases e : u = t
      · subst e
        rw [Function.update_self] at hr
        rcases List.mem_cons.1 hr with rfl | hr
        · omega
        · have := h.lt u r hr; omega
      · rw [Function.update_of_ne e] at hr
        have := h.lt u r hr; omega
  · cases e : s.own t with
    | nil => simp only [step, e]; exact h
    | cons r rs =>
      rw [e] at hl
      obtain ⟨h1, h2, h3, h4⟩ := hl
      have hnd := h.nodup t
      rw [e] at hnd
      simp only [step, e]
      rw [if_pos h1]
      refine ⟨⟨t, ?_, ?_⟩, ?_, ?_⟩
      · intro u hu
        simp only
        rw [Function.update_of_ne hu]
        exact ht u hu
      · simp only [Function.update_self]
        exact h4.congr fun x hx => Function.update_of_ne (fun e : x = r => (List.nodup_cons.1 hnd).1 (e ▸ hx)) ..
      · intro u
        simp only
        by_cases e' : u = t
        · subst e'; rw [Function.update_self]; exact (List.nodup_cons.1 hnd).2
        · rw [Function.update_of_ne e']; exact h.nodup u
      · intro u x hx
        simp only at hx ⊢
        by_cases e' : u = t
        · subst e'
          rw [Function.update_self] at hx
          exact h.lt u x (by rw [e]; exact List.mem_cons_of_mem _ hx)
        · rw [Function.update_of_ne e'] at hx; exact h.lt u x hx

theorem run_inv : ∀ (os : List Op) (s : St), Inv s → Rule s os → Inv (os.foldl step s)
  | [], _, h, _ => h
  | .enter _ :: os, _, h, hr => run_inv os _ (step_inv h (.inl rfl) hr.1) hr.2
  | .leave _ :: os, _, h, hr => run_inv os _ (step_inv h (.inr rfl) hr.1) hr.2

/-- Claim C63 under the rule: an exception of a task goes to the innermost `try` this task is inside of, and that record is
still in use; if the task is in none the program is terminated. -/
theorem exception_stays_in_task_partial (os : List Op) (hr : Rule init os) (t : Nat) (ht : Alone (run os) t) :
    throwTarget (run os) = ownHandler (run os) t ∧
      ∀ r, throwTarget (run os) = some r → ((run os).recs r).owner = t ∧ ((run os).recs r).live = true := by
  have hi : Inv (run os) := run_inv os init ⟨⟨0, fun _ _ => rfl, rfl⟩, fun _ => List.nodup_nil, by simp [init]⟩ hr
  have hl := hi.at ht
  unfold throwTarget ownHandler
  cases e : (run os).own t with
  | nil =>
    rw [e] at hl
    have : (run os).cur = none := hl
    simp [this]
  | cons r rs =>
    rw [e] at hl
    obtain ⟨h1, h2, h3, _⟩ := hl
    refine ⟨h1, fun x hx => ?_⟩
    rw [h1] at hx
    obtain rfl := Option.some.inj hx
    exact ⟨h2, h3⟩

example : Rule init [.enter 1, .enter 1, .leave 1, .leave 1, .enter 2] := by
  simp [Rule, Alone, step, init, Function.update_apply]

/-- Against C63: two tasks, each inside of a `try`: an exception of the first one is caught in the other task. -/
theorem exception_crosses_tasks (t u : Nat) (h : t ≠ u) :
    let s := run [.enter t, .enter u]
    throwTarget s = ownHandler s u ∧ throwTarget s ≠ ownHandler s t := by
  simp [run, step, init, throwTarget, ownHandler, Function.update_apply, h, Ne.symm h]

/-- Against C63: two overlapping `try` statements of two tasks, both left normally: the current record is one that no longer
exists, and the next exception jumps into it. -/
theorem overlapping_tries_leave_dead_handler (t u : Nat) (h : t ≠ u) :
    let s := run [.enter t, .enter u, .leave t, .leave u]
    (∀ v, s.own v = []) ∧ ∃ r, throwTarget s = some r ∧ (s.recs r).live = false := by
  refine ⟨?_, 0, ?_, ?_⟩
  · intro v
    simp [run, step, init, Function.update_apply, h, Ne.symm h]
    by_cases h1 : v = t <;> by_cases h2 : v = u <;> simp_all [Function.update_apply]
  · simp [run, step, init, throwTarget, Function.update_apply, h, Ne.symm h]
  · simp [run, step, init, Function.update_apply, h, Ne.symm h]

/-! ## Deferred functions -/

/-- Deferred functions are numbers.  `garb t`: `t->garbage`, newest first; `scopes b`: the deferred functions of the guard block
`b`, newest first; `tscope`: `t->scope`; `saved t`: the guard sections task `t` is inside of, with the local variables `_g_scope`
and `_g_arena` of each; `log`: deferred functions that ran, with the task that ran them. -/
structure GSt where
  arena : Option Nat
  guarded : Bool
  tscope : Nat → Option Nat
  garb : Nat → List Nat
  scopes : Nat → List Nat
  n : Nat
  saved : Nat → List (Nat × Option Nat)
  log : List (Nat × Nat)

inductive GOp where
  | open_ (t : Nat)
  | defer (t d : Nat)
  | close (t : Nat)
  | finish (t : Nat)

def GOp.task : GOp → Nat
  | .open_ t => t
  | .defer t _ => t
  | .close t => t
  | .finish t => t

/-- `guard` (include/except.h:332-341 with `guard_init`, src/except.c:1119-1137), `defer` (`deferred`, src/events.c:1927-1935 with
`scope_is_guarded` and `get_scope`, src/except.c:1024-1041; `_defer_init`, src/events.c:1893-1925), `guarded` without a panic
(`guard_reset`, src/except.c:1198-1216) and the end of the task (`task_awaitable` and `deferred_unwind`,
src/events.c:1163-1170 and 1101-1125).  `none`: a null pointer is followed, or `guarded` without `guard`. -/
def gstep (s : GSt) : GOp → Option GSt
  | .open_ t =>
    some { s with arena := some s.n, guarded := true, tscope := Function.update s.tscope t (some s.n),
                  scopes := Function.update s.scopes s.n [], n := s.n + 1,
                  saved := Function.update s.saved t ((s.n, s.arena) :: s.saved t) }
  | .defer t d =>
    if (s.tscope t).isSome || s.guarded then
      match s.arena with
      | none => none
      | some b => some { s with scopes := Function.update s.scopes b (d :: s.scopes b) }
    else some { s with garb := Function.update s.garb t (d :: s.garb t) }
  | .close t =>
    match s.saved t with
    | [] => none
    | (b, a0) :: sv =>
      some { s with log := s.log ++ (s.scopes b).map fun d => (t, d),
                    guarded := s.guarded && a0.isSome, arena := a0,
                    tscope := Function.update s.tscope t none, saved := Function.update s.saved t sv }
  | .finish t =>
    some { s with log := s.log ++ (s.garb t).map (fun d => (t, d)), garb := Function.update s.garb t [] }

def ginit : GSt :=
  { arena := none, guarded := false, tscope := fun _ => none, garb := fun _ => [], scopes := fun _ => [], n := 0,
    saved := fun _ => [], log := [] }

def grun (s : GSt) : List GOp → Option GSt
  | [] => some s
  | o :: os => (gstep s o).bind (grun · os)

/-- Specification: each task has its own open scopes, innermost first, and its own list for the time outside of them. -/
structure AG where
  st : Nat → List (List Nat)
  base : Nat → List Nat
  log : List (Nat × Nat)

def astep (a : AG) : GOp → Option AG
  | .open_ t => some { a with st := Function.update a.st t ([] :: a.st t) }
  | .defer t d =>
    match a.st t with
    | [] => some { a with base := Function.update a.base t (d :: a.base t) }
    | l :: ls => some { a with st := Function.update a.st t ((d :: l) :: ls) }
  | .close t =>
    match a.st t with
    | [] => none
    | l :: ls => some { a with st := Function.update a.st t ls, log := a.log ++ l.map fun d => (t, d) }
  | .finish t => some { a with base := Function.update a.base t [], log := a.log ++ (a.base t).map fun d => (t, d) }

def ainit : AG := ⟨fun _ => [], fun _ => [], []⟩

/-- `GRun a os a'`: the specification goes from `a` to `a'`, and while a task is inside of a guard section no other task defers
a function or begins a guard section. -/
inductive GRun : AG → List GOp → AG → Prop
  | nil (a : AG) : GRun a [] a
  | cons {a a' a'' : AG} {o : GOp} {os : List GOp} (alone : ∀ u, u ≠ o.task → a.st u = []) (h : astep a o = some a')
      (r : GRun a' os a'') : GRun a (o :: os) a''
  | fin {a a' a'' : AG} {t : Nat} {os : List GOp} (h : astep a (.finish t) = some a')
      (r : GRun a' os a'') : GRun a (.finish t :: os) a''

def Chn (sc : Nat → List Nat) : Option Nat → List (Nat × Option Nat) → List (List Nat) → Prop
  | c, [], [] => c = none
  | c, (b, a0) :: sv, l :: ls => c = some b ∧ sc b = l ∧ Chn sc a0 sv ls
  | _, _, _ => False

theorem Chn.congr {sc sc' : Nat → List Nat} {c : Option Nat} {sv : List (Nat × Option Nat)} {ls : List (List Nat)}
    (h : Chn sc c sv ls) (he : ∀ x ∈ sv, sc' x.1 = sc x.1) : Chn sc' c sv ls := by
  induction sv generalizing c ls with
  | nil => cases ls <;> exact h
  | cons x sv ih =>
    obtain ⟨b, a0⟩ := x
    cases ls with
    | nil => exact h
    | cons l ls =>
      obtain ⟨h1, h2, h3⟩ := h
      exact ⟨h1, (he _ (List.mem_cons_self ..)).trans h2, ih h3 fun x hx => he x (List.mem_cons_of_mem _ hx)⟩

theorem Chn.isSome {sc : Nat → List Nat} {c : Option Nat} {sv : List (Nat × Option Nat)} {ls : List (List Nat)}
    (h : Chn sc c sv ls) : c.isSome = !ls.isEmpty := by
  cases sv <;> cases ls
  · have : c = none := h
    simp [this]
  · exact absurd h (by simp [Chn])
  · exact absurd h (by simp [Chn])
  · rename_i x sv l ls
    obtain ⟨b, a0⟩ := x
    simp [h.1]

structure GInv (s : GSt) (a : AG) : Prop where
  holder : ∃ t, (∀ u, u ≠ t → a.st u = []) ∧ Chn s.scopes s.arena (s.saved t) (a.st t) ∧ s.guarded = !(a.st t).isEmpty
  idle : ∀ u, a.st u = [] → s.saved u = [] ∧ s.tscope u = none
  nodup : ∀ t, ((s.saved t).map (·.1)).Nodup
  lt : ∀ t, ∀ x ∈ s.saved t, x.1 < s.n
  garb : s.garb = a.base
  log : s.log = a.log

theorem GInv.at {s : GSt} {a : AG} (h : GInv s a) {t : Nat} (ht : ∀ u, u ≠ t → a.st u = []) :
    Chn s.scopes s.arena (s.saved t) (a.st t) ∧ s.guarded = !(a.st t).isEmpty := by
  obtain ⟨u, hu, hl, hg⟩ := h.holder
  by_cases e : u = t
  · exact e ▸ ⟨hl, hg⟩
  · have h1 := ht u e
    have h2 := hu t (Ne.symm e)
    rw [(h.idle u h1).1, h1] at hl
    rw [h1] at hg
    rw [h2, (h.idle t h2).1]
    exact ⟨hl, hg⟩

theorem finish_inv {s : GSt} {a a' : AG} {t : Nat} (h : GInv s a) (ha : astep a (.finish t) = some a') :
    ∃ s', gstep s (.finish t) = some s' ∧ GInv s' a' := by
  simp only [astep, Option.some.injEq] at ha
  subst ha
  refine ⟨_, rfl, h.holder, h.idle, h.nodup, h.lt, ?_, ?_⟩
  · simp only; rw [h.garb]
  · simp only; rw [h.garb, h.log]

theorem gstep_inv {s : GSt} {a a' : AG} {o : GOp} (h : GInv s a) (ht : ∀ u, u ≠ o.task → a.st u = [])
    (ha : astep a o = some a') : ∃ s', gstep s o = some s' ∧ GInv s' a' := by
  obtain ⟨hl, hg⟩ := h.at ht
  cases o with
  | finish t => exact finish_inv h ha
  | open_ t =>
    simp only [GOp.task] at ht hl hg
    simp only [astep, Option.some.injEq] at ha
    subst ha
    refine ⟨_, rfl, ⟨t, ?_, ?_, ?_⟩, ?_, ?_, ?_, h.garb, h.log⟩
    · intro u hu; simp only; rw [Function.update_of_ne hu]; exact ht u hu
    · simp only [Function.update_self]
      refine ⟨rfl, by rw [Function.update_self], ?_⟩
      exact hl.congr fun x hx => Function.update_of_ne (by have := h.lt t x hx; omega) ..
    · simp
    · intro u hu
      simp only at hu ⊢
      by_cases e : u = t
      · subst e; rw [Function.update_self] at hu; exact absurd hu (by simp)
      · rw [Function.update_of_ne e] at hu ⊢; rw [Function.update_of_ne e]; exact h.idle u hu
    · intro u
      simp only
      by_cases e : u = t
      · subst e
        rw [Function.update_self, List.map_cons]
        refine List.nodup_cons.2 ⟨fun k => ?_, h.nodup u⟩
        obtain ⟨x, hx, e⟩ := List.mem_map.1 k
        have := h.lt u x hx
        simp only at e
        omega
      · rw [Function.update_of_ne e]; exact h.nodup u
    · intro u x hx
      simp only at hx ⊢
      by_cases e : u = t
      · subst e
        rw [Function.update_self] at hx
        rcases List.mem_cons.1 hx with rfl | hx
        · simp
        · have := h.lt u x hx; omega
      · rw [Function.update_of_ne e] at hx; have := h.lt u x hx; omega
  | defer t d =>
    simp only [GOp.task] at ht hl hg
    simp only [astep] at ha
    cases e : a.st t with
    | nil =>
      rw [e] at ha hg hl
      simp only [Option.some.injEq] at ha
      subst ha
      have h1 := h.idle t e
      refine ⟨{ s with garb := Function.update s.garb t (d :: s.garb t) },
        by simp only [gstep]; rw [if_neg (by rw [h1.2, hg]; simp)], h.holder, h.idle, h.nodup, h.lt, ?_, h.log⟩
      simp only; rw [h.garb]
    | cons l ls =>
      rw [e] at ha hg hl
      simp only [Option.some.injEq] at ha
      subst ha
      cases es : s.saved t with
      | nil => rw [es] at hl; exact absurd hl (by simp [Chn])
      | cons x sv =>
        obtain ⟨b, a0⟩ := x
        rw [es] at hl
        obtain ⟨h1, h2, h3⟩ := hl
        have hnd := h.nodup t
        rw [es, List.map_cons] at hnd
        refine ⟨{ s with scopes := Function.update s.scopes b (d :: s.scopes b) },
          by simp only [gstep]; rw [if_pos (by rw [hg]; simp)]; simp only [h1], ⟨t, ?_, ?_, ?_⟩, ?_, h.nodup, h.lt, h.garb, h.log⟩
        · intro u hu; simp only; rw [Function.update_of_ne hu]; exact ht u hu
        · simp only [Function.update_self, es]
          refine ⟨h1, by rw [Function.update_self, h2], ?_⟩
          exact h3.congr fun x hx => Function.update_of_ne
            (fun e : x.1 = b => (List.nodup_cons.1 hnd).1 (List.mem_map.2 ⟨x, hx, e⟩)) ..
        · simp only [Function.update_self]; rw [hg]; rfl
        · intro u hu
          simp only at hu ⊢
          by_cases e' : u = t
          · subst e'; rw [Function.update_self] at hu; exact absurd hu (by simp)
          · rw [Function.update_of_ne e'] at hu; exact h.idle u hu
  | close t =>
    simp only [GOp.task] at ht hl hg
    simp only [astep] at ha
    cases e : a.st t with
    | nil => rw [e] at ha; exact absurd ha (by simp)
    | cons l ls =>
      rw [e] at ha hg hl
      simp only [Option.some.injEq] at ha
      subst ha
      cases es : s.saved t with
      | nil => rw [es] at hl; exact absurd hl (by simp [Chn])
      | cons x sv =>
        obtain ⟨b, a0⟩ := x
        rw [es] at hl
        obtain ⟨h1, h2, h3⟩ := hl
        have hnd := h.nodup t
        rw [es, List.map_cons] at hnd
        refine ⟨{ s with log := s.log ++ (s.scopes b).map fun d => (t, d),
                         guarded := s.guarded && a0.isSome, arena := a0,
                         tscope := Function.update s.tscope t none, saved := Function.update s.saved t sv },
          by simp only [gstep, es], ⟨t, ?_, ?_, ?_⟩, ?_, ?_, ?_, h.garb, ?_⟩
        · intro u hu; simp only; rw [Function.update_of_ne hu]; exact ht u hu
        · simp only [Function.update_self]; exact h3
        · simp only [Function.update_self]; rw [hg, h3.isSome]; simp
        · intro u hu
          simp only at hu ⊢
          by_cases e' : u = t
          · subst e'
            rw [Function.update_self] at hu ⊢
            rw [Function.update_self]
            refine ⟨?_, rfl⟩
            cases sv with
            | nil => rfl
            | cons y sv => rw [hu] at h3; exact absurd h3 (by simp [Chn])
          · rw [Function.update_of_ne e'] at hu ⊢; rw [Function.update_of_ne e']; exact h.idle u hu
        · intro u
          simp only
          by_cases e' : u = t
          · subst e'; rw [Function.update_self]; exact (List.nodup_cons.1 hnd).2
          · rw [Function.update_of_ne e']; exact h.nodup u
        · intro u x hx
          simp only at hx ⊢
          by_cases e' : u = t
          · subst e'
            rw [Function.update_self] at hx
            exact h.lt u x (by rw [es]; exact List.mem_cons_of_mem _ hx)
          · rw [Function.update_of_ne e'] at hx; exact h.lt u x hx
        · simp only; rw [h.log, h2]

theorem grun_spec {s : GSt} {a a' : AG} {os : List GOp} (h : GInv s a) (hr : GRun a os a') :
    ∃ s', grun s os = some s' ∧ GInv s' a' := by
  induction hr generalizing s with
  | nil => exact ⟨s, rfl, h⟩
  | cons al ha _ ih =>
    obtain ⟨s1, e1, h1⟩ := gstep_inv h al ha
    obtain ⟨s2, e2, h2⟩ := ih h1
    exact ⟨s2, by simp only [grun]; rw [e1]; exact e2, h2⟩
  | fin ha _ ih =>
    obtain ⟨s1, e1, h1⟩ := finish_inv h ha
    obtain ⟨s2, e2, h2⟩ := ih h1
    exact ⟨s2, by simp only [grun]; rw [e1]; exact e2, h2⟩

/-- Claim C47 for tasks: as long as no other task defers functions or begins guard sections while a task is inside of one, each
deferred function runs once, in the task that deferred it, newest first at the end of its scope or of the task. -/
theorem task_defers_lifo_once_partial (os : List GOp) (a : AG) (h : GRun ainit os a) :
    ∃ s, grun ginit os = some s ∧ s.log = a.log ∧ s.garb = a.base := by
  obtain ⟨s, e, hi⟩ := grun_spec (s := ginit) (a := ainit) ⟨⟨0, fun _ _ => rfl, rfl, rfl⟩, fun _ _ => ⟨rfl, rfl⟩,
    fun _ => List.nodup_nil, by simp [ginit], rfl, rfl⟩ h
  exact ⟨s, e, hi.log, hi.garb⟩

/-- A case that meets the hypotheses: task 1 with a scope, then task 2. -/
example : ∃ a, GRun ainit [.defer 1 10, .open_ 1, .defer 1 11, .defer 1 12, .close 1, .defer 2 20, .defer 2 21, .finish 2, .finish 1] a ∧
    a.log = [(1, 12), (1, 11), (2, 21), (2, 20), (1, 10)] := by
  refine ⟨_, .cons ?_ rfl <| .cons ?_ rfl <| .cons ?_ rfl <| .cons ?_ rfl <| .cons ?_ rfl <| .cons ?_ rfl <| .cons ?_ rfl <|
    .fin rfl <| .fin rfl <| .nil _, ?_⟩ <;> simp [ainit, GOp.task, Function.update_apply] <;> simp_all

/-- Against C47: a function that task `u` defers while task `t` is inside of a guard section runs at the end of that section, in
`t`, and not at the end of `u`. -/
theorem defer_goes_to_other_task (t u d : Nat) :
    (grun ginit [.open_ t, .defer u d, .finish u, .close t]).map (·.log) = some [(t, d)] := by
  simp [grun, gstep, ginit]

end Verif.Except.Tasks
