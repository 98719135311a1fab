import Mathlib.Data.List.Basic
import Mathlib.Logic.Function.Basic
import Mathlib.Tactic.Cases

/-!
# Emulated thread-local variables (`include/future.h` 79-137, `src/os_unix.c` 728-748), C255

Where the compiler has no thread-local variables (TinyCC) a variable is a function that gives a pointer to the value of the calling thread.  The state of each
thread's scheduler (`__thrd`, events.c:100) and of its exceptions (except.c:61-62) are such variables.

Simplified: memory is not short, keys are numbers given in order and are not given back, destructors are left out.  Each access to memory that
threads share is one step.
-/

namespace Verif.Future.ThreadLocal

/-- Where a call of the variable's function is, future.h:82-102. -/
inductive Pc where
  | idle
  /-- 83 -/
  | test
  /-- 84 -/
  | mark
  /-- 85 -/
  | alloc
  /-- 90 -/
  | get
  /-- 95: the new object is there. -/
  | set (p : Nat)
  deriving DecidableEq, Repr

/-- `flag`: `events_var_tls` is not 0; `tss`: the key; `next`: keys below are in use; `val`: the values of keys in threads; `objs`: objects below exist;
`pc`: where each thread is; `log`: what calls returned (`none`: the null pointer). -/
structure St where
  flag : Bool := false
  tss : Nat := 0
  next : Nat
  val : Nat → Nat → Option Nat
  objs : Nat
  pc : Nat → Pc := fun _ => .idle
  log : List (Nat × Option Nat) := []

/-- Thread `i` does its next step; idle threads call the function.  `os_tls_get` of a key that is not in use gives null, `os_tls_set` fails
(os_unix.c:742-748). -/
def step (s : St) (i : Nat) : St :=
  match s.pc i with
  | .idle => { s with pc := Function.update s.pc i .test }
  | .test => { s with pc := Function.update s.pc i (if s.flag then .get else .mark) }
  | .mark => { s with flag := true, pc := Function.update s.pc i .alloc }
  | .alloc => { s with tss := s.next, next := s.next + 1, pc := Function.update s.pc i .get }
  | .get =>
    match (if s.tss < s.next then s.val s.tss i else none) with
    | some p => { s with pc := Function.update s.pc i .idle, log := s.log ++ [(i, some p)] }
    | none => { s with objs := s.objs + 1, pc := Function.update s.pc i (.set s.objs) }
  | .set p =>
    if s.tss < s.next then
      { s with
        val := Function.update s.val s.tss (Function.update (s.val s.tss) i (some p))
        pc := Function.update s.pc i .idle
        log := s.log ++ [(i, some p)] }
    else { s with pc := Function.update s.pc i .idle, log := s.log ++ [(i, none)] }

def run (s : St) (l : List Nat) : St := l.foldl step s

/-- The variable before its first use: `next` keys are used by others, with values `val`, and no key above has values. -/
def start (next objs : Nat) (val : Nat → Nat → Option Nat) : St := { next := next, val := val, objs := objs }

/-! ## Specification: what a thread-local variable is -/

/-- Every call gives an object, calls of one thread the same, calls of different threads different ones, and none that was there before the variable (`objs`
objects were). -/
def IsLocal (objs : Nat) (log : List (Nat × Option Nat)) : Prop :=
  (∀ x ∈ log, ∃ p, x.2 = some p ∧ objs ≤ p) ∧ ∀ x ∈ log, ∀ y ∈ log, x.2 = y.2 ↔ x.1 = y.1

/-! ## Invariant after the first call -/

structure Inv (o : Nat) (s : St) : Prop where
  flag : s.flag = true
  key : s.tss < s.next
  le : o ≤ s.objs
  pcs : ∀ i, s.pc i = .idle ∨ s.pc i = .test ∨ s.pc i = .get ∨ ∃ p, s.pc i = .set p ∧ o ≤ p ∧ p < s.objs ∧ s.val s.tss i = none
  vals : ∀ i p, s.val s.tss i = some p → o ≤ p ∧ p < s.objs
  inj : ∀ i j p, s.val s.tss i = some p → s.val s.tss j = some p → i = j
  fresh : ∀ i j p, s.pc i = .set p → s.val s.tss j ≠ some p
  sets : ∀ i j p, s.pc i = .set p → s.pc j = .set p → i = j
  logs : ∀ x ∈ s.log, ∃ p, x.2 = some p ∧ s.val s.tss x.1 = some p

theorem inv_local {o : Nat} {s : St} (h : Inv o s) : IsLocal o s.log := by
  refine ⟨fun x hx => ?_, fun x hx y hy => ?_⟩
  · obtain ⟨p, hp, hv⟩ := h.logs x hx
    exact ⟨p, hp, (h.vals _ _ hv).1⟩
  · obtain ⟨p, hp, hv⟩ := h.logs x hx
    obtain ⟨q, hq, hw⟩ := h.logs y hy
    constructor
    · intro e
      rw [hp, hq] at e
      injection e with e
      subst e
      exact h.inj _ _ _ hv hw
    · intro e
      rw [e, hw] at hv
      rw [hp, hq, hv]

theorem upd_pc {s : St} {i j : Nat} {c : Pc} {p : Nat} (hc : ∀ q, c ≠ .set q) (h : Function.update s.pc i c j = .set p) : j ≠ i ∧ s.pc j = .set p := by
  by_cases hj : j = i
  · subst hj
    rw [Function.update_self] at h
    exact absurd h (hc p)
  · rw [Function.update_of_ne hj] at h
    exact ⟨hj, h⟩

theorem step_inv {o : Nat} {s : St} (h : Inv o s) (i : Nat) : Inv o (step s i) := by
  have simple : ∀ (c : Pc), (c = .idle ∨ c = .test ∨ c = .get) → ∀ log, (∀ x ∈ log, ∃ p, x.2 = some p ∧ s.val s.tss x.1 = some p) →
      Inv o { s with pc := Function.update s.pc i c, log := log } := by
    intro c hc log hlog
    have hns : ∀ q, c ≠ .set q := by rintro q rfl; simp at hc
    refine ⟨h.flag, h.key, h.le, ?_, h.vals, h.inj, ?_, ?_, hlog⟩
    · intro j
      by_cases hj : j = i
      · subst hj
        simp only [Function.update_self]
        rcases hc with rfl | rfl | rfl <;> simp
      · simp only [Function.update_of_ne hj]
        exact h.pcs j
    · intro a j p ha
      exact h.fresh a j p (upd_pc hns ha).2
    · intro a b p ha hb
      exact h.sets a b p (upd_pc hns ha).2 (upd_pc hns hb).2
  have hp := h.pcs i
  unfold step
  split
  · exact simple .test (by simp) s.log h.logs
  · rw [if_pos h.flag]
    exact simple .get (by simp) s.log h.logs
  · rename_i e; rw [e] at hp; simp at hp
  · rename_i e; rw [e] at hp; simp at hp
  · rename_i e
    rw [if_pos h.key]
    cases hv : s.val s.tss i with
    | some p =>
      refine simple .idle (by simp) _ ?_
      intro x hx
      rcases List.mem_append.1 hx with hx | hx
      · exact h.logs x hx
      · simp at hx; subst hx; exact ⟨p, rfl, hv⟩
    | none =>
      have hlt : ∀ j p, s.pc j = .set p → p < s.objs := by
        intro j p hj
        rcases h.pcs j with h' | h' | h' | ⟨q, h1, -, h2, -⟩
        · rw [h'] at hj; simp at hj
        · rw [h'] at hj; simp at hj
        · rw [h'] at hj; simp at hj
        · rw [h1] at hj; injection hj with hj; omega
      refine ⟨h.flag, h.key, by have := h.le; simp only; omega, ?_, ?_, h.inj, ?_, ?_, h.logs⟩
      · intro j
        by_cases hj : j = i
        · subst hj
          refine .inr (.inr (.inr ⟨s.objs, by simp, h.le, by simp, hv⟩))
        · simp only [Function.update_of_ne hj]
          rcases h.pcs j with h' | h' | h' | ⟨q, h1, h2, h3, h4⟩
          · exact .inl h'
          · exact .inr (.inl h')
          · exact .inr (.inr (.inl h'))
          · exact .inr (.inr (.inr ⟨q, h1, h2, by omega, h4⟩))
      · intro j p hj
        have := h.vals j p hj
        exact ⟨this.1, by simp only; omega⟩
      · intro a j p ha hc
        have hj := (h.vals j p hc).2
        by_cases hai : a = i
        · subst hai
          simp at ha; omega
        · simp only [Function.update_of_ne hai] at ha
          exact h.fresh a j p ha hc
      · intro a b p ha hb
        by_cases hai : a = i <;> by_cases hbi : b = i
        · rw [hai, hbi]
        · subst hai
          simp only [Function.update_self, Function.update_of_ne hbi] at ha hb
          injection ha with ha
          have := hlt b p hb; omega
        · subst hbi
          simp only [Function.update_self, Function.update_of_ne hai] at ha hb
          injection hb with hb
          have := hlt a p ha; omega
        · simp only [Function.update_of_ne hai, Function.update_of_ne hbi] at ha hb
          exact h.sets a b p ha hb
  · rename_i p e
    rw [if_pos h.key]
    rw [e] at hp
    obtain ⟨q, h1, h2, h3, h4⟩ : ∃ q, Pc.set p = .set q ∧ o ≤ q ∧ q < s.objs ∧ s.val s.tss i = none := by simpa using hp
    injection h1 with h1
    subst h1
    have hval : ∀ j r, (Function.update s.val s.tss (Function.update (s.val s.tss) i (some p))) s.tss j = some r →
        (j = i ∧ r = p) ∨ (j ≠ i ∧ s.val s.tss j = some r) := by
      intro j r hj
      rw [Function.update_self] at hj
      by_cases hji : j = i
      · subst hji
        rw [Function.update_self] at hj
        injection hj with hj
        exact .inl ⟨rfl, hj.symm⟩
      · rw [Function.update_of_ne hji] at hj
        exact .inr ⟨hji, hj⟩
    have hns : ∀ q, Pc.idle ≠ .set q := by intro q; simp
    refine ⟨h.flag, h.key, h.le, ?_, ?_, ?_, ?_, ?_, ?_⟩
    · intro j
      by_cases hj : j = i
      · subst hj; simp
      · simp only [Function.update_of_ne hj, Function.update_self]
        exact h.pcs j
    · intro j r hj
      rcases hval j r hj with ⟨-, rfl⟩ | ⟨-, hj⟩
      · exact ⟨h2, h3⟩
      · exact h.vals j r hj
    · intro a b r ha hb
      rcases hval a r ha with ⟨a1, a2⟩ | ⟨a1, a2⟩ <;> rcases hval b r hb with ⟨b1, b2⟩ | ⟨b1, b2⟩
      · rw [a1, b1]
      · rw [a2] at b2; exact absurd b2 (h.fresh _ _ _ e)
      · rw [b2] at a2; exact absurd a2 (h.fresh _ _ _ e)
      · exact h.inj a b r a2 b2
    · intro a j r ha hc
      obtain ⟨a1, a2⟩ := upd_pc hns ha
      rcases hval j r hc with ⟨-, c2⟩ | ⟨-, c2⟩
      · rw [c2] at a2; exact a1 (h.sets _ _ _ a2 e)
      · exact h.fresh a j r a2 c2
    · intro a b r ha hb
      exact h.sets a b r (upd_pc hns ha).2 (upd_pc hns hb).2
    · intro x hx
      rcases List.mem_append.1 hx with hx | hx
      · obtain ⟨r, hr, hv⟩ := h.logs x hx
        have hne : x.1 ≠ i := by intro h'; rw [h', h4] at hv; simp at hv
        exact ⟨r, hr, by simp only [Function.update_self, Function.update_of_ne hne]; exact hv⟩
      · simp at hx; subst hx
        exact ⟨p, rfl, by simp⟩

theorem run_inv {o : Nat} (l : List Nat) : ∀ {s : St}, Inv o s → Inv o (run s l) := by
  induction l with
  | nil => intro s h; exact h
  | cons i l ih => intro s h; exact ih (step_inv h i)

/-! ## C255 -/

/-- If one thread's first call is over before another thread's begins, the variable is thread-local for all that follows, however the threads are
scheduled. -/
theorem first_call_alone_partial (next objs : Nat) (val : Nat → Nat → Option Nat) (hval : ∀ i, val next i = none) (i : Nat) (l : List Nat) :
    IsLocal objs (run (start next objs val) (List.replicate 6 i ++ l)).log := by
  have e : run (start next objs val) (List.replicate 6 i ++ l) = run (run (start next objs val) (List.replicate 6 i)) l := by
    simp [run]
  rw [e]
  apply inv_local
  apply run_inv
  have hr : run (start next objs val) (List.replicate 6 i) =
      { flag := true
        tss := next
        next := next + 1
        val := Function.update val next (Function.update (val next) i (some objs))
        objs := objs + 1
        pc := Function.update (fun _ => .idle) i .idle
        log := [(i, some objs)] } := by
    simp [run, List.replicate, step, start, hval]
  rw [hr]
  have hidle : ∀ j, Function.update (fun _ => Pc.idle) i .idle j = .idle := by
    intro j
    by_cases hj : j = i
    · subst hj; simp
    · simp [Function.update_of_ne hj]
  have hv : ∀ j p, Function.update val next (Function.update (val next) i (some objs)) next j = some p → j = i ∧ p = objs := by
    intro j p hj
    rw [Function.update_self] at hj
    by_cases hji : j = i
    · subst hji; rw [Function.update_self] at hj; injection hj with hj; exact ⟨rfl, hj.symm⟩
    · rw [Function.update_of_ne hji, hval] at hj; simp at hj
  refine ⟨rfl, by simp, by simp, fun j => .inl (hidle j), ?_, ?_, ?_, ?_, ?_⟩
  · intro j p hj
    obtain ⟨-, rfl⟩ := hv j p hj
    simp
  · intro a b p ha hb
    rw [(hv a p ha).1, (hv b p hb).1]
  · intro a j p ha
    simp only [hidle] at ha
    simp at ha
  · intro a b p ha
    simp only [hidle] at ha
    simp at ha
  · intro x hx
    simp at hx
    subst hx
    exact ⟨objs, rfl, by simp⟩

/-- But if two threads come to the first call at the same time, both make a key, and the first thread finds another object at its second call: whatever it had stored
is gone. -/
theorem two_keys (next objs : Nat) (val : Nat → Nat → Option Nat) (hval : ∀ k ≥ next, ∀ i, val k i = none) (i j : Nat) (hij : i ≠ j) :
    (run (start next objs val) ([i, j, i, j] ++ [i, i, i, i] ++ [j, j] ++ [i, i, i, i])).log = [(i, some objs), (i, some (objs + 1))] := by
  have hji : j ≠ i := fun h => hij h.symm
  have h1 := hval next (by omega)
  have h2 := hval (next + 1) (by omega)
  simp [run, step, start, h1, h2, hij, hji, Function.update_of_ne]

/-- And if a thread comes while the first is between marking and making the key, it takes the object of whichever variable has key 0. -/
theorem other_variable (next objs q : Nat) (val : Nat → Nat → Option Nat) (h0 : 0 < next) (i j : Nat) (hij : i ≠ j) (hq : val 0 j = some q) :
    (run (start next objs val) ([i, i, i] ++ [j, j, j])).log = [(j, some q)] := by
  have hji : j ≠ i := fun h => hij h.symm
  simp [run, step, start, h0, hq, hji, Function.update_of_ne]

/-- With no key in use yet it gets the null pointer. -/
theorem null_pointer (objs : Nat) (val : Nat → Nat → Option Nat) (i j : Nat) (hij : i ≠ j) :
    (run (start 0 objs val) ([i, i, i] ++ [j, j, j, j])).log = [(j, none)] := by
  have hji : j ≠ i := fun h => hij h.symm
  simp [run, step, start, hji, Function.update_of_ne]

example : (run (start 3 10 fun _ _ => none) (List.replicate 6 0 ++ [1, 2, 1, 2, 1, 2, 1, 2, 0, 0, 0])).log =
    [(0, some 10), (1, some 11), (2, some 12), (0, some 10)] := by
  simp [run, List.replicate, step, start]

end Verif.Future.ThreadLocal
