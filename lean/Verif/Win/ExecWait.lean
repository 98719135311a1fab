import Mathlib.Logic.Function.Basic
import Mathlib.Data.Finset.Card
import Mathlib.Data.Finset.Basic
import Mathlib.Order.Interval.Finset.Nat

/-!
# Waiting for processes on Windows (`src/os_windows.c` 177-215, 770-836), C228

Handles are numbers the kernel gives out again once they are closed; the library keeps the handle of a process in its table
entry.  The time at which a wait returns is that of its event in the history; `code p` is then what the process has left, if it
has ended.
-/

namespace Verif.Win.ExecWait

/-- What a handle stands for. -/
inductive Obj where
  | process (p : Nat)
  /-- An event, a file, a socket ... of the program; `signaled` as `WaitForSingleObject` sees it. -/
  | other (signaled : Bool)
  deriving DecidableEq, Repr

/-- `ps`, `detached`: the fields of the table entries; `used`: `type != FD_UNUSED`. -/
structure St where
  handle : Nat → Option Obj
  code : Nat → Option UInt32
  used : Nat → Bool
  ps : Nat → Nat
  detached : Nat → Bool

/-- `exec_wait`, src/os_windows.c:820-836: the result, what is stored in `exit_code` (if anything) and the state after it.
`WAIT_FAILED` is -1 as an `int`, `WAIT_TIMEOUT` 258.  `GetExitCodeProcess` stores nothing if the handle is not that of a
process. -/
def wait (s : St) (e : Nat) : Int × Option UInt32 × St :=
  if s.detached e then (0, none, s)
  else
    match s.handle (s.ps e) with
    | none => (-1, none, s)
    | some (.process p) =>
      match s.code p with
      | none => (258, none, s)
      | some c => (0, some c, { s with handle := Function.update s.handle (s.ps e) none })
    | some (.other true) => (0, none, { s with handle := Function.update s.handle (s.ps e) none })
    | some (.other false) => (258, none, s)

/-- `exec(…, exec_info(…))`, src/os_windows.c:770-818, when the process can be made: it takes entry `e`, which is one of the 255
that are free (`events_new_fd`, lines 177-215, searches from 1; the table does not grow, see C83), and the kernel gives the
handle `h`.  `none`: no entry is free and `fdTable[-1]` is written. -/
def start (s : St) (e h p : Nat) (det : Bool) : Option St :=
  if ∀ i ∈ Finset.Icc (1 : Nat) 255, s.used i = true then none
  else some
    { s with
      handle := Function.update s.handle h (some (.process p))
      used := Function.update s.used e true
      ps := Function.update s.ps e h
      detached := Function.update s.detached e det }

inductive Ev where
  | start (e h p : Nat) (det : Bool)
  | wait (e : Nat)
  | ends (p : Nat) (c : UInt32)
  /-- The program opens or closes a handle that is not of a process. -/
  | openOther (h : Nat) (signaled : Bool)
  | closeOther (h : Nat)

def step (s : St) : Ev → Option St
  | .start e h p det => start s e h p det
  | .wait e => some (wait s e).2.2
  | .ends p c => some { s with code := Function.update s.code p (some c) }
  | .openOther h b => some { s with handle := Function.update s.handle h (some (.other b)) }
  | .closeOther h => some { s with handle := Function.update s.handle h none }

def init : St := ⟨fun _ => none, fun _ => none, fun _ => false, fun _ => 0, fun _ => false⟩

/-! ## Specification -/

/-- The process each entry was made for, and whether a wait has reported its end. -/
structure Spec where
  pid : Nat → Option Nat
  reported : Nat → Bool

def specInit : Spec := ⟨fun _ => none, fun _ => false⟩

def specStep (m : Spec) (s : St) : Ev → Spec
  | .start e _ p _ => ⟨Function.update m.pid e (some p), Function.update m.reported e false⟩
  | .wait e => if (wait s e).1 = 0 ∧ s.detached e = false then { m with reported := Function.update m.reported e true } else m
  | _ => m

/-- What kernel and program do: entries and handles that are in use are not given out; processes have new numbers and end once;
the program closes only handles of its own. -/
def Legal (s : St) (m : Spec) : Ev → Prop
  | .start e h p _ => 1 ≤ e ∧ e ≤ 255 ∧ s.used e = false ∧ s.handle h = none ∧ s.code p = none ∧ ∀ e', m.pid e' ≠ some p
  | .wait e => m.pid e ≠ none
  | .ends p _ => s.code p = none
  | .openOther h _ => s.handle h = none
  | .closeOther h => ∃ b, s.handle h = some (.other b)

/-! ## Proofs -/

/-- No entry is waited for again after its end was reported. -/
def Once (m : Spec) : Ev → Prop
  | .wait e => m.reported e = false
  | _ => True

/-- A history in which no end is waited for twice. -/
inductive OnceHist : St → Spec → Prop
  | init : OnceHist init specInit
  | step {s s' m} (e : Ev) : OnceHist s m → Legal s m e → Once m e → step s e = some s' → OnceHist s' (specStep m s e)

/-- An entry whose end is not reported has the handle of its process, and no two such entries have the same. -/
structure OInv (s : St) (m : Spec) : Prop where
  own : ∀ e p, m.pid e = some p → m.reported e = false → s.handle (s.ps e) = some (.process p)
  pids : ∀ e e' p, m.pid e = some p → m.pid e' = some p → e = e'

theorem once_inv {s : St} {m : Spec} (h : OnceHist s m) : OInv s m := by
  induction h with
  | init => exact ⟨fun _ _ h => by simp [specInit] at h, fun _ _ _ h => by simp [specInit] at h⟩
  | @step s s' m ev _ hl ho hs ih =>
    -- changing a handle that no process has
    have upd : ∀ (h : Nat) (x : Option Obj), (∀ p, s.handle h ≠ some (.process p)) →
        ∀ e p, m.pid e = some p → m.reported e = false → Function.update s.handle h x (s.ps e) = some (.process p) := by
      intro h x hx e p h1 h2
      have := ih.own e p h1 h2
      rw [Function.update_of_ne (fun he : s.ps e = h => hx p (by rw [← he]; exact this))]
      exact this
    cases ev with
    | start e h p det =>
      simp only [step, start] at hs
      split at hs
      · cases hs
      · cases hs
        obtain ⟨_, _, _, h4, _, h6⟩ := hl
        refine ⟨fun i q hi hr => ?_, fun i j q hi hj => ?_⟩
        · by_cases hie : i = e
          · subst hie
            simp [specStep] at hi
            simp [hi]
          · simp only [specStep, Function.update_of_ne hie] at hi hr
            simp only [Function.update_of_ne hie]
            exact upd h _ (by simp [h4]) i q hi hr
        · by_cases hie : i = e <;> by_cases hje : j = e
          · rw [hie, hje]
          · subst hie
            simp [specStep] at hi
            simp only [specStep, Function.update_of_ne hje] at hj
            exact absurd (hi ▸ hj) (h6 j)
          · subst hje
            simp [specStep] at hj
            simp only [specStep, Function.update_of_ne hie] at hi
            exact absurd (hj ▸ hi) (h6 i)
          · simp only [specStep, Function.update_of_ne hie, Function.update_of_ne hje] at hi hj
            exact ih.pids i j q hi hj
    | wait e =>
      simp only [step, Option.some.injEq] at hs
      subst hs
      have ho' : m.reported e = false := ho
      obtain ⟨p, hp⟩ := Option.ne_none_iff_exists'.1 (show m.pid e ≠ none from hl)
      have he := ih.own e p hp ho'
      by_cases hd : s.detached e = true
      · simp only [wait, hd, if_true, specStep]
        simpa using ih
      · simp only [Bool.not_eq_true] at hd
        cases hc : s.code p with
        | none =>
          simp only [wait, hd, he, hc, specStep]
          simpa using ih
        | some c =>
          simp only [wait, hd, he, hc, specStep]
          refine ⟨fun i q hi hr => ?_, fun i j q hi hj => ih.pids i j q (by simpa using hi) (by simpa using hj)⟩
          by_cases hie : i = e
          · subst hie; simp at hr
          · simp [Function.update_of_ne hie] at hi hr
            have h2 := ih.own i q hi hr
            simp only [Bool.false_eq_true, if_false]
            rw [Function.update_of_ne (fun hh => ?_)]
            · exact h2
            · rw [hh, he] at h2
              simp at h2
              exact hie (ih.pids i e q hi (h2 ▸ hp))
    | ends p c =>
      simp only [step, Option.some.injEq] at hs
      subst hs
      exact ⟨ih.own, ih.pids⟩
    | openOther h b =>
      simp only [step, Option.some.injEq] at hs
      subst hs
      have h4 : s.handle h = none := hl
      exact ⟨upd h _ (by simp [h4]), ih.pids⟩
    | closeOther h =>
      simp only [step, Option.some.injEq] at hs
      subst hs
      obtain ⟨b, h4⟩ := hl
      exact ⟨upd h _ (by simp [h4]), ih.pids⟩

/-! ## C228 -/

/-- **C228**, the part that holds (full statement: for every history; false, see below): as long as no end is waited for a
second time, a wait for a process that is not detached returns 0 exactly if the process has ended, gives its exit code then and
closes its handle; otherwise it returns 258 and changes nothing. -/
theorem wait_reports_end_partial {s : St} {m : Spec} (h : OnceHist s m) (e p : Nat) (hp : m.pid e = some p)
    (hr : m.reported e = false) (hd : s.detached e = false) :
    wait s e = match s.code p with
      | some c => (0, some c, { s with handle := Function.update s.handle (s.ps e) none })
      | none => (258, none, s) := by
  have := (once_inv h).own e p hp hr
  simp only [wait, hd, this, Bool.false_eq_true, if_false]
  cases s.code p <;> rfl

/-- **C228**, and the handles of all other processes whose end is not reported stay as they are. -/
theorem wait_keeps_others_partial {s : St} {m : Spec} (h : OnceHist s m) (e p e' p' : Nat) (hp : m.pid e = some p)
    (hr : m.reported e = false) (hp' : m.pid e' = some p') (hr' : m.reported e' = false) (hne : e' ≠ e) :
    (wait s e).2.2.handle (s.ps e') = some (.process p') := by
  have h1 := (once_inv h).own e p hp hr
  have h2 := (once_inv h).own e' p' hp' hr'
  have h3 : s.ps e' ≠ s.ps e := fun hh => by
    rw [hh, h1] at h2
    simp at h2
    exact hne ((once_inv h).pids e' e p (h2 ▸ hp') hp)
  unfold wait
  split
  · exact h2
  · rw [h1]
    simp only
    cases s.code p with
    | none => exact h2
    | some c => simp only [Function.update_of_ne h3]; exact h2

/-- Two processes; the first has ended with 3. -/
example : ∃ s m, OnceHist s m ∧ m.pid 1 = some 7 ∧ m.reported 1 = false ∧ s.detached 1 = false ∧ s.code 7 = some 3 ∧
    m.pid 2 = some 8 ∧ s.code 8 = none := by
  have n1 : ¬ ∀ i ∈ Finset.Icc (1 : Nat) 255, init.used i = true := fun h => by simpa [init] using h 1 (by simp)
  have s1 := OnceHist.step (.start 1 40 7 false) .init (by simp [Legal, init, specInit]) trivial
    (by simp only [step, start]; rw [if_neg n1])
  have n2 : ¬ ∀ i ∈ Finset.Icc (1 : Nat) 255, Function.update init.used 1 true i = true := fun h => by
    simpa [init, Function.update] using h 2 (by simp)
  have s2 := OnceHist.step (.start 2 44 8 false) s1
    (by simp [Legal, init, specStep, specInit, Function.update]) trivial
    (by simp only [step, start]; rw [if_neg n2])
  have s3 := OnceHist.step (.ends 7 3) s2 (by simp [Legal, init]) trivial rfl
  exact ⟨_, _, s3, by simp [specStep, specInit], by simp [specStep, specInit], by simp, by simp,
    by simp [specStep], by simp [init]⟩

/-- **C228, false of the code:** the second wait for an entry uses the handle that the first one has closed.  If it has not been
given out again, the wait fails ... -/
theorem second_wait_fails (s : St) (e p : Nat) (c : UInt32) (hd : s.detached e = false)
    (hh : s.handle (s.ps e) = some (.process p)) (hc : s.code p = some c) :
    (wait s e).1 = 0 ∧ (wait (wait s e).2.2 e).1 = -1 := by
  simp [wait, hd, hh, hc]

/-- ... if another process has it now, the wait reports the end of that process and closes its handle, so that the wait for
*that* process fails. -/
theorem second_wait_takes_other (s : St) (e e' p q : Nat) (c c' : UInt32) (hne : e' ≠ e) (hd : s.detached e = false)
    (hh : s.handle (s.ps e) = some (.process p)) (hc : s.code p = some c) (hc' : s.code q = some c')
    (s' : St) (hs : start (wait s e).2.2 e' (s.ps e) q false = some s') :
    (wait s' e).1 = 0 ∧ (wait s' e).2.1 = some c' ∧ (wait (wait s' e).2.2 e').1 = -1 := by
  have hw : (wait s e).2.2 = { s with handle := Function.update s.handle (s.ps e) none } := by
    simp [wait, hd, hh, hc]
  rw [hw] at hs
  unfold start at hs
  split at hs
  · cases hs
  · cases hs
    simp [wait, hd, hc', Function.update_of_ne (Ne.symm hne)]

example : ∃ s s', s.handle (s.ps 1) = some (.process 7) ∧ s.code 7 = some 3 ∧ s.code 8 = some 5 ∧
    start (wait s 1).2.2 2 (s.ps 1) 8 false = some s' ∧ (wait s' 1).2.1 = some 5 := by
  let s : St := ⟨fun h => if h = 40 then some (.process 7) else none, fun p => if p = 7 then some 3 else some 5,
    fun i => i == 1, fun _ => 40, fun _ => false⟩
  cases hst : start (wait s 1).2.2 2 (s.ps 1) 8 false with
  | none =>
    unfold start at hst
    split at hst
    · rename_i h
      have := h 2 (by simp)
      simp [s, wait] at this
    · cases hst
  | some s' =>
    have := second_wait_takes_other s 1 2 7 8 3 5 (by decide) rfl (by simp [s]) (by simp [s]) (by simp [s]) s' hst
    exact ⟨s, s', by simp [s], by simp [s], by simp [s], hst, this.2.1⟩

/-- **C228, false of the code:** waiting does not give back the entry: after any history with `n` processes `n` entries are in
use, however many of them have been waited for ... -/
theorem wait_releases_no_entry (s : St) (e : Nat) : (wait s e).2.2.used = s.used := by
  unfold wait
  split
  · rfl
  · split
    · rfl
    · split <;> rfl
    · rfl
    · rfl

/-- The number of processes started in a history. -/
def started : List Ev → Nat
  | [] => 0
  | .start .. :: es => started es + 1
  | _ :: es => started es

/-- A history as a list of events. -/
inductive Trace : List Ev → St → Spec → Prop
  | init : Trace [] init specInit
  | step {es s s' m} (e : Ev) : Trace es s m → Legal s m e → step s e = some s' → Trace (e :: es) s' (specStep m s e)

theorem used_count {es : List Ev} {s : St} {m : Spec} (h : Trace es s m) :
    ((Finset.Icc (1 : Nat) 255).filter fun i => s.used i = true).card = started es := by
  induction h with
  | init => simp [init, started]
  | @step es s s' m e _ hl hs ih =>
    cases e with
    | start e h p det =>
      simp only [step, start] at hs
      split at hs
      · cases hs
      · cases hs
        have : ((Finset.Icc (1 : Nat) 255).filter fun i => Function.update s.used e true i = true) =
            insert e ((Finset.Icc (1 : Nat) 255).filter fun i => s.used i = true) := by
          ext i
          by_cases hi : i = e
          · subst hi; simp [hl.1, hl.2.1]
          · simp [hi]
        simp only [this, started]
        rw [Finset.card_insert_of_notMem (by simp [hl.2.2.1]), ih]
    | wait e =>
      simp only [step, Option.some.injEq] at hs
      subst hs
      simp only [wait_releases_no_entry, started]
      exact ih
    | ends p c =>
      simp only [step, Option.some.injEq] at hs
      subst hs
      exact ih
    | openOther h b =>
      simp only [step, Option.some.injEq] at hs
      subst hs
      exact ih
    | closeOther h =>
      simp only [step, Option.some.injEq] at hs
      subst hs
      exact ih

/-- ... so that after 255 processes, all ended and waited for or not, starting another writes in front of the table. -/
theorem process_256_ub {es : List Ev} {s : St} {m : Spec} (h : Trace es s m) (hn : started es = 255) (e k p : Nat) (det : Bool) :
    start s e k p det = none := by
  have hc := used_count h
  rw [hn] at hc
  have : (Finset.Icc (1 : Nat) 255).filter (fun i => s.used i = true) = Finset.Icc 1 255 :=
    Finset.eq_of_subset_of_card_le (Finset.filter_subset _ _) (by rw [hc]; simp)
  unfold start
  rw [if_pos fun i hi => ?_]
  rw [← this] at hi
  exact (Finset.mem_filter.1 hi).2

/-- And before that it does not. -/
theorem start_safe_partial {es : List Ev} {s : St} {m : Spec} (h : Trace es s m) (hn : started es < 255) (e k p : Nat)
    (det : Bool) : start s e k p det ≠ none := by
  have hc := used_count h
  unfold start
  split
  · rename_i hall
    have : (Finset.Icc (1 : Nat) 255).filter (fun i => s.used i = true) = Finset.Icc 1 255 :=
      Finset.filter_true_of_mem hall
    rw [this] at hc
    simp at hc
    omega
  · simp

/-- There is such a history: 255 processes, one after the other, each waited for. -/
def many : Nat → List Ev
  | 0 => []
  | n + 1 => .wait (n + 1) :: .ends n 0 :: .start (n + 1) 40 n false :: many n

theorem many_trace (n : Nat) (hn : n ≤ 255) : ∃ s m, Trace (many n) s m ∧ (∀ i, s.used i = decide (1 ≤ i ∧ i ≤ n)) ∧
    (∀ h, s.handle h = none) ∧ (∀ p, n ≤ p → s.code p = none) ∧ (∀ e p, m.pid e = some p → p < n) := by
  induction n with
  | zero =>
    refine ⟨_, _, Trace.init, fun i => ?_, fun _ => rfl, fun _ _ => rfl, fun _ _ h => by simp [specInit] at h⟩
    simp [init]
    omega
  | succ n ih =>
    obtain ⟨s, m, h1, h2, h3, h4, h5⟩ := ih (by omega)
    have hu : s.used (n + 1) = false := by rw [h2]; simp
    have hfree : ¬ ∀ i ∈ Finset.Icc (1 : Nat) 255, s.used i = true := fun h => by
      have := h (n + 1) (by simp; omega)
      rw [hu] at this
      simp at this
    have s1 := Trace.step (.start (n + 1) 40 n false) h1
      ⟨by omega, by omega, hu, h3 40, h4 n (le_refl n), fun e' he => by have := h5 e' n he; omega⟩
      (by simp only [step, start]; rw [if_neg hfree])
    have s2 := Trace.step (.ends n 0) s1 (h4 n (le_refl n)) rfl
    have s3 := Trace.step (.wait (n + 1)) s2 (by simp [Legal, specStep]) rfl
    have hw : ∀ st : St, st.detached (n + 1) = false → st.handle (st.ps (n + 1)) = some (.process n) → st.code n = some 0 →
        (wait st (n + 1)).2.2 = { st with handle := Function.update st.handle (st.ps (n + 1)) none } := by
      intro st a b c
      simp [wait, a, b, c]
    refine ⟨_, _, s3, fun i => ?_, fun h => ?_, fun p hp => ?_, fun e p hp => ?_⟩
    · rw [wait_releases_no_entry]
      by_cases hi : i = n + 1
      · subst hi; simp
      · simp only [Function.update_of_ne hi, h2]
        congr 1
        ext
        omega
    · rw [hw _ (by simp) (by simp) (by simp)]
      by_cases hh : h = 40
      · subst hh; simp
      · simp [Function.update_of_ne hh, h3]
    · rw [hw _ (by simp) (by simp) (by simp)]
      simp only
      rw [Function.update_of_ne (by omega)]
      exact h4 p (by omega)
    · have hp' : Function.update m.pid (n + 1) (some n) e = some p := by
        revert hp
        simp only [specStep]
        split <;> exact id
      by_cases he : e = n + 1
      · subst he
        simp at hp'
        omega
      · rw [Function.update_of_ne he] at hp'
        have := h5 e p hp'
        omega

theorem started_many : ∀ n, started (many n) = n
  | 0 => rfl
  | n + 1 => by simp [many, started, started_many n]

example : ∃ es s m, Trace es s m ∧ started es = 255 := by
  obtain ⟨s, m, h, _⟩ := many_trace 255 (le_refl _)
  exact ⟨_, s, m, h, started_many 255⟩

end Verif.Win.ExecWait
