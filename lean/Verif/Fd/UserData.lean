import Mathlib.Logic.Function.Basic
import Mathlib.Data.List.Basic
import Mathlib.Tactic.ByContra

/-!
# Data attached to descriptors (`src/events.c` 446-457), C268

`events_set_target_data` and `events_get_target_data` use a field of the table of descriptors, which nothing else in the library
writes.  The table has one entry for each number, not for each opened file.  A pointer is a number, 0 the null pointer.
-/

namespace Verif.Fd.UserData

/-- `data`: the field of the entries; `used`: the numbers in use in the kernel. -/
structure St where
  data : Nat → Nat
  used : Nat → Bool

inductive Op where
  /-- `events_set_target_data(fd, p)`, called in the main thread or in another. -/
  | set (main : Bool) (fd p : Nat)
  /-- `close(fd)`, by whichever function of the library. -/
  | close (fd : Nat)
  /-- The kernel gives out the number `fd`. -/
  | opened (fd : Nat)
  deriving DecidableEq

/-- The number the kernel gives to a new descriptor: the lowest that is free. -/
def Lowest (s : St) (fd : Nat) : Prop := s.used fd = false ∧ ∀ i, i < fd → s.used i = true

/-- A step with a table of `n` entries; `none`: memory behind the table is written.  `events_set_target_data`,
src/events.c:450-453.  Opening and closing leave the field as it is. -/
def step (n : Nat) (s : St) : Op → Option St
  | .set main fd p =>
    if main then (if fd < n then some { s with data := Function.update s.data fd p } else none)
    else some s
  | .close fd => some { s with used := Function.update s.used fd false }
  | .opened fd => some { s with used := Function.update s.used fd true }

def run (n : Nat) (s : St) : List Op → Option St
  | [] => some s
  | o :: l => (step n s o).bind fun s => run n s l

/-- `events_get_target_data`, src/events.c:455-457; `none`: memory behind the table is read. -/
def get (n : Nat) (s : St) (fd : Nat) : Option Nat := if fd < n then some (s.data fd) else none

/-- After `events_init`: the table is zero (src/events.c:253). -/
def init (used : Nat → Bool) : St := ⟨fun _ => 0, used⟩

/-! ## Specification -/

/-- What was attached to the file that now has the number `fd`: the last pointer set since it was opened. -/
def attached (fd : Nat) : List Op → Nat
  | l => l.foldl (fun a o => match o with
    | .set _ f p => if f = fd then p else a
    | .opened f => if f = fd then 0 else a
    | .close f => if f = fd then 0 else a) 0

/-- Neither opening nor closing of `fd`. -/
def Stays (fd : Nat) : Op → Prop
  | .opened f => f ≠ fd
  | .close f => f ≠ fd
  | .set _ _ _ => True

/-- Made by the main thread, if it sets anything for `fd`. -/
def ByMain (fd : Nat) : Op → Prop
  | .set main f _ => f = fd → main = true
  | _ => True

/-! ## Proofs -/

theorem run_append (n : Nat) : ∀ (l m : List Op) (s : St), run n s (l ++ m) = (run n s l).bind fun s => run n s m
  | [], _, _ => rfl
  | o :: l, m, s => by
    simp only [List.cons_append, run]
    cases step n s o with
    | none => rfl
    | some s1 => exact run_append n l m s1

/-- **C268** (full statement: what is got is what was attached to the open file; false).  What holds: if everything for this number
was set by the main thread and the number was not opened or closed meanwhile.
Missing: other threads (`other_thread`), numbers given out again (`old_data`). -/
theorem attached_partial (n fd : Nat) (hfd : fd < n) (used : Nat → Bool) (l : List Op) (h1 : ∀ o ∈ l, Stays fd o)
    (h2 : ∀ o ∈ l, ByMain fd o) (s : St) (hs : run n (init used) l = some s) : get n s fd = some (attached fd l) := by
  have key : ∀ (l : List Op) (s0 s : St) (a : Nat), (∀ o ∈ l, Stays fd o) → (∀ o ∈ l, ByMain fd o) → s0.data fd = a →
      run n s0 l = some s → s.data fd = l.foldl (fun a o => match o with
        | .set _ f p => if f = fd then p else a
        | .opened f => if f = fd then 0 else a
        | .close f => if f = fd then 0 else a) a := by
    intro l
    induction l with
    | nil =>
      intro s0 s a _ _ h hr
      obtain rfl := Option.some.inj hr
      exact h
    | cons o l ih =>
      intro s0 s a h1 h2 h hr
      have h1' := fun o ho => h1 o (List.mem_cons_of_mem _ ho)
      have h2' := fun o ho => h2 o (List.mem_cons_of_mem _ ho)
      have g1 := h1 o (by simp)
      have g2 := h2 o (by simp)
      simp only [run] at hr
      rw [List.foldl_cons]
      cases o with
      | set main f p =>
        by_cases hf : f = fd
        · have hm : main = true := g2 hf
          subst hf
          simp only [step, hm, if_true, hfd, Option.bind_some] at hr
          simp only [if_true]
          exact ih _ s p h1' h2' (by simp) hr
        · simp only [hf, if_false]
          cases main with
          | false =>
            simp only [step, Bool.false_eq_true, if_false, Option.bind_some] at hr
            exact ih _ s a h1' h2' h hr
          | true =>
            simp only [step, if_true] at hr
            by_cases hn : f < n
            · simp only [hn, if_true, Option.bind_some] at hr
              exact ih _ s a h1' h2' (by simp only [Function.update_of_ne (fun e => hf (Eq.symm e))]; exact h) hr
            · simp [hn] at hr
      | opened f =>
        have hf : f ≠ fd := g1
        simp only [hf, if_false]
        exact ih { s0 with used := Function.update s0.used f true } s a h1' h2' h hr
      | close f =>
        have hf : f ≠ fd := g1
        simp only [hf, if_false]
        exact ih { s0 with used := Function.update s0.used f false } s a h1' h2' h hr
  unfold get
  rw [if_pos hfd, key l (init used) s 0 h1 h2 rfl hs]
  rfl

/-- **C268**, false of the code (and said so beside the declaration): what another thread attaches is dropped without a word. -/
theorem other_thread (n : Nat) (s : St) (fd p : Nat) : step n s (.set false fd p) = some s := by
  simp [step]

/-- **C268**, false of the code: after a file with data was closed, the next file that is opened gets the number, if it is the lowest
free one then, and has the data of the closed file. -/
theorem old_data (n fd p : Nat) (hfd : fd < n) (s : St) (hl : ∀ i, i < fd → s.used i = true) :
    ∃ s1 s2, run n s [.set true fd p, .close fd] = some s1 ∧ Lowest s1 fd ∧ run n s1 [.opened fd] = some s2 ∧
      get n s2 fd = some p := by
  refine ⟨⟨Function.update s.data fd p, Function.update s.used fd false⟩,
    ⟨Function.update s.data fd p, Function.update (Function.update s.used fd false) fd true⟩, ?_, ?_, rfl, ?_⟩
  · simp [run, step, hfd]
  · refine ⟨by simp, fun i hi => ?_⟩
    have : i ≠ fd := by omega
    simp only [Function.update_of_ne this]
    exact hl i hi
  · simp [get, hfd]

/-- **C268**, false of the code: memory behind the table is written exactly if the main thread attaches data to a number beyond it,
which the kernel gives out when more files are open than the table has entries. -/
theorem behind_iff (n : Nat) : ∀ (l : List Op) (s : St), run n s l = none ↔ ∃ fd p, Op.set true fd p ∈ l ∧ n ≤ fd
  | [], s => by simp [run]
  | o :: l, s => by
    have rest : ∀ s', step n s o = some s' → (∀ fd p, o = .set true fd p → fd < n) →
        (run n s (o :: l) = none ↔ ∃ fd p, Op.set true fd p ∈ o :: l ∧ n ≤ fd) := by
      intro s' hs ho
      simp only [run, hs, Option.bind_some]
      rw [behind_iff n l s']
      constructor
      · rintro ⟨fd, p, h, hn⟩
        exact ⟨fd, p, List.mem_cons_of_mem _ h, hn⟩
      · rintro ⟨fd, p, h, hn⟩
        rcases List.mem_cons.1 h with h | h
        · have := ho fd p h.symm
          omega
        · exact ⟨fd, p, h, hn⟩
    cases o with
    | close fd => exact rest _ rfl (by simp)
    | opened fd => exact rest _ rfl (by simp)
    | set main fd p =>
      cases main with
      | false => exact rest s (other_thread n s fd p) (by simp)
      | true =>
        by_cases h : fd < n
        · refine rest _ (by simp [step, h]; rfl) ?_
          intro f q e
          simp only [Op.set.injEq] at e
          omega
        · have e : run n s (.set true fd p :: l) = none := by simp [run, step, h]
          simp only [e, true_iff]
          exact ⟨fd, p, by simp, by omega⟩

example : (run 8 (init fun i => i < 4) [.set true 3 77, .close 5, .set false 2 9]).map (fun s => (get 8 s 3, get 8 s 2)) =
    some (some 77, some 0) := by decide
example : attached 3 [.set true 3 77, .close 5, .set false 2 9] = 77 := by decide
/-- A new file has data nobody attached to it. -/
example : (run 8 (init fun i => i < 4) [.set true 3 77, .close 3, .opened 3]).map (fun s => get 8 s 3) = some (some 77) ∧
    attached 3 [.set true 3 77, .close 3, .opened 3] = 0 := by decide

end Verif.Fd.UserData
