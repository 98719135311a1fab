import Mathlib.Data.List.Basic
import Mathlib.Tactic.Cases

/-!
# The loop's turn on Windows (`src/os_windows.c` 94-104, 489-546; `src/events.c` 703-713, 950-961), C254

Ends of operations on directories, pipes and child processes wait in the completion port.  A turn of a loop that has such descriptors fetches them with
`os_iodispatch`.  The handler of a signal sets a flag that `os_iodispatch` looks at when it has fetched something.

Simplified: times in milliseconds; what is done for a completion takes no time; one thread fetches.
-/

namespace Verif.Win.Dispatch

/-- What comes in: a signal, or the end of an operation of descriptor `fd`. -/
inductive In where
  | signal
  | done (fd : Nat)
  deriving DecidableEq, Repr

/-- When `os_iodispatch` returned, what it passed on, the flag `loop_signaled`, and what comes later or is still in the port. -/
structure Out where
  at_ : Nat
  passed : List Nat
  flag : Bool
  rest : List (Nat × In)
  deriving DecidableEq, Repr

/-- The loop of `os_iodispatch(ms)`, os_windows.c:499-543: `now` the time, `limit` when the wait that goes on ends.  Every wait is for `ms` anew (500).  A signal sets the
flag (94-98 by 861); with the flag set, what was fetched is left and the function returns (509-512). -/
def go (ms : Nat) : Nat → Nat → Bool → List Nat → List (Nat × In) → Out
  | _, limit, flag, passed, [] => ⟨limit, passed, flag, []⟩
  | now, limit, flag, passed, (a, i) :: l =>
    if limit < a then ⟨limit, passed, flag, (a, i) :: l⟩
    else
      match i with
      | .signal => go ms (max now a) limit true passed l
      | .done fd =>
        if flag then ⟨max now a, passed, false, l⟩
        else go ms (max now a) (max now a + ms) flag (passed ++ [fd]) l

/-- `os_iodispatch(ms)`, os_windows.c:489-546: with a negative number it does nothing. -/
def iodispatch (ms : Int) (now : Nat) (flag : Bool) (l : List (Nat × In)) : Out :=
  if 0 ≤ ms then go ms.toNat now (now + ms.toNat) flag [] l else ⟨now, [], flag, l⟩

/-- How long `events_once(loop, maxWait)` waits if nothing happens, events.c:703-709 and 950-960; `io`: the loop has descriptors for `os_iodispatch` (`active_io`), `tasks`: there are tasks to run.
`os_iodispatch` takes milliseconds, `events_poll_once_internal` seconds (epoll.c:154; wepoll with it on Windows).  `maxWait` and `resolution` are not negative. -/
def idleWait (maxWait resolution : Nat) (io tasks : Bool) : Nat :=
  let w := if resolution < maxWait then resolution else maxWait
  (if io then (iodispatch (if tasks then 0 else w) 0 false []).at_ else 0) + (if tasks || io then 0 else w * 1000)

/-! ## Specification -/

/-- The ends of operations among what came in. -/
def ends : List (Nat × In) → List Nat
  | [] => []
  | (_, .signal) :: l => ends l
  | (_, .done fd) :: l => fd :: ends l

/-! ## C254 -/

theorem go_passed (ms : Nat) : ∀ (l : List (Nat × In)) (now limit : Nat) (p : List Nat), (∀ x ∈ l, x.2 ≠ .signal) →
    (go ms now limit false p l).passed ++ ends (go ms now limit false p l).rest = p ++ ends l ∧ (go ms now limit false p l).flag = false := by
  intro l
  induction l with
  | nil => intro now limit p _; simp [go, ends]
  | cons x l ih =>
    obtain ⟨a, i⟩ := x
    intro now limit p h
    simp only [go]
    by_cases hl : limit < a
    · rw [if_pos hl]; simp
    · rw [if_neg hl]
      cases i with
      | signal => exact absurd rfl (h (a, .signal) (by simp))
      | done fd =>
        obtain ⟨h1, h2⟩ := ih (max now a) (max now a + ms) (p ++ [fd]) (fun x hx => h x (by simp [hx]))
        exact ⟨h1.trans (by simp [ends]), h2⟩

/-- Without signals nothing is lost: what was passed on, and what is still to be fetched, is what came in, in order. -/
theorem nothing_lost_partial (ms : Int) (now : Nat) (l : List (Nat × In)) (h : ∀ x ∈ l, x.2 ≠ .signal) :
    (iodispatch ms now false l).passed ++ ends (iodispatch ms now false l).rest = ends l ∧ (iodispatch ms now false l).flag = false := by
  rw [iodispatch]
  split
  · simpa using go_passed ms.toNat l now (now + ms.toNat) [] h
  · simp

theorem go_keeps (ms : Nat) : ∀ (l : List (Nat × In)) (now limit : Nat) (flag : Bool) (p : List Nat), ∃ t, (go ms now limit flag p l).passed = p ++ t := by
  intro l
  induction l with
  | nil => intro now limit flag p; exact ⟨[], by simp [go]⟩
  | cons x l ih =>
    obtain ⟨a, i⟩ := x
    intro now limit flag p
    simp only [go]
    by_cases hl : limit < a
    · rw [if_pos hl]; exact ⟨[], by simp⟩
    · rw [if_neg hl]
      cases i with
      | signal => exact ih _ _ _ _
      | done fd =>
        cases flag with
        | true => exact ⟨[], by simp⟩
        | false =>
          obtain ⟨t, ht⟩ := ih (max now a) (max now a + ms) false (p ++ [fd])
          exact ⟨fd :: t, by simpa using ht⟩

theorem go_arrived (ms : Nat) (l2 : List (Nat × In)) : ∀ (l : List (Nat × In)) (now limit : Nat) (p : List Nat), now ≤ limit →
    (∀ x ∈ l, x.2 ≠ .signal ∧ x.1 ≤ now) → ∃ t, (go ms now limit false p (l ++ l2)).passed = p ++ ends l ++ t := by
  intro l
  induction l with
  | nil => intro now limit p _ _; simpa [ends] using go_keeps ms l2 now limit false p
  | cons x l ih =>
    obtain ⟨a, i⟩ := x
    intro now limit p hle h
    have h0 := h (a, i) (by simp)
    simp only [List.cons_append, go]
    rw [if_neg (by have := h0.2; simp only at this; omega)]
    cases i with
    | signal => exact absurd rfl h0.1
    | done fd =>
      have hm : max now a = now := by have := h0.2; simp only at this; omega
      simp only [hm]
      obtain ⟨t, ht⟩ := ih now (now + ms) (p ++ [fd]) (by omega) (fun x hx => h x (by simp [hx]))
      exact ⟨t, by simpa [ends] using ht⟩

/-- What had ended when the turn began is all passed on, if there was no signal. -/
theorem arrived_passed_partial (ms : Int) (hms : 0 ≤ ms) (now : Nat) (l l2 : List (Nat × In)) (h : ∀ x ∈ l, x.2 ≠ .signal ∧ x.1 ≤ now) :
    ∃ t, (iodispatch ms now false (l ++ l2)).passed = ends l ++ t := by
  rw [iodispatch, if_pos hms]
  simpa using go_arrived ms.toNat l2 l now (now + ms.toNat) [] (by omega) h

/-- After a signal the next end of an operation is lost, whatever it was and whatever follows: it is neither passed on nor to be fetched again. -/
theorem signal_loses (ms now a b fd : Nat) (l : List (Nat × In)) (ha : a ≤ now + ms) (hb : b ≤ now + ms) (flag : Bool) :
    (iodispatch ms now flag ((a, .signal) :: (b, .done fd) :: l)).passed = [] ∧
      (iodispatch ms now flag ((a, .signal) :: (b, .done fd) :: l)).rest = l ∧
      (iodispatch ms now true ((b, .done fd) :: l)).passed = [] ∧ (iodispatch ms now true ((b, .done fd) :: l)).rest = l := by
  have h1 : ¬ now + ms < a := by omega
  have h2 : ¬ now + ms < b := by omega
  simp [iodispatch, go, h1, h2]

/-- The flag stays until something is lost: a turn in which nothing is fetched keeps it. -/
theorem flag_stays (ms : Int) (now : Nat) (l : List (Nat × In)) (h : ∀ x ∈ l, x.2 = .signal ∨ now + ms.toNat < x.1)
    (flag : Bool) (hf : flag = true ∨ (∃ x l', l = x :: l' ∧ x.2 = .signal ∧ x.1 ≤ now + ms.toNat)) (hms : 0 ≤ ms) :
    (iodispatch ms now flag l).flag = true ∧ (iodispatch ms now flag l).passed = [] := by
  have key : ∀ (l : List (Nat × In)) (n : Nat), (∀ x ∈ l, x.2 = .signal ∨ now + ms.toNat < x.1) →
      (go ms.toNat n (now + ms.toNat) true [] l).flag = true ∧ (go ms.toNat n (now + ms.toNat) true [] l).passed = [] := by
    intro l
    induction l with
    | nil => intro n _; simp [go]
    | cons x l ih =>
      obtain ⟨a, i⟩ := x
      intro n h
      simp only [go]
      by_cases hl : now + ms.toNat < a
      · rw [if_pos hl]; simp
      · rw [if_neg hl]
        cases i with
        | signal => exact ih _ (fun x hx => h x (by simp [hx]))
        | done fd =>
          rcases h (a, .done fd) (by simp) with h' | h'
          · simp at h'
          · exact absurd h' hl
  rw [iodispatch, if_pos hms]
  rcases hf with rfl | ⟨⟨a, i⟩, l', rfl, h1, h2⟩
  · exact key l now h
  · simp only at h1 h2
    subst h1
    simp only [go]
    rw [if_neg (by omega)]
    exact key l' _ (fun x hx => h x (by simp [hx]))

/-- Operations that end one every `ms` milliseconds, `n` of them. -/
def steady (ms fd : Nat) : Nat → Nat → List (Nat × In)
  | _, 0 => []
  | t, n + 1 => (t + ms, .done fd) :: steady ms fd (t + ms) n

theorem go_steady (ms fd : Nat) : ∀ (n t : Nat) (p : List Nat), (go ms t (t + ms) false p (steady ms fd t n)).at_ = t + n * ms + ms := by
  intro n
  induction n with
  | zero => intro t p; simp [steady, go]
  | succ n ih =>
    intro t p
    simp only [steady, go]
    rw [if_neg (by omega)]
    have hm : max t (t + ms) = t + ms := by omega
    simp only [hm]
    show (go ms (t + ms) (t + ms + ms) false _ _).at_ = _
    rw [ih]
    rw [Nat.succ_mul]; omega

/-- The wait has no bound: for every time there is a steady stream of operations that keeps a turn of the loop, whose wait is `ms`, in `os_iodispatch` that
long, and so away from its timers and sockets. -/
theorem wait_unbounded (ms fd now T : Nat) (h : 0 < ms) : ∃ n, now + T ≤ (iodispatch ms now false (steady ms fd now n)).at_ := by
  refine ⟨T, ?_⟩
  simp only [iodispatch, Int.toNat_natCast]
  rw [if_pos (by omega), go_steady]
  have : T ≤ T * ms := Nat.le_mul_of_pos_right T h
  omega

theorem go_zero (l : List (Nat × In)) : ∀ (now : Nat) (flag : Bool) (p : List Nat), (go 0 now now flag p l).at_ = now := by
  induction l with
  | nil => intro now flag p; rfl
  | cons x l ih =>
    obtain ⟨a, i⟩ := x
    intro now flag p
    simp only [go]
    by_cases hl : now < a
    · rw [if_pos hl]
    · rw [if_neg hl]
      have hm : max now a = now := by omega
      cases i with
      | signal => simp only [hm]; exact ih now true p
      | done fd =>
        cases flag with
        | true => simp [hm]
        | false => simp only [hm]; exact ih now false _

/-- With tasks to run, the wait is 0, and the turn is not held up, whatever comes in. -/
theorem no_wait_partial (now : Nat) (flag : Bool) (l : List (Nat × In)) : (iodispatch 0 now flag l).at_ = now := by
  simp only [iodispatch]
  exact go_zero l now flag []

/-- If nothing comes in, a turn of a loop with such descriptors waits a thousandth of what it waits without. -/
theorem wait_thousandth (maxWait resolution : Nat) :
    idleWait maxWait resolution true false * 1000 = idleWait maxWait resolution false false ∧
      idleWait maxWait resolution false false = min maxWait resolution * 1000 := by
  have hw : (if resolution < maxWait then resolution else maxWait) = min maxWait resolution := by split <;> omega
  simp [idleWait, iodispatch, go, hw]

example : iodispatch 10 0 false [(1, .done 5), (3, .signal), (11, .done 6), (13, .done 7)] = ⟨11, [5], false, [(13, .done 7)]⟩ := by decide

example : (∀ x ∈ [(1, In.done 5), (14, .done 7)], x.2 ≠ .signal) ∧ iodispatch 10 0 false [(1, .done 5), (14, .done 7)] = ⟨11, [5], false, [(14, .done 7)]⟩ := by decide

example : idleWait 10 60 true false = 10 ∧ idleWait 10 60 false false = 10000 := by decide

end Verif.Win.Dispatch
