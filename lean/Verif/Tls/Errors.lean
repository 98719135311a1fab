import Mathlib.Data.List.Basic

/-!
# Reporting errors of OpenSSL (`events_ssl_error`, `src/async_tls.c` 680-687), C238

OpenSSL keeps for each thread a queue of errors, the oldest first; a failing call adds one or more, `ERR_get_error` takes the oldest
away and gives its code, 0 if there is none.  `events_ssl_error` is called after a failure to say what went wrong.

Simplified: the queue is not limited to 16 entries; codes are numbers below `2 ^ 31` (the `int` in 681 does not change them) other
than 0; a line that is printed is the code in it, 0 standing for `error:00000000`.
-/

namespace Verif.Tls.Errors

/-- `ERR_get_error`. -/
def take : List Nat → Nat × List Nat
  | [] => (0, [])
  | e :: q => (e, q)

/-- `events_ssl_error` (async_tls.c:680-687): the code that is printed, if a line is printed at all, and the queue afterwards. -/
def report (q : List Nat) : Option Nat × List Nat :=
  let a := take q
  if a.1 = 0 then (none, a.2)
  else
    let b := take a.2
    (some b.1, b.2)

/-- Failures one after another on one thread, each adding its errors and being reported; what is printed for each, and the queue at the
end. -/
def history : List (List Nat) → List Nat → List (Option Nat) × List Nat
  | [], q => ([], q)
  | f :: fs, q =>
    let r := report (q ++ f)
    let rest := history fs r.2
    (r.1 :: rest.1, rest.2)

/-- Codes are not 0. -/
def Codes (l : List Nat) : Prop := ∀ e ∈ l, e ≠ 0

theorem report_nil : report [] = (none, []) := rfl

theorem report_one {a : Nat} (h : a ≠ 0) : report [a] = (some 0, []) := by simp [report, take, h]

theorem report_two {a b : Nat} {q : List Nat} (h : a ≠ 0) : report (a :: b :: q) = (some b, q) := by simp [report, take, h]

/-- Nothing is printed exactly if there is no error. -/
theorem silent_without_error (q : List Nat) (h : Codes q) : (report q).1 = none ↔ q = [] := by
  match q with
  | [] => simp [report_nil]
  | [a] => simp [report_one (h a (by simp))]
  | a :: b :: q => simp [report_two (h a (by simp))]

/-- `_partial`: if each failure adds exactly two errors to an empty queue, each line shows the second error of its own failure.  Missing:
any other number, see below. -/
theorem two_errors_partial (fs : List (Nat × Nat)) (h : ∀ p ∈ fs, p.1 ≠ 0) :
    history (fs.map fun p => [p.1, p.2]) [] = (fs.map fun p => some p.2, []) := by
  induction fs with
  | nil => rfl
  | cons p fs ih =>
    have h1 := ih (fun q hq => h q (by simp [hq]))
    simp only [List.map_cons, history, List.nil_append, report_two (h p (by simp)), h1]

example : history [[5, 6], [7, 8]] [] = ([some 6, some 8], []) := by decide

/-- False of the code: a failure with one error, the usual case, prints the code 0, whatever the error was; this goes on for any number
of such failures. -/
theorem one_error_prints_zero (fs : List Nat) (h : Codes fs) :
    history (fs.map fun e => [e]) [] = (fs.map fun _ => some 0, []) := by
  induction fs with
  | nil => rfl
  | cons e fs ih =>
    have h1 := ih (fun q hq => h q (by simp [hq]))
    simp only [List.map_cons, history, List.nil_append, report_one (h e (by simp)), h1]

/-- False of the code: the first error of a failure, its cause, is not the one that is printed. -/
theorem cause_not_printed (a : Nat) (f : List Nat) (h : Codes (a :: f)) (hn : a ∉ f) : (report (a :: f)).1 ≠ some a := by
  match f with
  | [] => rw [report_one (h a (by simp))]; exact fun e => h a (by simp) (Option.some.inj e).symm
  | b :: f =>
    rw [report_two (h a (by simp))]
    intro e
    have : b = a := Option.some.inj e
    exact hn (by simp [this])

/-- False of the code: errors beyond the second stay, and after a failure with four errors the next failure is reported with the fourth of
them. -/
theorem stale_error_printed (a b c d : Nat) (f : List Nat) (h : Codes [a, b, c, d]) (fs : List (List Nat)) :
    (history ([a, b, c, d] :: f :: fs) []).1.take 2 = [some b, some d] := by
  have h1 : report ([] ++ [a, b, c, d]) = (some b, [c, d]) := report_two (h a (by simp))
  have h2 : report ([c, d] ++ f) = (some d, f) := report_two (h c (by simp))
  simp only [history, h1, h2, List.take]

/-- What is printed is never made up, apart from the code 0, and no error is printed twice: the codes that are printed, without the zeros,
are a part of the errors there were, in their order. -/
theorem printed_in_order (fs : List (List Nat)) (q : List Nat) (hq : Codes q) (h : ∀ f ∈ fs, Codes f) :
    (((history fs q).1.filterMap id).filter (· ≠ 0)) ++ (history fs q).2 |>.Sublist (q ++ fs.flatten) := by
  induction fs generalizing q with
  | nil => simp [history]
  | cons f fs ih =>
    have hf : Codes (q ++ f) := by
      intro e he
      rcases List.mem_append.1 he with he | he
      · exact hq e he
      · exact h f (by simp) e he
    have hfs : ∀ g ∈ fs, Codes g := fun g hg => h g (by simp [hg])
    simp only [history, List.flatten_cons, ← List.append_assoc]
    generalize q ++ f = l at hf
    match l, hf with
    | [], _ => simpa [report_nil] using ih [] (by intro e he; simp at he) hfs
    | [a], hf =>
      simp only [report_one (hf a (by simp))]
      have := ih [] (by intro e he; simp at he) hfs
      simpa using this.trans (List.sublist_cons_self a _)
    | a :: b :: l, hf =>
      simp only [report_two (hf a (by simp))]
      have := ih l (fun e he => hf e (by simp [he])) hfs
      have hb : b ≠ 0 := hf b (by simp)
      simp only [List.filterMap_cons_some (f := id) (b := b) rfl, List.filter_cons, hb, ne_eq, not_false_eq_true, decide_true, if_true,
        List.cons_append]
      exact (this.cons_cons b).cons a

example : history [[1, 2, 3, 4], [9], [5]] [] = ([some 2, some 4, some 5], []) := by decide

end Verif.Tls.Errors
