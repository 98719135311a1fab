import Mathlib.Data.List.Basic
import Verif.Basic

/-!
# Waiting for child processes on Windows (`include/compat/wait.h`), C207, C208, C209

The list of processes that `CreateToolhelp32Snapshot` gives is an input of every call: any list, in any order, of processes that run or
have ended (a process that has ended stays listed while somebody holds a handle on it).

Simplified: process ids are below 2^31, so that the return type `int` holds them; `rusage` and `siginfo_t` are not filled by the code
either (434-450) and left out.
-/

namespace Verif.Win.Waitpid

/-- What becomes of a process: it has ended with that exit code, it will end with it, or it goes on for ever. -/
inductive Fate where
  | ended (code : Nat)
  | later (code : Nat)
  | never
  deriving DecidableEq, Repr

/-- One `PROCESSENTRY32W` of the snapshot, with what the kernel knows of the process: `denied` says that `OpenProcess` refuses. -/
structure Proc where
  pid : Nat
  parent : Nat
  fate : Fate
  denied : Bool := false
  deriving DecidableEq, Repr

/-- Handles the caller holds. -/
inductive Handle where
  | snapshot
  | process (pid : Nat)
  deriving DecidableEq, Repr

/-- The options (179-185, 210-216, 352-358): `WNOHANG`, and whether any bit is set beyond `WNOHANG`, `WUNTRACED`, `WNOWAIT` and `WCONTINUED`. -/
structure Opts where
  nohang : Bool := false
  unknown : Bool := false

/-- How a call ends.  `child r st`: it returns `r` and stores `st`; `blocked`: it never returns. -/
inductive Out where
  | child (ret : Nat) (status : Nat)
  | zero
  | fail (errno : Int)
  | blocked
  | aborted
  deriving DecidableEq, Repr

def ECHILD : Int := 10
def EINVAL : Int := 22

/-- `__filter_anychild` (324-327) and `__filter_pid` (329-332), chosen by 360-379. -/
def filter (me : Nat) (pid : Int) (p : Proc) : Bool :=
  if pid = -1 then p.parent == me else (p.pid : Int) == pid

/-- `WaitForSingleObject` (416) with no time or without limit: `some (some c)` is `WAIT_OBJECT_0` and the exit code, `some none` is
`WAIT_TIMEOUT`, `none` says that it never returns. -/
def waitObject (f : Fate) (nohang : Bool) : Option (Option Nat) :=
  match f, nohang with
  | .ended c, _ => some (some c)
  | _, true => some none
  | .later c, false => some (some c)
  | .never, false => none

/-- `__waitpid_internal` (345-459); `none` for the list says that the snapshot could not be made.  `OpenProcess` gives `NULL` when it
refuses, which is not the value the code compares with: waiting on it fails, and the call ends at 427-433.  `CloseHandle` takes one
handle of the list. -/
def waitpid (me : Nat) (hs : List Handle) (ps : Option (List Proc)) (pid : Int) (o : Opts) : Out × List Handle :=
  if o.unknown then (.fail (-EINVAL), hs)
  else if pid < -1 ∨ pid = 0 then (.aborted, hs)
  else
    match ps with
    | none => (.fail ECHILD, hs)
    | some [] => (.fail ECHILD, (Handle.snapshot :: hs).erase .snapshot)
    | some l =>
      let hs1 := Handle.snapshot :: hs
      match l.find? (filter me pid) with
      | none => (.fail ECHILD, hs1.erase .snapshot)
      | some p =>
        if p.denied then (.fail ECHILD, hs1.erase .snapshot)
        else
          let hs2 := Handle.process p.pid :: hs1
          match waitObject p.fate o.nohang with
          | none => (.blocked, hs2)
          | some none => (.zero, hs2)
          | some (some c) => (.child p.parent ((c % 256) * 256), (hs2.erase (.process p.pid)).erase .snapshot)

/-- `WIFEXITED` (190-196, 223-225) of a status: no signal in the low seven bits. -/
def exited (st : Nat) : Prop := st % 128 = 0

/-- `WEXITSTATUS` (186-188, 219-221): the second byte. -/
def exitStatus (st : Nat) : Nat := st / 256 % 256

/-- Polling: `n` calls with the same list of processes. -/
def polls (me : Nat) (ps : Option (List Proc)) (pid : Int) (o : Opts) : Nat → List Handle → List Handle
  | 0, hs => hs
  | n + 1, hs => polls me ps pid o n (waitpid me hs ps pid o).2

/-! ## Specification -/

/-- What a user of `waitpid(pid, …)` relies on: a value above zero is the id of a process that the caller started, that is the one asked
for if one was, and that has ended (or ends while the call waits) with the exit code whose low byte is in the status. -/
def Reports (me : Nat) (ps : List Proc) (pid : Int) (ret st : Nat) : Prop :=
  ∃ p ∈ ps, p.pid = ret ∧ p.parent = me ∧ (pid = -1 ∨ pid = ret) ∧ exited st ∧
    ∃ c, (p.fate = .ended c ∨ p.fate = .later c) ∧ exitStatus st = c % 256

/-! ## Lemmas -/

theorem child_inv {me hs ps pid o r st hs'} (h : waitpid me hs ps pid o = (.child r st, hs')) :
    ∃ l p c, ps = some l ∧ p ∈ l ∧ l.find? (filter me pid) = some p ∧ filter me pid p = true ∧ r = p.parent ∧
      st = (c % 256) * 256 ∧ hs' = hs ∧ (p.fate = .ended c ∨ (p.fate = .later c ∧ o.nohang = false)) ∧ (pid = -1 ∨ 0 < pid) := by
  unfold waitpid at h
  split at h; · simp at h
  split at h; · simp at h
  rename_i hp
  split at h
  · simp at h
  · simp at h
  · rename_i l _
    simp only at h
    split at h; · simp at h
    rename_i p hf
    split at h; · simp at h
    split at h
    · simp at h
    · simp at h
    · rename_i c hw
      simp only [Prod.mk.injEq, Out.child.injEq] at h
      obtain ⟨⟨rfl, rfl⟩, rfl⟩ := h
      refine ⟨l, p, c, rfl, List.mem_of_find?_eq_some hf, hf, List.find?_some hf, rfl, rfl, ?_, ?_, by omega⟩
      · simp
      · unfold waitObject at hw
        split at hw <;> simp_all

/-! ## Theorems -/

/-- **C207 is false of the code.**  Whatever `waitpid(pid, …)` is asked for, and whatever runs on the machine: when it returns because
the process `pid` has ended, the value is not `pid` (no process is its own parent), so that a caller who compares the two never sees the
end of the child. -/
theorem never_the_pid (me : Nat) (hs : List Handle) (ps : List Proc) (hown : ∀ p ∈ ps, p.pid ≠ p.parent) (pid : Int) (hpid : 0 < pid)
    (o : Opts) {r st hs'} (h : waitpid me hs (some ps) pid o = (.child r st, hs')) : (r : Int) ≠ pid := by
  obtain ⟨l, p, c, hl, hm, _, hf, hr, _⟩ := child_inv h
  cases hl
  have := hown p hm
  simp [filter, show pid ≠ -1 by omega] at hf
  omega

/-- … and what it returns for a child is always the id of the caller itself, so it is no report at all. -/
theorem child_gives_own_id (me : Nat) (hs : List Handle) (ps : List Proc) (hown : ∀ p ∈ ps, p.pid ≠ p.parent)
    (pid : Int) (o : Opts) (hch : ∀ p ∈ ps, pid = -1 ∨ ((p.pid : Int) = pid → p.parent = me)) {r st hs'}
    (h : waitpid me hs (some ps) pid o = (.child r st, hs')) : r = me ∧ ¬ Reports me ps pid r st := by
  obtain ⟨l, p, c, hl, hm, _, hf, hr, _⟩ := child_inv h
  cases hl
  have hpm : p.parent = me := by
    unfold filter at hf
    split at hf
    · simpa using hf
    · rcases hch p hm with e | e
      · contradiction
      · exact e (by simpa using hf)
  have hrm : r = me := hr.trans hpm
  refine ⟨hrm, ?_⟩
  rintro ⟨q, hq, e1, e2, _⟩
  exact hown q hq (by rw [e1, e2, hrm])

example : waitpid 7 [] (some [⟨1, 0, .never, false⟩, ⟨9, 7, .ended 300, false⟩]) 9 {} = (.child 7 (44 * 256), []) := by decide

/-- **C207, the part that holds.**  The status is right: when the call returns because a process has ended, the process is one that was
asked for, it has ended, and the status holds the low byte of its exit code.  Missing: that the value returned is the id of that process
(`never_the_pid`), and, with an id given, that the process is a child (`strangers_are_waited_for`). -/
theorem status_right_partial (me : Nat) (hs : List Handle) (ps : List Proc) (pid : Int) (o : Opts) {r st hs'}
    (h : waitpid me hs (some ps) pid o = (.child r st, hs')) :
    ∃ p ∈ ps, (pid = -1 ∧ p.parent = me ∨ pid = p.pid) ∧ exited st ∧
      ∃ c, (p.fate = .ended c ∨ p.fate = .later c ∧ o.nohang = false) ∧ exitStatus st = c % 256 := by
  obtain ⟨l, p, c, hl, hm, _, hf, hr, hst, _, hfate, _⟩ := child_inv h
  cases hl
  refine ⟨p, hm, ?_, ?_, c, hfate, ?_⟩
  · unfold filter at hf
    split at hf
    · exact .inl ⟨by assumption, by simpa using hf⟩
    · refine .inr ?_; simp at hf; omega
  · unfold exited; omega
  · unfold exitStatus; omega

/-- An ended process that may be opened is reported at the first call, with or without `WNOHANG`. -/
theorem ended_is_reported (me : Nat) (hs : List Handle) (ps : List Proc) (p : Proc) (hp : p ∈ ps)
    (hids : ∀ q ∈ ps, q.pid = p.pid → q = p) (h0 : 0 < p.pid) (hd : p.denied = false) (c : Nat) (hf : p.fate = .ended c) (nohang : Bool) :
    ∃ r st, waitpid me hs (some ps) p.pid { nohang } = (.child r st, hs) ∧ exited st ∧ exitStatus st = c % 256 := by
  have hfind : ps.find? (filter me p.pid) = some p := by
    have : ∃ q, ps.find? (filter me p.pid) = some q := by
      rw [← Option.isSome_iff_exists, List.find?_isSome]
      exact ⟨p, hp, by simp [filter, show ¬ ((p.pid : Int) = -1) by omega]⟩
    obtain ⟨q, hq⟩ := this
    have h1 := List.find?_some hq
    have h2 := List.mem_of_find?_eq_some hq
    simp [filter, show ¬ ((p.pid : Int) = -1) by omega] at h1
    rw [hq, hids q h2 (by omega)]
  obtain ⟨a, l, rfl⟩ : ∃ a l, ps = a :: l := by cases ps with | nil => simp at hp | cons a l => exact ⟨a, l, rfl⟩
  refine ⟨p.parent, (c % 256) * 256, ?_, by unfold exited; omega, by unfold exitStatus; omega⟩
  simp [waitpid, show ¬ ((p.pid : Int) < -1) by omega, show p.pid ≠ 0 by omega, hfind, hd, hf, waitObject]

/-- With an id, the call waits for any process on the machine: one that the caller did not start is reported like a child, where `ECHILD`
is due. -/
theorem strangers_are_waited_for (me : Nat) (hs : List Handle) (p : Proc) (hp : p.parent ≠ me) (h0 : 0 < p.pid) (hd : p.denied = false)
    (c : Nat) (hf : p.fate = .ended c) : waitpid me hs (some [p]) p.pid {} = (.child p.parent ((c % 256) * 256), hs) ∧
      ∀ r st, ¬ Reports me [p] p.pid r st := by
  refine ⟨?_, ?_⟩
  · simp [waitpid, show ¬ ((p.pid : Int) < -1) by omega, show p.pid ≠ 0 by omega, filter, show ¬ ((p.pid : Int) = -1) by omega, hd, hf, waitObject]
  · rintro r st ⟨q, hq, _, e, _⟩
    simp at hq; subst hq; exact hp e

example : (⟨9, 4, .ended 3, false⟩ : Proc).parent ≠ 7 := by decide

/-- **C208, the part that holds.**  A call that reports the end of a process or fails leaves the handles of the caller as they were. -/
theorem handles_kept_partial (me : Nat) (hs : List Handle) (ps : Option (List Proc)) (pid : Int) (o : Opts)
    (h : (∃ r st, (waitpid me hs ps pid o).1 = .child r st) ∨ ∃ e, (waitpid me hs ps pid o).1 = .fail e) :
    (waitpid me hs ps pid o).2 = hs := by
  rcases h with ⟨r, st, h⟩ | ⟨e, h⟩
  · obtain ⟨_, _, _, _, _, _, _, _, _, hh, _⟩ := child_inv (hs' := (waitpid me hs ps pid o).2) (r := r) (st := st) (by rw [← h])
    exact hh
  · revert h
    unfold waitpid
    split; · simp
    split; · simp
    split
    · simp
    · simp
    · simp only
      split; · simp
      split; · simp
      split <;> simp

/-- **C208 is false of the code.**  Every question with `WNOHANG` about a process that still runs keeps two handles for ever: after `n`
questions the caller holds `2 n` more than before. -/
theorem polling_leaks (me : Nat) (ps : List Proc) (p : Proc) (hp : p ∈ ps) (hids : ∀ q ∈ ps, q.pid = p.pid → q = p)
    (h0 : 0 < p.pid) (hd : p.denied = false) (hf : ∀ c, p.fate ≠ .ended c) (n : Nat) (hs : List Handle) :
    (polls me (some ps) p.pid { nohang := true } n hs).length = hs.length + 2 * n := by
  have hfind : ps.find? (filter me p.pid) = some p := by
    have : ∃ q, ps.find? (filter me p.pid) = some q := by
      rw [← Option.isSome_iff_exists, List.find?_isSome]
      exact ⟨p, hp, by simp [filter, show ¬ ((p.pid : Int) = -1) by omega]⟩
    obtain ⟨q, hq⟩ := this
    have h1 := List.find?_some hq
    have h2 := List.mem_of_find?_eq_some hq
    simp [filter, show ¬ ((p.pid : Int) = -1) by omega] at h1
    rw [hq, hids q h2 (by omega)]
  have hw : waitObject p.fate true = some none := by
    cases hfe : p.fate with
    | ended c => exact absurd hfe (hf c)
    | later c => rfl
    | never => rfl
  have one : ∀ hs, waitpid me hs (some ps) p.pid { nohang := true } = (.zero, .process p.pid :: .snapshot :: hs) := by
    intro hs
    obtain ⟨a, l, rfl⟩ : ∃ a l, ps = a :: l := by cases ps with | nil => simp at hp | cons a l => exact ⟨a, l, rfl⟩
    simp [waitpid, show ¬ ((p.pid : Int) < -1) by omega, show p.pid ≠ 0 by omega, hfind, hd, hw]
  induction n generalizing hs with
  | zero => simp [polls]
  | succ n ih => rw [polls, one, ih]; simp; omega

example : polls 7 (some [⟨9, 7, .later 0, false⟩]) 9 { nohang := true } 2 [] = [.process 9, .snapshot, .process 9, .snapshot] := by decide

/-- **C209 is false of the code.**  `wait` looks only at the child that is listed first: it never returns while that one goes on, however
many children listed behind it have ended. -/
theorem wait_first_child_only (me : Nat) (hs : List Handle) (p : Proc) (hp : p.parent = me) (hd : p.denied = false)
    (hf : p.fate = .never) (others before : List Proc) (hb : ∀ q ∈ before, q.parent ≠ me) :
    (waitpid me hs (some (before ++ p :: others)) (-1) {}).1 = .blocked := by
  have hfind : (before ++ p :: others).find? (filter me (-1)) = some p := by
    rw [List.find?_append, List.find?_eq_none.2 (by intro q hq; simpa [filter] using hb q hq)]
    simp [filter, hp]
  cases before with
  | nil => simp only [List.nil_append] at *; simp [waitpid, hfind, hd, hf, waitObject]
  | cons a l => simp only [List.cons_append] at *; simp [waitpid, hfind, hd, hf, waitObject]

example : (waitpid 7 [] (some [⟨8, 7, .never, false⟩, ⟨9, 7, .ended 0, false⟩]) (-1) {}).1 = .blocked := by decide

/-- **C209, the part that holds.**  `wait` returns when the child listed first has ended or ends, and says that there is none exactly
when no process listed has the caller as its parent (processes that may not be opened aside). -/
theorem wait_returns_partial (me : Nat) (hs : List Handle) (ps : List Proc) (hd : ∀ q ∈ ps, q.denied = false) :
    ((waitpid me hs (some ps) (-1) {}).1 = .fail ECHILD ↔ ∀ q ∈ ps, q.parent ≠ me) ∧
      ((∀ q ∈ ps, q.parent = me → q.fate ≠ .never) → (waitpid me hs (some ps) (-1) {}).1 ≠ .blocked) := by
  cases hfd : ps.find? (filter me (-1)) with
  | none =>
    have hn : ∀ q ∈ ps, q.parent ≠ me := by
      intro q hq
      simpa [filter] using List.find?_eq_none.1 hfd q hq
    cases ps with
    | nil => simp [waitpid]
    | cons a l => exact ⟨⟨fun _ => hn, fun _ => by simp [waitpid, hfd]⟩, fun _ => by simp [waitpid, hfd]⟩
  | some p =>
    have hm := List.mem_of_find?_eq_some hfd
    have hpm : p.parent = me := by simpa [filter] using List.find?_some hfd
    have hdp := hd p hm
    obtain ⟨a, l, rfl⟩ : ∃ a l, ps = a :: l := by cases ps with | nil => simp at hm | cons a l => exact ⟨a, l, rfl⟩
    refine ⟨⟨fun h => ?_, fun h => absurd hpm (h p hm)⟩, fun h => ?_⟩
    · exfalso; revert h
      cases hfe : p.fate <;> simp [waitpid, hfd, hdp, hfe, waitObject]
    · have := h p hm hpm
      cases hfe : p.fate with
      | never => exact absurd hfe this
      | ended c => simp [waitpid, hfd, hdp, hfe, waitObject]
      | later c => simp [waitpid, hfd, hdp, hfe, waitObject]

end Verif.Win.Waitpid
