import Verif.Basic
import Mathlib.Logic.Function.Basic
import Mathlib.Data.List.Basic

/-!
# Named pipes on Windows (`src/os_windows.c` 120-132, 158-271, 427-468, 549-577, 611-694), C229

`mkfifo` makes a pipe and a table entry that keeps its name and its handle; `open` of that name finds the entry, makes a
second entry for the same handle and connects the handle to the completion port.  Handles are numbers the kernel gives out
again once they are closed.
-/

namespace Verif.Win.Fifo

/-- Names are sequences of characters.  Simplified: they are shorter than the buffers of 260 bytes (`snprintf` at 124 and 618
cuts longer ones off). -/
abbrev Name := List Char

/-- `SYS_PIPE`, include/events.h:76. -/
def sysPipe : Name := "\\\\.\\pipe\\".toList

/-- What an open handle stands for: the server end of the named pipe (`pipe`) or anything else; `assoc`: it belongs to a
completion port.  Windows connects a handle to a port only once. -/
structure Obj where
  pipe : Option Name
  assoc : Bool
  deriving DecidableEq, Repr

/-- An entry in use of the table with type `FD_PIPE_ASYNC`, src/os_windows.c:62-80: `fid.fileHandle` and `path`. -/
structure Ent where
  handle : Nat
  path : Option Name
  deriving DecidableEq, Repr

/-- `fdTable` (`none` is `FD_UNUSED`), `ioTableSize`, and the open handles of the process.  Simplified: the table holds
pipes only; it is not enlarged (181-182). -/
structure St where
  tab : Nat → Option Ent
  size : Nat
  kern : Nat → Option Obj

/-- Does the entry match at `events_pseudo_fd`, src/os_windows.c:126-127? -/
def hasName (name : Name) : Option Ent → Bool
  | some ⟨_, some p⟩ => decide (sysPipe ++ name = p) || decide (name = p)
  | _ => false

/-- `events_pseudo_fd`, src/os_windows.c:120-132. -/
def pseudoFd (s : St) (name : Name) : Option Nat :=
  (List.range s.size).find? fun i => hasName name (s.tab i)

/-- The search of `events_new_fd` with `desiredFd == -1`, src/os_windows.c:189-206. -/
def pick (s : St) (fd : Nat) : Option Nat :=
  if 0 < fd then
    if fd < s.size ∧ s.tab fd = none then some fd
    else (List.range s.size).find? fun i => decide (0 < i) && (s.tab i).isNone
  else none

/-- `CloseHandle`. -/
def closeHandle (s : St) (h : Nat) : St := { s with kern := Function.update s.kern h none }

/-- `os_mkfifo`, src/os_windows.c:611-638.  `made`: the handle `CreateNamedPipeA` answers with, if it succeeds; `port`: the
number of the completion port.  If no entry is free the handle stays open. -/
def mkfifo (s : St) (name : Name) (made : Option Nat) (port : Nat) : Int × St :=
  match made with
  | none => (-1, s)
  | some h =>
    let s1 := { s with kern := Function.update s.kern h (some ⟨some (sysPipe ++ name), false⟩) }
    match pick s1 port with
    | none => (-1, s1)
    | some i => (0, { s1 with tab := Function.update s1.tab i (some ⟨h, some (sysPipe ++ name)⟩) })

/-- `os_accept_pipe`, src/os_windows.c:549-577: the new descriptor and its state.  `conn`: does `ConnectNamedPipe` succeed, or
answer with one of the three errors that count as success, for the server end of a pipe?  For any other handle it fails. -/
def accept (s : St) (h : Nat) (conn : Bool) : Option Nat × St :=
  match s.kern h with
  | some ⟨some _, _⟩ =>
    if conn then
      match pick s h with
      | none => (none, s)
      | some j => (some j, { s with tab := Function.update s.tab j (some ⟨h, none⟩) })
    else (none, s)
  | _ => (none, s)

/-- `events_assign_fd`, src/os_windows.c:158-171. -/
def assign (s : St) (h : Nat) (pseudo : Option Nat) : Bool × St :=
  match pseudo with
  | none => (false, closeHandle s h)
  | some j =>
    match s.kern h with
    | some ⟨p, false⟩ => (true, { s with kern := Function.update s.kern h (some ⟨p, true⟩) })
    | _ => (false, closeHandle { s with tab := Function.update s.tab j none } h)

/-- What `open` does. -/
inductive Opened where
  /-- The name is not that of a pipe of this table: the file is opened as any other (690-706). -/
  | plain
  | failed
  | fd (n : Nat)
  deriving DecidableEq, Repr

/-- `os_open` up to the part that opens other files, src/os_windows.c:680-689. -/
def openPipe (s : St) (name : Name) (conn : Bool) : Opened × St :=
  match pseudoFd s name with
  | none => (.plain, s)
  | some i =>
    match s.tab i with
    | none => (.plain, s)
    | some e =>
      match accept s e.handle conn with
      | (j, s1) =>
        match assign s1 e.handle j, j with
        | (true, s2), some n => (.fd n, s2)
        | (_, s2), _ => (.failed, s2)

/-- `os_close` of a descriptor of the table while a loop exists, src/os_windows.c:427-468, with `FlushFileBuffers` and
`DisconnectNamedPipe` failing unless the handle is the server end of a pipe. -/
def close (s : St) (fd : Nat) : Int × St :=
  match s.tab fd with
  | none => (-1, s)
  | some e =>
    match s.kern e.handle with
    | some ⟨some _, _⟩ =>
      (0, { closeHandle s e.handle with tab := Function.update s.tab fd none })
    | _ => (-1, s)

/-- Some other part of the program opens a file and gets the handle `h`. -/
def openOther (s : St) (h : Nat) : St := { s with kern := Function.update s.kern h (some ⟨none, false⟩) }

/-! ## Specification -/

/-- The handle is open. -/
def Open (s : St) (h : Nat) : Prop := s.kern h ≠ none

/-- What a program does with pipes, with the answers of the kernel. -/
inductive Op where
  | mkfifo (name : Name) (made : Option Nat) (port : Nat)
  | openPipe (name : Name) (conn : Bool)
  | openOther (h : Nat)
  | close (fd : Nat)

/-- One call. -/
def step (s : St) : Op → St
  | .mkfifo n m p => (mkfifo s n m p).2
  | .openPipe n c => (openPipe s n c).2
  | .openOther h => openOther s h
  | .close fd => (close s fd).2

/-- The kernel gives out handles that are not open. -/
def Fresh (s : St) : Op → Prop
  | .mkfifo _ m _ => ∀ h, m = some h → s.kern h = none
  | .openOther h => s.kern h = none
  | _ => True

/-- A history in which nothing was closed by the program and no `open` of a pipe failed. -/
inductive Hist : St → Prop where
  | init (size : Nat) : Hist ⟨fun _ => none, size, fun _ => none⟩
  | mkfifo {s n m p} : Hist s → Fresh s (.mkfifo n m p) → Hist (step s (.mkfifo n m p))
  | openPipe {s n c} : Hist s → (openPipe s n c).1 ≠ .failed → Hist (step s (.openPipe n c))
  | openOther {s h} : Hist s → Fresh s (.openOther h) → Hist (step s (.openOther h))

/-! ## Proofs -/

theorem pick_none {s : St} {fd j : Nat} (h : pick s fd = some j) : s.tab j = none ∧ j < s.size := by
  unfold pick at h
  split at h
  · split at h
    · cases h; exact ⟨by tauto, by tauto⟩
    · have h1 := List.find?_some h
      have h2 := List.mem_of_find?_eq_some h
      simp at h1 h2
      exact ⟨h1.2, h2⟩
  · exact absurd h (by simp)

theorem pseudo_some {s : St} {name : Name} {i : Nat} (h : pseudoFd s name = some i) :
    ∃ e p, s.tab i = some e ∧ e.path = some p ∧ (sysPipe ++ name = p ∨ name = p) := by
  have h1 := List.find?_some h
  cases he : s.tab i with
  | none => rw [he] at h1; simp [hasName] at h1
  | some e =>
    rw [he] at h1
    obtain ⟨hd, pa⟩ := e
    cases pa with
    | none => simp [hasName] at h1
    | some p =>
      simp [hasName] at h1
      exact ⟨⟨hd, some p⟩, p, rfl, rfl, h1⟩

/-- A successful `open`. -/
theorem open_fd {s s' : St} {name : Name} {c : Bool} {n : Nat} (h : openPipe s name c = (.fd n, s')) :
    ∃ i e p, pseudoFd s name = some i ∧ s.tab i = some e ∧ c = true ∧ s.tab n = none ∧ i ≠ n ∧
      s.kern e.handle = some ⟨some p, false⟩ ∧
      s' = { s with tab := Function.update s.tab n (some ⟨e.handle, none⟩),
                    kern := Function.update s.kern e.handle (some ⟨some p, true⟩) } := by
  unfold openPipe at h
  cases hp : pseudoFd s name with
  | none => rw [hp] at h; simp at h
  | some i =>
    rw [hp] at h
    simp only at h
    cases he : s.tab i with
    | none => rw [he] at h; simp at h
    | some e =>
      rw [he] at h
      simp only at h
      cases hk : s.kern e.handle with
      | none => simp [accept, hk, assign] at h
      | some o =>
        obtain ⟨pn, as⟩ := o
        cases pn with
        | none => simp [accept, hk, assign] at h
        | some p =>
          cases c with
          | false => simp [accept, hk, assign] at h
          | true =>
            cases hj : pick s e.handle with
            | none => simp [accept, hk, hj, assign] at h
            | some j =>
              cases as with
              | true => simp [accept, hk, hj, assign] at h
              | false =>
                simp [accept, hk, hj, assign] at h
                obtain ⟨rfl, rfl⟩ := h
                have := (pick_none hj).1
                refine ⟨i, e, p, rfl, he, rfl, this, ?_, hk, rfl⟩
                rintro rfl
                rw [he] at this; exact absurd this (by simp)

/-- A table in which a slot without a name changed is searched as before. -/
theorem pseudo_congr {s : St} {s' : St} {name : Name} (hz : s'.size = s.size)
    (h : ∀ i, hasName name (s'.tab i) = hasName name (s.tab i)) : pseudoFd s' name = pseudoFd s name := by
  unfold pseudoFd
  rw [hz]
  congr 1
  funext i
  exact h i

/-- The entry with the name is found again after a successful `open`. -/
theorem open_again {s s' : St} {name : Name} {c : Bool} {n : Nat} (h : openPipe s name c = (.fd n, s')) :
    ∃ i e p, pseudoFd s' name = some i ∧ s'.tab i = some e ∧ s'.tab n = some ⟨e.handle, none⟩ ∧ i ≠ n ∧
      s'.kern e.handle = some ⟨some p, true⟩ := by
  obtain ⟨i, e, p, h1, h2, _, h4, h5, h6, rfl⟩ := open_fd h
  refine ⟨i, e, p, ?_, ?_, by simp, h5, by simp⟩
  · rw [← h1]
    refine pseudo_congr rfl fun k => ?_
    by_cases hk : k = n
    · subst hk; simp [h4, hasName]
    · simp [hk]
  · simp [h5, h2]

/-- When the handle of the entry with the name is the server end of a pipe that belongs to the port already, `open` fails and
closes it. -/
theorem open_assoc {s : St} {name : Name} {i : Nat} {e : Ent} {p : Name} (h1 : pseudoFd s name = some i)
    (h2 : s.tab i = some e) (h3 : s.kern e.handle = some ⟨some p, true⟩) (c : Bool) :
    (openPipe s name c).1 = .failed ∧ (openPipe s name c).2.kern e.handle = none := by
  unfold openPipe
  rw [h1]
  simp only [h2]
  cases c with
  | false => simp [accept, h3, assign, closeHandle]
  | true =>
    cases hj : pick s e.handle with
    | none => simp [accept, h3, hj, assign, closeHandle]
    | some j => simp [accept, h3, hj, assign, closeHandle]

/-- When its handle is not a pipe, `open` fails and closes it all the same. -/
theorem open_stale {s : St} {name : Name} {i : Nat} {e : Ent} (h1 : pseudoFd s name = some i)
    (h2 : s.tab i = some e) (h3 : ∀ o, s.kern e.handle = some o → o.pipe = none) (c : Bool) :
    (openPipe s name c).1 = .failed ∧ (openPipe s name c).2.kern e.handle = none := by
  unfold openPipe
  rw [h1]
  simp only [h2]
  cases hk : s.kern e.handle with
  | none => simp [accept, hk, assign, closeHandle]
  | some o =>
    have := h3 o hk
    obtain ⟨pn, as⟩ := o
    simp only at this
    subst this
    simp [accept, hk, assign, closeHandle]

/-- **C229**, false of the code: a second `open` of a pipe that is open always fails, and it closes the pipe of the first:
the handle of descriptor `n` was open before and is not any more. -/
theorem second_open_closes_first (s s' : St) (name : Name) (c c' : Bool) (n : Nat)
    (h : openPipe s name c = (.fd n, s')) :
    ∃ e, s'.tab n = some e ∧ Open s' e.handle ∧ (openPipe s' name c').1 = .failed ∧
      ¬ Open (openPipe s' name c').2 e.handle := by
  obtain ⟨i, e, p, h1, h2, h3, _, h5⟩ := open_again h
  have := open_assoc h1 h2 h5 c'
  exact ⟨⟨e.handle, none⟩, h3, by simp [Open, h5], this.1, by simp [Open, this.2]⟩

/-- **C229**, false of the code: a pipe that was opened and closed cannot be opened again, and when the kernel has given the
number of its handle to a file opened meanwhile by another part of the program, trying to closes that file. -/
theorem reopen_closes_other (s s' : St) (name : Name) (c c' : Bool) (n : Nat) (h : openPipe s name c = (.fd n, s')) :
    ∃ e, s'.tab n = some e ∧ (close s' n).1 = 0 ∧ Fresh (close s' n).2 (.openOther e.handle) ∧
      (openPipe (close s' n).2 name c').1 = .failed ∧
      Open (openOther (close s' n).2 e.handle) e.handle ∧
      (openPipe (openOther (close s' n).2 e.handle) name c').1 = .failed ∧
      ¬ Open (openPipe (openOther (close s' n).2 e.handle) name c').2 e.handle := by
  obtain ⟨i, e, p, h1, h2, h3, h4, h5⟩ := open_again h
  have hc : close s' n = (0, { closeHandle s' e.handle with tab := Function.update s'.tab n none }) := by
    simp [close, h3, h5]
  have hp : ∀ k, hasName name ((Function.update s'.tab n none) k) = hasName name (s'.tab k) := by
    intro k
    by_cases hk : k = n
    · subst hk; simp [h3, hasName]
    · simp [hk]
  have hs : pseudoFd (close s' n).2 name = some i := by
    rw [← h1, hc]
    exact pseudo_congr rfl hp
  have ht : (close s' n).2.tab i = some e := by rw [hc]; simp [h4, h2]
  have hs2 : pseudoFd (openOther (close s' n).2 e.handle) name = some i := by
    rw [← hs]; exact pseudo_congr rfl fun _ => rfl
  have hz := open_stale hs ht (by rw [hc]; simp [closeHandle]) c'
  have hy := open_stale (s := openOther (close s' n).2 e.handle) hs2 ht (by simp [openOther]) c'
  refine ⟨⟨e.handle, none⟩, h3, by rw [hc], by rw [hc]; simp [Fresh, closeHandle], hz.1, by simp [Open, openOther], hy.1, ?_⟩
  simp [Open, hy.2]

/-- The invariant of the histories: an entry stands for a pipe that is open, and one with a name for the pipe of that name;
two entries with a name have different handles, and so have two without; the handles in a completion port are those of the
entries without a name. -/
structure Inv (s : St) : Prop where
  live : ∀ i e, s.tab i = some e → ∃ p a, s.kern e.handle = some ⟨some p, a⟩ ∧ (e.path = none → a = true) ∧
    (∀ q, e.path = some q → q = p)
  conn : ∀ i j e f, s.tab i = some e → s.tab j = some f → e.path = none → f.path = none → e.handle = f.handle → i = j

theorem hist_inv {s : St} (h : Hist s) : Inv s := by
  induction h with
  | init => constructor <;> intros <;> simp_all
  | @mkfifo s n m p _ hf ih =>
    cases m with
    | none => exact ih
    | some h =>
      have hn : s.kern h = none := hf h rfl
      have hu : ∀ i e, s.tab i = some e → e.handle ≠ h := by
        rintro i e he rfl
        obtain ⟨p, a, h1, _⟩ := ih.live i e he
        rw [hn] at h1; exact absurd h1 (by simp)
      have hl : ∀ i e, s.tab i = some e → ∃ p a, Function.update s.kern h (some ⟨some (sysPipe ++ n), false⟩) e.handle =
          some ⟨some p, a⟩ ∧ (e.path = none → a = true) ∧ (∀ q, e.path = some q → q = p) := by
        intro i e he
        rw [Function.update_of_ne (hu i e he)]
        exact ih.live i e he
      simp only [step, mkfifo]
      split
      · exact ⟨hl, ih.conn⟩
      · rename_i k hk
        constructor
        · intro i e he
          by_cases hi : i = k
          · subst hi
            simp at he
            subst he
            exact ⟨_, _, by simp; exact ⟨rfl, rfl⟩, by simp, by simp⟩
          · simp [hi] at he
            exact hl i e he
        · intro i j e f he hf' h1 h2 h3
          by_cases hi : i = k
          · subst hi; simp at he; subst he; simp at h1
          · by_cases hj : j = k
            · subst hj; simp at hf'; subst hf'; simp at h2
            · simp [hi] at he; simp [hj] at hf'
              exact ih.conn i j e f he hf' h1 h2 h3
  | @openPipe s n c _ hf ih =>
    simp only [step]
    cases ho : openPipe s n c with
    | mk r s' =>
      rw [ho] at hf
      cases r with
      | failed => exact absurd rfl hf
      | plain =>
        have : s' = s := by
          unfold openPipe at ho
          split at ho
          · simp at ho; exact ho.symm
          · split at ho
            · simp at ho; exact ho.symm
            · split at ho
              split at ho <;> simp at ho
        rw [this]; exact ih
      | fd k =>
        obtain ⟨i0, e0, p0, h1, h2, _, h4, h5, h6, rfl⟩ := open_fd ho
        have hnc : ∀ i e, s.tab i = some e → e.path = none → e.handle ≠ e0.handle := by
          intro i e he hp hh
          obtain ⟨p, a, g1, g2, _⟩ := ih.live i e he
          rw [hh, h6] at g1
          have := g2 hp
          simp at g1
          rw [g1.2] at this
          exact absurd this (by simp)
        constructor
        · intro i e he
          by_cases hi : i = k
          · subst hi
            simp at he
            subst he
            exact ⟨p0, true, by simp, by simp, by simp⟩
          · simp [hi] at he
            obtain ⟨p, a, g1, g2, g3⟩ := ih.live i e he
            by_cases hh : e.handle = e0.handle
            · rw [hh] at g1
              rw [h6] at g1
              simp at g1
              refine ⟨p0, true, by simp [hh], by simp, ?_⟩
              rw [g1.1]; exact g3
            · exact ⟨p, a, by simp [hh, g1], g2, g3⟩
        · intro i j e f he hf' g1 g2 g3
          by_cases hi : i = k
          · by_cases hj : j = k
            · rw [hi, hj]
            · subst hi; simp at he; subst he; simp [hj] at hf'
              exact absurd g3.symm (hnc j f hf' g2)
          · by_cases hj : j = k
            · subst hj; simp at hf'; subst hf'; simp [hi] at he
              exact absurd g3 (hnc i e he g1)
            · simp [hi] at he; simp [hj] at hf'
              exact ih.conn i j e f he hf' g1 g2 g3
  | @openOther s h _ hf ih =>
    have hn : s.kern h = none := hf
    constructor
    · intro i e he
      obtain ⟨p, a, h1, h2⟩ := ih.live i e he
      have : e.handle ≠ h := by rintro rfl; rw [hn] at h1; exact absurd h1 (by simp)
      exact ⟨p, a, by simp only [step, openOther]; rw [Function.update_of_ne this]; exact h1, h2⟩
    · exact ih.conn

/-- **C229**, what holds: as long as the program closes nothing and no `open` of a pipe fails, every descriptor stands for a
pipe that is open, two descriptors got from `open` never share one, and the next such `open` gives a new descriptor for the
pipe of exactly that name and leaves open what was.
Missing: the same when a pipe is opened twice or again after closing, which `second_open_closes_first` and
`reopen_closes_other` refute. -/
theorem pipes_by_name_partial (s s' : St) (hs : Hist s) (name : Name) (c : Bool) (n : Nat)
    (h : openPipe s name c = (.fd n, s')) :
    s.tab n = none ∧
    (∃ e q a, s'.tab n = some e ∧ s'.kern e.handle = some ⟨some q, a⟩ ∧ (q = sysPipe ++ name ∨ q = name)) ∧
    (∀ j e f, j ≠ n → s'.tab n = some e → s'.tab j = some f → f.path = none → f.handle ≠ e.handle) ∧
    (∀ k, Open s k → Open s' k) ∧
    (∀ j f, s'.tab j = some f → ∃ p, (s'.kern f.handle).map Obj.pipe = some (some p)) := by
  have hi := hist_inv hs
  have hi' : Inv s' := by
    have : s' = step s (.openPipe name c) := by simp [step, h]
    rw [this]
    exact hist_inv (.openPipe hs (by rw [h]; simp))
  obtain ⟨i, e, p, h1, h2, _, h4, _, h6, hs'⟩ := open_fd h
  have hn : s'.tab n = some ⟨e.handle, none⟩ := by rw [hs']; simp
  refine ⟨h4, ⟨⟨e.handle, none⟩, p, true, hn, by rw [hs']; simp, ?_⟩, ?_, ?_, ?_⟩
  · obtain ⟨e2, p2, g1, g2, g3⟩ := pseudo_some h1
    rw [h2] at g1
    cases g1
    obtain ⟨p3, a, k1, _, k3⟩ := hi.live i e h2
    rw [h6] at k1
    simp at k1
    have := k3 p2 g2
    rcases g3 with g3 | g3
    · left; rw [k1.1, ← this, g3]
    · right; rw [k1.1, ← this, g3]
  · intro j e2 f hj he hf hp heq
    rw [hn] at he
    cases he
    exact hj (hi'.conn j n f _ hf hn hp rfl heq)
  · intro k hk
    rw [hs']
    by_cases hk' : k = e.handle
    · simp [Open, hk']
    · simpa [Open, hk'] using hk
  · intro j f hf
    obtain ⟨q, a, g1, _⟩ := hi'.live j f hf
    exact ⟨q, by rw [g1]; rfl⟩

/-- **C229**: after `mkfifo` of a name that no entry has yet, with a free entry left, `open` of the name, or of the full name,
gives a descriptor for that pipe.
Missing: as before. -/
theorem mkfifo_open_partial (s : St) (name : Name) (h port : Nat) (hh : 0 < h)
    (hr : (mkfifo s name (some h) port).1 = 0)
    (hno : ∀ i, hasName name (s.tab i) = false)
    (hroom : ∃ j, 0 < j ∧ j < s.size ∧ (mkfifo s name (some h) port).2.tab j = none) :
    ∃ n s' e, openPipe (mkfifo s name (some h) port).2 name true = (.fd n, s') ∧
      s'.tab n = some e ∧ e.handle = h := by
  unfold mkfifo at hr hroom ⊢
  simp only at hr hroom ⊢
  generalize hk : pick { s with kern := Function.update s.kern h (some ⟨some (sysPipe ++ name), false⟩) } port = pk at *
  cases pk with
  | none => simp at hr
  | some i =>
    simp only at hr hroom ⊢
    set s1 : St := { s with kern := Function.update s.kern h (some ⟨some (sysPipe ++ name), false⟩),
                            tab := Function.update s.tab i (some ⟨h, some (sysPipe ++ name)⟩) } with hs1
    have hi : i < s.size := (pick_none hk).2
    have hp : pseudoFd s1 name = some i := by
      have hsome : ∃ x, pseudoFd s1 name = some x := by
        rw [← Option.isSome_iff_exists]
        unfold pseudoFd
        rw [List.find?_isSome]
        exact ⟨i, by simpa using hi, by simp [hs1, hasName]⟩
      obtain ⟨x, hx⟩ := hsome
      have hx1 := List.find?_some hx
      by_cases hxi : x = i
      · rw [hx, hxi]
      · simp only [hs1, Function.update_of_ne hxi] at hx1
        rw [hno x] at hx1
        exact absurd hx1 (by simp)
    have ht : s1.tab i = some ⟨h, some (sysPipe ++ name)⟩ := by simp [hs1]
    have hkk : s1.kern h = some ⟨some (sysPipe ++ name), false⟩ := by simp [hs1]
    have hpick : ∃ j, pick s1 h = some j := by
      unfold pick
      rw [if_pos hh]
      split
      · exact ⟨_, rfl⟩
      · rw [← Option.isSome_iff_exists, List.find?_isSome]
        obtain ⟨j, g1, g2, g3⟩ := hroom
        refine ⟨j, by simpa [hs1] using g2, ?_⟩
        rw [decide_eq_true g1]
        have : s1.tab j = none := g3
        rw [this]; rfl
    obtain ⟨j, hj⟩ := hpick
    have h1 : (openPipe s1 name true).1 = .fd j := by
      unfold openPipe
      rw [hp]
      simp only [ht]
      simp [accept, hkk, hj, assign]
    have h2 : (openPipe s1 name true).2.tab j = some ⟨h, none⟩ := by
      unfold openPipe
      rw [hp]
      simp only [ht]
      simp [accept, hkk, hj, assign]
    exact ⟨j, (openPipe s1 name true).2, ⟨h, none⟩, by rw [← h1], h2, rfl⟩

/-! ## A concrete case -/

/-- A program with one pipe. -/
def demo : St := (mkfifo ⟨fun _ => none, 8, fun _ => none⟩ "p".toList (some 100) 4).2

example : (openPipe demo "p".toList true).1 = .fd 1 := by decide
example : (openPipe (openPipe demo "p".toList true).2 "p".toList true).1 = .failed := by decide
example : Hist demo :=
  .mkfifo (s := ⟨fun _ => none, 8, fun _ => none⟩) (n := "p".toList) (m := some 100) (p := 4) (.init 8)
    (fun _ _ => rfl)

end Verif.Win.Fifo
