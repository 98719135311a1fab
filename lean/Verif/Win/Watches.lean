import Mathlib.Data.List.Basic
import Mathlib.Data.List.Induction
import Mathlib.Tactic.Cases

/-!
# Several watched directories on Windows (`src/os_windows.c` 470-487, 525-528, 1578-1622, 1674-1711; `src/events.c` 521-537), C252

A loop has one monitor.  Every call of `events_watch` adds a directory to it: a descriptor for the directory, on which the system is asked for changes, which
it writes to the buffer of the monitor.  When the loop sees that this happened, a task calls the user's function with the record in the buffer, and asks
again.  `fs_events_path` then tells the directory.

Simplified: reports are of one record (C172 is about several), the fetch of a completion and the task that handles it are one step, directories stay
watched.  The system keeps changes back while it is not asked; the event `change` is then without effect.
-/

namespace Verif.Win.Watches

/-- A record: the part of the name before the last separator (`none`: there is none, `dirname` gives "."), and the rest. -/
structure Rec where
  sub : Option String
  file : String
  deriving DecidableEq, Repr

/-- What the user's function gets: the descriptor of the directory, `fs_events_path`, the record. -/
structure Call where
  wd : Nat
  path : Option String
  what : Rec
  deriving DecidableEq, Repr

/-- `workdir` is `fdTable[monitor].process->workdir`, `buf` is `fdTable[monitor].buffer`, `asked` the descriptors with a pending `ReadDirectoryChangesW`, `posted` the
completions in the port, `calls` the calls of the user's function. -/
structure St where
  workdir : Option String := none
  buf : Rec := ⟨none, ""⟩
  asked : List Nat := []
  posted : List Nat := []
  calls : List Call := []
  deriving DecidableEq, Repr

inductive Ev where
  /-- `events_watch` with a new descriptor. -/
  | watch (wd : Nat) (name : String)
  /-- Something happens in the directory with this descriptor. -/
  | change (wd : Nat) (r : Rec)
  /-- The loop. -/
  | handle

/-- `inotify_add_watch` (os_windows.c:1674-1711) by `events_watch` (events.c:521-537): asks for changes (1692-1693), keeps the name (1709). -/
def watch (s : St) (wd : Nat) (name : String) : St := { s with workdir := some name, asked := wd :: s.asked }

/-- The system answers: it writes the buffer that it was given (os_windows.c:1692 and 477) and posts a completion. -/
def change (s : St) (wd : Nat) (r : Rec) : St :=
  if wd ∈ s.asked then { s with buf := r, asked := s.asked.erase wd, posted := s.posted ++ [wd] } else s

/-- `os_iodispatch` (os_windows.c:525-528), `inotify_task` (470-487) and `inotify_handler` (1578-1618): the directory told is the one before the name in the record,
or, if there is none, the one kept with the monitor (1612-1614); then the system is asked again. -/
def handle (s : St) : St :=
  match s.posted with
  | [] => s
  | wd :: rest =>
    { s with
      posted := rest
      asked := wd :: s.asked
      calls := s.calls ++ [⟨wd, (match s.buf.sub with | some d => some d | none => s.workdir), s.buf⟩] }

def step (s : St) : Ev → St
  | .watch wd name => watch s wd name
  | .change wd r => change s wd r
  | .handle => handle s

def run (s : St) (l : List Ev) : St := l.foldl step s

/-! ## Specification

`Sys` keeps what happened, with the name of each directory, independent of buffers. -/

/-- The directories watched, what the system is asked for, what happened, and how much of that was handled. -/
structure Sys where
  names : List (Nat × String) := []
  asked : List Nat := []
  happened : List (Nat × Rec) := []
  handled : Nat := 0

def Sys.step (s : Sys) : Ev → Sys
  | .watch wd name => { s with names := s.names ++ [(wd, name)], asked := wd :: s.asked }
  | .change wd r => if wd ∈ s.asked then { s with asked := s.asked.erase wd, happened := s.happened ++ [(wd, r)] } else s
  | .handle =>
    match s.happened[s.handled]? with
    | some (wd, _) => { s with asked := wd :: s.asked, handled := s.handled + 1 }
    | none => s

def Sys.run (s : Sys) (l : List Ev) : Sys := l.foldl Sys.step s

/-- Everything handled before the next change. -/
def Calm (s : Sys) : List Ev → Prop
  | [] => True
  | e :: l => (match e with | .change wd _ => wd ∈ s.asked → s.handled = s.happened.length | _ => True) ∧ Calm (s.step e) l

/-! ## Invariant -/

structure Inv (s : St) (y : Sys) : Prop where
  asked : s.asked = y.asked
  le : y.handled ≤ y.happened.length
  posted : s.posted = (y.happened.drop y.handled).map (·.1)
  calls : s.calls.map (·.wd) = (y.happened.take y.handled).map (·.1)
  buf : ∀ p, y.happened.getLast? = some p → s.buf = p.2
  dir : s.workdir = y.names.getLast?.map (·.2)

theorem inv_init : Inv {} {} := ⟨rfl, Nat.le_refl _, rfl, rfl, by simp, rfl⟩

theorem step_inv {s : St} {y : Sys} (h : Inv s y) (e : Ev) : Inv (step s e) (y.step e) := by
  obtain ⟨h1, h2, h3, h4, h5, h6⟩ := h
  cases e with
  | watch wd name => exact ⟨by simp [step, watch, Sys.step, h1], h2, h3, h4, h5, by simp [step, watch, Sys.step]⟩
  | change wd r =>
    simp only [step, change, Sys.step]
    rw [h1]
    split
    · refine ⟨by simp, by simp; omega, ?_, ?_, by simp, h6⟩
      · simp only [h3]
        rw [List.drop_append_of_le_length h2]; simp
      · simp only [h4]
        rw [List.take_append_of_le_length h2]
    · exact ⟨h1, h2, h3, h4, h5, h6⟩
  | handle =>
    simp only [step, handle, Sys.step]
    cases hp : y.happened[y.handled]? with
    | none =>
      have hl : y.happened.length ≤ y.handled := List.getElem?_eq_none_iff.1 hp
      have : s.posted = [] := by rw [h3, List.drop_of_length_le hl]; rfl
      rw [this]
      exact ⟨h1, h2, h3, h4, h5, h6⟩
    | some p =>
      obtain ⟨hl, hp'⟩ := List.getElem?_eq_some_iff.1 hp
      have hd := List.drop_eq_getElem_cons hl
      have : s.posted = p.1 :: (y.happened.drop (y.handled + 1)).map (·.1) := by rw [h3, hd, hp']; rfl
      rw [this]
      refine ⟨by simp [h1], hl, rfl, ?_, h5, h6⟩
      simp only [List.map_append, h4, List.take_add_one, hp]
      simp

theorem run_inv (l : List Ev) : ∀ {s : St} {y : Sys}, Inv s y → Inv (run s l) (y.run l) := by
  induction l with
  | nil => intro s y h; exact h
  | cons e l ih => intro s y h; exact ih (step_inv h e)

theorem calm_snoc (l : List Ev) (e : Ev) : ∀ y, Calm y (l ++ [e]) ↔
    Calm y l ∧ (match e with | .change wd _ => wd ∈ (y.run l).asked → (y.run l).handled = (y.run l).happened.length | _ => True) := by
  induction l with
  | nil => intro y; simp [Calm, Sys.run]
  | cons a l ih =>
    intro y
    simp only [List.cons_append, Calm, ih]
    constructor
    · rintro ⟨h, h', h''⟩; exact ⟨⟨h, h'⟩, h''⟩
    · rintro ⟨⟨h, h'⟩, h''⟩; exact ⟨h, h', h''⟩

/-! ## C252 -/

/-- In every history there is one call for each change that was handled, in order, with the right descriptor; but a call that follows has the record of
whatever change came last, and, for a file directly in the directory, the name of the directory that was added last. -/
theorem next_call (l : List Ev) (wd : Nat) (r : Rec) (h : ((Sys.run {} l).happened[(Sys.run {} l).handled]?) = some (wd, r)) :
    (run {} l).calls.map (·.wd) = ((Sys.run {} l).happened.take (Sys.run {} l).handled).map (·.1) ∧
      ∃ p : Nat × Rec, (Sys.run {} l).happened.getLast? = some p ∧
        (run {} (l ++ [.handle])).calls =
          (run {} l).calls ++ [⟨wd, p.2.sub.or ((Sys.run {} l).names.getLast?.map (·.2)), p.2⟩] := by
  obtain ⟨h1, h2, h3, h4, h5, h6⟩ := run_inv l inv_init
  refine ⟨h4, ?_⟩
  obtain ⟨hl, hp'⟩ := List.getElem?_eq_some_iff.1 h
  have hne : (Sys.run {} l).happened ≠ [] := by intro h0; simp [h0] at hl
  refine ⟨_, List.getLast?_eq_some_getLast hne, ?_⟩
  have hb := h5 _ (List.getLast?_eq_some_getLast hne)
  have hps : (run {} l).posted = wd :: ((Sys.run {} l).happened.drop ((Sys.run {} l).handled + 1)).map (·.1) := by
    rw [h3, List.drop_eq_getElem_cons hl, hp']; rfl
  have : run {} (l ++ [.handle]) = handle (run {} l) := by simp [run, step]
  rw [this, handle, hps]
  simp only [hb, h6]
  cases (Sys.run {} l).happened.getLast hne |>.2 |>.sub <;> rfl

/-- If every change is handled before the next comes, the records are right, and all of them arrive. -/
theorem calm_records_partial (l : List Ev) (hc : Calm {} l) :
    (run {} l).calls.map (fun c => (c.wd, c.what)) = (Sys.run {} l).happened.take (Sys.run {} l).handled ∧
      (Sys.run {} l).happened.length ≤ (Sys.run {} l).handled + 1 := by
  induction l using List.reverseRecOn with
  | nil => exact ⟨rfl, by simp [Sys.run]⟩
  | append_singleton l e ih =>
    obtain ⟨hc1, hc2⟩ := (calm_snoc l e {}).1 hc
    obtain ⟨i1, i2⟩ := ih hc1
    have hi := run_inv l inv_init
    have e1 : run {} (l ++ [e]) = step (run {} l) e := by simp [run]
    have e2 : Sys.run {} (l ++ [e]) = (Sys.run {} l).step e := by simp [Sys.run]
    rw [e1, e2]
    generalize run {} l = s at *
    generalize Sys.run {} l = y at *
    obtain ⟨h1, h2, h3, h4, h5, h6⟩ := hi
    cases e with
    | watch wd name => exact ⟨i1, i2⟩
    | change wd r =>
      simp only [step, change, Sys.step, h1]
      split
      · rename_i hm
        have := hc2 hm
        simp only [i1]
        rw [List.take_append_of_le_length h2]
        simp; omega
      · exact ⟨i1, i2⟩
    | handle =>
      simp only [step, handle, Sys.step]
      cases hp : y.happened[y.handled]? with
      | none =>
        have hl : y.happened.length ≤ y.handled := List.getElem?_eq_none_iff.1 hp
        have : s.posted = [] := by rw [h3, List.drop_of_length_le hl]; rfl
        rw [this]
        exact ⟨i1, i2⟩
      | some p =>
        obtain ⟨hl, hp'⟩ := List.getElem?_eq_some_iff.1 hp
        have hd := List.drop_eq_getElem_cons hl
        have hps : s.posted = p.1 :: (y.happened.drop (y.handled + 1)).map (·.1) := by rw [h3, hd, hp']; rfl
        have hlast : y.happened.getLast? = some p := by
          rw [List.getLast?_eq_getElem?, ← hp]
          congr 1; omega
        rw [hps]
        refine ⟨?_, by simp only; omega⟩
        simp only [List.map_append, i1, List.take_add_one, hp, h5 p hlast]
        simp

/-- With a single directory that is so for every history, and the name told is right also. -/
theorem single_directory_partial (wd : Nat) (name : String) (l : List Ev) (hl : ∀ e ∈ l, ∀ w n, e ≠ .watch w n) :
    (run {} (.watch wd name :: l)).calls =
      ((Sys.run {} (.watch wd name :: l)).happened.take (Sys.run {} (.watch wd name :: l)).handled).map
        (fun p => ⟨wd, p.2.sub.or (some name), p.2⟩) := by
  have key : ∀ l : List Ev, (∀ e ∈ l, ∀ w n, e ≠ .watch w n) →
      Inv (run {} (.watch wd name :: l)) (Sys.run {} (.watch wd name :: l)) ∧
      (Sys.run {} (.watch wd name :: l)).names = [(wd, name)] ∧
      (∀ p ∈ (Sys.run {} (.watch wd name :: l)).happened, p.1 = wd) ∧
      (((Sys.run {} (.watch wd name :: l)).asked = [wd] ∧
          (Sys.run {} (.watch wd name :: l)).handled = (Sys.run {} (.watch wd name :: l)).happened.length) ∨
        ((Sys.run {} (.watch wd name :: l)).asked = [] ∧
          (Sys.run {} (.watch wd name :: l)).handled + 1 = (Sys.run {} (.watch wd name :: l)).happened.length)) ∧
      (run {} (.watch wd name :: l)).calls =
        ((Sys.run {} (.watch wd name :: l)).happened.take (Sys.run {} (.watch wd name :: l)).handled).map
          (fun p => ⟨wd, p.2.sub.or (some name), p.2⟩) := by
    intro l
    induction l using List.reverseRecOn with
    | nil =>
      intro _
      exact ⟨run_inv _ inv_init, rfl, by simp [Sys.run, Sys.step], Or.inl ⟨rfl, rfl⟩, rfl⟩
    | append_singleton l e ih =>
      intro hl
      obtain ⟨hi, hn, hw, ha, hcl⟩ := ih (fun e he => hl e (by simp [he]))
      have e1 : run {} (.watch wd name :: (l ++ [e])) = step (run {} (.watch wd name :: l)) e := by simp [run]
      have e2 : Sys.run {} (.watch wd name :: (l ++ [e])) = (Sys.run {} (.watch wd name :: l)).step e := by simp [Sys.run]
      rw [e1, e2]
      refine ⟨step_inv hi e, ?_⟩
      have hne := hl e (by simp)
      generalize run {} (.watch wd name :: l) = s at *
      generalize Sys.run {} (.watch wd name :: l) = y at *
      obtain ⟨h1, h2, h3, h4, h5, h6⟩ := hi
      cases e with
      | watch w n => exact absurd rfl (hne w n)
      | change w r =>
        simp only [step, change, Sys.step, h1]
        split
        · rename_i hm
          rcases ha with ⟨ha1, ha2⟩ | ⟨ha1, -⟩
          · rw [ha1] at hm
            have hw' : w = wd := by simpa using hm
            subst hw'
            refine ⟨hn, ?_, Or.inr ⟨by simp [ha1], by simp [ha2]⟩, ?_⟩
            · intro p hp
              rcases List.mem_append.1 hp with h | h
              · exact hw p h
              · simp at h; rw [h]
            · rw [List.take_append_of_le_length h2]; exact hcl
          · rw [ha1] at hm; simp at hm
        · exact ⟨hn, hw, ha, hcl⟩
      | handle =>
        simp only [step, handle, Sys.step]
        cases hp : y.happened[y.handled]? with
        | none =>
          have hlen : y.happened.length ≤ y.handled := List.getElem?_eq_none_iff.1 hp
          have : s.posted = [] := by rw [h3, List.drop_of_length_le hlen]; rfl
          rw [this]
          exact ⟨hn, hw, ha, hcl⟩
        | some p =>
          obtain ⟨hlt, hp'⟩ := List.getElem?_eq_some_iff.1 hp
          have hd := List.drop_eq_getElem_cons hlt
          have hps : s.posted = p.1 :: (y.happened.drop (y.handled + 1)).map (·.1) := by rw [h3, hd, hp']; rfl
          have hpm : p ∈ y.happened := hp' ▸ List.getElem_mem hlt
          rcases ha with ⟨-, ha2⟩ | ⟨ha1, ha2⟩
          · omega
          · have hlast : y.happened.getLast? = some p := by
              rw [List.getLast?_eq_getElem?, ← hp]
              congr 1; omega
            rw [hps]
            refine ⟨hn, hw, Or.inl ⟨by simp [ha1, hw p hpm], ha2⟩, ?_⟩
            simp only [hcl, List.take_add_one, hp, h5 p hlast, h6, hn, hw p hpm]
            cases hs : p.2.sub <;> simp [hs]
  exact (key l hl).2.2.2.2

/-- With two directories: of two changes the first is lost, and its call has the record of the second. -/
theorem two_directories_mixed (d1 d2 : Nat) (n1 n2 : String) (r1 r2 : Rec) (hd : d1 ≠ d2) :
    (Sys.run {} [.watch d1 n1, .watch d2 n2, .change d1 r1, .change d2 r2, .handle, .handle]).happened = [(d1, r1), (d2, r2)] ∧
      (run {} [.watch d1 n1, .watch d2 n2, .change d1 r1, .change d2 r2, .handle, .handle]).calls.map (fun c => (c.wd, c.what)) =
        [(d1, r2), (d2, r2)] := by
  have h' : d2 ≠ d1 := fun h => hd h.symm
  simp [Sys.run, Sys.step, run, step, watch, change, handle, hd, h']

/-- Even when nothing else happens, a change of a file in the first directory is told with the name of the second. -/
theorem wrong_directory_told (d1 d2 : Nat) (n1 n2 : String) (f : String) (hd : d1 ≠ d2) :
    (run {} [.watch d1 n1, .watch d2 n2, .change d1 ⟨none, f⟩, .handle]).calls = [⟨d1, some n2, ⟨none, f⟩⟩] := by
  have h' : d2 ≠ d1 := fun h => hd h.symm
  simp [run, step, watch, change, handle, hd, h']

example : Calm {} [.watch 1 "a", .watch 2 "b", .change 1 ⟨none, "x"⟩, .handle, .change 2 ⟨none, "y"⟩, .handle] ∧
    (run {} [.watch 1 "a", .watch 2 "b", .change 1 ⟨none, "x"⟩, .handle, .change 2 ⟨none, "y"⟩, .handle]).calls =
      [⟨1, some "b", ⟨none, "x"⟩⟩, ⟨2, some "b", ⟨none, "y"⟩⟩] := by
  refine ⟨?_, by decide⟩
  simp [Calm, Sys.step]

example : ((Sys.run {} [.watch 1 "a", .watch 2 "b", .change 1 ⟨none, "x"⟩, .change 2 ⟨none, "y"⟩]).happened[
    (Sys.run {} [.watch 1 "a", .watch 2 "b", .change 1 ⟨none, "x"⟩, .change 2 ⟨none, "y"⟩]).handled]?) = some (1, ⟨none, "x"⟩) := by decide

end Verif.Win.Watches
