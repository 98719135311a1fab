import Mathlib.Logic.Function.Basic
import Mathlib.Data.List.Basic
import Mathlib.Tactic.Tauto

/-!
# Named pipes on Linux, macOS and BSD (`src/os_unix.c` 159-180, 378-390, 392-460), C243

`mkfifo` and `open` of programs that include `async_io.h` are `os_mkfifo` and `os_open`.  The first makes the pipe in `/tmp` and notes its
path in an entry of the table; the second looks there first.

Simplified: other entries (child processes) have no path; entries of watched directories are left out; `str_dup_ex` has memory; the table
does not grow, since `events_new_fd` grows it only for a descriptor that belongs to a loop, and `hIoCompPort` does not (395-397).
-/

namespace Verif.Io.Fifo

abbrev Name := List Char

/-- `SYS_PIPE`, include/events.h:101. -/
def sysPipe : Name := "/tmp/".toList

/-- `snprintf` into 260 bytes, os_unix.c:162 and 382. -/
def cut (n : Name) : Name := n.take 259

/-- An entry in use: `path`. -/
structure Ent where
  path : Option Name
  deriving DecidableEq, Repr

/-- `fdTable` (`none` is `FD_UNUSED`), `ioTableSize`, `hIoCompPort`. -/
structure St where
  tab : Nat → Option Ent
  size : Nat
  port : Nat

/-- The test of `events_pseudo_fd`, os_unix.c:384-385. -/
def hasName (name : Name) : Option Ent → Bool
  | some ⟨some p⟩ => decide (cut (sysPipe ++ name) = p) || decide (name = p)
  | _ => false

/-- `events_pseudo_fd`, os_unix.c:378-390. -/
def pseudoFd (s : St) (name : Name) : Option Nat := (List.range s.size).find? fun i => hasName name (s.tab i)

/-- The search of `events_new_fd(FD_PIPE_ASYNC, hIoCompPort, -1)`, os_unix.c:402-415. -/
def pick (s : St) : Option Nat :=
  if 0 < s.port then
    if s.port < s.size ∧ s.tab s.port = none then some s.port
    else (List.range s.size).find? fun i => decide (0 < i) && (s.tab i).isNone
  else none

/-- `os_mkfifo`, os_unix.c:159-167: the path given to `mkfifo(2)` and the table afterwards.  Whether that call works is not looked at. -/
def mkfifo (s : St) (name : Name) : Name × St :=
  let p := cut (sysPipe ++ name)
  match pick s with
  | some i => (p, { s with tab := Function.update s.tab i (some ⟨some p⟩) })
  | none => (p, s)

/-- `os_open`, os_unix.c:169-180: the path given to `open(2)`. -/
def openPath (s : St) (name : Name) : Name :=
  match pseudoFd s name with
  | some i => ((s.tab i).bind Ent.path).getD name
  | none => name

/-! ## Specification -/

/-- A program makes pipes one after the other. -/
def makeAll (s : St) (l : List Name) : St := l.foldl (fun s n => (mkfifo s n).2) s

/-- There is an entry for a pipe. -/
def Room (s : St) : Prop := 0 < s.port ∧ ∃ i, 0 < i ∧ i < s.size ∧ s.tab i = none

/-- There is an entry for each of the pipes. -/
def RoomFor (s : St) : List Name → Prop
  | [] => True
  | n :: l => Room s ∧ RoomFor (mkfifo s n).2 l

/-- No pipes were made so far. -/
def Fresh (s : St) : Prop := ∀ i e, s.tab i = some e → e.path = none

/-- The name fits into the buffers. -/
def Short (n : Name) : Prop := (sysPipe ++ n).length ≤ 259

/-! ## Lemmas -/

theorem cut_short {n : Name} (h : Short n) : cut (sysPipe ++ n) = sysPipe ++ n := List.take_of_length_le h

theorem pick_some {s : St} {i : Nat} (h : pick s = some i) : i < s.size ∧ s.tab i = none := by
  unfold pick at h
  split at h
  · split at h
    · rename_i hp
      injection h with h; subst h; exact hp
    · have h1 := List.find?_some h
      have h2 := List.mem_of_find?_eq_some h
      simp at h1 h2
      exact ⟨h2, h1.2⟩
  · simp at h

theorem pick_room {s : St} (h : Room s) : ∃ i, pick s = some i := by
  obtain ⟨hp, i, hi, hs, he⟩ := h
  unfold pick
  rw [if_pos hp]
  split
  · exact ⟨_, rfl⟩
  · have : ((List.range s.size).find? fun i => decide (0 < i) && (s.tab i).isNone).isSome := by
      rw [List.find?_isSome]
      exact ⟨i, by simpa using hs, by simp [hi, he]⟩
    exact Option.isSome_iff_exists.1 this

theorem pick_none {s : St} (h : ∀ i, 0 < i → i < s.size → s.tab i ≠ none) : pick s = none := by
  unfold pick
  split
  · rename_i hp
    rw [if_neg (fun hc => h _ hp hc.1 hc.2), List.find?_eq_none]
    intro i hi
    have hi := List.mem_range.1 hi
    simp
    intro h0
    exact h i h0 hi
  · rfl

/-- The paths in the table are those of the calls, and all of those if there is room. -/
structure Inv (made : List Name) (s : St) : Prop where
  only : ∀ i p, s.tab i = some ⟨some p⟩ → ∃ n ∈ made, p = cut (sysPipe ++ n)

theorem mkfifo_only {made : List Name} {s : St} (h : Inv made s) (n : Name) : Inv (made ++ [n]) (mkfifo s n).2 := by
  refine ⟨fun i p hi => ?_⟩
  unfold mkfifo at hi
  split at hi
  · rename_i j hj
    simp only [Function.update_apply] at hi
    split at hi
    · simp only [Option.some.injEq, Ent.mk.injEq] at hi
      exact ⟨n, by simp, hi.symm⟩
    · obtain ⟨m, hm, he⟩ := h.only i p hi
      exact ⟨m, by simp [hm], he⟩
  · obtain ⟨m, hm, he⟩ := h.only i p hi
    exact ⟨m, by simp [hm], he⟩

theorem mkfifo_keeps (s : St) (n : Name) (i : Nat) (e : Ent) (h : s.tab i = some e) : (mkfifo s n).2.tab i = some e := by
  unfold mkfifo
  split
  · rename_i j hj
    have := (pick_some hj).2
    simp only [Function.update_apply]
    rw [if_neg (fun hc => by subst hc; rw [h] at this; simp at this)]
    exact h
  · exact h

theorem mkfifo_size (s : St) (n : Name) : (mkfifo s n).2.size = s.size ∧ (mkfifo s n).2.port = s.port := by
  unfold mkfifo; split <;> exact ⟨rfl, rfl⟩

theorem makeAll_inv (made l : List Name) (s : St) (h : Inv made s) : Inv (made ++ l) (makeAll s l) := by
  induction l generalizing s made with
  | nil => simpa [makeAll] using h
  | cons n l ih =>
    have := ih (made ++ [n]) (mkfifo s n).2 (mkfifo_only h n)
    rw [List.append_assoc] at this
    exact this

theorem makeAll_keeps (l : List Name) (s : St) (i : Nat) (e : Ent) (h : s.tab i = some e) :
    (makeAll s l).tab i = some e ∧ (makeAll s l).size = s.size := by
  induction l generalizing s with
  | nil => exact ⟨h, rfl⟩
  | cons n l ih =>
    obtain ⟨h1, h2⟩ := ih (mkfifo s n).2 (mkfifo_keeps s n i e h)
    exact ⟨h1, by rw [show (makeAll s (n :: l)).size = (makeAll (mkfifo s n).2 l).size from rfl, h2, (mkfifo_size s n).1]⟩

theorem makeAll_has (l : List Name) (s : St) (hr : RoomFor s l) (n : Name) (hn : n ∈ l) :
    ∃ i, i < (makeAll s l).size ∧ (makeAll s l).tab i = some ⟨some (cut (sysPipe ++ n))⟩ := by
  induction l generalizing s with
  | nil => simp at hn
  | cons m l ih =>
    obtain ⟨h1, h2⟩ := hr
    rcases List.mem_cons.1 hn with rfl | hn
    · obtain ⟨i, hi⟩ := pick_room h1
      have ht : (mkfifo s n).2.tab i = some ⟨some (cut (sysPipe ++ n))⟩ := by
        unfold mkfifo; rw [hi]; simp
      obtain ⟨h3, h4⟩ := makeAll_keeps l _ i _ ht
      refine ⟨i, ?_, h3⟩
      show i < (makeAll (mkfifo s n).2 l).size
      rw [h4, (mkfifo_size s n).1]
      exact (pick_some hi).1
    · exact ih _ h2 hn

theorem fresh_inv {s : St} (h : Fresh s) : Inv [] s := ⟨fun i p hi => by simpa using h i _ hi⟩

/-- What `open` opens is what an entry says that has the name. -/
theorem openPath_cases (s : St) (n : Name) :
    (∃ i p, i < s.size ∧ s.tab i = some ⟨some p⟩ ∧ (p = cut (sysPipe ++ n) ∨ p = n) ∧ openPath s n = p) ∨
    ((∀ i p, i < s.size → s.tab i = some ⟨some p⟩ → p ≠ cut (sysPipe ++ n) ∧ p ≠ n) ∧ openPath s n = n) := by
  unfold openPath
  cases h : pseudoFd s n with
  | some i =>
    left
    unfold pseudoFd at h
    have h1 := List.find?_some h
    have h2 := List.mem_range.1 (List.mem_of_find?_eq_some h)
    cases ht : s.tab i with
    | none => simp [hasName, ht] at h1
    | some e =>
      obtain ⟨p⟩ := e
      cases p with
      | none => simp [hasName, ht] at h1
      | some p =>
        simp only [hasName, ht, Bool.or_eq_true, decide_eq_true_eq] at h1
        exact ⟨i, p, h2, ht, by tauto, by simp [ht]⟩
  | none =>
    right
    unfold pseudoFd at h
    rw [List.find?_eq_none] at h
    refine ⟨fun i p hi ht => ?_, rfl⟩
    have := h i (List.mem_range.2 hi)
    simp only [hasName, ht, Bool.or_eq_true, decide_eq_true_eq, not_or] at this
    exact ⟨fun e => this.1 e.symm, fun e => this.2 e.symm⟩

/-! ## C243 -/

/-- A name that was never given to `mkfifo` is opened as it is, also the full path of a pipe.  Missing: longer names. -/
theorem others_left_alone_partial (s : St) (l : List Name) (n : Name) (hs : Fresh s) (hl : ∀ m ∈ l, Short m) (hsn : Short n)
    (hn : n ∉ l) : openPath (makeAll s l) n = n := by
  have inv := makeAll_inv [] l s (fresh_inv hs)
  rcases openPath_cases (makeAll s l) n with ⟨i, p, -, ht, hp, ho⟩ | ⟨-, ho⟩
  · rw [ho]
    rcases hp with hp | hp
    · exfalso
      obtain ⟨m, hm, he⟩ := inv.only i p ht
      simp only [List.nil_append] at hm
      rw [cut_short (hl m hm)] at he
      have hc : cut (sysPipe ++ n) = sysPipe ++ m := by rw [← hp, he]
      rw [cut_short hsn] at hc
      exact hn (by rw [List.append_cancel_left hc]; exact hm)
    · exact hp
  · exact ho

/-- A table with nothing in it but the entry of a child process. -/
def table : St := ⟨fun i => if i = 2 then some ⟨none⟩ else none, 256, 5⟩

theorem table_fresh : Fresh table := by
  intro i e h
  simp only [table] at h
  split at h
  · injection h with h; subst h; rfl
  · simp at h

example : openPath (makeAll table ["a".toList, "b".toList]) "c".toList = "c".toList ∧
    openPath (makeAll table ["a".toList, "b".toList]) "/tmp/a".toList = "/tmp/a".toList := by decide

/-- Each name given to `mkfifo` is opened as the path that was made, however many there are.  Missing: longer names, a full table, and
names that are themselves the full path of another pipe. -/
theorem made_then_opened_partial (s : St) (l : List Name) (n : Name) (hs : Fresh s) (hr : RoomFor s l) (hl : ∀ m ∈ l, Short m)
    (hn : n ∈ l) (hx : ∀ m ∈ l, n ≠ sysPipe ++ m) (t : St) :
    openPath (makeAll s l) n = (mkfifo t n).1 ∧ openPath (makeAll s l) n = sysPipe ++ n := by
  have inv := makeAll_inv [] l s (fresh_inv hs)
  have key : openPath (makeAll s l) n = cut (sysPipe ++ n) := by
    rcases openPath_cases (makeAll s l) n with ⟨i, p, -, ht, hp, ho⟩ | ⟨hno, -⟩
    · rw [ho]
      rcases hp with hp | hp
      · exact hp
      · exfalso
        obtain ⟨m, hm, he⟩ := inv.only i p ht
        simp only [List.nil_append] at hm
        rw [cut_short (hl m hm)] at he
        exact hx m hm (by rw [← hp, he])
    · obtain ⟨i, hi, ht⟩ := makeAll_has l s hr n hn
      exact absurd rfl (hno i _ hi ht).1
  refine ⟨?_, by rw [key, cut_short (hl n hn)]⟩
  rw [key]
  unfold mkfifo
  split <;> rfl

example : RoomFor table ["a".toList, "b".toList] := by
  refine ⟨⟨by decide, 1, by decide, by decide, by decide⟩, ⟨by decide, 1, by decide, by decide, by decide⟩, trivial⟩

example : openPath (makeAll table ["a".toList, "b".toList]) "b".toList = "/tmp/b".toList := by decide

/-- The name of a `mkfifo` that failed is not given back to the file of that name: there is no way to open it any more. -/
theorem failed_mkfifo_hides (s : St) (n : Name) (hs : Fresh s) (hr : Room s) (hl : Short n) :
    openPath (mkfifo s n).2 n = sysPipe ++ n ∧ openPath s n = n := by
  refine ⟨?_, ?_⟩
  · refine (made_then_opened_partial s [n] n hs ⟨hr, trivial⟩ (by simpa using hl) (by simp) ?_ s).2
    intro m hm
    simp only [List.mem_singleton] at hm
    subst hm
    intro h
    have := congrArg List.length h
    simp [sysPipe] at this
    omega
  · exact others_left_alone_partial s [] n hs (by simp) hl (by simp)

example : Room table := ⟨by decide, 1, by decide, by decide, by decide⟩

/-- With a full table the pipe is made and its name opens something else. -/
theorem full_table_opens_other (s : St) (n : Name) (hf : ∀ i, 0 < i → i < s.size → s.tab i ≠ none)
    (hp : ∀ i p, s.tab i = some ⟨some p⟩ → p ≠ cut (sysPipe ++ n)) :
    openPath (mkfifo s n).2 n = n ∧ (mkfifo s n).1 = cut (sysPipe ++ n) := by
  have e : mkfifo s n = (cut (sysPipe ++ n), s) := by unfold mkfifo; rw [pick_none hf]
  rw [e]
  refine ⟨?_, rfl⟩
  rcases openPath_cases s n with ⟨i, p, -, ht, hq, ho⟩ | ⟨-, ho⟩
  · rw [ho]
    rcases hq with hq | hq
    · exact absurd hq (hp i p ht)
    · exact hq
  · exact ho

example : ∀ i, 0 < i → i < 2 → (fun i => if i = 1 then some (⟨some "/tmp/a".toList⟩ : Ent) else none) i ≠ none := by
  intro i h1 h2
  have : i = 1 := by omega
  subst this
  simp

/-- Two long names that begin alike are one pipe. -/
theorem long_names_clash (s t : St) (a b c : Name) (ha : 254 ≤ a.length) :
    (mkfifo s (a ++ b)).1 = (mkfifo t (a ++ c)).1 := by
  have h : ∀ (s : St) (n : Name), (mkfifo s n).1 = cut (sysPipe ++ n) := by
    intro s n; unfold mkfifo; split <;> rfl
  have k : ∀ x : Name, cut (sysPipe ++ (a ++ x)) = cut (sysPipe ++ a) := by
    intro x
    unfold cut
    rw [← List.append_assoc, List.take_append_of_le_length (by simp [sysPipe]; omega)]
  rw [h, h, k, k]

example : 254 ≤ (List.replicate 300 'x').length := by rw [List.length_replicate]; omega

/-- An absolute path is not taken as such. -/
theorem absolute_not_honoured (s : St) (n : Name) (hn : Short n) : (mkfifo s n).1 ≠ n := by
  have h : (mkfifo s n).1 = cut (sysPipe ++ n) := by unfold mkfifo; split <;> rfl
  rw [h, cut_short hn]
  intro h
  have := congrArg List.length h
  simp [sysPipe] at this
  omega

example : (mkfifo table "/tmp/a".toList).1 = "/tmp//tmp/a".toList := by decide

end Verif.Io.Fifo
