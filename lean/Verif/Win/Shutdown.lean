import Verif.Basic
import Mathlib.Data.List.Basic
import Mathlib.Tactic.Cases

/-!
# The end of the library on Windows (`src/os_windows.c` 134-156, 311-331, 427-468), C256

`os_shutdown` walks over the table of descriptors and closes the directories that are watched.  They are kept in a list of pointers to records, each with the
name and the descriptor (`dirent_entry`, os_windows.c:1705-1709).

Simplified: sockets are not in the table; flushing of pipes is left out; what was posted to the port is not fetched any more.
-/

namespace Verif.Win.Shutdown

/-- An entry in use: its handle, and the addresses of the records in `inotify_wd`. -/
structure Ent where
  handle : Nat
  dirs : List Nat := []
  deriving DecidableEq, Repr

/-- What is closed. -/
inductive Closed where
  | socket (n : Int)
  /-- `_close` of the C library -/
  | clib (n : Int)
  | handle (h : Nat)
  deriving DecidableEq, Repr

/-- `loops` is `num_loops`, `sock` the numbers of open sockets, `size` is `ioTableSize`, `tab` the table: `none` before `os_init` and after `os_shutdown` (325: freed, the
pointer is kept). -/
structure Sys where
  loops : Nat
  sock : Int → Bool
  size : Nat
  tab : Option (List (Option Ent))

/-- `events_valid_fd`, os_windows.c:154-156. -/
def valid (y : Sys) (fd : Int) : Res Bool :=
  if 0 ≤ fd ∧ fd < y.size then
    match y.tab with
    | none => .ub
    | some t => .ok ((t.getD fd.toNat none).isSome)
  else .ok false

/-- `os_close`, os_windows.c:427-468, with `events_free_fd`. -/
def osClose (y : Sys) (fd : Int) : Res (List Closed × Sys) :=
  if fd = -1 then .ok ([], y)
  else do
    let v ← if y.loops = 0 then .ok false else valid y fd
    if v = false ∧ y.sock fd then .ok ([.socket fd], y)
    else do
      let w ← valid y fd
      if w then
        match y.tab with
        | none => .ub
        | some t =>
          match t.getD fd.toNat none with
          | none => .ub
          | some e => .ok ([.handle e.handle], { y with tab := some (t.set fd.toNat none) })
      else .ok ([.clib fd], y)

/-- `watch.integer` (os_windows.c:143) of an element that is a pointer: the low 32 bits, as an `int`. -/
def integer (p : Nat) : Int := if p % 2 ^ 32 < 2 ^ 31 then ((p % 2 ^ 32 : Nat) : Int) else ((p % 2 ^ 32 : Nat) : Int) - 2 ^ 32

/-- The loop over the list of an entry, os_windows.c:142-144. -/
def closeDirs : List Nat → Sys → Res (List Closed × Sys)
  | [], y => .ok ([], y)
  | p :: l, y => do
    let (c, y) ← osClose y (integer p)
    let (d, y) ← closeDirs l y
    .ok (c ++ d, y)

/-- `clear_pseudo_events`, os_windows.c:134-152, from index `i` on, `n` entries. -/
def clear : Nat → Nat → Sys → Res (List Closed × Sys)
  | 0, _, y => .ok ([], y)
  | n + 1, i, y =>
    match y.tab with
    | none => .ub
    | some t =>
      match t.getD i none with
      | none => clear n (i + 1) y
      | some e => do
        let (c, y) ← closeDirs e.dirs y
        let (d, y) ← clear n (i + 1) { y with tab := y.tab.map (·.set i none) }
        .ok (c ++ d, y)

/-- `os_shutdown`, os_windows.c:311-331. -/
def shutdown (y : Sys) : Res (List Closed × Sys) := do
  let (c, y) ← clear y.size 0 y
  .ok (c, { y with tab := none })

/-! ## Lemmas -/

theorem osClose_away (y : Sys) (fd : Int) (h1 : fd ≠ -1) (h2 : ¬ (0 ≤ fd ∧ fd < y.size)) :
    osClose y fd = .ok ([if y.sock fd then .socket fd else .clib fd], y) := by
  have hv : valid y fd = .ok false := by rw [valid, if_neg h2]
  rw [osClose, if_neg h1, hv]
  by_cases hl : y.loops = 0
  · rw [if_pos hl]
    cases hs : y.sock fd <;> simp [bind, Res.bind]
  · rw [if_neg hl]
    cases hs : y.sock fd <;> simp [bind, Res.bind]

theorem closeDirs_away (y : Sys) : ∀ (l : List Nat), (∀ p ∈ l, integer p ≠ -1 ∧ ¬ (0 ≤ integer p ∧ integer p < y.size)) →
    closeDirs l y = .ok (l.map (fun p => if y.sock (integer p) then .socket (integer p) else .clib (integer p)), y) := by
  intro l
  induction l with
  | nil => intro _; rfl
  | cons p l ih =>
    intro h
    obtain ⟨h1, h2⟩ := h p (by simp)
    rw [closeDirs, osClose_away y _ h1 h2]
    simp only [bind, Res.bind]
    rw [ih (fun q hq => h q (by simp [hq]))]
    simp

/-- The records of the entries from index `i` on, in order. -/
def allDirs (t : List (Option Ent)) (i : Nat) : List Nat := (t.drop i).flatMap fun o => (o.map Ent.dirs).getD []

theorem allDirs_lt {t : List (Option Ent)} {i : Nat} (hi : i < t.length) : allDirs t i = ((t.getD i none).map Ent.dirs).getD [] ++ allDirs t (i + 1) := by
  rw [allDirs, List.drop_eq_getElem_cons hi, List.flatMap_cons, allDirs]
  simp [List.getD, List.getElem?_eq_getElem hi]

theorem allDirs_set {t : List (Option Ent)} {i : Nat} : allDirs (t.set i none) (i + 1) = allDirs t (i + 1) := by
  rw [allDirs, allDirs, List.drop_set_of_lt (by omega)]

theorem clear_away : ∀ (n i : Nat) (y : Sys) (t : List (Option Ent)), y.tab = some t → t.length = y.size → i + n = y.size →
    (∀ p ∈ allDirs t i, integer p ≠ -1 ∧ ¬ (0 ≤ integer p ∧ integer p < y.size)) →
    ∃ y', clear n i y = .ok ((allDirs t i).map (fun p => if y.sock (integer p) then .socket (integer p) else .clib (integer p)), y') ∧
      y'.loops = y.loops ∧ y'.sock = y.sock ∧ y'.size = y.size := by
  intro n
  induction n with
  | zero =>
    intro i y t ht hl hn _
    refine ⟨y, ?_, rfl, rfl, rfl⟩
    rw [allDirs, List.drop_of_length_le (by omega)]
    rfl
  | succ n ih =>
    intro i y t ht hl hn h
    have hi : i < t.length := by omega
    have hsplit := allDirs_lt hi
    rw [hsplit] at h
    simp only [clear, ht]
    cases he : t.getD i none with
    | none =>
      rw [he] at hsplit
      obtain ⟨y', h1, h2⟩ := ih (i + 1) y t ht hl (by omega) (fun p hp => h p (by simp [hp]))
      refine ⟨y', ?_, h2⟩
      rw [hsplit]
      simpa using h1
    | some e =>
      rw [he] at hsplit h
      simp only [Option.map_some, Option.getD_some] at hsplit h
      simp only [closeDirs_away y e.dirs (fun p hp => h p (by simp [hp])), bind, Res.bind, ht]
      obtain ⟨y', h1, h2⟩ := ih (i + 1) { y with tab := some (t.set i none) } (t.set i none) rfl (by simpa using hl) (by simp only; omega) (fun p hp => by
        rw [allDirs_set] at hp
        exact h p (by simp [hp]))
      refine ⟨y', ?_, h2⟩
      simp only [Option.map_some]
      rw [h1, hsplit, allDirs_set]
      simp

/-! ## C256 -/

/-- Without watched directories nothing is closed that is not the library's, in any state. -/
theorem no_directories_partial (y : Sys) (t : List (Option Ent)) (ht : y.tab = some t) (hl : t.length = y.size) (h : ∀ e, some e ∈ t → e.dirs = []) :
    ∃ y', shutdown y = .ok ([], y') ∧ y'.tab = none := by
  have h0 : allDirs t 0 = [] := by
    rw [allDirs, List.drop_zero, List.flatMap_eq_nil_iff]
    rintro (_ | e) ho
    · rfl
    · simp [h e ho]
  obtain ⟨y', h1, -⟩ := clear_away y.size 0 y t ht hl (by omega) (by rw [h0]; simp)
  refine ⟨{ y' with tab := none }, ?_, rfl⟩
  rw [shutdown, h1, h0]
  rfl

/-- With watched directories, the numbers closed are the low halves of the addresses of the records (here: those that are no index of the table): a socket that has such a number
is closed, whoever it belongs to; the handles of the directories stay open. -/
theorem closes_addresses (y : Sys) (t : List (Option Ent)) (ht : y.tab = some t) (hl : t.length = y.size)
    (h : ∀ e p, some e ∈ t → p ∈ e.dirs → integer p ≠ -1 ∧ ¬ (0 ≤ integer p ∧ integer p < y.size)) :
    ∃ c y', shutdown y = .ok (c, y') ∧ (∀ k, Closed.handle k ∉ c) ∧
      ∀ e p, some e ∈ t → p ∈ e.dirs → (if y.sock (integer p) then Closed.socket (integer p) else .clib (integer p)) ∈ c := by
  obtain ⟨y', h1, -⟩ := clear_away y.size 0 y t ht hl (by omega) (by
    intro p hp
    rw [allDirs, List.drop_zero, List.mem_flatMap] at hp
    obtain ⟨o, ho, hp⟩ := hp
    cases o with
    | none => simp at hp
    | some e => exact h e p ho (by simpa using hp))
  refine ⟨_, { y' with tab := none }, by rw [shutdown, h1]; rfl, ?_, ?_⟩
  · intro k hk
    obtain ⟨p, -, hp⟩ := List.mem_map.1 hk
    split at hp <;> simp at hp
  · intro e p he hp
    refine List.mem_map.2 ⟨p, ?_, rfl⟩
    rw [allDirs, List.drop_zero, List.mem_flatMap]
    exact ⟨some e, he, by simpa using hp⟩

/-- Two addresses a multiple of 4 GB apart are taken for the same number. -/
theorem addresses_confused (p k : Nat) : integer (p + k * 2 ^ 32) = integer p := by
  rw [integer, integer, Nat.add_mul_mod_self_right]

/-- Before the library begins and after it has ended, closing a file descriptor of the C library that is below the size of the table reads the table, which is not
there. -/
theorem close_outside (y : Sys) (hy : y.tab = none) (hl : y.loops = 0) (fd : Int) (h : 0 ≤ fd ∧ fd < y.size) (hs : y.sock fd = false) :
    osClose y fd = .ub := by
  have hv : valid y fd = .ub := by rw [valid, if_pos h, hy]
  rw [osClose, if_neg (by omega), if_pos hl, hv]
  simp [bind, Res.bind, hs]

/-- Sockets, and descriptors from the size of the table on, are closed properly at any time. -/
theorem close_others_partial (y : Sys) (hl : y.loops = 0) (fd : Int) (h1 : fd ≠ -1) (h : y.sock fd = true ∨ ¬ (0 ≤ fd ∧ fd < y.size)) :
    osClose y fd = .ok ([if y.sock fd then .socket fd else .clib fd], y) := by
  by_cases hr : 0 ≤ fd ∧ fd < y.size
  · have hs : y.sock fd = true := by rcases h with h | h; exact h; exact absurd hr h
    rw [osClose, if_neg h1, if_pos hl]
    simp [bind, Res.bind, hs]
  · exact osClose_away y fd h1 hr

/-- Three entries, the second a monitor with a record at 0x7ff600000320; a socket 800 is open: it is closed, the directory (handle 12) is not. -/
example : (match shutdown { loops := 0, sock := fun n => n == 800, size := 3, tab := some [none, some ⟨3, [0x7ff600000320]⟩, some ⟨12, []⟩] } with
    | .ok (c, _) => c | .ub => []) = [.socket 800] := by decide +kernel

example : integer 0x7ff600000320 = 800 ∧ ¬ (0 ≤ (800 : Int) ∧ (800 : Int) < 256) := by decide

end Verif.Win.Shutdown
