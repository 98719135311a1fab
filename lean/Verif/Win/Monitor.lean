import Mathlib.Data.List.Basic
import Verif.Basic

/-!
# Pseudo descriptors and directory monitors on Windows (`src/os_windows.c`), C210, C211, C212

The table of pseudo descriptors with the handles that Windows gives, and the life of directory monitors: `inotify_init`,
`inotify_add_watch`, `inotify_close`.

Simplified: the table does not grow (it grows only when a loop has more descriptors registered than the table has entries); a loop is
running; directories below the watched one are left out (their names are only kept as text); the system does not run out of handles, and
gives every handle a number of its own.
-/

namespace Verif.Win.Monitor

/-- `FILE_TYPE` of an entry, as far as it matters here. -/
inductive Kind where
  | unused
  | file
  | monitor
  | watch
  deriving DecidableEq, Repr

/-- One entry of `fdTable` (os_windows.c:58-79): `handle` is `fid`, `back` is `_fd`, `dirs` the pseudo descriptors in `inotify_wd`. -/
structure Entry where
  kind : Kind := .unused
  handle : Nat := 0
  back : Nat := 0
  dirs : List Nat := []
  deriving DecidableEq, Repr

/-- `opened`: the handles of files and directories that are open, and the completion port; `events`: the event objects that exist. -/
structure St where
  tab : List Entry
  opened : List Nat
  next : Nat
  port : Nat
  events : Nat := 0
  deriving DecidableEq, Repr

/-- Is the entry in use? -/
def Entry.used (e : Entry) : Bool := e.kind ≠ .unused

/-- The choice of an index (os_windows.c:189-206) for a handle that is not zero, with no index asked for. -/
def pick (t : List Entry) (h : Nat) : Option Nat :=
  if (t[h]?).any (fun e => !e.used) then some h
  else (List.range t.length).find? fun i => decide (1 ≤ i) && (t[i]?).any (fun e => !e.used)

/-- `events_new_fd(type, handle, -1)` (os_windows.c:177-242): an event object is made for every new descriptor (219). -/
def newFd (s : St) (k : Kind) (h : Nat) : Option (Nat × St) :=
  match pick s.tab h with
  | none => none
  | some i => some (i, { s with tab := s.tab.set i { kind := k, handle := h }, events := s.events + 1 })

/-- `events_valid_fd` (os_windows.c:154-156). -/
def valid (s : St) (i : Nat) : Bool := (s.tab[i]?).any Entry.used

/-- `os_close` (os_windows.c:427-468) of a valid descriptor, with `events_free_fd` (245-279): the handle is closed and the entry is given
back; the event object is left. -/
def osClose (s : St) (i : Nat) : St :=
  match s.tab[i]? with
  | none => s
  | some e =>
    if e.used then { s with tab := s.tab.set i { e with kind := .unused }, opened := s.opened.filter (· ≠ e.handle) } else s

/-- `_os_open` of a file (os_windows.c:638-678): a new handle and a descriptor for it. -/
def openFile (s : St) : Option (Nat × St) :=
  newFd { s with next := s.next + 1, opened := s.next :: s.opened } .file s.next

/-- `inotify_init` (os_windows.c:1520-1523): a descriptor for the completion port. -/
def inotifyInit (s : St) : Option (Nat × St) := newFd s .monitor s.port

/-- `inotify_add_watch(fd, name, mask)` (os_windows.c:1674-1718) for a directory that exists; `none` where the code goes on with the
index -1.  The handle of the monitor is overwritten (1705). -/
def addWatch (s : St) (fd : Nat) : Option (Nat × St) :=
  let h := s.next
  match newFd { s with next := s.next + 1, opened := h :: s.opened } .watch h with
  | none => none
  | some (w, s1) =>
    let s2 := { s1 with tab := s1.tab.modify w fun e => { e with back := fd } }
    some (w, { s2 with tab := s2.tab.modify fd fun e => { e with back := w, handle := h, dirs := e.dirs ++ [w] } })

/-- `inotify_close(fd)` (os_windows.c:1730-1741): the names are freed, then the descriptor of the monitor is closed. -/
def inotifyClose (s : St) (fd : Nat) : St :=
  if valid s fd then osClose { s with tab := s.tab.modify fd fun e => { e with dirs := [] } } fd else s

/-- Several directories under one monitor. -/
def addWatches (s : St) (fd : Nat) : Nat → Option St
  | 0 => some s
  | n + 1 => match addWatch s fd with
    | none => none
    | some (_, s') => addWatches s' fd n

/-- Watching: make a monitor, add `k` directories, close the monitor (`events_watch` and `events_del_watch`, events.c:463-468, 521-537). -/
def cycle (s : St) (k : Nat) : Option St :=
  match inotifyInit s with
  | none => none
  | some (m, s1) =>
    match addWatches s1 m k with
    | none => none
    | some s2 => some (inotifyClose s2 m)

def cycles (k : Nat) : Nat → St → Option St
  | 0, s => some s
  | n + 1, s => match cycle s k with
    | none => none
    | some s' => cycles k n s'

/-- Opening a file and closing it again. -/
def openClose (s : St) : Option St := (openFile s).map fun p => osClose p.2 p.1

def openCloses : Nat → St → Option St
  | 0, s => some s
  | n + 1, s => match openClose s with
    | none => none
    | some s' => openCloses n s'

/-- How many entries of the table are in use. -/
def inUse (s : St) : Nat := s.tab.countP Entry.used

/-- A table that starts: all entries free, the port open. -/
def fresh (n : Nat) : St := { tab := List.replicate n {}, opened := [3], next := 4, port := 3 }

/-- The numbers of handles are new ones. -/
def Good (s : St) : Prop := (∀ h ∈ s.opened, h < s.next) ∧ s.port < s.next

/-! ## Lemmas -/

theorem any_some {t : List Entry} {i : Nat} (h : (t[i]?).any (fun e => !e.used) = true) : ∃ hi : i < t.length, (t[i]).used = false := by
  cases ht : t[i]? with
  | none => simp [ht] at h
  | some e =>
    obtain ⟨hi, he⟩ := List.getElem?_eq_some_iff.1 ht
    exact ⟨hi, by simp [ht] at h; rw [he]; exact h⟩

theorem pick_some {t : List Entry} {h i : Nat} (hp : pick t h = some i) : ∃ hi : i < t.length, (t[i]).used = false := by
  unfold pick at hp
  split at hp
  · cases hp; exact any_some (by assumption)
  · have := List.find?_some hp
    simp only [Bool.and_eq_true] at this
    exact any_some this.2

theorem pick_none {t : List Entry} {h : Nat} (hp : pick t h = none) (i : Nat) (h1 : 1 ≤ i) (hi : i < t.length) : (t[i]).used = true := by
  unfold pick at hp
  split at hp
  · simp at hp
  · have := List.find?_eq_none.1 hp i (by simpa using hi)
    simpa [h1, hi] using this

theorem newFd_spec {s : St} {k : Kind} {h i : Nat} {s' : St} (hk : k ≠ .unused) (hn : newFd s k h = some (i, s')) :
    ∃ hi : i < s.tab.length, (s.tab[i]).used = false ∧ s' = { s with tab := s.tab.set i { kind := k, handle := h }, events := s.events + 1 } ∧
      inUse s' = inUse s + 1 := by
  unfold newFd at hn
  split at hn
  · simp at hn
  · rename_i j hp
    obtain ⟨hi, hu⟩ := pick_some hp
    simp only [Option.some.injEq, Prod.mk.injEq] at hn
    obtain ⟨rfl, rfl⟩ := hn
    refine ⟨hi, hu, rfl, ?_⟩
    have e : ({ kind := k, handle := h } : Entry).used = true := by simp [Entry.used, hk]
    simp only [inUse, List.countP_set hi, hu, e]; simp

theorem countP_modify_used (t : List Entry) (i : Nat) (f : Entry → Entry) (hf : ∀ e, (f e).kind = e.kind) :
    (t.modify i f).countP Entry.used = t.countP Entry.used := by
  induction t generalizing i with
  | nil => simp
  | cons a t ih =>
    cases i with
    | zero => simp [List.countP_cons, Entry.used, hf]
    | succ i => simp [List.countP_cons, ih]

theorem osClose_inUse {s : St} {i : Nat} (hi : i < s.tab.length) (hu : (s.tab[i]).used = true) : inUse (osClose s i) + 1 = inUse s := by
  have hpos : 0 < s.tab.countP Entry.used := List.countP_pos_iff.2 ⟨_, List.getElem_mem hi, hu⟩
  simp only [osClose, List.getElem?_eq_getElem hi, hu, if_true, inUse, List.countP_set, hi]
  simp [Entry.used]
  have : s.tab.countP Entry.used = s.tab.countP (fun e => !decide (e.kind = .unused)) := by
    congr 1; funext e; simp [Entry.used]
  omega


theorem addWatch_spec {s : St} {fd w : Nat} {s' : St} (hfd : fd < s.tab.length) (hu : (s.tab[fd]).used = true) (h : addWatch s fd = some (w, s')) :
    s'.tab.length = s.tab.length ∧ inUse s' = inUse s + 1 ∧ (∃ e, s'.tab[fd]? = some e ∧ e.used = true ∧ e.handle = s.next) ∧
      s'.opened = s.next :: s.opened ∧ s'.next = s.next + 1 ∧ s'.port = s.port ∧ s'.events = s.events + 1 := by
  unfold addWatch at h
  simp only at h
  split at h
  · simp at h
  · rename_i w' s1 hn
    simp only [Option.some.injEq, Prod.mk.injEq] at h
    obtain ⟨rfl, rfl⟩ := h
    obtain ⟨hi, hun, rfl, hin⟩ := newFd_spec (by decide) hn
    simp only at hi hun hin
    have hne : w' ≠ fd := by rintro rfl; rw [hu] at hun; simp at hun
    refine ⟨by simp, ?_, ?_, rfl, rfl, rfl, rfl⟩
    · simp only [inUse] at hin ⊢
      rw [countP_modify_used _ fd _ (by intro e; rfl), countP_modify_used _ w' _ (by intro e; rfl)]
      exact hin
    · refine ⟨{ s.tab[fd] with back := w', handle := s.next, dirs := (s.tab[fd]).dirs ++ [w'] }, ?_, ?_, rfl⟩
      · simp [hne, hfd]
      · simpa [Entry.used] using hu

theorem addWatches_spec : ∀ (k : Nat) {s : St} {fd : Nat} {s' : St} (hfd : fd < s.tab.length) (_ : (s.tab[fd]).used = true),
    addWatches s fd k = some s' →
    s'.tab.length = s.tab.length ∧ inUse s' = inUse s + k ∧
      (∃ e, s'.tab[fd]? = some e ∧ e.used = true ∧ e.handle = if k = 0 then (s.tab[fd]).handle else s.next + k - 1) ∧
      (∃ l, s'.opened = l ++ s.opened ∧ l.length = k ∧ (∀ x ∈ l, s.next ≤ x ∧ x < s.next + k) ∧ l.Nodup ∧
        (0 < k → s.next + k - 1 ∈ l)) ∧
      s'.next = s.next + k ∧ s'.port = s.port := by
  intro k
  induction k with
  | zero =>
    intro s fd s' hfd hu h
    simp only [addWatches, Option.some.injEq] at h
    subst h
    exact ⟨rfl, rfl, ⟨_, List.getElem?_eq_getElem hfd, hu, by simp⟩, ⟨[], by simp⟩, rfl, rfl⟩
  | succ k ih =>
    intro s fd s' hfd hu h
    unfold addWatches at h
    split at h
    · simp at h
    · rename_i w s1 ha
      obtain ⟨a1, a2, ⟨e, a3, a4, a5⟩, a6, a7, a8, _⟩ := addWatch_spec hfd hu ha
      have hfd1 : fd < s1.tab.length := by omega
      have he : s1.tab[fd] = e := by rw [List.getElem?_eq_getElem hfd1] at a3; exact Option.some.inj a3
      obtain ⟨b1, b2, ⟨e', b3, b4, b5⟩, ⟨l, c1, c2, c3, c4, c5⟩, b6, b7⟩ := ih hfd1 (by rw [he]; exact a4) h
      refine ⟨by omega, by omega, ⟨e', b3, b4, ?_⟩, ⟨l ++ [s.next], ?_, ?_, ?_, ?_, ?_⟩, by omega, by rw [b7, a8]⟩
      · rw [b5, he, a5, a7]
        rcases Nat.eq_zero_or_pos k with rfl | hk
        · simp
        · rw [if_neg (by omega), if_neg (by omega)]; omega
      · rw [c1, a6]; simp
      · simp [c2]
      · intro x hx
        rcases List.mem_append.1 hx with hx | hx
        · have := c3 x hx; omega
        · simp at hx; omega
      · rw [List.nodup_append]
        refine ⟨c4, by simp, ?_⟩
        intro a ha b hb
        simp at hb
        have := c3 a ha
        omega
      · intro _
        rcases Nat.eq_zero_or_pos k with rfl | hk
        · simp
        · have := c5 hk
          rw [a7] at this
          rw [show s.next + (k + 1) - 1 = s.next + 1 + k - 1 by omega]
          exact List.mem_append_left _ this

theorem inotifyClose_spec {s : St} {fd : Nat} {e : Entry} (he : s.tab[fd]? = some e) (hu : e.used = true) :
    (inotifyClose s fd).tab.length = s.tab.length ∧ inUse (inotifyClose s fd) + 1 = inUse s ∧
      (inotifyClose s fd).opened = s.opened.filter (· ≠ e.handle) ∧ (inotifyClose s fd).next = s.next ∧
      (inotifyClose s fd).port = s.port := by
  obtain ⟨hfd, hfe⟩ := List.getElem?_eq_some_iff.1 he
  have hv : valid s fd = true := by simp [valid, he, hu]
  unfold inotifyClose
  rw [if_pos hv]
  have hlen : fd < (s.tab.modify fd fun e => { e with dirs := [] }).length := by simpa using hfd
  have hget : (s.tab.modify fd fun e => { e with dirs := [] })[fd] = { e with dirs := [] } := by
    rw [List.getElem_modify]; simp [hfe]
  have h1 := osClose_inUse (s := { s with tab := s.tab.modify fd fun e => { e with dirs := [] } }) (i := fd) hlen
    (by simp only [hget]; simpa [Entry.used] using hu)
  have h2 : inUse { s with tab := s.tab.modify fd fun e => { e with dirs := [] } } = inUse s := by
    simp only [inUse]; exact countP_modify_used _ _ _ (fun _ => rfl)
  have hue : ({ e with dirs := [] } : Entry).used = true := by simpa [Entry.used] using hu
  refine ⟨?_, by rw [h1, h2], ?_, ?_, ?_⟩ <;>
    simp only [osClose, List.getElem?_eq_getElem hlen, hget, hue, if_true]
  simp

theorem cycle_spec {s : St} {k : Nat} {s' : St} (hg : Good s) (h : cycle s k = some s') :
    s'.tab.length = s.tab.length ∧ inUse s' = inUse s + k ∧ s'.port = s.port ∧ s'.next = s.next + k ∧
      (k = 0 → s'.opened = s.opened.filter (· ≠ s.port)) ∧
      (0 < k → ∃ l, s'.opened = l ++ s.opened ∧ l.length = k - 1 ∧ ∀ x ∈ l, s.next ≤ x ∧ x < s.next + k) := by
  unfold cycle at h
  split at h
  · simp at h
  rename_i m s1 hi
  split at h
  · simp at h
  rename_i s2 ha
  cases h
  obtain ⟨hm, hun, rfl, hin⟩ := newFd_spec (by decide) hi
  have hu : ((s.tab.set m { kind := .monitor, handle := s.port })[m]'(by simpa using hm)).used = true := by simp [Entry.used]
  obtain ⟨b1, b2, ⟨e, b3, b4, b5⟩, ⟨l, c1, c2, c3, c4, c5⟩, b6, b7⟩ :=
    addWatches_spec k (s := { s with tab := s.tab.set m { kind := .monitor, handle := s.port }, events := s.events + 1 }) (fd := m)
      (by simpa using hm) hu ha
  obtain ⟨d1, d2, d3, d4, d5⟩ := inotifyClose_spec b3 b4
  simp only at b1 b2 b5 b6 b7 c1 c3 c5
  refine ⟨?_, by omega, by rw [d5, b7], by rw [d4, b6], ?_, ?_⟩
  · rw [d1, b1]; simp
  · rintro rfl
    rw [d3, c1, b5]
    have : l = [] := List.eq_nil_of_length_eq_zero c2
    subst this
    simp
  · intro hk
    rw [if_neg (by omega)] at b5
    refine ⟨l.filter (· ≠ e.handle), ?_, ?_, ?_⟩
    · rw [d3, c1, List.filter_append]
      congr 1
      apply List.filter_eq_self.2
      intro x hx
      have := hg.1 x hx
      simp only [ne_eq, decide_not, Bool.not_eq_true', decide_eq_false_iff_not]
      omega
    · have hmem := c5 hk
      rw [b5]
      have h1 : (l.filter (· ≠ s.next + k - 1)) = l.erase (s.next + k - 1) := by
        rw [List.Nodup.erase_eq_filter c4]; congr 1; funext x; simp [bne, BEq.beq]
      rw [h1, List.length_erase_of_mem hmem, c2]
    · intro x hx
      exact c3 x (List.mem_filter.1 hx).1

theorem cycle_good {s : St} {k : Nat} {s' : St} (hg : Good s) (h : cycle s k = some s') : Good s' := by
  obtain ⟨_, _, hp, hn, h0, h1⟩ := cycle_spec hg h
  refine ⟨?_, by rw [hp, hn]; have := hg.2; omega⟩
  intro x hx
  rcases Nat.eq_zero_or_pos k with rfl | hk
  · rw [h0 rfl] at hx
    have := hg.1 x (List.mem_filter.1 hx).1
    omega
  · obtain ⟨l, hl, _, hb⟩ := h1 hk
    rw [hl] at hx
    rcases List.mem_append.1 hx with hx | hx
    · have := hb x hx; omega
    · have := hg.1 x hx; omega

theorem cycles_spec (k : Nat) : ∀ (n : Nat) {s s' : St}, Good s → cycles k n s = some s' →
    Good s' ∧ s'.tab.length = s.tab.length ∧ inUse s' = inUse s + n * k ∧ (0 < k → s'.opened.length = s.opened.length + n * (k - 1)) := by
  intro n
  induction n with
  | zero => intro s s' hg h; simp only [cycles, Option.some.injEq] at h; subst h; simp [hg]
  | succ n ih =>
    intro s s' hg h
    unfold cycles at h
    split at h
    · simp at h
    · rename_i s1 hc
      obtain ⟨a1, a2, _, _, _, a3⟩ := cycle_spec hg hc
      obtain ⟨b1, b2, b3, b4⟩ := ih (cycle_good hg hc) h
      refine ⟨b1, by omega, by rw [b3, a2, Nat.succ_mul]; omega, ?_⟩
      intro hk
      obtain ⟨l, hl, hll, _⟩ := a3 hk
      rw [b4 hk, hl, List.length_append, hll, Nat.succ_mul]; omega

/-! ## Theorems -/

/-- **C210 is false of the code: watching uses up the table of descriptors.**  Closing a monitor gives back one entry of the table, not
those of the directories: every round of watching `k` directories and stopping takes `k` entries away for ever, so that at most
`size / k` rounds are possible, however long the program waits between them. -/
theorem watching_uses_up_table (k n : Nat) (s s' : St) (hg : Good s) (h : cycles k n s = some s') :
    inUse s' = inUse s + n * k ∧ inUse s + n * k ≤ s.tab.length := by
  obtain ⟨_, h2, h3, _⟩ := cycles_spec k n hg h
  refine ⟨h3, ?_⟩
  rw [← h3, ← h2]
  exact List.countP_le_length

/-- … and of several directories under one monitor all but the last stay open. -/
theorem watching_leaves_handles (k n : Nat) (hk : 0 < k) (s s' : St) (hg : Good s) (h : cycles k n s = some s') :
    s'.opened.length = s.opened.length + n * (k - 1) := (cycles_spec k n hg h).2.2.2 hk

/-- **C210, the part that holds.**  With one directory for a monitor, everything that was opened is closed again, and nothing else. -/
theorem watching_one_closes_partial (s s' : St) (hg : Good s) (h : cycle s 1 = some s') : s'.opened = s.opened := by
  obtain ⟨_, _, _, _, _, h1⟩ := cycle_spec hg h
  obtain ⟨l, hl, hll, _⟩ := h1 (by omega)
  have : l = [] := List.eq_nil_of_length_eq_zero hll
  rw [hl, this]; rfl

example : ∃ s', cycles 2 3 (fresh 16) = some s' ∧ Good (fresh 16) ∧ inUse s' = 6 ∧ s'.opened.length = 4 := by
  refine ⟨_, rfl, ⟨by decide, by decide⟩, by decide, by decide⟩

/-- **C211 is false of the code: closing a monitor that watches nothing closes the completion port**, through which all files, pipes and
children of the program report. -/
theorem idle_close_closes_port (s s' : St) (hg : Good s) (h : cycle s 0 = some s') : s'.port = s.port ∧ s.port ∉ s'.opened := by
  obtain ⟨_, _, hp, _, h0, _⟩ := cycle_spec hg h
  refine ⟨hp, ?_⟩
  rw [h0 rfl]; simp

example : ∃ s', cycle (fresh 4) 0 = some s' ∧ s'.opened = [] ∧ (fresh 4).opened = [3] := ⟨_, rfl, by decide, by decide⟩

/-- **C211, the part that holds.**  With a directory added, closing the monitor closes no handle that was open before it was made. -/
theorem close_keeps_others_partial (k : Nat) (hk : 0 < k) (s s' : St) (hg : Good s) (h : cycle s k = some s') :
    ∀ x ∈ s.opened, x ∈ s'.opened := by
  obtain ⟨_, _, _, _, _, h1⟩ := cycle_spec hg h
  obtain ⟨l, hl, _⟩ := h1 hk
  intro x hx; rw [hl]; simp [hx]

theorem openClose_spec {s s' : St} (hg : Good s) (h : openClose s = some s') :
    s'.events = s.events + 1 ∧ inUse s' = inUse s ∧ s'.opened = s.opened ∧ Good s' := by
  unfold openClose openFile at h
  rw [Option.map_eq_some_iff] at h
  obtain ⟨⟨i, s1⟩, hn, rfl⟩ := h
  obtain ⟨hi, hun, rfl, hin⟩ := newFd_spec (by decide) hn
  simp only at hi hun hin
  have hlen : i < (s.tab.set i { kind := .file, handle := s.next }).length := by simpa using hi
  have hu : ((s.tab.set i { kind := .file, handle := s.next })[i]'hlen).used = true := by simp [Entry.used]
  have hc := osClose_inUse (s := { s with tab := s.tab.set i { kind := .file, handle := s.next }, opened := s.next :: s.opened, next := s.next + 1, events := s.events + 1 }) hlen hu
  have ho : s.opened.filter (fun x => decide (x ≠ s.next)) = s.opened := by
    apply List.filter_eq_self.2
    intro x hx
    have := hg.1 x hx
    simp only [ne_eq, decide_not, Bool.not_eq_true', decide_eq_false_iff_not]; omega
  have hop : (osClose { s with tab := s.tab.set i { kind := .file, handle := s.next }, opened := s.next :: s.opened, next := s.next + 1, events := s.events + 1 } i).opened = s.opened := by
    have hk : ({ kind := .file, handle := s.next } : Entry).used = true := rfl
    simp only [osClose, List.getElem?_eq_getElem hlen, List.getElem_set_self, hk, if_true]
    rw [List.filter_cons_of_neg (by simp)]
    exact ho
  refine ⟨?_, ?_, hop, ?_, ?_⟩
  · simp only [osClose, List.getElem?_eq_getElem hlen, hu, if_true]
  · have : inUse { s with next := s.next + 1, opened := s.next :: s.opened } = inUse s := rfl
    simp only at hin hc ⊢
    omega
  · intro x hx
    rw [hop] at hx
    have := hg.1 x hx
    simp only [osClose, List.getElem?_eq_getElem hlen, hu, if_true]; omega
  · have := hg.2
    simp only [osClose, List.getElem?_eq_getElem hlen, hu, if_true]; omega

/-- **C212 is false of the code: every file opened leaves an event object behind.**  Opening and closing a file `n` times makes `n` event
objects that nobody can close any more.  The part that holds: the entry of the table and the handle of the file are given back. -/
theorem open_close_leaves_event_partial (n : Nat) (s s' : St) (hg : Good s) (h : openCloses n s = some s') :
    s'.events = s.events + n ∧ inUse s' = inUse s ∧ s'.opened = s.opened := by
  induction n generalizing s with
  | zero => simp only [openCloses, Option.some.injEq] at h; subst h; simp
  | succ n ih =>
    unfold openCloses at h
    split at h
    · simp at h
    · rename_i s1 hc
      obtain ⟨a1, a2, a3, a4⟩ := openClose_spec hg hc
      obtain ⟨b1, b2, b3⟩ := ih s1 a4 h
      exact ⟨by omega, by omega, by rw [b3, a3]⟩

/-- … and opening goes on working: with an entry beyond the first free, any number of files can be opened and closed one after the
other. -/
theorem open_close_goes_on (n : Nat) (s : St) (i : Nat) (h1 : 1 ≤ i) (hi : i < s.tab.length) (hf : (s.tab[i]).used = false) :
    ∃ s', openCloses n s = some s' := by
  induction n generalizing s with
  | zero => exact ⟨s, rfl⟩
  | succ n ih =>
    have : ∃ j, pick s.tab s.next = some j := by
      cases hp : pick s.tab s.next with
      | some j => exact ⟨j, rfl⟩
      | none => have := pick_none hp i h1 hi; rw [hf] at this; simp at this
    obtain ⟨j, hj⟩ := this
    obtain ⟨hjl, _⟩ := pick_some hj
    have hk : ({ kind := .file, handle := s.next } : Entry).used = true := rfl
    have ho : openClose s = some { s with
        tab := (s.tab.set j { kind := .file, handle := s.next }).set j { kind := .unused, handle := s.next },
        opened := (s.next :: s.opened).filter (· ≠ s.next), next := s.next + 1, events := s.events + 1 } := by
      have hlen : j < (s.tab.set j { kind := .file, handle := s.next }).length := by simpa using hjl
      simp only [openClose, openFile, newFd, hj, Option.map_some, osClose, List.getElem?_eq_getElem hlen, List.getElem_set_self, hk, if_true]
    unfold openCloses
    rw [ho]
    apply ih
    · simp only [List.set_set]
      rw [List.getElem_set]
      split
      · rfl
      · exact hf
    · simpa using hi

example : ∃ s', openCloses 3 (fresh 2) = some s' ∧ s'.events = 3 ∧ inUse s' = 0 := ⟨_, rfl, by decide, by decide⟩

end Verif.Win.Monitor
