import Verif.Watch.CloseProps

/-!
# Monitoring tasks: `fs_events`, `fs_events_cancel` (`src/events.c` 460-536), C77
-/

namespace Verif.Watch.Tasks

/-- A task made by `fsevents_init`: not yet run, in its loop (descriptor, `none` being -1), or ended. -/
inductive Task where
  | begun (path : Bytes)
  | looping (fd : Option Nat)
  | done

/-- One event loop: `loopFd` is `inotify_fd` (`none`: `DATA_INVALID`), `list` is `events_fsevents_tasks`. -/
structure M where
  st : St
  loopFd : Option Nat
  tasks : Nat → Option Task
  canceled : Nat → Bool
  list : List Nat

/-- The answers of the kernel to `inotify_init1` and `inotify_add_watch` and the directories it has below (`none`: failure). -/
structure Kernel where
  initFd : Option Nat
  wd : Option Nat
  subs : List (Nat × Bytes)

/-- `events_watch`, src/events.c:521-536; the registration with the loop (`events_add`, C76) succeeds.  The result is the
descriptor or `none` for -1. -/
def watch (k : Kernel) (path : Bytes) (m : M) : Res (Option Nat × M) :=
  let m : M := match m.loopFd with
    | some _ => m
    | none => match k.initFd with
      | none => m
      | some r => { m with loopFd := (initMon r m.st).1, st := (initMon r m.st).2 }
  match m.loopFd, k.wd with
  | some p, some w => do
    let st ← addWatch p w path k.subs m.st
    .ok (some p, { m with st := st })
  | _, _ => .ok (none, m)

/-- `events_is_watching`, `events_watch_count`, src/events.c:471-473, src/os_unix.c:892-894; descriptor -1 reads before the
table. -/
def isWatching (fd : Option Nat) (m : M) : Res Bool :=
  match fd with
  | none => .ub
  | some p => if p < m.st.size then .ok (decide (0 < ((m.st.slot p).wds.getD []).length)) else .ub

/-- `events_del_watch`, src/events.c:464-469. -/
def delWatch (m : M) : M :=
  match m.loopFd with
  | none => m
  | some p => { m with loopFd := none, st := closeMon p m.st }

/-- The loop condition of `fsevents_task` and what follows, src/events.c:477-483: stays in the loop or ends. -/
def check (rid : Nat) (fd : Option Nat) (m : M) : Res M := do
  if (← isWatching fd m) && !m.canceled rid then .ok { m with tasks := Function.update m.tasks rid (some (.looping fd)) }
  else
    let m := delWatch m
    .ok { m with tasks := Function.update m.tasks rid (some .done) }

/-- One turn of a task, src/events.c:474-484: up to the next `yield`. -/
def turn (rid : Nat) (k : Kernel) (m : M) : Res M :=
  match m.tasks rid with
  | some (.begun path) => do
    let (fd, m) ← watch k path m
    check rid fd m
  | some (.looping fd) => check rid fd m
  | _ => .ok m

/-- `fsevents_init`, src/events.c:486-500. -/
def start (rid : Nat) (path : Bytes) (m : M) : M :=
  { m with tasks := Function.update m.tasks rid (some (.begun path)), list := m.list ++ [rid] }

/-- `fsevents_stop`, src/events.c:502-519. -/
def stop (rid : Nat) (m : M) : Int × M :=
  if rid ∈ m.list then (0, { m with list := m.list.erase rid, canceled := Function.update m.canceled rid true })
  else (-1, m)

/-- No monitors. -/
def init : M := ⟨Watch.start, none, fun _ => none, fun _ => false, []⟩

/-! ## Helpers -/

theorem closeMon_clears (p : Nat) (l : List Nat) (s : St) (hv : valid s p = true) (hl : (s.slot p).wds = some l)
    (hnd : l.Nodup) (hp : p ∉ l) (hs : (s.slot p).sync = false) :
    (closeMon p s).kern (getFd s p) = (fun _ => none) ∧ (∀ r, r ≠ getFd s p → (closeMon p s).kern r = s.kern r) ∧
    ((closeMon p s).slot p).wds = none ∧ (closeMon p s).size = s.size := by
  obtain ⟨g1, g2, g3, g4, g5, _, _, _⟩ := closeLoop_spec p l.length l [] s (l.length + 1) (le_refl _) (by omega) hl hnd hp
  have e : closeMon p s = osClose p (closeLoop p (l.length + 1) 0 s) := by
    rw [closeMon, if_pos hv, hl]
    rfl
  simp only [List.length_nil] at g1 g2 g3 g4 g5
  generalize closeLoop p (l.length + 1) 0 s = t at *
  obtain ⟨h1, h2, h3⟩ := valid_iff.1 hv
  have hvt : valid t p = true := by
    rw [valid_iff, g1, g3, g4]
    exact ⟨h1, h2, h3⟩
  have hg : getFd t p = getFd s p := by rw [getFd_valid hvt, getFd_valid hv, g4]
  obtain ⟨o1, o2, o3, _, o5, _⟩ := osClose_valid hvt
  rw [hg] at o2 o3
  rw [e]
  exact ⟨o2, fun r hr => by rw [o3 r hr, g2], o5 (by rw [g5]; exact hs), by rw [o1, g1]⟩

/-! ## C77 -/

/-- The state of a loop with monitoring tasks: the loop's monitor is `p`. -/
structure Watching (m : M) (p : Nat) (l : List Nat) : Prop where
  fd : m.loopFd = some p
  valid : valid m.st p = true
  wds : (m.st.slot p).wds = some l
  nodup : l.Nodup
  notin : p ∉ l
  mon : (m.st.slot p).sync = false

theorem cancel_turn (m : M) (p a : Nat) (l : List Nat) (h : Watching m p l) (ha : m.tasks a = some (.looping (some p)))
    (hc : m.canceled a = true) (k : Kernel) :
    turn a k m = .ok { m with loopFd := none, st := closeMon p m.st, tasks := Function.update m.tasks a (some .done) } := by
  have hsz := (valid_iff.1 h.valid).1
  simp only [turn, ha, check, isWatching, if_pos hsz, Res.ok_bind, hc, Bool.not_true, Bool.and_false, delWatch, h.fd]
  rfl

/-- Cancelling a monitor ends it at its next turn: the kernel no longer watches anything for it, the monitors of other loops
(other inotify descriptors) are not touched, and cancelling it again is refused. -/
theorem cancel_ends_partial (m : M) (p a : Nat) (l : List Nat) (h : Watching m p l) (ha : m.tasks a = some (.looping (some p)))
    (hin : a ∈ m.list) (hn : m.list.Nodup) (k : Kernel) :
    ∃ m', (stop a m).1 = 0 ∧ turn a k (stop a m).2 = .ok m' ∧ m'.tasks a = some .done ∧
      (∀ w, m'.st.kern (getFd m.st p) w = none) ∧ (∀ r, r ≠ getFd m.st p → m'.st.kern r = m.st.kern r) ∧
      stop a m' = (-1, m') := by
  have hst : stop a m = (0, { m with list := m.list.erase a, canceled := Function.update m.canceled a true }) := by
    rw [stop, if_pos hin]
  have hw : Watching (stop a m).2 p l := by
    rw [hst]
    exact ⟨h.fd, h.valid, h.wds, h.nodup, h.notin, h.mon⟩
  have ht := cancel_turn (stop a m).2 p a l hw (by rw [hst]; exact ha) (by rw [hst]; simp) k
  obtain ⟨c1, c2, _, _⟩ := closeMon_clears p l m.st h.valid h.wds h.nodup h.notin h.mon
  rw [hst] at ht ⊢
  dsimp only at ht ⊢
  refine ⟨_, rfl, ht, by simp, fun w => congrFun c1 w, c2, ?_⟩
  rw [stop, if_neg hn.not_mem_erase]

/-- Cancelling one monitor ends every monitor of the same loop: when task `a` is cancelled and has had its turn, the kernel
watches nothing any more, and task `b`, which nobody cancelled, ends at its next turn. -/
theorem cancel_ends_all (m : M) (p a b : Nat) (l : List Nat) (h : Watching m p l) (hab : b ≠ a)
    (ha : m.tasks a = some (.looping (some p))) (hb : m.tasks b = some (.looping (some p))) (hin : a ∈ m.list)
    (hc : m.canceled b = false) (k k' : Kernel) :
    ∃ m1 m2, turn a k (stop a m).2 = .ok m1 ∧ (∀ w, m1.st.kern (getFd m.st p) w = none) ∧ turn b k' m1 = .ok m2 ∧
      m2.tasks b = some .done ∧ m2.canceled b = false := by
  have hst : stop a m = (0, { m with list := m.list.erase a, canceled := Function.update m.canceled a true }) := by
    rw [stop, if_pos hin]
  have hw : Watching (stop a m).2 p l := by
    rw [hst]
    exact ⟨h.fd, h.valid, h.wds, h.nodup, h.notin, h.mon⟩
  have ht := cancel_turn (stop a m).2 p a l hw (by rw [hst]; exact ha) (by rw [hst]; simp) k
  obtain ⟨c1, _, c3, c4⟩ := closeMon_clears p l m.st h.valid h.wds h.nodup h.notin h.mon
  rw [hst] at ht ⊢
  dsimp only at ht ⊢
  have hsz := (valid_iff.1 h.valid).1
  refine ⟨_, M.mk (closeMon p m.st) none (Function.update (Function.update m.tasks a (some .done)) b (some .done))
    (Function.update m.canceled a true) (m.list.erase a), ht, fun w => congrFun c1 w, ?_, ?_, ?_⟩
  · simp only [turn, Function.update_of_ne hab, hb, check, isWatching, c4, hsz, if_true, c3, Res.ok_bind]
    simp [delWatch]
  · simp
  · simp [hab, hc]

/-- The removal of the watched directory (the kernel drops its watches, whichever they are) does not end the monitor: it goes
on turn after turn until it is cancelled. -/
theorem directory_removal_keeps_running (m : M) (p a : Nat) (l : List Nat) (h : Watching m p l) (hl : l ≠ [])
    (ha : m.tasks a = some (.looping (some p))) (hc : m.canceled a = false) (left : Nat → Nat → Option Bytes) (k : Kernel) :
    ∃ m', turn a k { m with st := { m.st with kern := left } } = .ok m' ∧ m'.tasks a = some (.looping (some p)) ∧
      m'.st.kern = left := by
  have hsz := (valid_iff.1 h.valid).1
  have hlen : 0 < l.length := List.length_pos_iff.2 hl
  refine ⟨{ m with st := { m.st with kern := left }, tasks := Function.update m.tasks a (some (.looping (some p))) }, ?_, by simp, rfl⟩
  simp only [turn, ha, check, isWatching, hsz, if_true, h.wds, Res.ok_bind, hc]
  simp [hlen]

/-- A monitor whose directory cannot be watched (it does not exist, or is a file) reads before the table. -/
theorem failed_watch_ub (m : M) (a : Nat) (path : Bytes) (k : Kernel) (ha : m.tasks a = some (.begun path)) (hk : k.wd = none) :
    turn a k m = .ub := by
  have hw : ∃ m', watch k path m = .ok (none, m') := by
    simp only [watch, hk]
    split
    · rename_i h; cases h
    · exact ⟨_, rfl⟩
  obtain ⟨m', hw⟩ := hw
  simp only [turn, ha, hw, Res.ok_bind, check, isWatching, Res.ub_bind]

/-! ## Cases -/

/-- Two monitors on one loop: "d" (task 1) and "e" (task 2). -/
def two : Res M := do
  let m ← turn 1 ⟨some 5, some 1, []⟩ (start 2 [0x65] (start 1 [0x64] init))
  turn 2 ⟨none, some 2, []⟩ m

example : ∃ m, two = .ok m ∧ Watching m 5 [1, 2] ∧ m.st.kern 5 1 = some [0x64] ∧ m.st.kern 5 2 = some [0x65] ∧
    m.tasks 1 = some (.looping (some 5)) ∧ m.tasks 2 = some (.looping (some 5)) ∧ m.list = [1, 2] ∧ m.canceled 2 = false :=
  ⟨_, rfl, ⟨rfl, by decide, rfl, by decide, by decide, rfl⟩, rfl, rfl, rfl, rfl, rfl, rfl⟩

example : (start 1 [0x64] init).tasks 1 = some (.begun [0x64]) := rfl

end Verif.Watch.Tasks
