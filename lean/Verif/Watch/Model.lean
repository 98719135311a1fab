import Verif.Mem
import Mathlib.Logic.Function.Basic

/-!
# Watching directories (`src/os_unix.c` 346-360, 392-510, 888-890, 1226-1432, Linux branch)

The descriptor table, the watches the kernel holds for each inotify descriptor and the buffer of change records are
modelled.  Of a table entry the fields used by this code are kept.  The kernel is an oracle: it chooses the numbers of
inotify descriptors and of watches.
-/

namespace Verif.Watch

/-! ## The table -/

/-- An entry of `fdTable`, src/os_unix.c:28-53.  `used`: `type != FD_UNUSED`; `sync`: `type == FD_MONITOR_SYNC` (a watch);
`buf` is an address, 0 being `NULL`; `wds` is the array `inotify_wd` (`none` for `NULL`). -/
structure Slot where
  used : Bool
  sync : Bool
  fd : Int
  owner : Nat
  changes : Bool
  path : Option Bytes
  buf : Nat
  rid : Int
  wds : Option (List Nat)
  deriving DecidableEq

/-- `size`: `ioTableSize`; `kern r w`: the directory the kernel reports on as number `w` of inotify descriptor `r`. -/
structure St where
  size : Nat
  slot : Nat → Slot
  kern : Nat → Nat → Option Bytes

/-- A cleared entry. -/
def Slot.empty : Slot := ⟨false, false, 0, 0, false, none, 0, 0, none⟩

def St.set (s : St) (i : Nat) (x : Slot) : St := { s with slot := Function.update s.slot i x }

/-- The choice of the index by `events_new_fd(type, n, n)`, src/os_unix.c:399-416.  The growth in 396-397 is left out: it
happens only when the loop of descriptor `n` has as many registered descriptors as the table has entries. -/
def pick (s : St) (n : Nat) : Option Nat :=
  if n < s.size ∧ (s.slot n).used = false then some n
  else if 0 < n then (List.range s.size).find? fun i => decide (1 ≤ i) && !(s.slot i).used
  else none

/-- The fields set by `events_new_fd`, src/os_unix.c:418-449; `rid` keeps its value. -/
def fresh (old : Slot) (sync : Bool) (n : Nat) : Slot := ⟨true, sync, n, 0, false, none, 0, old.rid, none⟩

/-- `events_new_fd(type, n, n)`, src/os_unix.c:392-457. -/
def newFd (sync : Bool) (n : Nat) (s : St) : Option Nat × St :=
  match pick s n with
  | some i => (some i, s.set i (fresh (s.slot i) sync n))
  | none => (none, s)

/-- `events_valid_fd`, src/os_unix.c:459-463, for numbers that are not negative. -/
def valid (s : St) (p : Nat) : Bool := decide (p < s.size) && (s.slot p).used && decide ((s.slot p).fd ≠ -1)

/-- `events_get_fd`, src/os_unix.c:484-486. -/
def getFd (s : St) (p : Nat) : Nat := if valid s p then (s.slot p).fd.toNat else p

/-- `events_free_fd`, src/os_unix.c:488-510; `event_fd` is not kept. -/
def freeFd (p : Nat) (s : St) : St :=
  if p < s.size ∧ (s.slot p).used = true then
    s.set p { s.slot p with path := none, wds := if (s.slot p).sync then (s.slot p).wds else none }
  else s

/-- `fdTable[p].type = FD_UNUSED; fdTable[p].fd = TASK_ERRED;`, src/os_unix.c:355-356, 1340-1341, 1426-1427. -/
def clear (p : Nat) (s : St) : St := s.set p { s.slot p with used := false, sync := false, fd := -1 }

/-- `os_close`, src/os_unix.c:347-360.  Closing an inotify descriptor ends all its watches in the kernel. -/
def osClose (p : Nat) (s : St) : St :=
  let c := valid s p
  let s := if c then freeFd p s else s
  let s := { s with kern := Function.update s.kern (getFd s p) fun _ => none }
  if c then clear p s else s

/-! ## Monitors and watches -/

/-- `__inotify_init`, `__inotify_init1`, src/os_unix.c:1306-1322; `r` is the descriptor the kernel gives. -/
def initMon (r : Nat) (s : St) : Option Nat × St := newFd false r s

/-- `$append_signed(fdTable[fd].inotify_wd, pseudo)` with the array made if there is none, src/os_unix.c:1398-1401. -/
def addWd (p i : Nat) (s : St) : St := s.set p { s.slot p with wds := some ((s.slot p).wds.getD [] ++ [i]) }

/-- One directory, src/os_unix.c:1390-1404 (`root`) and 1365-1372 (found below it): `w` is the number the kernel gives to
the watch.  Index -1 (no free entry) is used as an index of the table: undefined. -/
def addDir (p : Nat) (root : Bool) (w : Nat) (path : Bytes) (s : St) : Res St :=
  let s := { s with kern := Function.update s.kern (getFd s p) (Function.update (s.kern (getFd s p)) w (some path)) }
  match newFd true w s with
  | (none, _) => .ub
  | (some i, s) =>
    let s := addWd p i s
    .ok (s.set i { s.slot i with owner := p, changes := root, path := some path })

/-- The directories `inotify_recursive` finds, in its order, src/os_unix.c:1351-1379. -/
def addSubs (p : Nat) : List (Nat × Bytes) → St → Res St
  | [], s => .ok s
  | (w, path) :: l, s => do addSubs p l (← addDir p false w path s)

/-- `__inotify_add_watch` while the event system is active, src/os_unix.c:1388-1409, and the directories below. -/
def addWatch (p w : Nat) (path : Bytes) (subs : List (Nat × Bytes)) (s : St) : Res St := do
  addSubs p subs (← addDir p true w path s)

/-- The `foreach` with `$remove` in `inotify_close`, src/os_unix.c:1338-1343: the index moves on although the rest of the
array has moved down. -/
def closeLoop (p : Nat) : Nat → Nat → St → St
  | 0, _, s => s
  | k + 1, i, s =>
    match ((s.slot p).wds.getD [])[i]? with
    | none => s
    | some w =>
      let s := clear w (freeFd w s)
      let s := s.set p { s.slot p with wds := (s.slot p).wds.map (·.eraseIdx i) }
      closeLoop p k (i + 1) s

/-- `inotify_close`, src/os_unix.c:1336-1350 (also `events_del_watch`, src/events.c:464-469). -/
def closeMon (p : Nat) (s : St) : St :=
  if valid s p then osClose p (closeLoop p (((s.slot p).wds.getD []).length + 1) 0 s) else s

/-- `__inotify_rm_watch` with a watch number that is not negative, event system active, src/os_unix.c:1411-1432. -/
def rmWatch (p wd : Nat) (s : St) : St :=
  let realFd := getFd s p
  let realWd := getFd s wd
  let s := if valid s wd then s.set p { s.slot p with wds := (s.slot p).wds.map (·.erase wd) } else s
  let s := if valid s wd then clear wd (freeFd wd s) else s
  { s with kern := Function.update s.kern realFd (Function.update (s.kern realFd) realWd none) }

/-- The part of `os_read` that stores the buffer, src/os_unix.c:335-339 (the descriptor is no child process); `n` is what
`read` returned. -/
def osRead (p buf : Nat) (n : Int) (s : St) : St :=
  if valid s p then s.set p { s.slot p with buf := buf, rid := n } else s

/-! ## Change records -/

/-- A 32-bit field at offset `i` (little endian). -/
def rd32 (b : Bytes) (i : Nat) : Res (BitVec 32) := do
  let a0 ← rd b i
  let a1 ← rd b (i + 1)
  let a2 ← rd b (i + 2)
  let a3 ← rd b (i + 3)
  .ok (BitVec.ofNat 32 (a0.toNat + 256 * a1.toNat + 65536 * a2.toNat + 16777216 * a3.toNat))

/-- `WATCH_ADDED`, `WATCH_MODIFIED`, `WATCH_REMOVED`, `WATCH_MOVED`, include/async_io.h:132-138. -/
def WATCH_ADDED : BitVec 32 := 0x10000#32
def WATCH_MODIFIED : BitVec 32 := 0x4000#32
def WATCH_REMOVED : BitVec 32 := 0x400000#32
def WATCH_MOVED : BitVec 32 := 0x400#32

/-- The choice of the action in `inotify_handler`, src/os_unix.c:1286-1293, with the `IN_*` values of Linux
(`IN_CREATE` 0x100, `IN_MOVED_TO` 0x80, `IN_DELETE` 0x200, `IN_DELETE_SELF` 0x400, `IN_MOVED_FROM` 0x40, `IN_MOVE_SELF` 0x800,
`IN_MODIFY` 2, `IN_ATTRIB` 4); 0 is `WATCH_INVALID`. -/
def action (mask : BitVec 32) : BitVec 32 :=
  if mask &&& 0x180#32 ≠ 0#32 then WATCH_ADDED
  else if mask &&& 0x640#32 ≠ 0#32 then WATCH_REMOVED
  else if mask &&& 0x800#32 ≠ 0#32 then WATCH_MOVED
  else if mask &&& 0x6#32 ≠ 0#32 then WATCH_MODIFIED
  else 0#32

/-- A call of the handler: watch number, flags, path. -/
structure Call where
  wd : Nat
  events : BitVec 32
  path : Bytes
  deriving DecidableEq

/-- `snprintf(subpath, PATH_MAX, …)`: at most 4095 bytes and the terminator. -/
def PATH_MAX : Nat := 4096

/-- The path argument, src/os_unix.c:1295-1299.  `fdTable[wd]` outside the table and `%s` of `NULL` are undefined. -/
def pathArg (s : St) (wd : BitVec 32) (name : Bytes) : Res Bytes :=
  if wd.toNat < s.size ∧ wd.toNat < 2 ^ 31 then
    if (s.slot wd.toNat).changes then .ok name
    else match (s.slot wd.toNat).path with
      | some d => .ok ((d ++ 0x2f :: name).take (PATH_MAX - 1))
      | none => .ub
  else .ub

/-- The loop of `inotify_handler`, src/os_unix.c:1276-1303, over the first `len` bytes of `b`.  The handler itself is not
modelled: its calls are listed.  `len` rounds are enough. -/
def handlerLoop (s : St) (b : Bytes) (len : Nat) : Nat → Nat → Res (List Call)
  | 0, _ => .ub
  | k + 1, p =>
    if p < len then do
      let wd ← rd32 b p
      let mask ← rd32 b (p + 4)
      let n ← rd32 b (p + 12)
      let c ← (if n ≠ 0#32 ∧ action mask ≠ 0#32 then do
          let name ← strAt b (p + 16)
          let path ← pathArg s wd name
          .ok [⟨wd.toNat, action mask ||| ~~~(WATCH_MODIFIED ||| WATCH_REMOVED ||| WATCH_ADDED ||| WATCH_MOVED), path⟩]
        else .ok [])
      let rest ← handlerLoop s b len k (p + 16 + n.toNat)
      .ok (c ++ rest)
    else .ok []

/-- `inotify_handler`, called from `inotify_task`, src/os_unix.c:1268-1274. -/
def handler (s : St) (b : Bytes) (len : Nat) : Res (List Call) := handlerLoop s b len (len + 1) 0

/-- `inotify_next`, src/os_unix.c:1250-1262; `ev` is the address of a record, `len` its field.  The pointer is a pointer to
records of 16 bytes, so adding `sizeof(inotify_t) + len` to it moves 16 times as far. -/
def next (s : St) (ev : Nat) (len : Nat) : Option Nat :=
  match (List.range s.size).find? fun i => (s.slot i).used && (s.slot i).sync && decide ((s.slot i).buf = ev) with
  | none => none
  | some i =>
    let ev' := ev + 16 * (16 + len)
    if (ev' : Int) < (s.slot i).buf + (s.slot i).rid then some ev' else none

/-! ## Histories -/

inductive Op where
  | init (r : Nat)
  | add (p : Nat) (root : Bool) (w : Nat) (path : Bytes)
  | rm (p wd : Nat)
  | close (p : Nat)
  | read (p buf : Nat) (n : Int)

def step (s : St) : Op → Res St
  | .init r => .ok (initMon r s).2
  | .add p root w path => addDir p root w path s
  | .rm p wd => .ok (rmWatch p wd s)
  | .close p => .ok (closeMon p s)
  | .read p buf n => .ok (osRead p buf n s)

def run (s : St) (os : List Op) : Res St := os.foldlM step s

/-- The table after `os_init`, src/os_unix.c:76-108. -/
def start : St := ⟨256, fun _ => Slot.empty, fun _ _ => none⟩

end Verif.Watch
