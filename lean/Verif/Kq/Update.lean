import Verif.Basic

/-!
# Model of directory changes on BSD and macOS

`inotify_update`, `inotify_handler` and `inotify_task` of src/os_unix.c, with a running loop.  The kernel says only that
a directory has changed; the code compares the files it knows with what `readdir` lists.
-/

namespace Verif.Kq.Update

/-- Size and times of a file: what `stat` answers and what is compared (src/os_unix.c:211). -/
abbrev Meta := Nat × Nat × Nat

/-- A `dirent_entry`: a known file.  Names are numbers. -/
structure Known where
  name : Nat
  info : Meta
  deriving Repr, DecidableEq

/-- The types of directory entries that matter, src/os_unix.c:202-204. -/
inductive EType
  | reg | other
  deriving Repr, DecidableEq

/-- What `readdir` gives. -/
structure Entry where
  sort : EType
  name : Nat
  deriving Repr, DecidableEq

/-- A `const char *` that is reported: the name of a known file, the name inside of a directory entry (whose memory is
gone with `closedir`), a path in memory of its own. -/
inductive Ptr
  | known (name : Nat)
  | dirent (name : Nat)
  | own (name : Nat)
  deriving Repr, DecidableEq

/-- The fields used of the table entry of the directory: `inUse` (zero or not), `path`, `process->workdir`. -/
structure Slot where
  inUse : Bool := false
  path : Option Ptr := none
  workdir : Option Ptr := none
  deriving Repr, DecidableEq

/-- The loop over the directory, src/os_unix.c:201-256, with the descriptor of the directory not zero and a running
loop.  `max` is `index_max`.  Simplified: the list of files grows in place (C01 has the other case), and memory for a new
entry can be had. -/
def walk (stat : Nat → Option Meta) (max : Nat) : List Entry → Nat → List Known → Slot → List Known × Slot
  | [], _, fs, s => (fs, s)
  | e :: es, index, fs, s =>
    if e.sort ≠ .reg then walk stat max es index fs s
    else if max ≤ index then (fs, s)
    else
      match fs[index]? with
      | none => (fs, s)
      | some f =>
        if f.name = e.name then
          match stat f.name with
          | none => walk stat max es (index + 1) fs s
          | some m =>
            if m = f.info then walk stat max es (index + 1) fs s
            else (fs.set index { f with info := m }, { s with inUse := false, workdir := some (.known f.name) })
        else
          let s := { s with inUse := false, workdir := some (.dirent e.name) }
          match stat f.name with
          | none => (fs.eraseIdx index, { s with inUse := true, path := some (.own f.name) })
          | some _ =>
            if (fs.drop index).all (fun g => g.name != e.name) then
              match stat e.name with
              | none => walk stat max es (index + 1) fs s
              | some m => (fs ++ [{ name := e.name, info := m }], s)
            else walk stat max es (index + 1) fs s

/-- Position of the first known file that `stat` does not find, src/os_unix.c:266-268. -/
def firstGone (stat : Nat → Option Meta) (fs : List Known) : Option Nat :=
  fs.findIdx? (fun f => (stat f.name).isNone)

/-- What `inotify_update` leaves: the known files, the table entry, `event->udata`, `file_count` and `offset`. -/
structure Found where
  files : List Known
  slot : Slot
  udata : Option Ptr
  count : Nat
  offset : Nat
  deriving Repr, DecidableEq

/-- `inotify_update`, src/os_unix.c:183-284, when the directory can be read. -/
def update (stat : Nat → Option Meta) (listing : List Entry) (fs : List Known) (s : Slot) : Found :=
  let (fs', s') := walk stat fs.length listing 0 fs s
  if s'.inUse then
    { files := fs', slot := s', udata := s'.path, count := fs.length, offset := fs'.length }
  else
    match s'.workdir with
    | some p => { files := fs', slot := { s' with workdir := none }, udata := some p, count := fs.length,
                  offset := fs'.length }
    | none =>
      match firstGone stat fs' with
      | none => { files := fs', slot := s', udata := none, count := fs.length, offset := fs'.length }
      | some i =>
        let p := (fs'[i]?).map fun f => Ptr.own f.name
        { files := fs'.eraseIdx i, slot := { s' with inUse := true, path := p }, udata := p, count := fs.length,
          offset := (fs'.eraseIdx i).length }

/-- `fflags` of the event: what the kernel noticed. -/
structure Flags where
  write : Bool := false
  delete : Bool := false
  rename : Bool := false
  attrib : Bool := false
  extend : Bool := false
  link : Bool := false
  revoke : Bool := false
  deriving Repr, DecidableEq

inductive Action
  | added | removed | moved | modified
  deriving Repr, DecidableEq

/-- The kind of change, src/os_unix.c:933-942.  The last test is `fflags & NOTE_ATTRIB | NOTE_EXTEND | NOTE_REVOKE`
(`IN_MODIFY` has no parentheses, include/os_unix.h:25), which is never zero. -/
def action (fl : Flags) (count offset : Nat) : Action :=
  if fl.write ∧ count < offset then .added
  else if fl.delete ∨ offset < count then .removed
  else if fl.rename then .moved
  else .modified

/-- The string at a pointer after `closedir`: that of a directory entry is gone, NULL is none. -/
def readPtr : Option Ptr → Res Nat
  | some (.known n) => .ok n
  | some (.own n) => .ok n
  | some (.dirent _) => .ub
  | none => .ub

/-- `inotify_task` for one event, src/os_unix.c:293-309: the update, `inotify_handler` (928-953; the path is read there)
and the freeing of `path`.  The result is the call of the user's function: kind and file; the known files and the table
entry after it. -/
def event (stat : Nat → Option Meta) (listing : List Entry) (fl : Flags) (fs : List Known) (s : Slot) :
    Res (Action × Nat) × List Known × Slot :=
  let u := update stat listing fs s
  ((readPtr u.udata).bind fun n => .ok (action fl u.count u.offset, n), u.files, { u.slot with path := none })

end Verif.Kq.Update
