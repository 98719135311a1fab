import Verif.Basic

/-!
# Model of the descriptor table for Windows

`src/os_windows.c`: `os_read`, `os_write` and `os_close` get a number that may be a socket, a descriptor of the C
library or an index into the table of pseudo descriptors, and decide which.
-/

namespace Verif.Win

/-- `FILE_TYPE` other than `FD_UNUSED`, include/events.h:176-187. -/
inductive Kind
  | fileSync | fileAsync | sockSync | sockAsync | pipeSync | pipeAsync | process | monAsync | monSync
  deriving Repr, DecidableEq

/-- An entry in use of the table, `struct FD_TABLE`, src/os_windows.c:62-80: `fid`, and whether `path` and `buffer`
are set. -/
structure Entry where
  kind : Kind
  handle : Nat
  path : Bool := false
  buffer : Bool := false
  deriving Repr, DecidableEq

/-- `fdTable` with `ioTableSize` entries, src/os_windows.c:33 and 82; `none` is `FD_UNUSED`. -/
abbrev Tab := List (Option Entry)

/-- `events_valid_fd(pseudo)`, src/os_windows.c:154-156. -/
def valid (t : Tab) (fd : Int) : Bool :=
  if 0 ≤ fd then (t.getD fd.toNat none).isSome else false

/-- `fdTable[fd]` without a check. -/
def slot (t : Tab) (fd : Int) : Res (Option Entry) :=
  if 0 ≤ fd then Res.ofOption t[fd.toNat]? else .ub

/-- The search of `events_new_fd`, src/os_windows.c:189-206: index of the entry used.  Simplified: the table is not
enlarged (the loop at 181-182 is the one of C53). -/
def pickSlot (t : Tab) (fd desired : Int) : Option Nat :=
  if 0 ≤ desired ∧ desired < t.length ∧ (t.getD desired.toNat none).isNone then some desired.toNat
  else if 0 < fd then
    if fd < t.length ∧ (t.getD fd.toNat none).isNone then some fd.toNat
    else ((List.range t.length).drop 1).find? (fun i => (t.getD i none).isNone)
  else none

/-- `events_new_fd(type, fd, desiredFd)`, src/os_windows.c:176-242. -/
def newFd (t : Tab) (kind : Kind) (fd desired : Int) : Option Nat × Tab :=
  match pickSlot t fd desired with
  | none => (none, t)
  | some i => (some i, t.set i (some { kind, handle := fd.toNat }))

/-- Where the bytes of a read or write go. -/
inductive Dest
  /-- `recv`/`send` on the socket of that number -/
  | socket (fd : Int)
  /-- `_read`/`_write` of the C library on the descriptor of that number -/
  | clib (fd : Int)
  /-- `ReadFile`/`WriteFile` on the handle of the entry -/
  | handle (h : Nat)
  /-- `ReadDirectoryChangesW` -/
  | changes
  /-- `assert(0)` -/
  | abort
  deriving Repr, DecidableEq

/-- `os_read(fd, buf, len)`, src/os_windows.c:347-396.  `loops` is `sys_event.num_loops`, `sock` is `is_socket`. -/
def osRead (t : Tab) (loops : Nat) (sock : Int → Bool) (fd : Int) : Res Dest := do
  let other ← (if loops = 0 then .ok true
    else do
      let e ← slot t fd
      .ok (e.isNone || sock fd) : Res Bool)
  if other ∧ sock fd then .ok (.socket fd)
  else if other ∧ valid t fd = false then .ok (.clib fd)
  else do
    let e ← slot t fd
    match e with
    | none => .ok .abort
    | some e =>
      match e.kind with
      | .monAsync => .ok .changes
      | .fileSync | .fileAsync | .pipeSync | .pipeAsync => .ok (.handle e.handle)
      | _ => .ok .abort

/-- `os_write(fd, buf, len)`, src/os_windows.c:398-426. -/
def osWrite (t : Tab) (loops : Nat) (sock : Int → Bool) (fd : Int) : Res Dest := do
  let other ← (if loops = 0 then .ok true
    else do
      let e ← slot t fd
      .ok (e.isNone || sock fd) : Res Bool)
  if other ∧ sock fd then .ok (.socket fd)
  else if other then .ok (.clib fd)
  else do
    let e ← slot t fd
    match e with
    | none => .ok .abort
    | some e =>
      match e.kind with
      | .fileSync | .fileAsync | .pipeSync | .pipeAsync => .ok (.handle e.handle)
      | _ => .ok .abort

/-- What `os_close` closes. -/
inductive Closed
  | nothing
  | socket (fd : Int)
  | clib (fd : Int)
  | handle (h : Nat)
  deriving Repr, DecidableEq

/-- `events_free_fd(pseudo)`, src/os_windows.c:245-279: the table afterwards, `none` if one of the two `assert` for
the memory of the entry fails (or the first one, for the index). -/
def freeFd (t : Tab) (fd : Int) : Option Tab :=
  if 0 ≤ fd ∧ fd < t.length then
    match t.getD fd.toNat none with
    | none => some t
    | some e =>
      let (path, buffer) := match e.kind with
        | .fileSync | .fileAsync | .pipeAsync | .monSync => (false, e.buffer)
        | .pipeSync | .monAsync | .process => (e.path, false)
        | _ => (e.path, e.buffer)
      if path || buffer then none else some (t.set fd.toNat none)
  else none

/-- `os_close(fd)`, src/os_windows.c:428-470: the result, what was closed, the table; `none` for a failing `assert`.
`flush` is false if `FlushFileBuffers` or `DisconnectNamedPipe` fails. -/
def osClose (t : Tab) (loops : Nat) (sock : Int → Bool) (flush : Bool) (fd : Int) : Option (Int × Closed × Tab) :=
  if fd = -1 then some (0, .nothing, t)
  else
    let other := loops = 0 ∨ valid t fd = false
    if other ∧ sock fd then some (0, .socket fd, t)
    else if other ∧ valid t fd = false then some (0, .clib fd, t)
    else
      match t.getD fd.toNat none with
      | none => none
      | some e =>
        let act : Option (Int × Closed) := match e.kind with
          | .pipeAsync => if flush then some (0, .handle e.handle) else none
          | .pipeSync | .fileSync | .fileAsync | .process | .monAsync | .monSync => some (0, .handle e.handle)
          | .sockSync | .sockAsync => some (-1, .nothing)
        match act with
        | none => some (-1, .nothing, t)
        | some (r, c) => (freeFd t fd).map (fun t' => (r, c, t'))

end Verif.Win
