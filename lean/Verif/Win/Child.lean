import Verif.Mem

/-!
# Model of watched directories and of the output of child processes for Windows

`src/os_windows.c` and `src/async_io.c`.
-/

namespace Verif.Win

/-! ### Records of changes in a directory -/

/-- A record of `ReadDirectoryChangesW` (`FILE_NOTIFY_INFORMATION`): what happened to which file, and the number of
bytes it takes up in the buffer. -/
structure Change where
  action : Nat
  name : Bytes
  size : Nat
  deriving Repr, DecidableEq

/-- `sizeof(FILE_NOTIFY_INFORMATION)`: three `DWORD`, one `WCHAR`, padding. -/
def changeSize : Nat := 16

/-- `NextEntryOffset` of the first of some records (contract of `ReadDirectoryChangesW`): the number of bytes from its
start to the start of the next one, 0 for the last. -/
def nextEntryOffset : List Change → Nat
  | [] => 0
  | [_] => 0
  | c :: _ :: _ => c.size

/-- `inotify_next(event)`, src/os_windows.c:1571-1576, for the record at the offset `p` of the buffer with the given
`NextEntryOffset`: the offset of the result, `none` for NULL.  The sum is one of pointers to records. -/
def inotifyNext (p nextEntry : Nat) : Option Nat :=
  if nextEntry ≠ 0 then some (p + nextEntry * changeSize) else none

/-- `os_iodispatch` for one completion of a watched directory (src/os_windows.c:530-533), `inotify_task` (472-489) and
`inotify_handler` (1578-1620): the changes for which the user's function is called.  Simplified: all four actions
Windows reports are known (`if (action)` is true). -/
def handled (batch : List Change) : List Change :=
  match batch with
  | [] => []
  | c :: _ => [c]

/-! ### Output of a child process -/

/-- What the thread that reads and the loop share: the buffer, the completions posted and not yet fetched (the numbers
of bytes), and the calls of the user's function so far (with the bytes it sees). -/
structure Pump where
  buf : Bytes := []
  posted : List Nat := []
  calls : List Bytes := []
  deriving Repr, DecidableEq

inductive PumpOp
  /-- one round of `spawn_io_thread`: the child has written these bytes -/
  | read (chunk : Bytes)
  /-- the loop fetches a completion -/
  | dispatch
  deriving Repr, DecidableEq

/-- One round of `spawn_io_thread`, src/os_windows.c:844-856 (`pOv->buf` is one buffer, 758-761), or one completion of
the process in `os_iodispatch`, src/os_windows.c:526-529, which calls `spawn_io`, src/async_io.c:744-756: it passes the
number of bytes of the completion and the buffer.  Simplified: a chunk is not empty (empty ones are skipped, 848-849)
and the buffer is large enough. -/
def pumpStep (s : Pump) : PumpOp → Pump
  | .read chunk => { s with buf := chunk ++ 0 :: s.buf.drop (chunk.length + 1), posted := s.posted ++ [chunk.length] }
  | .dispatch =>
    match s.posted with
    | [] => s
    | n :: rest => { s with posted := rest, calls := s.calls ++ [s.buf.take n] }

/-- A run. -/
def pump (s : Pump) (ops : List PumpOp) : Pump := ops.foldl pumpStep s

/-! ### Pipes to child processes -/

/-- `os_create_pipe(name, &read, &write)`, src/os_windows.c:579-611, in a process that has the given pipes open (in
itself or in a child that inherited an end): `none` is -1.  Contract of `CreateNamedPipeA`: with
`FILE_FLAG_FIRST_PIPE_INSTANCE` it fails if a pipe of that name exists.  The name is made of `lpName` and the number of
the process (581), so it is the same for each call. -/
def createPipe (pipes : List String) (lpName : String) : Option (List String) :=
  if lpName ∈ pipes then none else some (lpName :: pipes)

/-- `spawn_ex` with a function for the output, src/async_io.c:851-862: the pipes afterwards, `none` if the child is not
started.  `env` is true if there is an environment. -/
def spawnPipes (pipes : List String) (env : Bool) : Option (List String) :=
  match createPipe pipes "spawn_in" with
  | none => none
  | some p =>
    match createPipe p "spawn_out" with
    | none => none
    | some p => if env then createPipe p "spawn_err" else some p

/-- The child has ended: the ends it inherited (its input, `write_input[0]`, and the far ends of its output) are gone,
and so are the pipes.  `CloseHandle` of the near ends: src/os_windows.c:755-757 and src/async_io.c:800-803. -/
def childGone (pipes : List String) : List String :=
  pipes.filter (fun p => p ≠ "spawn_in" ∧ p ≠ "spawn_out" ∧ p ≠ "spawn_err")

end Verif.Win
