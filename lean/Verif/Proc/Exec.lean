import Verif.Str.Split
import Verif.Str.Misc
import Verif.Str.Search
import Mathlib.Logic.Function.Basic

/-!
# Starting a program: what the new process is given (`exec_info`, `exec` and the child side of `os_exec_info`), C78-C80

Simplified: allocation succeeds and the table has an entry left (`Verif.Proc.Wait` treats the table); signal settings and
the working directory (`workdir`, which no function of the library sets) are left out.
-/

namespace Verif.Proc

open Verif.Str

/-- `inherit`, include/os_unix.h:78. -/
def inherit : Int := -1

/-- `execinfo_t`, src/events_internal.h:473-510: the fields the child uses. -/
structure Info where
  argv : Option (List Bytes)
  env : Option (List Bytes)
  detached : Bool
  isSpawn : Bool
  wi0 : Int
  wi1 : Int
  ro0 : Int
  ro1 : Int
  er0 : Int
  er1 : Int
  deriving DecidableEq, Repr

/-- The fields as `events_new_fd` leaves them, src/os_unix.c:438-448; `argv` is NULL in an unused entry. -/
def freshInfo : Info := ⟨none, none, false, false, inherit, inherit, inherit, inherit, inherit, inherit⟩

/-- What `execve` reads from a NULL-terminated vector of C strings, here a block made by `str_split_ex`: the strings in front
of the first NULL; undefined if there is no NULL. -/
def readVec (text : Bytes) : List (Option Nat) → Res (List Bytes)
  | [] => .ub
  | none :: _ => .ok []
  | some p :: ps => do
    let w ← strAt text p
    let ws ← readVec text ps
    .ok (w :: ws)

/-- A block made by `str_split_ex`, read as a vector; NULL stays NULL. -/
def splitVec (s : Bytes) (delim : Bytes) : Res (Option (List Bytes)) := do
  match ← strSplitEx (cstr s) (cstr delim) with
  | none => .ok none
  | some o => do
    let ws ← readVec o.text o.ptrs
    .ok (some ws)

/-- The three literals `","`, `";"` and `"="`. -/
def comma : Bytes := [44]
def semi : Bytes := [59]
def eqs : Bytes := [61]

/-- `exec_info`, src/os_unix.c:580-603. -/
def execInfo (env : Option Bytes) (detached : Bool) (ioIn ioOut ioErr : Int) : Res Info := do
  let info := { freshInfo with detached := detached }
  let info ← (match env with
    | none => .ok info
    | some e => do
      let h1 ← strHas (cstr e) (cstr eqs)
      let h2 ← (if h1 then strHas (cstr e) (cstr semi) else .ok false)
      if h1 && h2 then do
        let v ← splitVec e semi
        .ok { info with env := v }
      else .ok info : Res Info)
  let info := if ioIn ≠ 0 then { info with wi1 := ioIn } else info
  let info := if ioOut ≠ 0 then { info with ro1 := ioOut } else info
  let info := if ioErr ≠ 0 then { info with er1 := ioErr } else info
  .ok info

/-- The argument vector built by `exec`, src/os_unix.c:605-613.  Simplified: the joined string is taken out of its buffer
before it is split. -/
def execArgv (command : Bytes) (args : Option Bytes) (info : Info) : Res Info := do
  let o ← strCatEx (match args with
    | none => [cstr command, cstr comma]
    | some a => [cstr command, cstr comma, cstr a])
  match o with
  | none => .ub
  | some b => do
    let s ← strAt b 0
    let v ← splitVec s comma
    .ok { info with argv := v }

/-- Descriptors of a process: what each number is connected to (`none`: closed). -/
abbrev Fds := Int → Option Nat

/-- `dup2(old, new)`: fails if `old` is not open. -/
def dup2 (f : Fds) (o n : Int) : Option Fds :=
  match f o with
  | none => none
  | some x => some (Function.update f n (some x))

/-- `close(fd)`. -/
def closeFd (f : Fds) (d : Int) : Fds := Function.update f d none

/-- One of the three redirections, src/os_unix.c:538-548, 550-560 and 562-572: `src` is duplicated to `dst`; for a spawned
process `other`, the parent's side of the pipe, is closed. -/
def redirect (f : Fds) (src dst other : Int) (isSpawn : Bool) : Option Fds :=
  if src ≠ -1 then
    match dup2 f src dst with
    | none => none
    | some f => some (if isSpawn then closeFd f other else f)
  else some f

/-- What becomes of the child: it runs the program, or ends with status 255. -/
inductive Child where
  | runs (file : Bytes) (argv env : List Bytes) (fds : Fds) (session : Bool)
  | exit255

/-- `execve(file, argv, envp)`, `runnable`: the file can be run.  The kernel (Linux) takes a NULL `argv` or `envp` for
an empty vector. -/
def execve (runnable : Bool) (file : Bytes) (argv env : Option (List Bytes)) (fds : Fds) (session : Bool) : Child :=
  if runnable then .runs file (argv.getD []) (env.getD []) fds session else .exit255

/-- The child's side of `os_exec_info`, src/os_unix.c:528-577.  `fds` are the descriptors of the parent, which the child of
`vfork` has too; `sidOk`: `setsid` succeeds. -/
def child (sidOk runnable : Bool) (file : Bytes) (info : Info) (fds : Fds) : Child :=
  if info.detached && !sidOk then .exit255
  else
    match redirect fds (if info.isSpawn then info.wi0 else info.wi1) 0 info.wi1 info.isSpawn with
    | none => .exit255
    | some f =>
      match redirect f info.ro1 1 info.ro0 info.isSpawn with
      | none => .exit255
      | some f =>
        match redirect f info.er1 2 info.er0 info.isSpawn with
        | none => .exit255
        | some f => execve runnable file info.argv info.env f info.detached

/-- `exec(command, args, exec_info(env, detached, in, out, err))` seen from the child; `fds` are the
descriptors of the caller.  The environment of the caller is nowhere consulted, so it is no argument. -/
def exec (sidOk runnable : Bool) (command : Bytes) (args env : Option Bytes) (detached : Bool) (ioIn ioOut ioErr : Int)
    (fds : Fds) : Res Child := do
  let info ← execInfo env detached ioIn ioOut ioErr
  let info ← execArgv command args info
  .ok (child sidOk runnable command info fds)

/-- The descriptors that `spawn_ex` puts into the record, src/async_io.c:880-891, for a child whose output is handled: the
pipes `i0 → i1` is its input and `o0 ← o1` its output; `e` is the third pipe, made when an environment is given. -/
def spawnInfo (info : Info) (i0 i1 o0 o1 : Int) (e : Option (Int × Int)) : Info :=
  let info := { info with wi0 := i0, wi1 := i1, ro0 := o0, ro1 := o1, isSpawn := true }
  match e with
  | none => info
  | some (e0, e1) => { info with er0 := e0, er1 := e1 }

end Verif.Proc
