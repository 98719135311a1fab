import Verif.Mem

/-!
# Model of `os_open` for Windows

`src/os_windows.c`: how the flags of `open` become the arguments of `CreateFileA`, and what that call does with them.
-/

namespace Verif.Win

abbrev Word := BitVec 32

/-- The flags of `open` in `<fcntl.h>` of the C library, and those of include/os_windows.h:53-58.  `O_RDONLY` is 0. -/
def O_RDONLY : Word := 0
def O_WRONLY : Word := 1
def O_RDWR : Word := 2
def O_CREAT : Word := 0x100
def O_TRUNC : Word := 0x200
def O_EXCL : Word := 0x400
def O_DIRECTORY : Word := 0x2000
def O_ASYNC : Word := 0x500000

/-- Constants of `<windows.h>`. -/
def GENERIC_READ : Word := 0x80000000
def GENERIC_WRITE : Word := 0x40000000
def FILE_FLAG_OVERLAPPED : Word := 0x40000000
def FILE_LIST_DIRECTORY : Word := 1
def CREATE_NEW : Word := 1
def CREATE_ALWAYS : Word := 2
def OPEN_EXISTING : Word := 3
def OPEN_ALWAYS : Word := 4
def TRUNCATE_EXISTING : Word := 5

/-- `mode & bit`. -/
def has (mode bit : Word) : Bool := mode &&& bit != 0

/-- What `_os_open` asks `CreateFileA` for: the desired access and the creation mode (the sharing mode and the
attributes are not looked at). -/
structure Ask where
  access : Word
  creation : Word
  deriving Repr, DecidableEq

/-- The flags of `_os_open(path, mode, shared)`, src/os_windows.c:637-670. -/
def osOpenAsk (mode : Word) (shared : Bool) : Ask :=
  let osmode : Word := 0
  let osmode := if has mode O_RDONLY || has mode O_RDWR then osmode ||| GENERIC_READ else osmode
  let osmode := if has mode O_WRONLY || has mode O_RDWR then osmode ||| GENERIC_WRITE else osmode
  let creation := OPEN_EXISTING
  let creation := if has mode O_CREAT then CREATE_ALWAYS else creation
  let creation := if has mode O_EXCL then CREATE_NEW else creation
  let creation := if has mode O_TRUNC then creation ||| TRUNCATE_EXISTING else creation
  let osmode := if has mode O_DIRECTORY then osmode ||| FILE_LIST_DIRECTORY else osmode
  let osmode := if has mode O_ASYNC || shared || has mode O_DIRECTORY then osmode ||| FILE_FLAG_OVERLAPPED else osmode
  { access := osmode, creation }

/-- An open file as its user sees it: its bytes, and what may be done. -/
structure Opened where
  data : Bytes
  canRead : Bool
  canWrite : Bool
  deriving Repr, DecidableEq

/-- Contract of `CreateFileA`: `file` is what exists under the name (`none`: nothing); the result is `none` for an
error.  An unknown creation mode is an error; so is truncating without write access. -/
def createFile (file : Option Bytes) (a : Ask) : Option Opened :=
  let opened (d : Bytes) : Option Opened := some ⟨d, has a.access GENERIC_READ, has a.access GENERIC_WRITE⟩
  if a.creation = CREATE_NEW then
    match file with
    | some _ => none
    | none => opened []
  else if a.creation = CREATE_ALWAYS then opened []
  else if a.creation = OPEN_EXISTING then
    match file with
    | some d => opened d
    | none => none
  else if a.creation = OPEN_ALWAYS then
    match file with
    | some d => opened d
    | none => opened []
  else if a.creation = TRUNCATE_EXISTING then
    match file with
    | some _ => if has a.access GENERIC_WRITE then opened [] else none
    | none => none
  else none

/-- `os_open(path, flags, mode)`, src/os_windows.c:684-707, for a path which is neither a pipe nor one of the pseudo
descriptors, with `O_ASYNC` or `O_DIRECTORY` among the flags (without, it is `_open` of the C library): `none` is
-1. -/
def asyncOpen (file : Option Bytes) (flags : Word) : Option Opened := createFile file (osOpenAsk flags false)

end Verif.Win
