import Verif.Str.Misc

/-!
# Model of `pathinfo` of `src/arrays.c`

`dirname` and `basename` are those of `<libgen.h>` (include/os_unix.h:21), transcribed from glibc: `pathinfo` depends
on what they write into their argument, so a contract for the returned string alone would not do.
-/

namespace Verif.Str

/-- `'/'`. -/
def sl : UInt8 := 0x2f

/-- `str_memrchr(b + p, c, n)`, src/arrays.c:1128-1136 (and `strrchr`/`memrchr` of libc): offset of the last `c`. -/
def memrchr (b : Bytes) (p : Nat) (c : UInt8) : Nat → Res (Option Nat)
  | 0 => .ok none
  | n + 1 => do
    let x ← rd b (p + n)
    if x = c then .ok (some (p + n)) else memrchr b p c n

/-- libc's `strrchr(b, c)` for a `c` that is not NUL. -/
def strrchr (b : Bytes) (c : UInt8) : Res (Option Nat) := do
  let s ← strAt b 0
  memrchr b 0 c s.length

/-- `for (runp = p; runp != path; --runp) if (runp[-1] != '/') break;` of glibc's `dirname`: back over slashes. -/
def slashBack (b : Bytes) : Nat → Res Nat
  | 0 => .ok 0
  | k + 1 => do
    let x ← rd b k
    if x = sl then slashBack b k else .ok (k + 1)

/-- `while (p > filename && p[-1] != '/') --p;` of glibc's `__xpg_basename`: back over the last name. -/
def nameBack (b : Bytes) : Nat → Res Nat
  | 0 => .ok 0
  | k + 1 => do
    let x ← rd b k
    if x = sl then .ok (k + 1) else nameBack b k

/-- `while (p[1] != '\0') ++p;` of glibc's `__xpg_basename` (first argument: bound on the scan). -/
def toEnd (b : Bytes) : Nat → Nat → Res Nat
  | 0, _ => .ub
  | f + 1, p => do
    let x ← rd b (p + 1)
    if x = 0 then .ok p else toEnd b f (p + 1)

/-- The first half of glibc's `dirname(path)`: the slash in front of the last name, if any. -/
def lastSlash (b : Bytes) : Res (Option Nat) := do
  match ← strrchr b sl with
  | none => .ok none
  | some l => do
    let y ← rd b (l + 1)
    if l ≠ 0 ∧ y = 0 then
      let r ← slashBack b l
      if r ≠ 0 then memrchr b 0 sl r else .ok (some l)
    else .ok (some l)

/-- glibc's `dirname(path)`: the buffer afterwards.  The returned pointer is not part of the result, because
`pathinfo` discards it (src/arrays.c:1265); without a slash before the last name the string "." is returned and the
buffer is not changed. -/
def dirname (b : Bytes) : Res Bytes := do
  match ← lastSlash b with
  | none => .ok b
  | some l => do
    let r ← slashBack b l
    if r = 0 then
      if l = 1 then wr b 2 0 else wr b 1 0
    else wr b r 0

/-- glibc's `basename(filename)` of `<libgen.h>` (`__xpg_basename`): the buffer afterwards and the offset of the
returned pointer, `none` for the literal ".". -/
def basename (b : Bytes) : Res (Bytes × Option Nat) := do
  let x ← rd b 0
  if x = 0 then .ok (b, none)
  else
    match ← strrchr b sl with
    | none => .ok (b, some 0)
    | some l => do
      let y ← rd b (l + 1)
      if y = 0 then
        let p ← slashBack b l
        if p > 0 then
          let b ← wr b p 0
          let q ← nameBack b (p - 1)
          .ok (b, some q)
        else
          let q ← toEnd b b.length 0
          .ok (b, some q)
      else .ok (b, some (l + 1))

/-- What `pathinfo` returns (`fileinfo_t`, include/arrays.h:164-170), as the strings its fields point to after the
call, and the caller's buffer after the call. -/
structure FileInfo where
  dirname : Bytes
  base : Bytes
  filename : Bytes
  extension : Option Bytes
  arg : Bytes
  deriving DecidableEq, Repr

/-- The string at a pointer returned by `basename`. -/
def baseStr (b : Bytes) : Option Nat → Res Bytes
  | none => .ok [0x2e]
  | some p => strAt b p

/-- `file->extension`, src/arrays.c:1270-1274: the text after the last `'.'` of the file name (in the literal "." if
`basename` returned that). -/
def extension (b : Bytes) (p : Option Nat) : Res (Option Bytes) := do
  let b := match p with | none => cstr [0x2e] | some _ => b
  let p := p.getD 0
  let s ← strAt b p
  match ← memrchr b p 0x2e s.length with
  | none => .ok none
  | some i => do
    let e ← strAt b (i + 1)
    .ok (some e)

/-- `pathinfo(filepath)`, src/arrays.c:1252-1280 (Linux branch).  `str_trim` copies the path into a zeroed block
(src/arrays.c:366-379).  Simplified: allocation succeeds; `filepath` is writable. -/
def pathinfo (path : Bytes) : Res FileInfo := do
  let s ← strAt path 0
  let dir ← memcpy (calloc (alignUp2 (s.length + 1))) 0 path 0 s.length
  let dir ← dirname dir
  let (dir, bp) ← basename dir
  let (path, fp) ← basename path
  let ext ← extension path fp
  let d ← strAt dir 0
  let b ← baseStr dir bp
  let f ← baseStr path fp
  .ok ⟨d, b, f, ext, path⟩

end Verif.Str
