import Verif.Mem

/-!
# Model of the file helpers (`src/os_unix.c:1435-1532`, `src/async_io.c:522-720`)

The kernel is a map from paths to file contents, a descriptor table and a finite list of disturbances: the n-th system call
takes the n-th entry (`full` when the list is used up).  Opening gives the lowest free descriptor; reading, writing and
`sendfile` move at most `maxRw` bytes.  Left out: permissions (a refusal is the answer `fail`), links, directories, other
processes, `unlink`, and open modes (no modelled function reads from a descriptor opened for writing, or the converse).
The calls of one task are not interleaved with those of other tasks.
-/

namespace Verif.Fs

abbrev Path := Nat

/-- What happens to one system call: it does all it can, it moves about `k` bytes, it is interrupted, or it fails. -/
inductive Ans where
  | full
  | short (k : Nat)
  | intr
  | fail
  deriving DecidableEq

/-- An open file description: the file and the offset. -/
structure Open where
  path : Path
  off : Nat
  deriving DecidableEq

/-- The kernel as seen by one process. -/
structure K where
  files : Path → Option Bytes
  tbl : List (Option Open)
  ans : List Ans

/-- Most bytes one `read`, `write` or `sendfile` moves on Linux (`MAX_RW_COUNT`). -/
def maxRw : Nat := 0x7ffff000

/-- The open file of a descriptor. -/
def look (t : List (Option Open)) (fd : Nat) : Option Open := (t[fd]?).join

/-- The lowest free descriptor. -/
def lowest : List (Option Open) → Nat
  | [] => 0
  | none :: _ => 0
  | some _ :: t => lowest t + 1

/-- Set an entry, growing the table by one if needed. -/
def put : List (Option Open) → Nat → Option Open → List (Option Open)
  | [], _, o => [o]
  | _ :: t, 0, o => o :: t
  | a :: t, n + 1, o => a :: put t n o

def K.answer (k : K) : Ans := k.ans.headD .full

def K.pop (k : K) : K := { k with ans := k.ans.tail }

def K.setFile (k : K) (p : Path) (c : Bytes) : K :=
  { k with files := fun q => if q = p then some c else k.files q }

def K.size (k : K) (p : Path) : Nat := ((k.files p).getD []).length

/-- `open(path, flags, mode)`: descriptor, or `none` for -1. -/
def kopen (k : K) (p : Path) (creat excl trunc : Bool) : Option Nat × K :=
  let k' := k.pop
  match k.answer with
  | .intr | .fail => (none, k')
  | _ =>
    match k.files p with
    | none =>
      if creat then (some (lowest k.tbl), { k'.setFile p [] with tbl := put k.tbl (lowest k.tbl) (some ⟨p, 0⟩) })
      else (none, k')
    | some _ =>
      if creat && excl then (none, k')
      else
        let k'' := if trunc then k'.setFile p [] else k'
        (some (lowest k.tbl), { k'' with tbl := put k.tbl (lowest k.tbl) (some ⟨p, 0⟩) })

/-- Result of `read`/`write`/`sendfile`. -/
inductive Io (α : Type) where
  | got (a : α)
  | intr
  | err

/-- How many of `n` available bytes an answer moves; `low` is the least a successful call moves. -/
def moved (a : Ans) (low n : Nat) : Nat :=
  match a with
  | .short k => min (max low k) (min n maxRw)
  | _ => min n maxRw

/-- `read(fd, buf, n)`: a regular file gives at least one byte unless the offset is at its end. -/
def kread (k : K) (fd n : Nat) : Io Bytes × K :=
  let k' := k.pop
  match look k.tbl fd with
  | none => (.err, k')
  | some o =>
    match k.answer with
    | .intr => (.intr, k')
    | .fail => (.err, k')
    | a =>
      let avail := ((k.files o.path).getD []).drop o.off
      let m := moved a 1 (min n avail.length)
      (.got (avail.take m), { k' with tbl := put k.tbl fd (some ⟨o.path, o.off + m⟩) })

/-- The contents after `d` is written at offset `off`. -/
def overwrite (c : Bytes) (off : Nat) (d : Bytes) : Bytes :=
  (c ++ List.replicate (off - c.length) 0).take off ++ d ++ c.drop (off + d.length)

/-- `write(fd, d, n)`: a short answer may also write nothing. -/
def kwrite (k : K) (fd : Nat) (d : Bytes) : Io Nat × K :=
  let k' := k.pop
  match look k.tbl fd with
  | none => (.err, k')
  | some o =>
    match k.answer with
    | .intr => (.intr, k')
    | .fail => (.err, k')
    | a =>
      let m := moved a 0 d.length
      let k'' := k'.setFile o.path (overwrite ((k.files o.path).getD []) o.off (d.take m))
      (.got m, { k'' with tbl := put k.tbl fd (some ⟨o.path, o.off + m⟩) })

/-- `sendfile(out, inp, &off, count)` with `count` not less than the file: bytes moved.  The offset of `inp` stays. -/
def ksendfile (k : K) (out inp off : Nat) : Io Nat × K :=
  let k' := k.pop
  match look k.tbl out, look k.tbl inp with
  | some o, some i =>
    match k.answer with
    | .intr => (.intr, k')
    | .fail => (.err, k')
    | a =>
      let avail := ((k.files i.path).getD []).drop off
      let m := moved a 1 avail.length
      let k'' := k'.setFile o.path (overwrite ((k.files o.path).getD []) o.off (avail.take m))
      (.got m, { k'' with tbl := put k.tbl out (some ⟨o.path, o.off + m⟩) })
  | _, _ => (.err, k')

/-- `close(fd)`: the descriptor is released even when -1 is returned (`false`). -/
def kclose (k : K) (fd : Nat) : Bool × K :=
  let k' := k.pop
  match look k.tbl fd with
  | none => (false, k')
  | some _ =>
    (match k.answer with | .intr | .fail => false | _ => true, { k' with tbl := put k.tbl fd none })

/-- `stat(path)`/`fstat(fd)`: the size. -/
def kstat (k : K) (p : Path) : Option Nat × K :=
  match k.answer with
  | .intr | .fail => (none, k.pop)
  | _ => ((k.files p).map List.length, k.pop)

/-! ## `os_copyfile` -/

/-- The `do … while (nread > 0)` loop, src/os_unix.c:1502-1510: `true` when all of `d` is written, `false` for
`goto out_error`; `none`: more rounds than the fuel allows. -/
def writeLoop : Nat → K → Nat → Bytes → Option (Bool × K)
  | 0, _, _, _ => none
  | f + 1, k, fd, d =>
    match kwrite k fd d with
    | (.got m, k') => if 0 < d.length - m then writeLoop f k' fd (d.drop m) else some (true, k')
    | (.intr, k') => writeLoop f k' fd d
    | (.err, k') => some (false, k')

/-- `out_error`, src/os_unix.c:1523-1531. -/
def copyError (k : K) (src : Nat) (dst : Option Nat) : Int × K :=
  let k := (kclose k src).2
  match dst with
  | none => (-1, k)
  | some fd => (-1, (kclose k fd).2)

/-- The reading loop and what follows it, src/os_unix.c:1498-1521. -/
def copyLoop : Nat → K → Nat → Nat → Option (Int × K)
  | 0, _, _, _ => none
  | f + 1, k, src, dst =>
    match kread k src 4096 with
    | (.got d, k') =>
      if d.length = 0 then
        match kclose k' dst with
        | (true, k') => some (0, (kclose k' src).2)
        | (false, k') => some (copyError k' src none)
      else
        match writeLoop (d.length + k'.ans.length + 1) k' dst d with
        | none => none
        | some (true, k') => copyLoop f k' src dst
        | some (false, k') => some (copyError k' src (some dst))
    | (_, k') => some (copyError k' src (some dst))

/-- `os_copyfile(from, to)`, src/os_unix.c:1483-1532. -/
def osCopyfile (k : K) (src dst : Path) : Option (Int × K) :=
  match kopen k src false false false with
  | (none, k) => some (-1, k)
  | (some fd, k) =>
    match kopen k dst true true false with
    | (none, k) => some (copyError k fd none)
    | (some fd', k) => copyLoop (k.size src + k.ans.length + 2) k fd fd'

/-! ## `copyfile` -/

/-- The loop, src/os_unix.c:1463-1469.  `sendfile` itself moves `copied` on by what it wrote (or leaves it when it fails), and
the next line adds `written` once more.  Result: `true` for `result == 0`.  Simplified: `off_t` does not overflow. -/
def sendLoop : Nat → K → Nat → Nat → Nat → Nat → Option (Bool × K)
  | 0, _, _, _, _, _ => none
  | f + 1, k, out, inp, size, copied =>
    if copied < size then
      match ksendfile k out inp copied with
      | (.got w, k') => sendLoop f k' out inp size (copied + w + w)
      | (_, k') => some (false, k')
    else some (true, k)

/-- `copyfile(source, destination)`, src/os_unix.c:1436-1475, other than on FreeBSD and macOS; also `fs_copyfile`,
src/async_io.c:682-693, which runs it on a worker. -/
def copyfile (k : K) (src dst : Path) : Option (Int × K) :=
  match kopen k src false false false with
  | (none, k) => some (-1, k)
  | (some inp, k) =>
    match kopen k dst true false true with
    | (none, k) => some (-1, (kclose k inp).2)
    | (some out, k) =>
      match kstat k src with
      | (none, k) => some (-1, (kclose (kclose k inp).2 out).2)
      | (some size, k) =>
        match sendLoop (size + 1) k out inp size 0 with
        | none => none
        | some (r, k) => some (if r then 0 else -1, (kclose (kclose k inp).2 out).2)

/-! ## `fs_open`, `fs_close` and the calls built on them -/

/-- The process: the kernel, `last_fd` of every worker thread (src/events_internal.h:173), and `future_id_count`. -/
structure P where
  k : K
  last : List Int
  cnt : Nat

/-- Index of the worker `futures_pool()` gives, src/future.c:85-88. -/
def P.idx (p : P) : Nat := p.cnt % p.last.length

/-- `queue_work` moves on to the next worker, src/future.c:355-366. -/
def P.next (p : P) (k : K) : P := { p with k := k, cnt := p.cnt + 1 }

/-- An `int` made of a descriptor or a failure. -/
def toInt : Option Nat → Int
  | some n => n
  | none => -1

/-- `fs_open(path, flag, mode)`, src/async_io.c:601-605; `TASK_DEAD` is 0 (include/async_io.h:113-116). -/
def fsOpen (p : P) (path : Path) (creat excl trunc : Bool) : Int × P :=
  let p := { p with last := p.last.set p.idx 0 }
  let (r, k) := kopen p.k path creat excl trunc
  (toInt r, p.next k)

/-- `fs_close(fd)`, src/async_io.c:620-632; `TASK_ERRED` is -1. -/
def fsClose (p : P) (fd : Int) : Int × P :=
  let i := p.idx
  if p.last[i]? = some fd then (-1, { p with last := p.last.set i (-1) })
  else
    let (ok, k) := if fd < 0 then (false, p.k.pop) else kclose p.k fd.toNat
    (if ok then 0 else -1, { p.next k with last := p.last.set i fd })

/-- The largest number that a pool thread can hand back: `promise_set` takes a larger one for a pointer and reads memory in front of it
(src/future.c:48, src/arrays.c:325-336; see `Verif.Future.Value`, C108). -/
def maxResult : Nat := 0x20000000

/-- `fs_read(fd, buf, count)`, src/async_io.c:607-609: what was put into `buf`, `none` for -1. -/
def fsRead (p : P) (fd : Int) (count : BitVec 32) : Res (Option Bytes × P) :=
  if fd < 0 then .ok (none, p.next p.k.pop)
  else
    match kread p.k fd.toNat count.toNat with
    | (.got d, k) => if maxResult < d.length then .ub else .ok (some d, p.next k)
    | (_, k) => .ok (none, p.next k)

/-- `fs_write(fd, buf, count)`, src/async_io.c:611-613; `d` is the `count` bytes at `buf`. -/
def fsWrite (p : P) (fd : Int) (d : Bytes) : Res (Int × P) :=
  if fd < 0 then .ok (-1, p.next p.k.pop)
  else
    match kwrite p.k fd.toNat d with
    | (.got n, k) => if maxResult < n then .ub else .ok ((n : Int), p.next k)
    | (_, k) => .ok (-1, p.next k)

/-- `fs_filesize(path)`, src/async_io.c:663-669. -/
def fsFilesize (p : P) (path : Path) : Nat × P :=
  let (r, k) := kstat p.k path
  (r.getD 0, p.next k)

/-- `fs_writefile(path, text)`, src/async_io.c:695-706; `text` without its terminator.  `code` is the active task's
`err_code`, which nothing in the library sets for a running task (`task_code`, src/events.c:1227-1229, 1728). -/
def fsWritefile (p : P) (code : Int) (path : Path) (text : Bytes) : Res (Int × P) :=
  let (fd, p) := fsOpen p path true false false
  if 0 < fd then
    let len : Int := (BitVec.ofNat 32 text.length).toInt
    match (if 0 < len then fsWrite p fd (text.take len.toNat) else .ok (len, p)) with
    | .ub => .ub
    | .ok (len, p) =>
      let (c, p) := fsClose p fd
      if c = 0 then .ok (len, p) else .ok (code, p)
  else .ok (code, p)

/-- `fs_touch(path)`, src/async_io.c:671-673. -/
def fsTouch (p : P) (code : Int) (path : Path) : Res (Bool × P) :=
  match fsWritefile p code path [] with
  | .ub => .ub
  | .ok (r, p) => .ok (r == 0, p)

/-- `_mem_align_up(n, 2)`, include/arrays.h:381. -/
def alignUp2 (n : Nat) : Nat := (n + 1) / 2 * 2

/-- `fs_readfile(path)`, src/async_io.c:708-720: the buffer, `none` for NULL.  Simplified: `events_calloc` succeeds. -/
def fsReadfile (p : P) (path : Path) : Res (Option Bytes × P) :=
  let (len, p) := fsFilesize p path
  if 0 < len then
    let (fd, p) := fsOpen p path false false false
    if 0 < fd then
      match fsRead p fd (BitVec.ofNat 32 len) with
      | .ub => .ub
      | .ok (d, p) =>
        let d := d.getD []
        let (_, p) := fsClose p fd
        .ok (some (d ++ List.replicate (alignUp2 (len + 1) - d.length) 0), p)
    else .ok (none, p)
  else .ok (none, p)

/-- The public file calls, for whole programs of one task. -/
inductive Op where
  | fopen (path : Path) (creat excl trunc : Bool)
  | fclose (fd : Int)
  | fread (fd : Int) (count : BitVec 32)
  | fwrite (fd : Int) (d : Bytes)
  | filesize (path : Path)
  deriving DecidableEq

def step (p : P) : Op → Res P
  | .fopen q a b c => .ok (fsOpen p q a b c).2
  | .fclose fd => .ok (fsClose p fd).2
  | .fread fd n => fsRead p fd n >>= fun r => .ok r.2
  | .fwrite fd d => fsWrite p fd d >>= fun r => .ok r.2
  | .filesize q => .ok (fsFilesize p q).2

/-- A program of one task. -/
def run (p : P) : List Op → Res P
  | [] => .ok p
  | op :: ops => step p op >>= fun q => run q ops

end Verif.Fs
