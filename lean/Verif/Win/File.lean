import Verif.Mem

/-!
# Model of `pread`, `pwrite` and `sendfile` for Windows

`src/os_windows.c`.  A file is its bytes and the one position which all users of the descriptor share.  What the
system may do (an error, fewer bytes than asked for) is given from outside.
-/

namespace Verif.Win

/-- An open file: its bytes and its position. -/
structure File where
  data : Bytes
  pos : Nat
  deriving Repr, DecidableEq

/-- `lseek(d, off, SEEK_SET)`; `ok` is false for an error. -/
def File.seek (f : File) (off : Nat) (ok : Bool) : Option File :=
  if ok then some { f with pos := off } else none

/-- `read(d, buf, n)`: the bytes and the file afterwards; `lim` is `none` for an error, else the most that the system
hands out. -/
def File.read (f : File) (n : Nat) (lim : Option Nat) : Option (Bytes × File) :=
  match lim with
  | none => none
  | some k =>
    let got := (f.data.drop f.pos).take (min n k)
    some (got, { f with pos := f.pos + got.length })

/-- The file with the bytes `w` written at the position `p`, zeros in a gap. -/
def place (data : Bytes) (p : Nat) (w : Bytes) : Bytes :=
  (data ++ List.replicate (p - data.length) 0).take p ++ w ++ data.drop (p + w.length)

/-- `write(d, buf, n)` of the bytes `w`: how many are written, and the file afterwards. -/
def File.write (f : File) (w : Bytes) (lim : Option Nat) : Option (Nat × File) :=
  match lim with
  | none => none
  | some k =>
    let part := w.take k
    some (part.length, { data := place f.data f.pos part, pos := f.pos + part.length })

/-- What the system and other users of the same descriptor do during one `pread`/`pwrite`: the outcome of the three
`lseek`, of the transfer, and what others do to the file behind the second and the third system call. -/
structure During where
  cur : Bool := true
  set : Bool := true
  io : Option Nat := some (2 ^ 31)
  back : Bool := true
  between : File → File := id
  after : File → File := id

/-- `pread(d, buf, nbytes, offset)`, src/os_windows.c:1346-1358: the bytes returned (`none` for -1), and the file
afterwards.  Simplified: the descriptor is a plain one of the C library, so `os_read` is `_read` in binary mode. -/
def pread (f : File) (n off : Nat) (d : During) : Option Bytes × File :=
  if d.cur = false then (none, f)
  else
    match f.seek off d.set with
    | none => (none, f)
    | some f1 =>
      let f1 := d.between f1
      match f1.read n d.io with
      | none => (none, f1)
      | some (got, f2) =>
        let f2 := d.after f2
        match f2.seek f.pos d.back with
        | none => (none, f2)
        | some f3 => (some got, f3)

/-- `pwrite(d, buf, nbytes, offset)`, src/os_windows.c:1332-1344: the count returned, and the file afterwards (same
simplification as `pread`). -/
def pwrite (f : File) (w : Bytes) (off : Nat) (d : During) : Option Nat × File :=
  if d.cur = false then (none, f)
  else
    match f.seek off d.set with
    | none => (none, f)
    | some f1 =>
      let f1 := d.between f1
      match f1.write w d.io with
      | none => (none, f1)
      | some (n, f2) =>
        let f2 := d.after f2
        match f2.seek f.pos d.back with
        | none => (none, f2)
        | some f3 => (some n, f3)

/-- The argument `offset` of `sendfile` and what it points to. -/
inductive Off
  | null
  /-- `*offset == -1` -/
  | minus
  | at (o : Nat)
  deriving Repr, DecidableEq

/-- One round of `sendfile`: the outcome of `_read` and that of `_write`. -/
structure Round where
  rd : Option Nat := some 65536
  wr : Option Nat := some 65536

/-- The loop of `sendfile`, src/os_windows.c:1377-1397; `out` is what the receiver got so far, `res` is `result`.
The list gives the rounds (when it is used up, the system hands out and takes everything); the number bounds them. -/
def sendLoop (bufSize : Nat) : Nat → List Round → File → Bytes → Nat → Nat → Res (Option Nat × File × Bytes)
  | 0, _, _, _, _, _ => .ub
  | fuel + 1, rs, f, out, length, res =>
    if length = 0 then .ok (some res, f, out)
    else
      let r := rs.headD {}
      match f.read (min length bufSize) r.rd with
      | none => .ok (none, f, out)
      | some (got, f) =>
        if got.length = 0 then .ok (some res, f, out)
        else
          match r.wr with
          | none => .ok (none, f, out)
          | some k =>
            let part := got.take k
            sendLoop bufSize fuel rs.tail f (out ++ part) (length - got.length) (res + part.length)

/-- `sendfile(fd_out, fd_in, offset, length)`, src/os_windows.c:1360-1402: result (`none` is -1), `*offset`
afterwards, the file, what the receiver has.  `mem` is false if there is no memory for the buffer. -/
def sendfile (mem seek : Bool) (rs : List Round) (f : File) (out : Bytes) (off : Off) (length : Nat) :
    Res (Option Nat × Off × File × Bytes) :=
  let bufSize := min length 65536
  if mem = false then .ok (none, off, f, out)
  else
    match off with
    | .null => .ub
    | .minus => do
      let (r, f, out) ← sendLoop bufSize (length + 1) rs f out length 0
      .ok (r, .at 0, f, out)
    | .at o =>
      match f.seek o seek with
      | none => .ok (none, .minus, f, out)
      | some f => do
        let (r, f, out) ← sendLoop bufSize (length + 1) rs f out length 0
        .ok (r, .at o, f, out)

end Verif.Win
