import Verif.Str.Split

/-!
# Model of the path functions and of `memmem` for Windows

`basename` and `dirname` of `src/os_windows.c`, `memmem` of `src/arrays.c`.  The buffers are byte lists; an access
outside of them is `Res.ub`.
-/

namespace Verif.Win

/-- `'/'`. -/
def slash : UInt8 := 0x2f

/-- `SLASH`, src/os_windows.c:16. -/
def bslash : UInt8 := 0x5c

/-- `':'`. -/
def colon : UInt8 := 0x3a

/-- `'.'`. -/
def dot : UInt8 := 0x2e

/-- `*c == '/' || *c == '\\'`, src/os_windows.c:1783. -/
def isSep (x : UInt8) : Bool := x == slash || x == bslash

/-- The variables of `basename`, src/os_windows.c:1765-1773: offsets of `c`, `comp`, `cend`; `inName` is `state`. -/
structure Scan where
  c : Nat := 0
  comp : Nat := 0
  cend : Nat := 0
  inName : Bool := false
  deriving Repr, DecidableEq

/-- One round of the loop of `basename` over the byte `x` at `c`, src/os_windows.c:1776-1817.  Simplified: `mblen`
is 1 for every byte (a single-byte locale, such as "C"). -/
def scanStep (st : Scan) (x : UInt8) : Scan :=
  let st' :=
    if isSep x then
      if st.inName then { st with inName := false, cend := st.c } else st
    else if x = colon ∧ st.c - st.comp = 1 then
      if st.inName = false then { st with comp := st.c, inName := true }
      else { st with cend := st.c, inName := false }
    else
      if st.inName = false then { st with comp := st.c, inName := true } else st
  { st' with c := st.c + 1 }

/-- `basename(s)`, src/os_windows.c:1764-1825, for the string `s`: the string returned.  `str_trim(comp, len)` is a
copy of `len` bytes (C90). -/
def basename (s : Bytes) : Bytes :=
  let st := s.foldl scanStep {}
  let cend := if st.inName then st.c else st.cend
  (s.drop st.comp).take (cend - st.comp)

/-- `isalpha(c)` in the "C" locale. -/
def isAlpha (x : UInt8) : Bool := (0x41 ≤ x && x ≤ 0x5a) || (0x61 ≤ x && x ≤ 0x7a)

/-- `IS_SLASH_P(b + i)`, src/os_windows.c:19-20.  `lead` is `IsDBCSLeadByte` for the code page of the process.  For a
backslash the byte in front of it is read, also when there is none. -/
def isSlashP (lead : UInt8 → Bool) (b : Bytes) (i : Nat) : Res Bool := do
  let x ← rd b i
  if x = slash then .ok true
  else if x = bslash then
    if i = 0 then .ub
    else do
      let y ← rd b (i - 1)
      .ok (!lead y)
  else .ok false

/-- The three loops `while (end >= path && IS_SLASH_P(end)) end--;` (`want` true) and the one with the negation
(`want` false), src/os_windows.c:1854-1856, 1865-1867 and 1876-1878.  `path` is at offset `base`, the number is
`end - path + 1`. -/
def back (lead : UInt8 → Bool) (want : Bool) (b : Bytes) (base : Nat) : Nat → Res Nat
  | 0 => .ok 0
  | k + 1 => do
    let s ← isSlashP lead b (base + k)
    if s = want then back lead want b base k else .ok (k + 1)

/-- `path[0] = x; path[1] = '\0';`, src/os_windows.c:1859-1860, 1870-1871 and 1880-1881. -/
def put (b : Bytes) (base : Nat) (x : UInt8) : Res Bytes := do
  let b ← wr b base x
  wr b (base + 1) 0

/-- `(2 <= len) && isalpha(path[0]) && (':' == path[1])`, src/os_windows.c:1835. -/
def hasDrive (s : Bytes) : Bool :=
  match s with
  | x :: y :: _ => isAlpha x && y == colon
  | _ => false

/-- `dirname(path)`, src/os_windows.c:1827-1887: the buffer afterwards and the offset of the returned pointer, `none`
for NULL.  Simplified: forming (not reading) the pointer one before the buffer is not an error. -/
def dirname (lead : UInt8 → Bool) (b : Bytes) : Res (Bytes × Option Nat) := do
  let s ← strAt b 0
  let base := if hasDrive s then 2 else 0
  if hasDrive s ∧ s.length = 2 then .ok (b, some base)
  else if s.length = 0 then .ok (b, none)
  else do
    let k ← back lead true b base (s.length - base)
    if k = 0 then do
      let b ← put b base bslash
      .ok (b, some base)
    else do
      let k ← back lead false b base k
      if k = 0 then do
        let b ← put b base dot
        .ok (b, some base)
      else do
        let k ← back lead true b base k
        if k = 0 then do
          let b ← put b base bslash
          .ok (b, some base)
        else do
          let b ← wr b (base + k) 0
          .ok (b, some base)

/-- `memcmp(b + h, needle, m) == 0`; undefined if the `m` bytes leave the object. -/
def memEq (b : Bytes) (h : Nat) (needle : Bytes) : Res Bool :=
  if h + needle.length ≤ b.length then .ok ((b.drop h).take needle.length == needle) else .ub

/-- The loop of `memmem`, src/arrays.c:484-488; the number is `haystack_len`. -/
def memmemLoop (b needle : Bytes) : Nat → Nat → Res (Option Nat)
  | 0, _ => .ok none
  | n + 1, h =>
    if n + 1 < needle.length then .ok none
    else do
      let e ← memEq b h needle
      if e then .ok (some h) else memmemLoop b needle n (h + 1)

/-- `memmem(b + p, n, needle, needle_len)` for Windows, src/arrays.c:478-491.  Simplified: neither pointer is NULL.
The loop needs no round for `haystack_len == 0`, because `needle_len` is at least 1 there. -/
def memmem (b : Bytes) (p n : Nat) (needle : Bytes) : Res (Option Nat) :=
  if n = 0 ∨ needle.length = 0 then .ok none else memmemLoop b needle n p

end Verif.Win
