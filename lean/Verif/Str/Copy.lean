import Verif.Str.Misc
import Verif.Str.Search

/-!
# Model of the copying and case functions of `src/arrays.c`
-/

namespace Verif.Str

/-- `str_memdup_ex(src + p, len, autofree)`, src/arrays.c:366-375: the new block.  Simplified: allocation succeeds;
`autofree` only decides who frees the block. -/
def memdup (src : Bytes) (p len : Nat) : Res Bytes :=
  memcpy (calloc (alignUp2 (len + 1))) 0 src p len

/-- `str_trim(str, length)`, src/arrays.c:377-379. -/
def strTrim (str : Bytes) (length : Nat) : Res Bytes := memdup str 0 length

/-- `str_trim_at(str, pos, length)`, src/arrays.c:381-383; before the start of the object is undefined. -/
def strTrimAt (str : Bytes) (pos : Int) (length : Nat) : Res Bytes :=
  if pos < 0 then .ub else memdup str pos.toNat length

/-- `str_dup(str)` and `str_dup_ex(str)`, src/arrays.c:385-391. -/
def strDup (str : Bytes) : Res Bytes := do
  let s ← strAt str 0
  memdup str 0 s.length

/-- `str_cpy(dest, src, len)`, src/arrays.c:362-364: the destination afterwards. -/
def strCpy (dst src : Bytes) (len : Nat) : Res Bytes :=
  if len ≠ 0 then memcpy dst 0 src 0 len
  else do
    let s ← strAt src 0
    memcpy dst 0 src 0 s.length

/-- `toupper` of the C locale on an `unsigned char`. -/
def toUpper (c : UInt8) : UInt8 := if 97 ≤ c ∧ c ≤ 122 then c - 32 else c

/-- `while (c < e) { *c = f(*c); c++; }`, src/arrays.c:1030-1033 and 1045-1048; first argument: `e - c`. -/
def mapLoop (f : UInt8 → UInt8) : Nat → Bytes → Nat → Res Bytes
  | 0, b, _ => .ok b
  | n + 1, b, i => do
    let c ← rd b i
    let b ← wr b i (f c)
    mapLoop f n b (i + 1)

/-- `str_toupper(s)`, src/arrays.c:1023-1036: the buffer afterwards. -/
def strToupper (b : Bytes) : Res Bytes := do
  let s ← strAt b 0
  mapLoop toUpper s.length b 0

/-- `str_tolower(s)`, src/arrays.c:1038-1051: the buffer afterwards. -/
def strTolower (b : Bytes) : Res Bytes := do
  let s ← strAt b 0
  mapLoop toLower s.length b 0

end Verif.Str
