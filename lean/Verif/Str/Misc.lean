import Verif.Mem

/-!
# Model of further string functions of `src/arrays.c`: repeat, pad, bounded copy, case, trim, itoa, concatenation
-/

namespace Verif.Str

/-- The doubling loop of `str_repeat`, src/arrays.c:647-651; `e` is the fill level, `rl` is `result_len`.  The first
argument bounds the iterations (running out is reported as `ub` and shown unreachable). -/
def repeatLoop (rl : Nat) : Nat → Bytes → Nat → Res Bytes
  | 0, _, _ => .ub
  | f + 1, buf, e =>
    if e < rl then do
      let l := if e < rl - e then e else rl - e
      let buf ← memcpy buf e buf 0 l
      repeatLoop rl f buf (e + l)
    else .ok buf

/-- `str_repeat(str, mult)` for `mult >= 0`, src/arrays.c:620-656: the returned block.
Simplified: a negative `mult` (which panics) is not modelled; allocation succeeds. -/
def strRepeat (str : Bytes) (mult : Nat) : Res Bytes := do
  let s ← strAt str 0
  if s.length = 0 ∨ mult = 0 then .ok [0]
  else
    let rl := s.length * mult % 2 ^ 64
    let buf := calloc (alignUp2 (rl + 1))
    if s.length = 1 then do
      let c ← rd str 0
      memset buf c mult
    else do
      let buf ← memcpy buf 0 str 0 s.length
      repeatLoop rl (rl + 1) buf s.length

/-- `str_pad_type`, include/arrays.h:94-98; `other` is any value outside the three. -/
inductive PadKind where
  | dflt | left | right | both | other
  deriving DecidableEq, Repr

/-- What `str_pad` returns: the argument itself, a fresh block, or `panic`. -/
inductive PadOut where
  | same
  | block (b : Bytes)
  | panic
  deriving DecidableEq, Repr

/-- `for (i = 0; i < n; i++) result[len++] = pad[i % pad_str_len]`, src/arrays.c:708-709 and 716-717; the first
argument is `n - i`. -/
def padLoop (pad : Bytes) (plen : Nat) : Nat → Nat → Bytes → Nat → Res (Bytes × Nat)
  | 0, _, out, len => .ok (out, len)
  | r + 1, i, out, len => do
    if plen = 0 then .ub else
    let c ← rd pad (i % plen)
    let out ← wr out len c
    padLoop pad plen r (i + 1) out (len + 1)

/-- `str_pad(str, length, pad, pad_type)`, src/arrays.c:658-721.  `pad_type` 0 (`dflt`) means right.
Simplified: `pad` is not NULL; allocation succeeds. -/
def strPad (str : Bytes) (length : Int) (pad : Bytes) (kind : PadKind) : Res PadOut := do
  let s ← strAt str 0
  let p ← strAt pad 0
  let kind := if kind = .dflt then .right else kind
  if length < 0 ∨ length.toNat ≤ s.length then .ok .same
  else if p.length = 0 then .ok .panic
  else if kind = .other then .ok .panic
  else
    let num := length.toNat - s.length
    let out := calloc (alignUp2 (s.length + num + 1))
    let leftPad := if kind = .right then 0 else if kind = .left then num else num / 2
    let rightPad := if kind = .right then num else if kind = .left then 0 else num - num / 2
    let (out, len) ← padLoop pad p.length leftPad 0 out 0
    let out ← memcpy out len str 0 s.length
    let (out, _) ← padLoop pad p.length rightPad 0 out (len + s.length)
    .ok (.block out)

/-- The loop of `str_lcpy`, src/arrays.c:1015-1018; returns the buffer and the final `dest` offset. -/
def lcpyLoop (src : Bytes) : Nat → Bytes → Nat → Res (Bytes × Nat)
  | 0, dst, i => .ok (dst, i)
  | 1, dst, i => .ok (dst, i)
  | len + 2, dst, i => do
    let c ← rd src i
    if c = 0 then .ok (dst, i)
    else
      let dst ← wr dst i c
      lcpyLoop src (len + 1) dst (i + 1)

/-- `str_lcpy(dest, src, len)`, src/arrays.c:1006-1021.  Simplified: `dest` and `src` are not NULL. -/
def strLcpy (dst src : Bytes) (len : Nat) : Res Bytes := do
  if len = 0 then .ok dst
  else
    let s ← strAt src 0
    if s.length = 0 then wr dst 0 0
    else
      let (dst, i) ← lcpyLoop src len dst 0
      wr dst i 0

/-- `tolower` of the C locale on an `unsigned char`. -/
def toLower (c : UInt8) : UInt8 := if 65 ≤ c ∧ c ≤ 90 then c + 32 else c

/-- The loop of `str_case_equal`, src/arrays.c:991-993; first argument: remaining `len` (positive). -/
def caseLoop (a b : Bytes) : Nat → Nat → Res Bool
  | 0, _ => .ok true
  | len + 1, i => do
    let x ← rd a i
    let y ← rd b i
    if toLower x = toLower y then
      if x = 0 then .ok true else caseLoop a b len (i + 1)
    else .ok false

/-- `str_case_equal(s1, s2, len)`, src/arrays.c:985-996.  Simplified: arguments are not NULL. -/
def strCaseEqual (a b : Bytes) (len : Nat) : Res Bool :=
  if len = 0 then .ok false else caseLoop a b len 0

/-- `str_is_case(s1, s2)`, src/arrays.c:998-1000: `len` is `SIZE_MAX`. -/
def strIsCase (a b : Bytes) : Res Bool := strCaseEqual a b (2 ^ 64 - 1)

/-- `tolower_map`, src/arrays.c:1066-1083. -/
def lowerMap : List UInt8 :=
  [0x00, 0x01, 0x02, 0x03, 0x04, 0x05, 0x06, 0x07, 0x08, 0x09, 0x0a, 0x0b, 0x0c, 0x0d, 0x0e, 0x0f,
   0x10, 0x11, 0x12, 0x13, 0x14, 0x15, 0x16, 0x17, 0x18, 0x19, 0x1a, 0x1b, 0x1c, 0x1d, 0x1e, 0x1f,
   0x20, 0x21, 0x22, 0x23, 0x24, 0x25, 0x26, 0x27, 0x28, 0x29, 0x2a, 0x2b, 0x2c, 0x2d, 0x2e, 0x2f,
   0x30, 0x31, 0x32, 0x33, 0x34, 0x35, 0x36, 0x37, 0x38, 0x39, 0x3a, 0x3b, 0x3c, 0x3d, 0x3e, 0x3f,
   0x40, 0x61, 0x62, 0x63, 0x64, 0x65, 0x66, 0x67, 0x68, 0x69, 0x6a, 0x6b, 0x6c, 0x6d, 0x6e, 0x6f,
   0x70, 0x71, 0x72, 0x73, 0x74, 0x75, 0x76, 0x77, 0x78, 0x79, 0x7a, 0x5b, 0x5c, 0x5d, 0x5e, 0x5f,
   0x60, 0x61, 0x62, 0x63, 0x64, 0x65, 0x66, 0x67, 0x68, 0x69, 0x6a, 0x6b, 0x6c, 0x6d, 0x6e, 0x6f,
   0x70, 0x71, 0x72, 0x73, 0x74, 0x75, 0x76, 0x77, 0x78, 0x79, 0x7a, 0x7b, 0x7c, 0x7d, 0x7e, 0x7f,
   0x80, 0x81, 0x82, 0x83, 0x84, 0x85, 0x86, 0x87, 0x88, 0x89, 0x8a, 0x8b, 0x8c, 0x8d, 0x8e, 0x8f,
   0x90, 0x91, 0x92, 0x93, 0x94, 0x95, 0x96, 0x97, 0x98, 0x99, 0x9a, 0x9b, 0x9c, 0x9d, 0x9e, 0x9f,
   0xa0, 0xa1, 0xa2, 0xa3, 0xa4, 0xa5, 0xa6, 0xa7, 0xa8, 0xa9, 0xaa, 0xab, 0xac, 0xad, 0xae, 0xaf,
   0xb0, 0xb1, 0xb2, 0xb3, 0xb4, 0xb5, 0xb6, 0xb7, 0xb8, 0xb9, 0xba, 0xbb, 0xbc, 0xbd, 0xbe, 0xbf,
   0xc0, 0xc1, 0xc2, 0xc3, 0xc4, 0xc5, 0xc6, 0xc7, 0xc8, 0xc9, 0xca, 0xcb, 0xcc, 0xcd, 0xce, 0xcf,
   0xd0, 0xd1, 0xd2, 0xd3, 0xd4, 0xd5, 0xd6, 0xd7, 0xd8, 0xd9, 0xda, 0xdb, 0xdc, 0xdd, 0xde, 0xdf,
   0xe0, 0xe1, 0xe2, 0xe3, 0xe4, 0xe5, 0xe6, 0xe7, 0xe8, 0xe9, 0xea, 0xeb, 0xec, 0xed, 0xee, 0xef,
   0xf0, 0xf1, 0xf2, 0xf3, 0xf4, 0xf5, 0xf6, 0xf7, 0xf8, 0xf9, 0xfa, 0xfb, 0xfc, 0xfd, 0xfe, 0xff]

/-- `tolower_ascii(c)`, src/arrays.c:1085. -/
def lowerAscii (c : UInt8) : UInt8 := lowerMap.getD c.toNat 0

/-- The loop of `binary_strcasecmp`, src/arrays.c:1094-1100 (first argument: remaining `len`); `none` when no
difference was found. -/
def casecmpLoop (a b : Bytes) : Nat → Nat → Res (Option Int)
  | 0, _ => .ok none
  | len + 1, i => do
    let x ← rd a i
    let y ← rd b i
    if lowerAscii x ≠ lowerAscii y then .ok (some ((lowerAscii x).toNat - (lowerAscii y).toNat : Int))
    else casecmpLoop a b len (i + 1)

/-- `(int)(len1 - len2)` of two `size_t`: reduction to 32 bits, two's complement. -/
def low32 (x : Int) : Int := (x + 2 ^ 31) % 2 ^ 32 - 2 ^ 31

/-- `binary_strcasecmp(s1, len1, s2, len2)`, src/arrays.c:1087-1103.  Simplified: the two pointers differ (equal
pointers are compared with equal lengths by every caller and give 0). -/
def binaryStrcasecmp (a : Bytes) (len1 : Nat) (b : Bytes) (len2 : Nat) : Res Int := do
  match ← casecmpLoop a b (min len1 len2) 0 with
  | some d => .ok d
  | none => .ok (low32 ((len1 : Int) - len2))

/-- `isspace` of the C locale. -/
def isSpace (c : UInt8) : Bool := c = 32 || (9 ≤ c && c ≤ 13)

/-- `ltrim`, src/arrays.c:789-792: index of the first non-space byte (first argument: bound on the scan). -/
def ltrimLoop (s : Bytes) : Nat → Nat → Res Nat
  | 0, _ => .ub
  | f + 1, i => do
    let c ← rd s i
    if isSpace c then ltrimLoop s f (i + 1) else .ok i

/-- `while (isspace(*--back));`, src/arrays.c:796; the argument is `back` before the decrement, the result `back`
afterwards.  Decrementing below the start of the object and reading there is undefined. -/
def rtrimLoop (s : Bytes) : Nat → Res Nat
  | 0 => .ub
  | back + 1 => do
    let c ← rd s back
    if isSpace c then rtrimLoop s back else .ok back

/-- `trim(s)`, src/arrays.c:789-803: the buffer afterwards and the offset of the returned pointer. -/
def trim (s : Bytes) : Res (Bytes × Nat) := do
  let i ← ltrimLoop s s.length 0
  let v ← strAt s i
  let back ← rtrimLoop s (i + v.length)
  let s ← wr s (back + 1) 0
  .ok (s, i)

/-- The table of `utoa2p`, src/arrays.c:1548-1554: nibble-swapped BCD of 0..49. -/
def pairs : List Nat :=
  [0x00, 0x10, 0x20, 0x30, 0x40, 0x50, 0x60, 0x70, 0x80, 0x90,
   0x01, 0x11, 0x21, 0x31, 0x41, 0x51, 0x61, 0x71, 0x81, 0x91,
   0x02, 0x12, 0x22, 0x32, 0x42, 0x52, 0x62, 0x72, 0x82, 0x92,
   0x03, 0x13, 0x23, 0x33, 0x43, 0x53, 0x63, 0x73, 0x83, 0x93,
   0x04, 0x14, 0x24, 0x34, 0x44, 0x54, 0x64, 0x74, 0x84, 0x94]

/-- `utoa2p(x)`, src/arrays.c:1547-1562, and the little-endian store of `utoa2p_ex`, :1564-1567: the two bytes.
Outside the table is undefined. -/
def utoa2p (x : Nat) : Res (UInt8 × UInt8) :=
  let b50 := decide (x ≥ 50)
  let x2 := if b50 then x - 50 else x
  match pairs[x2]? with
  | none => .ub
  | some p =>
    let t := p + (if b50 then 5 else 0)
    let r := ((t ||| t <<< 4) &&& 0x0f0f) ||| 0x3030
    .ok (UInt8.ofNat (r % 256), UInt8.ofNat (r / 256))

/-- The digit loop of `str_itoa`, src/arrays.c:1613-1621: `p` is the offset in `tmp`, the first argument bounds the
iterations.  Going below the start of `tmp` is undefined. -/
def itoaLoop : Nat → Nat → Bytes → Nat → Res (Bytes × Nat)
  | 0, _, _, _ => .ub
  | f + 1, x, tmp, p =>
    if p < 2 then .ub
    else if x ≥ 100 then do
      let (a, b) ← utoa2p (x % 100)
      let tmp ← wr tmp (p - 2) a
      let tmp ← wr tmp (p - 2 + 1) b
      itoaLoop f (x / 100) tmp (p - 2)
    else do
      let (a, b) ← utoa2p x
      let tmp ← wr tmp (p - 2) a
      let tmp ← wr tmp (p - 2 + 1) b
      .ok (tmp, p - 2 + (if x < 10 then 1 else 0))

/-- `str_itoa(x)` for a 64-bit `x`, src/arrays.c:1595-1631 (Linux branch): the scratch buffer afterwards and the
offset of the returned pointer.

* `x = abs(x)`: `abs` takes an `int`, so `x` is reduced to 32 bits first; `abs(INT_MIN)` is undefined.
* `memcpy(buf, p, 20)` reads 20 bytes from `p`, which lies inside the 20-byte local array `tmp`: whenever fewer than
  20 digits were produced this reads past `tmp`.  The bytes found there are the parameter `stack`; the model allows
  this read and returns how many bytes were taken from outside `tmp` as the last component.
* `tmp0` is the initial (indeterminate) content of `tmp`. -/
def strItoa (tmp0 stack buf : Bytes) (x : Int) : Res (Bytes × Nat × Nat) := do
  let buf ← wr buf 0 45
  let off := if x < 0 then 1 else 0
  let x32 := (x + 2 ^ 31) % 2 ^ 32 - 2 ^ 31
  if x32 = -2 ^ 31 then .ub
  else
    let (tmp, p) ← itoaLoop 11 x32.natAbs tmp0 20
    let len := 20 - p
    let buf ← memcpy buf off (tmp ++ stack) p 20
    let buf ← wr buf (off + len) 0
    .ok (buf, off, p)

/-- The first loop of `str_cat_ex`, src/arrays.c:401-402. -/
def catSize : List Bytes → Res Nat
  | [] => .ok 0
  | s :: ss => do
    let v ← strAt s 0
    let n ← catSize ss
    .ok (v.length + n)

/-- The second loop of `str_cat_ex`, src/arrays.c:408-412; `str_cpy(.., s, 0)` copies `strlen(s)` bytes. -/
def catLoop : List Bytes → Bytes → Nat → Res Bytes
  | [], res, _ => .ok res
  | s :: ss, res, off => do
    let v ← strAt s 0
    let res ← memcpy res off s 0 v.length
    catLoop ss res (off + v.length)

/-- `str_cat_ex(n, s1, …, sn)`, src/arrays.c:393-418; `none` for NULL (n = 0). -/
def strCatEx (args : List Bytes) : Res (Option Bytes) := do
  if args.length > 0 then
    let n ← catSize args
    let res ← catLoop args (calloc (alignUp2 (n + 1))) 0
    .ok (some res)
  else .ok none

/-- `strncat(b + off, s, n)`: append the first `n` bytes of the C string `s` and a NUL at the end of the C string
that starts at `off`. -/
def strncat (b : Bytes) (off : Nat) (s : Bytes) (n : Nat) : Res Bytes := do
  let cur ← strAt b off
  let v ← strAt s 0
  let add := v.take n
  memcpy b (off + cur.length) (add ++ [0]) 0 (add.length + 1)

/-- The copying loop of `str_cat_argv`, src/arrays.c:432-436 (with `_str_append`, :420-423); `first` says
`i == start`. -/
def argvLoop (delim : Bytes) : List Bytes → Bool → Bytes → Nat → Res Bytes
  | [], _, buf, _ => .ok buf
  | a :: as, first, buf, j => do
    let (buf, j) ← (if first then .ok (buf, j) else do
      let buf ← strncat buf j delim 1
      .ok (buf, j + 1) : Res (Bytes × Nat))
    let v ← strAt a 0
    let buf ← strncat buf j a v.length
    argvLoop delim as false buf (j + v.length)

/-- The length loop of `str_cat_argv`, src/arrays.c:427-429. -/
def argvSize : List Bytes → Res Nat
  | [] => .ok 0
  | a :: as => do
    let v ← strAt a 0
    let n ← argvSize as
    .ok (v.length + 1 + n)

/-- `str_cat_argv(argc, argv, start, delim)`, src/arrays.c:425-440; `args` is `argv[start..argc)` and `buf` the
static buffer `EVENTS_ARGS` as earlier calls left it (the result is its new content, the returned pointer is its
start). -/
def strCatArgv (buf : Bytes) (args : List Bytes) (delim : Bytes) : Res Bytes := do
  let len ← argvSize args
  let buf ← argvLoop delim args true buf 0
  if len = 0 then .ub   -- str[-1] = '\0'
  else wr buf (len - 1) 0

/-- The initial content of `EVENTS_ARGS`, src/arrays.c:3,29. -/
def eventsArgs0 : Bytes := calloc 32768

end Verif.Str
