import Verif.Mem

/-!
# Model of the base64 functions of `src/arrays.c`

Integer expressions are written on natural numbers (the promoted `int` values are small and non-negative); a store
to an `unsigned char` truncates modulo 256 (`UInt8.ofNat`).
-/

namespace Verif.Str

/-- `base64_table`, src/arrays.c:1641-1642 (65 bytes: 64 characters and the terminator). -/
def b64Table : Bytes :=
  [65, 66, 67, 68, 69, 70, 71, 72, 73, 74, 75, 76, 77, 78, 79, 80, 81, 82, 83, 84, 85, 86, 87, 88, 89, 90,
   97, 98, 99, 100, 101, 102, 103, 104, 105, 106, 107, 108, 109, 110, 111, 112, 113, 114, 115, 116, 117, 118, 119,
   120, 121, 122, 48, 49, 50, 51, 52, 53, 54, 55, 56, 57, 43, 47, 0]

/-- `base64_decode_table`, src/arrays.c:1644-1666. -/
def b64DecTable : Bytes := [
  0x80, 0x80, 0x80, 0x80, 0x80, 0x80, 0x80, 0x80, 0x80, 0x80, 0x80, 0x80, 0x80, 0x80, 0x80, 0x80,
  0x80, 0x80, 0x80, 0x80, 0x80, 0x80, 0x80, 0x80, 0x80, 0x80, 0x80, 0x80, 0x80, 0x80, 0x80, 0x80,
  0x80, 0x80, 0x80, 0x80, 0x80, 0x80, 0x80, 0x80, 0x80, 0x80, 0x80, 0x3e, 0x80, 0x80, 0x80, 0x3f,
  0x34, 0x35, 0x36, 0x37, 0x38, 0x39, 0x3a, 0x3b, 0x3c, 0x3d, 0x80, 0x80, 0x80, 0x00, 0x80, 0x80,
  0x80, 0x00, 0x01, 0x02, 0x03, 0x04, 0x05, 0x06, 0x07, 0x08, 0x09, 0x0a, 0x0b, 0x0c, 0x0d, 0x0e,
  0x0f, 0x10, 0x11, 0x12, 0x13, 0x14, 0x15, 0x16, 0x17, 0x18, 0x19, 0x80, 0x80, 0x80, 0x80, 0x80,
  0x80, 0x1a, 0x1b, 0x1c, 0x1d, 0x1e, 0x1f, 0x20, 0x21, 0x22, 0x23, 0x24, 0x25, 0x26, 0x27, 0x28,
  0x29, 0x2a, 0x2b, 0x2c, 0x2d, 0x2e, 0x2f, 0x30, 0x31, 0x32, 0x33, 0x80, 0x80, 0x80, 0x80, 0x80,
  0x80, 0x80, 0x80, 0x80, 0x80, 0x80, 0x80, 0x80, 0x80, 0x80, 0x80, 0x80, 0x80, 0x80, 0x80, 0x80,
  0x80, 0x80, 0x80, 0x80, 0x80, 0x80, 0x80, 0x80, 0x80, 0x80, 0x80, 0x80, 0x80, 0x80, 0x80, 0x80,
  0x80, 0x80, 0x80, 0x80, 0x80, 0x80, 0x80, 0x80, 0x80, 0x80, 0x80, 0x80, 0x80, 0x80, 0x80, 0x80,
  0x80, 0x80, 0x80, 0x80, 0x80, 0x80, 0x80, 0x80, 0x80, 0x80, 0x80, 0x80, 0x80, 0x80, 0x80, 0x80,
  0x80, 0x80, 0x80, 0x80, 0x80, 0x80, 0x80, 0x80, 0x80, 0x80, 0x80, 0x80, 0x80, 0x80, 0x80, 0x80,
  0x80, 0x80, 0x80, 0x80, 0x80, 0x80, 0x80, 0x80, 0x80, 0x80, 0x80, 0x80, 0x80, 0x80, 0x80, 0x80,
  0x80, 0x80, 0x80, 0x80, 0x80, 0x80, 0x80, 0x80, 0x80, 0x80, 0x80, 0x80, 0x80, 0x80, 0x80, 0x80,
  0x80, 0x80, 0x80, 0x80, 0x80, 0x80, 0x80, 0x80, 0x80, 0x80, 0x80, 0x80, 0x80, 0x80, 0x80, 0x80]

/-- `base64_decode_table[c]`: the index is an `unsigned char`, the table has 256 entries. -/
def decOf (c : UInt8) : Res UInt8 := rd b64DecTable c.toNat

/-- `str_base64_len(decoded_len)`, src/arrays.c:1668-1671, in `size_t` arithmetic.  The mask `~3u` is the 32-bit
value 0xfffffffc and is zero-extended. -/
def b64Len (n : Nat) : Nat := ((4 * n % 2 ^ 64) / 3 + 3) % 2 ^ 64 &&& 0xfffffffc

/-- The loop of `str_is_base64`, src/arrays.c:1678-1681; `r` is `len - i`. -/
def isB64Loop (src : Bytes) : Nat → Nat → Res Bool
  | 0, _ => .ok true
  | r + 1, i => do
    let c ← rd src i
    let t ← decOf c
    if t = 0x80 then .ok false else isB64Loop src r (i + 1)

/-- `str_is_base64(src)`, src/arrays.c:1673-1684.  Simplified: `src` is not NULL. -/
def strIsBase64 (src : Bytes) : Res Bool := do
  let s ← strAt src 0
  if s.length = 0 then .ok false else isB64Loop src s.length 0

/-- `base64_table[i]`. -/
def encOf (i : Nat) : Res UInt8 := rd b64Table i

/-- The main loop and the tail of `str_encode64`, src/arrays.c:1704-1723; the first argument is `end - begin`. -/
def encLoop (src : Bytes) : Nat → Nat → Nat → Bytes → Res (Bytes × Nat)
  | 0, _, pos, dst => .ok (dst, pos)
  | 1, b, pos, dst => do
    let x0 ← rd src b
    let dst ← wr dst pos (← encOf (x0.toNat >>> 2))
    let dst ← wr dst (pos + 1) (← encOf ((x0.toNat &&& 0x03) <<< 4))
    let dst ← wr dst (pos + 2) 61
    let dst ← wr dst (pos + 3) 61
    .ok (dst, pos + 4)
  | 2, b, pos, dst => do
    let x0 ← rd src b
    let x1 ← rd src (b + 1)
    let dst ← wr dst pos (← encOf (x0.toNat >>> 2))
    let dst ← wr dst (pos + 1) (← encOf ((x0.toNat &&& 0x03) <<< 4 ||| x1.toNat >>> 4))
    let dst ← wr dst (pos + 2) (← encOf ((x1.toNat &&& 0x0f) <<< 2))
    let dst ← wr dst (pos + 3) 61
    .ok (dst, pos + 4)
  | r + 3, b, pos, dst => do
    let x0 ← rd src b
    let x1 ← rd src (b + 1)
    let x2 ← rd src (b + 2)
    let dst ← wr dst pos (← encOf (x0.toNat >>> 2))
    let dst ← wr dst (pos + 1) (← encOf ((x0.toNat &&& 0x03) <<< 4 ||| x1.toNat >>> 4))
    let dst ← wr dst (pos + 2) (← encOf ((x1.toNat &&& 0x0f) <<< 2 ||| x2.toNat >>> 6))
    let dst ← wr dst (pos + 3) (← encOf (x2.toNat &&& 0x3f))
    encLoop src r (b + 3) (pos + 4) dst

/-- `str_encode64(src, dst, dst_len)`, src/arrays.c:1686-1726: the bytes of `dst` afterwards, `none` for NULL
(nothing written).  `dst_len` is the real size of `dst`.  Simplified: `src` and `dst` are not NULL. -/
def strEncode64 (src dst : Bytes) : Res (Option Bytes) := do
  let s ← strAt src 0
  if s.length = 0 then .ok none
  else if dst.length < b64Len s.length + 1 then .ok none
  else
    let (dst, pos) ← encLoop src s.length 0 0 dst
    let dst ← wr dst pos 0
    .ok (some dst)

/-- The counting loop of `str_decode64`, src/arrays.c:1747-1750. -/
def decCount (src : Bytes) : Nat → Nat → Nat → Res Nat
  | 0, _, n => .ok n
  | r + 1, i, n => do
    let c ← rd src i
    let t ← decOf c
    decCount src r (i + 1) (if t ≠ 0x80 then n + 1 else n)

/-- The decoding loop of `str_decode64`, src/arrays.c:1759-1785; `r` is `len - i`, `block` the four-byte array.
The result is the buffer and final `pos`, or `none` for the `return NULL` on bad padding. -/
def decLoop (src : Bytes) : Nat → Nat → Nat → Bytes → Nat → Nat → Bytes → Res (Option (Bytes × Nat))
  | 0, _, _, _, _, pos, dst => .ok (some (dst, pos))
  | r + 1, i, count, block, pad, pos, dst => do
    let c ← rd src i
    let tmp ← decOf c
    if tmp = 0x80 then decLoop src r (i + 1) count block pad pos dst
    else
      let pad := if c = 61 then pad + 1 else pad
      let block ← wr block count tmp
      if count + 1 = 4 then
        let b0 ← rd block 0
        let b1 ← rd block 1
        let b2 ← rd block 2
        let b3 ← rd block 3
        let dst ← wr dst pos (UInt8.ofNat (b0.toNat <<< 2 ||| b1.toNat >>> 4))
        let dst ← wr dst (pos + 1) (UInt8.ofNat (b1.toNat <<< 4 ||| b2.toNat >>> 2))
        let dst ← wr dst (pos + 2) (UInt8.ofNat (b2.toNat <<< 6 ||| b3.toNat))
        if pad = 0 then decLoop src r (i + 1) 0 block pad (pos + 3) dst
        else if pad = 1 then .ok (some (dst, pos + 2))
        else if pad = 2 then .ok (some (dst, pos + 1))
        else .ok none
      else decLoop src r (i + 1) (count + 1) block pad pos dst

/-- `str_decode64(src, dst, dst_len)`, src/arrays.c:1728-1790: the bytes of `dst` afterwards, `none` for NULL.
`junk` is the initial content of the local array `block[4]`.  Simplified as for `strEncode64`; after
`return NULL` for bad padding the (partly written) buffer is not modelled, but every write is checked. -/
def strDecode64 (junk src dst : Bytes) : Res (Option Bytes) := do
  if ← strIsBase64 src then
    let s ← strAt src 0
    if dst.length < (s.length + 2) / 3 * 4 + 1 then .ok none
    else
      let count ← decCount src s.length 0 0
      if count = 0 ∨ count % 4 ≠ 0 then .ok none
      else
        match ← decLoop src s.length 0 0 junk 0 0 dst with
        | none => .ok none
        | some (dst, pos) => do
          let dst ← wr dst pos 0
          .ok (some dst)
  else .ok none

end Verif.Str
