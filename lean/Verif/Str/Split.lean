import Verif.Mem

/-!
# Model of the splitting and replacing functions of `src/arrays.c`

`str_split_ex` and `mem_split_ex` allocate one block holding first the pointer slots and then a copy of the text.
The model keeps the two regions apart: a list of pointer slots (`some off` is a pointer to offset `off` of the text
region, `none` is NULL) whose capacity is enforced, and the bytes of the text region.

Loops that C leaves only when a search fails take a `fuel` bound; running out of fuel is reported as `ub` and the
theorems show it does not happen for non-empty delimiters (for an empty delimiter the C loops never end).
-/

namespace Verif.Str

/-- Result block of a split. -/
structure SplitOut where
  ptrs : List (Option Nat)
  text : Bytes
  count : Nat
  deriving DecidableEq, Repr

/-- Store the next pointer slot (`*++ptrs = v`), undefined when it would leave the pointer area. -/
def pushPtr (cap : Nat) (ptrs : List (Option Nat)) (v : Option Nat) : Res (List (Option Nat)) :=
  if ptrs.length < cap then .ok (ptrs ++ [v]) else .ub

/-- The counting loop `while ((_s = strstr(_s, delim))) { _s += delimLen; ++nbWords; }`,
src/arrays.c:553-556 and 592-595. -/
def strCount (s d : Bytes) : Nat → Nat → Nat → Res Nat
  | 0, _, _ => .ub
  | fuel + 1, p, n => do
    match ← strstr s p d with
    | none => .ok n
    | some q => strCount s d fuel (q + d.length) (n + 1)

/-- The cutting loop of `str_split_ex`, src/arrays.c:564-568. -/
def strCut (d : Bytes) (cap : Nat) : Nat → Bytes → Nat → List (Option Nat) → Res (Bytes × List (Option Nat))
  | 0, _, _, _ => .ub
  | fuel + 1, text, p, ptrs => do
    match ← strstr text p d with
    | none => .ok (text, ptrs)
    | some q => do
      let text ← wr text q 0
      let ptrs ← pushPtr cap ptrs (some (q + d.length))
      strCut d cap fuel text (q + d.length) ptrs

/-- `str_split_ex(s, delim, &count)`, src/arrays.c:540-577, on memory images of C strings.
Simplified: `s` is not NULL, allocation succeeds, `count` is a natural number. -/
def strSplitEx (s delim : Bytes) : Res (Option SplitOut) := do
  let sv ← strAt s 0
  let d ← strAt delim 0
  if sv.length = 0 then .ok none
  else
    let nbWords ← strCount s d (sv.length + 1) 0 1
    let ptrsSize := (nbWords + 1) * 8
    let region := calloc (alignUp2 (ptrsSize + sv.length + 1) - ptrsSize)
    let text ← memcpy region 0 s 0 sv.length
    let ptrs ← pushPtr (nbWords + 1) [] (some 0)
    let (text, ptrs) ← (if nbWords > 1 then strCut d (nbWords + 1) (sv.length + 1) text 0 ptrs
      else .ok (text, ptrs) : Res (Bytes × List (Option Nat)))
    let ptrs ← pushPtr (nbWords + 1) ptrs none
    .ok (some { ptrs, text, count := nbWords })

/-- `memmem(b + p, n, needle, needle_len)`: first occurrence inside the `n` bytes at `p`; undefined if that range
leaves the object. -/
def memmem (b : Bytes) (p n : Nat) (needle : Bytes) : Res (Option Nat) :=
  if p + n ≤ b.length then
    .ok ((searchFrom ((b.drop p).take n) needle 0).map (p + ·))
  else .ub

/-- The counting loop of `mem_split_ex`, src/arrays.c:508-513; `p` is `haystack`, `n` is `sLen`. -/
def memCount (s d : Bytes) : Nat → Nat → Nat → Nat → Res Nat
  | 0, _, _, _ => .ub
  | fuel + 1, p, n, k => do
    match ← memmem s p n d with
    | none => .ok k
    | some q => memCount s d fuel (q + d.length) (n - (q + d.length - p)) (k + 1)

/-- The cutting loop of `mem_split_ex`, src/arrays.c:523-529. -/
def memCut (d : Bytes) (cap : Nat) : Nat → Bytes → Nat → Nat → List (Option Nat) → Res (Bytes × List (Option Nat))
  | 0, _, _, _, _ => .ub
  | fuel + 1, text, p, n, ptrs => do
    match ← memmem text p n d with
    | none => .ok (text, ptrs)
    | some q => do
      let text ← wr text q 0
      let ptrs ← pushPtr cap ptrs (some (q + d.length))
      memCut d cap fuel text (q + d.length) (n - (q + d.length - p)) ptrs

/-- `mem_split_ex(src, src_len, delim, &count)`, src/arrays.c:494-538 (same simplifications as `strSplitEx`). -/
def memSplitEx (src : Bytes) (srcLen : Nat) (delim : Bytes) : Res (Option SplitOut) := do
  let d ← strAt delim 0
  if srcLen = 0 then .ok none
  else
    let nbWords ← memCount src d (srcLen + 1) 0 srcLen 1
    let ptrsSize := (nbWords + 1) * 8
    let region := calloc (alignUp2 (ptrsSize + srcLen + 1) - ptrsSize)
    let text ← memcpy region 0 src 0 srcLen
    let ptrs ← pushPtr (nbWords + 1) [] (some 0)
    let (text, ptrs) ← (if nbWords > 1 then memCut d (nbWords + 1) (srcLen + 1) text 0 srcLen ptrs
      else .ok (text, ptrs) : Res (Bytes × List (Option Nat)))
    let ptrs ← pushPtr (nbWords + 1) ptrs none
    .ok (some { ptrs, text, count := nbWords })

/-- The loop of `str_explode`, src/arrays.c:601-611.  `arr` is the list of pointers appended so far, `isFirst` the
local flag. -/
def explodeLoop (d : Bytes) : Nat → Bytes → Nat → Bool → List Nat → Res (Bytes × List Nat)
  | 0, _, _, _, _ => .ub
  | fuel + 1, text, p, isFirst, arr => do
    match ← strstr text p d with
    | none => .ok (text, arr)
    | some q => do
      let text ← wr text q 0
      let arr := if isFirst then arr ++ [0] else arr
      explodeLoop d fuel text (q + d.length) false (arr ++ [q + d.length])

/-- `str_explode(s, delim)`, src/arrays.c:579-618: the text block and the pointers stored in the returned array
(`none` is NULL).  Simplified: the array is its list of items (its growth is the subject of C01/C02), allocation
succeeds. -/
def strExplode (s delim : Bytes) : Res (Option (Bytes × List Nat)) := do
  let sv ← strAt s 0
  if sv.length = 0 then .ok none
  else
    let d ← strAt delim 0
    let nbWords ← strCount s d (sv.length + 1) 0 0
    if nbWords > 0 then
      let region := calloc (alignUp2 (nbWords * 8 + sv.length + 1))
      let text ← memcpy region 0 s 0 sv.length
      let r ← explodeLoop d (sv.length + 1) text 0 true []
      .ok (some r)
    else .ok (some ([], []))

/-- The sizing loop of `str_swap_ex`, src/arrays.c:451-456: returns final `i` and `cnt`. -/
def swapCount (h d : Bytes) : Nat → Nat → Nat → Res (Nat × Nat)
  | 0, _, _ => .ub
  | fuel + 1, i, cnt => do
    let c ← rd h i
    if c = 0 then .ok (i, cnt)
    else
      let q ← strstr h i d
      if q = some i then swapCount h d fuel (i + d.length) (cnt + 1)
      else swapCount h d fuel (i + 1) cnt

/-- The copying loop of `str_swap_ex`, src/arrays.c:463-471; `p` is the haystack pointer, `i` the output index.
`str_cpy(&result[i], swap, newWlen)` is a `memcpy` of `newWlen` bytes (of `strlen(swap)` = 0 bytes if that is 0). -/
def swapLoop (h d sw : Bytes) : Nat → Bytes → Nat → Nat → Res (Bytes × Nat)
  | 0, _, _, _ => .ub
  | fuel + 1, out, p, i => do
    let c ← rd h p
    if c = 0 then .ok (out, i)
    else
      let q ← strstr h p d
      if q = some p then do
        let out ← memcpy out i sw 0 sw.length
        swapLoop h d sw fuel out (p + d.length) (i + sw.length)
      else do
        let out ← wr out i c
        swapLoop h d sw fuel out (p + 1) (i + 1)

/-- The allocation size of `str_swap_ex`, src/arrays.c:461, in `size_t` arithmetic (modulo 2^64):
`i + cnt * (newWlen - oldWlen) + 1`. -/
def swapSize (i cnt newLen oldLen : Nat) : Nat :=
  (((i : Int) + cnt * ((newLen : Int) - oldLen) + 1) % 2 ^ 64).toNat

/-- `str_swap_ex(haystack, needle, swap)`, src/arrays.c:442-475: the bytes of the returned block, `none` for NULL. -/
def strSwapEx (h needle swap : Bytes) : Res (Option Bytes) := do
  let hv ← strAt h 0
  let sw ← strAt swap 0
  let d ← strAt needle 0
  let (i, cnt) ← swapCount h d (hv.length + 1) 0 0
  if cnt = 0 then .ok none
  else
    let out := calloc (alignUp2 (swapSize i cnt sw.length d.length))
    let (out, i) ← swapLoop h d sw (hv.length + 1) out 0 0
    let out ← wr out i 0
    .ok (some out)

end Verif.Str
