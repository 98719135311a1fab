import Verif.Mem

/-!
# Model of the search functions of `src/arrays.c`
-/

namespace Verif.Str

/-- The conversion `(int)n` of a `size_t` (gcc: reduction modulo 2^32 to the signed range). -/
def toInt32 (n : Nat) : Int := ((n + 2 ^ 31) % 2 ^ 32 : Nat) - 2 ^ 31

/-- The inner `for (d = 0; d < match_length; d++)` of `mempos`, src/arrays.c:845-849; `r` is
`match_length - d`.  Returns the final `d`. -/
def cmpLoop (src mt : Bytes) (e d : Nat) : Nat → Res Nat
  | 0 => .ok d
  | r + 1 => do
    let x ← rd mt d
    let y ← rd src e
    if x = y then cmpLoop src mt (e + 1) (d + 1) r else .ok d

/-- The outer loop of `mempos`, src/arrays.c:843-853; `r` is the number of remaining values of `c`. -/
def scanLoop (src mt : Bytes) (mlen c : Nat) : Nat → Res Int
  | 0 => .ok (-1)
  | r + 1 => do
    let d ← cmpLoop src mt c 0 mlen
    if d = mlen then .ok (toInt32 c) else scanLoop src mt mlen (c + 1) r

/-- `mempos(src, src_length, match, match_length)`, src/arrays.c:834-856.
Simplified: NULL arguments (which return `DATA_INVALID` = -1) are not modelled. -/
def mempos (src : Bytes) (slen : Nat) (mt : Bytes) (mlen : Nat) : Res Int :=
  if mlen > slen then .ok (-1) else scanLoop src mt mlen 0 (slen - mlen + 1)

/-- `str_pos(text, pattern)`, src/arrays.c:969-975, on the memory images of two C strings. -/
def strPos (text pattern : Bytes) : Res Int := do
  let t ← strAt text 0
  let p ← strAt pattern 0
  mempos text t.length pattern p.length

/-- `mempos_str(msg, msg_len, pattern)`, src/arrays.c:830-832: `msg` needs no terminator. -/
def memposStr (msg : Bytes) (mlen : Nat) (pattern : Bytes) : Res Int := do
  let p ← strAt pattern 0
  mempos msg mlen pattern p.length

/-- `str_has(text, pattern)`, src/arrays.c:977-979. -/
def strHas (text pattern : Bytes) : Res Bool := do
  let r ← strPos text pattern
  .ok (decide (r ≥ 0))

/-- `memcmp(a + i, b + j, n) == 0`. -/
def memeq (a : Bytes) (i : Nat) (b : Bytes) (j n : Nat) : Res Bool :=
  if i + n ≤ a.length ∧ j + n ≤ b.length then .ok ((a.drop i).take n == (b.drop j).take n) else .ub

/-- The `while (p <= end)` of `str_memnstr`, src/arrays.c:741-752.  `e` is the reduced `end`.
`fuel` bounds the iterations; running out is reported as `ub` and shown unreachable. -/
def memnstrLoop (h needle : Bytes) (e : Nat) : Nat → Nat → Res (Option Nat)
  | 0, _ => .ub
  | fuel + 1, p => do
    if p ≤ e then
      let c ← rd needle 0
      let q ← memchr h p c (e - p + 1)
      match q with
      | none => .ok none
      | some p => do
        let ne ← rd needle (needle.length - 1)
        let x ← rd h (p + needle.length - 1)
        let same ← memeq needle 1 h (p + 1) (needle.length - 2)
        if ne = x ∧ same = true then .ok (some p) else memnstrLoop h needle e fuel (p + 1)
    else .ok none

/-- `str_memnstr(haystack + p, needle, needle_len, haystack + end)`, src/arrays.c:723-756.
Simplified: C evaluates `memcmp` only when the last byte matches; the model evaluates both, which is equivalent
because both are in bounds together. `needle` is given without its terminator, `needle_len` is its length. -/
def memnstr (h needle : Bytes) (p e : Nat) : Res (Option Nat) := do
  if needle.length = 1 then
    let c ← rd needle 0
    memchr h p c (e - p)
  else if needle.length = 0 then .ok (some p)
  else if needle.length > e - p then .ok none
  else memnstrLoop h needle (e - needle.length) (e - p + 1) p

/-- The single-byte counting loop of `mem_subcount`, src/arrays.c:772-775 (fuel as above). -/
def countChrLoop (h : Bytes) (endp : Nat) (c : UInt8) : Nat → Nat → Nat → Res Nat
  | 0, _, _ => .ub
  | fuel + 1, p, count => do
    let q ← memchr h p c (endp - p)
    match q with
    | none => .ok count
    | some p => countChrLoop h endp c fuel (p + 1) (count + 1)

/-- The general counting loop of `mem_subcount`, src/arrays.c:777-780 (fuel as above). -/
def countStrLoop (h needle : Bytes) (endp : Nat) : Nat → Nat → Nat → Res Nat
  | 0, _, _ => .ub
  | fuel + 1, p, count => do
    let q ← memnstr h needle p endp
    match q with
    | none => .ok count
    | some p => countStrLoop h needle endp fuel (p + needle.length) (count + 1)

/-- `mem_subcount(src, src_len, pattern)`, src/arrays.c:758-783.  Simplified: the `int` counter is a natural
number (it cannot wrap below 2^31 bytes of text). -/
def memSubcount (src : Bytes) (slen : Nat) (pattern : Bytes) : Res Nat := do
  let needle ← strAt pattern 0
  if needle.length = 0 then .ok 0
  else if needle.length = 1 then
    let c ← rd pattern 0
    countChrLoop src slen c (slen + 1) 0 0
  else countStrLoop src needle slen (slen + 1) 0 0

/-- `str_subcount(text, pattern)`, src/arrays.c:785-787. -/
def strSubcount (text pattern : Bytes) : Res Nat := do
  let t ← strAt text 0
  memSubcount text t.length pattern

/-- The transport classes of `scheme_type`, src/arrays.c:1053-1064. -/
inductive Transport where
  | tcp | tls | pipe | udp | unknown
  deriving DecidableEq, Repr

/-- "http,tcp,ws,ftp" -/
def tcpNames : Bytes := "http,tcp,ws,ftp".toUTF8.toList
/-- "https,tls,ssl,wss,ftps" -/
def tlsNames : Bytes := "https,tls,ssl,wss,ftps".toUTF8.toList
/-- "file,unix" -/
def pipeNames : Bytes := "file,unix".toUTF8.toList
/-- "udp" -/
def udpName : Bytes := "udp".toUTF8.toList

/-- `scheme_type(scheme)`, src/arrays.c:1053-1064. -/
def schemeType (scheme : Bytes) : Res Transport := do
  if ← strHas (cstr tcpNames) scheme then .ok .tcp
  else if ← strHas (cstr tlsNames) scheme then .ok .tls
  else if ← strHas (cstr pipeNames) scheme then .ok .pipe
  else if ← strHas scheme (cstr udpName) then .ok .udp
  else .ok .unknown

/-- The inner loop of `str_has_either`, src/arrays.c:817-821. -/
def eitherCmp (src m1 m2 : Bytes) (e d : Nat) : Nat → Res Nat
  | 0 => .ok d
  | r + 1 => do
    let y ← rd src e
    let x ← rd m1 d
    if x = y then eitherCmp src m1 m2 (e + 1) (d + 1) r
    else
      let x2 ← rd m2 d
      if x2 = y then eitherCmp src m1 m2 (e + 1) (d + 1) r else .ok d

/-- The outer loop of `str_has_either`, src/arrays.c:815-825. -/
def eitherScan (src m1 m2 : Bytes) (mlen c : Nat) : Nat → Res Bool
  | 0 => .ok false
  | r + 1 => do
    let d ← eitherCmp src m1 m2 c 0 mlen
    if d = mlen then .ok true else eitherScan src m1 m2 mlen (c + 1) r

/-- `str_has_either(src, match, match2)`, src/arrays.c:805-828. -/
def strHasEither (src m1 m2 : Bytes) : Res Bool := do
  let s ← strAt src 0
  let m ← strAt m1 0
  if m.length > s.length then .ok false
  else eitherScan src m1 m2 m.length 0 (s.length - m.length + 1)

end Verif.Str
