import Verif.Mem

/-!
# RFC 4648 base64, stated with numbers
-/

namespace Verif.Str

/-- The character of a 6-bit value. -/
def sextet (v : Nat) : UInt8 :=
  if v < 26 then UInt8.ofNat (65 + v)            -- A..Z
  else if v < 52 then UInt8.ofNat (97 + (v - 26)) -- a..z
  else if v < 62 then UInt8.ofNat (48 + (v - 52)) -- 0..9
  else if v = 62 then 43 else 47                  -- + /

/-- Encoding: three bytes are a 24-bit number written as four base-64 digits; '=' pads. -/
def specEncode : Bytes → Bytes
  | [] => []
  | [a] =>
    let n := a.toNat * 65536
    [sextet (n / 262144), sextet (n / 4096 % 64), 61, 61]
  | [a, b] =>
    let n := a.toNat * 65536 + b.toNat * 256
    [sextet (n / 262144), sextet (n / 4096 % 64), sextet (n / 64 % 64), 61]
  | a :: b :: c :: r =>
    let n := a.toNat * 65536 + b.toNat * 256 + c.toNat
    [sextet (n / 262144), sextet (n / 4096 % 64), sextet (n / 64 % 64), sextet (n % 64)] ++ specEncode r

/-- The value of a character: its base-64 digit, 0 for '=', nothing for any other byte. -/
def digit (c : UInt8) : Option Nat :=
  let n := c.toNat
  if 65 ≤ n ∧ n ≤ 90 then some (n - 65)
  else if 97 ≤ n ∧ n ≤ 122 then some (n - 97 + 26)
  else if 48 ≤ n ∧ n ≤ 57 then some (n - 48 + 52)
  else if n = 43 then some 62
  else if n = 47 then some 63
  else if n = 61 then some 0
  else none

/-- Number of '=' among four characters. -/
def padOf (a b c d : UInt8) : Nat := [a, b, c, d].count 61

/-- Decoding of quadruples: each is a 24-bit number, i.e. three bytes; a quadruple with padding ends the text and
gives one byte less per '='; more than two '=' is an error. -/
def specDecode : Bytes → Option Bytes
  | a :: b :: c :: d :: r => do
    let n := (← digit a) * 262144 + (← digit b) * 4096 + (← digit c) * 64 + (← digit d)
    let bytes := [UInt8.ofNat (n / 65536), UInt8.ofNat (n / 256 % 256), UInt8.ofNat (n % 256)]
    match padOf a b c d with
    | 0 => (bytes ++ ·) <$> specDecode r
    | 1 => some (bytes.take 2)
    | 2 => some (bytes.take 1)
    | _ => none
  | [] => some []
  | _ => none

end Verif.Str
