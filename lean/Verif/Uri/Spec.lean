import Verif.Uri.Model

/-!
# Well-formed URIs
-/

namespace Verif.Uri
open Verif.Str

/-- The parts a URI is put together from; `none` is an absent part. -/
structure Parts where
  scheme : Bytes
  user : Option (Bytes × Option Bytes)
  host : Bytes
  port : Option Bytes
  path : Option Bytes
  query : Option Bytes
  fragment : Option Bytes

/-- `user@` or `user:pass@`. -/
def userText : Option (Bytes × Option Bytes) → Bytes
  | none => []
  | some (u, none) => u ++ [64]
  | some (u, some p) => u ++ [58] ++ p ++ [64]

/-- A part with its separator before it. -/
def optText (c : Bytes) : Option Bytes → Bytes
  | none => []
  | some t => c ++ t

def Parts.authority (p : Parts) : Bytes := userText p.user ++ (p.host ++ optText [58] p.port)
def Parts.tail (p : Parts) : Bytes := optText [] p.path ++ (optText [63] p.query ++ optText [35] p.fragment)

/-- `scheme://[user[:pass]@]host[:port][/path][?query][#fragment]`. -/
def Parts.text (p : Parts) : Bytes := p.scheme ++ 58 :: 47 :: 47 :: (p.authority ++ p.tail)

/-- No control character. -/
def Plain (s : Bytes) : Prop := ∀ c ∈ s, 32 ≤ c.toNat ∧ c.toNat ≠ 127

/-- None of the given separators. -/
def Free (seps : Bytes) (s : Bytes) : Prop := ∀ c ∈ seps, c ∉ s

/-- Letters, digits, `+`, `.` and `-`. -/
def SchemeText (s : Bytes) : Prop :=
  s ≠ [] ∧ ∀ c ∈ s, (65 ≤ c.toNat ∧ c.toNat ≤ 90) ∨ (97 ≤ c.toNat ∧ c.toNat ≤ 122) ∨ (48 ≤ c.toNat ∧ c.toNat ≤ 57) ∨ c = 43 ∨ c = 46 ∨ c = 45

/-- The parts are free of the characters that separate them (`:` 58, `@` 64, `/` 47, `?` 63, `#` 35; a host may have colons inside of
brackets 91 and 93) and of control characters. -/
structure WellFormed (p : Parts) : Prop where
  scheme : SchemeText p.scheme
  user : ∀ u w, p.user = some (u, w) → Free [58, 64, 47, 63, 35] u ∧ Plain u
  pass : ∀ u w, p.user = some (u, some w) → Free [64, 47, 63, 35] w ∧ Plain w
  host : p.host ≠ [] ∧ Free [64, 47, 63, 35] p.host ∧ Plain p.host
  colon : 58 ∉ p.host ∨ (p.host.head? = some 91 ∧ p.host.getLast? = some 93)
  port : ∀ t, p.port = some t → t ≠ [] ∧ t.length ≤ 5 ∧ (∀ c ∈ t, 48 ≤ c.toNat ∧ c.toNat ≤ 57) ∧ decValue t ≤ 65535
  path : ∀ t, p.path = some t → t.head? = some 47 ∧ Free [63, 35] t ∧ Plain t
  query : ∀ t, p.query = some t → t ≠ [] ∧ 35 ∉ t ∧ Plain t
  fragment : ∀ t, p.fragment = some t → t ≠ [] ∧ Plain t

/-- What the caller should find. -/
def Parts.uri (p : Parts) : Uri where
  scheme := some p.scheme
  user := p.user.map (·.1)
  pass := p.user.bind (·.2)
  host := some p.host
  port := (p.port.map decValue).getD 0
  path := p.path
  query := p.query
  fragment := p.fragment

end Verif.Uri
