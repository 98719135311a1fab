import Verif.Str.Misc
import Verif.Str.MiscSpec
import Mathlib.Data.List.TakeWhile
import Mathlib.Data.List.Infix

/-!
# The URI parser (`src/arrays.c` 1282-1545)

A pointer range `[s, e)` into the text is the list of its bytes.  The text is a C string: a read at its end finds the NUL, which is none
of the characters looked for, so the guards `s < ue` need no separate treatment.  The classification functions are those of the C
locale.  Memory is not short.
-/

namespace Verif.Uri
open Verif.Str

/-- `isalpha`, `isdigit`, `iscntrl`. -/
def isAlpha (c : UInt8) : Bool := (65 ≤ c.toNat && c.toNat ≤ 90) || (97 ≤ c.toNat && c.toNat ≤ 122)
def isDigit (c : UInt8) : Bool := 48 ≤ c.toNat && c.toNat ≤ 57
def isCntrl (c : UInt8) : Bool := c.toNat < 32 || c.toNat == 127

/-- The result, `uri_t`; `none` is NULL and `port` 0 is the initial value. -/
structure Uri where
  scheme : Option Bytes := none
  user : Option Bytes := none
  pass : Option Bytes := none
  host : Option Bytes := none
  port : Nat := 0
  path : Option Bytes := none
  query : Option Bytes := none
  fragment : Option Bytes := none
  deriving DecidableEq

/-- `memchr` and `str_memrchr` (src/arrays.c:1128-1136): place of the first and of the last `c`. -/
def find (l : Bytes) (c : UInt8) : Option Nat := l.findIdx? (· == c)
def rfind (l : Bytes) (c : UInt8) : Option Nat := (l.reverse.findIdx? (· == c)).map (l.length - 1 - ·)

/-- `binary_strcspn`, src/arrays.c:1107-1114: the end moves to the first occurrence of each character in turn. -/
def cspn (l : Bytes) (chars : Bytes) : Nat := chars.foldl (fun e c => (find (l.take e) c).getD e) l.length

/-- A component: a copy (`str_trim`, `uri_dup`) in which `replace_ctrl_ex` (src/arrays.c:1116-1126) has put `_` for control characters. -/
def comp (l : Bytes) : Bytes := l.map fun c => if isCntrl c then 95 else c

/-- Optional sign. -/
def signed : Bytes → Bool × Bytes
  | 45 :: t => (true, t)
  | 43 :: t => (false, t)
  | t => (false, t)

/-- `strtol(buf, &end, 10)` on a copy of at most five bytes; `none` if `end == buf`. -/
def strtol10 (l : Bytes) : Option Int :=
  let s := signed (l.dropWhile isSpace)
  let ds := s.2.takeWhile isDigit
  if ds = [] then none else some (if s.1 then -(decValue ds : Int) else decValue ds)

/-- The fragment, src/arrays.c:1482-1490: the record and the text before `#`. -/
def takeFragment (u : Uri) (l : Bytes) : Uri × Bytes :=
  match find l 35 with
  | some p => (if p + 1 < l.length then { u with fragment := some (comp (l.drop (p + 1))) } else u, l.take p)
  | none => (u, l)

/-- The query, src/arrays.c:1492-1500: the record and the text before `?`. -/
def takeQuery (u : Uri) (l : Bytes) : Uri × Bytes :=
  match find l 63 with
  | some p => (if p + 1 < l.length then { u with query := some (comp (l.drop (p + 1))) } else u, l.take p)
  | none => (u, l)

/-- The label `just_path`, src/arrays.c:1480-1508, on the text from `s` to the end. -/
def justPath (u : Uri) (l : Bytes) : Uri :=
  let f := takeFragment u l
  let q := takeQuery f.1 f.2
  if q.2 ≠ [] ∨ l = [] then { q.1 with path := some (comp q.2) } else q.1

/-- Login and password, src/arrays.c:1412-1427: the record and the rest of the authority. -/
def login (u : Uri) (auth : Bytes) : Uri × Bytes :=
  match rfind auth 64 with
  | some p =>
    let up := auth.take p
    (match find up 58 with
      | some q => { u with user := some (comp (up.take q)), pass := some (comp (up.drop (q + 1))) }
      | none => { u with user := some (comp up) }, auth.drop (p + 1))
  | none => (u, auth)

/-- Port and host, src/arrays.c:1429-1471: `none` is a rejection. -/
def hostPort (u : Uri) (hp : Bytes) : Option Uri :=
  let colon := if hp.head? = some 91 ∧ hp.getLast? = some 93 then none else rfind hp 58
  match colon with
  | some k =>
    let t := hp.drop (k + 1)
    let port :=
      if u.port ≠ 0 ∨ t = [] then some u.port
      else if 5 < t.length then none
      else match strtol10 t with
        | some v => if 0 ≤ v ∧ v ≤ 65535 then some v.toNat else none
        | none => none
    match port with
    | some n => if k = 0 then none else some { u with port := n, host := some (comp (hp.take k)) }
    | none => none
  | none => if hp = [] then none else some { u with host := some (comp hp) }

/-- The label `parse_host`, src/arrays.c:1409-1478, on the text from `s` to the end. -/
def parseHost (u : Uri) (l : Bytes) : Option Uri :=
  let e := cspn l [47, 63, 35]
  let (u, hp) := login u (l.take e)
  match hostPort u hp with
  | some u => if l.drop e = [] then some u else some (justPath u (l.drop e))
  | none => none

/-- `s + 1 < ue && *s == '/' && *(s + 1) == '/'`. -/
def twoSlashes (l : Bytes) : Bool := l.head? = some 47 && l[1]? = some 47

/-- The label `parse_port`, src/arrays.c:1371-1402; `e` is the place of the colon. -/
def parsePort (u : Uri) (str : Bytes) (e : Nat) : Option Uri :=
  let after := str.drop (e + 1)
  let ds := (after.take 6).takeWhile isDigit
  let rest := after.drop ds.length
  let s := if twoSlashes str then str.drop 2 else str
  if 0 < ds.length ∧ ds.length < 6 ∧ (rest = [] ∨ rest.head? = some 47) then
    if decValue ds ≤ 65535 then parseHost { u with port := decValue ds } s else none
  else if ds = [] ∧ after = [] then none
  else if twoSlashes str then parseHost u s
  else some (justPath u str)

/-- A character that a scheme may have. -/
def schemeChar (c : UInt8) : Bool := isAlpha c || isDigit c || c == 43 || c == 46 || c == 45

/-- `tolower_ascii`. -/
def lower (c : UInt8) : UInt8 := if 65 ≤ c.toNat ∧ c.toNat ≤ 90 then c + 32 else c

/-- `url_parse_ex2(str, strlen(str), …)`, src/arrays.c:1282-1509; `none` is a rejected URI. -/
def urlParse (str : Bytes) : Option Uri :=
  match find str 58 with
  | some 0 => parsePort {} str 0
  | some e =>
    let sch := str.take e
    let after := str.drop (e + 1)
    if ¬ sch.all schemeChar then
      if after ≠ [] ∧ e < cspn str [63, 35] then parsePort {} str e
      else if twoSlashes str then parseHost {} (str.drop 2)
      else some (justPath {} str)
    else if after = [] then some { scheme := some (comp sch) }
    else if after.head? ≠ some 47 then
      let run := after.takeWhile isDigit
      let rest := after.drop run.length
      if (rest = [] ∨ rest.head? = some 47) ∧ run.length < 6 then parsePort {} str e
      else some (justPath { scheme := some (comp sch) } after)
    else if after[1]? = some 47 then
      let l := after.drop 2
      if (comp sch).map lower = [102, 105, 108, 101] ∧ l.head? = some 47 then
        some (justPath { scheme := some (comp sch) } (if l[2]? = some 58 then l.drop 1 else l))
      else parseHost { scheme := some (comp sch) } l
    else some (justPath { scheme := some (comp sch) } after)
  | none =>
    if twoSlashes str then parseHost {} (str.drop 2) else some (justPath {} str)

/-- `parse_uri` and `parse_uri_ex`, src/arrays.c:1516-1545: NULL for an empty text, a rejected URI, one without host, and one whose host has
no dot and is not the name of this machine.  The `type` is left out (see C60), as is who frees the record. -/
def parseUri (hostname : Bytes) (str : Bytes) : Option Uri :=
  if str = [] then none
  else match urlParse str with
    | none => none
    | some u => match u.host with
      | none => none
      | some h => if 46 ∈ h ∨ h = hostname then some u else none

end Verif.Uri
