import Verif.Uri.Model
import Verif.Str.SearchProps

/-!
# Freeing a parsed URI, C224

`uri_free` (src/arrays.c:1218-1250) and the ends of `parse_uri_ex` (src/arrays.c:1516-1530).
-/

namespace Verif.Uri
open Verif.Str

/-- The blocks of memory a parsed URI may consist of. -/
inductive Part where
  | scheme | user | pass | host | path | query | fragment | record
  deriving DecidableEq, Repr

/-- `p`, if there is such a block. -/
def block {α : Type} (x : Option α) (p : Part) : List Part := if x.isSome then [p] else []

/-- The fields that are not NULL, and the record. -/
def blocks (u : Uri) : List Part :=
  block u.scheme .scheme ++ block u.user .user ++ block u.pass .pass ++ block u.host .host ++ block u.path .path ++
    block u.query .query ++ block u.fragment .fragment ++ [.record]

/-- `DATA_UDP`, `DATA_TCP`, `DATA_PIPE`, `DATA_TLS` and `-DATA_MAXCOUNTER`, include/arrays.h:36-92. -/
def code : Transport → Int
  | .udp => 41
  | .tcp => 42
  | .pipe => 43
  | .tls => 45
  | .unknown => -52

/-- `scheme_type(uri->scheme)`, src/arrays.c:1053-1064; without a scheme no test succeeds. -/
def typeOf : Option Bytes → Res Int
  | none => .ok (code .unknown)
  | some s => do
    let t ← schemeType (cstr s)
    .ok (code t)

/-- `uri_free`, src/arrays.c:1218-1250: the blocks freed, in order.  `DATA_GENERATOR` is 40 and `DATA_WATCH` 46. -/
def uriFree (type : Int) (rejected autofree : Bool) (u : Uri) : List Part :=
  if (40 < type ∧ type < 46) ∨ (type = -52 ∧ rejected = true) then
    if autofree then [] else blocks u
  else []

/-- `parse_uri_ex`, src/arrays.c:1516-1530, of a text that is not empty: the URI with its type, or what is freed before NULL is returned.  The
type is that of `calloc`, 0, until line 1528.  `u0` is what `url_parse_ex2` has filled in of a URI it rejects. -/
def parseEx (hostname str : Bytes) (u0 : Uri) : Res (Uri × Int ⊕ List Part) :=
  match urlParse str with
  | none => .ok (.inr (uriFree 0 true false u0))
  | some u => match u.host with
    | none => .ok (.inr (uriFree 0 false false u))
    | some h =>
      if 46 ∈ h ∨ h = hostname then do
        let t ← typeOf u.scheme
        .ok (.inl (u, t))
      else .ok (.inr (uriFree 0 false false u))

/-- A URI is given back as by `parse_uri` of the model. -/
theorem parseEx_parseUri (hostname str : Bytes) (hs : str ≠ []) (u0 u : Uri) (t : Int) (h : parseEx hostname str u0 = .ok (.inl (u, t))) :
    parseUri hostname str = some u ∧ typeOf u.scheme = .ok t := by
  unfold parseEx at h
  unfold parseUri
  rw [if_neg hs]
  cases hp : urlParse str with
  | none => rw [hp] at h; cases h
  | some v =>
    rw [hp] at h
    dsimp only at h ⊢
    cases hh : v.host with
    | none => rw [hh] at h; cases h
    | some x =>
      rw [hh] at h
      dsimp only at h ⊢
      split at h
      · rename_i hd
        rw [if_pos hd]
        cases ht : typeOf v.scheme with
        | ub => rw [ht] at h; cases h
        | ok z =>
          rw [ht] at h
          cases h
          exact ⟨rfl, ht⟩
      · cases h

/-- **C224, the part that holds.**  A URI whose scheme is known (contains `udp`, or is a piece of one of the lists) is freed completely by
`uri_free`: each field that is not NULL, and the record, once. -/
theorem known_scheme_freed_partial (u : Uri) (s : Bytes) (hs : NulFree s) (hlen : s.length < 2 ^ 31) (hu : u.scheme = some s)
    (hk : s <:+: "http,tcp,ws,ftp".toUTF8.toList ∨ s <:+: "https,tls,ssl,wss,ftps".toUTF8.toList ∨ s <:+: "file,unix".toUTF8.toList ∨
      "udp".toUTF8.toList <:+: s) :
    ∃ t, typeOf u.scheme = .ok t ∧ (uriFree t false false u).Nodup ∧
      (∀ p, p ∈ uriFree t false false u ↔
        match p with
        | .scheme => u.scheme ≠ none
        | .user => u.user ≠ none
        | .pass => u.pass ≠ none
        | .host => u.host ≠ none
        | .path => u.path ≠ none
        | .query => u.query ≠ none
        | .fragment => u.fragment ≠ none
        | .record => True) := by
  have ht : ∃ t, typeOf u.scheme = .ok t ∧ 40 < t ∧ t < 46 := by
    rw [hu]
    simp only [typeOf]
    rw [scheme_type_spec s hs hlen]
    simp only [Res.ok_bind]
    split
    · exact ⟨_, rfl, by decide⟩
    · split
      · exact ⟨_, rfl, by decide⟩
      · split
        · exact ⟨_, rfl, by decide⟩
        · split
          · exact ⟨_, rfl, by decide⟩
          · rename_i h1 h2 h3 h4
            rcases hk with h | h | h | h <;> contradiction
  obtain ⟨t, ht, h1, h2⟩ := ht
  refine ⟨t, ht, ?_⟩
  have e : uriFree t false false u = blocks u := by
    unfold uriFree
    rw [if_pos (Or.inl ⟨h1, h2⟩)]
    rfl
  rw [e]
  refine ⟨?_, fun p => ?_⟩
  · unfold blocks block
    cases u.scheme <;> cases u.user <;> cases u.pass <;> cases u.host <;> cases u.path <;> cases u.query <;> cases u.fragment <;>
      simp
  · unfold blocks block
    cases p <;> simp [← Option.isSome_iff_ne_none]

/-- **C224 is false of the code for URIs with another scheme, or none**: nothing is freed, whatever the URI. -/
theorem unknown_scheme_leaks (u : Uri) (t : Int) (ht : typeOf u.scheme = .ok t)
    (hu : u.scheme = none ∨ ∃ s, u.scheme = some s ∧ schemeType (cstr s) = .ok .unknown) : uriFree t false false u = [] := by
  have : t = -52 := by
    rcases hu with hu | ⟨s, hu, hs⟩
    · rw [hu] at ht
      cases ht
      rfl
    · rw [hu] at ht
      simp only [typeOf, hs, Res.ok_bind] at ht
      cases ht
      rfl
  subst this
  simp [uriFree]

/-- **C224 is false of the code for texts that are no URI**: `parse_uri_ex` returns NULL, and frees nothing of what it has allocated. -/
theorem rejected_leaks (hostname str : Bytes) (u0 : Uri) (l : List Part) (h : parseEx hostname str u0 = .ok (.inr l)) : l = [] := by
  unfold parseEx at h
  split at h
  · cases h; rfl
  · split at h
    · cases h; rfl
    · split at h
      · cases ht : typeOf _ with
        | ub => rw [ht] at h; cases h
        | ok z => rw [ht] at h; cases h
      · cases h; rfl

/-- What the two examples below are parsed to. -/
def sample (scheme : String) : Uri :=
  { scheme := some scheme.toUTF8.toList, host := some "a.b".toUTF8.toList, path := some "/".toUTF8.toList }

/-- `http://a.b/` is freed; `gopher://a.b/` is not; `http://ab/` gives NULL. -/
example : parseEx [] "http://a.b/".toUTF8.toList {} = .ok (.inl (sample "http", 42)) ∧
    parseEx [] "gopher://a.b/".toUTF8.toList {} = .ok (.inl (sample "gopher", -52)) ∧
    parseEx [] "http://ab/".toUTF8.toList {} = .ok (.inr []) ∧
    uriFree 42 false false (sample "http") = [.scheme, .host, .path, .record] := by
  decide +kernel

end Verif.Uri
