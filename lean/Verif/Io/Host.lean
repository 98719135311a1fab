import Verif.Io.Ip

/-!
# The host text that `str_parseip` returns (`src/arrays.c` 1138-1211), C100, and the names of UNIX sockets, C101

`str_parseip` is used for the addresses given to `udp_bind`, `udp_connect`, `udp_to`, `uds_bind`, `uds_connect` and the
TLS functions.  What it stores in `*ip` and `*port` is in `Verif.Io.Ip`.
-/

namespace Verif.Io.Host
open Verif.Str Verif.Io.Num Verif.Io.Ip

/-- The returned pointer: null, a pointer to a text, or a pointer made of the bytes of a text (`tmp[0]` where `tmp` is the text itself,
line 1210). -/
inductive Ret where
  | null
  | text (b : Bytes)
  | wild
  deriving DecidableEq

/-- Lines 1144-1147: the text after `//` in the buffer of `ARRAY_SIZE` (260) bytes. -/
def strip (name : Bytes) : Option Bytes :=
  match searchFrom name [47, 47] 0 with
  | some i => if 3 < i then some ((name.drop (i + 2)).take 259) else none
  | none => none

/-- Lines 1171-1206: is `*ip` stored (`true`), or does the function return early? -/
def numeric (p : Bytes) : Res Bool :=
  match octets 4 p with
  | none => .ok false
  | some l => do
    let ip ← fill l
    .ok ip.isSome

/-- Lines 1166-1210, without a port. -/
def noPort (buf : Option Bytes) (name : Bytes) (autofree : Bool) : Res Ret :=
  match buf with
  | some (c :: b) => do
    let n ← numeric (c :: b)
    .ok (if n && autofree then .wild else .text (c :: b))
  | _ => do
    let _ ← numeric (buf.getD name)
    .ok (if autofree then .text name else .null)

/-- Lines 1149-1210: from the text, which is the caller's (`buf = none`) or in the buffer.  Without `autofree` the split text is freed before
it is read (lines 1161 and 1172). -/
def parseAt (buf : Option Bytes) (name : Bytes) (autofree : Bool) : Res (Ret × Bytes) :=
  let cur := buf.getD name
  match searchFrom cur [93, 58] 0, searchFrom cur [58] 0 with
  | some i, j =>
    if 3 < i then .ok (.text (cur.take (i + 1)), if buf.isSome then name else name.set (i + 1) 0)
    else withPort cur j
  | none, j => withPort cur j
where
  withPort (cur : Bytes) (j : Option Nat) : Res (Ret × Bytes) :=
    match j with
    | some j =>
      if 6 < j then
        if autofree then do
          let _ ← numeric (cur.take j)
          .ok (.text (cur.take j), name)
        else .ub
      else do
        let r ← noPort buf name autofree
        .ok (r, name)
    | none => do
      let r ← noPort buf name autofree
      .ok (r, name)

/-- `str_parseip(name, &ip, &port, autofree)`, src/arrays.c:1139-1211: what it returns, and the caller's text afterwards (line 1151 writes
into it).  Simplified as in `Verif.Io.Ip.parseIp`; copies of texts succeed. -/
def parseHost (name : Bytes) (autofree : Bool) : Res (Ret × Bytes) := parseAt (strip name) name autofree

/-! ## Lemmas -/

theorem strip_scheme (s t : Bytes) (hs : 3 ≤ s.length) (h47 : 47 ∉ s) (hlen : t.length < 260) :
    strip (s ++ [58, 47, 47] ++ t) = some t := by
  have e1 : searchFrom (s ++ [58, 47, 47] ++ t) [47, 47] 0 = some (s.length + 1) := by
    have := Ip.searchFrom_some (s := s ++ [58]) (n := [47, 47]) (r := t) (c := 47) rfl (by
      simp only [List.mem_append, List.mem_singleton, not_or]; exact ⟨h47, by decide⟩)
    simpa using this
  have e3 : (s ++ [58, 47, 47] ++ t).drop (s.length + 1 + 2) = t := by
    rw [List.append_assoc, show s.length + 1 + 2 = s.length + 3 by omega, ← List.drop_drop, List.drop_left]
    rfl
  unfold strip
  rw [e1]
  simp only
  rw [if_pos (by omega), e3, List.take_of_length_le (by omega)]

/-- No two adjacent slashes after the first three bytes. -/
def NoSlashes (name : Bytes) : Prop := ∀ i, 3 < i → ¬ [47, 47] <+: name.drop i

theorem searchFrom_prefix {s n : Bytes} {i : Nat} (h : searchFrom s n 0 = some i) : n <+: s.drop i := by
  unfold searchFrom at h
  have := List.find?_some h
  simp only [Nat.zero_le, true_and, decide_eq_true_eq] at this
  exact List.isPrefixOf_iff_prefix.1 this

theorem strip_none {name : Bytes} (h : NoSlashes name) : strip name = none := by
  unfold strip
  cases e : searchFrom name [47, 47] 0 with
  | none => rfl
  | some i =>
    simp only
    rw [if_neg]
    intro hi
    exact h i hi (searchFrom_prefix e)

theorem search_port {h p : Bytes} (h58 : 58 ∉ h) : searchFrom (h ++ 58 :: p) [58] 0 = some h.length := by
  have := Ip.searchFrom_some (n := [58]) (r := p) (c := 58) rfl h58
  simpa using this

/-- `]:` is not found where there is no `]`. -/
theorem no_bracket {s : Bytes} (h : 93 ∉ s) : searchFrom s [93, 58] 0 = none := Ip.searchFrom_none (c := 93) rfl h

theorem no_colon {s : Bytes} (h : 58 ∉ s) : searchFrom s [58] 0 = none := Ip.searchFrom_none (c := 58) rfl h

theorem no_bracket_of_no_colon {s : Bytes} (h : 58 ∉ s) : searchFrom s [93, 58] 0 = none := by
  cases e : searchFrom s [93, 58] 0 with
  | none => rfl
  | some i =>
    have := searchFrom_prefix e
    exact absurd (List.mem_of_mem_drop (this.subset (by simp))) h

theorem numeric_ok {p : Bytes} (h : p ≠ []) : ∃ b, numeric p = .ok b := by
  unfold numeric
  cases e : octets 4 p with
  | none => exact ⟨_, rfl⟩
  | some l =>
    have hl : l ≠ [] := by
      rintro rfl
      cases p with
      | nil => exact h rfl
      | cons c p =>
        rw [octets.eq_3] at e
        simp only at e
        split at e
        · simp at e
        · split at e
          · simp at e
          · split at e
            · cases h2 : octets 3 _ with
              | none => rw [h2] at e; simp at e
              | some q => rw [h2] at e; simp at e
            · simp at e
    have hf : ∃ r, fill l = .ok r := by
      match l, hl with
      | [a], _ => exact ⟨_, rfl⟩
      | [a, b], _ => exact ⟨_, rfl⟩
      | [a, b, c], _ => exact ⟨_, rfl⟩
      | a :: b :: c :: d :: t, _ => exact ⟨_, rfl⟩
    obtain ⟨r, hr⟩ := hf
    exact ⟨r.isSome, by simp only [hr]; rfl⟩

/-! ## Claims -/

/-- Claim C100, the part that holds: of `host:port` and of `scheme://host:port`, with a host of at least 7 bytes without colons and
brackets, the host is returned and the caller's text is left alone. -/
theorem host_with_port_partial (s h p : Bytes) (hs : s = [] ∨ ∃ t, s = t ++ [58, 47, 47] ∧ 3 ≤ t.length ∧ 47 ∉ t) (h58 : 58 ∉ h)
    (h93 : 93 ∉ h) (hp : 93 ∉ p) (hlen : 7 ≤ h.length) (hfit : h.length + p.length < 259)
    (hsl : s = [] → NoSlashes (h ++ 58 :: p)) :
    parseHost (s ++ (h ++ 58 :: p)) true = .ok (.text h, s ++ (h ++ 58 :: p)) := by
  obtain ⟨cur, hcur⟩ : ∃ cur, cur = h ++ 58 :: p := ⟨_, rfl⟩
  have key : ∀ buf name, buf.getD name = cur → parseAt buf name true = .ok (.text h, name) := by
    intro buf name hb
    unfold parseAt
    simp only
    rw [hb, hcur, no_bracket (by simp only [List.mem_append, List.mem_cons, not_or]; exact ⟨h93, by decide, hp⟩), search_port h58]
    simp only [parseAt.withPort]
    rw [if_pos (by omega), if_pos trivial, List.take_left]
    obtain ⟨b, hb⟩ := numeric_ok (p := h) (by intro e; rw [e] at hlen; simp at hlen)
    rw [hb]; rfl
  unfold parseHost
  rcases hs with rfl | ⟨t, rfl, ht, h47⟩
  · rw [List.nil_append, strip_none (hsl rfl)]
    exact key _ _ (by rw [hcur]; rfl)
  · rw [strip_scheme t (h ++ 58 :: p) ht h47 (by simp; omega)]
    exact key _ _ (by rw [hcur]; rfl)

/-- Claim C100, the part that holds: a text without a port and a scheme is returned as it is. -/
theorem host_plain_partial (h : Bytes) (hne : h ≠ []) (h58 : 58 ∉ h) (hsl : NoSlashes h) :
    parseHost h true = .ok (.text h, h) := by
  unfold parseHost parseAt
  rw [strip_none hsl]
  simp only [Option.getD_none]
  rw [no_bracket_of_no_colon h58, no_colon h58]
  simp only [parseAt.withPort, noPort, Option.getD_none]
  obtain ⟨b, hb⟩ := numeric_ok hne
  rw [hb]; rfl

/-- Claim C100, the part that holds: of `scheme://host` the host is returned, if it is not a number or numbers separated by dots (such that an
address is stored). -/
theorem host_scheme_partial (t h : Bytes) (ht : 3 ≤ t.length) (h47 : 47 ∉ t) (hne : h ≠ []) (h58 : 58 ∉ h) (hfit : h.length < 260)
    (hn : numeric h = .ok false) (autofree : Bool) :
    parseHost (t ++ [58, 47, 47] ++ h) autofree = .ok (.text h, t ++ [58, 47, 47] ++ h) := by
  unfold parseHost parseAt
  rw [strip_scheme t h ht h47 hfit]
  simp only [Option.getD_some]
  rw [no_bracket_of_no_colon h58, no_colon h58]
  cases h with
  | nil => exact absurd rfl hne
  | cons c b =>
    simp only [parseAt.withPort, noPort]
    rw [hn]; rfl

theorem numeric_quad {A B C D : Bytes} {a b c d : Nat} (hA : IsDecimal A a) (hB : IsDecimal B b) (hC : IsDecimal C c)
    (hD : IsDecimal D d) (va : a < 256) (vb : b < 256) (vc : c < 256) (vd : d < 256) : numeric (quad A B C D) = .ok true := by
  have := address_quad none hA hB hC hD va vb vc vd
  unfold address at this
  unfold numeric
  cases e : octets 4 (quad A B C D) with
  | none => rw [e] at this; simp [bytes] at this
  | some l =>
    rw [e] at this
    simp only at this ⊢
    cases f : fill l with
    | ub => rw [f] at this; exact absurd this (by intro h; cases h)
    | ok r =>
      rw [f] at this
      simp only [Res.ok_bind, Res.ok.injEq, Out.mk.injEq, and_true] at this
      rw [this]
      rfl

/-- Against C100: for every IPv4 address with a scheme and without a port, as in `udp://127.0.0.1`, the returned pointer is made of the
characters of the address. -/
theorem host_numeric_wild {A B C D : Bytes} {a b c d : Nat} (hA : IsDecimal A a) (hB : IsDecimal B b) (hC : IsDecimal C c)
    (hD : IsDecimal D d) (va : a < 256) (vb : b < 256) (vc : c < 256) (vd : d < 256) (t : Bytes) (ht : 3 ≤ t.length) (h47 : 47 ∉ t)
    (hfit : (quad A B C D).length < 260) :
    parseHost (t ++ [58, 47, 47] ++ quad A B C D) true = .ok (.wild, t ++ [58, 47, 47] ++ quad A B C D) := by
  have n58 := not_mem_quad hA hB hC hD 58 (by decide) (by decide)
  have hn := numeric_quad hA hB hC hD va vb vc vd
  have hne : quad A B C D ≠ [] := by unfold quad; simp
  generalize quad A B C D = q at *
  unfold parseHost parseAt
  rw [strip_scheme t q ht h47 hfit]
  simp only [Option.getD_some]
  rw [no_bracket_of_no_colon n58, no_colon n58]
  cases q with
  | nil => exact absurd rfl hne
  | cons c b =>
    simp only [parseAt.withPort, noPort]
    rw [hn]; rfl

/-- Against C100: without `autofree`, as `udp_to` calls it, every `host:port` with a host of at least 7 bytes is read after it was
freed. -/
theorem host_not_autofree_ub (h p : Bytes) (h58 : 58 ∉ h) (h93 : 93 ∉ h) (hp : 93 ∉ p) (hlen : 7 ≤ h.length)
    (hsl : NoSlashes (h ++ 58 :: p)) : parseHost (h ++ 58 :: p) false = .ub := by
  unfold parseHost parseAt
  rw [strip_none hsl]
  simp only [Option.getD_none]
  rw [no_bracket (by simp only [List.mem_append, List.mem_cons, not_or]; exact ⟨h93, by decide, hp⟩), search_port h58]
  simp only [parseAt.withPort]
  rw [if_pos (by omega)]
  simp

/-- Against C100: without `autofree` a text without scheme and port gives a null pointer. -/
theorem host_not_autofree_null (h : Bytes) (hne : h ≠ []) (h58 : 58 ∉ h) (hsl : NoSlashes h) :
    parseHost h false = .ok (.null, h) := by
  unfold parseHost parseAt
  rw [strip_none hsl]
  simp only [Option.getD_none]
  rw [no_bracket_of_no_colon h58, no_colon h58]
  simp only [parseAt.withPort, noPort, Option.getD_none]
  obtain ⟨b, hb⟩ := numeric_ok hne
  rw [hb]; rfl

/-- Against C100: with a host of up to 6 bytes, as in `a.com:80`, the port stays part of the host. -/
theorem host_short_keeps_port (h p : Bytes) (h58 : 58 ∉ h) (h93 : 93 ∉ h) (hp : 93 ∉ p) (hlen : h.length ≤ 6)
    (hsl : NoSlashes (h ++ 58 :: p)) : parseHost (h ++ 58 :: p) true = .ok (.text (h ++ 58 :: p), h ++ 58 :: p) := by
  unfold parseHost parseAt
  rw [strip_none hsl]
  simp only [Option.getD_none]
  rw [no_bracket (by simp only [List.mem_append, List.mem_cons, not_or]; exact ⟨h93, by decide, hp⟩), search_port h58]
  simp only [parseAt.withPort]
  rw [if_neg (by omega)]
  simp only [noPort, Option.getD_none]
  obtain ⟨b, hb⟩ := numeric_ok (p := h ++ 58 :: p) (by simp)
  rw [hb]; rfl

/-- C100 for bracketed IPv6 addresses: the brackets are kept, and the caller's text is cut off after them. -/
theorem host_brackets (h p : Bytes) (hlen : 3 ≤ h.length) (h93 : 93 ∉ h) (hsl : NoSlashes (91 :: h ++ 93 :: 58 :: p)) :
    parseHost (91 :: h ++ 93 :: 58 :: p) true = .ok (.text (91 :: h ++ [93]), 91 :: h ++ 93 :: 0 :: p) := by
  unfold parseHost parseAt
  rw [strip_none hsl]
  simp only [Option.getD_none, Option.isSome_none, Bool.false_eq_true, if_false]
  have e : searchFrom (91 :: h ++ 93 :: 58 :: p) [93, 58] 0 = some (91 :: h).length := by
    have := Ip.searchFrom_some (s := 91 :: h) (n := [93, 58]) (r := p) (c := 93) rfl (by simp [h93])
    simpa using this
  rw [e]
  simp only
  rw [if_pos (by simp; omega)]
  congr 2
  · congr 1
    rw [show (91 :: h ++ 93 :: 58 :: p) = (91 :: h ++ [93]) ++ 58 :: p by simp]
    rw [List.take_left' (by simp)]
  · rw [show (91 :: h ++ 93 :: 58 :: p) = (91 :: h ++ [93]) ++ 58 :: p by simp]
    rw [List.set_append_right _ _ (by simp)]
    simp

/-- `udp://0.0.0.0:9000`, `localhost`, `unix://test.sock`. -/
example : parseHost "udp://0.0.0.0:9000".toUTF8.toList true = .ok (.text "0.0.0.0".toUTF8.toList, "udp://0.0.0.0:9000".toUTF8.toList) ∧
    parseHost "localhost".toUTF8.toList true = .ok (.text "localhost".toUTF8.toList, "localhost".toUTF8.toList) ∧
    parseHost "unix://test.sock".toUTF8.toList true = .ok (.text "test.sock".toUTF8.toList, "unix://test.sock".toUTF8.toList) ∧
    parseHost "udp://127.0.0.1".toUTF8.toList true = .ok (.wild, "udp://127.0.0.1".toUTF8.toList) ∧
    parseHost "a.com:80".toUTF8.toList true = .ok (.text "a.com:80".toUTF8.toList, "a.com:80".toUTF8.toList) ∧
    parseHost "localhost:80".toUTF8.toList false = .ub ∧
    parseHost "[::1]:80".toUTF8.toList true = .ok (.text "[::1]".toUTF8.toList, "[::1]".toUTF8.toList ++ 0 :: "80".toUTF8.toList) := by
  decide +kernel
example : numeric "test.sock".toUTF8.toList = .ok false := by decide +kernel
example : NoSlashes "localhost:80".toUTF8.toList := by
  intro i _ h
  have := List.mem_of_mem_drop (h.subset (show (47 : UInt8) ∈ [47, 47] by simp))
  revert this
  decide +kernel

/-! ## UNIX sockets -/

/-- `strncpy(sun_path, s, 107)` into the zeroed path: the bytes up to the first NUL (src/async_io.c:145 and 251; in line 251 the path is
not zeroed, but `strncpy` pads). -/
def sunPath (s : Bytes) : Bytes := s.take 107

/-- The name of the socket file for an address of `len` bytes: the kernel takes the path up to the first NUL or the end of the address; the
family has 2 bytes. -/
def kernelName (path : Bytes) (len : Nat) : Bytes := path.take (len - 2)

/-- `uds_bind(addr)`, src/async_uds.c:15-25 with src/async_io.c:142-151: the name bound (the length passed is that of the path only, 108) and the
name that the deferred `unlink` removes.  Simplified: `socket` and `bind` succeed. -/
def udsBind (addr : Bytes) : Res (Bytes × Bytes) := do
  match ← parseHost addr true with
  | (.text h, _) => .ok (kernelName (sunPath h) 108, h)
  | _ => .ub

/-- `uds_connect(addr)`, src/async_uds.c:4-13 with src/async_io.c:249-256: the name of the server (the length is that of the whole address,
110). -/
def udsConnect (addr : Bytes) : Res Bytes := do
  match ← parseHost addr true with
  | (.text h, _) => .ok (kernelName (sunPath h) 110)
  | _ => .ub

/-- A path as the functions take it: not empty, no colon, no double slash after the third byte. -/
structure Path (p : Bytes) : Prop where
  ne : p ≠ []
  colon : 58 ∉ p
  slashes : NoSlashes p

/-- Claim C101 for paths of up to 106 bytes: the server is bound to the path, a client that connects to the path reaches that name, and that
name is removed at the end. -/
theorem uds_path_partial (p : Bytes) (h : Path p) (hlen : p.length ≤ 106) :
    udsBind p = .ok (p, p) ∧ udsConnect p = .ok p := by
  unfold udsBind udsConnect
  rw [host_plain_partial p h.ne h.colon h.slashes]
  simp only [Res.ok_bind, sunPath, kernelName]
  refine ⟨?_, ?_⟩ <;> rw [List.take_take, List.take_of_length_le (by omega)]

/-- Claim C101 with a scheme, as in `unix://path`: also for a path on which the test of `str_parseip` for numbers fails. -/
theorem uds_scheme_partial (t p : Bytes) (ht : 3 ≤ t.length) (h47 : 47 ∉ t) (hne : p ≠ []) (h58 : 58 ∉ p) (hlen : p.length ≤ 106)
    (hn : numeric p = .ok false) :
    udsBind (t ++ [58, 47, 47] ++ p) = .ok (p, p) ∧ udsConnect (t ++ [58, 47, 47] ++ p) = .ok p := by
  unfold udsBind udsConnect
  rw [host_scheme_partial t p ht h47 hne h58 (by omega) hn]
  simp only [Res.ok_bind, sunPath, kernelName]
  refine ⟨?_, ?_⟩ <;> rw [List.take_take, List.take_of_length_le (by omega)]

/-- Against C101: a client that connects to the path of a server, of more than 106 bytes, looks for another name than the server is bound to,
and the name that the server removes at the end is not the one it is bound to either. -/
theorem uds_long_path_differs (p : Bytes) (h : Path p) (hlen : 106 < p.length) :
    ∃ bound server, udsBind p = .ok (bound, p) ∧ udsConnect p = .ok server ∧ bound.length = 106 ∧ server.length = 107 ∧ bound ≠ p := by
  refine ⟨p.take 106, p.take 107, ?_, ?_, by simp; omega, by simp; omega, fun e => ?_⟩
  · unfold udsBind
    rw [host_plain_partial p h.ne h.colon h.slashes]
    simp only [Res.ok_bind, sunPath, kernelName, List.take_take]
    rfl
  · unfold udsConnect
    rw [host_plain_partial p h.ne h.colon h.slashes]
    simp only [Res.ok_bind, sunPath, kernelName, List.take_take]
    rfl
  · have := congrArg List.length e
    simp at this
    omega

/-- Against C101: with a colon after the sixth byte of the path the server is bound to what is before it. -/
theorem uds_colon_path_cut (h p : Bytes) (h58 : 58 ∉ h) (h93 : 93 ∉ h) (hp : 93 ∉ p) (hlen : 7 ≤ h.length) (hmax : h.length ≤ 106)
    (hfit : h.length + p.length < 259) (hsl : NoSlashes (h ++ 58 :: p)) : udsBind (h ++ 58 :: p) = .ok (h, h) := by
  have e := host_with_port_partial [] h p (.inl rfl) h58 h93 hp hlen hfit (fun _ => hsl)
  rw [List.nil_append] at e
  unfold udsBind
  rw [e]
  simp only [Res.ok_bind, sunPath, kernelName]
  rw [List.take_take, List.take_of_length_le (by omega)]

/-- Against C101: a path with a double slash after the third byte, as in `/tmp//x.sock`, loses all before it. -/
theorem uds_double_slash_cut (t p : Bytes) (ht : 4 ≤ t.length) (h47 : ∀ i, ¬ [47, 47] <+: (t ++ [47]).drop i) (hne : p ≠ [])
    (h58 : 58 ∉ p) (hlen : p.length ≤ 106) (hn : numeric p = .ok false) : udsBind (t ++ [47, 47] ++ p) = .ok (p, p) := by
  have e : searchFrom (t ++ [47, 47] ++ p) [47, 47] 0 = some t.length := by
    unfold searchFrom
    rw [List.find?_eq_some_iff_getElem]
    refine ⟨?_, t.length, ?_, ?_, ?_⟩
    · simp only [Nat.zero_le, true_and, decide_eq_true_eq]
      rw [List.append_assoc, List.drop_left]
      exact List.isPrefixOf_iff_prefix.2 (List.prefix_append ..)
    · simp
    · simp
    · intro j hj
      simp only [List.getElem_range, Nat.zero_le, true_and, Bool.not_eq_true', decide_eq_false_iff_not]
      intro hp
      have hpre := List.isPrefixOf_iff_prefix.1 hp
      apply h47 j
      rw [show t ++ [47, 47] ++ p = (t ++ [47]) ++ (47 :: p) by simp, List.drop_append_of_le_length (by simp; omega)] at hpre
      exact List.prefix_of_prefix_length_le hpre (List.prefix_append ..) (by simp; omega)
  have hs : strip (t ++ [47, 47] ++ p) = some p := by
    unfold strip
    rw [e]
    simp only
    rw [if_pos (by omega), List.append_assoc, ← List.drop_drop, List.drop_left]
    simp only [List.cons_append, List.nil_append, List.drop_succ_cons, List.drop_zero]
    rw [List.take_of_length_le (by omega)]
  have hh : parseHost (t ++ [47, 47] ++ p) true = .ok (.text p, t ++ [47, 47] ++ p) := by
    unfold parseHost parseAt
    rw [hs]
    simp only [Option.getD_some]
    rw [no_bracket_of_no_colon h58, no_colon h58]
    cases p with
    | nil => exact absurd rfl hne
    | cons c b =>
      simp only [parseAt.withPort, noPort]
      rw [hn]; rfl
  unfold udsBind
  rw [hh]
  simp only [Res.ok_bind, sunPath, kernelName]
  rw [List.take_take, List.take_of_length_le (by omega)]

example : udsBind "/tmp/app.sock".toUTF8.toList = .ok ("/tmp/app.sock".toUTF8.toList, "/tmp/app.sock".toUTF8.toList) ∧
    udsConnect "unix:///tmp/app.sock".toUTF8.toList = .ok "/tmp/app.sock".toUTF8.toList ∧
    udsBind "/tmp//app.sock".toUTF8.toList = .ok ("app.sock".toUTF8.toList, "app.sock".toUTF8.toList) ∧
    udsBind "/tmp/my:app".toUTF8.toList = .ok ("/tmp/my".toUTF8.toList, "/tmp/my".toUTF8.toList) ∧
    numeric "/tmp/app.sock".toUTF8.toList = .ok false := by decide +kernel
example : Path (List.replicate 120 97) := ⟨by simp, by simp, by
  intro i _ h
  have := List.mem_of_mem_drop (h.subset (show (47 : UInt8) ∈ [47, 47] by simp))
  simp at this⟩

end Verif.Io.Host
