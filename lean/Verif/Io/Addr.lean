import Verif.Io.Num

/-!
# Parsing of address strings (`src/async_io.c` 378-483), C52
-/

namespace Verif.Io.Addr
open Verif.Str Verif.Io.Num

/-- What the caller finds in `dst`, `ip_version` and the return value. -/
inductive Out
  | fail
  | v4 (addr port : Nat)
  | v6 (addr : Bytes) (port : Nat)
  | unix (path : Bytes)
  deriving DecidableEq

/-- The names known to the system: `pton6` reads a numeric IPv6 address, `res4` and `res6` are `async_inet_pton` with
resolution (`src/async_io.c` 323-376, `getaddrinfo`).  Arbitrary. -/
structure Resolver where
  pton6 : Bytes → Option Bytes
  res4 : Bytes → Option Nat
  res6 : Bytes → Option Bytes

/-- `sscanf(host, "%u.%u.%u.%u:%u%n", …) == 5`, src/async_io.c:396-405. -/
def scanDotted (host : Bytes) : Option (Nat × Nat × Nat × Nat × Nat) := do
  let (a, l) ← scanU host
  let l ← lit 46 l
  let (b, l) ← scanU l
  let l ← lit 46 l
  let (c, l) ← scanU l
  let l ← lit 46 l
  let (d, l) ← scanU l
  let l ← lit 58 l
  let (p, _) ← scanU l
  some (a, b, c, d, p)

/-- `sscanf(host, "[%49[^]]]:%u%n", …) == 2`, src/async_io.c:412. -/
def scanBracket (host : Bytes) : Option (Bytes × Nat) := do
  let l ← lit 91 host
  let t := (l.takeWhile (· ≠ 93)).take 49
  if t = [] then none else
    let l ← lit 93 (l.drop t.length)
    let l ← lit 58 l
    let (p, _) ← scanU l
    some (t, p)

/-- `(a << 24) | (b << 16) | (c << 8) | d` in `unsigned int`. -/
def quad (a b c d : Nat) : Nat :=
  (a <<< 24) % 2 ^ 32 ||| (b <<< 16) % 2 ^ 32 ||| (c <<< 8) % 2 ^ 32 ||| d

/-- The host name branch, src/async_io.c:433-465. -/
def byName (R : Resolver) (host : Bytes) : Out :=
  let name := host.takeWhile (· ≠ 58)
  if 260 ≤ name.length then .fail
  else
    let port := scanU (host.drop (name.length + 1))
    match R.res4 name with
    | some a => match port with
      | some (p, _) => .v4 a (p % 2 ^ 16)
      | none => .fail
    | none => match R.res6 name with
      | some a => match port with
        | some (p, _) => .v6 a (p % 2 ^ 16)
        | none => .fail
      | none => .fail

/-- `async_parse_addr`, src/async_io.c:378-483.  In line 419 the assignment takes the value of the whole conjunction, so `portUL` is 0 or 1. -/
def parseAddr (R : Resolver) (host : Bytes) : Out :=
  match scanDotted host with
  | some (a, b, c, d, p) => .v4 (quad a b c d) (p % 2 ^ 16)
  | none =>
    match (scanBracket host).bind fun x => (R.pton6 x.1).map (·, x.2) with
    | some (a, p) => .v6 a (p % 2 ^ 16)
    | none =>
      let port := ((scanBracket host).map (·.2)).getD 0
      let (v, rest) := strtoul0 host
      let portUL := if v ≠ 0 ∧ port ≤ 0xffff then 1 else 0
      if portUL ≠ 0 ∧ rest ≠ host then .v4 0 (portUL % 2 ^ 16)
      else if 58 ∈ host then byName R host
      else if host.head? = some 120 ∧ host.length < 108 then .unix host.tail
      else .fail

/-! ## Dotted addresses -/

theorem Ends_cons {c : UInt8} {l : Bytes} (h : ¬ (48 ≤ c.toNat ∧ c.toNat ≤ 57)) : Ends (c :: l) := by
  intro x hx
  simp only [List.head?_cons, Option.some.injEq] at hx
  exact hx ▸ h

/-- The text `a.b.c.d:p`. -/
def dotted (A B C D P : Bytes) : Bytes := A ++ 46 :: (B ++ 46 :: (C ++ 46 :: (D ++ 58 :: P)))

theorem scanDotted_dotted {A B C D P r : Bytes} (hA : Digits A) (hB : Digits B) (hC : Digits C) (hD : Digits D) (hP : Digits P)
    (hr : Ends r) (vA : decValue A < 2 ^ 64) (vB : decValue B < 2 ^ 64) (vC : decValue C < 2 ^ 64) (vD : decValue D < 2 ^ 64)
    (vP : decValue P < 2 ^ 64) :
    scanDotted (dotted A B C D P ++ r) =
      some (decValue A % 2 ^ 32, decValue B % 2 ^ 32, decValue C % 2 ^ 32, decValue D % 2 ^ 32, decValue P % 2 ^ 32) := by
  have dot : ¬ (48 ≤ (46 : UInt8).toNat ∧ (46 : UInt8).toNat ≤ 57) := by decide
  have col : ¬ (48 ≤ (58 : UInt8).toNat ∧ (58 : UInt8).toNat ≤ 57) := by decide
  unfold scanDotted dotted
  simp only [List.append_assoc, List.cons_append]
  rw [scanU_digits hA (Ends_cons dot) vA]
  simp only [bind, Option.bind, lit, if_true]
  rw [scanU_digits hB (Ends_cons dot) vB]
  simp only [if_true]
  rw [scanU_digits hC (Ends_cons dot) vC]
  simp only [if_true]
  rw [scanU_digits hD (Ends_cons col) vD]
  simp only [if_true]
  rw [scanU_digits hP hr vP]

/-- What a dotted address with port is parsed to, whatever the numbers and the text after it. -/
theorem dotted_actual (R : Resolver) {A B C D P r : Bytes} (hA : Digits A) (hB : Digits B) (hC : Digits C) (hD : Digits D)
    (hP : Digits P) (hr : Ends r) (vA : decValue A < 2 ^ 64) (vB : decValue B < 2 ^ 64) (vC : decValue C < 2 ^ 64)
    (vD : decValue D < 2 ^ 64) (vP : decValue P < 2 ^ 64) :
    parseAddr R (dotted A B C D P ++ r) =
      .v4 (quad (decValue A % 2 ^ 32) (decValue B % 2 ^ 32) (decValue C % 2 ^ 32) (decValue D % 2 ^ 32)) (decValue P % 2 ^ 16) := by
  unfold parseAddr
  rw [scanDotted_dotted hA hB hC hD hP hr vA vB vC vD vP]
  simp only
  rw [Nat.mod_mod_of_dvd _ (by decide)]

theorem quad_small {a b c d : Nat} (ha : a < 256) (hb : b < 256) (hc : c < 256) (hd : d < 256) :
    quad a b c d = a * 2 ^ 24 + b * 2 ^ 16 + c * 2 ^ 8 + d := by
  have e1 := Nat.shiftLeft_add_eq_or_of_lt (a := c) (b := d) (i := 8) (by omega)
  have e2 := Nat.shiftLeft_add_eq_or_of_lt (a := b) (b := c <<< 8 + d) (i := 16) (by rw [Nat.shiftLeft_eq]; omega)
  have e3 := Nat.shiftLeft_add_eq_or_of_lt (a := a) (b := b <<< 16 + (c <<< 8 + d)) (i := 24) (by
    simp only [Nat.shiftLeft_eq]; omega)
  unfold quad
  rw [Nat.mod_eq_of_lt (by rw [Nat.shiftLeft_eq]; omega), Nat.mod_eq_of_lt (by rw [Nat.shiftLeft_eq]; omega),
    Nat.mod_eq_of_lt (by rw [Nat.shiftLeft_eq]; omega), Nat.or_assoc, Nat.or_assoc, ← e1, ← e2, ← e3]
  simp only [Nat.shiftLeft_eq]
  omega

/-- Claim C52, dotted addresses: `a.b.c.d:port` with numbers in range is that address and port. -/
theorem dotted_address_partial (R : Resolver) {A B C D P : Bytes} (hA : Digits A) (hB : Digits B) (hC : Digits C) (hD : Digits D)
    (hP : Digits P) (vA : decValue A < 256) (vB : decValue B < 256) (vC : decValue C < 256) (vD : decValue D < 256)
    (vP : decValue P < 65536) :
    parseAddr R (dotted A B C D P) =
      .v4 (decValue A * 2 ^ 24 + decValue B * 2 ^ 16 + decValue C * 2 ^ 8 + decValue D) (decValue P) := by
  have h := dotted_actual R (r := []) hA hB hC hD hP (fun c h => by simp at h) (by omega) (by omega) (by omega) (by omega) (by omega)
  rw [List.append_nil] at h
  rw [h, Nat.mod_eq_of_lt (a := decValue A) (by omega), Nat.mod_eq_of_lt (a := decValue B) (by omega),
    Nat.mod_eq_of_lt (a := decValue C) (by omega), Nat.mod_eq_of_lt (a := decValue D) (by omega),
    Nat.mod_eq_of_lt (a := decValue P) (by omega), quad_small vA vB vC vD]

/-- The text 192.168.1.5:8080. -/
def demo : Bytes := dotted [49, 57, 50] [49, 54, 56] [49] [53] [56, 48, 56, 48]

example (R : Resolver) : parseAddr R demo = .v4 3232235781 8080 :=
  dotted_address_partial R (A := [49, 57, 50]) (B := [49, 54, 56]) (C := [49]) (D := [53]) (P := [56, 48, 56, 48])
    (by decide) (by decide) (by decide) (by decide) (by decide) (by decide) (by decide) (by decide) (by decide) (by decide)

/-! ## Names -/

theorem not_number {c : UInt8} (h : 65 ≤ c.toNat) :
    isSpace c = false ∧ c ≠ 45 ∧ c ≠ 43 ∧ ¬ (48 ≤ c.toNat ∧ c.toNat ≤ 57) ∧ c ≠ 48 := by
  refine ⟨?_, ?_, ?_, by omega, ?_⟩
  · unfold isSpace
    simp only [Bool.or_eq_false_iff, decide_eq_false_iff_not, Bool.and_eq_false_iff]
    refine ⟨?_, .inr ?_⟩
    · rintro rfl; revert h; decide
    · rw [UInt8.le_iff_toNat_le]; simp only [UInt8.reduceToNat]; omega
  all_goals rintro rfl; revert h; decide

theorem strtoul0_letter {c : UInt8} {l : Bytes} (h : 65 ≤ c.toNat) : strtoul0 (c :: l) = (0, c :: l) := by
  obtain ⟨h1, h2, h3, h4, h5⟩ := not_number h
  unfold strtoul0
  rw [List.dropWhile_cons_of_neg (by simp [h1])]
  have e : sign (c :: l) = (false, c :: l) := by
    unfold sign
    split
    · rename_i heq; simp at heq; exact absurd heq.1 h2
    · rename_i heq; simp at heq; exact absurd heq.1 h3
    · rfl
  have e2 : detect (c :: l) = (10, c :: l) := by
    unfold detect
    split
    · rename_i heq; simp at heq; exact absurd heq.1 h5
    · rename_i heq; simp at heq; exact absurd heq.1 h5
    · rfl
  rw [e]
  simp only
  rw [e2]
  simp only
  rw [List.takeWhile_cons_of_neg (by rw [isDigit10_iff]; exact h4)]
  simp

theorem scanBracket_other {c : UInt8} {l : Bytes} (h : c ≠ 91) : scanBracket (c :: l) = none := by
  simp [scanBracket, lit, h]

/-- Claim C52, host names: a name that does not begin with a digit or a bracket goes to the resolver, and the port is the one
written. -/
theorem host_name_port (R : Resolver) (c : UInt8) (l P : Bytes) (a : Nat) (hc : 65 ≤ c.toNat) (hb : c ≠ 91) (h58 : 58 ∉ c :: l)
    (hlen : l.length < 259) (hres : R.res4 (c :: l) = some a) (hP : Digits P) (vP : decValue P < 65536) :
    parseAddr R (c :: l ++ 58 :: P) = .v4 a (decValue P) := by
  obtain ⟨h1, h2, h3, h4, _⟩ := not_number hc
  have e1 : scanDotted (c :: l ++ 58 :: P) = none := by
    unfold scanDotted
    rw [List.cons_append, scanU_none h1 h2 h3 h4]
    rfl
  have e2 : scanBracket (c :: l ++ 58 :: P) = none := scanBracket_other hb
  have e3 : strtoul0 (c :: l ++ 58 :: P) = (0, c :: l ++ 58 :: P) := strtoul0_letter hc
  have e4 : (c :: l ++ 58 :: P).takeWhile (· ≠ 58) = c :: l := by
    rw [List.takeWhile_append_of_pos (by intro x hx; simp only [decide_eq_true_eq]; rintro rfl; exact h58 hx)]
    simp
  have e5 : scanU P = some (decValue P, []) := by
    have := scanU_digits hP (r := []) (fun c h => by simp at h) (by omega)
    rw [List.append_nil, Nat.mod_eq_of_lt (by omega)] at this
    exact this
  have e6 : (c :: l ++ 58 :: P).drop ((c :: l).length + 1) = P := by
    rw [← List.drop_drop, List.drop_left]
    rfl
  unfold parseAddr
  rw [e1, e2]
  simp only [Option.bind_none]
  rw [e3]
  simp only [ne_eq, not_true_eq_false, false_and, if_false]
  rw [if_pos (by simp)]
  unfold byName
  simp only [e4]
  rw [if_neg (by simp; omega), hres, e6, e5]
  simp only
  rw [Nat.mod_eq_of_lt (by omega)]

example : parseAddr ⟨fun _ => none, fun _ => some 7, fun _ => none⟩ [97, 98, 58, 56, 48] = .v4 7 80 :=
  host_name_port _ 97 [98] [56, 48] 7 (by decide) (by decide) (by decide) (by decide) rfl (by decide) (by decide)

/-- Claim C52, bracketed addresses: `[text]:port` with a text of at most 49 bytes that is an IPv6 address. -/
theorem bracket_address (R : Resolver) (t P a : Bytes) (ht : t ≠ []) (h93 : 93 ∉ t) (hlen : t.length ≤ 49)
    (hres : R.pton6 t = some a) (hP : Digits P) (vP : decValue P < 65536) :
    parseAddr R (91 :: (t ++ 93 :: 58 :: P)) = .v6 a (decValue P) := by
  have e1 : scanDotted (91 :: (t ++ 93 :: 58 :: P)) = none := by
    unfold scanDotted
    rw [scanU_none (by decide) (by decide) (by decide) (by decide)]
    rfl
  have e4 : (t ++ 93 :: 58 :: P).takeWhile (· ≠ 93) = t := by
    rw [List.takeWhile_append_of_pos (by intro x hx; simp only [decide_eq_true_eq]; rintro rfl; exact h93 hx)]
    simp
  have e5 : scanU P = some (decValue P, []) := by
    have := scanU_digits hP (r := []) (fun c h => by simp at h) (by omega)
    rw [List.append_nil, Nat.mod_eq_of_lt (by omega)] at this
    exact this
  have e2 : scanBracket (91 :: (t ++ 93 :: 58 :: P)) = some (t, decValue P) := by
    unfold scanBracket
    simp only [lit, if_true, bind, Option.bind]
    rw [e4, List.take_of_length_le hlen, if_neg ht, List.drop_left]
    simp [lit, e5]
  unfold parseAddr
  rw [e1, e2]
  simp only [Option.bind_some, hres, Option.map_some]
  rw [Nat.mod_eq_of_lt (by omega)]

example : parseAddr ⟨fun t => some t, fun _ => none, fun _ => none⟩ [91, 58, 58, 49, 93, 58, 56, 48] = .v6 [58, 58, 49] 80 :=
  bracket_address _ [58, 58, 49] [56, 48] [58, 58, 49] (by decide) (by decide) (by decide) rfl (by decide) (by decide)

/-! ## What is wrong -/

theorem lit_mem {c : UInt8} {l r : Bytes} (h : lit c l = some r) : c ∈ l ∧ r <:+ l := by
  cases l with
  | nil => simp [lit] at h
  | cons x l =>
    simp only [lit] at h
    split at h
    · rename_i hx; simp only [Option.some.injEq] at h; subst h hx
      exact ⟨List.mem_cons_self .., List.suffix_cons ..⟩
    · simp at h

theorem scanU_suffix {l r : Bytes} {v : Nat} (h : scanU l = some (v, r)) : r <:+ l := by
  have hs : ∀ l : Bytes, (sign l).2 <:+ l := by
    intro l
    unfold sign
    split
    · exact List.suffix_cons ..
    · exact List.suffix_cons ..
    · exact List.suffix_refl _
  unfold scanU at h
  obtain ⟨n, l1, e⟩ : ∃ n l1, sign (l.dropWhile isSpace) = (n, l1) := ⟨_, _, rfl⟩
  have h1 : l1 <:+ l := by
    have := hs (l.dropWhile isSpace)
    rw [e] at this
    exact this.trans (List.dropWhile_suffix _)
  rw [e] at h
  simp only at h
  split at h
  · simp at h
  · simp only [Option.some.injEq, Prod.mk.injEq] at h
    rw [← h.2]
    exact (List.dropWhile_suffix _).trans h1

theorem scanDotted_none {host : Bytes} (h : 46 ∉ host ∨ 58 ∉ host) : scanDotted host = none := by
  cases hr : scanDotted host with
  | none => rfl
  | some x =>
    exfalso
    unfold scanDotted at hr
    simp only [bind, Option.bind_eq_some_iff] at hr
    obtain ⟨⟨a, l1⟩, h1, l2, h2, ⟨b, l3⟩, h3, l4, h4, ⟨c, l5⟩, h5, l6, h6, ⟨d, l7⟩, h7, l8, h8, _⟩ := hr
    have s1 := scanU_suffix h1
    have s2 := (lit_mem h2).2.trans s1
    have s3 := (scanU_suffix h3).trans s2
    have s4 := (lit_mem h4).2.trans s3
    have s5 := (scanU_suffix h5).trans s4
    have s6 := (lit_mem h6).2.trans s5
    have s7 := (scanU_suffix h7).trans s6
    rcases h with h | h
    · exact h (s1.subset (lit_mem h2).1)
    · exact h (s7.subset (lit_mem h8).1)

/-- Against C52: every text that begins with a digit from 1 to 9 and has no dot or no colon is taken for any address, port 1 —
port numbers, addresses without port, and host names that begin with a digit. -/
theorem digit_first_is_port_one (R : Resolver) (c : UInt8) (l : Bytes) (hc : 49 ≤ c.toNat ∧ c.toNat ≤ 57)
    (h : 46 ∉ c :: l ∨ 58 ∉ c :: l) : parseAddr R (c :: l) = .v4 0 1 := by
  have hb : c ≠ 91 := by rintro rfl; revert hc; decide
  have hv := strtoul0_pos (l := l) hc
  have hrest : (strtoul0 (c :: l)).2 ≠ c :: l := by
    have hdig : Digits [c] := ⟨by simp, by simp; omega⟩
    have hn0 : ([c] : Bytes).head? ≠ some 48 := by
      simp only [List.head?_cons, ne_eq, Option.some.injEq]
      rintro rfl
      revert hc; decide
    have e1 := dropWhile_digits hdig l
    have e2 := sign_digits hdig l
    have e3 := detect_digits hdig hn0 l
    simp only [List.cons_append, List.nil_append] at e1 e2 e3
    have hd : isDigit 10 c = true := (isDigit10_iff c).2 (by omega)
    unfold strtoul0
    rw [e1, e2]
    simp only
    rw [e3]
    simp only
    rw [List.takeWhile_cons_of_pos hd, if_neg (by simp), List.dropWhile_cons_of_pos hd]
    intro he
    replace he : l.dropWhile (isDigit 10) = c :: l := he
    have := (List.dropWhile_suffix (isDigit 10) (l := l)).length_le
    rw [he] at this
    simp at this
  unfold parseAddr
  rw [scanDotted_none h, scanBracket_other hb]
  simp only [Option.bind_none, Option.map_none, Option.getD_none]
  have e : (if (strtoul0 (c :: l)).1 ≠ 0 ∧ 0 ≤ 0xffff then 1 else 0) = 1 := if_pos ⟨hv, by decide⟩
  rw [e, if_pos ⟨by decide, hrest⟩]
  rfl

/-- "8080", "10.0.0.1" and "3com:80". -/
example (R : Resolver) : parseAddr R [56, 48, 56, 48] = .v4 0 1 ∧ parseAddr R [49, 48, 46, 48, 46, 48, 46, 49] = .v4 0 1 ∧
    parseAddr R [51, 99, 111, 109, 58, 56, 48] = .v4 0 1 :=
  ⟨digit_first_is_port_one R _ _ (by decide) (by decide), digit_first_is_port_one R _ _ (by decide) (by decide),
    digit_first_is_port_one R _ _ (by decide) (by decide)⟩

/-- Against C52: a port above 65535 is taken modulo 65536. -/
theorem port_wraps (R : Resolver) {A B C D P : Bytes} (hA : Digits A) (hB : Digits B) (hC : Digits C) (hD : Digits D)
    (hP : Digits P) (vA : decValue A < 256) (vB : decValue B < 256) (vC : decValue C < 256) (vD : decValue D < 256)
    (vP : 65536 ≤ decValue P) (vP' : decValue P < 2 ^ 64) :
    ∃ a, parseAddr R (dotted A B C D P) = .v4 a (decValue P % 65536) ∧ decValue P % 65536 ≠ decValue P := by
  have h := dotted_actual R (r := []) hA hB hC hD hP (fun c h => by simp at h) (by omega) (by omega) (by omega) (by omega) vP'
  rw [List.append_nil] at h
  exact ⟨_, h, by omega⟩

/-- Against C52: text after the port is ignored. -/
theorem trailing_text_ignored (R : Resolver) {A B C D P r : Bytes} (hA : Digits A) (hB : Digits B) (hC : Digits C) (hD : Digits D)
    (hP : Digits P) (hr : Ends r) (vA : decValue A < 256) (vB : decValue B < 256) (vC : decValue C < 256) (vD : decValue D < 256)
    (vP : decValue P < 65536) : parseAddr R (dotted A B C D P ++ r) = parseAddr R (dotted A B C D P) := by
  have h := dotted_actual R (r := []) hA hB hC hD hP (fun c h => by simp at h) (by omega) (by omega) (by omega) (by omega) (by omega)
  rw [List.append_nil] at h
  rw [h, dotted_actual R hA hB hC hD hP hr (by omega) (by omega) (by omega) (by omega) (by omega)]

/-- Against C52: an octet above 255 runs into the one before it; `0.0.0.256:p` is 0.0.1.0. -/
theorem octet_spills (R : Resolver) {Z D P : Bytes} (hZ : Digits Z) (hD : Digits D) (hP : Digits P) (vZ : decValue Z = 0)
    (vD : decValue D < 2 ^ 32) (vP : decValue P < 65536) :
    parseAddr R (dotted Z Z Z D P) = .v4 (decValue D) (decValue P) := by
  have h := dotted_actual R (r := []) hZ hZ hZ hD hP (fun c h => by simp at h) (by omega) (by omega) (by omega) (by omega) (by omega)
  rw [List.append_nil] at h
  rw [h, vZ, Nat.mod_eq_of_lt vD, Nat.mod_eq_of_lt (a := decValue P) (by omega)]
  simp [quad]

example (R : Resolver) : parseAddr R (dotted [48] [48] [48] [50, 53, 54] [56, 48]) = .v4 256 80 :=
  octet_spills R (by decide) (by decide) (by decide) rfl (by decide) (by decide)

end Verif.Io.Addr
