import Verif.Io.Num

/-!
# Parsing of IP addresses (`src/arrays.c` 1138-1210), C59
-/

namespace Verif.Io.Ip
open Verif.Str Verif.Io.Num

/-- What the caller finds in `*ip` (its four bytes in memory; `none` is an indeterminate byte) and `*port`; `none` if nothing was stored. -/
structure Out where
  ip : Option (List (Option UInt8))
  port : Option Int
  deriving DecidableEq

/-- `atoi`: the decimal number at the beginning, low 32 bits, signed. -/
def atoi (l : Bytes) : Int :=
  let (neg, l1) := sign (l.dropWhile isSpace)
  let v : Int := min (numVal 10 (l1.takeWhile (isDigit 10))) (2 ^ 63 - 1)
  (if neg then -v else v).bmod (2 ^ 32)

/-- The loop over the numbers, src/arrays.c:1169-1178: the bytes stored in `addr`, or a return from within.  `x` is an `int` and takes the low
32 bits of the `unsigned long`. -/
def octets : Nat → Bytes → Option (List UInt8)
  | 0, _ => some []
  | _ + 1, [] => some []
  | k + 1, c :: p =>
    let (v, r) := strtoul0 (c :: p)
    if 256 ≤ v % 2 ^ 32 then none
    else match r with
      | [] => some [UInt8.ofNat v]
      | x :: r => if x = 46 then (octets k r).map (UInt8.ofNat v :: ·) else none

/-- The address classes, src/arrays.c:1180-1203.  With no number at all the class is read from indeterminate memory. -/
def fill : List UInt8 → Res (Option (List (Option UInt8)))
  | [] => .ub
  | [a] => .ok (if a.toNat / 64 = 3 then some [some a, none, none, none] else none)
  | [a, b] =>
    .ok (if a.toNat / 64 ≤ 1 then some [some a, some 0, some 0, some b]
      else if a.toNat / 64 = 2 then none else some [some a, some b, none, none])
  | [a, b, c] =>
    .ok (if a.toNat / 64 ≤ 1 then some [some a, some 0, some b, some c]
      else if a.toNat / 64 = 2 then some [some a, some b, some 0, some c] else some [some a, some b, some c, none])
  | l => .ok (some (l.map some))

/-- The numbers and the class. -/
def address (port : Option Int) (p : Bytes) : Res Out :=
  match octets 4 p with
  | none => .ok ⟨none, port⟩
  | some l => do
    let ip ← fill l
    .ok ⟨ip, port⟩

/-- `str_parseip(name, &ip, &port, …)`, src/arrays.c:1139-1208.  Simplified: `str_pos` and `str_split_ex` stand for what is proved of them (C09,
C11), the blanks that `trim_at` removes are skipped by `atoi` anyway, and the returned copy of the text is left out. -/
def parseIp (name : Bytes) : Res Out :=
  let name := match searchFrom name [47, 47] 0 with
    | some i => if 3 < i then (name.drop (i + 2)).take 259 else name
    | none => name
  match searchFrom name [93, 58] 0, searchFrom name [58] 0 with
  | some i, j =>
    if 3 < i then .ok ⟨none, some (atoi (name.drop (i + 2)))⟩
    else match j with
      | some j => if 6 < j then address (some (atoi ((name.drop (j + 1)).takeWhile (· ≠ 58)))) (name.take j) else address none name
      | none => address none name
  | none, some j =>
    if 6 < j then address (some (atoi ((name.drop (j + 1)).takeWhile (· ≠ 58)))) (name.take j) else address none name
  | none, none => address none name

/-! ## Dotted quads -/

/-- The text `a.b.c.d`. -/
def quad (A B C D : Bytes) : Bytes := A ++ 46 :: (B ++ 46 :: (C ++ 46 :: D))

theorem IsDecimal.digits {A : Bytes} {a : Nat} (h : IsDecimal A a) : Digits A := ⟨h.1, h.2.1⟩

theorem searchFrom_none {s n : Bytes} {c : UInt8} (hc : n.head? = some c) (h : c ∉ s) : searchFrom s n 0 = none := by
  unfold searchFrom
  rw [List.find?_eq_none]
  intro i _
  simp only [Nat.zero_le, true_and, decide_eq_true_eq]
  intro hp
  cases n with
  | nil => simp at hc
  | cons x n =>
    simp only [List.head?_cons, Option.some.injEq] at hc
    subst hc
    have := List.isPrefixOf_iff_prefix.1 hp
    exact h (List.mem_of_mem_drop (this.subset (List.mem_cons_self ..)))

theorem searchFrom_some {s n r : Bytes} {c : UInt8} (hc : n.head? = some c) (h : c ∉ s) : searchFrom (s ++ n ++ r) n 0 = some s.length := by
  unfold searchFrom
  have key : ∀ i < s.length, n.isPrefixOf ((s ++ n ++ r).drop i) = false := by
    intro i hi
    by_contra hp
    rw [Bool.not_eq_false] at hp
    have hpre := List.isPrefixOf_iff_prefix.1 hp
    cases n with
    | nil => simp at hc
    | cons x n =>
      simp only [List.head?_cons, Option.some.injEq] at hc
      subst hc
      rw [List.append_assoc, List.drop_append_of_le_length (by omega)] at hpre
      obtain ⟨y, t, ht⟩ : ∃ y t, s.drop i = y :: t := by
        cases h : s.drop i with
        | nil => simp at h; omega
        | cons y t => exact ⟨y, t, rfl⟩
      rw [ht] at hpre
      have : x = y := by
        obtain ⟨z, hz⟩ := hpre
        simp only [List.cons_append, List.cons.injEq] at hz
        exact hz.1
      subst this
      exact h (List.mem_of_mem_drop (by rw [ht]; exact List.mem_cons_self ..))
  rw [List.find?_eq_some_iff_getElem]
  refine ⟨?_, s.length, ?_, ?_, ?_⟩
  · simp only [Nat.zero_le, true_and, decide_eq_true_eq]
    rw [List.append_assoc, List.drop_left]
    exact List.isPrefixOf_iff_prefix.2 (List.prefix_append ..)
  · simp
  · simp
  · intro j hj
    simp only [List.getElem_range, Nat.zero_le, true_and, Bool.not_eq_true', decide_eq_false_iff_not]
    rw [key j hj]
    simp

theorem isDigit_dot (b : Nat) (hb : b ≤ 36) : isDigit b 46 = false := by
  unfold isDigit
  rw [show digitVal 46 = 36 from rfl]
  simpa using hb

/-- A number without leading zeros followed by a dot or the end. -/
theorem strtoul0_dec {A : Bytes} {a : Nat} (h : IsDecimal A a) (ha : a < 256) {r : Bytes} (hr : r = [] ∨ r.head? = some 46) :
    strtoul0 (A ++ r) = (a, r) := by
  have hEnds : Ends r := by
    intro c hc
    rcases hr with rfl | hr
    · simp at hc
    · rw [hr] at hc
      obtain rfl := Option.some.inj hc
      decide
  by_cases h0 : A.head? = some 48
  · have h1 : A = [48] := by
      obtain ⟨hne, _, hz, _⟩ := h
      cases A with
      | nil => exact absurd rfl hne
      | cons c t =>
        simp only [List.head?_cons, Option.some.injEq] at h0
        subst h0
        cases t with
        | nil => rfl
        | cons d t => exact absurd rfl (hz (by simp))
    subst h1
    have hv : a = 0 := by have := h.2.2.2; simpa [decValue] using this.symm
    subst hv
    have e1 : strtoul0 ([48] ++ r) = (0, r) := by
      rcases hr with rfl | hr
      · decide +kernel
      · cases r with
        | nil => simp at hr
        | cons c t =>
          simp only [List.head?_cons, Option.some.injEq] at hr
          subst hr
          have d : detect (48 :: 46 :: t) = (8, 48 :: 46 :: t) := by
            cases t with
            | nil => rfl
            | cons y t =>
              show (if ((46 : UInt8) = 120 ∨ (46 : UInt8) = 88) ∧ isDigit 16 y = true then ((16 : Nat), y :: t) else (8, 48 :: 46 :: y :: t)) = _
              rw [if_neg (fun h => absurd h.1 (by decide))]
          unfold strtoul0
          have w : ((48 : UInt8) :: 46 :: t).dropWhile isSpace = 48 :: 46 :: t := by
            rw [List.dropWhile_cons_of_neg (by decide)]
          have g : sign ((48 : UInt8) :: 46 :: t) = (false, 48 :: 46 :: t) := rfl
          simp only [List.cons_append, List.nil_append]
          rw [w, g]
          simp only
          rw [d]
          simp only
          rw [List.takeWhile_cons_of_pos (by decide), List.takeWhile_cons_of_neg (by rw [isDigit_dot 8 (by decide)]; decide), if_neg (by simp),
            List.dropWhile_cons_of_pos (by decide), List.dropWhile_cons_of_neg (by rw [isDigit_dot 8 (by decide)]; decide)]
          rfl
    exact e1
  · have := strtoul0_digits (IsDecimal.digits h) h0 hEnds (by rw [h.2.2.2]; omega)
    rw [this, h.2.2.2]

theorem octets_dot {A : Bytes} {a : Nat} (h : IsDecimal A a) (ha : a < 256) (k : Nat) (r : Bytes) :
    octets (k + 1) (A ++ 46 :: r) = (octets k r).map (UInt8.ofNat a :: ·) := by
  obtain ⟨c, t, e⟩ : ∃ c t, A ++ 46 :: r = c :: t := by
    cases A with
    | nil => exact absurd rfl h.1
    | cons c t => exact ⟨c, t ++ 46 :: r, rfl⟩
  have hs := strtoul0_dec h ha (r := 46 :: r) (.inr rfl)
  rw [e] at hs ⊢
  rw [octets.eq_3, hs]
  simp only
  rw [Nat.mod_eq_of_lt (by omega), if_neg (by omega), if_pos trivial]

theorem octets_end {A : Bytes} {a : Nat} (h : IsDecimal A a) (ha : a < 256) (k : Nat) : octets (k + 1) A = some [UInt8.ofNat a] := by
  obtain ⟨c, t, e⟩ : ∃ c t, A = c :: t := by
    cases A with
    | nil => exact absurd rfl h.1
    | cons c t => exact ⟨c, t, rfl⟩
  have hs := strtoul0_dec h ha (r := []) (.inl rfl)
  rw [List.append_nil] at hs
  rw [e] at hs ⊢
  unfold octets
  rw [hs]
  simp only
  rw [Nat.mod_eq_of_lt (by omega), if_neg (by omega)]

/-- The four bytes stored for the numbers. -/
def bytes (a b c d : Nat) : Option (List (Option UInt8)) :=
  some [some (UInt8.ofNat a), some (UInt8.ofNat b), some (UInt8.ofNat c), some (UInt8.ofNat d)]

theorem address_quad (port : Option Int) {A B C D : Bytes} {a b c d : Nat} (hA : IsDecimal A a) (hB : IsDecimal B b)
    (hC : IsDecimal C c) (hD : IsDecimal D d) (va : a < 256) (vb : b < 256) (vc : c < 256) (vd : d < 256) :
    address port (quad A B C D) = .ok ⟨bytes a b c d, port⟩ := by
  unfold address quad
  rw [octets_dot hA va, octets_dot hB vb, octets_dot hC vc, octets_end hD vd]
  rfl

theorem not_mem_quad {A B C D : Bytes} {a b c d : Nat} (hA : IsDecimal A a) (hB : IsDecimal B b) (hC : IsDecimal C c)
    (hD : IsDecimal D d) (x : UInt8) (hx : ¬ (48 ≤ x.toNat ∧ x.toNat ≤ 57)) (hd : x ≠ 46) : x ∉ quad A B C D := by
  have key : ∀ {A : Bytes} {a : Nat}, IsDecimal A a → x ∉ A := fun h hm => hx (h.2.1 x hm)
  unfold quad
  simp only [List.mem_append, List.mem_cons, not_or]
  exact ⟨key hA, hd, key hB, hd, key hC, hd, key hD⟩

/-- Claim C59, the part that holds: every dotted quad of decimal numbers up to 255 without leading zeros is accepted, and its four bytes are
the numbers. -/
theorem parseip_quad_partial {A B C D : Bytes} {a b c d : Nat} (hA : IsDecimal A a) (hB : IsDecimal B b) (hC : IsDecimal C c)
    (hD : IsDecimal D d) (va : a < 256) (vb : b < 256) (vc : c < 256) (vd : d < 256) :
    parseIp (quad A B C D) = .ok ⟨bytes a b c d, none⟩ := by
  have n47 := not_mem_quad hA hB hC hD 47 (by decide) (by decide)
  have n93 := not_mem_quad hA hB hC hD 93 (by decide) (by decide)
  have n58 := not_mem_quad hA hB hC hD 58 (by decide) (by decide)
  unfold parseIp
  rw [searchFrom_none (c := 47) rfl n47]
  simp only
  rw [searchFrom_none (c := 93) rfl n93, searchFrom_none (c := 58) rfl n58]
  exact address_quad none hA hB hC hD va vb vc vd

theorem atoi_dec {P : Bytes} {p : Nat} (h : IsDecimal P p) (hp : p < 2 ^ 31) : atoi P = p := by
  have h1 := dropWhile_digits (IsDecimal.digits h) []
  have h2 := sign_digits (IsDecimal.digits h) []
  have h3 := (takeWhile_digits (IsDecimal.digits h) (r := []) (fun c h => by simp at h)).1
  simp only [List.append_nil] at h1 h2 h3
  unfold atoi
  rw [h1, h2]
  simp only
  rw [h3, numVal_dec (IsDecimal.digits h), h.2.2.2]
  simp only [Bool.false_eq_true, if_false]
  rw [Int.min_eq_left (by omega)]
  rw [Int.bmod_eq_of_le (by omega) (by omega)]

/-- Claim C59 with a port: the port is stored too. -/
theorem parseip_quad_port_partial {A B C D P : Bytes} {a b c d p : Nat} (hA : IsDecimal A a) (hB : IsDecimal B b) (hC : IsDecimal C c)
    (hD : IsDecimal D d) (hP : IsDecimal P p) (va : a < 256) (vb : b < 256) (vc : c < 256) (vd : d < 256) (vp : p < 2 ^ 31) :
    parseIp (quad A B C D ++ 58 :: P) = .ok ⟨bytes a b c d, some p⟩ := by
  have hx : ∀ x : UInt8, ¬ (48 ≤ x.toNat ∧ x.toNat ≤ 57) → x ∉ P := fun x hx hm => hx (hP.2.1 x hm)
  have n47 := not_mem_quad hA hB hC hD 47 (by decide) (by decide)
  have n93 := not_mem_quad hA hB hC hD 93 (by decide) (by decide)
  have n58 := not_mem_quad hA hB hC hD 58 (by decide) (by decide)
  have hlen : 7 ≤ (quad A B C D).length := by
    have key : ∀ {A : Bytes} {a : Nat}, IsDecimal A a → 1 ≤ A.length := fun h => List.length_pos_iff.2 h.1
    have := key hA; have := key hB; have := key hC; have := key hD
    simp only [quad, List.length_append, List.length_cons]
    omega
  obtain ⟨q, hq⟩ : ∃ q, q = quad A B C D := ⟨_, rfl⟩
  have hadd := address_quad (some p) hA hB hC hD va vb vc vd
  rw [← hq] at n47 n93 n58 hlen hadd ⊢
  have e1 : searchFrom (q ++ 58 :: P) [47, 47] 0 = none :=
    searchFrom_none (c := 47) rfl (by simp only [List.mem_append, List.mem_cons, not_or]; exact ⟨n47, by decide, hx 47 (by decide)⟩)
  have e2 : searchFrom (q ++ 58 :: P) [93, 58] 0 = none :=
    searchFrom_none (c := 93) rfl (by simp only [List.mem_append, List.mem_cons, not_or]; exact ⟨n93, by decide, hx 93 (by decide)⟩)
  have e3 : searchFrom (q ++ 58 :: P) [58] 0 = some q.length := by
    have := searchFrom_some (n := [58]) (r := P) (c := 58) rfl n58
    simpa using this
  have e4 : (q ++ 58 :: P).drop (q.length + 1) = P := by
    rw [← List.drop_drop, List.drop_left]; rfl
  have e5 : P.takeWhile (· ≠ 58) = P := by
    rw [List.takeWhile_eq_self_iff]
    intro y hy
    simp only [decide_eq_true_eq]
    rintro rfl
    exact hx 58 (by decide) hy
  unfold parseIp
  rw [e1]
  simp only
  rw [e2, e3]
  simp only
  rw [if_pos (by omega), e4, e5, List.take_left, atoi_dec hP vp]
  exact hadd

/-- Claim C59 with a scheme: `scheme://text` is parsed as the text. -/
theorem parseip_scheme_partial (s t : Bytes) (hs : 3 ≤ s.length) (h47 : 47 ∉ s) (ht : 47 ∉ t) (hlen : t.length < 260) :
    parseIp (s ++ [58, 47, 47] ++ t) = parseIp t := by
  have e1 : searchFrom (s ++ [58, 47, 47] ++ t) [47, 47] 0 = some (s.length + 1) := by
    have := searchFrom_some (s := s ++ [58]) (n := [47, 47]) (r := t) (c := 47) rfl (by
      simp only [List.mem_append, List.mem_singleton, not_or]; exact ⟨h47, by decide⟩)
    simpa using this
  have e2 : searchFrom t [47, 47] 0 = none := searchFrom_none (c := 47) rfl ht
  have e3 : (s ++ [58, 47, 47] ++ t).drop (s.length + 1 + 2) = t := by
    rw [List.append_assoc, show s.length + 1 + 2 = s.length + 3 by omega, ← List.drop_drop, List.drop_left]
    rfl
  unfold parseIp
  rw [e1, e2]
  simp only
  rw [if_pos (by omega), e3, List.take_of_length_le (by omega)]

/-- 127.0.0.1, 192.168.1.254:8080 and http://10.0.0.7:80. -/
example : parseIp "127.0.0.1".toUTF8.toList = .ok ⟨bytes 127 0 0 1, none⟩ ∧
    parseIp "192.168.1.254:8080".toUTF8.toList = .ok ⟨bytes 192 168 1 254, some 8080⟩ ∧
    parseIp "http://10.0.0.7:80".toUTF8.toList = .ok ⟨bytes 10 0 0 7, some 80⟩ := by decide +kernel

theorem octets_large {A r : Bytes} {a : Nat} (hA : IsDecimal A a) (hr : r = [] ∨ r.head? = some 46) (va : 256 ≤ a) (va' : a < 2 ^ 32)
    (k : Nat) : octets (k + 1) (A ++ r) = none := by
  obtain ⟨c, t, e⟩ : ∃ c t, A ++ r = c :: t := by
    cases A with
    | nil => exact absurd rfl hA.1
    | cons c t => exact ⟨c, t ++ r, rfl⟩
  have hv : decValue A = a := hA.2.2.2
  have h0 : A.head? ≠ some 48 := by
    intro h0
    by_cases hl : 1 < A.length
    · exact hA.2.2.1 hl h0
    · cases A with
      | nil => simp at h0
      | cons c t =>
        have : t = [] := by simp at hl; exact hl
        subst this
        simp only [List.head?_cons, Option.some.injEq] at h0
        subst h0
        have : decValue [48] = 0 := rfl
        omega
  have hs := strtoul0_digits (IsDecimal.digits hA) h0 (r := r) (fun c hc => by
    rcases hr with rfl | hr
    · simp at hc
    · rw [hr] at hc
      obtain rfl := Option.some.inj hc
      decide) (by omega)
  rw [e] at hs ⊢
  rw [octets.eq_3, hs]
  simp only
  rw [hv, Nat.mod_eq_of_lt va', if_pos va]

/-- Numbers above 255 are rejected, if they fit into 32 bits: nothing is stored. -/
theorem parseip_rejects_large {A B C D : Bytes} {a b c d : Nat} (hA : IsDecimal A a) (hB : IsDecimal B b) (hC : IsDecimal C c)
    (hD : IsDecimal D d) (va : a < 2 ^ 32) (vb : b < 2 ^ 32) (vc : c < 2 ^ 32) (vd : d < 2 ^ 32)
    (h : 256 ≤ a ∨ 256 ≤ b ∨ 256 ≤ c ∨ 256 ≤ d) : parseIp (quad A B C D) = .ok ⟨none, none⟩ := by
  have n47 := not_mem_quad hA hB hC hD 47 (by decide) (by decide)
  have n93 := not_mem_quad hA hB hC hD 93 (by decide) (by decide)
  have n58 := not_mem_quad hA hB hC hD 58 (by decide) (by decide)
  unfold parseIp
  rw [searchFrom_none (c := 47) rfl n47]
  simp only
  rw [searchFrom_none (c := 93) rfl n93, searchFrom_none (c := 58) rfl n58]
  simp only
  have : octets 4 (quad A B C D) = none := by
    unfold quad
    by_cases ha : 256 ≤ a
    · exact octets_large hA (.inr rfl) ha va 3
    · rw [octets_dot hA (by omega)]
      by_cases hb : 256 ≤ b
      · rw [octets_large hB (.inr rfl) hb vb 2]; rfl
      · rw [octets_dot hB (by omega)]
        by_cases hc : 256 ≤ c
        · rw [octets_large hC (.inr rfl) hc vc 1]; rfl
        · rw [octets_dot hC (by omega)]
          have := octets_large hD (r := []) (.inl rfl) (by omega) vd 0
          rw [List.append_nil] at this
          rw [this]
          rfl
  unfold address
  rw [this]

example : parseIp "10.0.300.1".toUTF8.toList = .ok ⟨none, none⟩ := by decide +kernel

/-! ## What is wrong -/

/-- Against C59: whatever follows the fourth number after a dot is ignored. -/
theorem parseip_ignores_rest {A B C D : Bytes} {a b c d : Nat} (hA : IsDecimal A a) (hB : IsDecimal B b) (hC : IsDecimal C c)
    (hD : IsDecimal D d) (va : a < 256) (vb : b < 256) (vc : c < 256) (vd : d < 256) (r : Bytes) (h47 : 47 ∉ r) (h58 : 58 ∉ r) :
    parseIp (quad A B C D ++ 46 :: r) = .ok ⟨bytes a b c d, none⟩ := by
  have n47 := not_mem_quad hA hB hC hD 47 (by decide) (by decide)
  have n58 := not_mem_quad hA hB hC hD 58 (by decide) (by decide)
  have e1 : searchFrom (quad A B C D ++ 46 :: r) [47, 47] 0 = none :=
    searchFrom_none (c := 47) rfl (by simp only [List.mem_append, List.mem_cons, not_or]; exact ⟨n47, by decide, h47⟩)
  have h58' : 58 ∉ quad A B C D ++ 46 :: r := by simp only [List.mem_append, List.mem_cons, not_or]; exact ⟨n58, by decide, h58⟩
  have e3 : searchFrom (quad A B C D ++ 46 :: r) [58] 0 = none := searchFrom_none (c := 58) rfl h58'
  have e2 : searchFrom (quad A B C D ++ 46 :: r) [93, 58] 0 = none := by
    unfold searchFrom
    rw [List.find?_eq_none]
    intro i _
    simp only [Nat.zero_le, true_and, decide_eq_true_eq]
    intro hp
    exact h58' (List.mem_of_mem_drop ((List.isPrefixOf_iff_prefix.1 hp).subset (by simp)))
  unfold parseIp
  rw [e1]
  simp only
  rw [e2, e3]
  simp only
  unfold address quad
  simp only [List.append_assoc, List.cons_append]
  rw [octets_dot hA va, octets_dot hB vb, octets_dot hC vc, octets_dot hD vd]
  rfl

/-- Against C59: these are no dotted quads of numbers up to 255, but are accepted: `1..2.3`, `010.0.0.1` (as 8.0.0.1), `0x7f.0.0.1`,
`4294967301.0.0.1` (as 5.0.0.1), `10.1` and `1.2.3.`. -/
theorem parseip_accepts_others :
    parseIp "1..2.3".toUTF8.toList = .ok ⟨bytes 1 0 2 3, none⟩ ∧
    parseIp "010.0.0.1".toUTF8.toList = .ok ⟨bytes 8 0 0 1, none⟩ ∧
    parseIp "0x7f.0.0.1".toUTF8.toList = .ok ⟨bytes 127 0 0 1, none⟩ ∧
    parseIp "4294967301.0.0.1".toUTF8.toList = .ok ⟨bytes 5 0 0 1, none⟩ ∧
    parseIp "10.1".toUTF8.toList = .ok ⟨bytes 10 0 0 1, none⟩ ∧
    parseIp "1.2.3.".toUTF8.toList = .ok ⟨bytes 1 0 2 3, none⟩ := by decide +kernel

/-- Against C59: a single number from 192 up stores an address of which three bytes are indeterminate. -/
theorem parseip_stores_garbage {A : Bytes} {a : Nat} (hA : IsDecimal A a) (va : a < 256) (h : 192 ≤ a) :
    parseIp A = .ok ⟨some [some (UInt8.ofNat a), none, none, none], none⟩ := by
  have hx : ∀ x : UInt8, ¬ (48 ≤ x.toNat ∧ x.toNat ≤ 57) → x ∉ A := fun x hx hm => hx (hA.2.1 x hm)
  unfold parseIp
  rw [searchFrom_none (c := 47) rfl (hx 47 (by decide))]
  simp only
  rw [searchFrom_none (c := 93) rfl (hx 93 (by decide)), searchFrom_none (c := 58) rfl (hx 58 (by decide))]
  simp only
  unfold address
  rw [octets_end hA va]
  simp only [fill]
  rw [if_pos]
  · rfl
  · rw [UInt8.toNat_ofNat_of_lt' (by simpa using va)]
    omega

example : IsDecimal "200".toUTF8.toList 200 := by decide +kernel

/-- Against C59: the empty text reads indeterminate memory. -/
theorem parseip_empty_ub : parseIp [] = .ub := by decide +kernel

end Verif.Io.Ip
