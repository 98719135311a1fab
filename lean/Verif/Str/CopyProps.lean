import Verif.Str.Copy
import Verif.Str.PathLemmas
import Verif.Str.MiscSpec

/-!
# Copies, case conversion and `str_has_either` (C90, C91, C93)
-/

namespace Verif.Str

/-! ## C90: copies -/

theorem memdup_spec (src : Bytes) (p len : Nat) (h : p + len ≤ src.length) :
    ∃ z, memdup src p len = .ok ((src.drop p).take len ++ 0 :: z) := by
  have ha := le_alignUp2 (len + 1)
  obtain ⟨m, hm⟩ : ∃ m, alignUp2 (len + 1) = len + (m + 1) := ⟨alignUp2 (len + 1) - (len + 1), by omega⟩
  refine ⟨List.replicate m 0, ?_⟩
  unfold memdup
  rw [memcpy_ok h (by simp [calloc]; omega), hm]
  simp [calloc, List.replicate_succ]

/-- C90: a copy of a piece that lies within the string is exactly that piece, terminated. -/
theorem str_trim_at_exact (a piece b : Bytes) (hp : NulFree piece) :
    ∃ blk, strTrimAt (cstr (a ++ piece ++ b)) a.length piece.length = .ok blk ∧ strAt blk 0 = .ok piece := by
  unfold strTrimAt
  rw [if_neg (by omega)]
  obtain ⟨z, hz⟩ := memdup_spec (cstr (a ++ piece ++ b)) a.length piece.length (by simp [cstr])
  refine ⟨_, by rw [Int.toNat_natCast]; exact hz, ?_⟩
  have e : ((cstr (a ++ piece ++ b)).drop a.length).take piece.length = piece := by simp [cstr]
  rw [e]
  exact strAt_z hp

example : (strTrimAt (cstr [65, 66, 67, 68]) 1 2).bind (fun b => strAt b 0) = .ok [66, 67] := by decide

/-- C90: `str_trim` gives the first bytes, `str_dup` the whole string; a trim of a dup is the trim. -/
theorem str_dup_exact (s : Bytes) (hs : NulFree s) (n : Nat) (hn : n ≤ s.length) :
    ∃ d t, strDup (cstr s) = .ok d ∧ strAt d 0 = .ok s ∧ strTrim d n = .ok t ∧ strAt t 0 = .ok (s.take n) := by
  obtain ⟨z, hz⟩ := memdup_spec (cstr s) 0 s.length (by simp [cstr])
  have e : ((cstr s).drop 0).take s.length = s := by simp [cstr]
  rw [e] at hz
  obtain ⟨z2, hz2⟩ := memdup_spec (s ++ 0 :: z) 0 n (by simp; omega)
  refine ⟨s ++ 0 :: z, _, ?_, strAt_z hs, hz2, ?_⟩
  · unfold strDup cstr
    rw [show s ++ [0] = s ++ 0 :: [] from rfl, strAt_z hs]
    exact hz
  · rw [List.drop_zero, List.take_append_of_le_length hn]
    exact strAt_z (fun b hb => hs b (List.mem_of_mem_take hb))

example : (strDup (cstr [65, 66])).bind (fun b => strAt b 0) = .ok [65, 66] := by decide

/-- C90 fails for lengths beyond the string: `str_trim` does not stop at the terminator, it reads on past the
object. -/
theorem str_trim_beyond_ub (s : Bytes) (n : Nat) (h : s.length + 1 < n) : strTrim (cstr s) n = .ub := by
  unfold strTrim memdup memcpy
  rw [if_neg]
  simp [cstr]; omega

example : strTrim (cstr [65, 66]) 5 = .ub := by decide

/-- C90 fails for `str_cpy`: no terminator is written.  Whatever follows in the destination becomes part of the
string. -/
theorem str_cpy_unterminated (s t rest : Bytes) (hs : NulFree s) (ht : NulFree t) :
    ∃ d, strCpy (List.replicate s.length 46 ++ cstr t ++ rest) (cstr s) 0 = .ok d ∧ strAt d 0 = .ok (s ++ t) := by
  refine ⟨s ++ t ++ 0 :: rest, ?_, strAt_z (hs.append ht)⟩
  unfold strCpy
  rw [if_neg (by simp)]
  have h1 : strAt (cstr s) 0 = .ok s := strAt_z (z := []) hs
  rw [h1]
  simp only [Res.ok_bind]
  rw [memcpy_ok (by simp [cstr]) (by simp)]
  simp [cstr]

/-- C90 for `str_cpy`, the part that holds: the bytes of the string are copied to the beginning and everything after
them is kept; the result is the string if and only if the next byte of the destination is already a terminator. -/
theorem str_cpy_bytes_partial (s dst : Bytes) (hs : NulFree s) (h : s.length < dst.length) :
    strCpy dst (cstr s) 0 = .ok (s ++ dst.drop s.length) ∧
      (strAt (s ++ dst.drop s.length) 0 = .ok s ↔ dst[s.length] = 0) := by
  constructor
  · unfold strCpy
    rw [if_neg (by simp)]
    have h1 : strAt (cstr s) 0 = .ok s := strAt_z (z := []) hs
    rw [h1]
    simp only [Res.ok_bind]
    rw [memcpy_ok (by simp [cstr]) (by simp; omega)]
    simp [cstr]
  · rw [List.drop_eq_getElem_cons h]
    constructor
    · intro he
      by_contra hne
      unfold strAt at he
      simp only [List.drop_zero] at he
      split at he
      · simp only [Res.ok.injEq] at he
        rw [List.takeWhile_append_of_pos (by intro b hb; simpa using hs b hb)] at he
        rw [List.takeWhile_cons_of_pos (by simpa using hne)] at he
        have := congrArg List.length he
        simp at this
      · cases he
    · intro h0
      rw [h0]; exact strAt_z hs

example : strCpy [1, 2, 0, 9] (cstr [65, 66]) 0 = .ok [65, 66, 0, 9] := by decide

/-! ## C91: case conversion -/

/-- Specification: upper and lower case of ASCII letters, everything else unchanged. -/
def asciiUpper (c : UInt8) : UInt8 := if 97 ≤ c ∧ c ≤ 122 then c - 32 else c

theorem mapLoop_spec (f : UInt8 → UInt8) : ∀ (s pre z : Bytes),
    mapLoop f s.length (pre ++ s ++ z) pre.length = .ok (pre ++ s.map f ++ z)
  | [], pre, z => rfl
  | c :: s, pre, z => by
    rw [List.length_cons]
    unfold mapLoop
    rw [show pre ++ c :: s ++ z = pre ++ c :: (s ++ z) by simp, rd_at rfl]
    simp only [Res.ok_bind]
    rw [wr_at rfl]
    simp only [Res.ok_bind]
    have := mapLoop_spec f s (pre ++ [f c]) z
    rw [show pre ++ f c :: (s ++ z) = pre ++ [f c] ++ s ++ z by simp,
      show pre.length + 1 = (pre ++ [f c]).length by simp, this]
    simp

theorem upper_ne_zero (c : UInt8) (h : c ≠ 0) : asciiUpper c ≠ 0 := by
  have key : ∀ k : Fin 256, UInt8.ofNat k.1 ≠ 0 → asciiUpper (UInt8.ofNat k.1) ≠ 0 := by decide +kernel
  have := key ⟨c.toNat, c.toNat_lt⟩
  simp only [UInt8.ofNat_toNat] at this
  exact this h

theorem lower_ne_zero (c : UInt8) (h : c ≠ 0) : asciiLower c ≠ 0 := by
  have key : ∀ k : Fin 256, UInt8.ofNat k.1 ≠ 0 → asciiLower (UInt8.ofNat k.1) ≠ 0 := by decide +kernel
  have := key ⟨c.toNat, c.toNat_lt⟩
  simp only [UInt8.ofNat_toNat] at this
  exact this h

/-- C91: `str_toupper` and `str_tolower` change every letter of the string and nothing else: not the length, not the
other bytes, not what follows the terminator. -/
theorem str_case_exact (s z : Bytes) (hs : NulFree s) :
    strToupper (s ++ 0 :: z) = .ok (s.map asciiUpper ++ 0 :: z) ∧
    strTolower (s ++ 0 :: z) = .ok (s.map asciiLower ++ 0 :: z) ∧
    strAt (s.map asciiUpper ++ 0 :: z) 0 = .ok (s.map asciiUpper) ∧
    strAt (s.map asciiLower ++ 0 :: z) 0 = .ok (s.map asciiLower) := by
  refine ⟨?_, ?_, strAt_z ?_, strAt_z ?_⟩
  · unfold strToupper; rw [strAt_z hs]; exact mapLoop_spec toUpper s [] (0 :: z)
  · unfold strTolower; rw [strAt_z hs]; exact mapLoop_spec toLower s [] (0 :: z)
  · intro b hb
    obtain ⟨c, hc, rfl⟩ := List.mem_map.1 hb
    exact upper_ne_zero c (hs c hc)
  · intro b hb
    obtain ⟨c, hc, rfl⟩ := List.mem_map.1 hb
    exact lower_ne_zero c (hs c hc)

example : strToupper (cstr [97, 49, 122, 195, 164]) = .ok (cstr [65, 49, 90, 195, 164]) := by decide

/-- C91: converting twice is converting once, the last conversion decides, and two strings are equal up to case
(`str_is_case`, C17) exactly if their conversions are equal. -/
theorem str_case_laws (s t : Bytes) :
    (s.map asciiUpper).map asciiUpper = s.map asciiUpper ∧
    (s.map asciiLower).map asciiLower = s.map asciiLower ∧
    (s.map asciiUpper).map asciiLower = s.map asciiLower ∧
    (s.map asciiLower).map asciiUpper = s.map asciiUpper ∧
    (s.map asciiUpper = t.map asciiUpper ↔ s.map asciiLower = t.map asciiLower) := by
  have key : ∀ k : Fin 256, asciiUpper (asciiUpper (UInt8.ofNat k.1)) = asciiUpper (UInt8.ofNat k.1) ∧
      asciiLower (asciiLower (UInt8.ofNat k.1)) = asciiLower (UInt8.ofNat k.1) ∧
      asciiLower (asciiUpper (UInt8.ofNat k.1)) = asciiLower (UInt8.ofNat k.1) ∧
      asciiUpper (asciiLower (UInt8.ofNat k.1)) = asciiUpper (UInt8.ofNat k.1) := by decide +kernel
  have k2 : ∀ c : UInt8, asciiUpper (asciiUpper c) = asciiUpper c ∧ asciiLower (asciiLower c) = asciiLower c ∧
      asciiLower (asciiUpper c) = asciiLower c ∧ asciiUpper (asciiLower c) = asciiUpper c := by
    intro c
    have := key ⟨c.toNat, c.toNat_lt⟩
    simpa only [UInt8.ofNat_toNat] using this
  have e : ∀ f g h : UInt8 → UInt8, (∀ c, f (g c) = h c) → ∀ l : Bytes, (l.map g).map f = l.map h := by
    intro f g h hfg l
    rw [List.map_map]
    exact List.map_congr_left (fun c _ => hfg c)
  have e3 := e asciiLower asciiUpper asciiLower (fun c => (k2 c).2.2.1)
  have e4 := e asciiUpper asciiLower asciiUpper (fun c => (k2 c).2.2.2)
  refine ⟨e _ _ _ (fun c => (k2 c).1) s, e _ _ _ (fun c => (k2 c).2.1) s, e3 s, e4 s, ?_, ?_⟩
  · intro h
    rw [← e3 s, ← e3 t, h]
  · intro h
    rw [← e4 s, ← e4 t, h]

example : (([97, 66] : Bytes).map asciiUpper = ([65, 98] : Bytes).map asciiUpper) := by decide

/-! ## C93: `str_has_either` -/

/-- What the function really looks for: a place where every byte agrees with the first or with the second pattern. -/
def MixedAt (s m1 m2 : Bytes) (i : Nat) : Prop :=
  ∀ d < m1.length, (s[i + d]? = m1[d]? ∨ s[i + d]? = m2[d]?) ∧ i + d < s.length

theorem eitherCmp_spec (s m1 m2 : Bytes) (h12 : m1.length ≤ m2.length) (c : Nat) (hc : c + m1.length ≤ s.length) :
    ∀ (r d : Nat), d + r = m1.length →
      (∀ e < d, s[c + e]? = m1[e]? ∨ s[c + e]? = m2[e]?) →
      ∃ k, eitherCmp (cstr s) (cstr m1) (cstr m2) (c + d) d r = .ok k ∧
        (k = m1.length ↔ ∀ e < m1.length, s[c + e]? = m1[e]? ∨ s[c + e]? = m2[e]?) := by
  intro r
  induction r with
  | zero =>
    intro d hd hall
    refine ⟨d, rfl, ?_⟩
    have : d = m1.length := by omega
    subst this
    simpa using hall
  | succ r ih =>
    intro d hd hall
    unfold eitherCmp
    rw [rd_cstr_lt (show c + d < s.length by omega), rd_cstr_lt (show d < m1.length by omega),
      rd_cstr_lt (show d < m2.length by omega)]
    simp only [Res.ok_bind]
    have hstep : (s[c + d]? = m1[d]? ∨ s[c + d]? = m2[d]?) → ∀ e < d + 1, s[c + e]? = m1[e]? ∨ s[c + e]? = m2[e]? := by
      intro h e he
      rcases Nat.lt_or_ge e d with h2 | h2
      · exact hall e h2
      · have : e = d := by omega
        subst this; exact h
    have g1 : s[c + d]? = some s[c + d] := List.getElem?_eq_getElem (by omega)
    have g2 : m1[d]? = some m1[d] := List.getElem?_eq_getElem (by omega)
    have g3 : m2[d]? = some m2[d] := List.getElem?_eq_getElem (by omega)
    by_cases h1 : m1[d] = s[c + d]
    · rw [if_pos h1]
      have := ih (d + 1) (by omega) (hstep (.inl (by rw [g1, g2, h1])))
      rwa [← Nat.add_assoc] at this
    · rw [if_neg h1]
      by_cases h2 : m2[d] = s[c + d]
      · rw [if_pos h2]
        have := ih (d + 1) (by omega) (hstep (.inr (by rw [g1, g3, h2])))
        rwa [← Nat.add_assoc] at this
      · rw [if_neg h2]
        refine ⟨d, rfl, ?_⟩
        constructor
        · intro h; omega
        · intro h
          exfalso
          rcases h d (by omega) with h | h
          · rw [g1, g2] at h; exact h1 (Option.some.inj h).symm
          · rw [g1, g3] at h; exact h2 (Option.some.inj h).symm

theorem mixedAt_iff (s m1 m2 : Bytes) (i : Nat) (h : i + m1.length ≤ s.length) :
    MixedAt s m1 m2 i ↔ ∀ e < m1.length, s[i + e]? = m1[e]? ∨ s[i + e]? = m2[e]? :=
  ⟨fun h e he => (h e he).1, fun h' e he => ⟨h' e he, by omega⟩⟩

theorem eitherScan_spec (s m1 m2 : Bytes) (h12 : m1.length ≤ m2.length) : ∀ (r c : Nat),
    c + r + m1.length ≤ s.length + 1 →
    ∃ v, eitherScan (cstr s) (cstr m1) (cstr m2) m1.length c r = .ok v ∧
      (v = true ↔ ∃ i, c ≤ i ∧ i < c + r ∧ MixedAt s m1 m2 i) := by
  intro r
  induction r with
  | zero => intro c _; exact ⟨false, rfl, by simp; intro i h1 h2; omega⟩
  | succ r ih =>
    intro c hc
    obtain ⟨k, hk, hiff⟩ := eitherCmp_spec s m1 m2 h12 c (by omega) m1.length 0 (by omega) (by simp)
    unfold eitherScan
    rw [Nat.add_zero] at hk
    rw [hk]
    simp only [Res.ok_bind]
    rw [← mixedAt_iff s m1 m2 c (by omega)] at hiff
    by_cases hm : k = m1.length
    · rw [if_pos hm]
      exact ⟨true, rfl, by simp; exact ⟨c, Nat.le_refl _, by omega, hiff.1 hm⟩⟩
    · rw [if_neg hm]
      obtain ⟨v, hv, hvi⟩ := ih (c + 1) (by omega)
      refine ⟨v, hv, hvi.trans ?_⟩
      constructor
      · rintro ⟨i, a, b, d⟩; exact ⟨i, by omega, by omega, d⟩
      · rintro ⟨i, a, b, d⟩
        rcases Nat.eq_or_lt_of_le a with rfl | h
        · exact absurd (hiff.2 d) hm
        · exact ⟨i, h, by omega, d⟩

/-- C93, exact behaviour when the second pattern is at least as long as the first: the function answers whether some
stretch of the text agrees in each byte with one of the two patterns. -/
theorem has_either_actual (s m1 m2 : Bytes) (hs : NulFree s) (h1 : NulFree m1) (h12 : m1.length ≤ m2.length) :
    ∃ v, strHasEither (cstr s) (cstr m1) (cstr m2) = .ok v ∧
      (v = true ↔ m1.length ≤ s.length ∧ ∃ i ≤ s.length - m1.length, MixedAt s m1 m2 i) := by
  unfold strHasEither
  have e1 : strAt (cstr s) 0 = .ok s := strAt_z (z := []) hs
  have e2 : strAt (cstr m1) 0 = .ok m1 := strAt_z (z := []) h1
  rw [e1, e2]
  simp only [Res.ok_bind]
  by_cases hlen : m1.length > s.length
  · rw [if_pos hlen]
    exact ⟨false, rfl, by simp; intro h; omega⟩
  · rw [if_neg hlen]
    obtain ⟨v, hv, hvi⟩ := eitherScan_spec s m1 m2 h12 (s.length - m1.length + 1) 0 (by omega)
    refine ⟨v, hv, hvi.trans ?_⟩
    constructor
    · rintro ⟨i, -, b, d⟩; exact ⟨by omega, i, by omega, d⟩
    · rintro ⟨-, i, b, d⟩; exact ⟨i, Nat.zero_le _, by omega, d⟩

/-- C93, the part that holds: with patterns of the same length, a text that contains one of them is recognised.
Missing: the converse (`has_either_mixes`), and patterns of different lengths (`has_either_misses_second`,
`has_either_short_second_ub`). -/
theorem has_either_complete_partial (a b m1 m2 : Bytes) (ha : NulFree a) (hb : NulFree b) (h1 : NulFree m1)
    (h2 : NulFree m2) (hl : m1.length = m2.length) :
    strHasEither (cstr (a ++ m1 ++ b)) (cstr m1) (cstr m2) = .ok true ∧
    strHasEither (cstr (a ++ m2 ++ b)) (cstr m1) (cstr m2) = .ok true := by
  have key : ∀ m, NulFree m → m.length = m1.length → (∀ d < m1.length, m[d]? = m1[d]? ∨ m[d]? = m2[d]?) →
      strHasEither (cstr (a ++ m ++ b)) (cstr m1) (cstr m2) = .ok true := by
    intro m hm hml hd
    obtain ⟨v, hv, hvi⟩ := has_either_actual (a ++ m ++ b) m1 m2 ((ha.append hm).append hb) h1 (by omega)
    rw [hv, hvi.2]
    refine ⟨by simp; omega, a.length, by simp; omega, ?_⟩
    intro d hdl
    refine ⟨?_, by simp; omega⟩
    rw [List.append_assoc, List.getElem?_append_right (by omega), Nat.add_sub_cancel_left,
      List.getElem?_append_left (by omega)]
    exact hd d hdl
  exact ⟨key m1 h1 rfl (fun _ _ => .inl rfl), key m2 h2 hl.symm (fun _ _ => .inr rfl)⟩

example : strHasEither (cstr [1, 99, 100, 2]) (cstr [97, 98]) (cstr [99, 100]) = .ok true := by decide

/-- C93 fails: a text made of the first half of one pattern and the second half of the other is reported to contain
one of them. -/
theorem has_either_mixes (p1 p2 q1 q2 : Bytes) (h : NulFree (p1 ++ q1)) (h' : NulFree (p2 ++ q2))
    (hp : p1.length = p2.length) (hq : q1.length = q2.length) (n1 : p1 ≠ p2) (n2 : q1 ≠ q2) :
    strHasEither (cstr (p1 ++ q2)) (cstr (p1 ++ q1)) (cstr (p2 ++ q2)) = .ok true ∧
    ¬ (p1 ++ q1) <:+: (p1 ++ q2) ∧ ¬ (p2 ++ q2) <:+: (p1 ++ q2) := by
  refine ⟨?_, ?_, ?_⟩
  · obtain ⟨v, hv, hvi⟩ := has_either_actual (p1 ++ q2) (p1 ++ q1) (p2 ++ q2) (h.left.append h'.right) h (by simp; omega)
    rw [hv, hvi.2]
    refine ⟨by simp; omega, 0, by omega, ?_⟩
    intro d hd
    rw [List.length_append] at hd
    refine ⟨?_, by simp; omega⟩
    rw [Nat.zero_add]
    rcases Nat.lt_or_ge d p1.length with h3 | h3
    · left; rw [List.getElem?_append_left h3, List.getElem?_append_left h3]
    · right; rw [List.getElem?_append_right h3, List.getElem?_append_right (by omega), hp]
  · intro hi
    have := hi.eq_of_length (by simp; omega)
    exact n2 (List.append_cancel_left this)
  · intro hi
    have := hi.eq_of_length (by simp; omega)
    exact n1 (List.append_cancel_right this).symm

example : strHasEither (cstr [97, 100]) (cstr [97, 98]) (cstr [99, 100]) = .ok true := by decide

/-- C93 fails: a text that is shorter than the first pattern is never found to contain the second. -/
theorem has_either_misses_second (a b m1 m2 : Bytes) (ha : NulFree a) (hb : NulFree b) (h2 : NulFree m2)
    (h1 : NulFree m1) (hl : (a ++ m2 ++ b).length < m1.length) :
    strHasEither (cstr (a ++ m2 ++ b)) (cstr m1) (cstr m2) = .ok false := by
  unfold strHasEither
  have e1 : strAt (cstr (a ++ m2 ++ b)) 0 = .ok (a ++ m2 ++ b) := strAt_z (z := []) ((ha.append h2).append hb)
  have e2 : strAt (cstr m1) 0 = .ok m1 := strAt_z (z := []) h1
  rw [e1, e2]
  simp only [Res.ok_bind]
  rw [if_pos hl]

example : strHasEither (cstr [99]) (cstr [97, 98]) (cstr [99]) = .ok false := by decide

theorem eitherCmp_same (p s' m' m2 : Bytes) : ∀ (x y : Bytes) (_ : p = x ++ y) (r : Nat),
    eitherCmp (cstr (p ++ s')) (cstr (p ++ m')) (cstr m2) x.length x.length (y.length + r) =
      eitherCmp (cstr (p ++ s')) (cstr (p ++ m')) (cstr m2) p.length p.length r := by
  intro x y
  induction y generalizing x with
  | nil => intro h r; subst h; simp
  | cons c y ih =>
    intro h r
    rw [List.length_cons, show y.length + 1 + r = (y.length + r) + 1 by omega]
    conv_lhs => unfold eitherCmp
    have g : ∀ t, rd (cstr (p ++ t)) x.length = .ok c := by
      intro t
      rw [h]
      unfold cstr
      rw [show x ++ c :: y ++ t ++ [0] = x ++ c :: (y ++ t ++ [0]) by simp]
      exact rd_at rfl
    rw [g, g]
    simp only [Res.ok_bind, if_true]
    have := ih (x ++ [c]) (by rw [h]; simp) r
    simpa using this

/-- C93 fails: if the text begins like the first pattern for longer than the second pattern and then differs, the
second pattern is read past its end. -/
theorem has_either_short_second_ub (p q1 q2 m2 : Bytes) (c c' : UInt8) (h : NulFree (p ++ c :: q1))
    (hs : NulFree (p ++ c' :: q2)) (hne : c ≠ c') (hl : m2.length < p.length) (hq : q1.length ≤ q2.length) :
    strHasEither (cstr (p ++ c' :: q2)) (cstr (p ++ c :: q1)) (cstr m2) = .ub := by
  unfold strHasEither
  have e1 : strAt (cstr (p ++ c' :: q2)) 0 = .ok (p ++ c' :: q2) := strAt_z (z := []) hs
  have e2 : strAt (cstr (p ++ c :: q1)) 0 = .ok (p ++ c :: q1) := strAt_z (z := []) h
  rw [e1, e2]
  simp only [Res.ok_bind]
  rw [if_neg (by simp; omega)]
  unfold eitherScan
  have h1 := eitherCmp_same p (c' :: q2) (c :: q1) m2 [] p rfl (q1.length + 1)
  simp only [List.length_nil] at h1
  rw [show (p ++ c :: q1).length = p.length + (q1.length + 1) by simp, h1]
  unfold eitherCmp
  have g : ∀ (a : UInt8) (t : Bytes), rd (cstr (p ++ a :: t)) p.length = .ok a := by
    intro a t
    unfold cstr
    rw [show p ++ a :: t ++ [0] = p ++ a :: (t ++ [0]) by simp]
    exact rd_at rfl
  have g2 : rd (cstr m2) p.length = .ub := by
    unfold rd
    rw [List.getElem?_eq_none (by simp [cstr]; omega)]
  rw [g, g]
  simp only [Res.ok_bind, if_neg hne, g2, Res.ub_bind]

example : strHasEither (cstr [97, 98, 120]) (cstr [97, 98, 99]) (cstr [100]) = .ub := by decide

end Verif.Str
