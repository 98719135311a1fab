import Verif.Str.Base64Lemmas

/-!
# Properties of base64: C06, C07, C08
-/

namespace Verif.Str

/-- C07 (encoder), for sources below 3 GiB: either the destination is too small and nothing is written, or exactly
`4 * ceil(n/3)` characters, the RFC 4648 encoding, and a NUL are written, everything after that is untouched, and all
writes are inside the destination. Missing from the full claim: larger sources (`str_encode64_overflow`). -/
theorem str_encode64_exact_partial (s dst : Bytes) (hs : NulFree s) (hne : s ≠ []) (hbig : s.length < 3 * 2 ^ 30 - 2) :
    let n := (s.length + 2) / 3 * 4
    strEncode64 (cstr s) dst =
      (if dst.length < n + 1 then .ok none else .ok (some (specEncode s ++ 0 :: dst.drop (n + 1)))) ∧
    (specEncode s).length = n := by
  intro n
  have hl : s.length ≠ 0 := by simpa using hne
  have hn : (specEncode s).length = n := specEncode_length s
  refine ⟨?_, hn⟩
  unfold strEncode64
  simp only [strAt_cstr hs (Nat.zero_le _), List.drop_zero, Res.ok_bind]
  rw [if_neg hl, b64Len_eq hbig]
  by_cases hd : dst.length < n + 1
  · rw [if_pos hd, if_pos hd]
  · rw [if_neg hd, if_neg hd]
    have := encLoop_spec [0] s [] [] dst (by omega)
    simp only [List.nil_append, List.length_nil, Nat.zero_add] at this
    have e : encLoop (cstr s) s.length 0 0 dst =
      .ok (specEncode s ++ dst.drop (specEncode s).length, (specEncode s).length) := this
    simp only [e, Res.ok_bind]
    have hx : dst.drop n = dst[n]'(by omega) :: dst.drop (n + 1) := List.drop_eq_getElem_cons (by omega)
    have hw : wr (specEncode s ++ dst.drop n) n 0 = .ok (specEncode s ++ 0 :: dst.drop (n + 1)) := by
      rw [hx]
      have := wr_at0 (specEncode s) (dst[n]'(by omega)) 0 (dst.drop (n + 1))
      rwa [hn] at this
    rw [hn, hw]
    rfl

example : strEncode64 (cstr [77, 97]) (List.replicate 6 7) = .ok (some [84, 87, 69, 61, 0, 7]) := by decide +kernel

/-- C07 is false for huge sources: `~3u` keeps only 32 bits, so for a source of 3·2^30 − 2 bytes the required size
is computed as 0 and a one-byte destination is accepted and overrun. -/
theorem str_encode64_overflow (s : Bytes) (hs : NulFree s) (hl : s.length = 3 * 2 ^ 30 - 2) (x : UInt8) :
    strEncode64 (cstr s) [x] = .ub := by
  obtain ⟨a, b, c, r, rfl⟩ : ∃ a b c r, s = a :: b :: c :: r := by
    match s, hl with
    | a :: b :: c :: r, _ => exact ⟨a, b, c, r, rfl⟩
    | [], h => simp at h
    | [a], h => simp at h
    | [a, b], h => simp at h
  have hz : b64Len (a :: b :: c :: r).length = 0 := by rw [hl]; decide
  unfold strEncode64
  simp only [strAt_cstr hs (Nat.zero_le _), List.drop_zero, Res.ok_bind]
  rw [if_neg (by rw [hl]; decide), hz, if_neg (by simp)]
  have r0 : rd (cstr (a :: b :: c :: r)) 0 = .ok a := rfl
  have r1 : rd (cstr (a :: b :: c :: r)) (0 + 1) = .ok b := rfl
  have r2 : rd (cstr (a :: b :: c :: r)) (0 + 2) = .ok c := rfl
  have ha := a.toNat_lt
  have hb := b.toNat_lt
  simp only [List.length_cons, encLoop, r0, r1, r2, Res.ok_bind]
  rw [encOf_val (w := a.toNat / 4) (bits0 _) (by omega),
    encOf_val (w := a.toNat % 4 * 16 + b.toNat / 16) (ev1 _ _ hb) (by omega)]
  simp [wr]

/-- A source meeting the hypotheses of `str_encode64_overflow` exists. -/
example : ∃ s : Bytes, NulFree s ∧ s.length = 3 * 2 ^ 30 - 2 := by
  generalize 3 * 2 ^ 30 - 2 = N
  exact ⟨List.replicate N 65, fun b hb => by rw [(List.mem_replicate.1 hb).2]; decide, by simp⟩

/-- C08 (and C07 for the decoder): complete behaviour of `str_decode64` on every C string and every destination.
NULL if the text is empty, contains a byte that is neither in the alphabet nor '=', if its length is not a multiple
of 4, if the destination is smaller than the documented size, or if the first padded quadruple has more than two
'='; otherwise the destination starts with the RFC 4648 decoding of the quadruples up to the first padded one,
followed by a NUL.  Never an access outside the destination. -/
theorem str_decode64_spec (s dst junk : Bytes) (hs : NulFree s) (hj : junk.length = 4) :
    if s = [] ∨ (∃ c ∈ s, digit c = none) ∨ s.length % 4 ≠ 0 ∨ dst.length < (s.length + 2) / 3 * 4 + 1 then
      strDecode64 junk (cstr s) dst = .ok none
    else
      match specDecode s with
      | none => strDecode64 junk (cstr s) dst = .ok none
      | some out => ∃ buf, strDecode64 junk (cstr s) dst = .ok (some buf) ∧ buf.length = dst.length ∧
          buf.take out.length = out ∧ buf[out.length]? = some 0 := by
  have hisb : s ≠ [] → strIsBase64 (cstr s) = .ok (s.all fun c => (digit c).isSome) := by
    intro hne
    have := isB64Loop_spec [0] s []
    simp only [List.nil_append, List.length_nil] at this
    unfold strIsBase64
    simp only [strAt_cstr hs (Nat.zero_le _), List.drop_zero, Res.ok_bind]
    rw [if_neg (by simpa using hne)]
    exact this
  by_cases h0 : s = []
  · rw [if_pos (.inl h0)]
    subst h0
    simp [strDecode64, strIsBase64, strAt_cstr hs (Nat.zero_le _)]
  by_cases hv : ∃ c ∈ s, digit c = none
  · rw [if_pos (.inr (.inl hv))]
    obtain ⟨c, hc, hd⟩ := hv
    have : (s.all fun c => (digit c).isSome) = false := by
      rw [List.all_eq_false]
      exact ⟨c, hc, by simp [hd]⟩
    unfold strDecode64
    rw [hisb h0, this]
    rfl
  have hv' : ∀ c ∈ s, (digit c).isSome := by
    intro c hc
    cases hd : digit c with
    | none => exact absurd ⟨c, hc, hd⟩ hv
    | some v => rfl
  have hall : (s.all fun c => (digit c).isSome) = true := by simpa using hv'
  have hcount : decCount (cstr s) s.length 0 0 = .ok s.length := by
    have := decCount_spec [0] s [] 0 hv'
    simpa [cstr] using this
  have hlen : s.length ≠ 0 := by simpa using h0
  by_cases hsz : dst.length < (s.length + 2) / 3 * 4 + 1
  · rw [if_pos (.inr (.inr (.inr hsz)))]
    unfold strDecode64
    rw [hisb h0, hall]
    simp only [Res.ok_bind, if_true, strAt_cstr hs (Nat.zero_le _), List.drop_zero]
    rw [if_pos hsz]
  by_cases h4 : s.length % 4 ≠ 0
  · rw [if_pos (.inr (.inr (.inl h4)))]
    unfold strDecode64
    rw [hisb h0, hall]
    simp only [Res.ok_bind, if_true, strAt_cstr hs (Nat.zero_le _), List.drop_zero]
    rw [if_neg hsz]
    simp only [hcount, Res.ok_bind]
    rw [if_pos (.inr h4)]
  · rw [if_neg (by rintro (h | h | h | h) <;> contradiction)]
    have hloop := decLoop_spec [0] s [] [] dst junk hj (by omega) hv' (by omega)
    simp only [List.nil_append, List.length_nil, Nat.zero_add] at hloop
    cases hsd : specDecode s with
    | none =>
      rw [hsd] at hloop
      have hloop' : decLoop (cstr s) s.length 0 0 junk 0 0 dst = .ok none := hloop
      unfold strDecode64
      rw [hisb h0, hall]
      simp only [Res.ok_bind, if_true, strAt_cstr hs (Nat.zero_le _), List.drop_zero]
      rw [if_neg hsz]
      simp only [hcount, Res.ok_bind]
      rw [if_neg (by simp [hlen]; omega)]
      simp [hloop']
    | some out =>
      rw [hsd] at hloop
      obtain ⟨d, h1, h2, h3, h5⟩ := hloop
      have h1' : decLoop (cstr s) s.length 0 0 junk 0 0 dst = .ok (some (d, out.length)) := h1
      refine ⟨d.set out.length 0, ?_, by simpa using h2, ?_, ?_⟩
      · unfold strDecode64
        rw [hisb h0, hall]
        simp only [Res.ok_bind, if_true, strAt_cstr hs (Nat.zero_le _), List.drop_zero]
        rw [if_neg hsz]
        simp only [hcount, Res.ok_bind]
        rw [if_neg (by simp [hlen]; omega)]
        simp only [h1', Res.ok_bind]
        rw [wr_ok (by omega)]
        rfl
      · rw [List.take_set_of_le (Nat.le_refl _)]
        exact h3
      · rw [List.getElem?_set_self (by omega)]

example : strDecode64 [0, 0, 0, 0] (cstr [84, 87, 69, 61]) (List.replicate 9 7) =
    .ok (some [77, 97, 0, 7, 7, 7, 7, 7, 7]) := by decide +kernel

/-- Padding is only counted, not located: '=' in front is accepted as well ("=AAA" decodes to two zero bytes). -/
example : strDecode64 [0, 0, 0, 0] (cstr [61, 65, 65, 65]) (List.replicate 9 7) =
    .ok (some [0, 0, 0, 7, 7, 7, 7, 7, 7]) := by decide +kernel

/-- C06: encode then decode gives the text back, and the encoded text satisfies `str_is_base64`; any destinations
of sufficient size. -/
theorem base64_round_trip (s dst dst2 junk : Bytes) (hs : NulFree s) (hne : s ≠ []) (hbig : s.length < 3 * 2 ^ 30 - 2)
    (hj : junk.length = 4) (hd1 : (s.length + 2) / 3 * 4 + 1 ≤ dst.length)
    (hd2 : ((s.length + 2) / 3 * 4 + 2) / 3 * 4 + 1 ≤ dst2.length) :
    ∃ enc, strEncode64 (cstr s) dst = .ok (some enc) ∧
      ∃ e rest, enc = cstr e ++ rest ∧ NulFree e ∧ strIsBase64 (cstr e) = .ok true ∧
        ∃ buf, strDecode64 junk (cstr e) dst2 = .ok (some buf) ∧ strAt buf 0 = .ok s := by
  have hsl : 0 < s.length := List.length_pos_iff.2 hne
  obtain ⟨h1, h2⟩ := str_encode64_exact_partial s dst hs hne hbig
  rw [if_neg (by omega)] at h1
  have hval := specEncode_valid s
  have hen : NulFree (specEncode s) := fun x hx => (hval x hx).2
  have hne' : specEncode s ≠ [] := by
    intro h
    rw [h] at h2
    simp at h2
    omega
  refine ⟨_, h1, specEncode s, dst.drop ((s.length + 2) / 3 * 4 + 1), by simp [cstr], hen, ?_, ?_⟩
  · have := isB64Loop_spec [0] (specEncode s) []
    simp only [List.nil_append, List.length_nil] at this
    unfold strIsBase64
    simp only [strAt_cstr hen (Nat.zero_le _), List.drop_zero, Res.ok_bind]
    rw [if_neg (by simpa using hne')]
    have hall : ((specEncode s).all fun c => (digit c).isSome) = true := by
      simpa using fun x hx => (hval x hx).1
    rw [hall] at this
    exact this
  · have hdec := str_decode64_spec (specEncode s) dst2 junk hen hj
    rw [if_neg, specDecode_encode] at hdec
    · obtain ⟨buf, b1, b2, b3, b4⟩ := hdec
      refine ⟨buf, b1, ?_⟩
      have hlt : s.length < buf.length := (List.getElem?_eq_some_iff.1 b4).1
      have : buf = s ++ 0 :: buf.drop (s.length + 1) := by
        conv_lhs => rw [← List.take_append_drop s.length buf, b3, List.drop_eq_getElem_cons hlt]
        rw [List.getElem?_eq_getElem hlt] at b4
        simp at b4
        rw [b4]
      rw [this]
      have e : (s ++ 0 :: buf.drop (s.length + 1)).drop 0 = s ++ 0 :: buf.drop (s.length + 1) := rfl
      simp only [strAt, e]
      rw [if_pos (by simp), List.takeWhile_append_of_pos (by simpa [NulFree] using hs)]
      simp
    · rintro (h | ⟨c, hc, hd⟩ | h | h)
      · exact hne' h
      · have := (hval c hc).1
        rw [hd] at this
        simp at this
      · rw [h2] at h; omega
      · rw [h2] at h; omega

example : ∃ s dst dst2 : Bytes, NulFree s ∧ s ≠ [] ∧ s.length < 3 * 2 ^ 30 - 2 ∧ (s.length + 2) / 3 * 4 + 1 ≤ dst.length ∧
    ((s.length + 2) / 3 * 4 + 2) / 3 * 4 + 1 ≤ dst2.length :=
  ⟨[104, 105], List.replicate 5 0, List.replicate 9 0, by decide, by decide, by decide, by decide, by decide⟩

end Verif.Str
