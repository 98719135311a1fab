import Verif.Str.Base64
import Verif.Str.Base64Spec

namespace Verif.Str

theorem wr_at0 (p : Bytes) (a v : UInt8) (f : Bytes) : wr (p ++ a :: f) p.length v = .ok (p ++ v :: f) := by
  rw [wr_ok (by simp), List.set_append_right _ _ (by omega)]; simp

theorem wr_at1 (p : Bytes) (a b v : UInt8) (f : Bytes) :
    wr (p ++ a :: b :: f) (p.length + 1) v = .ok (p ++ a :: v :: f) := by
  rw [wr_ok (by simp), List.set_append_right _ _ (by omega)]; simp

theorem wr_at2 (p : Bytes) (a b c v : UInt8) (f : Bytes) :
    wr (p ++ a :: b :: c :: f) (p.length + 2) v = .ok (p ++ a :: b :: v :: f) := by
  rw [wr_ok (by simp), List.set_append_right _ _ (by omega)]; simp

theorem wr_at3 (p : Bytes) (a b c d v : UInt8) (f : Bytes) :
    wr (p ++ a :: b :: c :: d :: f) (p.length + 3) v = .ok (p ++ a :: b :: c :: v :: f) := by
  rw [wr_ok (by simp), List.set_append_right _ _ (by omega)]; simp

theorem rd_at0 (p : Bytes) (a : UInt8) (f : Bytes) : rd (p ++ a :: f) p.length = .ok a := by simp [rd]
theorem rd_at1 (p : Bytes) (a b : UInt8) (f : Bytes) : rd (p ++ a :: b :: f) (p.length + 1) = .ok b := by simp [rd]
theorem rd_at2 (p : Bytes) (a b c : UInt8) (f : Bytes) : rd (p ++ a :: b :: c :: f) (p.length + 2) = .ok c := by
  simp [rd]
theorem rd_at3 (p : Bytes) (a b c d : UInt8) (f : Bytes) :
    rd (p ++ a :: b :: c :: d :: f) (p.length + 3) = .ok d := by simp [rd]

theorem encOf_eq {v : Nat} (h : v < 64) : encOf v = .ok (sextet v) := by
  have : ∀ w : Fin 64, encOf w.1 = .ok (sextet w.1) := by decide +kernel
  exact this ⟨v, h⟩

theorem or_add {a b k : Nat} (h : b < 2 ^ k) : a <<< k ||| b = a * 2 ^ k + b := by
  rw [← Nat.shiftLeft_add_eq_or_of_lt h, Nat.shiftLeft_eq]

theorem bits0 (a : Nat) : a >>> 2 = a / 4 := by simp [Nat.shiftRight_eq_div_pow]
theorem bits3 (a : Nat) : a &&& 0x03 = a % 4 := Nat.and_two_pow_sub_one_eq_mod a 2
theorem bits15 (a : Nat) : a &&& 0x0f = a % 16 := Nat.and_two_pow_sub_one_eq_mod a 4
theorem bits63 (a : Nat) : a &&& 0x3f = a % 64 := Nat.and_two_pow_sub_one_eq_mod a 6

theorem ev1 (a b : Nat) (hb : b < 256) : (a &&& 0x03) <<< 4 ||| b >>> 4 = a % 4 * 16 + b / 16 := by
  rw [or_add (by rw [Nat.shiftRight_eq_div_pow]; omega), bits3, Nat.shiftRight_eq_div_pow]
  omega
theorem ev2 (a b : Nat) (hb : b < 256) : (a &&& 0x0f) <<< 2 ||| b >>> 6 = a % 16 * 4 + b / 64 := by
  rw [or_add (by rw [Nat.shiftRight_eq_div_pow]; omega), bits15, Nat.shiftRight_eq_div_pow]
  omega
theorem ev1' (a : Nat) : (a &&& 0x03) <<< 4 = a % 4 * 16 := by rw [bits3, Nat.shiftLeft_eq]
theorem ev2' (a : Nat) : (a &&& 0x0f) <<< 2 = a % 16 * 4 := by rw [bits15, Nat.shiftLeft_eq]

theorem encOf_val {v w : Nat} (h : v = w) (hw : w < 64) : encOf v = .ok (sextet w) := by
  subst h; exact encOf_eq hw

theorem take_four {f : Bytes} (h : 4 ≤ f.length) : ∃ a b c d g, f = a :: b :: c :: d :: g := by
  match f, h with
  | a :: b :: c :: d :: g, _ => exact ⟨a, b, c, d, g, rfl⟩

theorem encLoop_spec (z : Bytes) : ∀ (rest pre done free : Bytes), (specEncode rest).length ≤ free.length →
    encLoop (pre ++ rest ++ z) rest.length pre.length done.length (done ++ free) =
      .ok (done ++ specEncode rest ++ free.drop (specEncode rest).length, done.length + (specEncode rest).length)
  | [], pre, done, free, _ => by simp [encLoop, specEncode]
  | [a], pre, done, free, h => by
    obtain ⟨f0, f1, f2, f3, g, rfl⟩ := take_four (f := free) (by simpa [specEncode] using h)
    have ha := a.toNat_lt
    have e : pre ++ [a] ++ z = pre ++ a :: z := by simp
    simp only [List.length_cons, List.length_nil, Nat.zero_add, encLoop, e, rd_at0, Res.ok_bind]
    rw [encOf_val (w := a.toNat * 65536 / 262144) (by rw [bits0]; omega) (by omega),
      encOf_val (w := a.toNat * 65536 / 4096 % 64) (by rw [ev1']; omega) (by omega)]
    simp only [Res.ok_bind, wr_at0, wr_at1, wr_at2, wr_at3]
    simp [specEncode]
  | [a, b], pre, done, free, h => by
    obtain ⟨f0, f1, f2, f3, g, rfl⟩ := take_four (f := free) (by simpa [specEncode] using h)
    have ha := a.toNat_lt
    have hb := b.toNat_lt
    have e : pre ++ [a, b] ++ z = pre ++ a :: b :: z := by simp
    simp only [List.length_cons, List.length_nil, Nat.zero_add, encLoop, e, rd_at0, rd_at1, Res.ok_bind]
    rw [encOf_val (w := (a.toNat * 65536 + b.toNat * 256) / 262144) (by rw [bits0]; omega) (by omega),
      encOf_val (w := (a.toNat * 65536 + b.toNat * 256) / 4096 % 64) (by rw [ev1 _ _ hb]; omega) (by omega),
      encOf_val (w := (a.toNat * 65536 + b.toNat * 256) / 64 % 64) (by rw [ev2']; omega) (by omega)]
    simp only [Res.ok_bind, wr_at0, wr_at1, wr_at2, wr_at3]
    simp [specEncode]
  | a :: b :: c :: r, pre, done, free, h => by
    obtain ⟨f0, f1, f2, f3, g, rfl⟩ := take_four (f := free) (by simp [specEncode] at h; omega)
    have ha := a.toNat_lt
    have hb := b.toNat_lt
    have hc := c.toNat_lt
    have e : pre ++ (a :: b :: c :: r) ++ z = pre ++ a :: b :: c :: (r ++ z) := by simp
    have e2 : pre ++ a :: b :: c :: (r ++ z) = (pre ++ [a, b, c]) ++ r ++ z := by simp
    set n := a.toNat * 65536 + b.toNat * 256 + c.toNat with hn
    have ih := encLoop_spec z r (pre ++ [a, b, c])
      (done ++ [sextet (n / 262144), sextet (n / 4096 % 64), sextet (n / 64 % 64), sextet (n % 64)]) g
      (by simp [specEncode] at h; omega)
    simp only [List.length_cons, encLoop, e, rd_at0, rd_at1, rd_at2, Res.ok_bind]
    rw [encOf_val (w := n / 262144) (by rw [bits0]; omega) (by omega),
      encOf_val (w := n / 4096 % 64) (by rw [ev1 _ _ hb]; omega) (by omega),
      encOf_val (w := n / 64 % 64) (by rw [ev2 _ _ hc]; omega) (by omega),
      encOf_val (w := n % 64) (by rw [bits63]; omega) (by omega)]
    simp only [Res.ok_bind, wr_at0, wr_at1, wr_at2, wr_at3]
    have e3 : done ++ sextet (n / 262144) :: sextet (n / 4096 % 64) :: sextet (n / 64 % 64) :: sextet (n % 64) :: g =
      done ++ [sextet (n / 262144), sextet (n / 4096 % 64), sextet (n / 64 % 64), sextet (n % 64)] ++ g := by simp
    have l1 : (pre ++ [a, b, c]).length = pre.length + 3 := by simp
    have l2 : (done ++ [sextet (n / 262144), sextet (n / 4096 % 64), sextet (n / 64 % 64), sextet (n % 64)]).length =
      done.length + 4 := by simp
    rw [l1, l2] at ih
    rw [e2, e3, ih]
    simp [specEncode, ← hn]
    omega

theorem specEncode_length : ∀ s : Bytes, (specEncode s).length = (s.length + 2) / 3 * 4
  | [] => by simp [specEncode]
  | [a] => by simp [specEncode]
  | [a, b] => by simp [specEncode]
  | a :: b :: c :: r => by
    have := specEncode_length r
    simp only [specEncode, List.length_append, this, List.length_cons, List.length_nil]
    omega

theorem mask_eq (m : Nat) (h : m < 2 ^ 32) : m &&& 0xfffffffc = m / 4 * 4 := by
  have h1 : (0xfffffffc : Nat) = (2 ^ 30 - 1) <<< 2 := by decide
  apply Nat.eq_of_testBit_eq
  intro i
  rw [h1, Nat.testBit_and, Nat.testBit_shiftLeft, Nat.testBit_two_pow_sub_one,
    show m / 4 * 4 = (m >>> 2) <<< 2 by rw [Nat.shiftLeft_eq, Nat.shiftRight_eq_div_pow], Nat.testBit_shiftLeft,
    Nat.testBit_shiftRight]
  by_cases hi : i ≥ 2
  · simp only [hi, decide_true, Bool.true_and]
    rw [show 2 + (i - 2) = i by omega]
    by_cases h2 : i - 2 < 30
    · simp [h2]
    · simp [h2]
      exact Nat.testBit_lt_two_pow (Nat.lt_of_lt_of_le h (Nat.pow_le_pow_right (by omega) (by omega)))
  · simp [hi]

theorem b64Len_eq {n : Nat} (h : n < 3 * 2 ^ 30 - 2) : b64Len n = (n + 2) / 3 * 4 := by
  unfold b64Len
  rw [Nat.mod_eq_of_lt (show 4 * n < 2 ^ 64 by omega), Nat.mod_eq_of_lt (by omega), mask_eq _ (by omega)]
  omega

/-! ### decoding -/

theorem decOf_spec (c : UInt8) :
    match digit c with
    | some v => v < 64 ∧ ∃ t : UInt8, decOf c = .ok t ∧ t ≠ 0x80 ∧ t.toNat = v
    | none => decOf c = .ok 0x80 := by
  have key : ∀ k : Fin 256, (match digit (UInt8.ofNat k.1) with
    | some v => decide (v < 64) && decide (decOf (UInt8.ofNat k.1) = .ok (UInt8.ofNat v))
    | none => decide (decOf (UInt8.ofNat k.1) = .ok 0x80)) = true := by decide +kernel
  have h0 := key ⟨c.toNat, c.toNat_lt⟩
  simp only [UInt8.ofNat_toNat] at h0
  have h : (match digit c with
    | some v => v < 64 ∧ decOf c = .ok (UInt8.ofNat v)
    | none => decOf c = .ok 0x80) := by
    cases hd : digit c <;> rw [hd] at h0 <;> simpa using h0
  cases hd : digit c with
  | none => rw [hd] at h; exact h
  | some v =>
    rw [hd] at h
    refine ⟨h.1, _, h.2, ?_, ?_⟩
    · intro hc
      have h2 := congrArg UInt8.toNat hc
      rw [UInt8.toNat_ofNat_of_lt' (by have := h.1; simp [UInt8.size]; omega)] at h2
      have : (0x80 : UInt8).toNat = 128 := rfl
      omega
    · exact UInt8.toNat_ofNat_of_lt' (by have := h.1; simp [UInt8.size]; omega)

theorem decOf_some {c : UInt8} {v : Nat} (h : digit c = some v) :
    v < 64 ∧ ∃ t : UInt8, decOf c = .ok t ∧ t ≠ 0x80 ∧ t.toNat = v := by
  have := decOf_spec c
  rw [h] at this
  exact this

theorem decOf_none {c : UInt8} (h : digit c = none) : decOf c = .ok 0x80 := by
  have := decOf_spec c
  rw [h] at this
  exact this

theorem isB64Loop_spec (z : Bytes) : ∀ (rest pre : Bytes),
    isB64Loop (pre ++ rest ++ z) rest.length pre.length = .ok (rest.all fun c => (digit c).isSome)
  | [], pre => by simp [isB64Loop]
  | c :: r, pre => by
    have e : pre ++ (c :: r) ++ z = pre ++ c :: (r ++ z) := by simp
    have e2 : pre ++ c :: (r ++ z) = (pre ++ [c]) ++ r ++ z := by simp
    have ih := isB64Loop_spec z r (pre ++ [c])
    simp only [List.length_cons, isB64Loop, e, rd_at0, Res.ok_bind]
    cases hd : digit c with
    | none => simp [decOf_none hd, hd]
    | some v =>
      obtain ⟨_, t, h1, h2, _⟩ := decOf_some hd
      simp only [h1, Res.ok_bind, if_neg h2]
      rw [show pre.length + 1 = (pre ++ [c]).length by simp, e2, ih]
      simp [hd]

theorem decCount_spec (z : Bytes) : ∀ (rest pre : Bytes) (n : Nat), (∀ c ∈ rest, (digit c).isSome) →
    decCount (pre ++ rest ++ z) rest.length pre.length n = .ok (n + rest.length)
  | [], pre, n, _ => by simp [decCount]
  | c :: r, pre, n, h => by
    have e : pre ++ (c :: r) ++ z = pre ++ c :: (r ++ z) := by simp
    have e2 : pre ++ c :: (r ++ z) = (pre ++ [c]) ++ r ++ z := by simp
    have ih := decCount_spec z r (pre ++ [c]) (n + 1) (fun x hx => h x (by simp [hx]))
    obtain ⟨v, hv⟩ := Option.isSome_iff_exists.1 (h c (by simp))
    obtain ⟨_, t, h1, h2, _⟩ := decOf_some hv
    simp only [List.length_cons, decCount, e, rd_at0, Res.ok_bind, h1]
    rw [if_pos h2, show pre.length + 1 = (pre ++ [c]).length by simp, e2, ih]
    simp; omega

theorem dv0 {v0 v1 v2 v3 : Nat} (_h0 : v0 < 64) (h1 : v1 < 64) (h2 : v2 < 64) (h3 : v3 < 64) :
    UInt8.ofNat (v0 <<< 2 ||| v1 >>> 4) = UInt8.ofNat ((v0 * 262144 + v1 * 4096 + v2 * 64 + v3) / 65536) := by
  rw [or_add (by rw [Nat.shiftRight_eq_div_pow]; omega), Nat.shiftRight_eq_div_pow]
  congr 1
  omega

theorem ofNat_congr {a b : Nat} (h : a % 256 = b % 256) : UInt8.ofNat a = UInt8.ofNat b := by
  apply UInt8.toNat.inj
  simpa using h

theorem dv1 {v0 v1 v2 v3 : Nat} (_h0 : v0 < 64) (_h1 : v1 < 64) (h2 : v2 < 64) (h3 : v3 < 64) :
    UInt8.ofNat (v1 <<< 4 ||| v2 >>> 2) = UInt8.ofNat ((v0 * 262144 + v1 * 4096 + v2 * 64 + v3) / 256 % 256) := by
  rw [or_add (by rw [Nat.shiftRight_eq_div_pow]; omega), Nat.shiftRight_eq_div_pow]
  apply ofNat_congr
  omega

theorem dv2 {v0 v1 v2 v3 : Nat} (h3 : v3 < 64) :
    UInt8.ofNat (v2 <<< 6 ||| v3) = UInt8.ofNat ((v0 * 262144 + v1 * 4096 + v2 * 64 + v3) % 256) := by
  rw [or_add (by omega)]
  apply ofNat_congr
  omega

theorem padOf_eq (a b c d : UInt8) :
    padOf a b c d = (if a = 61 then 1 else 0) + (if b = 61 then 1 else 0) + (if c = 61 then 1 else 0) +
      (if d = 61 then 1 else 0) := by
  simp only [padOf, List.count_cons, List.count_nil, beq_iff_eq]
  omega

theorem block_writes {junk : Bytes} (hj : junk.length = 4) (t0 t1 t2 t3 : UInt8) :
    ∃ b0 b1 b2, wr junk 0 t0 = .ok b0 ∧ wr b0 1 t1 = .ok b1 ∧ wr b1 2 t2 = .ok b2 ∧
      wr b2 3 t3 = .ok [t0, t1, t2, t3] := by
  match junk, hj with
  | [_, _, _, _], _ => exact ⟨_, _, _, rfl, rfl, rfl, rfl⟩

/-- One quadruple of valid characters. -/
theorem decLoop_quad {a b c d : UInt8} {va vb vc vd : Nat} (ha : digit a = some va) (hb : digit b = some vb)
    (hc : digit c = some vc) (hd : digit d = some vd) (pre post done free junk : Bytes) (hj : junk.length = 4)
    (f0 f1 f2 : UInt8) (r : Nat) :
    let n := va * 262144 + vb * 4096 + vc * 64 + vd
    let out := [UInt8.ofNat (n / 65536), UInt8.ofNat (n / 256 % 256), UInt8.ofNat (n % 256)]
    ∃ junk', junk'.length = 4 ∧
    decLoop (pre ++ a :: b :: c :: d :: post) (r + 4) pre.length 0 junk 0 done.length (done ++ f0 :: f1 :: f2 :: free) =
      (if padOf a b c d = 0 then
        decLoop (pre ++ a :: b :: c :: d :: post) r (pre.length + 4) 0 junk' 0 (done.length + 3) (done ++ out ++ free)
      else if padOf a b c d = 1 then .ok (some (done ++ out ++ free, done.length + 2))
      else if padOf a b c d = 2 then .ok (some (done ++ out ++ free, done.length + 1))
      else .ok none) := by
  intro n out
  obtain ⟨la, ta, ea, na, va'⟩ := decOf_some ha
  obtain ⟨lb, tb, eb, nb, vb'⟩ := decOf_some hb
  obtain ⟨lc, tc, ec, nc, vc'⟩ := decOf_some hc
  obtain ⟨ld, td, ed, nd, vd'⟩ := decOf_some hd
  obtain ⟨b0, b1, b2, w0, w1, w2, w3⟩ := block_writes hj ta tb tc td
  refine ⟨[ta, tb, tc, td], rfl, ?_⟩
  have q0 : UInt8.ofNat (ta.toNat <<< 2 ||| tb.toNat >>> 4) = UInt8.ofNat (n / 65536) := by
    rw [va', vb']; exact dv0 la lb lc ld
  have q1 : UInt8.ofNat (tb.toNat <<< 4 ||| tc.toNat >>> 2) = UInt8.ofNat (n / 256 % 256) := by
    rw [vb', vc']; exact dv1 la lb lc ld
  have q2 : UInt8.ofNat (tc.toNat <<< 6 ||| td.toNat) = UInt8.ofNat (n % 256) := by
    rw [vc', vd']; exact dv2 ld
  have r0 : rd [ta, tb, tc, td] 0 = .ok ta := rfl
  have r1 : rd [ta, tb, tc, td] 1 = .ok tb := rfl
  have r2 : rd [ta, tb, tc, td] 2 = .ok tc := rfl
  have r3 : rd [ta, tb, tc, td] 3 = .ok td := rfl
  simp only [decLoop, rd_at0, rd_at1, rd_at2, rd_at3, Res.ok_bind, ea, eb, ec, ed, if_neg na, if_neg nb, if_neg nc,
    if_neg nd, w0, w1, w2, w3, Nat.zero_add, Nat.reduceAdd, if_false, if_true,
    Nat.add_assoc, r0, r1, r2, r3, q0, q1, q2, wr_at0, wr_at1, wr_at2, show (1 : Nat) = 4 ↔ False by decide,
    show (2 : Nat) = 4 ↔ False by decide, show (3 : Nat) = 4 ↔ False by decide]
  rw [padOf_eq]
  have eo : done ++ UInt8.ofNat (n / 65536) :: UInt8.ofNat (n / 256 % 256) :: UInt8.ofNat (n % 256) :: free =
    done ++ out ++ free := by simp [out]
  rw [eo]
  by_cases h1 : a = 61 <;> by_cases h2 : b = 61 <;> by_cases h3 : c = 61 <;> by_cases h4 : d = 61 <;>
    simp [h1, h2, h3, h4]

theorem specDecode_quad {a b c d : UInt8} {va vb vc vd : Nat} (ha : digit a = some va) (hb : digit b = some vb)
    (hc : digit c = some vc) (hd : digit d = some vd) (r : Bytes) :
    let n := va * 262144 + vb * 4096 + vc * 64 + vd
    let out := [UInt8.ofNat (n / 65536), UInt8.ofNat (n / 256 % 256), UInt8.ofNat (n % 256)]
    specDecode (a :: b :: c :: d :: r) =
      (if padOf a b c d = 0 then (out ++ ·) <$> specDecode r
      else if padOf a b c d = 1 then some (out.take 2)
      else if padOf a b c d = 2 then some (out.take 1)
      else none) := by
  intro n out
  simp only [specDecode, ha, hb, hc, hd, Option.bind_eq_bind, Option.bind_some]
  match h : padOf a b c d with
  | 0 => rfl
  | 1 => rfl
  | 2 => rfl
  | k + 3 => simp

theorem decLoop_spec (z : Bytes) : ∀ (rest pre done free junk : Bytes), junk.length = 4 → rest.length % 4 = 0 →
    (∀ c ∈ rest, (digit c).isSome) → rest.length / 4 * 3 ≤ free.length →
    match specDecode rest with
    | some out => ∃ dst, decLoop (pre ++ rest ++ z) rest.length pre.length 0 junk 0 done.length (done ++ free) =
        .ok (some (dst, done.length + out.length)) ∧ dst.length = done.length + free.length ∧
        dst.take (done.length + out.length) = done ++ out ∧ out.length ≤ rest.length / 4 * 3
    | none => decLoop (pre ++ rest ++ z) rest.length pre.length 0 junk 0 done.length (done ++ free) = .ok none
  | [], pre, done, free, junk, _, _, _, _ => by
    simp only [specDecode]
    exact ⟨done ++ free, by simp [decLoop], by simp, by simp, by simp⟩
  | [_], _, _, _, _, _, h, _, _ => by simp at h
  | [_, _], _, _, _, _, _, h, _, _ => by simp at h
  | [_, _, _], _, _, _, _, _, h, _, _ => by simp at h
  | a :: b :: c :: d :: r, pre, done, free, junk, hj, hl, hv, hf => by
    obtain ⟨va, ha⟩ := Option.isSome_iff_exists.1 (hv a (by simp))
    obtain ⟨vb, hb⟩ := Option.isSome_iff_exists.1 (hv b (by simp))
    obtain ⟨vc, hc⟩ := Option.isSome_iff_exists.1 (hv c (by simp))
    obtain ⟨vd, hd⟩ := Option.isSome_iff_exists.1 (hv d (by simp))
    have hf3 : 3 ≤ free.length := by simp at hf; omega
    match free, hf3, hf with
    | f0 :: f1 :: f2 :: g, _, hf =>
    obtain ⟨junk', hj', hstep⟩ := decLoop_quad ha hb hc hd pre (r ++ z) done g junk hj f0 f1 f2 r.length
    have hspec := specDecode_quad ha hb hc hd r
    simp only at hstep hspec
    set n := va * 262144 + vb * 4096 + vc * 64 + vd with hn
    set out : Bytes := [UInt8.ofNat (n / 65536), UInt8.ofNat (n / 256 % 256), UInt8.ofNat (n % 256)] with hout
    have e : pre ++ (a :: b :: c :: d :: r) ++ z = pre ++ a :: b :: c :: d :: (r ++ z) := by simp
    have e2 : pre ++ a :: b :: c :: d :: (r ++ z) = (pre ++ [a, b, c, d]) ++ r ++ z := by simp
    have lr : (a :: b :: c :: d :: r).length = r.length + 4 := by simp
    have lo : out.length = 3 := by simp [hout]
    rw [lr] at hl hf ⊢
    have hg : (f0 :: f1 :: f2 :: g).length = g.length + 3 := by simp
    rw [hg] at hf ⊢
    rw [e, hspec, hstep]
    by_cases p0 : padOf a b c d = 0
    · simp only [p0, if_true]
      have ih := decLoop_spec z r (pre ++ [a, b, c, d]) (done ++ out) g junk' hj' (by omega)
        (fun x hx => hv x (by simp [hx])) (by omega)
      rw [show (pre ++ [a, b, c, d]).length = pre.length + 4 by simp,
        show (done ++ out).length = done.length + 3 by simp [lo]] at ih
      rw [e2]
      cases hsd : specDecode r with
      | none => rw [hsd] at ih; simpa using ih
      | some o =>
        rw [hsd] at ih
        obtain ⟨dst, h1, h2, h3, h4⟩ := ih
        refine ⟨dst, ?_, by omega, ?_, by simp [lo]; omega⟩
        · rw [h1]; simp [lo]; omega
        · simp only [List.length_append, lo]
          rw [← Nat.add_assoc, h3, List.append_assoc]
    · simp only [p0, if_false]
      by_cases p1 : padOf a b c d = 1
      · simp only [p1, if_true]
        refine ⟨done ++ out ++ g, by simp [lo], by simp [lo]; omega, ?_, by simp [lo]; omega⟩
        rw [List.append_assoc, List.take_append, List.take_of_length_le (by omega)]
        simp [hout]
      · simp only [p1, if_false]
        by_cases p2 : padOf a b c d = 2
        · simp only [p2, if_true]
          refine ⟨done ++ out ++ g, by simp [lo], by simp [lo]; omega, ?_, by simp [lo]; omega⟩
          rw [List.append_assoc, List.take_append, List.take_of_length_le (by omega)]
          simp [hout]
        · simp only [p2, if_false]

/-! ### the specification round-trips -/

theorem digit_sextet {v : Nat} (h : v < 64) : digit (sextet v) = some v ∧ sextet v ≠ 61 ∧ sextet v ≠ 0 := by
  have : ∀ w : Fin 64, digit (sextet w.1) = some w.1 ∧ sextet w.1 ≠ 61 ∧ sextet w.1 ≠ 0 := by decide +kernel
  exact this ⟨v, h⟩

theorem ofNat_self (a : UInt8) {n : Nat} (h : n % 256 = a.toNat) : UInt8.ofNat n = a := by
  rw [← UInt8.ofNat_toNat (x := a)]
  apply ofNat_congr
  rw [h, Nat.mod_eq_of_lt a.toNat_lt]

theorem digit_pad : digit 61 = some 0 := by decide

theorem specDecode_encode : ∀ s : Bytes, specDecode (specEncode s) = some s
  | [] => rfl
  | [a] => by
    have ha := a.toNat_lt
    simp only [specEncode]
    set n := a.toNat * 65536 with hn
    obtain ⟨d0, q0, _⟩ := digit_sextet (v := n / 262144) (by omega)
    obtain ⟨d1, q1, _⟩ := digit_sextet (v := n / 4096 % 64) (by omega)
    have := specDecode_quad d0 d1 digit_pad digit_pad []
    simp only at this
    rw [this, padOf_eq]
    simp only [q0, q1, if_false, if_true]
    simp only [Nat.zero_add, Nat.reduceAdd, show (2 : Nat) = 0 ↔ False by decide,
      show (2 : Nat) = 1 ↔ False by decide, if_false, List.take_succ_cons, List.take_zero]
    rw [ofNat_self a (by omega)]
  | [a, b] => by
    have ha := a.toNat_lt
    have hb := b.toNat_lt
    simp only [specEncode]
    set n := a.toNat * 65536 + b.toNat * 256 with hn
    obtain ⟨d0, q0, _⟩ := digit_sextet (v := n / 262144) (by omega)
    obtain ⟨d1, q1, _⟩ := digit_sextet (v := n / 4096 % 64) (by omega)
    obtain ⟨d2, q2, _⟩ := digit_sextet (v := n / 64 % 64) (by omega)
    have := specDecode_quad d0 d1 d2 digit_pad []
    simp only at this
    rw [this, padOf_eq]
    simp only [q0, q1, q2, if_false, if_true]
    simp only [Nat.zero_add, show (1 : Nat) = 0 ↔ False by decide, if_false, List.take_succ_cons,
      List.take_zero]
    rw [ofNat_self a (by omega), ofNat_self b (by omega)]
  | a :: b :: c :: r => by
    have ha := a.toNat_lt
    have hb := b.toNat_lt
    have hc := c.toNat_lt
    simp only [specEncode]
    set n := a.toNat * 65536 + b.toNat * 256 + c.toNat with hn
    obtain ⟨d0, q0, _⟩ := digit_sextet (v := n / 262144) (by omega)
    obtain ⟨d1, q1, _⟩ := digit_sextet (v := n / 4096 % 64) (by omega)
    obtain ⟨d2, q2, _⟩ := digit_sextet (v := n / 64 % 64) (by omega)
    obtain ⟨d3, q3, _⟩ := digit_sextet (v := n % 64) (by omega)
    have := specDecode_quad d0 d1 d2 d3 (specEncode r)
    simp only at this
    rw [List.cons_append, List.cons_append, List.cons_append, List.cons_append, List.nil_append, this, padOf_eq]
    simp only [q0, q1, q2, q3, if_false, if_true]
    rw [specDecode_encode r, ofNat_self a (by omega), ofNat_self b (by omega), ofNat_self c (by omega)]
    rfl

theorem specEncode_valid : ∀ (s : Bytes), ∀ x ∈ specEncode s, (digit x).isSome ∧ x ≠ 0
  | [] => by simp [specEncode]
  | [a] => by
    have ha := a.toNat_lt
    intro x hx
    simp only [specEncode, List.mem_cons, List.not_mem_nil, or_false] at hx
    rcases hx with rfl | rfl | rfl | rfl
    · have := digit_sextet (v := a.toNat * 65536 / 262144) (by omega); simp [this]
    · have := digit_sextet (v := a.toNat * 65536 / 4096 % 64) (by omega); simp [this]
    · decide
    · decide
  | [a, b] => by
    have ha := a.toNat_lt
    have hb := b.toNat_lt
    intro x hx
    simp only [specEncode, List.mem_cons, List.not_mem_nil, or_false] at hx
    rcases hx with rfl | rfl | rfl | rfl
    · have := digit_sextet (v := (a.toNat * 65536 + b.toNat * 256) / 262144) (by omega); simp [this]
    · have := digit_sextet (v := (a.toNat * 65536 + b.toNat * 256) / 4096 % 64) (by omega); simp [this]
    · have := digit_sextet (v := (a.toNat * 65536 + b.toNat * 256) / 64 % 64) (by omega); simp [this]
    · decide
  | a :: b :: c :: r => by
    have ha := a.toNat_lt
    have hb := b.toNat_lt
    have hc := c.toNat_lt
    intro x hx
    simp only [specEncode, List.mem_append, List.mem_cons, List.not_mem_nil, or_false] at hx
    set n := a.toNat * 65536 + b.toNat * 256 + c.toNat with hn
    rcases hx with (rfl | rfl | rfl | rfl) | hx
    · have := digit_sextet (v := n / 262144) (by omega); simp [this]
    · have := digit_sextet (v := n / 4096 % 64) (by omega); simp [this]
    · have := digit_sextet (v := n / 64 % 64) (by omega); simp [this]
    · have := digit_sextet (v := n % 64) (by omega); simp [this]
    · exact specEncode_valid r x hx

end Verif.Str
