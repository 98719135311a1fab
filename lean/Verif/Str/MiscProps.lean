import Verif.Str.MiscLemmas

/-!
# C14–C17, C19, C20, C58: repeat, pad, bounded copy, case folding, decimal numerals, trim, concatenation
-/

namespace Verif.Str

/-! ## C14 -/

/-- C14: `str_repeat(s, k)` returns a C string holding `s` exactly `k` times; no access leaves the blocks (the
model would yield `ub`).  The only condition is that the length fits in `size_t`. -/
theorem str_repeat_spec (s : Bytes) (hs : NulFree s) (k : Nat) (hlen : s.length * k < 2 ^ 64) :
    ∃ out, strRepeat (cstr s) k = .ok out ∧ strAt out 0 = .ok (List.replicate k s).flatten := by
  have hN : ∀ j, NulFree (rep s j) := by
    intro j b hb
    simp only [rep, List.mem_flatten, List.mem_replicate] at hb
    obtain ⟨l, ⟨_, rfl⟩, h⟩ := hb
    exact hs b h
  have hfin : ∀ n, strAt (rep s k ++ List.replicate (n + 1) 0) 0 = .ok (rep s k) := fun n =>
    strAt_mid' (pre := []) (z := List.replicate n 0) (hN k) (by simp [List.replicate_succ]) rfl
  unfold strRepeat
  rw [strAt_cstr hs (Nat.zero_le _), List.drop_zero]
  simp only [Res.ok_bind]
  by_cases h0 : s.length = 0 ∨ k = 0
  · rw [if_pos h0]
    refine ⟨_, rfl, ?_⟩
    have : (List.replicate k s).flatten = [] := by
      rcases h0 with h | h
      · rw [List.length_eq_zero_iff.1 h]; simp
      · subst h; rfl
    rw [this]
    exact strAt_mid' (pre := []) (w := []) (z := []) (by intro b hb; simp at hb) rfl rfl
  · rw [if_neg h0, Nat.mod_eq_of_lt hlen]
    have hpos : 0 < s.length := by omega
    have hk : 0 < k := by omega
    have hal := le_alignUp2 (s.length * k + 1)
    obtain ⟨t, ht⟩ : ∃ t, alignUp2 (s.length * k + 1) = s.length * k + (t + 1) :=
      ⟨alignUp2 (s.length * k + 1) - s.length * k - 1, by omega⟩
    by_cases h1 : s.length = 1
    · obtain ⟨c, rfl⟩ := List.length_eq_one_iff.1 h1
      rw [if_pos h1]
      have : rd (cstr [c]) 0 = .ok c := by simp [rd, cstr]
      simp only [this, Res.ok_bind, ht]
      refine ⟨List.replicate k c ++ List.replicate (t + 1) 0, ?_, ?_⟩
      · unfold memset calloc
        rw [if_pos (by simp)]
        simp
      · have e : List.replicate k c = rep [c] k := by simp [rep]
        rw [e]
        exact hfin t
    · rw [if_neg h1, ht]
      have hc : memcpy (calloc (s.length * k + (t + 1))) 0 (cstr s) 0 s.length =
          .ok (rep s 1 ++ List.replicate ((k - 1) * s.length + (t + 1)) 0) := by
        have hge : s.length ≤ s.length * k := Nat.le_mul_of_pos_right _ hk
        rw [memcpy_ok (by simp [cstr]) (by simp [calloc]; omega)]
        have e : s.length * k + (t + 1) - s.length = (k - 1) * s.length + (t + 1) := by
          rw [Nat.sub_mul, Nat.mul_comm k, Nat.one_mul]; omega
        simp [calloc, cstr, rep, e]
      simp only [hc, Res.ok_bind]
      have := repeatLoop_spec s hpos k (t + 1) (s.length * k + 1) 1 (by omega) (by omega)
        (by have := Nat.le_mul_of_pos_left k hpos; omega)
      rw [Nat.one_mul] at this
      exact ⟨_, this, hfin t⟩

example : strRepeat (cstr [104, 105]) 5 = .ok [104, 105, 104, 105, 104, 105, 104, 105, 104, 105, 0, 0] := by decide

/-! ## C15 -/

/-- Number of pad bytes on each side for a total of `num`. -/
def padSides (kind : PadKind) (num : Nat) : Nat × Nat :=
  match kind with
  | .left => (num, 0)
  | .both => (num / 2, num - num / 2)
  | _ => (0, num)

/-- C15: for a requested length above `|s|`, a non-empty pad and one of the three kinds (or the default), `str_pad`
returns a C string of exactly that length: cyclic copies of `pad`, then `s`, then cyclic copies of `pad`, split
between the sides as the kind says. -/
theorem str_pad_spec (s pad : Bytes) (hs : NulFree s) (hp : NulFree pad) (hne : pad ≠ []) (n : Nat)
    (hn : s.length < n) (kind : PadKind) (hk : kind ≠ .other) :
    ∃ out r, strPad (cstr s) n (cstr pad) kind = .ok (.block out) ∧ strAt out 0 = .ok r ∧ r.length = n ∧
      r = cycle pad (padSides kind (n - s.length)).1 ++ s ++ cycle pad (padSides kind (n - s.length)).2 := by
  have hsum : (padSides kind (n - s.length)).1 + (padSides kind (n - s.length)).2 = n - s.length := by
    cases kind <;> simp [padSides]
    omega
  obtain ⟨L, hL⟩ : ∃ L, L = (padSides kind (n - s.length)).1 := ⟨_, rfl⟩
  obtain ⟨R, hR⟩ : ∃ R, R = (padSides kind (n - s.length)).2 := ⟨_, rfl⟩
  rw [← hL, ← hR] at hsum ⊢
  have hal := le_alignUp2 (s.length + (n - s.length) + 1)
  obtain ⟨t, ht⟩ : ∃ t, alignUp2 (s.length + (n - s.length) + 1) = L + s.length + R + (t + 1) :=
    ⟨alignUp2 (s.length + (n - s.length) + 1) - n - 1, by omega⟩
  refine ⟨cycle pad L ++ s ++ cycle pad R ++ 0 :: List.replicate t 0, cycle pad L ++ s ++ cycle pad R, ?_, ?_, ?_, rfl⟩
  · unfold strPad
    rw [strAt_cstr hs (Nat.zero_le _), List.drop_zero]
    simp only [Res.ok_bind]
    rw [strAt_cstr hp (Nat.zero_le _), List.drop_zero]
    simp only [Res.ok_bind]
    have hpl : pad.length ≠ 0 := fun h => hne (List.length_eq_zero_iff.1 h)
    rw [if_neg (by simp; omega), if_neg hpl]
    simp only [Int.toNat_natCast]
    have hk' : (if kind = PadKind.dflt then PadKind.right else kind) ≠ .other := by
      cases kind <;> simp at hk ⊢
    rw [if_neg hk']
    have eL : (if (if kind = PadKind.dflt then PadKind.right else kind) = PadKind.right then 0
        else if (if kind = PadKind.dflt then PadKind.right else kind) = PadKind.left then n - s.length
        else (n - s.length) / 2) = L := by
      rw [hL]; cases kind <;> simp [padSides] at hk ⊢
    have eR : (if (if kind = PadKind.dflt then PadKind.right else kind) = PadKind.right then n - s.length
        else if (if kind = PadKind.dflt then PadKind.right else kind) = PadKind.left then 0
        else n - s.length - (n - s.length) / 2) = R := by
      rw [hR]; cases kind <;> simp [padSides] at hk ⊢
    rw [eL, eR, ht]
    have h1 := padLoop_cycle pad hne L [] (L + s.length + R + (t + 1)) (by omega)
    simp only [List.nil_append, List.length_nil, Nat.zero_add] at h1
    simp only [calloc, h1, Res.ok_bind]
    have h2 := memcpy_calloc_fill (cycle pad L) (L + s.length + R + (t + 1) - L) s.length (cstr s) (by simp [cstr])
      (by omega)
    rw [cycle_length] at h2
    have e2 : (cstr s).take s.length = s := by simp [cstr]
    rw [e2] at h2
    simp only [h2, Res.ok_bind]
    have h3 := padLoop_cycle pad hne R (cycle pad L ++ s) (L + s.length + R + (t + 1) - L - s.length) (by omega)
    rw [show (cycle pad L ++ s).length = L + s.length by simp] at h3
    simp only [h3, Res.ok_bind]
    rw [show L + s.length + R + (t + 1) - L - s.length - R = t + 1 by omega, List.replicate_succ]
  · exact strAt_mid' (pre := []) (z := List.replicate t 0)
      (((cycle_nulFree hp hne L).append hs).append (cycle_nulFree hp hne R)) (by simp) rfl
  · simp; omega

/-- C15, short case: a length not above `|s|` (or negative) returns `s` itself. -/
theorem str_pad_short (s pad : Bytes) (hs : NulFree s) (hp : NulFree pad) (n : Int) (hn : n ≤ s.length)
    (kind : PadKind) : strPad (cstr s) n (cstr pad) kind = .ok .same := by
  unfold strPad
  rw [strAt_cstr hs (Nat.zero_le _), strAt_cstr hp (Nat.zero_le _), List.drop_zero]
  simp only [Res.ok_bind]
  rw [if_pos (by omega)]

example : strPad (cstr [65, 66]) 7 (cstr [49, 50]) .both = .ok (.block [49, 50, 65, 66, 49, 50, 49, 0]) := by decide

/-! ## C16 -/

/-- C16: `str_lcpy(dst, src, n)` with `n > 0` and room for `n` bytes leaves the first `min(|src|, n-1)` bytes of `src`
and a terminator in `dst` and every later byte of `dst` as it was.  `src` is given with nothing after its
terminator, so reading past it would have been `ub`. -/
theorem str_lcpy_spec (s dst : Bytes) (hs : NulFree s) (n : Nat) (h0 : 0 < n) (hn : n ≤ dst.length) :
    strLcpy dst (cstr s) n = .ok (s.take (n - 1) ++ 0 :: dst.drop (min s.length (n - 1) + 1)) := by
  unfold strLcpy
  rw [if_neg (by omega), strAt_cstr hs (Nat.zero_le _), List.drop_zero]
  simp only [Res.ok_bind]
  cases s with
  | nil =>
    rw [if_pos (show (List.length ([] : Bytes)) = 0 from rfl), wr_ok (by omega)]
    cases dst with
    | nil => simp at hn; omega
    | cons d ds => simp
  | cons c s =>
    rw [if_neg (by simp)]
    obtain ⟨n, rfl⟩ : ∃ m, n = m + 1 := ⟨n - 1, by omega⟩
    have := lcpyLoop_spec (c :: s) [] dst n hs (by omega) (.inr trivial)
    simp only [List.nil_append, List.length_nil, Nat.zero_add] at this
    unfold cstr
    rw [this]
    simp only [Res.ok_bind, Nat.add_sub_cancel]
    have hmin : min n (c :: s).length < dst.length := by omega
    rw [wr_ok (by rw [List.length_append, List.length_take, List.length_drop]; omega),
      List.set_append_right _ _ (by rw [List.length_take])]
    rw [List.length_take, Nat.sub_self, List.drop_eq_getElem_cons hmin]
    simp only [List.set_cons_zero]
    rw [Nat.min_comm]

/-- C16: bytes at and after `dst[n]` never change. -/
theorem str_lcpy_keeps_tail (s dst : Bytes) (hs : NulFree s) (n : Nat) (h0 : 0 < n) (hn : n ≤ dst.length) :
    ∃ dst', strLcpy dst (cstr s) n = .ok dst' ∧ dst'.length = dst.length ∧ dst'.drop n = dst.drop n ∧
      strAt dst' 0 = .ok (s.take (n - 1)) := by
  refine ⟨_, str_lcpy_spec s dst hs n h0 hn, ?_, ?_, ?_⟩
  · simp; omega
  · obtain ⟨m, hm⟩ : ∃ m, m = min s.length (n - 1) := ⟨_, rfl⟩
    have e : s.take (n - 1) ++ 0 :: dst.drop (min s.length (n - 1) + 1) =
        (s.take (n - 1) ++ [0]) ++ dst.drop (m + 1) := by rw [hm]; simp
    rw [e, List.drop_append, List.drop_of_length_le (by simp; omega), List.drop_drop]
    simp only [List.nil_append]
    congr 1
    simp; omega
  · exact strAt_mid' (pre := []) (fun b hb => hs b (List.mem_of_mem_take hb)) (by simp; rfl) rfl

example : strLcpy [9, 9, 9, 9, 9] (cstr [1, 2, 3, 4, 5, 6]) 4 = .ok [1, 2, 3, 0, 9] := by decide

/-! ## C17 -/

theorem toLower_eq : toLower = asciiLower := rfl

/-- C17: with `n > 0`, `str_case_equal(a, b, n)` is true exactly when the first `n` bytes of the two strings agree
after ASCII lower-casing. -/
theorem str_case_equal_iff (a b : Bytes) (ha : NulFree a) (hb : NulFree b) (n : Nat) (hn : 0 < n) :
    strCaseEqual (cstr a) (cstr b) n = .ok (decide ((a.take n).map asciiLower = (b.take n).map asciiLower)) := by
  unfold strCaseEqual
  rw [if_neg (by omega)]
  have := caseLoop_spec n a b [] [] rfl ha hb
  rw [toLower_eq] at this
  simpa [cstr] using this

/-- C17: `str_is_case(a, b)` is true exactly when the whole strings agree after ASCII lower-casing. -/
theorem str_is_case_iff (a b : Bytes) (ha : NulFree a) (hb : NulFree b) (hla : a.length < 2 ^ 64)
    (hlb : b.length < 2 ^ 64) :
    strIsCase (cstr a) (cstr b) = .ok (decide (a.map asciiLower = b.map asciiLower)) := by
  unfold strIsCase
  rw [str_case_equal_iff a b ha hb _ (by norm_num), List.take_of_length_le (by omega),
    List.take_of_length_le (by omega)]

/-- C17: reflexive, symmetric, transitive. -/
theorem str_is_case_equivalence :
    (∀ a, NulFree a → a.length < 2 ^ 64 → strIsCase (cstr a) (cstr a) = .ok true) ∧
    (∀ a b, NulFree a → NulFree b → a.length < 2 ^ 64 → b.length < 2 ^ 64 →
      strIsCase (cstr a) (cstr b) = strIsCase (cstr b) (cstr a)) ∧
    (∀ a b c, NulFree a → NulFree b → NulFree c → a.length < 2 ^ 64 → b.length < 2 ^ 64 → c.length < 2 ^ 64 →
      strIsCase (cstr a) (cstr b) = .ok true → strIsCase (cstr b) (cstr c) = .ok true →
      strIsCase (cstr a) (cstr c) = .ok true) := by
  refine ⟨?_, ?_, ?_⟩
  · intro a ha hl
    rw [str_is_case_iff a a ha ha hl hl]; simp
  · intro a b ha hb hla hlb
    rw [str_is_case_iff a b ha hb hla hlb, str_is_case_iff b a hb ha hlb hla]
    congr 1
    exact decide_eq_decide.2 ⟨Eq.symm, Eq.symm⟩
  · intro a b c ha hb hc hla hlb hlc h1 h2
    rw [str_is_case_iff a b ha hb hla hlb] at h1
    rw [str_is_case_iff b c hb hc hlb hlc] at h2
    rw [str_is_case_iff a c ha hc hla hlc]
    have h1' := of_decide_eq_true (Res.ok.inj h1)
    have h2' := of_decide_eq_true (Res.ok.inj h2)
    simp [h1', h2']

/-- The table `tolower_map` is ASCII lower-casing. -/
theorem lowerAscii_eq (c : UInt8) : lowerAscii c = asciiLower c := by
  have h : ∀ k : Fin 256, lowerAscii (UInt8.ofNat k.1) = asciiLower (UInt8.ofNat k.1) := by decide +kernel
  have := h ⟨c.toNat, c.toNat_lt⟩
  simpa using this

theorem casecmpLoop_spec : ∀ (n : Nat) (a b prea preb : Bytes), prea.length = preb.length → n ≤ a.length → n ≤ b.length →
    ∃ r, casecmpLoop (prea ++ a) (preb ++ b) n prea.length = .ok r ∧
      (r = none ↔ (a.take n).map asciiLower = (b.take n).map asciiLower) ∧ r ≠ some 0 := by
  intro n
  induction n with
  | zero => intro a b prea preb _ _ _; exact ⟨none, rfl, by simp, by simp⟩
  | succ n ih =>
    intro a b prea preb hl ha hb
    cases a with
    | nil => simp at ha
    | cons x a =>
    cases b with
    | nil => simp at hb
    | cons y b =>
      have r1 : rd (prea ++ (x :: a)) prea.length = .ok x := by simp [rd]
      have r2 : rd (preb ++ (y :: b)) prea.length = .ok y := by rw [hl]; simp [rd]
      unfold casecmpLoop
      simp only [r1, r2, Res.ok_bind, lowerAscii_eq]
      by_cases h : asciiLower x = asciiLower y
      · rw [if_neg (by simpa using h)]
        obtain ⟨r, e, hr⟩ := ih a b (prea ++ [x]) (preb ++ [y]) (by simp [hl]) (by simpa using ha) (by simpa using hb)
        refine ⟨r, ?_, ?_⟩
        · simpa using e
        · simpa [h] using hr
      · rw [if_pos h]
        refine ⟨_, rfl, by simp [h], ?_⟩
        intro h0
        have := Option.some.inj h0
        apply h
        apply UInt8.toNat_inj.1
        omega

/-- C17: `binary_strcasecmp` on byte ranges shorter than 2^31 returns 0 exactly when the ranges agree after ASCII
lower-casing. -/
theorem binary_strcasecmp_zero_iff (a b : Bytes) (ha : a.length < 2 ^ 31) (hb : b.length < 2 ^ 31) :
    ∃ r, binaryStrcasecmp a a.length b b.length = .ok r ∧ (r = 0 ↔ a.map asciiLower = b.map asciiLower) := by
  obtain ⟨r, e, h1, h2⟩ := casecmpLoop_spec (min a.length b.length) a b [] [] rfl (by omega) (by omega)
  simp only [List.nil_append, List.length_nil] at e
  unfold binaryStrcasecmp
  rw [e]
  simp only [Res.ok_bind]
  cases r with
  | none =>
    refine ⟨_, rfl, ?_⟩
    have h3 := h1.1 rfl
    constructor
    · intro hz
      have hlen : a.length = b.length := by unfold low32 at hz; omega
      rw [List.take_of_length_le (by omega), List.take_of_length_le (by omega)] at h3
      exact h3
    · intro hm
      have hlen : a.length = b.length := by simpa using congrArg List.length hm
      unfold low32; omega
  | some d =>
    refine ⟨d, rfl, ?_⟩
    have hd : d ≠ 0 := fun h => h2 (by rw [h])
    have h3 : ¬ _ := fun h => Option.some_ne_none d (h1.2 h)
    constructor
    · intro h; exact absurd h hd
    · intro hm
      have hlen : a.length = b.length := by simpa using congrArg List.length hm
      rw [List.take_of_length_le (by omega), List.take_of_length_le (by omega)] at h3
      exact absurd hm h3

example : strIsCase (cstr [72, 84, 116, 80]) (cstr [104, 116, 84, 112]) = .ok true := by decide
example : binaryStrcasecmp [72, 84] 2 [104, 116, 84] 3 = .ok (-1) := by decide

/-! ## C19 -/

/-- What `str_itoa(x)` does for every 64-bit `x` except those whose low 32 bits are `0x80000000` (there `abs(INT_MIN)`
is undefined): the string at the returned pointer is the numeral of the absolute value of the low 32 bits of `x`,
without a sign, and at least 10 of the 20 copied bytes come from outside the local array. -/
theorem str_itoa_actual (tmp0 stack buf : Bytes) (ht : tmp0.length = 20) (hst : 20 ≤ stack.length)
    (hb : 21 ≤ buf.length) (x : Int) (hx : low32 x ≠ -2 ^ 31) :
    ∃ buf' off p D, strItoa tmp0 stack buf x = .ok (buf', off, p) ∧ strAt buf' off = .ok D ∧
      IsDecimal D (low32 x).natAbs ∧ 10 ≤ p ∧ (buf'[0]? = some 45 ∨ off = 0) := by
  have hr : (low32 x).natAbs < 2 ^ 31 := by unfold low32 at hx ⊢; omega
  obtain ⟨tmp, p, D, e1, e2, e3, e4, e5, e6⟩ := itoaLoop_spec 4 11 (low32 x).natAbs tmp0 20 (by norm_num; omega)
    (by omega) (by omega) (by omega)
  rw [List.drop_of_length_le (by omega : tmp0.length ≤ 20), List.append_nil] at e4
  cases buf with
  | nil => simp at hb
  | cons b0 bs =>
  simp only [List.length_cons] at hb
  obtain ⟨off, hoff⟩ : ∃ off, off = (if x < 0 then 1 else 0) := ⟨_, rfl⟩
  have hoff1 : off ≤ 1 := by rw [hoff]; split <;> omega
  have hD : D.length ≤ 10 := by omega
  have hsrc : ((tmp ++ stack).drop p).take 20 = D ++ stack.take (20 - D.length) := by
    rw [List.drop_append_of_le_length (by omega), e4, List.take_append]
    rw [List.take_of_length_le (by omega)]
  have hm : memcpy (45 :: bs) off (tmp ++ stack) p 20 =
      .ok ((45 :: bs).take off ++ (D ++ stack.take (20 - D.length)) ++ (45 :: bs).drop (off + 20)) := by
    rw [memcpy_ok (by simp; omega) (by simp; omega), hsrc]
  obtain ⟨st0, stk, hstk⟩ : ∃ a l, stack.take (20 - D.length) = a :: l := by
    cases h : stack.take (20 - D.length) with
    | nil => have := congrArg List.length h; rw [List.length_take, List.length_nil] at this; omega
    | cons a l => exact ⟨a, l, rfl⟩
  obtain ⟨P, hP⟩ : ∃ P, P = (45 :: bs).take off := ⟨_, rfl⟩
  have hPl : P.length = off := by rw [hP]; simp; omega
  have hw : wr (P ++ (D ++ st0 :: stk) ++ (45 :: bs).drop (off + 20)) (off + D.length) 0 =
      .ok (P ++ D ++ 0 :: (stk ++ (45 :: bs).drop (off + 20))) := by
    rw [wr_ok (by simp; omega)]
    have e : P ++ (D ++ st0 :: stk) ++ (45 :: bs).drop (off + 20) =
        (P ++ D) ++ st0 :: (stk ++ (45 :: bs).drop (off + 20)) := by simp
    rw [e, List.set_append_right _ _ (by simp; omega)]
    simp [hPl]
  have hDn : NulFree D := by
    intro b hb h0
    have := e5.2.1 b hb
    rw [h0] at this
    simp at this
  refine ⟨P ++ D ++ 0 :: (stk ++ (45 :: bs).drop (off + 20)), off, p, D, ?_, ?_, e5, by omega, ?_⟩
  · unfold strItoa
    have h0 : wr (b0 :: bs) 0 45 = .ok (45 :: bs) := by simp [wr]
    simp only [h0, Res.ok_bind]
    have hne : ¬ ((x + 2 ^ 31) % 2 ^ 32 - 2 ^ 31 = -2 ^ 31) := hx
    rw [if_neg hne]
    have e1' : itoaLoop 11 ((x + 2 ^ 31) % 2 ^ 32 - 2 ^ 31 : Int).natAbs tmp0 20 = .ok (tmp, p) := e1
    simp only [e1', Res.ok_bind, ← hoff, hm]
    rw [hstk, ← hP, show 20 - p = D.length by omega, hw]
    rfl
  · exact strAt_mid' hDn rfl hPl.symm
  · rcases Nat.eq_zero_or_pos off with h | h
    · exact .inr h
    · left
      have : off = 1 := by omega
      rw [hP, this]
      simp

/-- C19, the part that holds: for `0 ≤ x < 2^31` the returned string is the canonical decimal numeral of `x`.
Missing: negative numbers and numbers from 2^31 on (see `str_itoa_negative_wrong`, `str_itoa_large_wrong`), and the
copy reads outside the local array. -/
theorem str_itoa_decimal_partial (tmp0 stack buf : Bytes) (ht : tmp0.length = 20) (hst : 20 ≤ stack.length)
    (hb : 21 ≤ buf.length) (x : Nat) (hx : x < 2 ^ 31) :
    ∃ buf' off p D, strItoa tmp0 stack buf x = .ok (buf', off, p) ∧ strAt buf' off = .ok D ∧ IsDecimal D x := by
  have e : low32 x = x := by unfold low32; omega
  obtain ⟨buf', off, p, D, h1, h2, h3, _⟩ := str_itoa_actual tmp0 stack buf ht hst hb x (by rw [e]; omega)
  rw [e] at h3
  exact ⟨buf', off, p, D, h1, h2, by simpa using h3⟩

/-- C19 fails: for every negative `x` (with a defined result) the returned string has no minus sign. -/
theorem str_itoa_negative_wrong (tmp0 stack buf : Bytes) (ht : tmp0.length = 20) (hst : 20 ≤ stack.length)
    (hb : 21 ≤ buf.length) (x : Int) (_hneg : x < 0) (hx : low32 x ≠ -2 ^ 31) :
    ∃ buf' off p D, strItoa tmp0 stack buf x = .ok (buf', off, p) ∧ strAt buf' off = .ok D ∧ D.head? ≠ some 45 := by
  obtain ⟨buf', off, p, D, h1, h2, h3, _⟩ := str_itoa_actual tmp0 stack buf ht hst hb x hx
  refine ⟨buf', off, p, D, h1, h2, ?_⟩
  intro h
  have hm : (45 : UInt8) ∈ D := List.mem_of_mem_head? h
  have := h3.2.1 45 hm
  simp at this

/-- C19 fails: for every `x ≥ 2^31` (with a defined result) the returned string is not the numeral of `x`. -/
theorem str_itoa_large_wrong (tmp0 stack buf : Bytes) (ht : tmp0.length = 20) (hst : 20 ≤ stack.length)
    (hb : 21 ≤ buf.length) (x : Nat) (hbig : 2 ^ 31 ≤ x) (hx : low32 x ≠ -2 ^ 31) :
    ∃ buf' off p D, strItoa tmp0 stack buf x = .ok (buf', off, p) ∧ strAt buf' off = .ok D ∧ ¬ IsDecimal D x := by
  obtain ⟨buf', off, p, D, h1, h2, h3, _⟩ := str_itoa_actual tmp0 stack buf ht hst hb x hx
  refine ⟨buf', off, p, D, h1, h2, ?_⟩
  intro h
  have e := h.2.2.2
  rw [h3.2.2.2] at e
  unfold low32 at hx e
  omega

/-- C19 fails: `abs(INT_MIN)`. -/
theorem str_itoa_min_ub (tmp0 stack buf : Bytes) (hb : 21 ≤ buf.length) (x : Int) (hx : low32 x = -2 ^ 31) :
    strItoa tmp0 stack buf x = .ub := by
  unfold strItoa
  rw [wr_ok (by omega)]
  simp only [Res.ok_bind]
  rw [if_pos (show (x + 2 ^ 31) % 2 ^ 32 - 2 ^ 31 = -2 ^ 31 from hx)]

example : low32 4294967297 = 1 := by decide
example : IsDecimal [49, 48, 55] 107 := by decide
example : (strItoa (List.replicate 20 0) (List.replicate 20 7) (List.replicate 25 0) 107).bind
    (fun r => strAt r.1 r.2.1) = .ok [49, 48, 55] := by decide

/-! ## C20 -/

theorem isSpace_iff (c : UInt8) : isSpace c = true ↔ Blank c := by
  have h : ∀ k : Fin 256, (isSpace (UInt8.ofNat k.1) = decide (Blank (UInt8.ofNat k.1))) := by decide +kernel
  have := h ⟨c.toNat, c.toNat_lt⟩
  simp only [UInt8.ofNat_toNat] at this
  rw [this]; simp

/-- C20, the part that holds: if the string is blanks, a core `m` that starts and ends with a non-blank, and blanks,
then `trim` returns exactly the core.  Missing: blank and empty strings, see `trim_blank_ub`. -/
theorem trim_core_partial (l m r : Bytes) (hl : ∀ c ∈ l, Blank c) (hr : ∀ c ∈ r, Blank c) (hm : NulFree m)
    (a z : UInt8) (ha : m.head? = some a) (hz : m.getLast? = some z) (hab : ¬ Blank a) (hzb : ¬ Blank z) :
    ∃ buf, trim (cstr (l ++ m ++ r)) = .ok (buf, l.length) ∧ strAt buf l.length = .ok m := by
  obtain ⟨m1, rfl⟩ : ∃ m1, m = a :: m1 := by
    cases m with
    | nil => simp at ha
    | cons x m1 => simp at ha; exact ⟨m1, by rw [ha]⟩
  obtain ⟨m0, hm0⟩ : ∃ m0, a :: m1 = m0 ++ [z] := by
    have hne : a :: m1 ≠ [] := by simp
    refine ⟨(a :: m1).dropLast, ?_⟩
    have h1 := List.dropLast_append_getLast hne
    rw [List.getLast?_eq_getLast_of_ne_nil hne] at hz
    rw [Option.some.inj hz] at h1
    exact h1.symm
  have hsp : ∀ c : UInt8, ¬ Blank c → isSpace c = false := by
    intro c h
    cases h' : isSpace c
    · rfl
    · exact absurd ((isSpace_iff c).1 h') h
  have hrn : NulFree r := by
    intro c hc h0
    have := hr c hc
    rw [h0] at this
    exact absurd this (by decide)
  have h1 := ltrimLoop_spec l [] (m1 ++ r ++ [0]) a (cstr (l ++ (a :: m1) ++ r)).length
    (fun c hc => (isSpace_iff c).2 (hl c hc)) (hsp a hab) (by simp [cstr])
  have e1 : [] ++ l ++ a :: (m1 ++ r ++ [0]) = cstr (l ++ (a :: m1) ++ r) := by simp [cstr]
  rw [e1] at h1
  simp only [List.length_nil, Nat.zero_add] at h1
  have h2 : strAt (cstr (l ++ (a :: m1) ++ r)) l.length = .ok ((a :: m1) ++ r) :=
    strAt_mid' (pre := l) (z := []) (hm.append hrn) (by simp [cstr]) rfl
  have h3 := rtrimLoop_spec z (hsp z hzb) (l ++ m0) r [0] (fun c hc => (isSpace_iff c).2 (hr c hc))
  have e3 : l ++ m0 ++ [z] ++ r ++ [0] = cstr (l ++ (a :: m1) ++ r) := by rw [hm0]; simp [cstr]
  have hlen : (a :: m1).length = m0.length + 1 := by rw [hm0]; simp
  rw [e3, show (l ++ m0).length + 1 + r.length = l.length + (a :: m1 ++ r).length by
    rw [List.length_append, List.length_append, hlen]; omega] at h3
  obtain ⟨w, ws, hw⟩ : ∃ w ws, r ++ [0] = w :: ws := by
    cases r with
    | nil => exact ⟨_, _, rfl⟩
    | cons c r => exact ⟨_, _, rfl⟩
  refine ⟨l ++ (a :: m1) ++ 0 :: ws, ?_, strAt_mid hm⟩
  unfold trim
  rw [h1]
  simp only [Res.ok_bind, h2, h3]
  have e4 : cstr (l ++ (a :: m1) ++ r) = (l ++ (a :: m1)) ++ w :: ws := by
    unfold cstr; rw [List.append_assoc _ r, hw]
  rw [e4, show (l ++ m0).length + 1 = (l ++ (a :: m1)).length by
    rw [List.length_append, List.length_append, hlen]; omega]
  rw [wr_ok (by simp), List.set_append_right _ _ (Nat.le_refl _)]
  simp

/-- C20 fails: on every empty or all-blank string `trim` reads before the start of the string. -/
theorem trim_blank_ub (s : Bytes) (hs : ∀ c ∈ s, Blank c) : trim (cstr s) = .ub := by
  have hsp : ∀ b ∈ s, isSpace b = true := fun b hb => (isSpace_iff b).2 (hs b hb)
  have h1 := ltrimLoop_spec s [] [] 0 (cstr s).length hsp (by decide) (by simp [cstr])
  simp only [List.nil_append, List.length_nil, Nat.zero_add] at h1
  have h2 : strAt (cstr s) s.length = .ok [] :=
    strAt_mid' (pre := s) (w := []) (z := []) (by intro b hb; simp at hb) (by simp [cstr]) rfl
  unfold trim
  rw [show cstr s = s ++ [0] from rfl] at h1 h2 ⊢
  rw [h1]
  simp only [Res.ok_bind, h2, List.length_nil, Nat.add_zero]
  rw [rtrimLoop_all_space s [0] s.length hsp (Nat.le_refl _)]
  rfl

example : (trim (cstr [32, 9, 65, 32, 66, 10, 32])).bind (fun r => strAt r.1 r.2) = .ok [65, 32, 66] := by decide
example : trim (cstr [32, 32]) = .ub := by decide

/-! ## C58 -/

theorem catSize_spec : ∀ (ss : List Bytes), (∀ s ∈ ss, NulFree s) → catSize (ss.map cstr) = .ok ss.flatten.length
  | [], _ => rfl
  | s :: ss, h => by
    unfold catSize
    simp only [List.map_cons]
    rw [strAt_cstr (h s (by simp)) (Nat.zero_le _), catSize_spec ss (fun x hx => h x (by simp [hx]))]
    simp

theorem catLoop_spec : ∀ (ss : List Bytes), (∀ s ∈ ss, NulFree s) → ∀ (done : Bytes) (n : Nat), ss.flatten.length ≤ n →
    catLoop (ss.map cstr) (done ++ List.replicate n 0) done.length =
      .ok (done ++ ss.flatten ++ List.replicate (n - ss.flatten.length) 0)
  | [], _, done, n, _ => by simp [catLoop]
  | s :: ss, h, done, n, hn => by
    simp only [List.flatten_cons, List.length_append] at hn
    unfold catLoop
    simp only [List.map_cons]
    rw [strAt_cstr (h s (by simp)) (Nat.zero_le _), List.drop_zero]
    have hc := memcpy_calloc_fill done n s.length (cstr s) (by simp [cstr]) (by omega)
    rw [show (cstr s).take s.length = s by simp [cstr]] at hc
    simp only [Res.ok_bind, hc]
    have ih := catLoop_spec ss (fun x hx => h x (by simp [hx])) (done ++ s) (n - s.length) (by omega)
    rw [List.length_append] at ih
    rw [ih]
    simp only [List.flatten_cons, List.append_assoc, List.length_append, Nat.sub_sub]

/-- C58: `str_cat_ex(n, s1, …, sn)` with `n > 0` returns the concatenation of its arguments in order. -/
theorem str_cat_concat (ss : List Bytes) (hne : ss ≠ []) (h : ∀ s ∈ ss, NulFree s) :
    ∃ out, strCatEx (ss.map cstr) = .ok (some out) ∧ strAt out 0 = .ok ss.flatten := by
  have hpos : 0 < ss.length := List.length_pos_iff.2 hne
  have hal := le_alignUp2 (ss.flatten.length + 1)
  obtain ⟨t, ht⟩ : ∃ t, alignUp2 (ss.flatten.length + 1) = ss.flatten.length + (t + 1) :=
    ⟨alignUp2 (ss.flatten.length + 1) - ss.flatten.length - 1, by omega⟩
  have h1 := catLoop_spec ss h [] (ss.flatten.length + (t + 1)) (by omega)
  simp only [List.nil_append, List.length_nil, Nat.add_sub_cancel_left] at h1
  refine ⟨ss.flatten ++ List.replicate (t + 1) 0, ?_, ?_⟩
  · unfold strCatEx
    rw [if_pos (by simpa using hpos), catSize_spec ss h]
    simp only [Res.ok_bind, ht, calloc, h1]
  · refine strAt_mid' (pre := []) (z := List.replicate t 0) ?_ (by simp [List.replicate_succ]) rfl
    intro b hb
    obtain ⟨s, hs, hb'⟩ := List.mem_flatten.1 hb
    exact h s hs b hb'

theorem strAt_fresh (done : Bytes) (n : Nat) : strAt (done ++ List.replicate (n + 1) 0) done.length = .ok [] :=
  strAt_mid' (pre := done) (w := []) (z := List.replicate n 0) (by intro b hb; simp at hb)
    (by simp [List.replicate_succ]) rfl

theorem strncat_fresh (done s : Bytes) (hs : NulFree s) (n k : Nat) (h : (s.take k).length < n) :
    strncat (done ++ List.replicate n 0) done.length (cstr s) k =
      .ok (done ++ s.take k ++ List.replicate (n - (s.take k).length) 0) := by
  obtain ⟨n, rfl⟩ : ∃ m, n = m + 1 := ⟨n - 1, by omega⟩
  unfold strncat
  rw [strAt_fresh, strAt_cstr hs (Nat.zero_le _), List.drop_zero]
  simp only [Res.ok_bind, List.length_nil, Nat.add_zero]
  rw [memcpy_calloc_fill done (n + 1) _ _ (by simp) (by omega)]
  congr 1
  rw [List.take_of_length_le (by simp), show n + 1 - (s.take k).length = (n + 1 - ((s.take k).length + 1)) + 1 by omega]
  simp [List.replicate_succ]

theorem argvLoop_spec (d : UInt8) (ds : Bytes) (hd : NulFree (d :: ds)) : ∀ (as : List Bytes), (∀ a ∈ as, NulFree a) →
    ∀ (done : Bytes) (n : Nat), (as.map (d :: ·)).flatten.length < n →
    argvLoop (cstr (d :: ds)) (as.map cstr) false (done ++ List.replicate n 0) done.length =
      .ok (done ++ (as.map (d :: ·)).flatten ++ List.replicate (n - (as.map (d :: ·)).flatten.length) 0)
  | [], _, done, n, _ => by simp [argvLoop]
  | a :: as, h, done, n, hn => by
    simp only [List.map_cons, List.flatten_cons, List.length_append, List.length_cons] at hn
    have ha := h a (by simp)
    unfold argvLoop
    simp only [List.map_cons, Bool.false_eq_true, if_false]
    have h1 := strncat_fresh done (d :: ds) hd n 1 (by simp; omega)
    simp only [List.take_succ_cons, List.take_zero, List.length_cons, List.length_nil, Nat.zero_add] at h1
    have h2 := strncat_fresh (done ++ [d]) a ha (n - 1) a.length (by simp; omega)
    simp only [List.take_length, List.length_append, List.length_cons, List.length_nil, Nat.zero_add] at h2
    have ih := argvLoop_spec d ds hd as (fun x hx => h x (by simp [hx])) (done ++ [d] ++ a) (n - 1 - a.length) (by omega)
    simp only [List.length_append, List.length_cons, List.length_nil, Nat.zero_add] at ih
    rw [h1]
    simp only [Res.ok_bind]
    rw [strAt_cstr ha (Nat.zero_le _), List.drop_zero]
    simp only [Res.ok_bind]
    rw [h2]
    simp only [Res.ok_bind]
    rw [ih]
    simp only [List.map_cons, List.flatten_cons, List.append_assoc, List.length_append, List.length_cons,
      List.cons_append, List.nil_append]
    rw [show n - 1 - a.length - (List.map (fun x => d :: x) as).flatten.length =
      n - (a.length + (List.map (fun x => d :: x) as).flatten.length + 1) by omega]

theorem argvSize_spec : ∀ (as : List Bytes), (∀ a ∈ as, NulFree a) →
    argvSize (as.map cstr) = .ok ((as.map List.length).sum + as.length)
  | [], _ => rfl
  | a :: as, h => by
    unfold argvSize
    simp only [List.map_cons]
    rw [strAt_cstr (h a (by simp)) (Nat.zero_le _), argvSize_spec as (fun x hx => h x (by simp [hx]))]
    simp; omega

theorem intercalate_eq_flatten (d : UInt8) (a : Bytes) (as : List Bytes) :
    List.intercalate [d] (a :: as) = a ++ (as.map (d :: ·)).flatten := by
  induction as generalizing a with
  | nil => simp [List.intercalate]
  | cons b as ih =>
    have : List.intercalate [d] (a :: b :: as) = a ++ [d] ++ List.intercalate [d] (b :: as) := by
      simp [List.intercalate, List.intersperse]
    rw [this, ih]
    simp

theorem flatten_len (d : UInt8) (as : List Bytes) :
    (as.map (d :: ·)).flatten.length = (as.map List.length).sum + as.length := by
  induction as with
  | nil => rfl
  | cons a as ih => simp [ih]; omega

/-- C58, the part of `str_cat_argv` that holds: on the first use of the static buffer, for a non-empty argument list
whose total fits it, the result is the arguments joined by the first byte of `delim`.  Missing: later calls
(`str_cat_argv_later_call`), longer delimiters (only their first byte is used), an empty list
(`str_cat_argv_none_ub`), and lists that do not fit (`str_cat_argv_overflow`). -/
theorem str_cat_argv_first_call_partial (as : List Bytes) (hne : as ≠ []) (h : ∀ a ∈ as, NulFree a) (d : UInt8)
    (ds : Bytes) (hd : NulFree (d :: ds)) (hfit : (as.map List.length).sum + as.length ≤ 32768) :
    ∃ buf, strCatArgv eventsArgs0 (as.map cstr) (cstr (d :: ds)) = .ok buf ∧
      strAt buf 0 = .ok (List.intercalate [d] as) := by
  obtain ⟨a, as, rfl⟩ := List.exists_cons_of_ne_nil hne
  have hsz := argvSize_spec (a :: as) h
  simp only [List.map_cons, List.sum_cons, List.length_cons] at hfit hsz
  have hfl := flatten_len d as
  have ha := h a (by simp)
  unfold eventsArgs0 calloc
  obtain ⟨N, hN⟩ : ∃ N, N = 32768 := ⟨_, rfl⟩
  rw [← hN] at hfit ⊢
  have h1 := strncat_fresh [] a ha N a.length (by simp; omega)
  simp only [List.nil_append, List.take_length, List.length_nil] at h1
  have h2 := argvLoop_spec d ds hd as (fun x hx => h x (by simp [hx])) a (N - a.length) (by omega)
  obtain ⟨t, ht⟩ : ∃ t, N - a.length - (as.map (d :: ·)).flatten.length = t + 1 :=
    ⟨N - a.length - (as.map (d :: ·)).flatten.length - 1, by omega⟩
  rw [ht] at h2
  refine ⟨(a ++ (as.map (d :: ·)).flatten) ++ 0 :: List.replicate t 0, ?_, ?_⟩
  · unfold strCatArgv
    simp only [List.map_cons]
    rw [hsz]
    simp only [Res.ok_bind]
    rw [argvLoop]
    simp only [if_true, Res.ok_bind]
    rw [strAt_cstr ha (Nat.zero_le _), List.drop_zero]
    simp only [Res.ok_bind, h1, Nat.zero_add]
    rw [h2]
    simp only [Res.ok_bind]
    rw [if_neg (by omega), wr_ok (by rw [List.length_append, List.length_append, List.length_replicate]; omega),
      show a.length + (List.map List.length as).sum + (as.length + 1) - 1 = (a ++ (as.map (d :: ·)).flatten).length by
        rw [List.length_append]; omega,
      List.set_append_right _ _ (Nat.le_refl _)]
    simp [List.replicate_succ]
  · rw [intercalate_eq_flatten]
    refine strAt_mid' (pre := []) (z := List.replicate t 0) ?_ (by simp) rfl
    refine ha.append ?_
    intro b hb
    obtain ⟨l, hl, hb'⟩ := List.mem_flatten.1 hb
    obtain ⟨x, hx, rfl⟩ := List.mem_map.1 hl
    rcases List.mem_cons.1 hb' with rfl | hb'
    · exact hd _ (by simp)
    · exact h x (by simp [hx]) b hb'

/-- C58 fails on later calls: when the static buffer still holds `old` from an earlier call, a call with one argument
`a` no longer than `old` returns the first `|a|` bytes of `old`, whatever `a` is. -/
theorem str_cat_argv_later_call (old a delim : Bytes) (ho : NulFree old) (ha : NulFree a) (n : Nat)
    (hn : a.length < n) (hle : a.length ≤ old.length) :
    ∃ buf, strCatArgv (old ++ List.replicate n 0) [cstr a] delim = .ok buf ∧ strAt buf 0 = .ok (old.take a.length) := by
  have hsz := argvSize_spec [a] (by simpa using ha)
  simp only [List.map_cons, List.map_nil, List.sum_cons, List.sum_nil, List.length_cons, List.length_nil,
    Nat.add_zero, Nat.zero_add] at hsz
  have hat : strAt (old ++ List.replicate n 0) 0 = .ok old := by
    obtain ⟨n, rfl⟩ : ∃ m, n = m + 1 := ⟨n - 1, by omega⟩
    exact strAt_mid' (pre := []) (z := List.replicate n 0) ho (by simp [List.replicate_succ]) rfl
  have hcat : strncat (old ++ List.replicate n 0) 0 (cstr a) a.length =
      .ok (old ++ (a ++ [0]) ++ List.replicate (n - (a.length + 1)) 0) := by
    unfold strncat
    rw [hat, strAt_cstr ha (Nat.zero_le _), List.drop_zero]
    simp only [Res.ok_bind, List.take_length, Nat.zero_add]
    rw [memcpy_calloc_fill old n _ _ (by simp) (by omega), List.take_of_length_le (by simp)]
  obtain ⟨w, ws, hw⟩ : ∃ w ws, old.drop a.length ++ (a ++ [0]) = w :: ws := by
    cases h : old.drop a.length ++ (a ++ [0]) with
    | nil => simp at h
    | cons w ws => exact ⟨w, ws, rfl⟩
  refine ⟨old.take a.length ++ 0 :: (ws ++ List.replicate (n - (a.length + 1)) 0), ?_, ?_⟩
  · unfold strCatArgv
    rw [hsz]
    simp only [Res.ok_bind]
    rw [argvLoop]
    simp only [if_true, Res.ok_bind]
    rw [strAt_cstr ha (Nat.zero_le _), List.drop_zero]
    simp only [Res.ok_bind, hcat, argvLoop]
    rw [if_neg (by omega), Nat.add_sub_cancel]
    have e : old ++ (a ++ [0]) ++ List.replicate (n - (a.length + 1)) 0 =
        old.take a.length ++ w :: (ws ++ List.replicate (n - (a.length + 1)) 0) := by
      have : old ++ (a ++ [0]) = old.take a.length ++ (old.drop a.length ++ (a ++ [0])) := by
        rw [← List.append_assoc (List.take _ _), List.take_append_drop]
      rw [this, hw]; simp
    rw [e, wr_ok (by simp; omega), List.set_append_right _ _ (by simp)]
    simp [Nat.min_eq_left hle]
  · exact strAt_mid' (pre := []) (fun b hb => ho b (List.mem_of_mem_take hb)) (by simp; rfl) rfl

/-- C58 fails: with no arguments `str_cat_argv` writes before the static buffer. -/
theorem str_cat_argv_none_ub (buf delim : Bytes) : strCatArgv buf [] delim = .ub := rfl

/-- C58 fails: an argument of 32768 bytes or more overruns the static buffer. -/
theorem str_cat_argv_overflow (a delim : Bytes) (ha : NulFree a) (hlen : 32768 ≤ a.length) :
    strCatArgv eventsArgs0 [cstr a] delim = .ub := by
  have hsz := argvSize_spec [a] (by simpa using ha)
  simp only [List.map_cons, List.map_nil] at hsz
  unfold eventsArgs0
  obtain ⟨N, hN⟩ : ∃ N, N = 32768 := ⟨_, rfl⟩
  rw [← hN] at hlen ⊢
  unfold strCatArgv
  rw [hsz]
  simp only [Res.ok_bind]
  rw [argvLoop]
  simp only [if_true, Res.ok_bind]
  rw [strAt_cstr ha (Nat.zero_le _), List.drop_zero]
  simp only [Res.ok_bind]
  have h0 : strAt (calloc N) 0 = .ok [] := by
    obtain ⟨n, rfl⟩ : ∃ m, N = m + 1 := ⟨N - 1, by omega⟩
    exact strAt_fresh [] n
  have : strncat (calloc N) 0 (cstr a) a.length = .ub := by
    unfold strncat
    rw [h0, strAt_cstr ha (Nat.zero_le _), List.drop_zero]
    simp only [Res.ok_bind, List.take_length, memcpy]
    rw [if_neg (by simp [calloc]; omega)]
  rw [this]
  rfl

example : (strCatArgv (calloc 16) [cstr [65, 66], cstr [67], cstr [68]] (cstr [44])).bind (fun b => strAt b 0) =
    .ok [65, 66, 44, 67, 44, 68] := by decide
example : (strCatArgv ([65, 66, 44, 67] ++ List.replicate 12 0) [cstr [88, 89]] (cstr [44])).bind (fun b => strAt b 0) =
    .ok [65, 66] := by decide

end Verif.Str
