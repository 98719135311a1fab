import Mathlib.Tactic.Ring
import Mathlib.Tactic.NormNum
import Mathlib.Tactic.Linarith
import Verif.Str.Misc
import Verif.Str.MiscSpec

/-!
# Numerals on IBM Z: `___str_itoa` and the other branch of `str_itoa` (`src/arrays.c`), C19

`str_itoa` has a branch of its own for `__s390__`; the branch of the other machines is in `Misc.lean`.
-/

namespace Verif.Str.ItoaBase

/-- The string of digits of arrays.c:1580: `z … a 9 … 0` and again `1 … 9 a … z`; 71 characters, the middle one is `0`. -/
def table : Bytes :=
  [122, 121, 120, 119, 118, 117, 116, 115, 114, 113, 112, 111, 110, 109, 108, 107, 106, 105, 104, 103, 102, 101, 100, 99, 98, 97,
   57, 56, 55, 54, 53, 52, 51, 50, 49, 48, 49, 50, 51, 52, 53, 54, 55, 56, 57,
   97, 98, 99, 100, 101, 102, 103, 104, 105, 106, 107, 108, 109, 110, 111, 112, 113, 114, 115, 116, 117, 118, 119, 120, 121, 122]

/-- Reading the table at an `int` index. -/
def tableAt (i : Int) : Res UInt8 := if i < 0 then .ub else rd table i.toNat

/-- The loop of arrays.c:1577-1581; the division is the one of C, which rounds towards zero.  The first argument bounds the rounds. -/
def digits : Nat → Int → Int → Bytes → Nat → Res (Bytes × Nat × Int)
  | 0, _, _, _, _ => .ub
  | f + 1, value, base, buf, ptr => do
    let v := value.tdiv base
    let c ← tableAt (35 + (value - v * base))
    let buf ← wr buf ptr c
    if v ≠ 0 then digits f v base buf (ptr + 1) else .ok (buf, ptr + 1, value)

/-- The loop of arrays.c:1586-1590, which turns the text round. -/
def turn : Nat → Bytes → Nat → Nat → Res Bytes
  | 0, _, _, _ => .ub
  | f + 1, buf, ptr1, ptr =>
    if ptr1 < ptr then do
      let a ← rd buf ptr
      let b ← rd buf ptr1
      let buf ← wr buf ptr b
      let buf ← wr buf ptr1 a
      turn f buf (ptr1 + 1) (ptr - 1)
    else .ok buf

/-- `___str_itoa(value, result, base)`, arrays.c:1570-1592: what is in the buffer afterwards. -/
def itoaBase (value base : Int) (buf : Bytes) : Res Bytes :=
  if base < 2 ∨ base > 36 then wr buf 0 0
  else do
    let (buf, ptr, tmp) ← digits 33 value base buf 0
    let (buf, ptr) ← (if tmp < 0 then do let buf ← wr buf ptr 45; .ok (buf, ptr + 1) else .ok (buf, ptr) : Res (Bytes × Nat))
    let buf ← wr buf ptr 0
    turn 40 buf 0 (ptr - 1)

/-- `str_itoa(x)` on IBM Z (arrays.c:1595-1597); the buffer is the scratch area of the thread (`events_internal.h`:518). -/
def strItoa (x : Int) (scrape : Bytes) : Res Bytes := itoaBase (low32 x) 10 scrape

/-! ## Specification -/

/-- What a character stands for as a digit. -/
def digitValue (c : UInt8) : Nat := if 48 ≤ c.toNat ∧ c.toNat ≤ 57 then c.toNat - 48 else if 97 ≤ c.toNat ∧ c.toNat ≤ 122 then c.toNat - 87 else 99

/-- The number a text means in a base. -/
def valueIn (base : Nat) (d : Bytes) : Nat := d.foldl (fun acc c => acc * base + digitValue c) 0

/-- `d` is the numeral of `n` in `base`: digits of that base only, none of them a leading zero, and the right value. -/
def IsNumeral (base : Nat) (d : Bytes) (n : Nat) : Prop :=
  d ≠ [] ∧ (∀ c ∈ d, digitValue c < base) ∧ (1 < d.length → d.head? ≠ some 48) ∧ valueIn base d = n

/-- The text of a number with its sign. -/
def IsText (base : Nat) (t : Bytes) (x : Int) : Prop :=
  ∃ d, IsNumeral base d x.natAbs ∧ t = if x < 0 then 45 :: d else d

/-! ## Lemmas -/

theorem table_digit (r : Int) (h : -36 < r) (h' : r < 36) : ∃ c, tableAt (35 + r) = .ok c ∧ digitValue c = r.natAbs ∧ (c = 48 ↔ r = 0) ∧ c ≠ 0 := by
  have key : ∀ k : Nat, k < 71 → ∃ c, tableAt (k : Int) = .ok c ∧ digitValue c = ((k : Int) - 35).natAbs ∧ (c = 48 ↔ k = 35) ∧ c ≠ 0 := by
    intro k hk
    have h : ∀ k : Fin 71, digitValue (table.getD k.1 0) = ((k.1 : Int) - 35).natAbs ∧ (table.getD k.1 0 = 48 ↔ k.1 = 35) ∧ table.getD k.1 0 ≠ 0 := by
      decide +kernel
    have h2 := h ⟨k, hk⟩
    refine ⟨table.getD k 0, ?_, h2.1, h2.2.1, h2.2.2⟩
    unfold tableAt
    rw [if_neg (by omega)]
    have hlen : table.length = 71 := by decide
    have : k < table.length := by omega
    rw [Int.toNat_natCast, rd_ok this]; simp [List.getD, this]
  obtain ⟨c, h1, h2, h3, h4⟩ := key (35 + r).toNat (by omega)
  rw [show (((35 + r).toNat : Nat) : Int) = 35 + r by omega] at h1 h2
  refine ⟨c, h1, ?_, ?_, h4⟩
  · rw [h2]; congr 1; omega
  · rw [h3]; omega

theorem valueIn_append (b : Nat) (l : Bytes) (c : UInt8) : valueIn b (l ++ [c]) = valueIn b l * b + digitValue c := by
  simp [valueIn]

theorem tdiv_facts (v b : Int) (hb : 2 ≤ b) : (v.tdiv b).natAbs = v.natAbs / b.natAbs ∧ (v - v.tdiv b * b).natAbs = v.natAbs % b.natAbs ∧
    (v.tdiv b ≠ 0 → (v.tdiv b < 0 ↔ v < 0)) := by
  obtain ⟨n, rfl⟩ : ∃ n : Nat, b = n := ⟨b.toNat, by omega⟩
  have hn : 2 ≤ n := by omega
  have hmod : v - v.tdiv n * n = v.tmod n := by
    have := Int.mul_tdiv_add_tmod v n
    rw [Int.mul_comm] at this; omega
  refine ⟨Int.natAbs_tdiv _ _, by rw [hmod, Int.natAbs_tmod], ?_⟩
  rcases Int.le_total 0 v with h | h
  · intro _
    have := Int.tdiv_nonneg h (by omega : (0 : Int) ≤ n)
    omega
  · intro h0
    have h3 : v.tdiv n = - ((-v).tdiv n) := by rw [Int.neg_tdiv, Int.neg_neg]
    have h4 := Int.tdiv_nonneg (by omega : (0 : Int) ≤ -v) (by omega : (0 : Int) ≤ n)
    have h5 : v ≠ 0 := by rintro rfl; simp at h0
    omega

theorem digits_spec (b : Int) (hb : 2 ≤ b) (hb' : b ≤ 36) : ∀ (f : Nat) (v : Int) (pre rest : Bytes), v.natAbs < b.natAbs ^ f → f ≤ rest.length → 0 < f →
    ∃ D t, digits f v b (pre ++ rest) pre.length = .ok (pre ++ D ++ rest.drop D.length, pre.length + D.length, t) ∧
      IsNumeral b.natAbs D.reverse v.natAbs ∧ (v ≠ 0 → D.reverse.head? ≠ some 48) ∧ (t < 0 ↔ v < 0) ∧ D.length ≤ f ∧ NulFree D := by
  intro f
  induction f with
  | zero => intro v pre rest _ _ h; omega
  | succ f ih =>
    intro v pre rest hv hf _
    obtain ⟨e1, e2, e3⟩ := tdiv_facts v b hb
    have hpos : 0 < b.natAbs := by omega
    have hr := Nat.mod_lt v.natAbs hpos
    obtain ⟨c, hc, hc1, hc2, hc3⟩ := table_digit (v - v.tdiv b * b) (by omega) (by omega)
    obtain ⟨r0, rest', rfl⟩ : ∃ x l, rest = x :: l := by cases rest with | nil => simp at hf | cons x l => exact ⟨x, l, rfl⟩
    have hw : wr (pre ++ r0 :: rest') pre.length c = .ok ((pre ++ [c]) ++ rest') := by
      rw [wr_ok (by simp)]; simp
    unfold digits
    simp only [hc, Res.ok_bind, hw]
    by_cases h0 : v.tdiv b = 0
    · rw [if_neg (by simpa using h0)]
      have hvb : v.natAbs / b.natAbs = 0 := by rw [← e1, h0]; rfl
      have hlt : v.natAbs < b.natAbs := by
        rcases (Nat.div_eq_zero_iff.1 hvb) with h | h
        · omega
        · exact h
      refine ⟨[c], v, by simp, ⟨by simp, ?_, by simp, ?_⟩, ?_, Iff.rfl, by simp, ?_⟩
      · intro x hx; simp at hx; subst hx; rw [hc1, e2]; exact hr
      · simp [valueIn, hc1, e2, Nat.mod_eq_of_lt hlt]
      · intro hv0; simp [hc2]; rw [h0]; simpa using hv0
      · intro x hx; simp at hx; subst hx; exact hc3
    · rw [if_pos h0]
      have hq : v.natAbs / b.natAbs ≠ 0 := by rw [← e1]; omega
      have hf0 : 0 < f := by
        rcases Nat.eq_zero_or_pos f with rfl | h
        · exfalso; apply hq; apply Nat.div_eq_of_lt; simpa using hv
        · exact h
      have hlt : (v.tdiv b).natAbs < b.natAbs ^ f := by
        rw [e1]; apply Nat.div_lt_of_lt_mul; rw [Nat.mul_comm, ← Nat.pow_succ]; exact hv
      obtain ⟨D, t, h1, ⟨h2a, h2b, h2c, h2d⟩, h3, h4, h5, h6⟩ := ih (v.tdiv b) (pre ++ [c]) rest' hlt (by simpa using hf) hf0
      have hl : (pre ++ [c]).length = pre.length + 1 := by simp
      rw [hl] at h1
      refine ⟨c :: D, t, ?_, ⟨by simp, ?_, ?_, ?_⟩, ?_, ?_, by simp; omega, ?_⟩
      · rw [h1]; simp; omega
      · intro x hx
        simp only [List.reverse_cons, List.mem_append, List.mem_singleton] at hx
        rcases hx with hx | rfl
        · exact h2b x hx
        · rw [hc1, e2]; exact hr
      · intro _; rw [List.reverse_cons, List.head?_append_of_ne_nil _ h2a]; exact h3 h0
      · rw [List.reverse_cons, valueIn_append, h2d, hc1, e1, e2, Nat.mul_comm]; exact Nat.div_add_mod _ _
      · intro _; rw [List.reverse_cons, List.head?_append_of_ne_nil _ h2a]; exact h3 h0
      · rw [h4]; exact e3 h0
      · intro x hx; rcases List.mem_cons.1 hx with rfl | hx
        · exact hc3
        · exact h6 x hx

theorem turn_spec : ∀ (f : Nat) (pre mid post : Bytes), mid.length < 2 * f → 0 < f →
    turn f (pre ++ mid ++ post) pre.length (pre.length + mid.length - 1) = .ok (pre ++ mid.reverse ++ post) := by
  intro f
  induction f with
  | zero => intro _ _ _ _ h; omega
  | succ f ih =>
    intro pre mid post hm _
    rcases mid with _ | ⟨x, m⟩
    · unfold turn; rw [if_neg (by simp)]; simp
    · rcases List.eq_nil_or_concat m with rfl | ⟨m', y, rfl⟩
      · unfold turn; rw [if_neg (by simp)]; simp
      · have hl : (pre.length + (x :: m'.concat y).length - 1) = pre.length + 1 + m'.length := by simp; omega
        rw [hl]
        have hbuf : pre ++ x :: m'.concat y ++ post = pre ++ [x] ++ m' ++ [y] ++ post := by simp
        rw [hbuf]
        unfold turn
        rw [if_pos (by omega)]
        have r1 : rd (pre ++ [x] ++ m' ++ [y] ++ post) (pre.length + 1 + m'.length) = .ok y := by
          rw [rd_ok (by simp; omega)]; congr 1
          rw [List.getElem_append_left (by simp; omega), List.getElem_append_right (by simp; omega)]; simp
        have r2 : rd (pre ++ [x] ++ m' ++ [y] ++ post) pre.length = .ok x := by
          rw [rd_ok (by simp)]; simp
        have w1 : wr (pre ++ [x] ++ m' ++ [y] ++ post) (pre.length + 1 + m'.length) x = .ok (pre ++ [x] ++ m' ++ [x] ++ post) := by
          rw [wr_ok (by simp; omega)]; congr 1
          rw [List.set_append_left _ _ (by simp; omega), List.set_append_right _ _ (by simp; omega),
            show pre.length + 1 + m'.length - (pre ++ [x] ++ m').length = 0 by simp; omega]
          simp
        have w2 : wr (pre ++ [x] ++ m' ++ [x] ++ post) pre.length y = .ok (pre ++ [y] ++ m' ++ [x] ++ post) := by
          rw [wr_ok (by simp)]; simp
        simp only [r1, r2, w1, w2, Res.ok_bind]
        have e1 : pre.length + 1 = (pre ++ [y]).length := by simp
        have e2 : pre.length + 1 + m'.length - 1 = (pre ++ [y]).length + m'.length - 1 := by simp
        have e3 : pre ++ [y] ++ m' ++ [x] ++ post = (pre ++ [y]) ++ m' ++ ([x] ++ post) := by simp
        rw [e2, e1, e3]
        rcases Nat.eq_zero_or_pos f with rfl | hf
        · simp at hm
        · rw [ih (pre ++ [y]) m' ([x] ++ post) (by simp at hm; omega) hf]; simp

/-! ## Theorems -/

/-- **C19 on IBM Z: `___str_itoa` is right for every `int` and every base it knows.**  With room for 34 characters and the end mark, the
text left in the buffer is the numeral of the value in that base with its sign, for the smallest `int` too; no step is undefined. -/
theorem itoa_base (value base : Int) (hv : -2 ^ 31 ≤ value) (hv' : value < 2 ^ 31) (hb : 2 ≤ base) (hb' : base ≤ 36)
    (buf : Bytes) (hbuf : 35 ≤ buf.length) :
    ∃ t rest, itoaBase value base buf = .ok (cstr t ++ rest) ∧ NulFree t ∧ IsText base.natAbs t value := by
  have hlt : value.natAbs < base.natAbs ^ 33 := by
    have h1 : 2 ^ 33 ≤ base.natAbs ^ 33 := Nat.pow_le_pow_left (by omega) 33
    have : (2 : Nat) ^ 33 = 8589934592 := by norm_num
    have h2 : value.natAbs ≤ 2147483648 := by omega
    omega
  obtain ⟨D, t, h1, h2, h3, h4, h5, h6⟩ := digits_spec base hb hb' 33 value [] buf hlt (by omega) (by omega)
  simp only [List.nil_append, List.length_nil, Nat.zero_add] at h1
  have hD : D ≠ [] := by intro h; apply h2.1; simp [h]
  unfold itoaBase
  rw [if_neg (by omega), h1]
  simp only [Res.ok_bind]
  have hdl : 2 ≤ (buf.drop D.length).length := by simp; omega
  generalize buf.drop D.length = R at hdl
  obtain ⟨r0, r1, R, rfl⟩ : ∃ a b l, R = a :: b :: l := by
    rcases R with _ | ⟨a, _ | ⟨b, l⟩⟩
    · simp at hdl
    · simp at hdl
    · exact ⟨a, b, l, rfl⟩
  by_cases ht : t < 0
  · have hneg := h4.1 ht
    rw [if_pos ht, wr_ok (by simp)]
    simp only [Res.ok_bind]
    have hw : wr ((D ++ r0 :: r1 :: R).set D.length 45) (D.length + 1) 0 = .ok ([] ++ (D ++ [45]) ++ (0 :: R)) := by
      rw [wr_ok (by simp)]; simp
    rw [hw]
    simp only [Res.ok_bind]
    have := turn_spec 40 [] (D ++ [45]) (0 :: R) (by simp; omega) (by omega)
    simp only [List.length_nil, Nat.zero_add, List.length_append, List.length_singleton, Nat.add_sub_cancel] at this ⊢
    refine ⟨45 :: D.reverse, R, ?_, ?_, D.reverse, h2, by rw [if_pos hneg]⟩
    · rw [this]; simp [cstr]
    · intro x hx; rcases List.mem_cons.1 hx with rfl | hx
      · decide
      · exact h6 x (by simpa using hx)
  · have hneg := fun h => ht (h4.2 h)
    rw [if_neg ht]
    simp only [Res.ok_bind]
    have hw : wr (D ++ r0 :: r1 :: R) D.length 0 = .ok ([] ++ D ++ (0 :: r1 :: R)) := by
      rw [wr_ok (by simp)]; simp
    rw [hw]
    simp only [Res.ok_bind]
    have := turn_spec 40 [] D (0 :: r1 :: R) (by omega) (by omega)
    simp only [List.length_nil, Nat.zero_add] at this
    refine ⟨D.reverse, r1 :: R, ?_, ?_, D.reverse, h2, by rw [if_neg hneg]⟩
    · rw [this]; simp [cstr]
    · intro x hx; exact h6 x (by simpa using hx)

/-- A base it does not know gives the empty text. -/
theorem itoa_base_unknown (value base : Int) (hb : base < 2 ∨ 36 < base) (x : UInt8) (buf : Bytes) :
    itoaBase value base (x :: buf) = .ok (cstr [] ++ buf) := by
  unfold itoaBase; rw [if_pos (by omega)]; simp [wr, cstr]

example : itoaBase (-255) 16 (List.replicate 40 7) = .ok (cstr [45, 102, 102] ++ List.replicate 36 7) := by decide +kernel

/-- **C19 on IBM Z, the part that holds**: `str_itoa(x)` is the decimal numeral of `x`, with its sign, for every `x` that is an `int`. -/
theorem str_itoa_s390_partial (x : Int) (h : -2 ^ 31 ≤ x) (h' : x < 2 ^ 31) (scrape : Bytes) (hs : 35 ≤ scrape.length) :
    ∃ t rest, strItoa x scrape = .ok (cstr t ++ rest) ∧ NulFree t ∧ IsText 10 t x := by
  have : low32 x = x := by unfold low32; omega
  unfold strItoa; rw [this]
  exact itoa_base x 10 h h' (by omega) (by omega) scrape hs

/-- A text with its sign means one number only. -/
theorem isText_inj (base : Nat) (t : Bytes) (x y : Int) (hx : IsText base t x) (hy : IsText base t y) (hb : base ≤ 36) : x = y := by
  obtain ⟨d, ⟨a1, a2, a3, a4⟩, rfl⟩ := hx
  obtain ⟨e, ⟨b1, b2, b3, b4⟩, h⟩ := hy
  have h45 : ¬ digitValue 45 < base := by
    have : digitValue 45 = 99 := by decide
    omega
  by_cases hxn : x < 0 <;> by_cases hyn : y < 0
  · simp only [hxn, hyn, if_true, List.cons.injEq, true_and] at h; subst h; omega
  · simp only [hxn, hyn, if_true, if_false] at h; subst h; exact absurd (b2 45 (by simp)) h45
  · simp only [hxn, hyn, if_true, if_false] at h; subst h; exact absurd (a2 45 (by simp)) h45
  · simp only [hxn, hyn, if_false] at h; subst h; omega

/-- **C19 is false of the code on IBM Z** for every number that is not an `int`: the text is the numeral of another number. -/
theorem str_itoa_s390_wide_wrong (x : Int) (hx : x < -2 ^ 31 ∨ 2 ^ 31 ≤ x) (scrape : Bytes) (hs : 35 ≤ scrape.length) :
    ∃ t rest, strItoa x scrape = .ok (cstr t ++ rest) ∧ NulFree t ∧ ¬ IsText 10 t x := by
  obtain ⟨t, rest, h1, h2, h3⟩ := itoa_base (low32 x) 10 (by unfold low32; omega) (by unfold low32; omega) (by omega) (by omega) scrape hs
  refine ⟨t, rest, h1, h2, fun h => ?_⟩
  have := isText_inj 10 t (low32 x) x h3 h (by omega)
  unfold low32 at this; omega

example : strItoa 4294967295 (List.replicate 40 7) = .ok (cstr [45, 49] ++ List.replicate 37 7) := by decide +kernel

end Verif.Str.ItoaBase
