import Verif.Str.Search
import Verif.Str.SearchSpec

namespace Verif.Str

/-! ### facts about `Split` -/

theorem prefix_drop_iff {pat s : Bytes} {i : Nat} : pat <+: s.drop i ↔ (s.drop i).take pat.length = pat := by
  constructor
  · rintro ⟨t, ht⟩
    rw [← ht]; simp
  · intro h
    refine ⟨(s.drop i).drop pat.length, ?_⟩
    calc pat ++ (s.drop i).drop pat.length
        = (s.drop i).take pat.length ++ (s.drop i).drop pat.length := by rw [h]
      _ = s.drop i := List.take_append_drop _ _

theorem OccursAt.length_le {pat s : Bytes} {i} (h : OccursAt pat s i) : i + pat.length ≤ s.length := by
  have := h.2.length_le
  have := h.1
  simp at *
  omega

theorem Split.ne_nil {d s ws} (h : Split d s ws) : ws ≠ [] := by cases h <;> simp

theorem Split.join {d s ws} (h : Split d s ws) : d.intercalate ws = s := by
  induction h with
  | last s _ => simp [List.intercalate]
  | more w r ws _ h ih =>
    have hn := h.ne_nil
    obtain ⟨a, l, rfl⟩ := List.exists_cons_of_ne_nil hn
    rw [← ih]
    simp [List.intercalate, List.intersperse]

theorem not_infix_of_no_occ {d w : Bytes} (h : ∀ i, ¬ OccursAt d w i) : ¬ d <:+: w := by
  rintro ⟨a, b, rfl⟩
  refine h a.length ⟨by simp, b, ?_⟩
  simp

theorem infix_iff_occ {d w : Bytes} : d <:+: w ↔ ∃ i, OccursAt d w i := by
  constructor
  · rintro ⟨a, b, rfl⟩
    exact ⟨a.length, by simp, b, by simp⟩
  · rintro ⟨i, hi, t, ht⟩
    exact ⟨w.take i, t, by rw [List.append_assoc, ht, List.take_append_drop]⟩

theorem Split.no_delim {d s ws} (hd : d ≠ []) (h : Split d s ws) : ∀ w ∈ ws, ¬ d <:+: w := by
  induction h with
  | last s h0 => simpa using not_infix_of_no_occ h0
  | more w r ws h0 h ih =>
    intro x hx
    rcases List.mem_cons.1 hx with rfl | hx
    · rintro ⟨a, b, rfl⟩
      have : 0 < d.length := List.length_pos_iff.2 hd
      refine h0 a.length (by simp; omega) ⟨by simp, b ++ d ++ r, ?_⟩
      simp
    · exact ih x hx

/-- the leftmost occurrence determines the first piece -/
theorem Split.unique {d s ws ws'} (h : Split d s ws) (h' : Split d s ws') : ws = ws' := by
  induction h generalizing ws' with
  | last s h0 =>
    cases h' with
    | last => rfl
    | more w r ws h1 h2 => exact absurd ⟨by simp, r, by simp⟩ (h0 w.length)
  | more w r ws h0 h ih =>
    generalize e : w ++ d ++ r = s at h'
    cases h' with
    | last _ h1 =>
      subst e
      exact absurd ⟨by simp, r, by simp⟩ (h1 w.length)
    | more w2 r2 ws2 h1 h2 =>
      have hl : w.length = w2.length := by
        rcases Nat.lt_trichotomy w.length w2.length with hlt | heq | hgt
        · refine absurd ?_ (h1 w.length hlt)
          rw [← e]; exact ⟨by simp, r, by simp⟩
        · exact heq
        · refine absurd ?_ (h0 w2.length hgt)
          rw [e]; exact ⟨by simp, r2, by simp⟩
      have e' : w ++ (d ++ r) = w2 ++ (d ++ r2) := by simpa using e
      obtain ⟨e1, e2⟩ := List.append_inj e' hl
      have e3 := List.append_cancel_left e2
      subst e1; subst e3
      rw [ih h2]

theorem searchFrom_zero_some {s d : Bytes} {i} (h : searchFrom s d 0 = some i) :
    OccursAt d s i ∧ ∀ j < i, ¬ OccursAt d s j := by
  obtain ⟨_, h2, h3, h4⟩ := searchFrom_some h
  exact ⟨⟨h2, h3⟩, fun j hj ho => h4 j (Nat.zero_le _) hj ho.2⟩

theorem searchFrom_zero_none {s d : Bytes} (h : searchFrom s d 0 = none) : ∀ j, ¬ OccursAt d s j :=
  fun j ho => searchFrom_none h j (Nat.zero_le _) ho.1 ho.2

theorem OccursAt.decomp {d s : Bytes} {i} (h : OccursAt d s i) :
    s = s.take i ++ d ++ s.drop (i + d.length) := by
  obtain ⟨t, ht⟩ := h.2
  have : s.drop (i + d.length) = t := by rw [← List.drop_drop, ← ht]; simp
  rw [this, List.append_assoc, ht, List.take_append_drop]

theorem Split.of_occ {d s : Bytes} {i ws} (h : OccursAt d s i) (hmin : ∀ j < i, ¬ OccursAt d s j)
    (hr : Split d (s.drop (i + d.length)) ws) : Split d s (s.take i :: ws) := by
  have e := h.decomp
  have hl : (s.take i).length = i := by simp [h.1]
  have := Split.more (s.take i) _ ws (by rw [← e, hl]; exact hmin) hr
  rwa [← e] at this

theorem Split.exists (d : Bytes) (hd : d ≠ []) : ∀ s : Bytes, ∃ ws, Split d s ws := by
  intro s
  induction hn : s.length using Nat.strong_induction_on generalizing s with
  | _ n ih =>
    cases hf : searchFrom s d 0 with
    | none => exact ⟨_, .last s (searchFrom_zero_none hf)⟩
    | some i =>
      obtain ⟨h1, h2⟩ := searchFrom_zero_some hf
      have hd' : 0 < d.length := List.length_pos_iff.2 hd
      have hle := h1.length_le
      obtain ⟨ws, hws⟩ := ih (s.drop (i + d.length)).length (by simp; omega) _ rfl
      exact ⟨_, .of_occ h1 h2 hws⟩

/-- Skipping a prefix before the first occurrence only prolongs the first piece. -/
theorem Split.drop_prefix {d : Bytes} {s : Bytes} {n : Nat} {w ws} (hn : n ≤ s.length)
    (hno : ∀ i < n, ¬ OccursAt d s i) (h : Split d (s.drop n) (w :: ws)) : Split d s ((s.take n ++ w) :: ws) := by
  generalize e : s.drop n = t at h
  have hs : s = s.take n ++ t := by rw [← e, List.take_append_drop]
  have hl : (s.take n).length = n := by simp [hn]
  cases h with
  | last _ h0 =>
    rw [← hs]
    refine .last s fun i hi => ?_
    rcases Nat.lt_or_ge i n with h | h
    · exact hno i h hi
    · refine h0 (i - n) ⟨by rw [← e]; have := hi.1; simp; omega, ?_⟩
      rw [← e, List.drop_drop, Nat.add_sub_of_le h]; exact hi.2
  | more _ r _ h1 h2 =>
    have e2 : s = (s.take n ++ w) ++ d ++ r := by conv_lhs => rw [hs]
                                                  simp
    have := Split.more (s.take n ++ w) r ws (by
      rw [← e2]
      intro i hi ho
      rcases Nat.lt_or_ge i n with h | h
      · exact hno i h ho
      · refine h1 (i - n) (by simp [hl] at hi; omega) ⟨by rw [← e]; have := ho.1; simp; omega, ?_⟩
        rw [← e, List.drop_drop, Nat.add_sub_of_le h]; exact ho.2) h2
    rwa [← e2] at this

/-! ### `mempos` -/

theorem cmpLoop_spec (src mt : Bytes) : ∀ (r e d : Nat), d + r ≤ mt.length → e + r ≤ src.length →
    ∃ d', cmpLoop src mt e d r = .ok d' ∧ (d' = d + r ↔ (mt.drop d).take r = (src.drop e).take r) := by
  intro r
  induction r with
  | zero => intro e d _ _; exact ⟨d, by simp [cmpLoop]⟩
  | succ r ih =>
    intro e d hd he
    obtain ⟨d', h1, h2⟩ := ih (e + 1) (d + 1) (by omega) (by omega)
    have hmd : d < mt.length := by omega
    have hse : e < src.length := by omega
    simp only [cmpLoop, rd_ok hmd, rd_ok hse, Res.ok_bind]
    rw [List.drop_eq_getElem_cons hmd, List.drop_eq_getElem_cons hse]
    by_cases hx : mt[d] = src[e]
    · rw [if_pos hx]
      refine ⟨d', h1, ?_⟩
      simp only [List.take_succ_cons, hx, List.cons.injEq, true_and, ← h2]
      omega
    · rw [if_neg hx]
      refine ⟨d, rfl, ?_⟩
      simp only [List.take_succ_cons, List.cons.injEq, hx, false_and, iff_false]
      omega

/-- what one outer iteration computes -/
theorem cmp_at (src mt : Bytes) (mlen c : Nat) (hm : mlen ≤ mt.length) (hc : c + mlen ≤ src.length) :
    ∃ d, cmpLoop src mt c 0 mlen = .ok d ∧ (d = mlen ↔ mt.take mlen <+: src.drop c) := by
  obtain ⟨d, h1, h2⟩ := cmpLoop_spec src mt mlen c 0 (by omega) hc
  refine ⟨d, h1, ?_⟩
  rw [prefix_drop_iff]
  simp only [Nat.zero_add, List.drop_zero] at h2
  rw [h2]
  have : (mt.take mlen).length = mlen := by simp [hm]
  rw [this]
  exact eq_comm

theorem scanLoop_spec (src mt : Bytes) (mlen slen : Nat) (hm : mlen ≤ mt.length) (hs : slen ≤ src.length) :
    ∀ (r c : Nat), c + r + mlen = slen + 1 →
    (∃ i, scanLoop src mt mlen c r = .ok (toInt32 i) ∧ c ≤ i ∧ i + mlen ≤ slen ∧ mt.take mlen <+: src.drop i ∧
      ∀ j, c ≤ j → j < i → ¬ mt.take mlen <+: src.drop j) ∨
    (scanLoop src mt mlen c r = .ok (-1) ∧ ∀ j, c ≤ j → j + mlen ≤ slen → ¬ mt.take mlen <+: src.drop j) := by
  intro r
  induction r with
  | zero =>
    intro c hc
    right
    exact ⟨rfl, fun j h1 h2 => by omega⟩
  | succ r ih =>
    intro c hc
    obtain ⟨d, h1, h2⟩ := cmp_at src mt mlen c hm (by omega)
    simp only [scanLoop, h1, Res.ok_bind]
    by_cases hd : d = mlen
    · left
      rw [if_pos hd]
      exact ⟨c, rfl, Nat.le_refl _, by omega, h2.1 hd, fun j a b => by omega⟩
    · rw [if_neg hd]
      have hno : ¬ mt.take mlen <+: src.drop c := fun h => hd (h2.2 h)
      rcases ih (c + 1) (by omega) with ⟨i, a, b, c', e, f⟩ | ⟨a, b⟩
      · left
        refine ⟨i, a, by omega, c', e, fun j h3 h4 => ?_⟩
        rcases Nat.eq_or_lt_of_le h3 with rfl | h5
        · exact hno
        · exact f j h5 h4
      · right
        refine ⟨a, fun j h3 h4 => ?_⟩
        rcases Nat.eq_or_lt_of_le h3 with rfl | h5
        · exact hno
        · exact b j h5 h4

theorem toInt32_small {n : Nat} (h : n < 2 ^ 31) : toInt32 n = n := by
  unfold toInt32; omega

theorem prefix_append_of_fits {pat s t : Bytes} {i} (h : i + pat.length ≤ s.length) :
    pat <+: (s ++ t).drop i ↔ pat <+: s.drop i := by
  rw [prefix_drop_iff, prefix_drop_iff, List.drop_append_of_le_length (by omega),
    List.take_append_of_le_length (by simp; omega)]

/-! ### counting -/

theorem memchr_spec {b : Bytes} {p n : Nat} {c : UInt8} (h : p + n ≤ b.length) :
    (∃ q, memchr b p c n = .ok (some q) ∧ p ≤ q ∧ q < p + n ∧ b[q]? = some c ∧
      ∀ j, p ≤ j → j < q → b[j]? ≠ some c) ∨
    (memchr b p c n = .ok none ∧ ∀ j, p ≤ j → j < p + n → b[j]? ≠ some c) := by
  simp only [memchr, if_pos h]
  have hlen : ((b.drop p).take n).length = n := by simp; omega
  have hget : ∀ j, j < n → ((b.drop p).take n)[j]? = b[p + j]? := by
    intro j hj
    rw [List.getElem?_take_of_lt hj, List.getElem?_drop]
  cases hf : ((b.drop p).take n).findIdx? (· == c) with
  | none =>
    right
    refine ⟨rfl, fun j h1 h2 h3 => ?_⟩
    rw [List.findIdx?_eq_none_iff] at hf
    have hm := hget (j - p) (by omega)
    rw [Nat.add_sub_of_le h1, h3] at hm
    have := hf c (List.mem_of_getElem? hm)
    simp at this
  | some q =>
    left
    rw [List.findIdx?_eq_some_iff_getElem] at hf
    obtain ⟨hq, h1, h2⟩ := hf
    rw [hlen] at hq
    have hgq := hget q hq
    rw [List.getElem?_eq_getElem (by rw [hlen]; exact hq)] at hgq
    refine ⟨p + q, rfl, by omega, by omega, ?_, fun j h3 h4 h5 => ?_⟩
    · rw [← hgq]; simp at h1; simp [h1]
    · have hj : j - p < q := by omega
      have := h2 (j - p) hj
      have hm := hget (j - p) (by omega)
      rw [Nat.add_sub_of_le h3, h5, List.getElem?_eq_getElem (by rw [hlen]; omega)] at hm
      simp at this hm
      exact this hm

theorem occ_single {c : UInt8} {s : Bytes} {i} : OccursAt [c] s i ↔ s[i]? = some c := by
  constructor
  · rintro ⟨_, t, ht⟩
    have : (s.drop i)[0]? = some c := by rw [← ht]; simp
    simpa using this
  · intro h
    have hi : i < s.length := (List.getElem?_eq_some_iff.1 h).1
    refine ⟨by omega, s.drop (i + 1), ?_⟩
    rw [List.drop_eq_getElem_cons hi]
    rw [List.getElem?_eq_getElem hi] at h
    simp at h; simp [h]


theorem occ_pointwise {pat s : Bytes} {i} :
    OccursAt pat s i ↔ i + pat.length ≤ s.length ∧ ∀ j < pat.length, s[i + j]? = pat[j]? := by
  constructor
  · intro h
    refine ⟨h.length_le, fun j hj => ?_⟩
    obtain ⟨t, ht⟩ := h.2
    rw [← List.getElem?_drop, ← ht, List.getElem?_append_left hj]
  · rintro ⟨h1, h2⟩
    refine ⟨by omega, prefix_drop_iff.2 ?_⟩
    apply List.ext_getElem?
    intro j
    rcases Nat.lt_or_ge j pat.length with hj | hj
    · rw [List.getElem?_take_of_lt hj, List.getElem?_drop, h2 j hj]
    · rw [List.getElem?_eq_none (by simp; omega), List.getElem?_eq_none hj]

theorem occ_take {pat h : Bytes} {e i} (he : e ≤ h.length) :
    OccursAt pat (h.take e) i ↔ i + pat.length ≤ e ∧ ∀ j < pat.length, h[i + j]? = pat[j]? := by
  rw [occ_pointwise]
  constructor
  · rintro ⟨h1, h2⟩
    simp at h1
    refine ⟨by omega, fun j hj => ?_⟩
    rw [← h2 j hj, List.getElem?_take_of_lt (by omega)]
  · rintro ⟨h1, h2⟩
    refine ⟨by simp; omega, fun j hj => ?_⟩
    rw [List.getElem?_take_of_lt (by omega), h2 j hj]

theorem take_drop_eq_iff {a b : Bytes} {i j n} (h1 : i + n ≤ a.length) (h2 : j + n ≤ b.length) :
    (a.drop i).take n = (b.drop j).take n ↔ ∀ k < n, a[i + k]? = b[j + k]? := by
  constructor
  · intro h k hk
    have := congrArg (·[k]?) h
    simpa [List.getElem?_take_of_lt hk] using this
  · intro h
    apply List.ext_getElem?
    intro k
    rcases Nat.lt_or_ge k n with hk | hk
    · rw [List.getElem?_take_of_lt hk, List.getElem?_take_of_lt hk, List.getElem?_drop, List.getElem?_drop, h k hk]
    · rw [List.getElem?_eq_none (by simp; omega), List.getElem?_eq_none (by simp; omega)]

/-- the three tests of `str_memnstr` together -/
theorem memnstr_test {h needle : Bytes} {p e} (hn : 2 ≤ needle.length) (he : e ≤ h.length)
    (hp : p + needle.length ≤ e) (h0 : h[p]? = needle[0]?) :
    ∃ x same, rd h (p + needle.length - 1) = .ok x ∧ memeq needle 1 h (p + 1) (needle.length - 2) = .ok same ∧
      (needle[needle.length - 1]'(by omega) = x ∧ same = true ↔ OccursAt needle (h.take e) p) := by
  have hx : p + needle.length - 1 < h.length := by omega
  refine ⟨_, _, rd_ok hx, by rw [memeq, if_pos ⟨by omega, by omega⟩], ?_⟩
  rw [beq_iff_eq, take_drop_eq_iff (by omega) (by omega), occ_take he]
  constructor
  · rintro ⟨h1, h2⟩
    refine ⟨hp, fun j hj => ?_⟩
    rcases Nat.eq_zero_or_pos j with rfl | hj0
    · exact h0
    · rcases Nat.lt_or_ge j (needle.length - 1) with h3 | h3
      · have := h2 (j - 1) (by omega)
        rw [show 1 + (j - 1) = j by omega, show p + 1 + (j - 1) = p + j by omega] at this
        exact this.symm
      · have e1 : j = needle.length - 1 := by omega
        subst e1
        rw [show p + (needle.length - 1) = p + needle.length - 1 by omega, List.getElem?_eq_getElem hx,
          List.getElem?_eq_getElem (by omega), h1]
  · rintro ⟨_, h2⟩
    constructor
    · have := h2 (needle.length - 1) (by omega)
      rw [show p + (needle.length - 1) = p + needle.length - 1 by omega, List.getElem?_eq_getElem hx,
          List.getElem?_eq_getElem (by omega)] at this
      exact (Option.some.inj this).symm
    · intro k hk
      have := h2 (k + 1) (by omega)
      rw [show 1 + k = k + 1 by omega, show p + 1 + k = p + (k + 1) by omega]
      exact this.symm

/-- "the first occurrence at or after `p` in the first `e` bytes" -/
def FirstFrom (needle h : Bytes) (e p : Nat) (r : Option Nat) : Prop :=
  match r with
  | some q => p ≤ q ∧ OccursAt needle (h.take e) q ∧ ∀ j, p ≤ j → j < q → ¬ OccursAt needle (h.take e) j
  | none => ∀ j, p ≤ j → ¬ OccursAt needle (h.take e) j

theorem memnstrLoop_spec {h needle : Bytes} {e : Nat} (hn : 2 ≤ needle.length) (he : e ≤ h.length)
    (hne : needle.length ≤ e) :
    ∀ fuel p, p ≤ e - needle.length + 1 → e - needle.length + 1 < fuel + p →
      ∃ r, memnstrLoop h needle (e - needle.length) fuel p = .ok r ∧ FirstFrom needle h e p r := by
  intro fuel
  induction fuel with
  | zero => intro p h1 h2; omega
  | succ fuel ih =>
    intro p h1 h2
    unfold memnstrLoop
    by_cases hp : p ≤ e - needle.length
    · rw [if_pos hp]
      simp only [rd_ok (show 0 < needle.length by omega), Res.ok_bind,
        rd_ok (show needle.length - 1 < needle.length by omega)]
      have hnot : ∀ j, p ≤ j → (j ≤ e - needle.length → h[j]? ≠ some needle[0]) →
          ¬ OccursAt needle (h.take e) j := by
        intro j h3 h4 ho
        rw [occ_take he] at ho
        refine h4 (by omega) ?_
        have := ho.2 0 (by omega)
        simpa [List.getElem?_eq_getElem (show 0 < needle.length by omega)] using this
      rcases memchr_spec (b := h) (p := p) (n := e - needle.length - p + 1) (c := needle[0]) (by omega) with
        ⟨q, hq, hpq, hqe, hc, hmin⟩ | ⟨hq, hmin⟩
      · simp only [hq, Res.ok_bind]
        obtain ⟨x, same, hx, hs, hiff⟩ := memnstr_test (h := h) (needle := needle) (p := q) hn he (by omega)
          (by rw [hc, List.getElem?_eq_getElem (by omega)])
        simp only [hx, hs, Res.ok_bind]
        by_cases hb : needle[needle.length - 1]'(by omega) = x ∧ same = true
        · rw [if_pos hb]
          exact ⟨_, rfl, hpq, hiff.1 hb, fun j h3 h4 => hnot j h3 (fun _ => hmin j h3 h4)⟩
        · rw [if_neg hb]
          obtain ⟨r, hr, hf⟩ := ih (q + 1) (by omega) (by omega)
          have hskip : ∀ j, p ≤ j → j < q + 1 → ¬ OccursAt needle (h.take e) j := by
            intro j h3 h4
            rcases Nat.lt_or_ge j q with h5 | h5
            · exact hnot j h3 (fun _ => hmin j h3 h5)
            · have : j = q := by omega
              subst this
              exact fun ho => hb (hiff.2 ho)
          refine ⟨r, hr, ?_⟩
          cases r with
          | none =>
            intro j h3
            rcases Nat.lt_or_ge j (q + 1) with h5 | h5
            · exact hskip j h3 h5
            · exact hf j h5
          | some q2 =>
            refine ⟨by have := hf.1; omega, hf.2.1, fun j h3 h4 => ?_⟩
            rcases Nat.lt_or_ge j (q + 1) with h5 | h5
            · exact hskip j h3 h5
            · exact hf.2.2 j h5 h4
      · simp only [hq, Res.ok_bind]
        exact ⟨none, rfl, fun j h3 => hnot j h3 (fun h4 => hmin j h3 (by omega))⟩
    · rw [if_neg hp]
      refine ⟨none, rfl, fun j h3 ho => ?_⟩
      rw [occ_take he] at ho
      omega

theorem memnstr_spec {h needle : Bytes} {p e : Nat} (hn : 2 ≤ needle.length) (he : e ≤ h.length) (_hp : p ≤ e) :
    ∃ r, memnstr h needle p e = .ok r ∧ FirstFrom needle h e p r := by
  unfold memnstr
  rw [if_neg (by omega), if_neg (by omega)]
  by_cases h1 : needle.length > e - p
  · rw [if_pos h1]
    refine ⟨none, rfl, fun j h3 ho => ?_⟩
    rw [occ_take he] at ho
    omega
  · rw [if_neg h1]
    exact memnstrLoop_spec hn he (by omega) _ _ (by omega) (by omega)

/-- Turning the "first occurrence from `p`" of the buffer into a fact about the remaining text. -/
theorem FirstFrom.split {needle h : Bytes} {e p q : Nat} (he : e ≤ h.length)
    (hf : FirstFrom needle h e p (some q)) {ws}
    (hs : Split needle ((h.take e).drop (q + needle.length)) ws) :
    Split needle ((h.take e).drop p) (((h.take e).drop p).take (q - p) :: ws) := by
  obtain ⟨h1, h2, h3⟩ := hf
  have hl := h2.length_le
  refine Split.of_occ ⟨by simp at hl ⊢; omega, ?_⟩ (fun j hj ho => ?_) ?_
  · rw [List.drop_drop, Nat.add_sub_of_le h1]; exact h2.2
  · refine h3 (p + j) (by omega) (by omega) ⟨by have := ho.1; simp at this hl ⊢; omega, ?_⟩
    rw [← List.drop_drop]; exact ho.2
  · rw [List.drop_drop]
    rwa [show p + (q - p + needle.length) = q + needle.length by omega]

theorem FirstFrom.last {needle h : Bytes} {e p : Nat} (he : e ≤ h.length) (hp : p ≤ e)
    (hf : FirstFrom needle h e p none) :
    Split needle ((h.take e).drop p) [(h.take e).drop p] := by
  refine .last _ fun j ho => hf (p + j) (by omega) ⟨?_, ?_⟩
  · have := ho.1; simp at this ⊢; omega
  · rw [← List.drop_drop]; exact ho.2

theorem countStrLoop_spec {h needle : Bytes} {e : Nat} (hn : 2 ≤ needle.length) (he : e ≤ h.length) :
    ∀ fuel p count, p ≤ e → e < fuel + p →
      ∃ ws, Split needle ((h.take e).drop p) ws ∧
        countStrLoop h needle e fuel p count = .ok (count + (ws.length - 1)) := by
  intro fuel
  induction fuel with
  | zero => intro p _ h1 h2; omega
  | succ fuel ih =>
    intro p count h1 h2
    obtain ⟨r, hr, hf⟩ := memnstr_spec (h := h) (needle := needle) (p := p) (e := e) hn he h1
    simp only [countStrLoop, hr, Res.ok_bind]
    cases r with
    | none => exact ⟨_, hf.last he h1, by simp⟩
    | some q =>
      have hl := (occ_take he).1 hf.2.1
      have := hf.1
      obtain ⟨ws, h3, h4⟩ := ih (q + needle.length) (count + 1) (by omega) (by omega)
      refine ⟨_, hf.split he h3, ?_⟩
      simp only [h4]
      have := List.length_pos_iff.2 h3.ne_nil
      simp; omega

theorem memchr_first {h : Bytes} {p e : Nat} {c : UInt8} (he : e ≤ h.length) (hp : p ≤ e) :
    ∃ r, memchr h p c (e - p) = .ok r ∧ FirstFrom [c] h e p r := by
  have hocc : ∀ j, OccursAt [c] (h.take e) j ↔ j < e ∧ h[j]? = some c := by
    intro j
    rw [occ_take he]
    constructor
    · rintro ⟨h1, h2⟩
      have := h2 0 (by simp)
      exact ⟨by simpa using h1, by simpa using this⟩
    · rintro ⟨h1, h2⟩
      refine ⟨by simpa using h1, fun k hk => ?_⟩
      have : k = 0 := by simpa using hk
      subst this
      simpa using h2
  rcases memchr_spec (b := h) (p := p) (n := e - p) (c := c) (by omega) with
        ⟨q, hq, hpq, hqe, hc, hmin⟩ | ⟨hq, hmin⟩
  · exact ⟨_, hq, hpq, (hocc q).2 ⟨by omega, hc⟩, fun j h1 h2 ho => hmin j h1 h2 ((hocc j).1 ho).2⟩
  · exact ⟨_, hq, fun j h1 ho => hmin j h1 (by have := ((hocc j).1 ho).1; omega) ((hocc j).1 ho).2⟩

theorem countChrLoop_spec {h : Bytes} {c : UInt8} {e : Nat} (he : e ≤ h.length) :
    ∀ fuel p count, p ≤ e → e < fuel + p →
      ∃ ws, Split [c] ((h.take e).drop p) ws ∧
        countChrLoop h e c fuel p count = .ok (count + (ws.length - 1)) := by
  intro fuel
  induction fuel with
  | zero => intro p _ h1 h2; omega
  | succ fuel ih =>
    intro p count h1 h2
    obtain ⟨r, hr, hf⟩ := memchr_first (h := h) (c := c) he h1
    simp only [countChrLoop, hr, Res.ok_bind]
    cases r with
    | none => exact ⟨_, hf.last he h1, by simp⟩
    | some q =>
      have hl := (occ_take he).1 hf.2.1
      have := hf.1
      simp at hl
      obtain ⟨ws, h3, h4⟩ := ih (q + 1) (count + 1) (by omega) (by omega)
      refine ⟨_, hf.split he h3, ?_⟩
      simp only [h4]
      have := List.length_pos_iff.2 h3.ne_nil
      simp; omega

end Verif.Str
