import Verif.Win.NamesSpec
import Verif.Str.SearchLemmas

/-!
# Properties of the path functions and of `memmem` for Windows
-/

namespace Verif.Win

theorem isSep_iff (x : UInt8) : isSep x = true ↔ Sep x := by
  simp [isSep, Sep, slash, bslash]

theorem isSep_false (x : UInt8) : isSep x = false ↔ ¬ Sep x := by
  rw [← isSep_iff]; simp

/-! ### `basename` -/

/-- What is found after scanning `p`. -/
def Inv (p : Bytes) (st : Scan) : Prop :=
  st.c = p.length ∧
  if st.inName then
    ∃ q n, p = q ++ n ∧ Boundary q ∧ st.comp = q.length ∧ n ≠ [] ∧ NoSep n ∧ n[1]? ≠ some 0x3a
  else
    Boundary p ∧ st.cend ≤ p.length ∧ st.comp ≤ st.cend ∧ BaseOf p ((p.drop st.comp).take (st.cend - st.comp))

theorem BaseOf.more {p n : Bytes} {x : UInt8} (h : BaseOf p n) (hx : Sep x) : BaseOf (p ++ [x]) n := by
  have ht : ∀ t : Bytes, Seps t → Seps (t ++ [x]) := by
    intro t h y hy
    rcases List.mem_append.1 hy with h' | h'
    · exact h y h'
    · rw [List.mem_singleton.1 h']; exact hx
  cases h with
  | none _ h => exact .none _ (ht _ h)
  | name p n t h1 h2 h3 h4 h5 =>
    have := BaseOf.name p n (t ++ [x]) h1 h2 h3 h4 (ht _ h5)
    simpa using this
  | drive p y t h1 h2 h3 =>
    have := BaseOf.drive p y (t ++ [x]) h1 h2 (ht _ h3)
    simpa using this

theorem not_sep_colon : ¬ Sep 0x3a := by
  unfold Sep; decide

theorem inv_step {p : Bytes} {st : Scan} (h : Inv p st) (x : UInt8) : Inv (p ++ [x]) (scanStep st x) := by
  obtain ⟨c, comp, cend, inName⟩ := st
  obtain ⟨hc, h⟩ := h
  dsimp only at hc h
  cases inName with
  | false =>
    simp only [Bool.false_eq_true, if_false] at h
    obtain ⟨hb, h1, h2, h3⟩ := h
    by_cases hx : isSep x = true
    · have e : scanStep ⟨c, comp, cend, false⟩ x = ⟨c + 1, comp, cend, false⟩ := by simp [scanStep, hx]
      rw [e]
      refine ⟨by simp [hc], ?_⟩
      simp only [Bool.false_eq_true, if_false]
      refine ⟨.sep _ _ ((isSep_iff x).1 hx), by simp; omega, h2, ?_⟩
      have e2 : ((p ++ [x]).drop comp).take (cend - comp) = (p.drop comp).take (cend - comp) := by
        rw [List.drop_append_of_le_length (by omega), List.take_append_of_le_length (by simp; omega)]
      rw [e2]
      exact h3.more ((isSep_iff x).1 hx)
    · have e : scanStep ⟨c, comp, cend, false⟩ x = ⟨c + 1, c, cend, true⟩ := by
        simp only [scanStep, hx]
        split
        · simp_all
        · simp
      rw [e]
      refine ⟨by simp [hc], ?_⟩
      simp only [if_true]
      refine ⟨p, [x], rfl, hb, hc, by simp, ?_, by simp⟩
      intro y hy
      rw [List.mem_singleton.1 hy, ← isSep_iff]
      exact hx
  | true =>
    simp only [if_true] at h
    obtain ⟨q, n, rfl, hq, hcomp, hn, hns, hn1⟩ := h
    have hc' : c = q.length + n.length := by simpa using hc
    have hpos : 0 < n.length := List.length_pos_iff.2 hn
    by_cases hx : isSep x = true
    · have e : scanStep ⟨c, comp, cend, true⟩ x = ⟨c + 1, comp, c, false⟩ := by simp [scanStep, hx]
      rw [e]
      refine ⟨by simp [hc]; omega, ?_⟩
      simp only [Bool.false_eq_true, if_false]
      refine ⟨.sep _ _ ((isSep_iff x).1 hx), by simp; omega, by omega, ?_⟩
      have e2 : ((q ++ n ++ [x]).drop comp).take (c - comp) = n := by
        rw [hcomp, List.append_assoc, List.drop_left, hc', Nat.add_sub_cancel_left, List.take_left]
      rw [e2]
      refine .name q n [x] hq hn hns hn1 ?_
      intro y hy
      rw [List.mem_singleton.1 hy, ← isSep_iff]
      exact hx
    · by_cases hcol : x = colon ∧ c - comp = 1
      · have e : scanStep ⟨c, comp, cend, true⟩ x = ⟨c + 1, comp, c, false⟩ := by
          simp only [scanStep, hx]
          rw [if_neg (by simp), if_pos hcol]
          simp
        obtain ⟨y, rfl⟩ : ∃ y, n = [y] := List.length_eq_one_iff.1 (by omega)
        rw [e]
        have hy : ¬ Sep y := hns y (by simp)
        have hx2 : x = 0x3a := hcol.1
        subst hx2
        refine ⟨by simp [hc], ?_⟩
        simp only [Bool.false_eq_true, if_false]
        have e1 : q ++ [y] ++ [0x3a] = q ++ [y, 0x3a] := by simp
        rw [e1]
        refine ⟨.drive _ _ hq hy, by simp; simp at hc'; omega, by omega, ?_⟩
        have e2 : ((q ++ [y, 0x3a]).drop comp).take (c - comp) = [y] := by
          rw [hcomp, List.drop_left, hc']
          simp
        rw [e2]
        have := BaseOf.drive q y [] hq hy (by intro z hz; simp at hz)
        simpa using this
      · have e : scanStep ⟨c, comp, cend, true⟩ x = ⟨c + 1, comp, cend, true⟩ := by
          simp only [scanStep, hx]
          rw [if_neg (by simp), if_neg hcol]
          simp
        rw [e]
        refine ⟨by simp [hc]; omega, ?_⟩
        simp only [if_true]
        refine ⟨q, n ++ [x], by simp, hq, hcomp, by simp, ?_, ?_⟩
        · intro y hy
          rcases List.mem_append.1 hy with h' | h'
          · exact hns y h'
          · rw [List.mem_singleton.1 h', ← isSep_iff]; exact hx
        · rcases Nat.lt_or_ge 1 n.length with hl | hl
          · rw [List.getElem?_append_left hl]; exact hn1
          · have : n.length = 1 := by omega
            rw [List.getElem?_append_right (by omega), this]
            simp only [Nat.sub_self, List.getElem?_cons_zero]
            intro hh
            exact hcol ⟨Option.some.inj hh, by omega⟩

theorem inv_run (s p : Bytes) (st : Scan) (h : Inv p st) : Inv (p ++ s) (s.foldl scanStep st) := by
  induction s generalizing p st with
  | nil => simpa using h
  | cons x s ih =>
    have := ih (p ++ [x]) _ (inv_step h x)
    simpa using this

theorem inv_init : Inv [] {} := by
  refine ⟨rfl, ?_⟩
  simp only [Bool.false_eq_true, if_false]
  exact ⟨.start, by simp, by simp, by simpa using BaseOf.none [] (by intro x hx; simp at hx)⟩

/-- C164: for every path, `basename` returns its last name: what follows the last separator, or the drive, ignoring
the separators at the end; nothing if there are only separators. -/
theorem basename_last (s : Bytes) : BaseOf s (basename s) := by
  have h := inv_run s [] {} inv_init
  rw [List.nil_append] at h
  unfold basename
  generalize s.foldl scanStep {} = st at h
  obtain ⟨c, comp, cend, inName⟩ := st
  obtain ⟨hc, h⟩ := h
  dsimp only at hc h ⊢
  cases inName with
  | false =>
    simp only [Bool.false_eq_true, if_false] at h ⊢
    exact h.2.2.2
  | true =>
    simp only [if_true] at h ⊢
    obtain ⟨q, n, rfl, hq, hcomp, hn, hns, hn1⟩ := h
    have : ((q ++ n).drop comp).take (c - comp) = n := by
      rw [hcomp, List.drop_left, hc]
      simp
    rw [this]
    have := BaseOf.name q n [] hq hn hns hn1 (by intro z hz; simp at hz)
    simpa using this

/-- The state is "between names" at every boundary. -/
theorem boundary_state {p : Bytes} (h : Boundary p) :
    (p.foldl scanStep {}).inName = false ∧ (p.foldl scanStep {}).c = p.length := by
  have hc : ∀ p : Bytes, (p.foldl scanStep {}).c = p.length := by
    intro p
    have := (inv_run p [] {} inv_init).1
    simpa using this
  refine ⟨?_, hc p⟩
  induction h with
  | start => rfl
  | sep p x hx =>
    rw [List.foldl_append]
    have := (isSep_iff x).2 hx
    simp only [List.foldl_cons, List.foldl_nil, scanStep, this]
    cases h : (p.foldl scanStep {}).inName <;> simp [h]
  | drive p x hp hx ih =>
    rw [List.foldl_append]
    have hx' := (isSep_false x).2 hx
    generalize p.foldl scanStep {} = st at ih ⊢
    obtain ⟨c, comp, cend, inName⟩ := st
    dsimp only at ih
    subst ih
    have e1 : scanStep ⟨c, comp, cend, false⟩ x = ⟨c + 1, c, cend, true⟩ := by
      simp only [scanStep, hx']
      split
      · simp_all
      · simp
    simp only [List.foldl_cons, List.foldl_nil, e1]
    have : isSep 0x3a = false := by decide
    simp [scanStep, this, colon]

theorem name_run (n : Bytes) (c comp cend : Nat) (hns : NoSep n) (hcol : c - comp = 1 → n[0]? ≠ some 0x3a)
    (hlt : comp < c) : n.foldl scanStep ⟨c, comp, cend, true⟩ = ⟨c + n.length, comp, cend, true⟩ := by
  induction n generalizing c with
  | nil => rfl
  | cons x n ih =>
    have hx := (isSep_false x).2 (hns x (by simp))
    have e : scanStep ⟨c, comp, cend, true⟩ x = ⟨c + 1, comp, cend, true⟩ := by
      simp only [scanStep, hx]
      rw [if_neg (by simp), if_neg]
      · simp
      · rintro ⟨h1, h2⟩
        exact hcol h2 (by rw [h1]; rfl)
    rw [List.foldl_cons, e, ih (c + 1) (fun y hy => hns y (List.mem_cons_of_mem _ hy)) (by omega) (by omega)]
    simp only [List.length_cons]
    congr 1
    omega

theorem seps_run (t : Bytes) (c comp cend : Nat) (ht : Seps t) :
    t.foldl scanStep ⟨c, comp, cend, false⟩ = ⟨c + t.length, comp, cend, false⟩ := by
  induction t generalizing c with
  | nil => rfl
  | cons x t ih =>
    have hx := (isSep_iff x).2 (ht x (by simp))
    have e : scanStep ⟨c, comp, cend, false⟩ x = ⟨c + 1, comp, cend, false⟩ := by simp [scanStep, hx]
    rw [List.foldl_cons, e, ih (c + 1) (fun y hy => ht y (List.mem_cons_of_mem _ hy))]
    simp only [List.length_cons]
    congr 1
    omega

/-- C164: the last name of a path is determined, and it is what `basename` returns. -/
theorem basename_unique (s n : Bytes) (h : BaseOf s n) : basename s = n := by
  cases h with
  | none _ h =>
    have := seps_run s 0 0 0 h
    simp [basename, this]
  | name p n t h1 h2 h3 h4 h5 =>
    obtain ⟨b1, b2⟩ := boundary_state h1
    obtain ⟨x, n', rfl⟩ := List.exists_cons_of_ne_nil h2
    unfold basename
    rw [List.foldl_append, List.foldl_append]
    generalize p.foldl scanStep {} = st at b1 b2
    obtain ⟨c, comp, cend, inName⟩ := st
    dsimp only at b1 b2
    subst b1
    have hx := (isSep_false x).2 (h3 x (by simp))
    have e1 : scanStep ⟨c, comp, cend, false⟩ x = ⟨c + 1, c, cend, true⟩ := by
      simp only [scanStep, hx]
      split
      · simp_all
      · simp
    rw [List.foldl_cons, e1, name_run n' (c + 1) c cend (fun y hy => h3 y (List.mem_cons_of_mem _ hy))
      (fun _ => by simpa using h4) (by omega)]
    have key : ((p ++ (x :: n') ++ t).drop c).take (c + 1 + n'.length - c) = x :: n' := by
      rw [b2, List.append_assoc, List.drop_left]
      have : p.length + 1 + n'.length - p.length = (x :: n').length := by simp; omega
      rw [this, List.take_left]
    cases t with
    | nil => simpa using key
    | cons y t =>
      have hy := (isSep_iff y).2 (h5 y (by simp))
      have e2 : scanStep ⟨c + 1 + n'.length, c, cend, true⟩ y = ⟨c + 1 + n'.length + 1, c, c + 1 + n'.length, false⟩ := by
        simp [scanStep, hy]
      rw [List.foldl_cons, e2, seps_run _ _ _ _ (fun z hz => h5 z (List.mem_cons_of_mem _ hz))]
      simpa using key
  | drive p x t h1 h2 h3 =>
    obtain ⟨b1, b2⟩ := boundary_state h1
    unfold basename
    rw [List.foldl_append, List.foldl_append]
    generalize p.foldl scanStep {} = st at b1 b2
    obtain ⟨c, comp, cend, inName⟩ := st
    dsimp only at b1 b2
    subst b1
    have hx := (isSep_false x).2 h2
    have e1 : scanStep ⟨c, comp, cend, false⟩ x = ⟨c + 1, c, cend, true⟩ := by
      simp only [scanStep, hx]
      split
      · simp_all
      · simp
    have e2 : scanStep ⟨c + 1, c, cend, true⟩ 0x3a = ⟨c + 2, c, c + 1, false⟩ := by
      have : isSep 0x3a = false := by decide
      simp [scanStep, this, colon]
    simp only [List.foldl_cons, List.foldl_nil, e1, e2, seps_run _ _ _ _ h3]
    rw [b2, List.append_assoc, List.drop_left]
    simp

/-- "c:\dir/file.txt\" -/
example : basename [0x63, 0x3a, 0x5c, 0x64, 0x69, 0x72, 0x2f, 0x66, 0x2e, 0x74, 0x5c] = [0x66, 0x2e, 0x74] := by decide

/-- "c:f.t" and "/x/ab:c" (a stream name is kept) -/
example : basename [0x63, 0x3a, 0x66, 0x2e, 0x74] = [0x66, 0x2e, 0x74] ∧
    basename [0x2f, 0x78, 0x2f, 0x61, 0x62, 0x3a, 0x63] = [0x61, 0x62, 0x3a, 0x63] := by decide

/-! ### `memmem` -/

theorem memmemLoop_spec (b needle : Bytes) (hn : needle ≠ []) (n h : Nat) (hb : h + n ≤ b.length) :
    ∃ r, memmemLoop b needle n h = .ok r ∧
      (∀ q, r = some q → h ≤ q ∧ q + needle.length ≤ h + n ∧ needle <+: b.drop q ∧
        ∀ j, h ≤ j → j < q → ¬ needle <+: b.drop j) ∧
      (r = none → ∀ j, h ≤ j → j + needle.length ≤ h + n → ¬ needle <+: b.drop j) := by
  have hpos : 0 < needle.length := List.length_pos_iff.2 hn
  induction n generalizing h with
  | zero =>
    exact ⟨none, rfl, (fun q hq => by simp at hq), fun _ j h1 h2 => by omega⟩
  | succ n ih =>
    unfold memmemLoop
    by_cases hlt : n + 1 < needle.length
    · rw [if_pos hlt]
      exact ⟨none, rfl, (fun q hq => by simp at hq), fun _ j h1 h2 => by omega⟩
    · rw [if_neg hlt]
      unfold memEq
      rw [if_pos (by omega)]
      simp only [Res.ok_bind]
      have hiff : ((b.drop h).take needle.length == needle) = true ↔ needle <+: b.drop h := by
        rw [beq_iff_eq, List.prefix_iff_eq_take]
        exact eq_comm
      by_cases he : needle <+: b.drop h
      · rw [if_pos (hiff.2 he)]
        refine ⟨some h, rfl, ?_, fun h => by simp at h⟩
        intro q hq
        obtain rfl := Option.some.inj hq
        exact ⟨Nat.le_refl _, by omega, he, fun j h1 h2 => by omega⟩
      · rw [if_neg (fun hh => he (hiff.1 hh))]
        obtain ⟨r, e, h1, h2⟩ := ih (h + 1) (by omega)
        refine ⟨r, e, ?_, ?_⟩
        · intro q hq
          obtain ⟨a1, a2, a3, a4⟩ := h1 q hq
          refine ⟨by omega, by omega, a3, ?_⟩
          intro j b1 b2
          rcases Nat.eq_or_lt_of_le b1 with rfl | b1
          · exact he
          · exact a4 j b1 b2
        · intro hq j b1 b2
          rcases Nat.eq_or_lt_of_le b1 with rfl | b1
          · exact he
          · exact h2 hq j b1 (by omega)

/-- C165: `memmem` for Windows never reads outside of the `n` bytes it is given, finds the first place where the whole
needle lies in them, and finds nothing only if there is no such place. -/
theorem memmem_first (b : Bytes) (p n : Nat) (needle : Bytes) (hb : p + n ≤ b.length) (hn : needle ≠ []) :
    ∃ r, memmem b p n needle = .ok r ∧
      (∀ q, r = some q ↔ (p ≤ q ∧ q + needle.length ≤ p + n ∧ needle <+: b.drop q ∧
        ∀ j, p ≤ j → j < q → ¬ needle <+: b.drop j)) := by
  have hpos : 0 < needle.length := List.length_pos_iff.2 hn
  unfold memmem
  by_cases h0 : n = 0
  · rw [if_pos (Or.inl h0)]
    refine ⟨none, rfl, fun q => ⟨fun h => by simp at h, ?_⟩⟩
    rintro ⟨h1, h2, _⟩
    omega
  · rw [if_neg (by rintro (h | h) <;> omega)]
    obtain ⟨r, e, h1, h2⟩ := memmemLoop_spec b needle hn n p hb
    refine ⟨r, e, fun q => ⟨h1 q, ?_⟩⟩
    rintro ⟨a1, a2, a3, a4⟩
    cases r with
    | none => exact absurd a3 (h2 rfl q a1 a2)
    | some q' =>
      obtain ⟨b1, b2, b3, b4⟩ := h1 q' rfl
      congr 1
      rcases Nat.lt_trichotomy q' q with hlt | heq | hgt
      · exact absurd b3 (a4 q' b1 hlt)
      · exact heq
      · exact absurd a3 (b4 q a1 hgt)

/-- C165: it is the search which `mem_split_ex` and its callers rely on, so their properties hold on Windows too. -/
theorem memmem_same (b : Bytes) (p n : Nat) (needle : Bytes) (hb : p + n ≤ b.length) (hn : needle ≠ []) :
    memmem b p n needle = Str.memmem b p n needle := by
  have hpos : 0 < needle.length := List.length_pos_iff.2 hn
  have hpre : ∀ i, i ≤ n → (needle <+: ((b.drop p).take n).drop i ↔
      i + needle.length ≤ n ∧ needle <+: b.drop (p + i)) := by
    intro i hi
    rw [List.drop_take, List.drop_drop, List.prefix_take_iff]
    constructor
    · rintro ⟨h1, h2⟩; exact ⟨by omega, h1⟩
    · rintro ⟨h1, h2⟩; exact ⟨h2, by omega⟩
  have hlen : ((b.drop p).take n).length = n := by simp; omega
  obtain ⟨r, e, h1⟩ := memmem_first b p n needle hb hn
  rw [e]
  unfold Str.memmem
  rw [if_pos hb]
  congr 1
  cases hs : searchFrom ((b.drop p).take n) needle 0 with
  | some i =>
    obtain ⟨_, a2, a3, a4⟩ := searchFrom_some hs
    rw [hlen] at a2
    rw [Option.map_some, h1]
    obtain ⟨c1, c2⟩ := (hpre i a2).1 a3
    refine ⟨by omega, by omega, c2, ?_⟩
    intro j hj hlt hp
    refine a4 (j - p) (Nat.zero_le _) (by omega) ((hpre (j - p) (by omega)).2 ⟨by omega, ?_⟩)
    rw [show p + (j - p) = j by omega]; exact hp
  | none =>
    rw [Option.map_none]
    cases r with
    | none => rfl
    | some q =>
      obtain ⟨b1, b2, b3, _⟩ := (h1 q).1 rfl
      refine absurd ((hpre (q - p) (by omega)).2 ⟨by omega, ?_⟩)
        (searchFrom_none hs (q - p) (Nat.zero_le _) (by rw [hlen]; omega))
      rw [show p + (q - p) = q by omega]; exact b3

example : memmem [1, 2, 2, 3, 2, 3] 1 5 [2, 3] = .ok (some 2) ∧ memmem [1, 2, 2, 3] 0 3 [2, 3] = .ok none := by decide

/-! ### `dirname` -/

theorem slashP_ok (lead : UInt8 → Bool) (drv r : Bytes) (hl : ∀ x ∈ drv ++ r, lead x = false) (i : Nat)
    (hi : i < r.length) (h : drv.length + i ≠ 0 ∨ r[i] ≠ 0x5c) :
    isSlashP lead (cstr (drv ++ r)) (drv.length + i) = .ok (isSep r[i]) := by
  unfold isSlashP
  have hlt : drv.length + i < (drv ++ r).length := by simp; omega
  rw [rd_cstr_lt hlt]
  have e : (drv ++ r)[drv.length + i] = r[i] := by
    rw [List.getElem_append_right (by omega)]; simp
  rw [e]
  simp only [Res.ok_bind]
  by_cases h1 : r[i] = slash
  · rw [if_pos h1]; simp [isSep, h1]
  · rw [if_neg h1]
    by_cases h2 : r[i] = bslash
    · rw [if_pos h2]
      have h0 : drv.length + i ≠ 0 := h.resolve_right (fun h => h h2)
      rw [if_neg h0]
      have hlt' : drv.length + i - 1 < (drv ++ r).length := by omega
      rw [rd_cstr_lt hlt']
      simp only [Res.ok_bind]
      rw [hl _ (List.getElem_mem hlt')]
      simp [isSep, h2]
    · rw [if_neg h2]; simp [isSep, h1, h2]

theorem slashP_ub (lead : UInt8 → Bool) (r : Bytes) : isSlashP lead (cstr (0x5c :: r)) 0 = .ub := by
  unfold isSlashP
  have : rd (cstr (0x5c :: r)) 0 = .ok 0x5c := rfl
  rw [this]
  simp only [Res.ok_bind]
  rw [if_neg (by decide), if_pos (by rfl)]
  simp

/-- A loop goes over the bytes `w` behind the first `j`. -/
theorem back_run (lead : UInt8 → Bool) (want : Bool) (b : Bytes) (base j : Nat) (w : Bytes)
    (hw : ∀ x ∈ w, isSep x = want)
    (ht : ∀ i (h : i < w.length), isSlashP lead b (base + (j + i)) = .ok (isSep w[i])) :
    back lead want b base (j + w.length) = back lead want b base j := by
  induction w using List.reverseRecOn with
  | nil => rfl
  | append_singleton w x ih =>
    have e : j + (w ++ [x]).length = (j + w.length) + 1 := by simp; omega
    rw [e]
    have h1 := ht w.length (by simp)
    conv_lhs => unfold back
    rw [h1]
    simp only [Res.ok_bind]
    rw [if_pos (by simpa using hw x (by simp))]
    refine ih (fun y hy => hw y (List.mem_append_left _ hy)) ?_
    intro i hi
    have := ht i (by simp; omega)
    rw [this, List.getElem_append_left hi]

/-- and stops at a byte of the other kind. -/
theorem back_stop (lead : UInt8 → Bool) (want : Bool) (b : Bytes) (base j : Nat) (x : UInt8) (hx : isSep x ≠ want)
    (ht : isSlashP lead b (base + j) = .ok (isSep x)) : back lead want b base (j + 1) = .ok (j + 1) := by
  unfold back
  rw [ht]
  simp only [Res.ok_bind]
  rw [if_neg hx]

theorem strAt_mid (w z : Bytes) (hw : NulFree w) : strAt (w ++ 0 :: z) 0 = .ok w := by
  unfold strAt
  rw [List.drop_zero, if_pos (by simp), List.takeWhile_append_of_pos (fun x hx => by simpa using hw x hx)]
  simp

theorem put_str (drv r : Bytes) (x : UInt8) (hr : r ≠ []) (hd : NulFree drv) (hx : x ≠ 0) :
    ∃ b', put (cstr (drv ++ r)) drv.length x = .ok b' ∧ b'.length = (drv ++ r).length + 1 ∧
      strAt b' 0 = .ok (drv ++ [x]) := by
  obtain ⟨y, r', rfl⟩ := List.exists_cons_of_ne_nil hr
  have e : put (cstr (drv ++ y :: r')) drv.length x = .ok (drv ++ [x] ++ 0 :: (r' ++ [0]).drop 1) := by
    unfold put
    rw [wr_ok (by simp [cstr])]
    simp only [Res.ok_bind]
    have : (cstr (drv ++ y :: r')).set drv.length x = drv ++ x :: (r' ++ [0]) := by
      simp [cstr]
    rw [this, wr_ok (by simp)]
    congr 1
    rw [List.set_append_right _ _ (by omega)]
    simp only [Nat.add_sub_cancel_left, List.set_cons_succ]
    cases r' <;> simp
  refine ⟨_, e, by simp; omega, ?_⟩
  refine strAt_mid _ _ (hd.append ?_)
  intro z hz
  rw [List.mem_singleton.1 hz]
  exact hx

theorem cut_str (u v : Bytes) (x : UInt8) (hu : NulFree u) :
    ∃ b', wr (cstr (u ++ x :: v)) u.length 0 = .ok b' ∧ b'.length = (u ++ x :: v).length + 1 ∧
      strAt b' 0 = .ok u := by
  refine ⟨u ++ 0 :: (v ++ [0]), ?_, by simp; omega, strAt_mid _ _ hu⟩
  rw [wr_ok (by simp [cstr])]
  congr 1
  simp [cstr]

theorem isAlpha_iff (x : UInt8) : isAlpha x = true ↔ (0x41 ≤ x ∧ x ≤ 0x5a) ∨ (0x61 ≤ x ∧ x ≤ 0x7a) := by
  simp [isAlpha]

/-- `dirname` behind the test for a drive. -/
def dirRest (lead : UInt8 → Bool) (b : Bytes) (base n : Nat) : Res (Bytes × Option Nat) := do
  let k ← back lead true b base n
  if k = 0 then do
    let b ← put b base bslash
    .ok (b, some base)
  else do
    let k ← back lead false b base k
    if k = 0 then do
      let b ← put b base dot
      .ok (b, some base)
    else do
      let k ← back lead true b base k
      if k = 0 then do
        let b ← put b base bslash
        .ok (b, some base)
      else do
        let b ← wr b (base + k) 0
        .ok (b, some base)

theorem dirname_rest (lead : UInt8 → Bool) (drv r : Bytes) (hd : Drive drv) (hr : r ≠ []) (hz : NulFree (drv ++ r))
    (hnd : drv = [] → ¬ ∃ x t, r = x :: 0x3a :: t ∧ ((0x41 ≤ x ∧ x ≤ 0x5a) ∨ (0x61 ≤ x ∧ x ≤ 0x7a))) :
    dirname lead (cstr (drv ++ r)) = dirRest lead (cstr (drv ++ r)) drv.length r.length := by
  have hs : strAt (cstr (drv ++ r)) 0 = .ok (drv ++ r) := by
    have := strAt_cstr hz (Nat.zero_le _)
    simpa using this
  obtain ⟨z, r', rfl⟩ := List.exists_cons_of_ne_nil hr
  unfold dirname
  rw [hs]
  simp only [Res.ok_bind]
  cases hd with
  | none =>
    have hdr : hasDrive ([] ++ z :: r') = false := by
      cases r' with
      | nil => rfl
      | cons y t =>
        have := hnd rfl
        by_contra hh
        have hh : (isAlpha z && y == colon) = true := by simpa [hasDrive] using hh
        rw [Bool.and_eq_true, isAlpha_iff, beq_iff_eq] at hh
        exact this ⟨z, t, by rw [hh.2]; rfl, hh.1⟩
    rw [hdr]
    simp [dirRest]
  | letter x hx =>
    have hdr : hasDrive ([x, 0x3a] ++ z :: r') = true := by
      have := (isAlpha_iff x).2 hx
      simp [hasDrive, this, colon]
    rw [hdr]
    simp [dirRest]

theorem back_zero (lead : UInt8 → Bool) (want : Bool) (b : Bytes) (base : Nat) : back lead want b base 0 = .ok 0 := rfl

theorem dirRest_spec (lead : UInt8 → Bool) (drv r d : Bytes) (hz : NulFree (drv ++ r))
    (hl : ∀ x ∈ drv ++ r, lead x = false) (hdir : DirOf r d)
    (h0 : drv ≠ [] ∨ r.head? ≠ some 0x5c ∨ d ≠ [0x5c]) :
    ∃ b', dirRest lead (cstr (drv ++ r)) drv.length r.length = .ok (b', some drv.length) ∧
      b'.length = (drv ++ r).length + 1 ∧ strAt b' 0 = .ok (drv ++ d) := by
  have hzd : NulFree drv := hz.left
  have hsl : ∀ w : Bytes, Seps w → ∀ x ∈ w, isSep x = true := fun w h x hx => (isSep_iff x).2 (h x hx)
  have hnl : ∀ w : Bytes, NoSep w → ∀ x ∈ w, isSep x = false := fun w h x hx => (isSep_false x).2 (h x hx)
  unfold dirRest
  cases hdir with
  | root _ hr hs =>
    have ht : ∀ i (h : i < r.length), isSlashP lead (cstr (drv ++ r)) (drv.length + (0 + i)) = .ok (isSep r[i]) := by
      intro i h
      rw [Nat.zero_add]
      refine slashP_ok lead drv r hl i h ?_
      rcases h0 with h0 | h0 | h0
      · have := List.length_pos_iff.2 h0
        omega
      · rcases Nat.eq_zero_or_pos i with rfl | hi
        · right; intro hh; apply h0; rw [List.head?_eq_getElem?, List.getElem?_eq_getElem h, hh]
        · omega
      · exact absurd rfl h0
    have e1 := back_run lead true (cstr (drv ++ r)) drv.length 0 r (hsl r hs) ht
    rw [Nat.zero_add, back_zero] at e1
    rw [e1]
    obtain ⟨b', p1, p2, p3⟩ := put_str drv r bslash hr hzd (by decide)
    simp only [Res.ok_bind, if_true, p1]
    exact ⟨b', rfl, p2, p3⟩
  | here n t hn hns ht =>
    have hnpos := List.length_pos_iff.2 hn
    have htest : ∀ i (h : i < (n ++ t).length),
        isSlashP lead (cstr (drv ++ (n ++ t))) (drv.length + i) = .ok (isSep (n ++ t)[i]) := by
      intro i h
      refine slashP_ok lead drv _ hl i h ?_
      rcases Nat.eq_zero_or_pos i with rfl | hi
      · right
        rw [List.getElem_append_left hnpos]
        intro hh
        exact hns _ (List.getElem_mem hnpos) (Or.inr hh)
      · omega
    have e1 : back lead true (cstr (drv ++ (n ++ t))) drv.length (n.length + t.length) =
        back lead true (cstr (drv ++ (n ++ t))) drv.length n.length := by
      refine back_run _ _ _ _ _ t (hsl t ht) ?_
      intro i h
      have := htest (n.length + i) (by simp; omega)
      rw [this, List.getElem_append_right (by omega)]
      simp
    have e2 : back lead true (cstr (drv ++ (n ++ t))) drv.length n.length = .ok n.length := by
      obtain ⟨k, hk⟩ : ∃ k, n.length = k + 1 := ⟨n.length - 1, by omega⟩
      rw [hk]
      have hkn : k < n.length := by omega
      have := htest k (by simp; omega)
      rw [List.getElem_append_left hkn] at this
      exact back_stop _ _ _ _ _ n[k] (by rw [hnl n hns _ (List.getElem_mem hkn)]; decide) this
    have e3 : back lead false (cstr (drv ++ (n ++ t))) drv.length n.length = .ok 0 := by
      have := back_run lead false (cstr (drv ++ (n ++ t))) drv.length 0 n (hnl n hns) (by
        intro i h
        rw [Nat.zero_add]
        have := htest i (by simp; omega)
        rw [this, List.getElem_append_left h])
      rw [Nat.zero_add, back_zero] at this
      exact this
    rw [List.length_append, e1, e2]
    simp only [Res.ok_bind]
    rw [if_neg (by omega), e3]
    obtain ⟨b', p1, p2, p3⟩ := put_str drv (n ++ t) dot (by simp [hn]) hzd (by decide)
    simp only [Res.ok_bind, if_true, p1]
    exact ⟨b', rfl, p2, p3⟩
  | top s n t hs hss hn hns ht =>
    have hnpos := List.length_pos_iff.2 hn
    have hspos := List.length_pos_iff.2 hs
    have htest : ∀ i (h : i < (s ++ n ++ t).length),
        isSlashP lead (cstr (drv ++ (s ++ n ++ t))) (drv.length + i) = .ok (isSep (s ++ n ++ t)[i]) := by
      intro i h
      refine slashP_ok lead drv _ hl i h ?_
      rcases h0 with h0 | h0 | h0
      · have := List.length_pos_iff.2 h0
        omega
      · rcases Nat.eq_zero_or_pos i with rfl | hi
        · right; intro hh; apply h0; rw [List.head?_eq_getElem?, List.getElem?_eq_getElem h, hh]
        · omega
      · exact absurd rfl h0
    have e1 : back lead true (cstr (drv ++ (s ++ n ++ t))) drv.length (s.length + n.length + t.length) =
        back lead true (cstr (drv ++ (s ++ n ++ t))) drv.length (s.length + n.length) := by
      refine back_run _ _ _ _ _ t (hsl t ht) ?_
      intro i h
      have := htest (s.length + n.length + i) (by simp; omega)
      rw [this, List.getElem_append_right (by simp)]
      simp
    have e2 : back lead true (cstr (drv ++ (s ++ n ++ t))) drv.length (s.length + n.length) =
        .ok (s.length + n.length) := by
      obtain ⟨k, hk⟩ : ∃ k, n.length = k + 1 := ⟨n.length - 1, by omega⟩
      have hkn : k < n.length := by omega
      have := htest (s.length + k) (by simp; omega)
      rw [List.getElem_append_left (by simp; omega), List.getElem_append_right (by omega)] at this
      simp only [Nat.add_sub_cancel_left] at this
      rw [hk, ← Nat.add_assoc]
      exact back_stop _ _ _ _ _ n[k] (by rw [hnl n hns _ (List.getElem_mem hkn)]; decide) this
    have e3 : back lead false (cstr (drv ++ (s ++ n ++ t))) drv.length (s.length + n.length) = .ok s.length := by
      rw [back_run lead false (cstr (drv ++ (s ++ n ++ t))) drv.length s.length n (hnl n hns) (by
        intro i h
        have := htest (s.length + i) (by simp; omega)
        rw [this, List.getElem_append_left (by simp; omega), List.getElem_append_right (by omega)]
        simp)]
      obtain ⟨k, hk⟩ : ∃ k, s.length = k + 1 := ⟨s.length - 1, by omega⟩
      have hks : k < s.length := by omega
      have := htest k (by simp; omega)
      rw [List.getElem_append_left (by simp; omega), List.getElem_append_left hks] at this
      rw [hk]
      exact back_stop _ _ _ _ _ s[k] (by rw [hsl s hss _ (List.getElem_mem hks)]; decide) this
    have e4 : back lead true (cstr (drv ++ (s ++ n ++ t))) drv.length s.length = .ok 0 := by
      have := back_run lead true (cstr (drv ++ (s ++ n ++ t))) drv.length 0 s (hsl s hss) (by
        intro i h
        rw [Nat.zero_add]
        have := htest i (by simp; omega)
        rw [this, List.getElem_append_left (by simp; omega), List.getElem_append_left h])
      rw [Nat.zero_add, back_zero] at this
      exact this
    rw [List.length_append, List.length_append, e1, e2]
    simp only [Res.ok_bind]
    rw [if_neg (by omega), e3]
    simp only [Res.ok_bind]
    rw [if_neg (by omega), e4]
    obtain ⟨b', p1, p2, p3⟩ := put_str drv (s ++ n ++ t) bslash (by simp [hn]) hzd (by decide)
    simp only [Res.ok_bind, if_true, p1]
    exact ⟨b', rfl, p2, p3⟩
  | dir d x s n t hx hs hss hn hns ht =>
    have hnpos := List.length_pos_iff.2 hn
    have hspos := List.length_pos_iff.2 hs
    have hA : ∀ i (h : i < (s ++ n ++ t).length),
        isSlashP lead (cstr (drv ++ (d ++ [x] ++ s ++ n ++ t))) (drv.length + (d.length + 1 + i)) =
          .ok (isSep (s ++ n ++ t)[i]) := by
      intro i h
      have := slashP_ok lead drv (d ++ [x] ++ s ++ n ++ t) hl (d.length + 1 + i) (by simp at h ⊢; omega) (by omega)
      rw [this]
      congr 2
      have e : d ++ [x] ++ s ++ n ++ t = (d ++ [x]) ++ (s ++ n ++ t) := by simp
      simp only [e]
      rw [List.getElem_append_right (by simp)]
      simp
    have hX : isSlashP lead (cstr (drv ++ (d ++ [x] ++ s ++ n ++ t))) (drv.length + d.length) = .ok (isSep x) := by
      have hg : (d ++ [x] ++ s ++ n ++ t)[d.length]'(by simp) = x := by
        simp
      have := slashP_ok lead drv (d ++ [x] ++ s ++ n ++ t) hl d.length (by simp)
        (Or.inr (by rw [hg]; exact fun h => hx (Or.inr h)))
      rw [this, hg]
    generalize hB : cstr (drv ++ (d ++ [x] ++ s ++ n ++ t)) = B at hA hX
    have e1 : back lead true B drv.length (d.length + 1 + s.length + n.length + t.length) =
        back lead true B drv.length (d.length + 1 + s.length + n.length) := by
      refine back_run _ _ _ _ _ t (hsl t ht) ?_
      intro i h
      have := hA (s.length + n.length + i) (by simp; omega)
      rw [show d.length + 1 + s.length + n.length + i = d.length + 1 + (s.length + n.length + i) by omega, this,
        List.getElem_append_right (by simp)]
      simp
    have e2 : back lead true B drv.length (d.length + 1 + s.length + n.length) =
        .ok (d.length + 1 + s.length + n.length) := by
      obtain ⟨k, hk⟩ : ∃ k, n.length = k + 1 := ⟨n.length - 1, by omega⟩
      have hkn : k < n.length := by omega
      have := hA (s.length + k) (by simp; omega)
      rw [List.getElem_append_left (by simp; omega), List.getElem_append_right (by omega)] at this
      simp only [Nat.add_sub_cancel_left] at this
      rw [hk, ← Nat.add_assoc]
      refine back_stop _ _ _ _ _ n[k] (by rw [hnl n hns _ (List.getElem_mem hkn)]; decide) ?_
      rw [← this, Nat.add_assoc (d.length + 1)]
    have e3 : back lead false B drv.length (d.length + 1 + s.length + n.length) = .ok (d.length + 1 + s.length) := by
      rw [back_run lead false B drv.length (d.length + 1 + s.length) n (hnl n hns) (by
        intro i h
        have := hA (s.length + i) (by simp; omega)
        rw [Nat.add_assoc (d.length + 1), this, List.getElem_append_left (by simp; omega),
          List.getElem_append_right (by omega)]
        simp)]
      obtain ⟨k, hk⟩ : ∃ k, s.length = k + 1 := ⟨s.length - 1, by omega⟩
      have hks : k < s.length := by omega
      have := hA k (by simp; omega)
      rw [List.getElem_append_left (by simp; omega), List.getElem_append_left hks] at this
      rw [hk, ← Nat.add_assoc]
      exact back_stop _ _ _ _ _ s[k] (by rw [hsl s hss _ (List.getElem_mem hks)]; decide) this
    have e4 : back lead true B drv.length (d.length + 1 + s.length) = .ok (d.length + 1) := by
      rw [back_run lead true B drv.length (d.length + 1) s (hsl s hss) (by
        intro i h
        have := hA i (by simp; omega)
        rw [this, List.getElem_append_left (by simp; omega), List.getElem_append_left h])]
      exact back_stop _ _ _ _ _ x (by rw [(isSep_false x).2 hx]; decide) hX
    have hlen : (d ++ [x] ++ s ++ n ++ t).length = d.length + 1 + s.length + n.length + t.length := by simp; omega
    rw [hlen, e1, e2]
    simp only [Res.ok_bind]
    rw [if_neg (by omega), e3]
    simp only [Res.ok_bind]
    rw [if_neg (by omega), e4]
    simp only [Res.ok_bind]
    rw [if_neg (by omega)]
    obtain ⟨y, s', rfl⟩ := List.exists_cons_of_ne_nil hs
    obtain ⟨b', p1, p2, p3⟩ := cut_str (drv ++ (d ++ [x])) (s' ++ n ++ t) y (by
      intro z hz'
      refine hz z ?_
      simp only [List.mem_append] at hz' ⊢
      tauto)
    have eB : B = cstr (drv ++ (d ++ [x]) ++ y :: (s' ++ n ++ t)) := by rw [← hB]; simp
    rw [eB]
    have : drv.length + (d.length + 1) = (drv ++ (d ++ [x])).length := by simp
    rw [this, p1]
    simp only [Res.ok_bind]
    refine ⟨b', rfl, ?_, p3⟩
    rw [p2]; simp

/-- Each path has a directory part. -/
theorem dirOf_exists (r : Bytes) (hr : r ≠ []) : ∃ d, DirOf r d := by
  have split : ∀ (P : UInt8 → Bool) (l : Bytes), ∃ a b, l = a ++ b ∧ (∀ x ∈ b, P x = true) ∧
      (a = [] ∨ ∃ a' x, a = a' ++ [x] ∧ P x = false) := by
    intro P l
    induction l using List.reverseRecOn with
    | nil => exact ⟨[], [], rfl, by simp, Or.inl rfl⟩
    | append_singleton l y ih =>
      by_cases hy : P y = true
      · obtain ⟨a, b, rfl, h1, h2⟩ := ih
        refine ⟨a, b ++ [y], by simp, ?_, h2⟩
        intro x hx
        rcases List.mem_append.1 hx with h | h
        · exact h1 x h
        · rw [List.mem_singleton.1 h]; exact hy
      · exact ⟨l ++ [y], [], by simp, by simp, Or.inr ⟨l, y, rfl, by simpa using hy⟩⟩
  have toS : ∀ w : Bytes, (∀ x ∈ w, isSep x = true) → Seps w := fun w h x hx => (isSep_iff x).1 (h x hx)
  have toN : ∀ w : Bytes, (∀ x ∈ w, (!isSep x) = true) → NoSep w :=
    fun w h x hx => (isSep_false x).1 (by simpa using h x hx)
  obtain ⟨a, t, rfl, ht, ha⟩ := split isSep r
  rcases ha with rfl | ⟨a', x, rfl, hx⟩
  · exact ⟨_, .root _ hr (toS _ (by simpa using ht))⟩
  · obtain ⟨b, n, e, hn, hb⟩ := split (fun x => !isSep x) (a' ++ [x])
    have hn0 : n ≠ [] := by
      rintro rfl
      rw [List.append_nil] at e
      rcases hb with rfl | ⟨b', y, rfl, hy⟩
      · simp at e
      · have := List.append_inj' e rfl
        have hxy : x = y := by simpa using this.2
        rw [← hxy, hx] at hy
        simp at hy
    rw [e]
    rcases hb with rfl | ⟨b', y, rfl, hy⟩
    · rw [List.nil_append]
      exact ⟨_, .here n t hn0 (toN _ hn) (toS _ ht)⟩
    · obtain ⟨c, s, e2, hs, hc⟩ := split isSep (b' ++ [y])
      have hs0 : s ≠ [] := by
        rintro rfl
        rw [List.append_nil] at e2
        rcases hc with rfl | ⟨c', z, rfl, hz⟩
        · simp at e2
        · have := List.append_inj' e2 rfl
          have hyz : y = z := by simpa using this.2
          rw [← hyz] at hz
          rw [hz] at hy
          simp at hy
      rw [e2]
      rcases hc with rfl | ⟨c', z, rfl, hz⟩
      · rw [List.nil_append]
        exact ⟨_, .top s n t hs0 (toS _ hs) hn0 (toN _ hn) (toS _ ht)⟩
      · exact ⟨_, .dir c' z s n t ((isSep_false z).1 hz) hs0 (toS _ hs) hn0 (toN _ hn) (toS _ ht)⟩

/-- C166 (the part that holds): for a path with something behind its drive, if it is not a name directly in the root
written with a leading backslash, `dirname` leaves the drive and the directory part in the buffer it was given and
writes nowhere else.  Missing: the returned pointer is behind the drive (`dirname_drops_drive`), and for a name in the
root written with a backslash it reads in front of the buffer (`dirname_root_ub`). -/
theorem dirname_partial (lead : UInt8 → Bool) (drv r : Bytes) (hd : Drive drv) (hr : r ≠ []) (hz : NulFree (drv ++ r))
    (hl : ∀ x ∈ drv ++ r, lead x = false)
    (hnd : drv = [] → ¬ ∃ x t, r = x :: 0x3a :: t ∧ ((0x41 ≤ x ∧ x ≤ 0x5a) ∨ (0x61 ≤ x ∧ x ≤ 0x7a))) :
    ∃ d, DirOf r d ∧ ((drv ≠ [] ∨ r.head? ≠ some 0x5c ∨ d ≠ [0x5c]) →
      ∃ b', dirname lead (cstr (drv ++ r)) = .ok (b', some drv.length) ∧ b'.length = (drv ++ r).length + 1 ∧
        strAt b' 0 = .ok (drv ++ d)) := by
  obtain ⟨d, hdir⟩ := dirOf_exists r hr
  refine ⟨d, hdir, fun h0 => ?_⟩
  rw [dirname_rest lead drv r hd hr hz hnd]
  exact dirRest_spec lead drv r d hz hl hdir h0

/-- C166, negated: for every path with a drive, the string at the pointer that `dirname` returns has lost it. -/
theorem dirname_drops_drive (lead : UInt8 → Bool) (x : UInt8) (r d : Bytes)
    (hx : (0x41 ≤ x ∧ x ≤ 0x5a) ∨ (0x61 ≤ x ∧ x ≤ 0x7a)) (hz : NulFree ([x, 0x3a] ++ r))
    (hl : ∀ y ∈ [x, 0x3a] ++ r, lead y = false) (hdir : DirOf r d) :
    ∃ b' p, dirname lead (cstr ([x, 0x3a] ++ r)) = .ok (b', some p) ∧ strAt b' 0 = .ok ([x, 0x3a] ++ d) ∧
      strAt b' p = .ok d := by
  have hr : r ≠ [] := by
    cases hdir with
    | root _ h _ => exact h
    | here n t h _ _ => simp [h]
    | top s n t _ _ h _ _ => simp [h]
    | dir d x s n t _ _ _ h _ _ => simp
  obtain ⟨b', h1, h2, h3⟩ := dirRest_spec lead [x, 0x3a] r d hz hl hdir (Or.inl (by simp))
  refine ⟨b', 2, ?_, h3, ?_⟩
  · rw [dirname_rest lead [x, 0x3a] r (.letter x hx) hr hz (by simp)]
    exact h1
  · unfold strAt at h3 ⊢
    rw [List.drop_zero] at h3
    split at h3
    · rename_i hm
      have hx0 : x ≠ 0 := hz x (by simp)
      match b', h3, hm with
      | u :: v :: w, h3, hm =>
        have h3' := Res.ok.inj h3
        by_cases hu : u = 0
        · simp [hu] at h3'
        · by_cases hv : v = 0
          · simp [hu, hv] at h3'
          · simp only [ne_eq, List.takeWhile_cons, hu, hv, not_false_eq_true, decide_true, if_true,
              List.cons_append, List.nil_append, List.cons.injEq] at h3'
            have hw : (0 : UInt8) ∈ w := by
              rcases List.mem_cons.1 hm with h | h
              · exact absurd h.symm hu
              · rcases List.mem_cons.1 h with h | h
                · exact absurd h.symm hv
                · exact h
            rw [show (u :: v :: w).drop 2 = w from rfl, if_pos hw]
            congr 1
            simpa using h3'.2.2
      | [u], h3, hm =>
        have h3' := Res.ok.inj h3
        by_cases hu : u = 0
        · simp [hu] at h3'
        · simp [hu] at h3'
    · simp at h3

/-- C166, negated: for every name in the root written with a backslash, `dirname` reads the byte in front of the
buffer. -/
theorem dirname_root_ub (lead : UInt8 → Bool) (r : Bytes) (hz : NulFree r) (hl : ∀ y ∈ r, lead y = false)
    (hdir : DirOf r [0x5c]) (hh : r.head? = some 0x5c) : dirname lead (cstr r) = .ub := by
  obtain ⟨r', rfl⟩ : ∃ r', r = 0x5c :: r' := by
    cases r with
    | nil => simp at hh
    | cons y r' => exact ⟨r', by simpa using hh⟩
  have e := dirname_rest lead [] (0x5c :: r') .none (by simp) (by simpa using hz) (by
    rintro _ ⟨x, t, h1, h2⟩
    have : x = 0x5c := by
      have := (List.cons.inj h1).1
      exact this.symm
    subst this
    revert h2; decide)
  rw [List.nil_append] at e
  rw [e]
  unfold dirRest
  have hsl : ∀ w : Bytes, Seps w → ∀ x ∈ w, isSep x = true := fun w h x hx => (isSep_iff x).2 (h x hx)
  have hnl : ∀ w : Bytes, NoSep w → ∀ x ∈ w, isSep x = false := fun w h x hx => (isSep_false x).2 (h x hx)
  have hpos : ∀ i (h : i < (0x5c :: r' : Bytes).length), 0 < i →
      isSlashP lead (cstr (0x5c :: r')) (([] : Bytes).length + i) = .ok (isSep (0x5c :: r' : Bytes)[i]) := by
    intro i h hi
    exact slashP_ok lead [] (0x5c :: r') (by simpa using hl) i h (Or.inl (by simp; omega))
  have hone : ∀ want, back lead want (cstr (0x5c :: r')) ([] : Bytes).length 1 = .ub := by
    intro want
    unfold back
    rw [show ([] : Bytes).length + 0 = 0 from rfl, slashP_ub]
    rfl
  have hdown : ∀ (w v : Bytes), 0x5c :: r' = 0x5c :: w ++ v → (∀ x ∈ w, isSep x = true) →
      back lead true (cstr (0x5c :: r')) ([] : Bytes).length (w.length + 1) = .ub := by
    intro w v he hw
    have := back_run lead true (cstr (0x5c :: r')) ([] : Bytes).length 1 w hw (by
      intro i h
      have hlt : 1 + i < (0x5c :: r' : Bytes).length := by rw [he]; simp; omega
      rw [hpos (1 + i) hlt (by omega)]
      congr 2
      simp only [he]
      rw [List.getElem_append_left (by simp; omega)]
      simp [Nat.add_comm 1 i])
    rw [Nat.add_comm, this, hone]
  generalize hR : (0x5c :: r' : Bytes) = R at *
  generalize hD : ([0x5c] : Bytes) = D at hdir
  cases hdir with
  | root _ hr hs =>
    subst hR
    rw [show (0x5c :: r' : Bytes).length = r'.length + 1 from rfl,
      hdown r' [] (by simp) (hsl _ (fun x hx => hs x (List.mem_cons_of_mem _ hx)))]
    rfl
  | here n t hn hns ht => simp at hD
  | top s n t hs hss hn hns ht =>
    have hnpos := List.length_pos_iff.2 hn
    obtain ⟨y, s', rfl⟩ := List.exists_cons_of_ne_nil hs
    have hy : y = 0x5c := by
      have := (List.cons.inj hR).1
      exact this.symm
    subst hy
    have hlen : (0x5c :: s' ++ n ++ t : Bytes).length = s'.length + 1 + n.length + t.length := by simp; omega
    have e1 : back lead true (cstr (0x5c :: s' ++ n ++ t)) ([] : Bytes).length (s'.length + 1 + n.length + t.length) =
        back lead true (cstr (0x5c :: s' ++ n ++ t)) ([] : Bytes).length (s'.length + 1 + n.length) := by
      refine back_run _ _ _ _ _ t (hsl t ht) ?_
      intro i h
      rw [hpos (s'.length + 1 + n.length + i) (by rw [hlen]; omega) (by omega), List.getElem_append_right (by simp; omega)]
      have : s'.length + 1 + n.length + i - (0x5c :: s' ++ n : Bytes).length = i := by simp; omega
      simp only [this]
    have e2 : back lead true (cstr (0x5c :: s' ++ n ++ t)) ([] : Bytes).length (s'.length + 1 + n.length) =
        .ok (s'.length + 1 + n.length) := by
      obtain ⟨k, hk⟩ : ∃ k, n.length = k + 1 := ⟨n.length - 1, by omega⟩
      have hkn : k < n.length := by omega
      have := hpos (s'.length + 1 + k) (by rw [hlen]; omega) (by omega)
      rw [List.getElem_append_left (by simp; omega), List.getElem_append_right (by simp)] at this
      simp only [List.length_cons, Nat.add_sub_cancel_left] at this
      rw [hk, ← Nat.add_assoc]
      exact back_stop _ _ _ _ _ n[k] (by rw [hnl n hns _ (List.getElem_mem hkn)]; decide) this
    have e3 : back lead false (cstr (0x5c :: s' ++ n ++ t)) ([] : Bytes).length (s'.length + 1 + n.length) =
        back lead false (cstr (0x5c :: s' ++ n ++ t)) ([] : Bytes).length (s'.length + 1) := by
      refine back_run _ _ _ _ _ n (hnl n hns) ?_
      intro i h
      rw [hpos (s'.length + 1 + i) (by rw [hlen]; omega) (by omega), List.getElem_append_left (by simp; omega),
        List.getElem_append_right (by simp)]
      simp
    rw [hlen, e1, e2]
    simp only [Res.ok_bind]
    rw [if_neg (by omega), e3]
    rcases Nat.eq_zero_or_pos s'.length with h0 | h0
    · rw [h0, Nat.zero_add, hone]
      rfl
    · have e4 : back lead false (cstr (0x5c :: s' ++ n ++ t)) ([] : Bytes).length (s'.length + 1) =
          .ok (s'.length + 1) := by
        have hlt : s'.length < (0x5c :: s' : Bytes).length := by simp
        have := hpos s'.length (by rw [hlen]; omega) h0
        rw [List.getElem_append_left (by simp), List.getElem_append_left hlt] at this
        exact back_stop _ _ _ _ _ _ (by rw [hsl _ hss _ (List.getElem_mem hlt)]; decide) this
      rw [e4]
      simp only [Res.ok_bind]
      rw [if_neg (by omega), hdown s' (n ++ t) (by simp) (hsl _ (fun x hx => hss x (List.mem_cons_of_mem _ hx)))]
      rfl
  | dir d x s n t hx _ _ _ _ _ =>
    exfalso
    have : d = [] := by
      cases d with
      | nil => rfl
      | cons a d => simp at hD
    subst this
    have : x = 0x5c := by
      have h := (List.cons.inj hD).1
      exact h.symm
    exact hx (Or.inr this)

/-- "c:\dir\f" in the buffer becomes "c:\dir"; the string returned is "\dir". -/
example : dirname (fun _ => false) (cstr [0x63, 0x3a, 0x5c, 0x64, 0x69, 0x72, 0x5c, 0x66]) =
    .ok ([0x63, 0x3a, 0x5c, 0x64, 0x69, 0x72, 0, 0x66, 0], some 2) := by decide

/-- "\f" is undefined, "\a\b" is not. -/
example : dirname (fun _ => false) (cstr [0x5c, 0x66]) = .ub ∧
    dirname (fun _ => false) (cstr [0x5c, 0x61, 0x5c, 0x62]) = .ok ([0x5c, 0x61, 0, 0x62, 0], some 0) := by decide

end Verif.Win
