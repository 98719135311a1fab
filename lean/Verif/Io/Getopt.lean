import Verif.Mem
import Mathlib.Data.List.Infix
import Mathlib.Data.List.TakeWhile

/-!
# Command line flags (`src/getopt.c` 15-88), C50

Strings are lists of bytes; `str_is`, `str_has` and `str_split_ex` stand for equality, substring and splitting as proved in
`Verif.Str` (C09, C11).  The argument vector ends with NULL as that of `main` does.  Messages are not modelled.
-/

namespace Verif.Io.Getopt

/-- `option` is `command_line_option`; `none` is NULL. -/
structure St where
  argv : List Bytes
  index : Nat
  required : Nat
  ordered : Bool
  option : Option Bytes

/-- The text the help words are looked up in, src/getopt.c:59. -/
def helpText : Bytes := "-h, --h, ?, help".toUTF8.toList

/-- `flags[0]` and `flags[1]` of `str_split_ex(a, "=")`. -/
def piece0 (a : Bytes) : Bytes := a.takeWhile (· ≠ 61)
def piece1 (a : Bytes) : Bytes := ((a.dropWhile (· ≠ 61)).drop 1).takeWhile (· ≠ 61)

/-- The loop of `getopt_has` for a flag, src/getopt.c:37-71: the index after the flag and its value were taken, and the value. -/
def scan (f : Bytes) (single : Bool) : Nat → List Bytes → Option (Nat × Option Bytes)
  | _, [] => none
  | i, a :: rest =>
    let split := single && a.contains 61
    if a = f ∨ (split = true ∧ piece0 a = f) then
      some (if split then (i, some (piece1 a)) else if single then (i, some a) else (i + 1, rest.head?))
    else if a <:+: helpText then none
    else scan f single (i + 1) rest

/-- `getopt_has`, src/getopt.c:29-88. -/
def has (flag : Option Bytes) (single : Bool) (s : St) : Bool × St :=
  if s.required < s.argv.length then
    match flag with
    | none =>
      match s.argv[s.index]? with
      | some a => (true, { s with option := some a, index := if s.ordered then s.index + 1 else s.index })
      | none => (false, s)
    | some f =>
      match scan f single s.index (s.argv.drop s.index) with
      | some (i, v) => (true, { s with option := v, index := if s.ordered then i + 1 else s.index })
      | none => (false, s)
  else (false, s)

/-- `getopts`, src/getopt.c:25-27. -/
def getopts (s : St) : Option Bytes := s.option

/-! ## Specification -/

/-- An argument that asks for help: a substring of the help text. -/
def Help (a : Bytes) : Prop := a <:+: helpText

/-- `a` carries the flag: it is the flag, or (for single flags) `flag=value`. -/
def Carries (f : Bytes) (single : Bool) (a : Bytes) : Prop :=
  a = f ∨ (single = true ∧ ∃ v, a = f ++ 61 :: v ∧ 61 ∉ f)

theorem dropWhile_cons {a : Bytes} (h : 61 ∈ a) : ∃ v, a = piece0 a ++ 61 :: v ∧ (a.dropWhile (· ≠ 61)).drop 1 = v := by
  unfold piece0
  induction a with
  | nil => simp at h
  | cons x a ih =>
    by_cases hx : x = 61
    · subst hx
      exact ⟨a, by simp, by simp⟩
    · have : 61 ∈ a := by
        rcases List.mem_cons.1 h with h | h
        · exact absurd h.symm hx
        · exact h
      obtain ⟨v, h1, h2⟩ := ih this
      refine ⟨v, ?_, ?_⟩
      · rw [List.takeWhile_cons_of_pos (by simpa using hx), List.cons_append, ← h1]
      · rw [List.dropWhile_cons_of_pos (by simpa using hx)]; exact h2

theorem piece0_append {f v : Bytes} (h : 61 ∉ f) : piece0 (f ++ 61 :: v) = f := by
  unfold piece0
  rw [List.takeWhile_append_of_pos]
  · simp
  · intro x hx
    simp only [decide_eq_true_eq]
    rintro rfl
    exact h hx

theorem not_mem_piece0 (a : Bytes) : 61 ∉ piece0 a := by
  intro h
  have := List.mem_takeWhile_imp h
  simp at this

theorem carries_iff (f : Bytes) (single : Bool) (a : Bytes) :
    (a = f ∨ ((single && a.contains 61) = true ∧ piece0 a = f)) ↔ Carries f single a := by
  unfold Carries
  constructor
  · rintro (h | ⟨h1, h2⟩)
    · exact .inl h
    · simp only [Bool.and_eq_true, List.contains_iff_mem] at h1
      obtain ⟨v, hv, _⟩ := dropWhile_cons h1.2
      refine .inr ⟨h1.1, v, by rw [← h2]; exact hv, by rw [← h2]; exact not_mem_piece0 a⟩
  · rintro (h | ⟨h1, v, rfl, h2⟩)
    · exact .inl h
    · refine .inr ⟨by simp [h1], piece0_append h2⟩

/-- The first argument that carries the flag, if no argument before it asks for help. -/
def First (f : Bytes) (single : Bool) (l : List Bytes) (k : Nat) : Prop :=
  ∃ a, l[k]? = some a ∧ Carries f single a ∧ ∀ j b, j < k → l[j]? = some b → ¬ Carries f single b ∧ ¬ Help b

theorem scan_spec (f : Bytes) (single : Bool) : ∀ (l : List Bytes) (i : Nat),
    (∀ r, scan f single i l = some r → ∃ k a, First f single l k ∧ l[k]? = some a ∧
      r = if single && a.contains 61 then (i + k, some (piece1 a)) else if single then (i + k, some a) else (i + k + 1, l[k + 1]?)) ∧
    (scan f single i l = none → ∀ k, ¬ First f single l k)
  | [], i => by
    refine ⟨fun r h => by simp [scan] at h, fun _ k h => ?_⟩
    obtain ⟨a, h, _⟩ := h
    simp at h
  | a :: rest, i => by
    obtain ⟨ih1, ih2⟩ := scan_spec f single rest (i + 1)
    simp only [scan]
    by_cases hc : a = f ∨ ((single && a.contains 61) = true ∧ piece0 a = f)
    · rw [if_pos hc]
      refine ⟨fun r h => ⟨0, a, ⟨a, rfl, (carries_iff f single a).1 hc, fun j b hj => by omega⟩, rfl, ?_⟩, fun h => by simp at h⟩
      simp only [Option.some.injEq] at h
      subst h
      simp only [Nat.add_zero, List.getElem?_cons_succ, Nat.zero_add]
      rw [← List.head?_eq_getElem?]
    · rw [if_neg hc]
      have hc' : ¬ Carries f single a := fun h => hc ((carries_iff f single a).2 h)
      by_cases hh : a <:+: helpText
      · rw [if_pos hh]
        refine ⟨fun r h => by simp at h, fun _ k hk => ?_⟩
        obtain ⟨b, h1, h2, h3⟩ := hk
        cases k with
        | zero => simp at h1; subst h1; exact hc' h2
        | succ k => exact (h3 0 a (by omega) rfl).2 hh
      · rw [if_neg hh]
        have hh' : ¬ Help a := fun h => hh h
        refine ⟨fun r h => ?_, fun h k hk => ?_⟩
        · obtain ⟨k, b, ⟨b', e1, e2, e3⟩, e4, e5⟩ := ih1 r h
          refine ⟨k + 1, b, ⟨b', e1, e2, fun j c hj hc => ?_⟩, e4, ?_⟩
          · cases j with
            | zero => simp at hc; subst hc; exact ⟨hc', hh'⟩
            | succ j => exact e3 j c (by omega) (by simpa using hc)
          · rw [e5]
            simp only [List.getElem?_cons_succ]
            rw [show i + 1 + k = i + (k + 1) by omega]
        · obtain ⟨b, h1, h2, h3⟩ := hk
          cases k with
          | zero => simp at h1; subst h1; exact hc' h2
          | succ k => exact ih2 h k ⟨b, by simpa using h1, h2, fun j c hj hc => h3 (j + 1) c (by omega) (by simpa using hc)⟩

/-- Claim C50, as far as it holds: a flag is found exactly if one of the arguments carries it and no argument before that one asks
for help. -/
theorem getopt_has_iff_partial (s : St) (f : Bytes) (single : Bool) (hr : s.required < s.argv.length) :
    (has (some f) single s).1 = true ↔ ∃ k, First f single (s.argv.drop s.index) k := by
  obtain ⟨h1, h2⟩ := scan_spec f single (s.argv.drop s.index) s.index
  unfold has
  rw [if_pos hr]
  simp only
  cases h : scan f single s.index (s.argv.drop s.index) with
  | none => simp only [Bool.false_eq_true, false_iff, not_exists]; exact h2 h
  | some r =>
    obtain ⟨k, a, hk, _⟩ := h1 r h
    simp only [true_iff]
    exact ⟨k, hk⟩

theorem First.unique {f : Bytes} {single : Bool} {l : List Bytes} {k k' : Nat} (h : First f single l k)
    (h' : First f single l k') : k = k' := by
  obtain ⟨a, h1, h2, h3⟩ := h
  obtain ⟨a', h1', h2', h3'⟩ := h'
  by_contra hne
  rcases Nat.lt_or_gt_of_ne hne with hlt | hlt
  · exact (h3' k a hlt h1).1 h2
  · exact (h3 k' a' hlt h1').1 h2'

/-- Claim C50, the value: for a flag with a separate value it is the next argument; a single flag gives the argument itself, or
the text between the first and the second `=`. -/
theorem getopt_value_partial (s : St) (f : Bytes) (single : Bool) (hr : s.required < s.argv.length) (k : Nat)
    (hk : First f single (s.argv.drop s.index) k) :
    (single = false → getopts (has (some f) single s).2 = s.argv[s.index + k + 1]?) ∧
    (single = true → s.argv[s.index + k]? = some f → 61 ∉ f → getopts (has (some f) single s).2 = some f) ∧
    (∀ v, single = true → s.argv[s.index + k]? = some (f ++ 61 :: v) → 61 ∉ v → getopts (has (some f) single s).2 = some v) := by
  obtain ⟨h1, h2⟩ := scan_spec f single (s.argv.drop s.index) s.index
  have hh : ∃ a, s.argv[s.index + k]? = some a ∧ getopts (has (some f) single s).2 =
      (if single && a.contains 61 then some (piece1 a) else if single then some a else s.argv[s.index + k + 1]?) := by
    unfold has
    rw [if_pos hr]
    simp only
    cases h : scan f single s.index (s.argv.drop s.index) with
    | none => exact absurd hk (h2 h k)
    | some r =>
      obtain ⟨k', a, hk', ha, rfl⟩ := h1 r h
      obtain rfl := hk.unique hk'
      rw [List.getElem?_drop] at ha
      refine ⟨a, ha, ?_⟩
      unfold getopts
      by_cases hs : (single && a.contains 61) = true
      · simp only [if_pos hs]
      · by_cases hs' : single = true
        · simp only [if_neg hs, if_pos hs']
        · simp only [if_neg hs, if_neg hs', List.getElem?_drop]
          rfl
  obtain ⟨a, ha, hv⟩ := hh
  refine ⟨fun hs => ?_, fun hs hf hn => ?_, fun v hs hf hn => ?_⟩
  · rw [hv, hs]; rfl
  · rw [ha] at hf
    obtain rfl := Option.some.inj hf
    rw [hv, hs]
    have : a.contains 61 = false := by simpa using hn
    rw [this]
    rfl
  · rw [ha] at hf
    obtain rfl := Option.some.inj hf
    rw [hv, hs, if_pos (by simp)]
    have hfn : 61 ∉ f := by
      obtain ⟨b, hb1, hb2, _⟩ := hk
      rw [List.getElem?_drop, ha] at hb1
      obtain rfl := Option.some.inj hb1
      rcases hb2 with hb2 | ⟨_, w, hw, hf⟩
      · have := congrArg List.length hb2
        simp at this
      · exact hf
    congr 1
    unfold piece1
    rw [List.dropWhile_append_of_pos (by intro x hx; simp only [decide_eq_true_eq]; rintro rfl; exact hfn hx)]
    simp only [ne_eq, decide_not, List.dropWhile_cons, decide_true, Bool.not_true, Bool.false_eq_true, if_false, List.drop_one,
      List.tail_cons]
    rw [List.takeWhile_eq_self_iff.2]
    intro x hx
    simp only [Bool.not_eq_true', decide_eq_false_iff_not]
    rintro rfl
    exact hn hx

/-- A command line `prog x -n 5 --out=a`. -/
def demo : St :=
  { argv := ["prog".toUTF8.toList, "x".toUTF8.toList, "-n".toUTF8.toList, "5".toUTF8.toList, "--out=a".toUTF8.toList],
    index := 1, required := 1, ordered := false, option := none }

example : (has (some "-n".toUTF8.toList) false demo).1 = true ∧ getopts (has (some "-n".toUTF8.toList) false demo).2 = some [53] ∧
    (has (some "--out".toUTF8.toList) true demo).1 = true ∧ getopts (has (some "--out".toUTF8.toList) true demo).2 = some [97] := by
  decide +kernel

/-- Against C50: an argument that is any substring of the help text (such as `e` or the empty string) hides every flag after it. -/
theorem help_word_hides_flag (s : St) (a f : Bytes) (rest : List Bytes) (single : Bool) (ha : Help a) (hf : ¬ Carries f single a)
    (hs : s.argv.drop s.index = a :: rest) : (has (some f) single s).1 = false := by
  unfold has
  split
  · simp only [hs]
    have : scan f single s.index (a :: rest) = none := by
      simp only [scan]
      rw [if_neg (fun h => hf ((carries_iff f single a).1 h))]
      exact if_pos ha
    rw [this]
  · rfl

example : Help [101] ∧ ¬ Carries "-n".toUTF8.toList false [101] := by
  refine ⟨by unfold Help; decide +kernel, ?_⟩
  rintro (h | ⟨h, _⟩)
  · revert h; decide +kernel
  · simp at h

/-- Against C50: a flag that is the last argument is found, with NULL for its value. -/
theorem last_flag_has_null_value (s : St) (f : Bytes) (hr : s.required < s.argv.length)
    (hs : s.argv.drop s.index = [f]) :
    (has (some f) false s).1 = true ∧ getopts (has (some f) false s).2 = none := by
  unfold has
  rw [if_pos hr]
  simp [hs, scan, getopts]

/-- Against C50: the value of a single flag is cut at the second `=`. -/
theorem value_cut_at_second_equals (s : St) (f v w : Bytes) (hr : s.required < s.argv.length) (hf : 61 ∉ f) (hv : 61 ∉ v)
    (hs : s.argv.drop s.index = [f ++ 61 :: (v ++ 61 :: w)]) :
    getopts (has (some f) true s).2 = some v := by
  unfold has
  rw [if_pos hr]
  have hp : piece1 (f ++ 61 :: (v ++ 61 :: w)) = v := by
    unfold piece1
    rw [List.dropWhile_append_of_pos (by intro x hx; simp only [decide_eq_true_eq]; rintro rfl; exact hf hx)]
    simp only [ne_eq, decide_not, List.dropWhile_cons, decide_true, Bool.not_true, Bool.false_eq_true, if_false, List.drop_one,
      List.tail_cons]
    rw [List.takeWhile_append_of_pos (by intro x hx; simp only [Bool.not_eq_true', decide_eq_false_iff_not]; rintro rfl; exact hv hx)]
    simp
  simp [hs, scan, getopts, piece0_append hf, hp]

end Verif.Io.Getopt
