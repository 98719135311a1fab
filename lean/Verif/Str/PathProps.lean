import Verif.Str.PathLemmas

/-!
# Properties of `pathinfo`

Every path is empty, or slashes only, or one name and slashes, or it has a last name with a slash before it; the
theorems below treat these cases one by one, for all names and all numbers of slashes.
-/

namespace Verif.Str

/-- Specification: what follows the last `c` of a text (all of it if there is no `c`). -/
def afterLast (c : UInt8) (s : Bytes) : Bytes := (s.reverse.takeWhile (· ≠ c)).reverse

/-- Specification: the extension of a file name, if it has a dot. -/
def extOf (name : Bytes) : Option Bytes := if 0x2e ∈ name then some (afterLast 0x2e name) else none

/-- Specification: `n` slashes. -/
def slashes (n : Nat) : Bytes := List.replicate n 0x2f

theorem afterLast_spec (c : UInt8) (s : Bytes) :
    ∃ x, s = x ++ afterLast c s ∧ c ∉ afterLast c s ∧ (x = [] ∨ x.getLast? = some c) ∧ (c ∈ s → x.getLast? = some c) := by
  refine ⟨(s.reverse.dropWhile (· ≠ c)).reverse, ?_, ?_, ?_⟩
  · have := List.takeWhile_append_dropWhile (p := fun x : UInt8 => decide (x ≠ c)) (l := s.reverse)
    have h2 := congrArg List.reverse this
    rw [List.reverse_append, List.reverse_reverse] at h2
    exact h2.symm
  · unfold afterLast
    rw [List.mem_reverse]
    intro h
    have h2 := List.all_takeWhile (p := fun x : UInt8 => decide (x ≠ c)) (l := s.reverse)
    rw [List.all_eq_true] at h2
    simpa using h2 c h
  · have key : s.reverse.dropWhile (· ≠ c) ≠ [] → ((s.reverse.dropWhile (· ≠ c)).reverse).getLast? = some c := by
      intro h
      rw [List.getLast?_reverse]
      have h3 := List.head_dropWhile_not (fun x : UInt8 => decide (x ≠ c)) (l := s.reverse) h
      rw [List.head?_eq_some_head h]
      simp only [decide_eq_false_iff_not, not_not] at h3
      rw [h3]
    refine ⟨?_, ?_⟩
    · by_cases h : s.reverse.dropWhile (· ≠ c) = []
      · left; rw [h]; rfl
      · exact Or.inr (key h)
    · intro hc
      apply key
      intro h
      have h2 := List.takeWhile_append_dropWhile (p := fun x : UInt8 => decide (x ≠ c)) (l := s.reverse)
      rw [h, List.append_nil] at h2
      have h3 := List.all_takeWhile (p := fun x : UInt8 => decide (x ≠ c)) (l := s.reverse)
      rw [h2, List.all_eq_true] at h3
      simpa using h3 c (by simpa using hc)

theorem extension_spec (pre name z : Bytes) (h1 : NulFree name) :
    extension (pre ++ name ++ 0 :: z) (some pre.length) = .ok (extOf name) := by
  unfold extension extOf
  have h2 : strAt (pre ++ name ++ 0 :: z) pre.length = .ok name := strAt_mid h1
  simp only [Option.getD_some, h2, Res.ok_bind]
  obtain ⟨x, hx, hd, -, hl⟩ := afterLast_spec 0x2e name
  by_cases hm : (0x2e : UInt8) ∈ name
  · rw [if_pos hm]
    rcases List.eq_nil_or_concat x with rfl | ⟨y, a, rfl⟩
    · simp at hl; exact absurd hm hl
    · have ha : a = 0x2e := by simpa using hl hm
      subst ha
      generalize hE : afterLast 0x2e name = e at *
      subst hx
      have h3 := memrchr_some 0x2e pre y e (0 :: z) hd
      simp only [List.concat_eq_append] at *
      rw [show pre ++ (y ++ [0x2e] ++ e) ++ 0 :: z = pre ++ y ++ 0x2e :: (e ++ 0 :: z) by simp,
        show List.length (y ++ [0x2e] ++ e) = y.length + 1 + e.length by simp; omega, h3]
      simp only [Res.ok_bind]
      have h4 : strAt (pre ++ y ++ 0x2e :: (e ++ 0 :: z)) (pre.length + y.length + 1) = .ok e :=
        strAt_mid' (pre := pre ++ y ++ [0x2e]) (w := e) (z := z) h1.right (by simp) (by simp; omega)
      rw [h4]
      rfl
  · rw [if_neg hm, memrchr_none 0x2e pre name (0 :: z) hm]
    rfl

theorem copy_path (s z : Bytes) : ∃ z', memcpy (calloc (alignUp2 (s.length + 1))) 0 (s ++ 0 :: z) 0 s.length =
    .ok (s ++ 0 :: z') := by
  have h := le_alignUp2 (s.length + 1)
  obtain ⟨m, hm⟩ : ∃ m, alignUp2 (s.length + 1) = s.length + (m + 1) := ⟨alignUp2 (s.length + 1) - (s.length + 1), by omega⟩
  refine ⟨List.replicate m 0, ?_⟩
  rw [memcpy_ok (by simp) (by simp [calloc]; omega), hm]
  simp [calloc, List.replicate_succ]

/-- The directory part: `basename` of what `dirname` left. -/
theorem base_of (d z : Bytes) (hd : d ≠ []) (hn : NulFree d) (he : NoSlashEnd d) :
    basename (d ++ 0 :: z) = .ok (d ++ 0 :: z, some (d.length - (afterLast sl d).length)) ∧
    strAt (d ++ 0 :: z) (d.length - (afterLast sl d).length) = .ok (afterLast sl d) := by
  obtain ⟨x, hx, hm, hl, -⟩ := afterLast_spec sl d
  generalize afterLast sl d = b at *
  subst hx
  have hb : b ≠ [] := by
    rintro rfl
    rw [List.append_nil] at he hd
    rcases hl with h | h
    · exact hd h
    · exact he h
  have h1 := basename_name x b hl hb hm hn.left hn.right 0 z
  simp only [List.replicate_zero, List.append_nil, if_true] at h1
  rw [show (x ++ b).length - b.length = x.length by simp]
  exact ⟨h1, strAt_mid hn.right⟩

theorem base_root (k : Nat) (z : Bytes) : ∃ i, basename (rootOf k ++ 0 :: z) = .ok (rootOf k ++ 0 :: z, some i) ∧
    strAt (rootOf k ++ 0 :: z) i = .ok [sl] := by
  unfold rootOf
  split
  · exact ⟨1, basename_slashes 1 z, strAt_mid' (pre := [sl]) (w := [sl]) (z := z) (by decide) rfl rfl⟩
  · exact ⟨0, basename_slashes 0 z, strAt_mid' (pre := []) (w := [sl]) (z := z) (by decide) rfl rfl⟩

theorem nulFree_slashes (k : Nat) : NulFree (slashes k) := nulFree_rep k

/-- The caller's buffer after the call, when the path ends with a name and `j` slashes. -/
def cutArg (p : Bytes) (j : Nat) : Bytes := p ++ (if j = 0 then [] else 0 :: slashes (j - 1)) ++ [0]

/-- Everything behind the last name, when there is a slash before it. -/
theorem pathinfo_slash (dir name : Bytes) (k j : Nat) (hd : NoSlashEnd dir) (hdn : NulFree dir)
    (hn : name ≠ []) (hs : sl ∉ name) (hnn : NulFree name) :
    pathinfo (cstr (dir ++ slashes (k + 1) ++ name ++ slashes j)) = .ok
      ⟨if dir = [] then rootOf k else dir, if dir = [] then [sl] else afterLast sl dir, name, extOf name,
        cutArg (dir ++ slashes (k + 1) ++ name) j⟩ := by
  have hfree : NulFree (dir ++ slashes (k + 1) ++ name ++ slashes j) :=
    ((hdn.append (nulFree_slashes _)).append hnn).append (nulFree_slashes _)
  unfold pathinfo cstr
  rw [strAt_z hfree]
  simp only [Res.ok_bind]
  obtain ⟨z, hz⟩ := copy_path (dir ++ slashes (k + 1) ++ name ++ slashes j) []
  rw [hz]
  simp only [Res.ok_bind]
  have hl := lastSlash_name (dir ++ slashes k) name hn hs (hdn.append (nulFree_slashes _)) hnn j z
  have e1 : dir ++ slashes k ++ sl :: name ++ List.replicate j sl ++ 0 :: z =
      dir ++ slashes (k + 1) ++ name ++ slashes j ++ 0 :: z := by
    have : slashes (k + 1) = slashes k ++ [sl] := List.replicate_succ'
    rw [this]; simp [slashes, sl]
  rw [e1] at hl
  obtain ⟨n0, nt, rfl⟩ : ∃ n0 nt, name = n0 :: nt := by
    cases name with
    | nil => exact absurd rfl hn
    | cons n0 nt => exact ⟨_, _, rfl⟩
  have e2 : dir ++ slashes (k + 1) ++ n0 :: nt ++ slashes j ++ 0 :: z =
      dir ++ List.replicate (k + 1) sl ++ n0 :: (nt ++ slashes j ++ 0 :: z) := by
    simp [slashes, sl]
  rw [e2] at hl ⊢
  obtain ⟨z2, hz2⟩ := dirname_cut dir hd k n0 _ (by rw [hl]; simp [slashes])
  rw [hz2]
  simp only [Res.ok_bind]
  have hfile := basename_name (dir ++ slashes (k + 1)) (n0 :: nt)
    (Or.inr (by rw [show slashes (k + 1) = slashes k ++ [sl] from List.replicate_succ']; simp)) hn hs
    (hdn.append (nulFree_slashes _)) hnn j []
  have hfile' : basename (dir ++ slashes (k + 1) ++ n0 :: nt ++ slashes j ++ [0]) =
    .ok (cutArg (dir ++ slashes (k + 1) ++ n0 :: nt) j, some (dir ++ slashes (k + 1)).length) := hfile
  have hcut : ∃ y, cutArg (dir ++ slashes (k + 1) ++ n0 :: nt) j = dir ++ slashes (k + 1) ++ n0 :: nt ++ 0 :: y := by
    unfold cutArg
    split
    · exact ⟨[], by simp⟩
    · exact ⟨slashes (j - 1) ++ [0], by simp⟩
  obtain ⟨y, hy⟩ := hcut
  by_cases hde : dir = []
  · subst hde
    rw [if_pos rfl, if_pos rfl]
    obtain ⟨i, hb1, hb2⟩ := base_root k z2
    rw [hb1]
    simp only [Res.ok_bind, hfile']
    rw [hy, extension_spec _ _ _ hnn]
    have hr : strAt (rootOf k ++ 0 :: z2) 0 = .ok (rootOf k) := strAt_z (by unfold rootOf; split <;> decide)
    simp only [Res.ok_bind, baseStr, hb2, hr, strAt_mid hnn]
  · rw [if_neg hde, if_neg hde]
    obtain ⟨hb1, hb2⟩ := base_of dir z2 hde hdn hd
    rw [hb1]
    simp only [Res.ok_bind, hfile']
    rw [hy, extension_spec _ _ _ hnn]
    simp only [Res.ok_bind, baseStr, hb2, strAt_z hdn, strAt_mid hnn]

/-- C89, the part that holds: for a path of a directory, slashes, a name and perhaps trailing slashes, `pathinfo`
gives the directory, its last name, the file name and the text after the last dot of it.  Missing: paths without a
slash before the last name (`pathinfo_plain_name`), and leaving the argument as it is (`pathinfo_cuts_argument`). -/
theorem pathinfo_parts_partial (dir name : Bytes) (k j : Nat) (hdn : NulFree dir) (hnn : NulFree name)
    (hde : dir ≠ []) (hd : dir.getLast? ≠ some 0x2f) (hn : name ≠ []) (hs : 0x2f ∉ name) :
    ∃ i, pathinfo (cstr (dir ++ slashes (k + 1) ++ name ++ slashes j)) = .ok i ∧
      i.dirname = dir ∧ i.base = afterLast 0x2f dir ∧ i.filename = name ∧ i.extension = extOf name := by
  refine ⟨_, pathinfo_slash dir name k j hd hdn hn hs hnn, ?_⟩
  simp [hde, sl]

-- /usr/lib/a.gz
example : pathinfo (cstr [47, 117, 115, 114, 47, 108, 105, 98, 47, 97, 46, 103, 122]) = .ok ⟨[47, 117, 115, 114, 47, 108, 105, 98], [108, 105, 98], [97, 46, 103, 122], some [103, 122],
    [47, 117, 115, 114, 47, 108, 105, 98, 47, 97, 46, 103, 122, 0]⟩ := by decide +kernel

/-- C89, names in the root directory: the directory is `/` (or `//` for exactly two slashes, as POSIX allows). -/
theorem pathinfo_root (name : Bytes) (k j : Nat) (hnn : NulFree name) (hn : name ≠ []) (hs : 0x2f ∉ name) :
    ∃ i, pathinfo (cstr (slashes (k + 1) ++ name ++ slashes j)) = .ok i ∧
      i.dirname = slashes (if k = 1 then 2 else 1) ∧ i.base = [0x2f] ∧ i.filename = name ∧ i.extension = extOf name := by
  have := pathinfo_slash [] name k j (by simp [NoSlashEnd]) (by intro b hb; simp at hb) hn hs hnn
  simp only [List.nil_append, if_true] at this
  refine ⟨_, this, ?_, rfl, rfl, rfl⟩
  unfold rootOf slashes sl
  split <;> rfl

-- /etc
example : pathinfo (cstr [47, 101, 116, 99]) = .ok ⟨[47], [47], [101, 116, 99], none,
    [47, 101, 116, 99, 0]⟩ := by decide +kernel

/-- C89 fails: the directory of a plain name is reported as the name itself, whatever the name, although it is
the current directory. -/
theorem pathinfo_plain_name (name : Bytes) (j : Nat) (hnn : NulFree name) (hn : name ≠ []) (hs : 0x2f ∉ name) :
    ∃ i, pathinfo (cstr (name ++ slashes j)) = .ok i ∧ i.dirname = name ∧ i.base = name ∧
      i.filename = name ∧ i.extension = extOf name := by
  have hfree : NulFree (name ++ slashes j) := hnn.append (nulFree_slashes _)
  unfold pathinfo cstr
  rw [strAt_z hfree]
  simp only [Res.ok_bind]
  obtain ⟨z, hz⟩ := copy_path (name ++ slashes j) []
  rw [hz]
  simp only [Res.ok_bind]
  have hl : lastSlash (name ++ slashes j ++ 0 :: z) = .ok none := lastSlash_single name hn hs hnn j z
  have hdir : dirname (name ++ slashes j ++ 0 :: z) = .ok (name ++ slashes j ++ 0 :: z) := by
    unfold dirname; rw [hl]; rfl
  rw [hdir]
  simp only [Res.ok_bind]
  have hb : ∀ z, ∃ y, basename (name ++ slashes j ++ 0 :: z) = .ok (name ++ 0 :: y, some 0) := by
    intro z
    have := basename_name [] name (Or.inl rfl) hn hs (by intro b hb; simp at hb) hnn j z
    simp only [List.nil_append, List.length_nil] at this
    by_cases hj : j = 0
    · exact ⟨z, by rw [show slashes j = List.replicate j sl from rfl, this, if_pos hj]; simp⟩
    · exact ⟨List.replicate (j - 1) sl ++ 0 :: z, by
        rw [show slashes j = List.replicate j sl from rfl, this, if_neg hj]; simp⟩
  obtain ⟨y1, h1⟩ := hb z
  obtain ⟨y2, h2⟩ := hb []
  rw [h1]
  simp only [Res.ok_bind]
  rw [h2]
  simp only [Res.ok_bind]
  have he := extension_spec [] name y2 hnn
  simp only [List.nil_append, List.length_nil] at he
  rw [he]
  simp only [Res.ok_bind, baseStr, strAt_z hnn]
  exact ⟨_, rfl, rfl, rfl, rfl, rfl⟩

-- foo.c
example : pathinfo (cstr [102, 111, 111, 46, 99]) = .ok ⟨[102, 111, 111, 46, 99], [102, 111, 111, 46, 99], [102, 111, 111, 46, 99], some [99],
    [102, 111, 111, 46, 99, 0]⟩ := by decide +kernel

/-- C89, the two remaining kinds of path: slashes only, and the empty path (whose directory is reported as empty
instead of the current directory). -/
theorem pathinfo_no_name (k : Nat) :
    (∃ i, pathinfo (cstr (slashes (k + 1))) = .ok i ∧ i.dirname = slashes (if k = 1 then 2 else 1) ∧
      i.base = [0x2f] ∧ i.filename = [0x2f] ∧ i.extension = none ∧ i.arg = cstr (slashes (k + 1))) ∧
    (∃ i, pathinfo (cstr []) = .ok i ∧ i.dirname = [] ∧ i.base = [0x2e] ∧ i.filename = [0x2e] ∧
      i.extension = some []) := by
  refine ⟨?_, ⟨_, rfl, by decide⟩⟩
  unfold pathinfo cstr
  rw [strAt_z (nulFree_slashes _)]
  simp only [Res.ok_bind]
  obtain ⟨z, hz⟩ := copy_path (slashes (k + 1)) []
  rw [hz]
  simp only [Res.ok_bind]
  obtain ⟨z2, hz2⟩ := dirname_cut [] (by simp [NoSlashEnd]) k 0 z (by
    simpa using lastSlash_slashes k z)
  simp only [List.nil_append, if_true] at hz2
  rw [show slashes (k + 1) = List.replicate (k + 1) sl from rfl, hz2]
  simp only [Res.ok_bind]
  obtain ⟨i, hb1, hb2⟩ := base_root k z2
  rw [hb1]
  simp only [Res.ok_bind, basename_slashes]
  have e : List.replicate (k + 1) sl ++ [0] = List.replicate k sl ++ [sl] ++ 0 :: [] := by rw [List.replicate_succ']
  have he := extension_spec (List.replicate k sl) [sl] [] (by decide)
  rw [List.length_replicate, ← e] at he
  rw [he]
  have hr : strAt (rootOf k ++ 0 :: z2) 0 = .ok (rootOf k) := strAt_z (by unfold rootOf; split <;> decide)
  have hf : strAt (List.replicate (k + 1) sl ++ [0]) k = .ok [sl] :=
    strAt_mid' (pre := List.replicate k sl) (w := [sl]) (z := []) (by decide) e (by simp)
  simp only [Res.ok_bind, baseStr, hb2, hr, hf]
  refine ⟨_, rfl, ?_, rfl, rfl, rfl, rfl⟩
  unfold rootOf slashes sl
  split <;> rfl

-- ///
example : pathinfo (cstr [47, 47, 47]) = .ok ⟨[47], [47], [47], none,
    [47, 47, 47, 0]⟩ := by decide +kernel

/-- C89 fails: if the path ends with a slash, the caller's string is cut off after the last name. -/
theorem pathinfo_cuts_argument (dir name : Bytes) (k j : Nat) (hdn : NulFree dir) (hnn : NulFree name)
    (hd : dir.getLast? ≠ some 0x2f) (hn : name ≠ []) (hs : 0x2f ∉ name) :
    ∃ i, pathinfo (cstr (dir ++ slashes (k + 1) ++ name ++ slashes j)) = .ok i ∧
      i.arg.length = (cstr (dir ++ slashes (k + 1) ++ name ++ slashes j)).length ∧
      strAt i.arg 0 = .ok (dir ++ slashes (k + 1) ++ name) ∧
      (i.arg = cstr (dir ++ slashes (k + 1) ++ name ++ slashes j) ↔ j = 0) := by
  refine ⟨_, pathinfo_slash dir name k j hd hdn hn hs hnn, ?_, ?_, ?_⟩
  · unfold cutArg cstr
    by_cases hj : j = 0
    · simp [hj, slashes]
    · simp [hj, slashes]; omega
  · have hfree : NulFree (dir ++ slashes (k + 1) ++ name) := (hdn.append (nulFree_slashes _)).append hnn
    unfold cutArg
    by_cases hj : j = 0
    · rw [if_pos hj, List.append_nil]; exact strAt_z hfree
    · rw [if_neg hj, List.append_assoc, List.cons_append]; exact strAt_z hfree
  · unfold cutArg cstr
    cases j with
    | zero => simp [slashes]
    | succ j => simp [slashes, List.replicate_succ]

-- a/b/
example : pathinfo (cstr [97, 47, 98, 47]) = .ok ⟨[97], [97], [98], none,
    [97, 47, 98, 0, 0]⟩ := by decide +kernel

end Verif.Str
