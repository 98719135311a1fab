import Verif.Str.SplitLemmas

/-!
# Properties of splitting and replacing: C11, C12, C13
-/

namespace Verif.Str

/-- C11: for every non-empty C string and every non-empty delimiter, `str_split_ex` succeeds without touching
memory outside its block; the pointer array holds exactly `count` pointers followed by NULL, and the i-th pointer is
the C string of the i-th piece of the leftmost non-overlapping split. -/
theorem str_split_pieces (s d : Bytes) (hs : NulFree s) (hd : NulFree d) (hne : s ≠ []) (hdne : d ≠ []) :
    ∃ ws out, Split d s ws ∧ strSplitEx (cstr s) (cstr d) = .ok (some out) ∧
      out.count = ws.length ∧ out.ptrs.length = ws.length + 1 ∧ out.ptrs[ws.length]? = some none ∧
      ∀ i (h : i < ws.length), ∃ p, out.ptrs[i]? = some (some p) ∧ strAt out.text p = .ok ws[i] := by
  obtain ⟨ws, hws⟩ := Split.exists d hdne s
  have hpos := List.length_pos_iff.2 hws.ne_nil
  have hsl : s.length ≠ 0 := by simpa using hne
  have hcount := strCount_spec hdne hws [] [] (s.length + 1) 1 hs (by omega)
  rw [show 1 + (ws.length - 1) = ws.length by omega] at hcount
  simp only [List.nil_append, List.length_nil] at hcount
  obtain ⟨z, hz⟩ := copy_into_calloc (s := s) (src := cstr s)
    (n := alignUp2 ((ws.length + 1) * 8 + s.length + 1) - (ws.length + 1) * 8)
    (by have := le_alignUp2 ((ws.length + 1) * 8 + s.length + 1); omega) (by simp [cstr]) (by simp [cstr])
  obtain ⟨rest', h1, h2⟩ := strCut_spec hdne hws [] z (s.length + 1) (ws.length + 1) [some 0] hs (by omega)
    (by simp; omega)
  simp only [List.nil_append, List.length_nil] at h1 h2 hz
  -- the text and pointers before the final NULL
  have hmid : ∃ text, (if ws.length > 1 then strCut d (ws.length + 1) (s.length + 1) (s ++ 0 :: z) 0 [some 0]
        else .ok (s ++ 0 :: z, [some 0])) = .ok (text, (starts d.length 0 ws).map some) ∧
        Reads text (starts d.length 0 ws) ws := by
    obtain ⟨w, ws', rfl⟩ := List.exists_cons_of_ne_nil hws.ne_nil
    by_cases hw : (w :: ws').length > 1
    · rw [if_pos hw]
      exact ⟨_, by rw [h1]; simp [starts], h2⟩
    · rw [if_neg hw]
      have : ws' = [] := by
        cases ws' with
        | nil => rfl
        | cons => simp at hw
      subst this
      refine ⟨s ++ 0 :: z, by simp [starts], ?_⟩
      have : w = s := by simpa [List.intercalate] using hws.join
      subst this
      exact ⟨strAt_mid (pre := []) hs, trivial⟩
  obtain ⟨text, hm, hread⟩ := hmid
  refine ⟨ws, { ptrs := (starts d.length 0 ws).map some ++ [none], text, count := ws.length }, hws, ?_, rfl,
    by simp, by simp, ?_⟩
  · unfold strSplitEx
    simp only [strAt_cstr hs (Nat.zero_le _), strAt_cstr hd (Nat.zero_le _), List.drop_zero, Res.ok_bind]
    rw [if_neg hsl]
    have hc2 : strCount (cstr s) d (s.length + 1) 0 1 = .ok ws.length := hcount
    simp only [hc2, Res.ok_bind, hz]
    rw [show pushPtr (ws.length + 1) [] (some 0) = .ok [some 0] by simp [pushPtr]]
    simp only [Res.ok_bind]
    rw [hm]
    simp only [Res.ok_bind]
    rw [show pushPtr (ws.length + 1) ((starts d.length 0 ws).map some) none =
      .ok ((starts d.length 0 ws).map some ++ [none]) by simp [pushPtr]]
    rfl
  · intro i hi
    obtain ⟨p, h3, h4⟩ := hread.get.2 i hi
    refine ⟨p, ?_, h4⟩
    simp only
    rw [List.getElem?_append_left (by simpa using hi), List.getElem?_map, h3]
    rfl

/-- C11, as promised to users: the words joined with the delimiter give back the text and no word contains the
delimiter. -/
theorem str_split_round_trip (s d : Bytes) (hs : NulFree s) (hd : NulFree d) (hne : s ≠ []) (hdne : d ≠ []) :
    ∃ (ws : List Bytes) (out : SplitOut), strSplitEx (cstr s) (cstr d) = .ok (some out) ∧ out.count = ws.length ∧
      (∀ i (h : i < ws.length), ∃ p, out.ptrs[i]? = some (some p) ∧ strAt out.text p = .ok ws[i]) ∧
      d.intercalate ws = s ∧ ∀ w ∈ ws, ¬ d <:+: w := by
  obtain ⟨ws, out, h1, h2, h3, _, _, h6⟩ := str_split_pieces s d hs hd hne hdne
  exact ⟨ws, out, h2, h3, h6, h1.join, h1.no_delim hdne⟩

example : strSplitEx (cstr [97, 44, 98, 44]) (cstr [44]) =
    .ok (some { ptrs := [some 0, some 2, some 4, none], text := [97, 0, 98, 0, 0, 0], count := 3 }) ∧
    NulFree [97, 44, 98, 44] := by decide +kernel

/-- C11 on raw memory: `mem_split_ex` gives the same pieces for arbitrary bytes (including NUL). -/
theorem mem_split_pieces (s d : Bytes) (hd : NulFree d) (hne : s ≠ []) (hdne : d ≠ []) :
    ∃ ws out, Split d s ws ∧ memSplitEx s s.length (cstr d) = .ok (some out) ∧
      out.count = ws.length ∧ out.ptrs.length = ws.length + 1 ∧ out.ptrs[ws.length]? = some none ∧
      ∀ i (h : i < ws.length), ∃ p, out.ptrs[i]? = some (some p) ∧ p + ws[i].length ≤ out.text.length ∧
        (out.text.drop p).take ws[i].length = ws[i] := by
  obtain ⟨ws, hws⟩ := Split.exists d hdne s
  have hpos := List.length_pos_iff.2 hws.ne_nil
  have hsl : s.length ≠ 0 := by simpa using hne
  have hcount := memCount_spec hdne hws [] [] (s.length + 1) 1 (by omega)
  rw [show 1 + (ws.length - 1) = ws.length by omega] at hcount
  simp only [List.nil_append, List.length_nil, List.append_nil] at hcount
  obtain ⟨z, hz⟩ := copy_into_calloc (s := s) (src := s)
    (n := alignUp2 ((ws.length + 1) * 8 + s.length + 1) - (ws.length + 1) * 8)
    (by have := le_alignUp2 ((ws.length + 1) * 8 + s.length + 1); omega) (by simp) (by simp)
  obtain ⟨rest', h0, h1, h2⟩ := memCut_spec hdne hws [] (0 :: z) (s.length + 1) (ws.length + 1) [some 0] (by omega)
    (by simp; omega)
  simp only [List.nil_append, List.length_nil] at h1 h2 hz
  have hmid : ∃ text, (if ws.length > 1 then memCut d (ws.length + 1) (s.length + 1) (s ++ 0 :: z) 0 s.length [some 0]
        else .ok (s ++ 0 :: z, [some 0])) = .ok (text, (starts d.length 0 ws).map some) ∧
        Slices text (starts d.length 0 ws) ws := by
    obtain ⟨w, ws', rfl⟩ := List.exists_cons_of_ne_nil hws.ne_nil
    by_cases hw : (w :: ws').length > 1
    · rw [if_pos hw]
      exact ⟨_, by rw [h1]; simp [starts], h2⟩
    · rw [if_neg hw]
      have : ws' = [] := by
        cases ws' with
        | nil => rfl
        | cons => simp at hw
      subst this
      refine ⟨s ++ 0 :: z, by simp [starts], ?_⟩
      have : w = s := by simpa [List.intercalate] using hws.join
      subst this
      exact ⟨⟨by simp, by simp⟩, trivial⟩
  obtain ⟨text, hm, hread⟩ := hmid
  refine ⟨ws, { ptrs := (starts d.length 0 ws).map some ++ [none], text, count := ws.length }, hws, ?_, rfl,
    by simp, by simp, ?_⟩
  · unfold memSplitEx
    simp only [strAt_cstr hd (Nat.zero_le _), List.drop_zero, Res.ok_bind]
    rw [if_neg hsl]
    simp only [hcount, Res.ok_bind, hz]
    rw [show pushPtr (ws.length + 1) [] (some 0) = .ok [some 0] by simp [pushPtr]]
    simp only [Res.ok_bind]
    rw [hm]
    simp only [Res.ok_bind]
    rw [show pushPtr (ws.length + 1) ((starts d.length 0 ws).map some) none =
      .ok ((starts d.length 0 ws).map some ++ [none]) by simp [pushPtr]]
    rfl
  · intro i hi
    obtain ⟨p, h3, h4⟩ := hread.get.2 i hi
    refine ⟨p, ?_, h4⟩
    simp only
    rw [List.getElem?_append_left (by simpa using hi), List.getElem?_map, h3]
    rfl

/-- C12, proved part: when the delimiter occurs, `str_explode` returns exactly the pieces of the split, in order.
Missing from the full claim: texts without the delimiter (see `str_explode_no_delim_empty`). -/
theorem str_explode_pieces_partial (s d : Bytes) (hs : NulFree s) (hd : NulFree d) (hdne : d ≠ []) (hocc : d <:+: s) :
    ∃ ws text arr, Split d s ws ∧ strExplode (cstr s) (cstr d) = .ok (some (text, arr)) ∧ arr.length = ws.length ∧
      ∀ i (h : i < ws.length), ∃ p, arr[i]? = some p ∧ strAt text p = .ok ws[i] := by
  obtain ⟨ws, hws⟩ := Split.exists d hdne s
  have hone : 1 < ws.length := by
    cases hws with
    | last _ h0 => exact absurd hocc (not_infix_of_no_occ h0)
    | more w r ws _ h => have := List.length_pos_iff.2 h.ne_nil; simp; omega
  have hsl : s.length ≠ 0 := by
    have := hocc.length_le
    have := List.length_pos_iff.2 hdne
    omega
  have hcount := strCount_spec hdne hws [] [] (s.length + 1) 0 hs (by omega)
  simp only [List.nil_append, List.length_nil, Nat.zero_add] at hcount
  obtain ⟨z, hz⟩ := copy_into_calloc (s := s) (src := cstr s)
    (n := alignUp2 ((ws.length - 1) * 8 + s.length + 1))
    (by have := le_alignUp2 ((ws.length - 1) * 8 + s.length + 1); omega) (by simp [cstr]) (by simp [cstr])
  obtain ⟨rest', h1, h2⟩ := explodeLoop_spec hdne hws [] z (s.length + 1) true [] hs (by omega)
  simp only [List.nil_append, List.length_nil, Bool.true_and, decide_eq_true_eq, hone, if_true] at h1 h2 hz
  have hst : [0] ++ (starts d.length 0 ws).tail = starts d.length 0 ws := by
    obtain ⟨w, ws', rfl⟩ := List.exists_cons_of_ne_nil hws.ne_nil
    simp [starts]
  rw [hst] at h1
  refine ⟨ws, _, _, hws, ?_, h2.get.1, fun i hi => h2.get.2 i hi⟩
  unfold strExplode
  simp only [strAt_cstr hs (Nat.zero_le _), strAt_cstr hd (Nat.zero_le _), List.drop_zero, Res.ok_bind]
  rw [if_neg hsl]
  have hc2 : strCount (cstr s) d (s.length + 1) 0 0 = .ok (ws.length - 1) := hcount
  simp only [hc2, Res.ok_bind]
  rw [if_pos (by omega)]
  simp only [hz, Res.ok_bind, h1]

example : strExplode (cstr [97, 44, 98]) (cstr [44]) = .ok (some ([97, 0, 98] ++ List.replicate 9 0, [0, 2])) ∧
    [(44 : UInt8)] <:+: [97, 44, 98] := by decide +kernel

/-- C12 is false in full: for *every* non-empty text in which the delimiter does not occur the result is the empty
array, and the text is lost (PHP's `explode`, which the header cites, returns the whole text as the only item). -/
theorem str_explode_no_delim_empty (s d : Bytes) (hs : NulFree s) (hd : NulFree d) (hne : s ≠ []) (hdne : d ≠ [])
    (hocc : ¬ d <:+: s) : strExplode (cstr s) (cstr d) = .ok (some ([], [])) := by
  have hws : Split d s [s] := .last s fun i ho => hocc (infix_iff_occ.2 ⟨i, ho⟩)
  have hsl : s.length ≠ 0 := by simpa using hne
  have hcount := strCount_spec hdne hws [] [] (s.length + 1) 0 hs (by omega)
  have hc2 : strCount (cstr s) d (s.length + 1) 0 0 = .ok 0 := by simpa [cstr] using hcount
  unfold strExplode
  simp only [strAt_cstr hs (Nat.zero_le _), strAt_cstr hd (Nat.zero_le _), List.drop_zero, Res.ok_bind]
  rw [if_neg hsl]
  simp [hc2]

/-- C13: `str_swap_ex` replaces every leftmost non-overlapping occurrence of the needle; NULL exactly when there is
none; the block is large enough in all cases (longer, shorter or empty replacement). -/
theorem str_swap_replaces (s d sw : Bytes) (hs : NulFree s) (hd : NulFree d) (hsw : NulFree sw) (hdne : d ≠ [])
    (ws : List Bytes) (hws : Split d s ws) (hbig : (sw.intercalate ws).length + 1 < 2 ^ 64) :
    if d <:+: s then
      ∃ out, strSwapEx (cstr s) (cstr d) (cstr sw) = .ok (some out) ∧ strAt out 0 = .ok (sw.intercalate ws)
    else strSwapEx (cstr s) (cstr d) (cstr sw) = .ok none := by
  have hcount := swapCount_spec hdne s.length s rfl [] (s.length + 1) 0 ws hws hs (by omega)
  simp only [List.nil_append, List.length_nil, Nat.zero_add] at hcount
  have hc2 : swapCount (cstr s) d (s.length + 1) 0 0 = .ok (s.length, ws.length - 1) := hcount
  have hpos := List.length_pos_iff.2 hws.ne_nil
  by_cases hocc : d <:+: s
  · rw [if_pos hocc]
    have hone : 1 < ws.length := by
      cases hws with
      | last _ h0 => exact absurd hocc (not_infix_of_no_occ h0)
      | more w r ws _ h => have := List.length_pos_iff.2 h.ne_nil; simp; omega
    have hlen : s.length = (ws.map List.length).sum + (ws.length - 1) * d.length := by
      rw [← intercalate_length, hws.join]
    have hjl := intercalate_length sw ws
    have hsize : swapSize s.length (ws.length - 1) sw.length d.length = (sw.intercalate ws).length + 1 := by
      unfold swapSize
      have e : ((s.length : Int) + (ws.length - 1 : Nat) * ((sw.length : Int) - d.length) + 1) =
          (((sw.intercalate ws).length + 1 : Nat) : Int) := by
        rw [hlen, hjl]
        push_cast
        ring
      rw [e, Int.emod_eq_of_lt (by omega) (by omega), Int.toNat_natCast]
    generalize hJ : sw.intercalate ws = J at *
    generalize hA : alignUp2 (J.length + 1) = A at *
    have hA' : J.length + 1 ≤ A := by rw [← hA]; exact le_alignUp2 _
    have hloop := swapLoop_spec (sw := sw) hdne s.length s rfl [] [] (calloc A) (s.length + 1) ws hws hs (by omega)
      (by rw [hJ]; simp [calloc]; omega)
    simp only [List.nil_append, List.length_nil, hJ] at hloop
    have hl2 : swapLoop (cstr s) d sw (s.length + 1) (calloc A) 0 0 =
        .ok (J ++ (calloc A).drop J.length, J.length) := by
      simpa [cstr] using hloop
    have hz : (calloc A).drop J.length = 0 :: List.replicate (A - J.length - 1) 0 := by
      rw [calloc, List.drop_replicate, ← List.replicate_succ]
      congr 1
      omega
    refine ⟨J ++ 0 :: List.replicate (A - J.length - 1) 0, ?_, ?_⟩
    · unfold strSwapEx
      simp only [strAt_cstr hs (Nat.zero_le _), strAt_cstr hd (Nat.zero_le _), strAt_cstr hsw (Nat.zero_le _),
        List.drop_zero, Res.ok_bind, hc2]
      rw [if_neg (by omega), hsize, hA, hl2]
      simp only [Res.ok_bind, hz]
      rw [wr_ok (by simp)]
      simp
    · refine strAt_mid' (pre := []) (w := J) (z := List.replicate (A - J.length - 1) 0) ?_ rfl rfl
      rw [← hJ]
      exact intercalate_nulFree hsw (hws.nulFree hs)
  · rw [if_neg hocc]
    have : ws = [s] := hws.unique (.last s fun i ho => hocc (infix_iff_occ.2 ⟨i, ho⟩))
    subst this
    unfold strSwapEx
    simp only [strAt_cstr hs (Nat.zero_le _), strAt_cstr hd (Nat.zero_le _), strAt_cstr hsw (Nat.zero_le _),
        List.drop_zero, Res.ok_bind, hc2]
    simp

example : strSwapEx (cstr [97, 98, 97]) (cstr [97]) (cstr [120, 121]) =
    .ok (some [120, 121, 98, 120, 121, 0]) ∧ Split [97] [97, 98, 97] [[], [98], []] := by
  refine ⟨by decide +kernel, ?_⟩
  have h2 : Split [(97 : UInt8)] [] [[]] := .last [] (fun i ho => by have := ho.length_le; simp at this)
  have h1 := Split.more [98] [] [[]] (d := [(97 : UInt8)]) (by
    intro i hi ho
    have : i = 0 := by simpa using hi
    subst this
    exact absurd ho.2 (by decide)) h2
  exact Split.more [] [98, 97] _ (by simp) h1

end Verif.Str
