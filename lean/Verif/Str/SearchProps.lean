import Verif.Str.SearchLemmas

/-!
# Properties of the search functions: C09, C10, C60
-/

namespace Verif.Str

/-- C09, raw memory: `mempos` returns the smallest offset at which the pattern occurs, and -1 exactly when it
occurs nowhere; it never reads outside the two buffers (not even one byte past them). -/
theorem mempos_first_occurrence (src mt : Bytes) (hlen : src.length < 2 ^ 31) :
    (∃ i : Nat, mempos src src.length mt mt.length = .ok (i : Int) ∧ OccursAt mt src i ∧
      ∀ j < i, ¬ OccursAt mt src j) ∨
    (mempos src src.length mt mt.length = .ok (-1) ∧ ¬ mt <:+: src) := by
  unfold mempos
  by_cases h : mt.length > src.length
  · rw [if_pos h]
    right
    refine ⟨rfl, fun hi => ?_⟩
    have := hi.length_le
    omega
  · rw [if_neg h]
    rcases scanLoop_spec src mt mt.length src.length (Nat.le_refl _) (Nat.le_refl _)
        (src.length - mt.length + 1) 0 (by omega) with ⟨i, h1, _, h3, h4, h5⟩ | ⟨h1, h2⟩
    · left
      rw [List.take_length] at h4 h5
      refine ⟨i, ?_, ⟨by omega, h4⟩, fun j hj ho => h5 j (by omega) hj ho.2⟩
      rw [h1, toInt32_small (by omega)]
    · right
      refine ⟨h1, fun hi => ?_⟩
      obtain ⟨i, ho⟩ := infix_iff_occ.1 hi
      rw [List.take_length] at h2
      exact h2 i (by omega) ho.length_le ho.2

example : mempos [1, 2, 1, 2, 3] 5 [1, 2, 3] 3 = .ok 2 := by decide

theorem mempos_zeros_one (N : Nat) :
    mempos (List.replicate N 0 ++ [1]) (N + 1) [1] 1 = .ok (toInt32 N) := by
  generalize hsrc : (List.replicate N 0 ++ [1] : Bytes) = src
  have hl : src.length = N + 1 := by rw [← hsrc]; simp
  have hz : ∀ j < N, src[j]? = some 0 := by
    intro j hj
    rw [← hsrc, List.getElem?_append_left (by simpa using hj), List.getElem?_replicate, if_pos hj]
  have h1 : src[N]? = some 1 := by
    rw [← hsrc, List.getElem?_append_right (by rw [List.length_replicate])]
    rw [List.length_replicate, Nat.sub_self]
    rfl
  have hpre : ∀ j, [(1 : UInt8)] <+: src.drop j ↔ src[j]? = some 1 := by
    intro j
    constructor
    · rintro ⟨t, ht⟩
      have : (src.drop j)[0]? = some 1 := by rw [← ht]; rfl
      simpa only [List.getElem?_drop, Nat.add_zero] using this
    · intro h
      exact (occ_single.2 h).2
  have hm : mempos src (N + 1) [1] 1 = scanLoop src [1] 1 0 (N + 1) := by
    unfold mempos
    rw [if_neg (by omega)]
    rfl
  rw [hm]
  have htk : List.take 1 [(1 : UInt8)] = [1] := rfl
  rcases scanLoop_spec src [1] 1 src.length (by simp) (Nat.le_refl _) (N + 1) 0 (by rw [hl]; omega) with
    ⟨i, a, _, _, d, e⟩ | ⟨_, b⟩
  · rw [htk] at d e
    have hi : i = N := by
      rcases Nat.lt_trichotomy i N with h | h | h
      · have := (hpre i).1 d
        rw [hz i h] at this
        simp at this
      · exact h
      · exact absurd ((hpre _).2 h1) (e _ (Nat.zero_le _) h)
    rw [a, hi]
  · exact absurd ((hpre _).2 h1) (b N (Nat.zero_le _) (by rw [hl]))

/-- A pattern at offset 2^31 or beyond is reported with a wrong, negative number (the position is truncated to
`int`), so `str_has` says "absent".  This is why `mempos_first_occurrence` asks for less than 2 GiB of text. -/
theorem mempos_truncates :
    ∃ src mt : Bytes, mt <:+: src ∧ ∃ r, mempos src src.length mt mt.length = .ok r ∧ r < 0 := by
  obtain ⟨N, hN⟩ : ∃ N, N = 2 ^ 31 := ⟨_, rfl⟩
  have h := mempos_zeros_one N
  refine ⟨List.replicate N 0 ++ [1], [1], ⟨List.replicate N 0, [], by simp⟩, toInt32 N, ?_, ?_⟩
  · have e : (List.replicate N (0 : UInt8) ++ [1]).length = N + 1 := by simp
    rw [e]
    exact h
  · rw [hN]; decide

/-- C09, C strings: `str_pos` returns the first position of the pattern, -1 exactly when absent. -/
theorem str_pos_first_occurrence (t p : Bytes) (ht : NulFree t) (hp : NulFree p) (hlen : t.length < 2 ^ 31) :
    (∃ i : Nat, strPos (cstr t) (cstr p) = .ok (i : Int) ∧ OccursAt p t i ∧ ∀ j < i, ¬ OccursAt p t j) ∨
    (strPos (cstr t) (cstr p) = .ok (-1) ∧ ¬ p <:+: t) := by
  have e : strPos (cstr t) (cstr p) = mempos (cstr t) t.length (cstr p) p.length := by
    simp [strPos, strAt_cstr ht (Nat.zero_le _), strAt_cstr hp (Nat.zero_le _)]
  rw [e]
  unfold mempos
  have hpt : (cstr p).take p.length = p := by simp [cstr]
  by_cases h : p.length > t.length
  · rw [if_pos h]
    right
    refine ⟨rfl, fun hi => ?_⟩
    have := hi.length_le
    omega
  · rw [if_neg h]
    rcases scanLoop_spec (cstr t) (cstr p) p.length t.length (by simp [cstr]) (by simp [cstr])
        (t.length - p.length + 1) 0 (by omega) with ⟨i, h1, _, h3, h4, h5⟩ | ⟨h1, h2⟩
    · left
      rw [hpt] at h4 h5
      refine ⟨i, ?_, ⟨by omega, (prefix_append_of_fits (by omega)).1 h4⟩, fun j hj ho => ?_⟩
      · rw [h1, toInt32_small (by omega)]
      · exact h5 j (by omega) hj ((prefix_append_of_fits ho.length_le).2 ho.2)
    · right
      refine ⟨h1, fun hi => ?_⟩
      obtain ⟨i, ho⟩ := infix_iff_occ.1 hi
      rw [hpt] at h2
      exact h2 i (by omega) ho.length_le ((prefix_append_of_fits ho.length_le).2 ho.2)

example : strPos (cstr "banana".toUTF8.toList) (cstr "nan".toUTF8.toList) = .ok 2 ∧
    NulFree "banana".toUTF8.toList := by decide +kernel

/-- C09, membership: `str_has` decides "is a substring". -/
theorem str_has_iff_infix (t p : Bytes) (ht : NulFree t) (hp : NulFree p) (hlen : t.length < 2 ^ 31) :
    strHas (cstr t) (cstr p) = .ok (decide (p <:+: t)) := by
  unfold strHas
  rcases str_pos_first_occurrence t p ht hp hlen with ⟨i, h1, h2, _⟩ | ⟨h1, h2⟩
  · have : p <:+: t := infix_iff_occ.2 ⟨i, h2⟩
    simp [h1, this]
  · simp [h1, h2]

/-- C10: `mem_subcount` counts the non-overlapping occurrences found by a leftmost scan, i.e. one less than the
number of pieces; every non-empty pattern, every text, no out-of-bounds read. -/
theorem mem_subcount_counts (src p : Bytes) (hp : NulFree p) (hne : p ≠ []) :
    ∃ ws, Split p src ws ∧ memSubcount src src.length (cstr p) = .ok (ws.length - 1) := by
  have hlen : 0 < p.length := List.length_pos_iff.2 hne
  simp only [memSubcount, strAt_cstr hp (Nat.zero_le _), List.drop_zero, Res.ok_bind]
  rw [if_neg (by omega)]
  by_cases h1 : p.length = 1
  · rw [if_pos h1, rd_cstr_lt hlen]
    obtain ⟨ws, h2, h3⟩ := countChrLoop_spec (h := src) (c := p[0]) (Nat.le_refl _) (src.length + 1) 0 0
      (Nat.zero_le _) (by omega)
    have hp1 : p = [p[0]] := by
      match p, h1 with
      | [x], _ => rfl
    rw [List.take_length, List.drop_zero] at h2
    refine ⟨ws, ?_, ?_⟩
    · rw [hp1]; exact h2
    · simp only [Res.ok_bind, h3, Nat.zero_add]
  · rw [if_neg h1]
    obtain ⟨ws, h2, h3⟩ := countStrLoop_spec (h := src) (needle := p) (by omega) (Nat.le_refl _) (src.length + 1) 0 0
      (Nat.zero_le _) (by omega)
    rw [List.take_length, List.drop_zero] at h2
    exact ⟨ws, h2, by simp only [h3, Nat.zero_add]⟩

example : memSubcount "aaaaa".toUTF8.toList 5 (cstr "aa".toUTF8.toList) = .ok 2 ∧
    NulFree "aa".toUTF8.toList := by decide +kernel

/-- C10: the empty pattern is counted zero times. -/
theorem mem_subcount_empty (src : Bytes) (n : Nat) : memSubcount src n (cstr []) = .ok 0 := by
  simp [memSubcount, strAt_cstr (s := []) (by simp [NulFree]) (Nat.zero_le _)]

/-- C10, C strings: `str_subcount`. -/
theorem str_subcount_counts (t p : Bytes) (ht : NulFree t) (hp : NulFree p) (hne : p ≠ []) :
    ∃ ws, Split p t ws ∧ strSubcount (cstr t) (cstr p) = .ok (ws.length - 1) := by
  have hlen : 0 < p.length := List.length_pos_iff.2 hne
  simp only [strSubcount, memSubcount, strAt_cstr hp (Nat.zero_le _), strAt_cstr ht (Nat.zero_le _), List.drop_zero,
    Res.ok_bind]
  have htk : (cstr t).take t.length = t := by simp [cstr]
  rw [if_neg (by omega)]
  by_cases h1 : p.length = 1
  · rw [if_pos h1, rd_cstr_lt hlen]
    obtain ⟨ws, h2, h3⟩ := countChrLoop_spec (h := cstr t) (e := t.length) (c := p[0]) (by simp [cstr])
      (t.length + 1) 0 0 (Nat.zero_le _) (by omega)
    have hp1 : p = [p[0]] := by
      match p, h1 with
      | [x], _ => rfl
    rw [htk, List.drop_zero] at h2
    refine ⟨ws, ?_, ?_⟩
    · rw [hp1]; exact h2
    · simp only [Res.ok_bind, h3, Nat.zero_add]
  · rw [if_neg h1]
    obtain ⟨ws, h2, h3⟩ := countStrLoop_spec (h := cstr t) (e := t.length) (needle := p) (by omega) (by simp [cstr])
      (t.length + 1) 0 0 (Nat.zero_le _) (by omega)
    rw [htk, List.drop_zero] at h2
    exact ⟨ws, h2, by simp only [h3, Nat.zero_add]⟩

/-- `Split` is a function of its inputs, so "the pieces" above is well defined. -/
theorem split_exists_unique (d s : Bytes) (hd : d ≠ []) : ∃! ws, Split d s ws := by
  obtain ⟨ws, h⟩ := Split.exists d hd s
  exact ⟨ws, h, fun _ h' => h'.unique h⟩

/-- C60, full behaviour: the class of *any* scheme string is decided by substring tests against the four
comma-separated lists, in this order. -/
theorem scheme_type_spec (s : Bytes) (hs : NulFree s) (hlen : s.length < 2 ^ 31) :
    schemeType (cstr s) = .ok
      (if s <:+: "http,tcp,ws,ftp".toUTF8.toList then .tcp
       else if s <:+: "https,tls,ssl,wss,ftps".toUTF8.toList then .tls
       else if s <:+: "file,unix".toUTF8.toList then .pipe
       else if "udp".toUTF8.toList <:+: s then .udp
       else .unknown) := by
  have a : NulFree tcpNames := by decide +kernel
  have b : NulFree tlsNames := by decide +kernel
  have c : NulFree pipeNames := by decide +kernel
  have d : NulFree udpName := by decide +kernel
  unfold schemeType
  rw [str_has_iff_infix tcpNames s a hs (by decide +kernel), str_has_iff_infix tlsNames s b hs (by decide +kernel),
    str_has_iff_infix pipeNames s c hs (by decide +kernel), str_has_iff_infix s udpName hs d hlen]
  simp only [Res.ok_bind, decide_eq_true_eq]
  unfold tcpNames tlsNames pipeNames udpName
  split_ifs <;> rfl

/-- The documented schemes. -/
def knownSchemes : List (Bytes × Transport) :=
  [("http".toUTF8.toList, .tcp), ("tcp".toUTF8.toList, .tcp), ("ws".toUTF8.toList, .tcp), ("ftp".toUTF8.toList, .tcp),
   ("https".toUTF8.toList, .tls), ("tls".toUTF8.toList, .tls), ("ssl".toUTF8.toList, .tls),
   ("wss".toUTF8.toList, .tls), ("ftps".toUTF8.toList, .tls),
   ("file".toUTF8.toList, .pipe), ("unix".toUTF8.toList, .pipe), ("udp".toUTF8.toList, .udp)]

/-- C60 (first half): every documented scheme gets its class. -/
theorem scheme_type_known_partial : ∀ p ∈ knownSchemes, schemeType (cstr p.1) = .ok p.2 := by
  decide +kernel

/-- C60 (second half) is false: undocumented schemes are accepted, e.g. "tp", "s", the empty scheme, and every
string that merely contains "udp". -/
theorem scheme_type_accepts_unknown :
    schemeType (cstr []) = .ok .tcp ∧ schemeType (cstr "tp".toUTF8.toList) = .ok .tcp ∧
    schemeType (cstr "s".toUTF8.toList) = .ok .tcp ∧
    ∀ a b : Bytes, NulFree a → NulFree b → (a ++ b).length < 2 ^ 30 → 22 < a.length →
      schemeType (cstr (a ++ "udp".toUTF8.toList ++ b)) = .ok .udp := by
  refine ⟨by decide +kernel, by decide +kernel, by decide +kernel, fun a b ha hb hl h22 => ?_⟩
  have hu : ("udp".toUTF8.toList : Bytes).length = 3 := by decide +kernel
  have hn : NulFree (a ++ "udp".toUTF8.toList ++ b) := by
    intro x hx
    simp only [List.mem_append] at hx
    rcases hx with (hx | hx) | hx
    · exact ha x hx
    · exact (by decide +kernel : NulFree "udp".toUTF8.toList) x hx
    · exact hb x hx
  have hlen : (a ++ "udp".toUTF8.toList ++ b).length = (a ++ b).length + 3 := by
    simp only [List.length_append, hu]; omega
  have hlong : ∀ t : Bytes, t.length ≤ 22 → ¬ (a ++ "udp".toUTF8.toList ++ b) <:+: t := by
    intro t ht hi
    have := hi.length_le
    simp only [List.length_append] at this
    omega
  rw [scheme_type_spec _ hn (by omega), if_neg (hlong _ (by decide +kernel)), if_neg (hlong _ (by decide +kernel)),
    if_neg (hlong _ (by decide +kernel)), if_pos ⟨a, b, rfl⟩]

end Verif.Str
