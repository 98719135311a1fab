import Verif.Uri.Spec

namespace Verif.Uri
open Verif.Str

theorem find_none {l : Bytes} {c : UInt8} (h : c ∉ l) : find l c = none := by
  unfold find
  rw [List.findIdx?_eq_none_iff]
  intro x hx
  simp only [beq_eq_false_iff_ne]
  rintro rfl
  exact h hx

theorem find_append {a b : Bytes} {c : UInt8} (h : c ∉ a) : find (a ++ c :: b) c = some a.length := by
  unfold find
  rw [List.findIdx?_append]
  have : a.findIdx? (· == c) = none := find_none h
  rw [this, List.findIdx?_cons]
  simp

theorem find_of_mem {l : Bytes} {c : UInt8} (h : c ∈ l) : ∃ p, find l c = some p ∧ p < l.length := by
  unfold find
  cases hf : l.findIdx? (· == c) with
  | none =>
    rw [List.findIdx?_eq_none_iff] at hf
    simpa using hf c h
  | some p =>
    obtain ⟨hp, _⟩ := List.findIdx?_eq_some_iff_getElem.1 hf
    exact ⟨p, rfl, hp⟩

theorem find_lt {l : Bytes} {c : UInt8} {p : Nat} (h : find l c = some p) : p < l.length := by
  obtain ⟨hp, _⟩ := List.findIdx?_eq_some_iff_getElem.1 h
  exact hp

theorem rfind_none {l : Bytes} {c : UInt8} (h : c ∉ l) : rfind l c = none := by
  unfold rfind
  have : l.reverse.findIdx? (· == c) = none := find_none (by simpa using h)
  rw [this]
  rfl

theorem rfind_append {a b : Bytes} {c : UInt8} (h : c ∉ b) : rfind (a ++ c :: b) c = some a.length := by
  unfold rfind
  have e : (a ++ c :: b).reverse = b.reverse ++ c :: a.reverse := by simp
  have : (a ++ c :: b).reverse.findIdx? (· == c) = some b.reverse.length := by
    rw [e]; exact find_append (by simpa using h)
  rw [this]
  simp

theorem comp_plain {l : Bytes} (h : Plain l) : comp l = l := by
  unfold comp
  conv_rhs => rw [← List.map_id l]
  refine List.map_congr_left fun c hc => ?_
  have := h c hc
  rw [if_neg]
  · rfl
  · unfold isCntrl
    simp only [Bool.or_eq_true, decide_eq_true_eq, beq_iff_eq, not_or]
    omega

/-- One step of `cspn`. -/
theorem cspn_step {a b : Bytes} {c : UInt8} {e : Nat} (h : c ∉ a) (he : a.length ≤ e) :
    a.length ≤ (find ((a ++ b).take e) c).getD e ∧ (b.head? = some c → (find ((a ++ b).take e) c).getD e = a.length) ∧
      (e = a.length → (find ((a ++ b).take e) c).getD e = a.length) := by
  have ht : (a ++ b).take e = a ++ b.take (e - a.length) := by rw [List.take_append, List.take_of_length_le he]
  rw [ht]
  refine ⟨?_, fun hb => ?_, fun hb => ?_⟩
  · by_cases hc : c ∈ b.take (e - a.length)
    · obtain ⟨x, y, hxy, hx⟩ : ∃ x y, b.take (e - a.length) = x ++ c :: y ∧ c ∉ x := by
        obtain ⟨p, hp, hlt⟩ := find_of_mem hc
        obtain ⟨h1, h2, h3⟩ := List.findIdx?_eq_some_iff_getElem.1 hp
        refine ⟨(b.take (e - a.length)).take p, (b.take (e - a.length)).drop (p + 1), ?_, ?_⟩
        · have : (b.take (e - a.length))[p] = c := by simpa using h2
          rw [← this, List.getElem_cons_drop, List.take_append_drop]
        · intro hm
          obtain ⟨j, hj, hjc⟩ := List.mem_take_iff_getElem.1 hm
          have := h3 j (by omega)
          simp [hjc] at this
      rw [hxy, ← List.append_assoc, find_append (by simp [h, hx])]
      simp
    · rw [find_none (by simp [h, hc])]
      exact he
  · by_cases hlt : e = a.length
    · subst hlt
      rw [Nat.sub_self, List.take_zero, List.append_nil, find_none h]
      rfl
    · cases b with
      | nil => simp at hb
      | cons x b =>
        simp only [List.head?_cons, Option.some.injEq] at hb
        subst hb
        obtain ⟨k, hk⟩ : ∃ k, e - a.length = k + 1 := ⟨e - a.length - 1, by omega⟩
        rw [hk, List.take_succ_cons, find_append h]
        rfl
  · subst hb
    rw [Nat.sub_self, List.take_zero, List.append_nil, find_none h]
    rfl

theorem cspn_append {a b chars : Bytes} (ha : Free chars a) (hb : b = [] ∨ ∃ c ∈ chars, b.head? = some c) :
    cspn (a ++ b) chars = a.length := by
  unfold cspn
  have key : ∀ (chars : Bytes) (e : Nat), (∀ c ∈ chars, c ∉ a) → a.length ≤ e →
      (e = a.length ∨ ∃ c ∈ chars, b.head? = some c) →
      chars.foldl (fun e c => (find ((a ++ b).take e) c).getD e) e = a.length := by
    intro chars
    induction chars with
    | nil =>
      intro e _ _ h
      rcases h with h | ⟨c, hc, _⟩
      · exact h
      · simp at hc
    | cons x chars ih =>
      intro e hf he h
      obtain ⟨s1, s2, s3⟩ := cspn_step (b := b) (hf x (List.mem_cons_self ..)) he
      simp only [List.foldl_cons]
      refine ih _ (fun c hc => hf c (List.mem_cons_of_mem _ hc)) s1 ?_
      rcases h with h | ⟨c, hc, hbc⟩
      · exact .inl (s3 h)
      · rcases List.mem_cons.1 hc with rfl | hc
        · exact .inl (s2 hbc)
        · exact .inr ⟨c, hc, hbc⟩
  refine key chars _ ha (by simp) ?_
  rcases hb with rfl | hb
  · exact .inl (by simp)
  · exact .inr hb

/-! ## Pieces of the parser on well-formed text -/

theorem login_none {u : Uri} {hp : Bytes} (h : 64 ∉ hp) : login u hp = (u, hp) := by
  unfold login
  rw [rfind_none h]

theorem login_user {u : Uri} {us hp : Bytes} (h : 64 ∉ hp) (h1 : 58 ∉ us) (hp1 : Plain us) :
    login u (us ++ [64] ++ hp) = ({ u with user := some us }, hp) := by
  unfold login
  have e : us ++ [64] ++ hp = us ++ 64 :: hp := by simp
  rw [e, rfind_append h]
  simp only [List.take_left, find_none h1, comp_plain hp1]
  rw [← List.drop_drop, List.drop_left]
  rfl

theorem login_pass {u : Uri} {us w hp : Bytes} (h : 64 ∉ hp) (h1 : 58 ∉ us) (hp1 : Plain us) (hp2 : Plain w) :
    login u (us ++ [58] ++ w ++ [64] ++ hp) = ({ u with user := some us, pass := some w }, hp) := by
  unfold login
  have e : us ++ [58] ++ w ++ [64] ++ hp = (us ++ 58 :: w) ++ 64 :: hp := by simp
  rw [e, rfind_append h]
  simp only [List.take_left, find_append h1, comp_plain hp1]
  rw [← List.drop_drop, List.drop_left, ← List.drop_drop, List.drop_left]
  simp [comp_plain hp2]

theorem isDigit_iff (c : UInt8) : isDigit c = true ↔ 48 ≤ c.toNat ∧ c.toNat ≤ 57 := by
  unfold isDigit; simp

theorem strtol10_digits {t : Bytes} (hne : t ≠ []) (hd : ∀ c ∈ t, 48 ≤ c.toNat ∧ c.toNat ≤ 57) : strtol10 t = some (decValue t : Int) := by
  unfold strtol10
  have ht : t.takeWhile isDigit = t := List.takeWhile_eq_self_iff.2 fun c hc => (isDigit_iff c).2 (hd c hc)
  cases t with
  | nil => exact absurd rfl hne
  | cons c t =>
    have hc := hd c (List.mem_cons_self ..)
    have hs : isSpace c = false := by
      unfold isSpace
      simp only [Bool.or_eq_false_iff, decide_eq_false_iff_not, Bool.and_eq_false_iff]
      refine ⟨?_, .inr ?_⟩
      · rintro rfl; exact absurd hc (by decide)
      · rw [UInt8.le_iff_toNat_le]; simp only [UInt8.reduceToNat]; omega
    rw [List.dropWhile_cons_of_neg (by simp [hs])]
    have h1 : c ≠ 45 := by rintro rfl; exact absurd hc (by decide)
    have h2 : c ≠ 43 := by rintro rfl; exact absurd hc (by decide)
    have hsg : signed (c :: t) = (false, c :: t) := by
      unfold signed
      split
      · rename_i h; simp only [List.cons.injEq] at h; exact absurd h.1 h1
      · rename_i h; simp only [List.cons.injEq] at h; exact absurd h.1 h2
      · rfl
    simp only [hsg, ht]
    rw [if_neg hne]
    rfl

theorem hostPort_plain {u : Uri} {h : Bytes} (hne : h ≠ []) (hp : Plain h)
    (hc : 58 ∉ h ∨ (h.head? = some 91 ∧ h.getLast? = some 93)) : hostPort u h = some { u with host := some h } := by
  unfold hostPort
  have : (if h.head? = some 91 ∧ h.getLast? = some 93 then none else rfind h 58) = none := by
    rcases hc with hc | hc
    · split
      · rfl
      · exact rfind_none hc
    · rw [if_pos hc]
  simp only [this]
  rw [if_neg hne, comp_plain hp]

theorem hostPort_port {u : Uri} {h t : Bytes} (hu : u.port = 0) (hne : h ≠ []) (hp : Plain h) (ht : t ≠ []) (hl : t.length ≤ 5)
    (hd : ∀ c ∈ t, 48 ≤ c.toNat ∧ c.toNat ≤ 57) (hv : decValue t ≤ 65535) :
    hostPort u (h ++ [58] ++ t) = some { u with port := decValue t, host := some h } := by
  have e : h ++ [58] ++ t = h ++ 58 :: t := by simp
  have hlast : (h ++ 58 :: t).getLast? ≠ some 93 := by
    rw [List.getLast?_append_of_ne_nil _ (by simp), List.getLast?_cons_of_ne_nil ht]
    intro hl
    have := hd 93 (List.mem_of_getLast? hl)
    exact absurd this (by decide)
  have hn : 58 ∉ t := fun hm => absurd (hd 58 hm) (by decide)
  unfold hostPort
  rw [e, if_neg (fun h => hlast h.2), rfind_append hn]
  simp only
  rw [← List.drop_drop, List.drop_left]
  simp only [List.drop_one, List.tail_cons]
  rw [if_neg (by simp [hu, ht]), if_neg (by omega), strtol10_digits ht hd]
  simp only
  rw [if_pos (by omega)]
  simp only [Int.toNat_natCast, List.take_left]
  rw [if_neg (by simpa using hne), comp_plain hp]

theorem justPath_parts {u : Uri} {path query frag : Option Bytes} (hu : u.path = none ∧ u.query = none ∧ u.fragment = none)
    (hpath : ∀ t, path = some t → t.head? = some 47 ∧ Free [63, 35] t ∧ Plain t)
    (hquery : ∀ t, query = some t → t ≠ [] ∧ 35 ∉ t ∧ Plain t)
    (hfrag : ∀ t, frag = some t → t ≠ [] ∧ Plain t)
    (hne : optText [] path ++ (optText [63] query ++ optText [35] frag) ≠ []) :
    justPath u (optText [] path ++ (optText [63] query ++ optText [35] frag)) = { u with path := path, query := query, fragment := frag } := by
  have hp63 : 63 ∉ optText [] path := by
    cases path with
    | none => simp [optText]
    | some t => simpa [optText] using (hpath t rfl).2.1 63 (by simp)
  have hp35 : 35 ∉ optText [] path := by
    cases path with
    | none => simp [optText]
    | some t => simpa [optText] using (hpath t rfl).2.1 35 (by simp)
  have hq35 : 35 ∉ optText [63] query := by
    cases query with
    | none => simp [optText]
    | some t => simpa [optText] using (hquery t rfl).2.1
  obtain ⟨pq, hpq⟩ : ∃ pq, pq = optText [] path ++ optText [63] query := ⟨_, rfl⟩
  have h35 : 35 ∉ pq := by rw [hpq]; simp [hp35, hq35]
  obtain ⟨l, hl⟩ : ∃ l, l = optText [] path ++ (optText [63] query ++ optText [35] frag) := ⟨_, rfl⟩
  have hlpq : l = pq ++ optText [35] frag := by rw [hl, hpq, List.append_assoc]
  rw [← hl] at hne ⊢
  -- the fragment
  have e1 : takeFragment u l = ({ u with fragment := frag }, pq) := by
    unfold takeFragment
    cases frag with
    | none =>
      have : l = pq := by rw [hlpq]; simp [optText]
      rw [this, find_none h35]
      simp only [Prod.mk.injEq, and_true]
      obtain ⟨_, _, h⟩ := hu
      rw [← h]
    | some t =>
      obtain ⟨ht, htp⟩ := hfrag t rfl
      have : l = pq ++ 35 :: t := by rw [hlpq]; rfl
      rw [this, find_append h35]
      simp only
      have hlt : pq.length + 1 < (pq ++ 35 :: t).length := by
        simp only [List.length_append, List.length_cons]
        have := List.length_pos_iff.2 ht
        omega
      rw [if_pos hlt, List.take_left, ← List.drop_drop, List.drop_left]
      simp [comp_plain htp]
  have e2 : ∀ v : Uri, v.query = none → takeQuery v pq = ({ v with query := query }, optText [] path) := by
    intro v hv
    unfold takeQuery
    cases query with
    | none =>
      have : pq = optText [] path := by rw [hpq]; simp [optText]
      rw [this, find_none hp63]
      simp only [Prod.mk.injEq, and_true]
      rw [← hv]
    | some t =>
      obtain ⟨ht, _, htp⟩ := hquery t rfl
      have : pq = optText [] path ++ 63 :: t := by rw [hpq]; rfl
      rw [this, find_append hp63]
      simp only
      have hlt : (optText [] path).length + 1 < (optText [] path ++ 63 :: t).length := by
        simp only [List.length_append, List.length_cons]
        have := List.length_pos_iff.2 ht
        omega
      rw [if_pos hlt, List.take_left, ← List.drop_drop, List.drop_left]
      simp [comp_plain htp]
  unfold justPath
  simp only [e1]
  rw [e2 { u with fragment := frag } hu.2.1]
  simp only
  cases path with
  | none =>
    rw [if_neg (by simp [optText, hne])]
    simp only [hu.1.symm]
  | some t =>
    obtain ⟨ht, _, htp⟩ := hpath t rfl
    have : t ≠ [] := by rintro rfl; simp at ht
    rw [if_pos (.inl (by simpa [optText] using this))]
    simp [optText, comp_plain htp]

end Verif.Uri
