import Verif.Str.Split
import Verif.Str.SearchLemmas

namespace Verif.Str

theorem strAt_mid {pre w z : Bytes} (hw : NulFree w) : strAt (pre ++ w ++ 0 :: z) pre.length = .ok w := by
  have e : (pre ++ w ++ 0 :: z).drop pre.length = w ++ 0 :: z := by simp
  have : List.takeWhile (fun x : UInt8 => decide (x ≠ 0)) (w ++ 0 :: z) = w := by
    rw [List.takeWhile_append_of_pos (by simpa [NulFree] using hw)]
    simp
  simp only [strAt, e]
  rw [if_pos (by simp), this]

theorem strAt_mid' {pre w z t : Bytes} {p : Nat} (hw : NulFree w) (ht : t = pre ++ w ++ 0 :: z) (hp : p = pre.length) :
    strAt t p = .ok w := by rw [ht, hp]; exact strAt_mid hw

theorem strstr_mid {pre w z d : Bytes} (hw : NulFree w) :
    strstr (pre ++ w ++ 0 :: z) pre.length d = .ok ((searchFrom w d 0).map (pre.length + ·)) := by
  unfold strstr
  rw [strAt_mid hw]
  rfl

theorem searchFrom_none_of {s d : Bytes} (h : ∀ i, ¬ OccursAt d s i) : searchFrom s d 0 = none := by
  cases hf : searchFrom s d 0 with
  | none => rfl
  | some i => exact absurd (searchFrom_zero_some hf).1 (h i)

theorem searchFrom_some_of {s d : Bytes} {i} (h : OccursAt d s i) (hmin : ∀ j < i, ¬ OccursAt d s j) :
    searchFrom s d 0 = some i := by
  cases hf : searchFrom s d 0 with
  | none => exact absurd h (searchFrom_zero_none hf i)
  | some j =>
    obtain ⟨h1, h2⟩ := searchFrom_zero_some hf
    rcases Nat.lt_trichotomy i j with h3 | h3 | h3
    · exact absurd h (h2 i h3)
    · rw [h3]
    · exact absurd h1 (hmin j h3)

theorem searchFrom_more {w d r : Bytes} (h : ∀ i < w.length, ¬ OccursAt d (w ++ d ++ r) i) :
    searchFrom (w ++ d ++ r) d 0 = some w.length :=
  searchFrom_some_of ⟨by simp, r, by simp⟩ h

theorem cut_once (pre w d r z : Bytes) (hd : d ≠ []) :
    (pre ++ (w ++ d ++ r) ++ 0 :: z).set (pre.length + w.length) 0 =
      (pre ++ w ++ 0 :: d.tail) ++ r ++ 0 :: z := by
  obtain ⟨a, t, rfl⟩ := List.exists_cons_of_ne_nil hd
  have e : pre ++ (w ++ a :: t ++ r) ++ 0 :: z = (pre ++ w) ++ a :: (t ++ r ++ 0 :: z) := by simp
  rw [e, List.set_append_right _ _ (by simp)]
  simp

theorem cut_once_length (pre w d : Bytes) (hd : d ≠ []) :
    (pre ++ w ++ 0 :: d.tail).length = pre.length + w.length + d.length := by
  obtain ⟨a, t, rfl⟩ := List.exists_cons_of_ne_nil hd
  simp; omega

theorem strCount_spec {d rest ws} (hd : d ≠ []) (h : Split d rest ws) :
    ∀ (pre z : Bytes) (fuel n : Nat), NulFree rest → rest.length < fuel →
      strCount (pre ++ rest ++ 0 :: z) d fuel pre.length n = .ok (n + (ws.length - 1)) := by
  induction h with
  | last s h0 =>
    intro pre z fuel n hn hf
    obtain ⟨fuel, rfl⟩ : ∃ f, fuel = f + 1 := ⟨fuel - 1, by omega⟩
    unfold strCount
    rw [strstr_mid hn, searchFrom_none_of h0]
    simp
  | more w r ws h0 hs ih =>
    intro pre z fuel n hn hf
    obtain ⟨fuel, rfl⟩ : ∃ f, fuel = f + 1 := ⟨fuel - 1, by omega⟩
    have hd' : 0 < d.length := List.length_pos_iff.2 hd
    have e : pre ++ (w ++ d ++ r) ++ 0 :: z = (pre ++ w ++ d) ++ r ++ 0 :: z := by simp
    have el : pre.length + w.length + d.length = (pre ++ w ++ d).length := by simp; omega
    have := ih (pre ++ w ++ d) z fuel (n + 1) hn.right (by simp at hf; omega)
    unfold strCount
    rw [strstr_mid hn, searchFrom_more h0]
    simp only [Res.ok_bind, Option.map_some]
    rw [e, el, this]
    have := List.length_pos_iff.2 hs.ne_nil
    simp; omega

/-- The pointers of the pieces of a text that starts at offset `p`. -/
def starts (dl p : Nat) : List Bytes → List Nat
  | [] => []
  | w :: ws => p :: starts dl (p + w.length + dl) ws

@[simp] theorem starts_length (dl p : Nat) (ws : List Bytes) : (starts dl p ws).length = ws.length := by
  induction ws generalizing p with
  | nil => rfl
  | cons w ws ih => simp [starts, ih]

/-- Each start is the start of the corresponding C string. -/
def Reads (text : Bytes) : List Nat → List Bytes → Prop
  | [], [] => True
  | p :: ps, w :: ws => strAt text p = .ok w ∧ Reads text ps ws
  | _, _ => False

theorem Reads.get {text : Bytes} : ∀ {ps : List Nat} {ws : List Bytes}, Reads text ps ws →
    ps.length = ws.length ∧ ∀ i (h : i < ws.length), ∃ p, ps[i]? = some p ∧ strAt text p = .ok ws[i]
  | [], [], _ => ⟨rfl, fun i h => absurd h (by simp)⟩
  | p :: ps, w :: ws, h => by
    obtain ⟨h1, h2⟩ := Reads.get h.2
    refine ⟨by simp [h1], fun i hi => ?_⟩
    cases i with
    | zero => exact ⟨p, by simp, h.1⟩
    | succ i =>
      obtain ⟨q, h3, h4⟩ := h2 i (by simpa using hi)
      exact ⟨q, by simpa using h3, by simpa using h4⟩

theorem strCut_spec {d rest ws} (hd : d ≠ []) (h : Split d rest ws) :
    ∀ (pre z : Bytes) (fuel cap : Nat) (ptrs : List (Option Nat)), NulFree rest → rest.length < fuel →
      ptrs.length + (ws.length - 1) ≤ cap →
      ∃ rest', strCut d cap fuel (pre ++ rest ++ 0 :: z) pre.length ptrs =
        .ok (pre ++ rest' ++ 0 :: z, ptrs ++ (starts d.length pre.length ws).tail.map some) ∧
        Reads (pre ++ rest' ++ 0 :: z) (starts d.length pre.length ws) ws := by
  induction h with
  | last s h0 =>
    intro pre z fuel cap ptrs hn hf hc
    obtain ⟨fuel, rfl⟩ : ∃ f, fuel = f + 1 := ⟨fuel - 1, by omega⟩
    refine ⟨s, ?_, ?_⟩
    · unfold strCut
      rw [strstr_mid hn, searchFrom_none_of h0]
      simp [starts]
    · exact ⟨strAt_mid hn, trivial⟩
  | more w r ws h0 hs ih =>
    intro pre z fuel cap ptrs hn hf hc
    obtain ⟨fuel, rfl⟩ : ∃ f, fuel = f + 1 := ⟨fuel - 1, by omega⟩
    have hd' : 0 < d.length := List.length_pos_iff.2 hd
    have hp := List.length_pos_iff.2 hs.ne_nil
    have hcap : ptrs.length + ws.length ≤ cap := by simpa using hc
    have el := cut_once_length pre w d hd
    obtain ⟨rest', h1, h2⟩ := ih (pre ++ w ++ 0 :: d.tail) z fuel cap
      (ptrs ++ [some (pre.length + w.length + d.length)]) hn.right (by simp at hf; omega) (by simp; omega)
    rw [el] at h1 h2
    obtain ⟨w2, ws2, rfl⟩ := List.exists_cons_of_ne_nil hs.ne_nil
    refine ⟨w ++ 0 :: d.tail ++ rest', ?_, ?_⟩
    · unfold strCut
      rw [strstr_mid hn, searchFrom_more h0]
      simp only [Res.ok_bind, Option.map_some]
      rw [wr_ok (by simp), cut_once pre w d r z hd]
      simp only [Res.ok_bind, pushPtr]
      rw [if_pos (by simp at hcap; omega)]
      simp only [Res.ok_bind, h1]
      simp [starts]
    · refine ⟨?_, ?_⟩
      · exact strAt_mid' (pre := pre) (z := d.tail ++ rest' ++ 0 :: z) hn.left.left (by simp) rfl
      · have e2 : pre ++ (w ++ 0 :: d.tail ++ rest') ++ 0 :: z = pre ++ w ++ 0 :: d.tail ++ rest' ++ 0 :: z := by simp
        rw [e2]
        exact h2

/-- The copy of the text into a zeroed block. -/
theorem copy_into_calloc {s src : Bytes} {n : Nat} (hn : s.length < n) (hs : src.take s.length = s)
    (hl : s.length ≤ src.length) :
    ∃ z, memcpy (calloc n) 0 src 0 s.length = .ok ([] ++ s ++ 0 :: z) := by
  refine ⟨List.replicate (n - s.length - 1) 0, ?_⟩
  rw [memcpy_ok (by omega) (by simp [calloc]; omega)]
  simp only [List.take_zero, List.drop_zero, hs, calloc, List.drop_replicate, Nat.zero_add]
  congr 2
  rw [← List.replicate_succ]
  congr 1
  omega

/-! ### raw memory -/

theorem memmem_mid {pre w z d : Bytes} :
    memmem (pre ++ w ++ z) pre.length w.length d = .ok ((searchFrom w d 0).map (pre.length + ·)) := by
  unfold memmem
  rw [if_pos (by simp)]
  congr 3
  simp

theorem memCount_spec {d rest ws} (hd : d ≠ []) (h : Split d rest ws) :
    ∀ (pre z : Bytes) (fuel n : Nat), rest.length < fuel →
      memCount (pre ++ rest ++ z) d fuel pre.length rest.length n = .ok (n + (ws.length - 1)) := by
  induction h with
  | last s h0 =>
    intro pre z fuel n hf
    obtain ⟨fuel, rfl⟩ : ∃ f, fuel = f + 1 := ⟨fuel - 1, by omega⟩
    unfold memCount
    rw [memmem_mid, searchFrom_none_of h0]
    simp
  | more w r ws h0 hs ih =>
    intro pre z fuel n hf
    obtain ⟨fuel, rfl⟩ : ∃ f, fuel = f + 1 := ⟨fuel - 1, by omega⟩
    have hd' : 0 < d.length := List.length_pos_iff.2 hd
    have e : pre ++ (w ++ d ++ r) ++ z = (pre ++ w ++ d) ++ r ++ z := by simp
    have el : pre.length + w.length + d.length = (pre ++ w ++ d).length := by simp; omega
    have er : (w ++ d ++ r).length - ((pre ++ w ++ d).length - pre.length) = r.length := by simp; omega
    have := ih (pre ++ w ++ d) z fuel (n + 1) (by simp at hf; omega)
    unfold memCount
    rw [memmem_mid, searchFrom_more h0]
    simp only [Res.ok_bind, Option.map_some]
    rw [e, el, er, this]
    have := List.length_pos_iff.2 hs.ne_nil
    simp; omega

/-- Each piece can be read back at its start. -/
def Slices (text : Bytes) : List Nat → List Bytes → Prop
  | [], [] => True
  | p :: ps, w :: ws => (p + w.length ≤ text.length ∧ (text.drop p).take w.length = w) ∧ Slices text ps ws
  | _, _ => False

theorem Slices.get {text : Bytes} : ∀ {ps : List Nat} {ws : List Bytes}, Slices text ps ws →
    ps.length = ws.length ∧ ∀ i (h : i < ws.length), ∃ p, ps[i]? = some p ∧
      p + ws[i].length ≤ text.length ∧ (text.drop p).take ws[i].length = ws[i]
  | [], [], _ => ⟨rfl, fun i h => absurd h (by simp)⟩
  | p :: ps, w :: ws, h => by
    obtain ⟨h1, h2⟩ := Slices.get h.2
    refine ⟨by simp [h1], fun i hi => ?_⟩
    cases i with
    | zero => exact ⟨p, by simp, h.1⟩
    | succ i =>
      obtain ⟨q, h3, h4⟩ := h2 i (by simpa using hi)
      exact ⟨q, by simpa using h3, by simpa using h4⟩

theorem cut_once' (pre w d r z : Bytes) (hd : d ≠ []) :
    (pre ++ (w ++ d ++ r) ++ z).set (pre.length + w.length) 0 =
      (pre ++ w ++ 0 :: d.tail) ++ r ++ z := by
  obtain ⟨a, t, rfl⟩ := List.exists_cons_of_ne_nil hd
  have e : pre ++ (w ++ a :: t ++ r) ++ z = (pre ++ w) ++ a :: (t ++ r ++ z) := by simp
  rw [e, List.set_append_right _ _ (by simp)]
  simp

theorem memCut_spec {d rest ws} (hd : d ≠ []) (h : Split d rest ws) :
    ∀ (pre z : Bytes) (fuel cap : Nat) (ptrs : List (Option Nat)), rest.length < fuel →
      ptrs.length + (ws.length - 1) ≤ cap →
      ∃ rest', rest'.length = rest.length ∧
        memCut d cap fuel (pre ++ rest ++ z) pre.length rest.length ptrs =
        .ok (pre ++ rest' ++ z, ptrs ++ (starts d.length pre.length ws).tail.map some) ∧
        Slices (pre ++ rest' ++ z) (starts d.length pre.length ws) ws := by
  induction h with
  | last s h0 =>
    intro pre z fuel cap ptrs hf hc
    obtain ⟨fuel, rfl⟩ : ∃ f, fuel = f + 1 := ⟨fuel - 1, by omega⟩
    refine ⟨s, rfl, ?_, ?_⟩
    · unfold memCut
      rw [memmem_mid, searchFrom_none_of h0]
      simp [starts]
    · exact ⟨⟨by simp, by simp⟩, trivial⟩
  | more w r ws h0 hs ih =>
    intro pre z fuel cap ptrs hf hc
    obtain ⟨fuel, rfl⟩ : ∃ f, fuel = f + 1 := ⟨fuel - 1, by omega⟩
    have hd' : 0 < d.length := List.length_pos_iff.2 hd
    have hp := List.length_pos_iff.2 hs.ne_nil
    have hcap : ptrs.length + ws.length ≤ cap := by simpa using hc
    have el := cut_once_length pre w d hd
    have er : (w ++ d ++ r).length - (pre.length + w.length + d.length - pre.length) = r.length := by simp; omega
    obtain ⟨rest', h0', h1, h2⟩ := ih (pre ++ w ++ 0 :: d.tail) z fuel cap
      (ptrs ++ [some (pre.length + w.length + d.length)]) (by simp at hf; omega) (by simp; omega)
    rw [el] at h1 h2
    obtain ⟨w2, ws2, rfl⟩ := List.exists_cons_of_ne_nil hs.ne_nil
    refine ⟨w ++ 0 :: d.tail ++ rest', ?_, ?_, ?_⟩
    · simp [h0']; omega
    · unfold memCut
      rw [memmem_mid, searchFrom_more h0]
      simp only [Res.ok_bind, Option.map_some]
      rw [wr_ok (by simp; omega), cut_once' pre w d r z hd, er]
      simp only [Res.ok_bind, pushPtr]
      rw [if_pos (by simp at hcap; omega)]
      simp only [Res.ok_bind, h1]
      simp [starts]
    · refine ⟨⟨by simp, by simp⟩, ?_⟩
      · have e2 : pre ++ (w ++ 0 :: d.tail ++ rest') ++ z = pre ++ w ++ 0 :: d.tail ++ rest' ++ z := by simp
        rw [e2]
        exact h2

/-! ### explode -/

theorem explodeLoop_spec {d rest ws} (hd : d ≠ []) (h : Split d rest ws) :
    ∀ (pre z : Bytes) (fuel : Nat) (first : Bool) (arr : List Nat), NulFree rest → rest.length < fuel →
      ∃ rest', explodeLoop d fuel (pre ++ rest ++ 0 :: z) pre.length first arr =
        .ok (pre ++ rest' ++ 0 :: z,
          arr ++ (if first && decide (1 < ws.length) then [0] else []) ++ (starts d.length pre.length ws).tail) ∧
        Reads (pre ++ rest' ++ 0 :: z) (starts d.length pre.length ws) ws := by
  induction h with
  | last s h0 =>
    intro pre z fuel first arr hn hf
    obtain ⟨fuel, rfl⟩ : ∃ f, fuel = f + 1 := ⟨fuel - 1, by omega⟩
    refine ⟨s, ?_, ?_⟩
    · unfold explodeLoop
      rw [strstr_mid hn, searchFrom_none_of h0]
      simp [starts]
    · exact ⟨strAt_mid hn, trivial⟩
  | more w r ws h0 hs ih =>
    intro pre z fuel first arr hn hf
    obtain ⟨fuel, rfl⟩ : ∃ f, fuel = f + 1 := ⟨fuel - 1, by omega⟩
    have hd' : 0 < d.length := List.length_pos_iff.2 hd
    have el := cut_once_length pre w d hd
    obtain ⟨rest', h1, h2⟩ := ih (pre ++ w ++ 0 :: d.tail) z fuel false
      ((if first then arr ++ [0] else arr) ++ [pre.length + w.length + d.length]) hn.right (by simp at hf; omega)
    rw [el] at h1 h2
    obtain ⟨w2, ws2, rfl⟩ := List.exists_cons_of_ne_nil hs.ne_nil
    refine ⟨w ++ 0 :: d.tail ++ rest', ?_, ?_⟩
    · unfold explodeLoop
      rw [strstr_mid hn, searchFrom_more h0]
      simp only [Res.ok_bind, Option.map_some]
      rw [wr_ok (by simp), cut_once pre w d r z hd]
      simp only [Res.ok_bind]
      rw [h1]
      cases first <;> simp [starts]
    · refine ⟨?_, ?_⟩
      · exact strAt_mid' (pre := pre) (z := d.tail ++ rest' ++ 0 :: z) hn.left.left (by simp) rfl
      · have e2 : pre ++ (w ++ 0 :: d.tail ++ rest') ++ 0 :: z = pre ++ w ++ 0 :: d.tail ++ rest' ++ 0 :: z := by simp
        rw [e2]
        exact h2

/-! ### replacing -/

theorem Split.hit {d s ws} (hd : d ≠ []) (h : Split d s ws) (hp : d <+: s) :
    ∃ ws', ws = [] :: ws' ∧ Split d (s.drop d.length) ws' := by
  obtain ⟨ws', h'⟩ := Split.exists d hd (s.drop d.length)
  have := Split.of_occ (d := d) (s := s) (i := 0) (ws := ws') ⟨by omega, by simpa using hp⟩ (by simp)
    (by simpa using h')
  exact ⟨ws', by simpa using h.unique this, h'⟩

theorem Split.step {d : Bytes} {c : UInt8} {r : Bytes} {ws} (hd : d ≠ []) (h : Split d (c :: r) ws)
    (hp : ¬ d <+: c :: r) : ∃ w' ws', ws = (c :: w') :: ws' ∧ Split d r (w' :: ws') := by
  obtain ⟨ws', h'⟩ := Split.exists d hd r
  obtain ⟨w', ws', rfl⟩ := List.exists_cons_of_ne_nil h'.ne_nil
  have := Split.drop_prefix (d := d) (s := c :: r) (n := 1) (by simp)
    (by intro i hi ho
        have : i = 0 := by omega
        subst this
        exact hp ho.2) h'
  exact ⟨w', ws', h.unique this, h'⟩

theorem Split.nil {d : Bytes} {ws} (hd : d ≠ []) (h : Split d [] ws) : ws = [[]] := by
  refine h.unique (.last [] ?_)
  intro i ho
  have h1 : i + d.length ≤ 0 := ho.length_le
  have h2 : 0 < d.length := List.length_pos_iff.2 hd
  omega

theorem strstr_here {pre rest z d : Bytes} (hn : NulFree rest) :
    strstr (pre ++ rest ++ 0 :: z) pre.length d = .ok (some pre.length) ∧ d <+: rest ∨
    ∃ q, strstr (pre ++ rest ++ 0 :: z) pre.length d = .ok q ∧ q ≠ some pre.length ∧ ¬ d <+: rest := by
  rw [strstr_mid hn]
  by_cases h : d <+: rest
  · left
    rw [searchFrom_some_of (i := 0) ⟨by omega, by simpa using h⟩ (by simp)]
    simp [h]
  · right
    refine ⟨_, rfl, ?_, h⟩
    intro hc
    cases hf : searchFrom rest d 0 with
    | none => simp [hf] at hc
    | some i =>
      simp [hf] at hc
      subst hc
      exact h (searchFrom_zero_some hf).1.2

theorem swapCount_spec {d : Bytes} (hd : d ≠ []) : ∀ (n : Nat) (rest : Bytes), rest.length = n → ∀ (pre : Bytes) (fuel cnt : Nat) ws,
    Split d rest ws → NulFree rest → rest.length < fuel →
      swapCount (pre ++ rest ++ [0]) d fuel pre.length cnt = .ok (pre.length + rest.length, cnt + (ws.length - 1)) := by
  intro n
  induction n using Nat.strong_induction_on with
  | _ n ih =>
    intro rest hlen pre fuel cnt ws hs hn hf
    obtain ⟨fuel, rfl⟩ : ∃ f, fuel = f + 1 := ⟨fuel - 1, by omega⟩
    have hd' : 0 < d.length := List.length_pos_iff.2 hd
    cases rest with
    | nil =>
      rw [hs.nil hd]
      have : rd (pre ++ [] ++ [0]) pre.length = .ok 0 := by simp [rd]
      unfold swapCount
      rw [this]
      simp
    | cons c r =>
      have hc : c ≠ 0 := hn c (by simp)
      have hrd : rd (pre ++ (c :: r) ++ [0]) pre.length = .ok c := by simp [rd]
      unfold swapCount
      rw [hrd]
      simp only [Res.ok_bind, hc, if_false]
      rcases strstr_here (pre := pre) (z := []) (d := d) hn with ⟨h1, h2⟩ | ⟨q, h1, h2, h3⟩
      · rw [h1]
        simp only [Res.ok_bind, if_true]
        obtain ⟨ws', rfl, h4⟩ := hs.hit hd h2
        obtain ⟨t, ht⟩ := h2
        have e : (c :: r).drop d.length = t := by rw [← ht]; simp
        rw [e] at h4
        have hn' : NulFree t := by rw [← ht] at hn; exact hn.right
        have hl : d.length + t.length = (c :: r).length := by rw [← ht]; simp
        have := ih t.length (by omega) t rfl (pre ++ d) fuel (cnt + 1) ws' h4 hn' (by omega)
        have e2 : pre ++ c :: r ++ [0] = pre ++ d ++ t ++ [0] := by rw [← ht]; simp
        rw [e2, show pre.length + d.length = (pre ++ d).length by simp, this]
        have := List.length_pos_iff.2 h4.ne_nil
        rw [← hl]
        simp; omega
      · rw [h1]
        simp only [Res.ok_bind]
        rw [if_neg h2]
        obtain ⟨w', ws', rfl, h4⟩ := hs.step hd h3
        have hn' : NulFree r := fun x hx => hn x (by simp [hx])
        have := ih r.length (by simp at hlen; omega) r rfl (pre ++ [c]) fuel cnt _ h4 hn' (by simp at hf; omega)
        have e2 : pre ++ c :: r ++ [0] = pre ++ [c] ++ r ++ [0] := by simp
        rw [e2, show pre.length + 1 = (pre ++ [c]).length by simp, this]
        simp; omega

theorem swapLoop_spec {d sw : Bytes} (hd : d ≠ []) : ∀ (n : Nat) (rest : Bytes), rest.length = n →
    ∀ (pre done free : Bytes) (fuel : Nat) ws,
    Split d rest ws → NulFree rest → rest.length < fuel → (sw.intercalate ws).length ≤ free.length →
      swapLoop (pre ++ rest ++ [0]) d sw fuel (done ++ free) pre.length done.length =
        .ok (done ++ sw.intercalate ws ++ free.drop (sw.intercalate ws).length,
          done.length + (sw.intercalate ws).length) := by
  intro n
  induction n using Nat.strong_induction_on with
  | _ n ih =>
    intro rest hlen pre done free fuel ws hs hn hf hfree
    obtain ⟨fuel, rfl⟩ : ∃ f, fuel = f + 1 := ⟨fuel - 1, by omega⟩
    have hd' : 0 < d.length := List.length_pos_iff.2 hd
    cases rest with
    | nil =>
      rw [hs.nil hd]
      have : rd (pre ++ [] ++ [0]) pre.length = .ok 0 := by simp [rd]
      unfold swapLoop
      rw [this]
      simp [List.intercalate]
    | cons c r =>
      have hc : c ≠ 0 := hn c (by simp)
      have hrd : rd (pre ++ (c :: r) ++ [0]) pre.length = .ok c := by simp [rd]
      unfold swapLoop
      rw [hrd]
      simp only [Res.ok_bind, hc, if_false]
      rcases strstr_here (pre := pre) (z := []) (d := d) hn with ⟨h1, h2⟩ | ⟨q, h1, h2, h3⟩
      · rw [h1]
        simp only [Res.ok_bind, if_true]
        obtain ⟨ws', rfl, h4⟩ := hs.hit hd h2
        obtain ⟨t, ht⟩ := h2
        have e : (c :: r).drop d.length = t := by rw [← ht]; simp
        rw [e] at h4
        have hn' : NulFree t := by rw [← ht] at hn; exact hn.right
        have hl : d.length + t.length = (c :: r).length := by rw [← ht]; simp
        have hj : sw.intercalate ([] :: ws') = sw ++ sw.intercalate ws' := by
          obtain ⟨a, l, rfl⟩ := List.exists_cons_of_ne_nil h4.ne_nil
          simp [List.intercalate, List.intersperse]
        rw [hj] at hfree ⊢
        simp only [List.length_append] at hfree
        have := ih t.length (by omega) t rfl (pre ++ d) (done ++ sw) (free.drop sw.length) fuel ws' h4 hn' (by omega)
          (by simp; omega)
        have e2 : pre ++ c :: r ++ [0] = pre ++ d ++ t ++ [0] := by rw [← ht]; simp
        rw [memcpy_ok (by omega) (by simp; omega)]
        simp only [Res.ok_bind]
        have e3 : List.take done.length (done ++ free) ++ List.take sw.length (List.drop 0 sw) ++
            List.drop (done.length + sw.length) (done ++ free) = (done ++ sw) ++ free.drop sw.length := by
          rw [← List.drop_drop]
          simp
        rw [e2, e3, show pre.length + d.length = (pre ++ d).length by simp,
          show done.length + sw.length = (done ++ sw).length by simp, this]
        simp only [List.append_assoc, List.length_append, List.drop_drop, Nat.add_assoc]
      · rw [h1]
        simp only [Res.ok_bind]
        rw [if_neg h2]
        obtain ⟨w', ws', rfl, h4⟩ := hs.step hd h3
        have hn' : NulFree r := fun x hx => hn x (by simp [hx])
        have hj : sw.intercalate ((c :: w') :: ws') = c :: sw.intercalate (w' :: ws') := by
          cases ws' <;> simp [List.intercalate, List.intersperse]
        rw [hj] at hfree ⊢
        simp only [List.length_cons] at hfree
        obtain ⟨x, free, rfl⟩ := List.exists_cons_of_ne_nil (l := free) (by intro h; subst h; simp at hfree)
        have := ih r.length (by simp at hlen; omega) r rfl (pre ++ [c]) (done ++ [c]) free fuel _ h4 hn' (by simp at hf; omega)
          (by simp at hfree; omega)
        have e2 : pre ++ c :: r ++ [0] = pre ++ [c] ++ r ++ [0] := by simp
        rw [wr_ok (by simp)]
        simp only [Res.ok_bind]
        have e3 : (done ++ x :: free).set done.length c = (done ++ [c]) ++ free := by
          rw [List.set_append_right _ _ (by omega)]; simp
        rw [e2, e3, show pre.length + 1 = (pre ++ [c]).length by simp,
          show done.length + 1 = (done ++ [c]).length by simp, this]
        simp; omega

theorem intercalate_length (x : Bytes) (ws : List Bytes) :
    (x.intercalate ws).length = (ws.map List.length).sum + (ws.length - 1) * x.length := by
  induction ws with
  | nil => simp [List.intercalate]
  | cons w ws ih =>
    cases ws with
    | nil => simp [List.intercalate]
    | cons w2 ws =>
      have e : x.intercalate (w :: w2 :: ws) = w ++ x ++ x.intercalate (w2 :: ws) := by
        simp [List.intercalate, List.intersperse]
      rw [e, List.length_append, List.length_append, ih]
      simp [Nat.add_mul]
      omega

theorem intercalate_nulFree {x : Bytes} {ws : List Bytes} (hx : NulFree x) (hw : ∀ w ∈ ws, NulFree w) :
    NulFree (x.intercalate ws) := by
  induction ws with
  | nil => simp [List.intercalate, NulFree]
  | cons w ws ih =>
    cases ws with
    | nil => simpa [List.intercalate] using hw w (by simp)
    | cons w2 ws =>
      have e : x.intercalate (w :: w2 :: ws) = w ++ x ++ x.intercalate (w2 :: ws) := by
        simp [List.intercalate, List.intersperse]
      rw [e]
      exact ((hw w (by simp)).append hx).append (ih fun v hv => hw v (by simp [hv]))

theorem Split.nulFree {d s ws} (h : Split d s ws) (hs : NulFree s) : ∀ w ∈ ws, NulFree w := by
  induction h with
  | last s _ => simpa using hs
  | more w r ws _ _ ih =>
    intro x hx
    rcases List.mem_cons.1 hx with rfl | hx
    · exact hs.left.left
    · exact ih hs.right x hx

end Verif.Str
