import Verif.Str.Misc
import Verif.Str.MiscSpec
import Verif.Str.SplitLemmas

namespace Verif.Str

/-! ### repeat -/

@[simp] theorem rep_length (s : Bytes) (k : Nat) : (rep s k).length = k * s.length := by
  simp [rep]

theorem rep_add (s : Bytes) (a b : Nat) : rep s (a + b) = rep s a ++ rep s b := by
  unfold rep
  rw [List.replicate_add, List.flatten_append]

theorem memcpy_calloc_fill (P : Bytes) (n l : Nat) (src : Bytes) (hl : l ≤ src.length) (hn : l ≤ n) :
    memcpy (P ++ List.replicate n 0) P.length src 0 l = .ok (P ++ src.take l ++ List.replicate (n - l) 0) := by
  rw [memcpy_ok (by omega) (by simp; omega)]
  simp

theorem repeatLoop_spec (s : Bytes) (hs : 0 < s.length) (mult tail : Nat) :
    ∀ (f c : Nat), 0 < c → c ≤ mult → mult < f + c →
      repeatLoop (s.length * mult) f (rep s c ++ List.replicate ((mult - c) * s.length + tail) 0) (c * s.length) =
        .ok (rep s mult ++ List.replicate tail 0) := by
  intro f
  induction f with
  | zero => intro c _ h1 h2; omega
  | succ f ih =>
    intro c hc h1 h2
    unfold repeatLoop
    rcases Nat.eq_or_lt_of_le h1 with rfl | hlt
    · rw [if_neg (by rw [Nat.mul_comm]; omega)]
      simp
    · have hmul : c * s.length < s.length * mult := by
        rw [Nat.mul_comm]; exact Nat.mul_lt_mul_of_pos_left hlt hs
      rw [if_pos hmul]
      have hl : (if c * s.length < s.length * mult - c * s.length then c * s.length
          else s.length * mult - c * s.length) = min c (mult - c) * s.length := by
        have e : s.length * mult - c * s.length = (mult - c) * s.length := by
          rw [Nat.mul_comm s.length, ← Nat.sub_mul]
        rw [e]
        rcases Nat.lt_or_ge c (mult - c) with h | h
        · rw [if_pos (Nat.mul_lt_mul_of_pos_right h hs), Nat.min_eq_left (by omega)]
        · rw [if_neg (by have := Nat.mul_le_mul_right s.length h; omega), Nat.min_eq_right h]
      rw [hl]
      obtain ⟨m, hm⟩ : ∃ m, m = min c (mult - c) := ⟨_, rfl⟩
      rw [← hm]
      clear hl
      have hm1 : 1 ≤ m := by omega
      have hm2 : m ≤ c := by omega
      have hm3 : m ≤ mult - c := by omega
      have hle : m * s.length ≤ (mult - c) * s.length := Nat.mul_le_mul_right _ hm3
      have hle2 : m * s.length ≤ c * s.length := Nat.mul_le_mul_right _ hm2
      have hcopy := memcpy_calloc_fill (rep s c) ((mult - c) * s.length + tail) (m * s.length)
        (rep s c ++ List.replicate ((mult - c) * s.length + tail) 0) (by simp; omega) (by omega)
      rw [rep_length] at hcopy
      have hcopy' : memcpy (rep s c ++ List.replicate ((mult - c) * s.length + tail) 0) (c * s.length)
          (rep s c ++ List.replicate ((mult - c) * s.length + tail) 0) 0 (m * s.length) =
          .ok (rep s (c + m) ++ List.replicate ((mult - (c + m)) * s.length + tail) 0) := by
        rw [hcopy]
        congr 1
        have e1 : List.take (m * s.length) (rep s c ++ List.replicate ((mult - c) * s.length + tail) 0) = rep s m := by
          obtain ⟨d, rfl⟩ : ∃ d, c = m + d := ⟨c - m, by omega⟩
          rw [rep_add, List.append_assoc, List.take_append_of_le_length (by simp),
            List.take_of_length_le (by simp)]
        have e2 : (mult - c) * s.length + tail - m * s.length = (mult - (c + m)) * s.length + tail := by
          rw [← Nat.sub_sub, Nat.sub_mul (mult - c) m]
          omega
        rw [e1, e2, rep_add]
      simp only [hcopy', Res.ok_bind]
      have := ih (c + m) (by omega) (by omega) (by omega)
      rw [Nat.add_mul] at this
      exact this

/-! ### pad -/

@[simp] theorem cycle_length (pad : Bytes) (n : Nat) : (cycle pad n).length = n := by simp [cycle]

theorem cycle_nulFree {pad : Bytes} (h : NulFree pad) (hne : pad ≠ []) (n : Nat) : NulFree (cycle pad n) := by
  intro b hb
  simp only [cycle, List.mem_map, List.mem_range] at hb
  obtain ⟨i, _, rfl⟩ := hb
  have hl : i % pad.length < pad.length := Nat.mod_lt _ (List.length_pos_iff.2 hne)
  rw [List.getD_eq_getElem?_getD, List.getElem?_eq_getElem hl, Option.getD_some]
  exact h _ (List.getElem_mem _)

theorem padLoop_spec (p : Bytes) (hp : p ≠ []) : ∀ (r i : Nat) (done : Bytes) (n : Nat), r ≤ n →
    padLoop (cstr p) p.length r i (done ++ List.replicate n 0) done.length =
      .ok (done ++ (List.range r).map (fun k => p.getD ((i + k) % p.length) 0) ++ List.replicate (n - r) 0,
        done.length + r) := by
  have hpos : 0 < p.length := List.length_pos_iff.2 hp
  intro r
  induction r with
  | zero => intro i done n _; simp [padLoop]
  | succ r ih =>
    intro i done n hn
    obtain ⟨n, rfl⟩ : ∃ m, n = m + 1 := ⟨n - 1, by omega⟩
    have hl : i % p.length < p.length := Nat.mod_lt _ hpos
    unfold padLoop
    rw [if_neg (by omega), rd_cstr_lt hl]
    simp only [Res.ok_bind]
    have hw : wr (done ++ List.replicate (n + 1) 0) done.length p[i % p.length] =
        .ok ((done ++ [p[i % p.length]]) ++ List.replicate n 0) := by
      rw [wr_ok (by simp), List.set_append_right _ _ (by omega)]
      simp [List.replicate_succ]
    simp only [hw, Res.ok_bind]
    have := ih (i + 1) (done ++ [p[i % p.length]]) n (by omega)
    rw [show (done ++ [p[i % p.length]]).length = done.length + 1 by simp] at this
    rw [this, List.range_succ_eq_map, Nat.add_sub_add_right]
    have e : (fun k => p.getD ((i + 1 + k) % p.length) 0) = (fun k => p.getD ((i + (k + 1)) % p.length) 0) := by
      funext k; rw [show i + 1 + k = i + (k + 1) by omega]
    simp only [List.map_cons, List.map_map, Function.comp_def, e, Nat.add_zero]
    rw [List.getD_eq_getElem?_getD, List.getElem?_eq_getElem hl, Option.getD_some]
    simp; omega

theorem padLoop_cycle (p : Bytes) (hp : p ≠ []) (r : Nat) (done : Bytes) (n : Nat) (h : r ≤ n) :
    padLoop (cstr p) p.length r 0 (done ++ List.replicate n 0) done.length =
      .ok (done ++ cycle p r ++ List.replicate (n - r) 0, done.length + r) := by
  have := padLoop_spec p hp r 0 done n h
  simpa [cycle] using this

/-! ### bounded copy -/

theorem lcpyLoop_spec : ∀ (rest pre free : Bytes) (n : Nat), NulFree rest → n < free.length → rest.length ≥ n ∨ True →
    lcpyLoop (pre ++ rest ++ [0]) (n + 1) (pre ++ free) pre.length =
      .ok (pre ++ rest.take n ++ free.drop (min n rest.length), pre.length + min n rest.length)
  | rest, pre, free, 0, _, _, _ => by simp [lcpyLoop]
  | [], pre, free, n + 1, _, _, _ => by
    have : rd (pre ++ [] ++ [0]) pre.length = .ok 0 := by simp [rd]
    unfold lcpyLoop
    rw [this]
    simp
  | c :: r, pre, f :: free, n + 1, hn, hf, _ => by
    have hc : c ≠ 0 := hn c (by simp)
    have hrd : rd (pre ++ (c :: r) ++ [0]) pre.length = .ok c := by simp [rd]
    have hw : wr (pre ++ f :: free) pre.length c = .ok ((pre ++ [c]) ++ free) := by
      rw [wr_ok (by simp), List.set_append_right _ _ (by omega)]; simp
    have ih := lcpyLoop_spec r (pre ++ [c]) free n (fun x hx => hn x (by simp [hx])) (by simpa using hf) (.inr trivial)
    unfold lcpyLoop
    rw [hrd]
    simp only [Res.ok_bind, if_neg hc, hw]
    rw [show pre ++ c :: r ++ [0] = pre ++ [c] ++ r ++ [0] by simp,
      show pre.length + 1 = (pre ++ [c]).length by simp, ih]
    simp only [List.length_append, List.length_cons, List.length_nil, List.take_succ_cons, Nat.zero_add,
      Nat.succ_min_succ, List.drop_succ_cons, List.append_assoc, List.cons_append, List.nil_append]
    rw [show pre.length + 1 + min n r.length = pre.length + (min n r.length + 1) by omega]
  | _ :: _, pre, [], n + 1, _, hf, _ => by simp at hf

/-! ### case -/

theorem caseLoop_spec : ∀ (n : Nat) (a b prea preb : Bytes), prea.length = preb.length → NulFree a → NulFree b →
    caseLoop (prea ++ a ++ [0]) (preb ++ b ++ [0]) n prea.length =
      .ok (decide ((a.take n).map toLower = (b.take n).map toLower)) := by
  have low0 : ∀ c : UInt8, c ≠ 0 → toLower c ≠ 0 := by
    have : ∀ k : Fin 256, UInt8.ofNat k.1 ≠ 0 → toLower (UInt8.ofNat k.1) ≠ 0 := by decide +kernel
    intro c
    have h := this ⟨c.toNat, c.toNat_lt⟩
    simpa [UInt8.ofNat_toNat] using h
  have z : toLower 0 = 0 := by decide
  intro n
  induction n with
  | zero => intro a b prea preb _ _ _; simp [caseLoop]
  | succ n ih =>
    intro a b prea preb hl ha hb
    unfold caseLoop
    cases a with
    | nil =>
      have r1 : rd (prea ++ [] ++ [0]) prea.length = .ok 0 := by simp [rd]
      rw [r1]
      cases b with
      | nil =>
        have r2 : rd (preb ++ [] ++ [0]) prea.length = .ok 0 := by rw [hl]; simp [rd]
        rw [r2]
        simp
      | cons y b =>
        have r2 : rd (preb ++ (y :: b) ++ [0]) prea.length = .ok y := by rw [hl]; simp [rd]
        have hy := low0 y (hb y (by simp))
        rw [r2]
        simp only [Res.ok_bind, z]
        rw [if_neg (Ne.symm hy)]
        simp
    | cons x a =>
      have r1 : rd (prea ++ (x :: a) ++ [0]) prea.length = .ok x := by simp [rd]
      have hx0 := ha x (by simp)
      have hx := low0 x hx0
      rw [r1]
      cases b with
      | nil =>
        have r2 : rd (preb ++ [] ++ [0]) prea.length = .ok 0 := by rw [hl]; simp [rd]
        rw [r2]
        simp only [Res.ok_bind, z]
        rw [if_neg hx]
        simp
      | cons y b =>
        have r2 : rd (preb ++ (y :: b) ++ [0]) prea.length = .ok y := by rw [hl]; simp [rd]
        rw [r2]
        simp only [Res.ok_bind]
        by_cases he : toLower x = toLower y
        · rw [if_pos he, if_neg hx0]
          have := ih a b (prea ++ [x]) (preb ++ [y]) (by simp [hl]) (fun c hc => ha c (by simp [hc]))
            (fun c hc => hb c (by simp [hc]))
          rw [show (prea ++ [x]).length = prea.length + 1 by simp] at this
          rw [show prea ++ x :: a ++ [0] = prea ++ [x] ++ a ++ [0] by simp,
            show preb ++ y :: b ++ [0] = preb ++ [y] ++ b ++ [0] by simp, this]
          simp [he]
        · rw [if_neg he]
          simp [he]

/-! ### trim -/

theorem ltrimLoop_spec : ∀ (l pre post : Bytes) (c : UInt8) (f : Nat), (∀ b ∈ l, isSpace b = true) → isSpace c = false →
    l.length < f → ltrimLoop (pre ++ l ++ c :: post) f pre.length = .ok (pre.length + l.length)
  | [], pre, post, c, f, _, hc, hf => by
    obtain ⟨f, rfl⟩ : ∃ g, f = g + 1 := ⟨f - 1, by simp at hf; omega⟩
    have : rd (pre ++ [] ++ c :: post) pre.length = .ok c := by simp [rd]
    unfold ltrimLoop
    rw [this]
    simp [hc]
  | b :: l, pre, post, c, f, hl, hc, hf => by
    obtain ⟨f, rfl⟩ : ∃ g, f = g + 1 := ⟨f - 1, by simp at hf; omega⟩
    have hr : rd (pre ++ (b :: l) ++ c :: post) pre.length = .ok b := by simp [rd]
    have ih := ltrimLoop_spec l (pre ++ [b]) post c f (fun x hx => hl x (by simp [hx])) hc (by simp at hf; omega)
    unfold ltrimLoop
    rw [hr]
    simp only [Res.ok_bind, hl b (by simp), if_true]
    rw [show pre ++ b :: l ++ c :: post = pre ++ [b] ++ l ++ c :: post by simp,
      show pre.length + 1 = (pre ++ [b]).length by simp, ih]
    simp; omega

theorem rtrimLoop_spec (c : UInt8) (hc : isSpace c = false) (pre : Bytes) : ∀ (r post : Bytes),
    (∀ b ∈ r, isSpace b = true) →
    rtrimLoop (pre ++ [c] ++ r ++ post) (pre.length + 1 + r.length) = .ok pre.length := by
  intro r
  induction r using List.reverseRecOn with
  | nil =>
    intro post _
    have : rd (pre ++ [c] ++ [] ++ post) pre.length = .ok c := by simp [rd]
    simp only [List.length_nil, Nat.add_zero, rtrimLoop]
    rw [this]
    simp [hc]
  | append_singleton r b ih =>
    intro post hr
    have hrd : rd (pre ++ [c] ++ (r ++ [b]) ++ post) (pre.length + 1 + r.length) = .ok b := by
      have : pre ++ [c] ++ (r ++ [b]) ++ post = (pre ++ [c] ++ r) ++ b :: post := by simp
      rw [this, show pre.length + 1 + r.length = (pre ++ [c] ++ r).length by simp; omega]
      simp only [rd]
      rw [List.getElem?_append_right (Nat.le_refl _)]
      simp
    rw [show pre.length + 1 + (r ++ [b]).length = (pre.length + 1 + r.length) + 1 by simp; omega]
    unfold rtrimLoop
    rw [hrd]
    simp only [Res.ok_bind, hr b (by simp), if_true]
    have := ih (b :: post) (fun x hx => hr x (by simp [hx]))
    rw [show pre ++ [c] ++ (r ++ [b]) ++ post = pre ++ [c] ++ r ++ b :: post by simp]
    exact this

theorem rtrimLoop_all_space : ∀ (s post : Bytes) (k : Nat), (∀ b ∈ s, isSpace b = true) → k ≤ s.length →
    rtrimLoop (s ++ post) k = .ub := by
  intro s post k hs
  induction k with
  | zero => intro _; rfl
  | succ k ih =>
    intro hk
    have hrd : rd (s ++ post) k = .ok s[k] := by
      simp only [rd]
      rw [List.getElem?_append_left (by omega), List.getElem?_eq_getElem (by omega)]
    unfold rtrimLoop
    rw [hrd]
    simp only [Res.ok_bind, hs _ (List.getElem_mem _), if_true]
    exact ih (by omega)

/-! ### decimal numerals -/

theorem utoa2p_spec {x : Nat} (h : x < 100) :
    utoa2p x = .ok (UInt8.ofNat (48 + x / 10), UInt8.ofNat (48 + x % 10)) := by
  have : ∀ k : Fin 100, utoa2p k.1 = .ok (UInt8.ofNat (48 + k.1 / 10), UInt8.ofNat (48 + k.1 % 10)) := by
    decide +kernel
  exact this ⟨x, h⟩

theorem digit_toNat {v : Nat} (h : v < 10) : (UInt8.ofNat (48 + v)).toNat = 48 + v := by
  simp; omega

theorem decValue_snoc2 (D : Bytes) {x : Nat} (hx : x < 100) :
    decValue (D ++ [UInt8.ofNat (48 + x / 10), UInt8.ofNat (48 + x % 10)]) = decValue D * 100 + x := by
  unfold decValue
  rw [List.foldl_append]
  simp only [List.foldl_cons, List.foldl_nil, digit_toNat (show x / 10 < 10 by omega),
    digit_toNat (show x % 10 < 10 by omega)]
  omega

theorem two_writes {tmp : Bytes} {p : Nat} (hp : 2 ≤ p) (hl : p ≤ tmp.length) (a b : UInt8) :
    ∃ t, (do let t ← wr tmp (p - 2) a; wr t (p - 2 + 1) b) = .ok t ∧ t.length = tmp.length ∧
      t.drop (p - 2) = a :: b :: tmp.drop p := by
  refine ⟨(tmp.set (p - 2) a).set (p - 2 + 1) b, ?_, by simp, ?_⟩
  · rw [wr_ok (by omega)]
    simp only [Res.ok_bind]
    rw [wr_ok (by simp; omega)]
  · rw [List.drop_set, if_neg (by omega), List.drop_set, if_neg (by omega)]
    have h1 : p - 2 < tmp.length := by omega
    have h2 : p - 2 + 1 < tmp.length := by omega
    rw [List.drop_eq_getElem_cons h1, List.drop_eq_getElem_cons h2, show p - 2 + 1 + 1 = p by omega]
    simp

theorem itoaLoop_spec : ∀ (k f x : Nat) (tmp : Bytes) (p : Nat), x < 100 ^ (k + 1) → k + 1 ≤ f → 2 * (k + 1) ≤ p →
    p ≤ tmp.length → ∃ tmp' p' D, itoaLoop f x tmp p = .ok (tmp', p') ∧ tmp'.length = tmp.length ∧
      p' + D.length = p ∧ tmp'.drop p' = D ++ tmp.drop p ∧ IsDecimal D x ∧ D.length ≤ 2 * (k + 1) := by
  intro k
  induction k with
  | zero =>
    intro f x tmp p hx hf hp hl
    obtain ⟨f, rfl⟩ : ∃ g, f = g + 1 := ⟨f - 1, by omega⟩
    simp only [Nat.zero_add, Nat.pow_one] at hx
    obtain ⟨t, h1, h2, h3⟩ := two_writes (show 2 ≤ p by omega) hl (UInt8.ofNat (48 + x / 10)) (UInt8.ofNat (48 + x % 10))
    unfold itoaLoop
    rw [if_neg (by omega), if_neg (by omega), utoa2p_spec hx]
    simp only [Res.ok_bind]
    obtain ⟨t1, e1, e2⟩ := Res.bind_eq_ok.1 h1
    simp only [e1, Res.ok_bind, e2]
    by_cases h10 : x < 10
    · rw [if_pos h10]
      refine ⟨t, _, [UInt8.ofNat (48 + x % 10)], rfl, h2, by simp; omega, ?_, ⟨by simp, ?_, by simp, ?_⟩, by simp⟩
      · rw [← List.drop_drop, h3]; simp
      · intro c hc
        rw [List.mem_singleton.1 hc, digit_toNat (by omega)]
        omega
      · unfold decValue
        simp only [List.foldl_cons, List.foldl_nil, digit_toNat (show x % 10 < 10 by omega)]
        omega
    · rw [if_neg h10]
      refine ⟨t, _, [UInt8.ofNat (48 + x / 10), UInt8.ofNat (48 + x % 10)], rfl, h2, by simp; omega, ?_,
        ⟨by simp, ?_, ?_, ?_⟩, by simp⟩
      · simpa using h3
      · intro c hc
        simp only [List.mem_cons, List.not_mem_nil, or_false] at hc
        rcases hc with rfl | rfl
        · rw [digit_toNat (by omega)]; omega
        · rw [digit_toNat (by omega)]; omega
      · intro _ hh
        have := congrArg UInt8.toNat (Option.some.inj hh)
        rw [digit_toNat (by omega)] at this
        have h48 : (48 : UInt8).toNat = 48 := rfl
        omega
      · have := decValue_snoc2 [] hx
        simpa [decValue] using this
  | succ k ih =>
    intro f x tmp p hx hf hp hl
    by_cases h100 : x ≥ 100
    · obtain ⟨f, rfl⟩ : ∃ g, f = g + 1 := ⟨f - 1, by omega⟩
      obtain ⟨t, h1, h2, h3⟩ := two_writes (show 2 ≤ p by omega) hl (UInt8.ofNat (48 + x % 100 / 10))
        (UInt8.ofNat (48 + x % 100 % 10))
      obtain ⟨t1, e1, e2⟩ := Res.bind_eq_ok.1 h1
      obtain ⟨tmp', p', D, g1, g2, g3, g4, g5, g6⟩ := ih f (x / 100) t (p - 2)
        (by rw [Nat.div_lt_iff_lt_mul (by omega)]; rw [Nat.pow_succ] at hx; exact hx) (by omega) (by omega) (by omega)
      unfold itoaLoop
      rw [if_neg (by omega), if_pos h100, utoa2p_spec (Nat.mod_lt _ (by omega))]
      simp only [Res.ok_bind, e1, e2]
      refine ⟨tmp', p', D ++ [UInt8.ofNat (48 + x % 100 / 10), UInt8.ofNat (48 + x % 100 % 10)], g1, by omega,
        by simp; omega, ?_, ⟨by simp, ?_, ?_, ?_⟩, by simp; omega⟩
      · rw [g4, h3]; simp
      · intro c hc
        rcases List.mem_append.1 hc with hc | hc
        · exact g5.2.1 c hc
        · simp only [List.mem_cons, List.not_mem_nil, or_false] at hc
          rcases hc with rfl | rfl
          · rw [digit_toNat (by omega)]; omega
          · rw [digit_toNat (by omega)]; omega
      · intro _
        have hD := g5.1
        obtain ⟨d0, D', rfl⟩ := List.exists_cons_of_ne_nil hD
        rcases Nat.lt_or_ge 1 (d0 :: D').length with h | h
        · have := g5.2.2.1 h
          simpa using this
        · have : D' = [] := by
            cases D' with
            | nil => rfl
            | cons => simp at h
          subst this
          intro hh
          have h0 : d0 = 48 := by simpa using hh
          have hv := g5.2.2.2
          rw [h0] at hv
          simp [decValue] at hv
          omega
      · rw [decValue_snoc2 _ (Nat.mod_lt _ (by omega)), g5.2.2.2]
        omega
    · obtain ⟨tmp', p', D, g1, g2, g3, g4, g5, g6⟩ := ih f x tmp p
        (by have : 100 ^ 1 ≤ 100 ^ (k + 1) := Nat.pow_le_pow_right (by omega) (by omega); omega) (by omega) (by omega) hl
      exact ⟨tmp', p', D, g1, g2, g3, g4, g5, by omega⟩

end Verif.Str
