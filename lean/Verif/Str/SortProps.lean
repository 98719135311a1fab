import Verif.Str.Sort

/-!
# C18: `memsort` sorts
-/

namespace Verif.Sort

variable {α : Type}

theorem lget_ok {a : List α} {i : Nat} (h : i < a.length) : lget a i = .ok a[i] := by simp [lget, h]
theorem lput_ok {a : List α} {i : Nat} {v : α} (h : i < a.length) : lput a i v = .ok (a.set i v) := by simp [lput, h]

theorem swap_perm (a : List α) {i k : Nat} (hik : i < k) (hk : k < a.length) (t : α) :
    ((a.set k (a[i]'(by omega))).set i t).Perm (a.set k t) := by
  have hi : i < a.length := by omega
  have e1 : a.set k t = a.take i ++ a[i] :: ((a.set k t).drop (i + 1)) := by
    conv_lhs => rw [← List.take_append_drop i (a.set k t)]
    rw [List.take_set_of_le (by omega), List.drop_eq_getElem_cons (by simpa using hi), List.getElem_set_ne (by omega)]
  have e2 : (a.set k a[i]).set i t = a.take i ++ t :: ((a.set k a[i]).drop (i + 1)) := by
    rw [List.set_eq_take_append_cons_drop, if_pos (by simpa using hi), List.take_set_of_le (by omega)]
  rw [e1, e2]
  refine List.Perm.append_left _ ?_
  have d : ∀ x : α, (a.set k x).drop (i + 1) = (a.drop (i + 1)).set (k - (i + 1)) x := by
    intro x
    rw [List.drop_set, if_neg (by omega)]
  rw [d, d]
  set l := a.drop (i + 1) with hl
  have hlen : k - (i + 1) < l.length := by simp [hl]; omega
  rw [List.set_eq_take_append_cons_drop, if_pos hlen, List.set_eq_take_append_cons_drop, if_pos hlen]
  set p := l.take (k - (i + 1))
  set q := l.drop (k - (i + 1) + 1)
  -- t :: p ++ x :: q  ~  x :: p ++ t :: q
  calc (t :: (p ++ a[i] :: q)).Perm (t :: a[i] :: (p ++ q)) := (List.perm_middle).cons t
    _ |>.Perm (a[i] :: t :: (p ++ q)) := List.Perm.swap _ _ _
    _ |>.Perm (a[i] :: (p ++ t :: q)) := (List.perm_middle.symm).cons _

theorem insertLoop_perm (cmp : α → α → Int) {gap : Nat} (hg : 0 < gap) (tmp : α) :
    ∀ (f : Nat) (a : List α) (k : Nat), k < a.length →
      ∃ a' k', insertLoop cmp gap tmp f a k = .ok (a', k') ∧ a'.length = a.length ∧ k' ≤ k ∧
        (a'.set k' tmp).Perm (a.set k tmp) := by
  intro f
  induction f with
  | zero => intro a k hk; exact ⟨a, k, rfl, rfl, Nat.le_refl _, .refl _⟩
  | succ f ih =>
    intro a k hk
    unfold insertLoop
    by_cases h : k ≥ gap
    · rw [if_pos h, lget_ok (by omega)]
      simp only [Res.ok_bind]
      by_cases hc : cmp (a[k - gap]'(by omega)) tmp > 0
      · rw [if_pos hc, lput_ok hk]
        simp only [Res.ok_bind]
        obtain ⟨a', k', h1, h2, h3, h4⟩ := ih (a.set k (a[k - gap]'(by omega))) (k - gap) (by simp; omega)
        exact ⟨a', k', h1, by simpa using h2, by omega, h4.trans (swap_perm a (by omega) hk tmp)⟩
      · rw [if_neg hc]
        exact ⟨a, k, rfl, rfl, Nat.le_refl _, .refl _⟩
    · rw [if_neg h]
      exact ⟨a, k, rfl, rfl, Nat.le_refl _, .refl _⟩

theorem insertOne_perm (cmp : α → α → Int) {gap : Nat} (hg : 0 < gap) (a : List α) {j : Nat} (hj : j < a.length) :
    ∃ a', insertOne cmp gap a j = .ok a' ∧ a'.Perm a := by
  obtain ⟨a', k', h1, h2, h3, h4⟩ := insertLoop_perm cmp hg a[j] j a j hj
  refine ⟨a'.set k' a[j], ?_, ?_⟩
  · simp only [insertOne, lget_ok hj, Res.ok_bind, h1]
    rw [lput_ok (by omega)]
  · simpa using h4

theorem strideLoop_perm (cmp : α → α → Int) {gap : Nat} (hg : 0 < gap) :
    ∀ (f : Nat) (a : List α) (j : Nat), ∃ a', strideLoop cmp gap a.length f a j = .ok a' ∧ a'.Perm a := by
  intro f
  induction f with
  | zero => intro a j; exact ⟨a, rfl, .refl _⟩
  | succ f ih =>
    intro a j
    unfold strideLoop
    by_cases hj : j < a.length
    · rw [if_pos hj]
      obtain ⟨a1, h1, p1⟩ := insertOne_perm cmp hg a hj
      obtain ⟨a2, h2, p2⟩ := ih a1 (j + gap)
      rw [p1.length_eq] at h2
      simp only [h1, Res.ok_bind]
      exact ⟨a2, h2, p2.trans p1⟩
    · rw [if_neg hj]
      exact ⟨a, rfl, .refl _⟩

theorem gapLoop_perm (cmp : α → α → Int) {gap : Nat} (hg : 0 < gap) :
    ∀ (r : Nat) (a : List α) (i : Nat), ∃ a', gapLoop cmp gap a.length r a i = .ok a' ∧ a'.Perm a := by
  intro r
  induction r with
  | zero => intro a i; exact ⟨a, rfl, .refl _⟩
  | succ r ih =>
    intro a i
    obtain ⟨a1, h1, p1⟩ := strideLoop_perm cmp hg a.length a i
    obtain ⟨a2, h2, p2⟩ := ih a1 (i + 1)
    rw [p1.length_eq] at h2
    exact ⟨a2, by simp only [gapLoop, h1, Res.ok_bind, h2], p2.trans p1⟩

theorem gapsLoop_perm (cmp : α → α → Int) : ∀ (gs : List Nat), (∀ g ∈ gs, 0 < g) → ∀ (a : List α),
    ∃ a', gapsLoop cmp a.length gs a = .ok a' ∧ a'.Perm a := by
  intro gs
  induction gs with
  | nil => intro _ a; exact ⟨a, rfl, .refl _⟩
  | cons g gs ih =>
    intro hp a
    unfold gapsLoop
    by_cases h : g > a.length / 2
    · rw [if_pos h]
      exact ih (fun x hx => hp x (by simp [hx])) a
    · rw [if_neg h]
      obtain ⟨a1, h1, p1⟩ := gapLoop_perm cmp (hp g (by simp)) g a 0
      obtain ⟨a2, h2, p2⟩ := ih (fun x hx => hp x (by simp [hx])) a1
      rw [p1.length_eq] at h2
      exact ⟨a2, by simp only [h1, Res.ok_bind, h2], p2.trans p1⟩

/-- C18, first half: for *every* comparison function, consistent or not, `memsort` terminates without leaving the
array and the result is a permutation of the input. -/
theorem memsort_permutes (cmp : α → α → Int) (a : List α) : ∃ b, memsort cmp a = .ok b ∧ b.Perm a :=
  gapsLoop_perm cmp gaps (by decide) a

/-! ### sortedness: the last pass has gap 1 -/

theorem insertLoop_gap1 (cmp : α → α → Int) (tmp : α) : ∀ (L R : List α) (h : α),
    ∃ L1 L2 a' k', L = L1 ++ L2 ∧ insertLoop cmp 1 tmp L.length (L ++ h :: R) L.length = .ok (a', k') ∧
      k' < a'.length ∧ a'.set k' tmp = L1 ++ tmp :: L2 ++ R ∧ (∀ x ∈ L2, cmp x tmp > 0) ∧
      (∀ x, L1.getLast? = some x → ¬ cmp x tmp > 0) := by
  intro L
  induction L using List.reverseRecOn with
  | nil =>
    intro R h
    exact ⟨[], [], h :: R, 0, rfl, rfl, by simp, by simp, by simp, by simp⟩
  | append_singleton L c ih =>
    intro R h
    have hl : (L ++ [c]).length = L.length + 1 := by simp
    rw [hl]
    unfold insertLoop
    rw [if_pos (by omega), Nat.add_sub_cancel]
    have hget : lget (L ++ [c] ++ h :: R) L.length = .ok c := by simp [lget]
    simp only [hget, Res.ok_bind]
    by_cases hc : cmp c tmp > 0
    · rw [if_pos hc]
      have hput : lput (L ++ [c] ++ h :: R) (L.length + 1) c = .ok (L ++ c :: (c :: R)) := by
        have e : (L ++ [c] ++ h :: R).set (L.length + 1) c = L ++ c :: (c :: R) := by
          rw [List.set_append_right _ _ (by simp)]
          simp
        rw [lput_ok (by simp), e]
      simp only [hput, Res.ok_bind]
      obtain ⟨L1, L2, a', k', h1, h2, h3, h4, h5, h6⟩ := ih (c :: R) c
      refine ⟨L1, L2 ++ [c], a', k', by rw [h1]; simp, h2, h3, by rw [h4]; simp, ?_, h6⟩
      intro x hx
      rcases List.mem_append.1 hx with hx | hx
      · exact h5 x hx
      · rw [List.mem_singleton.1 hx]; exact hc
    · rw [if_neg hc]
      refine ⟨L ++ [c], [], L ++ [c] ++ h :: R, L.length + 1, by simp, rfl, by simp, ?_, by simp, ?_⟩
      · rw [List.set_append_right _ _ (by simp)]
        simp
      · intro x hx
        simp at hx
        rw [← hx]
        exact hc

/-- "comes no later than": the order a comparison function stands for. -/
def Le (cmp : α → α → Int) (x y : α) : Prop := ¬ cmp x y > 0

theorem insertOne_gap1 (cmp : α → α → Int) (htot : ∀ x y, Le cmp x y ∨ Le cmp y x)
    (htr : ∀ x y z, Le cmp x y → Le cmp y z → Le cmp x z) (L R : List α) (h : α) (hL : L.Pairwise (Le cmp)) :
    ∃ L', insertOne cmp 1 (L ++ h :: R) L.length = .ok (L' ++ R) ∧ L'.length = L.length + 1 ∧
      L'.Pairwise (Le cmp) := by
  obtain ⟨L1, L2, a', k', h1, h2, h3, h4, h5, h6⟩ := insertLoop_gap1 cmp h L R h
  refine ⟨L1 ++ h :: L2, ?_, by rw [h1]; simp; omega, ?_⟩
  · have hget : lget (L ++ h :: R) L.length = .ok h := by simp [lget]
    simp only [insertOne, hget, Res.ok_bind, h2]
    rw [lput_ok h3, h4]
  · rw [h1, List.pairwise_append] at hL
    obtain ⟨p1, p2, p3⟩ := hL
    have hL1 : ∀ x ∈ L1, Le cmp x h := by
      intro x hx
      have hne : L1 ≠ [] := List.ne_nil_of_mem hx
      have hlast := h6 (L1.getLast hne) (List.getLast?_eq_some_getLast hne)
      rcases List.mem_append.1 (by rw [List.dropLast_append_getLast hne]; exact hx :
        x ∈ L1.dropLast ++ [L1.getLast hne]) with hx' | hx'
      · have : Le cmp x (L1.getLast hne) := by
          rw [← List.dropLast_append_getLast hne, List.pairwise_append] at p1
          exact p1.2.2 x hx' _ (by simp)
        exact htr _ _ _ this hlast
      · rw [List.mem_singleton.1 hx']; exact hlast
    have hL2 : ∀ x ∈ L2, Le cmp h x := fun x hx => (htot h x).resolve_right fun hh => hh (h5 x hx)
    rw [List.pairwise_append]
    refine ⟨p1, List.pairwise_cons.2 ⟨hL2, p2⟩, ?_⟩
    intro x hx y hy
    rcases List.mem_cons.1 hy with rfl | hy
    · exact hL1 x hx
    · exact p3 x hx y hy

theorem strideLoop_gap1 (cmp : α → α → Int) (htot : ∀ x y, Le cmp x y ∨ Le cmp y x)
    (htr : ∀ x y z, Le cmp x y → Le cmp y z → Le cmp x z) :
    ∀ (R L : List α) (f : Nat), L.Pairwise (Le cmp) → R.length ≤ f →
      ∃ b, strideLoop cmp 1 (L ++ R).length f (L ++ R) L.length = .ok b ∧ b.Pairwise (Le cmp) := by
  intro R
  induction R with
  | nil =>
    intro L f hL _
    refine ⟨L, ?_, hL⟩
    cases f <;> simp [strideLoop]
  | cons h R ih =>
    intro L f hL hf
    obtain ⟨f, rfl⟩ : ∃ g, f = g + 1 := ⟨f - 1, by simp at hf; omega⟩
    obtain ⟨L', h1, h2, h3⟩ := insertOne_gap1 cmp htot htr L R h hL
    obtain ⟨b, h4, h5⟩ := ih L' f h3 (by simpa using hf)
    refine ⟨b, ?_, h5⟩
    unfold strideLoop
    rw [if_pos (by simp), h1]
    simp only [Res.ok_bind]
    have e : (L ++ h :: R).length = (L' ++ R).length := by simp [h2]; omega
    rw [e, ← h2]
    exact h4

theorem gapsLoop_append (cmp : α → α → Int) (n : Nat) : ∀ (gs gs' : List Nat) (a : List α),
    gapsLoop cmp n (gs ++ gs') a = (do let b ← gapsLoop cmp n gs a; gapsLoop cmp n gs' b) := by
  intro gs
  induction gs with
  | nil => intro gs' a; rfl
  | cons g gs ih =>
    intro gs' a
    simp only [List.cons_append, gapsLoop]
    cases h : (if g > n / 2 then Res.ok a else gapLoop cmp g n g a 0) with
    | ok b => simp only [Res.ok_bind]; exact ih gs' b
    | ub => rfl

/-- C18: if the comparison function is a total preorder, the result is in non-decreasing order (and, by
`memsort_permutes`, a permutation of the input). -/
theorem memsort_sorted (cmp : α → α → Int) (htot : ∀ x y, Le cmp x y ∨ Le cmp y x)
    (htr : ∀ x y z, Le cmp x y → Le cmp y z → Le cmp x z) (a : List α) :
    ∃ b, memsort cmp a = .ok b ∧ b.Perm a ∧ b.Pairwise (Le cmp) := by
  obtain ⟨b, hb, hp⟩ := memsort_permutes cmp a
  refine ⟨b, hb, hp, ?_⟩
  have hsplit : gaps = [1750, 701, 301, 132, 57, 23, 10, 4] ++ [1] := rfl
  unfold memsort at hb
  rw [hsplit, gapsLoop_append] at hb
  obtain ⟨c, hc, pc⟩ := gapsLoop_perm cmp [1750, 701, 301, 132, 57, 23, 10, 4] (by decide) a
  rw [hc] at hb
  simp only [Res.ok_bind, gapsLoop] at hb
  by_cases h : 1 > a.length / 2
  · have : b.length ≤ 1 := by rw [hp.length_eq]; omega
    match b, this with
    | [], _ => exact .nil
    | [x], _ => exact List.pairwise_singleton _ _
  · rw [if_neg h] at hb
    obtain ⟨d, hd, sd⟩ := strideLoop_gap1 cmp htot htr c [] a.length .nil (by rw [pc.length_eq])
    simp only [List.nil_append, List.length_nil] at hd
    rw [pc.length_eq] at hd
    simp only [gapLoop, hd, Res.ok_bind] at hb
    have : d = b := by simpa using hb
    exact this ▸ sd

/-- A concrete case: an integer comparison function is a total preorder, and the loop does move elements. -/
example : (∀ x y : Int, Le (fun a b => a - b) x y ∨ Le (fun a b => a - b) y x) ∧
    (∀ x y z : Int, Le (fun a b => a - b) x y → Le (fun a b => a - b) y z → Le (fun a b => a - b) x z) ∧
    memsort (fun a b : Int => a - b) [5, 3, 9, 1, 4, 4, 8, 0, 7, 2] = .ok [0, 1, 2, 3, 4, 4, 5, 7, 8, 9] := by
  refine ⟨fun x y => ?_, fun x y z => ?_, by decide +kernel⟩ <;> simp only [Le] <;> omega

end Verif.Sort
