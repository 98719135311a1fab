import Verif.Wheel.Model

namespace Verif.Wheel

theorem mask_bit (i j : Nat) (hi : i < 16) (hj : j < 16) : (mask i).getMsbD j = decide (i = j) := by
  have : ∀ i j : Fin 16, (mask i).getMsbD j = decide (i = j) := by decide
  have h := this ⟨i, hi⟩ ⟨j, hj⟩
  simpa [Fin.ext_iff] using h

theorem bit_and_not (v : BitVec 16) (i j : Nat) (hi : i < 16) (hj : j < 16) :
    (v &&& ~~~ mask i).getMsbD j = (v.getMsbD j && decide (i ≠ j)) := by
  rw [BitVec.getMsbD_and, BitVec.getMsbD_not, mask_bit i j hi hj]
  simp [hj]

theorem bit_or (v : BitVec 16) (i j : Nat) (hi : i < 16) (hj : j < 16) :
    (v ||| mask i).getMsbD j = (v.getMsbD j || decide (i = j)) := by
  rw [BitVec.getMsbD_or, mask_bit i j hi hj]

theorem ne_zero_iff (v : BitVec 16) : v ≠ 0 ↔ ∃ j, j < 16 ∧ v.getMsbD j = true := by
  constructor
  · intro h
    by_contra hc
    push Not at hc
    apply h
    apply BitVec.eq_of_getMsbD_eq
    intro i hi
    have := hc i hi
    simpa using this
  · rintro ⟨j, _, hj⟩ rfl
    simp at hj

theorem shl_bit (v : BitVec 16) (j : Nat) : (v <<< 1).getMsbD j = v.getMsbD (j + 1) := by
  rw [BitVec.getMsbD_shiftLeft]

/-- The positions of the set bits, counted from `k`. -/
def bitList : Nat → BitVec 16 → Nat → List Nat
  | 0, _, _ => []
  | n + 1, v, k => if v = 0 then [] else (if v.msb then [k] else []) ++ bitList n (v <<< 1) (k + 1)

theorem mem_bitList : ∀ {n : Nat} {v : BitVec 16} {k x : Nat}, (∀ j, n ≤ j → v.getMsbD j = false) →
    (x ∈ bitList n v k ↔ ∃ b, b < 16 ∧ x = k + b ∧ v.getMsbD b = true)
  | 0, v, k, x, h => by
    simp only [bitList, List.not_mem_nil, false_iff]
    rintro ⟨b, _, _, hb⟩
    rw [h b (Nat.zero_le _)] at hb
    exact absurd hb (by simp)
  | n + 1, v, k, x, h => by
    unfold bitList
    split
    · rename_i h0
      subst h0
      simp
    · rw [List.mem_append, mem_bitList (n := n) (by intro j hj; rw [shl_bit]; exact h _ (by omega))]
      have hm : v.msb = v.getMsbD 0 := rfl
      constructor
      · rintro (hx | ⟨b, hb, rfl, hv⟩)
        · split at hx
          · rename_i hmsb
            simp at hx
            exact ⟨0, by omega, by omega, by rw [← hm]; exact hmsb⟩
          · simp at hx
        · rw [shl_bit] at hv
          refine ⟨b + 1, ?_, by omega, hv⟩
          by_contra hc
          rw [BitVec.getMsbD_of_ge _ _ (by omega)] at hv
          exact absurd hv (by simp)
      · rintro ⟨b, hb, rfl, hv⟩
        cases b with
        | zero => left; rw [← hm] at hv; simp [hv]
        | succ b => right; exact ⟨b, by omega, by omega, by rw [shl_bit]; exact hv⟩

theorem bitList_sorted : ∀ {n : Nat} {v : BitVec 16} {k : Nat}, (∀ j, n ≤ j → v.getMsbD j = false) →
    (bitList n v k).Pairwise (· < ·)
  | 0, _, _, _ => by simp [bitList]
  | n + 1, v, k, h => by
    unfold bitList
    split
    · simp
    · have h' : ∀ j, n ≤ j → (v <<< 1).getMsbD j = false := by intro j hj; rw [shl_bit]; exact h _ (by omega)
      split
      · rw [List.singleton_append, List.pairwise_cons]
        refine ⟨fun x hx => ?_, bitList_sorted h'⟩
        rw [mem_bitList h'] at hx
        obtain ⟨b, _, rfl, _⟩ := hx
        omega
      · simpa using bitList_sorted h'

theorem high_false (v : BitVec 16) (n : Nat) (hn : 16 ≤ n) : ∀ j, n ≤ j → v.getMsbD j = false :=
  fun j hj => BitVec.getMsbD_of_ge _ _ (by omega)

/-- Bit `x` of a bitmap. -/
def bitOf (f : Nat → BitVec 16) (x : Nat) : Bool := (f (x / 16)).getMsbD (x % 16)

theorem bitOf_or (f : Nat → BitVec 16) (d x : Nat) :
    bitOf (Function.update f (d / 16) (f (d / 16) ||| mask (d % 16))) x = (bitOf f x || decide (d = x)) := by
  unfold bitOf
  by_cases h : x / 16 = d / 16
  · rw [h, Function.update_self, bit_or _ _ _ (Nat.mod_lt _ (by omega)) (Nat.mod_lt _ (by omega))]
    congr 1
    rw [decide_eq_decide]
    omega
  · rw [Function.update_of_ne h]
    have : d ≠ x := by rintro rfl; exact h rfl
    simp [this]

theorem bitOf_clear (f : Nat → BitVec 16) (d x : Nat) :
    bitOf (Function.update f (d / 16) (f (d / 16) &&& ~~~ mask (d % 16))) x = (bitOf f x && decide (d ≠ x)) := by
  unfold bitOf
  by_cases h : x / 16 = d / 16
  · rw [h, Function.update_self, bit_and_not _ _ _ (Nat.mod_lt _ (by omega)) (Nat.mod_lt _ (by omega))]
    congr 1
    rw [decide_eq_decide]
    omega
  · rw [Function.update_of_ne h]
    have : d ≠ x := by rintro rfl; exact h rfl
    simp [this]

theorem word_ne_zero (f : Nat → BitVec 16) (j : Nat) : f j ≠ 0 ↔ ∃ x, x / 16 = j ∧ bitOf f x = true := by
  rw [ne_zero_iff]
  unfold bitOf
  constructor
  · rintro ⟨b, hb, h⟩
    refine ⟨j * 16 + b, by omega, ?_⟩
    rw [show (j * 16 + b) / 16 = j by omega, show (j * 16 + b) % 16 = b by omega]
    exact h
  · rintro ⟨x, rfl, h⟩
    exact ⟨x % 16, Nat.mod_lt _ (by omega), h⟩

end Verif.Wheel
