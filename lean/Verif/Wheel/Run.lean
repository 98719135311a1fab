import Verif.Wheel.Loops

namespace Verif.Wheel

/-- All slots. -/
def All (_ : Nat) : Prop := True

theorem rows_enough (maxFd : Nat) : maxFd ≤ 256 * vecOfVecSize maxFd := by
  unfold vecOfVecSize vecSize rndUp
  omega

theorem due_eq {c : Cfg} {w : Wheel} {a : AW} (h : Inv c All w a) {n : Nat} (hn : c.maxFd ≤ 256 * n) :
    a.due c = wordsList (w.vec (a.base % 128)) (16 * n) (16 * 0) := by
  apply sorted_ext
  · exact List.pairwise_lt_range.filter _
  · exact wordsList_sorted _ _ _
  intro x
  unfold AW.due wordsList
  rw [List.mem_filter, List.mem_range, List.mem_filter, List.mem_range'_1, h.bits _ (Nat.mod_lt _ (by omega)) trivial]
  constructor
  · rintro ⟨hx, hb⟩
    refine ⟨by omega, ?_⟩
    cases ha : a.arm x with
    | none => rw [ha] at hb; simp at hb
    | some p =>
      rw [ha] at hb
      refine ⟨p, rfl, ?_⟩
      have : p.1 = a.base := by simpa using hb
      rw [this]
  · rintro ⟨_, p, hp, hm⟩
    obtain ⟨h1, h2, _, h4, _⟩ := h.arm x p hp
    refine ⟨h4, ?_⟩
    rw [hp]
    have : p.1 = a.base := by omega
    simp [this]

theorem rem_due {c : Cfg} {w : Wheel} {a : AW} (h : Inv c All w a) : Rem a.base a (a.due c) := by
  intro fd
  unfold AW.due
  rw [List.mem_filter, List.mem_range]
  constructor
  · rintro ⟨d, hd⟩
    refine ⟨(h.arm fd _ hd).2.2.2.1, ?_⟩
    rw [hd]
    simp
  · rintro ⟨_, hb⟩
    cases ha : a.arm fd with
    | none => rw [ha] at hb; simp at hb
    | some p =>
      rw [ha] at hb
      have : p.1 = a.base := by simpa using hb
      exact ⟨p.2, by rw [← this]⟩

theorem tick_inv {c : Cfg} {cb : Cb} {w : Wheel} {a a' : AW} {n : Nat} (h : Inv c All w a) (hn : c.maxFd ≤ 256 * n)
    (he : c.start a.base + c.res ≤ a.now) (hs : fireAll c cb a (a.due c) = some a') :
    ∃ w', rowLoop cb w.baseIdx n 0 w = some w' ∧ a'.now = a.now ∧ a'.base = a.base ∧
      Inv c All { w' with baseIdx := (w'.baseIdx + 1) % 128, baseTime := w'.baseTime + w'.res }
        { a' with base := a'.base + 1 } := by
  have hlt : a.base % 128 < 128 := Nat.mod_lt _ (by omega)
  have hdue := due_eq h hn
  have hnd : (a.due c).Nodup := List.nodup_range.filter _
  have hmid : Mid c a.base w a (a.due c) :=
    ⟨{ h with bits := fun s hs _ => h.bits s hs trivial, sums := fun s hs _ => h.sums s hs trivial }, rfl, he, rem_due h, hnd⟩
  have hcut : w.vec (a.base % 128) = cut (w.vec (a.base % 128)) (16 * 0) := by
    funext x; simp [cut]
  rw [hdue] at hs hmid
  rw [← List.append_nil (wordsList _ _ _)] at hmid
  obtain ⟨w', hw, m, hnow, hv, hz, hk⟩ := row_mid (w.vec (a.base % 128)) (n := n) (i := 0)
    (fun j _ => h.sums _ hlt trivial j) (by intro j hj; omega) hcut hmid hs
  have hword : ∀ j, 16 * n ≤ j → w.vec (a.base % 128) j = 0 := by
    intro j hj
    by_contra hc
    obtain ⟨x, hx, hb⟩ := (word_ne_zero _ _).1 hc
    obtain ⟨p, hp, _⟩ := (h.bits _ hlt trivial x).1 hb
    have := (h.arm x p hp).2.2.2.1
    omega
  have hv0 : ∀ j, w'.vec (a.base % 128) j = 0 := by
    intro j
    rw [hv]
    unfold cut
    split
    · rfl
    · exact hword j (by omega)
  have hu0 : ∀ j, w'.vov (a.base % 128) j = 0 := by
    intro j
    by_cases hj : j < 0 + n
    · exact hz j hj
    · rw [hk j (by omega)]
      by_contra hc
      obtain ⟨x, hx, hb⟩ := (word_ne_zero _ _).1 hc
      have := (h.sums _ hlt trivial x).1 hb
      exact this (hword x (by omega))
  refine ⟨w', by rw [h.baseIdx]; exact hw, hnow, m.base, ?_⟩
  have hi := m.inv
  have hnone : ∀ fd p, a'.arm fd = some p → p.1 ≠ a.base := by
    intro fd p hp hc
    have := (m.rem fd).1 ⟨p.2, by rw [hp, ← hc]⟩
    simp at this
  have hbits : ∀ x, bitOf (w'.vec (a.base % 128)) x = false := by
    intro x; unfold bitOf; rw [hv0]; simp
  have hbitsu : ∀ x, bitOf (w'.vov (a.base % 128)) x = false := by
    intro x; unfold bitOf; rw [hu0]; simp
  refine { hi with bits := ?_, sums := ?_, arm := ?_, baseIdx := ?_, baseTime := ?_ }
  · intro s hs _ x
    by_cases hsb : s = a.base % 128
    · subst hsb
      show bitOf (w'.vec (a.base % 128)) x = true ↔ _
      rw [hbits]
      constructor
      · intro h'; exact absurd h' (by simp)
      · rintro ⟨p, hp, hm⟩
        have h1 := hi.arm x p hp
        have h2 := hnone x p hp
        rw [m.base] at h1
        omega
    · exact hi.bits s hs hsb x
  · intro s hs _ j
    by_cases hsb : s = a.base % 128
    · subst hsb
      show bitOf (w'.vov (a.base % 128)) j = true ↔ w'.vec (a.base % 128) j ≠ 0
      rw [hbitsu, hv0]
      simp
    · exact hi.sums s hs hsb j
  · intro x p hp
    have h1 := hi.arm x p hp
    have h2 := hnone x p hp
    have hb := m.base
    refine ⟨?_, ?_, h1.2.2⟩
    · show a'.base + 1 ≤ p.1; omega
    · show p.1 < a'.base + 1 + 128; omega
  · show (w'.baseIdx + 1) % 128 = (a'.base + 1) % 128
    rw [hi.baseIdx]; omega
  · show w'.baseTime + w'.res = c.start (a'.base + 1)
    rw [hi.baseTime, hi.res, start_add]; simp

theorem ended_succ {c : Cfg} {a : AW} (hr : 0 < c.res) {n : Nat} (h : a.ended c = n + 1) : c.start a.base + c.res ≤ a.now := by
  unfold AW.ended at h
  have : 1 ≤ (a.now - c.start a.base) / c.res := by omega
  have := (Int.le_ediv_iff_mul_le hr).1 this
  omega

theorem ended_zero {c : Cfg} {a : AW} (hr : 0 < c.res) (h : a.ended c = 0) : a.now < c.start a.base + c.res := by
  unfold AW.ended at h
  have : (a.now - c.start a.base) / c.res < 1 := by omega
  have := (Int.ediv_lt_iff_lt_mul hr).1 this
  omega

theorem ended_next {c : Cfg} {a a' : AW} (hr : 0 < c.res) {n : Nat} (h : a.ended c = n + 1) (hb : a'.base = a.base + 1)
    (hn : a'.now = a.now) : a'.ended c = n := by
  unfold AW.ended at h ⊢
  rw [hb, hn]
  have : a.now - c.start (a.base + 1) = a.now - c.start a.base + (-1) * c.res := by
    rw [start_add]; push_cast; ring
  rw [this, Int.add_mul_ediv_right _ _ (by omega)]
  omega

theorem slot_inv {c : Cfg} {cb : Cb} {nV : Nat} (hn : c.maxFd ≤ 256 * nV) : ∀ {n fuel : Nat} {w : Wheel} {a a' : AW},
    Inv c All w a → a.ended c = n → n < fuel → specTicks c cb n a = some a' →
    ∃ w', slotLoop cb nV fuel w = some w' ∧ Inv c All w' a' ∧ a'.now = a.now ∧ a'.now < c.start a'.base + c.res
  | 0, fuel, w, a, a', h, he, hf, hs => by
    simp only [specTicks] at hs
    injection hs with hs
    subst hs
    obtain ⟨f, rfl⟩ : ∃ f, fuel = f + 1 := ⟨fuel - 1, by omega⟩
    have := ended_zero h.res_pos he
    refine ⟨w, ?_, h, rfl, this⟩
    unfold slotLoop
    rw [if_neg (by rw [h.baseTime, h.now, h.res]; omega)]
  | n + 1, fuel, w, a, a', h, he, hf, hs => by
    simp only [specTicks] at hs
    obtain ⟨f, rfl⟩ : ∃ f, fuel = f + 1 := ⟨fuel - 1, by omega⟩
    cases h1 : fireAll c cb a (a.due c) with
    | none => rw [h1] at hs; exact absurd hs (by simp)
    | some a1 =>
      rw [h1] at hs
      have hend := ended_succ h.res_pos he
      obtain ⟨w1, hw1, hnow, hbase, i1⟩ := tick_inv h hn hend h1
      obtain ⟨w2, hw2, i2, n2, l2⟩ := slot_inv hn (n := n) (fuel := f) i1
        (ended_next (a' := { a1 with base := a1.base + 1 }) h.res_pos he (by show a1.base + 1 = _; rw [hbase]) hnow)
        (by omega) hs
      refine ⟨w2, ?_, i2, n2.trans hnow, l2⟩
      unfold slotLoop
      rw [if_pos (by rw [h.baseTime, h.now, h.res]; omega), hw1]
      exact hw2

theorem step_inv {c : Cfg} {cb : Cb} {w : Wheel} {a a' : AW} {o : HOp} (h : Inv c All w a) (hs : specH c cb a o = some a') :
    ∃ w', implH c.maxFd cb w o = some w' ∧ Inv c All w' a' ∧ (o = .check → a'.now < c.start a'.base + c.res) := by
  cases o with
  | clock t =>
    simp only [specH] at hs
    injection hs with hs
    subst hs
    exact ⟨{ w with now := t }, rfl, { h with now := rfl }, by simp⟩
  | op o =>
    obtain ⟨w', hw, k⟩ := op_inv h (Or.inl fun _ => trivial) (fun _ _ _ _ => trivial) hs
    exact ⟨w', hw, k.inv, by simp⟩
  | check =>
    simp only [specH] at hs
    have hr := h.res_pos
    obtain ⟨w', hw, i, _, hl⟩ := slot_inv (rows_enough c.maxFd) (fuel := (w.now - w.baseTime).toNat + 1) h rfl
      (by
        unfold AW.ended
        rw [h.now, h.baseTime]
        have : (a.now - c.start a.base) / c.res ≤ (a.now - c.start a.base).toNat := by
          apply Int.ediv_le_of_le_mul hr
          nlinarith [Int.self_le_toNat (a.now - c.start a.base), Int.natCast_nonneg (a.now - c.start a.base).toNat]
        omega) hs
    exact ⟨w', hw, i, fun _ => hl⟩

theorem run_inv {c : Cfg} {cb : Cb} : ∀ {os : List HOp} {w : Wheel} {a a' : AW}, Inv c All w a → specHs c cb a os = some a' →
    ∃ w', implHs c.maxFd cb w os = some w' ∧ Inv c All w' a'
  | [], w, a, a', h, hs => by
    simp only [specHs] at hs
    injection hs with hs
    subst hs
    exact ⟨w, rfl, h⟩
  | o :: os, w, a, a', h, hs => by
    simp only [specHs] at hs
    cases h1 : specH c cb a o with
    | none => rw [h1] at hs; exact absurd hs (by simp)
    | some a1 =>
      rw [h1] at hs
      obtain ⟨w1, hw1, i1, _⟩ := step_inv h h1
      obtain ⟨w2, hw2, i2⟩ := run_inv i1 hs
      refine ⟨w2, ?_, i2⟩
      simp only [implHs]
      rw [hw1]
      exact hw2

/-- The configuration of a loop made with `maxTimeout` at time `t`. -/
def cfg (maxFd maxTimeout : Nat) (t : Int) : Cfg := ⟨maxFd, t, ((maxTimeout + 127) / 128 : Nat)⟩

theorem init_inv (maxFd maxTimeout : Nat) (t : Int) (h : 0 < maxTimeout) :
    Inv (cfg maxFd maxTimeout t) All (Wheel.init maxTimeout t) (AW.init t) := by
  constructor
  · show (0 : Int) < ((maxTimeout + 127) / 128 : Nat); omega
  · intro s _ _ fd
    simp [Wheel.init, AW.init, bitOf]
  · intro s _ _ j
    simp [Wheel.init, bitOf]
  · intro fd; rfl
  · intro fd p hp; exact absurd hp (by simp [AW.init])
  · rfl
  · rfl
  · simp [Wheel.init, AW.init, Cfg.start, cfg]
  · rfl
  · show ((rndUp maxTimeout 128 / 128 : Nat) : Int) = ((maxTimeout + 127) / 128 : Nat)
    unfold rndUp
    omega
  · rfl
  · intro e he; exact absurd he (by simp [AW.init])

end Verif.Wheel
