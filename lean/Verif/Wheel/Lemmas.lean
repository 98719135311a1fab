import Verif.Wheel.Bits
import Verif.Wheel.Spec

namespace Verif.Wheel

theorem upd_self (f : Nat → Nat → BitVec 16) (s j : Nat) (v : BitVec 16) :
    upd f s j v s = Function.update (f s) j v := by
  unfold upd
  rw [Function.update_self]

theorem upd_ne (f : Nat → Nat → BitVec 16) {s t : Nat} (j : Nat) (v : BitVec 16) (h : t ≠ s) : upd f s j v t = f t := by
  unfold upd
  rw [Function.update_of_ne h]

/-- The slots in `P` agree with the armed timeouts. -/
structure Inv (c : Cfg) (P : Nat → Prop) (w : Wheel) (a : AW) : Prop where
  res_pos : 0 < c.res
  bits : ∀ s, s < 128 → P s → ∀ fd, bitOf (w.vec s) fd = true ↔ ∃ p, a.arm fd = some p ∧ p.1 % 128 = s
  sums : ∀ s, s < 128 → P s → ∀ j, bitOf (w.vov s) j = true ↔ w.vec s j ≠ 0
  idx : ∀ fd, w.idx fd = match a.arm fd with
    | some p => p.1 % 128
    | none => 255
  arm : ∀ fd p, a.arm fd = some p → a.base ≤ p.1 ∧ p.1 < a.base + 128 ∧ a.reg fd = true ∧ fd < c.maxFd ∧
    c.start p.1 ≤ p.2 ∧ p.2 < c.start p.1 + c.res
  reg : w.reg = a.reg
  baseIdx : w.baseIdx = a.base % 128
  baseTime : w.baseTime = c.start a.base
  now : w.now = a.now
  res : w.res = c.res
  log : w.log = a.log.map fun e => (e.1, e.2.2)
  early : ∀ e ∈ a.log, e.2.1 < e.2.2

/-- Slots outside `P` are untouched. -/
def Frame (P : Nat → Prop) (w w' : Wheel) : Prop := ∀ s, ¬ P s → w'.vec s = w.vec s ∧ w'.vov s = w.vov s

theorem Frame.refl (P : Nat → Prop) (w : Wheel) : Frame P w w := fun _ _ => ⟨rfl, rfl⟩

theorem Frame.trans {P : Nat → Prop} {w w' w'' : Wheel} (h : Frame P w w') (h' : Frame P w' w'') : Frame P w w'' :=
  fun s hs => ⟨(h' s hs).1.trans (h s hs).1, (h' s hs).2.trans (h s hs).2⟩

theorem clear_none {w : Wheel} {fd : Nat} (h : w.idx fd = 255) : clearBit w fd = w := by
  unfold clearBit
  rw [if_neg (by simp [h])]

theorem clear_inv {c : Cfg} {P : Nat → Prop} {w : Wheel} {a : AW} (h : Inv c P w a) (fd : Nat)
    (hP : ∀ p, a.arm fd = some p → P (p.1 % 128)) :
    Inv c P (clearBit w fd) { a with arm := Function.update a.arm fd none } ∧ Frame P w (clearBit w fd) := by
  cases ha : a.arm fd with
  | none =>
    have hi := h.idx fd
    rw [ha] at hi
    rw [clear_none hi]
    have : Function.update a.arm fd none = a.arm := by
      rw [← ha]; exact Function.update_eq_self _ _
    rw [this]
    exact ⟨h, Frame.refl _ _⟩
  | some p =>
    have hi : w.idx fd = p.1 % 128 := by have := h.idx fd; rw [ha] at this; exact this
    have hlt : p.1 % 128 < 128 := Nat.mod_lt _ (by omega)
    obtain ⟨t, ht⟩ : ∃ t, t = p.1 % 128 := ⟨_, rfl⟩
    rw [← ht] at hi hlt
    have hPt : P t := by rw [ht]; exact hP p ha
    unfold clearBit
    rw [if_pos (by omega), hi]
    obtain ⟨v, hv⟩ : ∃ v, v = w.vec t (fd / 16) &&& ~~~ mask (fd % 16) := ⟨_, rfl⟩
    rw [← hv]
    constructor
    · refine { h with bits := ?_, sums := ?_, idx := ?_, arm := ?_ }
      · intro s hs hPs x
        show bitOf (upd w.vec t (fd / 16) v s) x = true ↔ ∃ q, Function.update a.arm fd none x = some q ∧ q.1 % 128 = s
        by_cases hst : s = t
        · subst hst
          rw [upd_self, hv, bitOf_clear, Bool.and_eq_true, h.bits s hs hPs]
          by_cases hx : x = fd
          · subst hx; simp
          · rw [Function.update_of_ne hx]; simp [Ne.symm hx]
        · rw [upd_ne _ _ _ hst, h.bits s hs hPs]
          by_cases hx : x = fd
          · subst hx
            rw [Function.update_self, ha]
            simp
            omega
          · rw [Function.update_of_ne hx]
      · intro s hs hPs j
        show bitOf ((if v = 0 then upd w.vov t (fd / 16 / 16) (w.vov t (fd / 16 / 16) &&& ~~~ mask (fd / 16 % 16))
          else w.vov) s) j = true ↔ upd w.vec t (fd / 16) v s j ≠ 0
        by_cases hst : s = t
        · subst hst
          rw [upd_self]
          by_cases hv0 : v = 0
          · rw [if_pos hv0, upd_self, bitOf_clear, Bool.and_eq_true, h.sums s hs hPs]
            by_cases hj : j = fd / 16
            · subst hj; simp [hv0]
            · rw [Function.update_of_ne hj]; simp [Ne.symm hj]
          · rw [if_neg hv0, h.sums s hs hPs]
            by_cases hj : j = fd / 16
            · subst hj
              rw [Function.update_self]
              have : w.vec s (fd / 16) ≠ 0 := by
                intro h0; rw [h0] at hv; apply hv0; rw [hv]; simp
              simp only [ne_eq, this, not_false_eq_true, hv0]
            · rw [Function.update_of_ne hj]
        · rw [upd_ne _ _ _ hst]
          split
          · rw [upd_ne _ _ _ hst]; exact h.sums s hs hPs j
          · exact h.sums s hs hPs j
      · intro x
        show Function.update w.idx fd 255 x = match Function.update a.arm fd none x with
          | some p => p.1 % 128
          | none => 255
        by_cases hx : x = fd
        · subst hx; simp
        · rw [Function.update_of_ne hx, Function.update_of_ne hx]; exact h.idx x
      · intro x q hq
        change Function.update a.arm fd none x = some q at hq
        by_cases hx : x = fd
        · subst hx; simp at hq
        · rw [Function.update_of_ne hx] at hq; exact h.arm x q hq
    · intro s hs
      have hst : s ≠ t := by rintro rfl; exact hs hPt
      constructor
      · exact upd_ne _ _ _ hst
      · show (if v = 0 then upd w.vov t (fd / 16 / 16) (w.vov t (fd / 16 / 16) &&& ~~~ mask (fd / 16 % 16))
          else w.vov) s = w.vov s
        split
        · exact upd_ne _ _ _ hst
        · rfl

theorem setBit_inv {c : Cfg} {P : Nat → Prop} {w : Wheel} {a : AW} (h : Inv c P w a) (fd delta : Nat) (d : Int)
    (ha : a.arm fd = none) (hr : a.reg fd = true) (hfd : fd < c.maxFd) (hd : delta < 128)
    (hP : P ((a.base + delta) % 128)) (h1 : c.start (a.base + delta) ≤ d) (h2 : d < c.start (a.base + delta) + c.res) :
    Inv c P (setBit w fd delta) { a with arm := Function.update a.arm fd (some (a.base + delta, d)) } ∧
      Frame P w (setBit w fd delta) := by
  have hs' : (w.baseIdx + delta) % 128 = (a.base + delta) % 128 := by rw [h.baseIdx]; omega
  have hlt : (a.base + delta) % 128 < 128 := Nat.mod_lt _ (by omega)
  unfold setBit
  rw [hs']
  obtain ⟨t, ht⟩ : ∃ t, t = (a.base + delta) % 128 := ⟨_, rfl⟩
  rw [← ht] at hlt hP ⊢
  constructor
  · refine { h with bits := ?_, sums := ?_, idx := ?_, arm := ?_ }
    · intro s hs hPs x
      show bitOf (upd w.vec t (fd / 16) (w.vec t (fd / 16) ||| mask (fd % 16)) s) x = true ↔
        ∃ q, Function.update a.arm fd (some (a.base + delta, d)) x = some q ∧ q.1 % 128 = s
      by_cases hst : s = t
      · subst hst
        rw [upd_self, bitOf_or, Bool.or_eq_true, h.bits s hs hPs]
        by_cases hx : x = fd
        · subst hx; simp [ht]
        · rw [Function.update_of_ne hx]; simp [Ne.symm hx]
      · rw [upd_ne _ _ _ hst, h.bits s hs hPs]
        by_cases hx : x = fd
        · subst hx
          rw [Function.update_self, ha]
          simp
          omega
        · rw [Function.update_of_ne hx]
    · intro s hs hPs j
      show bitOf (upd w.vov t (fd / 16 / 16) (w.vov t (fd / 16 / 16) ||| mask (fd / 16 % 16)) s) j = true ↔
        upd w.vec t (fd / 16) (w.vec t (fd / 16) ||| mask (fd % 16)) s j ≠ 0
      by_cases hst : s = t
      · subst hst
        rw [upd_self, upd_self, bitOf_or, Bool.or_eq_true, h.sums s hs hPs]
        by_cases hj : j = fd / 16
        · subst hj
          rw [Function.update_self]
          simp only [decide_true, or_true, true_iff]
          rw [ne_zero_iff]
          exact ⟨fd % 16, Nat.mod_lt _ (by omega), by
            rw [bit_or _ _ _ (Nat.mod_lt _ (by omega)) (Nat.mod_lt _ (by omega))]; simp⟩
        · rw [Function.update_of_ne hj]; simp [Ne.symm hj]
      · rw [upd_ne _ _ _ hst, upd_ne _ _ _ hst]
        exact h.sums s hs hPs j
    · intro x
      show Function.update w.idx fd t x = match Function.update a.arm fd (some (a.base + delta, d)) x with
        | some p => p.1 % 128
        | none => 255
      by_cases hx : x = fd
      · subst hx; simp [ht]
      · rw [Function.update_of_ne hx, Function.update_of_ne hx]; exact h.idx x
    · intro x q hq
      change Function.update a.arm fd (some (a.base + delta, d)) x = some q at hq
      by_cases hx : x = fd
      · subst hx
        rw [Function.update_self] at hq
        injection hq with hq
        subst hq
        exact ⟨by show a.base ≤ a.base + delta; omega, by show a.base + delta < a.base + 128; omega, hr, hfd, h1, h2⟩
      · rw [Function.update_of_ne hx] at hq; exact h.arm x q hq
  · intro s hs
    have hst : s ≠ t := by rintro rfl; exact hs hP
    exact ⟨upd_ne _ _ _ hst, upd_ne _ _ _ hst⟩

/-- `P` contains the slots that operations may touch. -/
def Safe (c : Cfg) (P : Nat → Prop) (a : AW) : Prop :=
  (∀ s, P s) ∨ (c.start a.base + c.res ≤ a.now ∧ ∀ s, s ≠ a.base % 128 → P s)

theorem start_add (c : Cfg) (n m : Nat) : c.start (n + m) = c.start n + m * c.res := by
  unfold Cfg.start; push_cast; ring

theorem set_inv {c : Cfg} {P : Nat → Prop} {w : Wheel} {a a' : AW} {fd : Nat} {secs : Int} (h : Inv c P w a)
    (hS : Safe c P a) (hP : ∀ p, a.arm fd = some p → P (p.1 % 128)) (hr : a.reg fd = true) (hfd : fd < c.maxFd)
    (hs : a.set c fd secs = some a') :
    ∃ w', setTimeout w fd secs = some w' ∧ Inv c P w' a' ∧ Frame P w w' ∧
      a'.base = a.base ∧ a'.now = a.now ∧ a'.log = a.log ∧ a'.reg = a.reg ∧ (∀ x, x ≠ fd → a'.arm x = a.arm x) ∧
      (∀ p, a'.arm fd = some p → P (p.1 % 128)) ∧ (¬ P (a.base % 128) → ∀ p, a'.arm fd = some p → p.1 ≠ a.base) := by
  unfold setTimeout
  rw [if_pos (by rw [h.reg]; exact hr)]
  obtain ⟨hc, hf⟩ := clear_inv h fd hP
  unfold AW.set at hs
  split at hs
  · rename_i h0
    injection hs with hs
    subst hs
    refine ⟨clearBit w fd, by simp [h0], hc, hf, rfl, rfl, rfl, rfl, ?_, ?_, ?_⟩
    · intro x hx; exact Function.update_of_ne hx _ _
    · intro p hp; exact absurd hp (by simp)
    · intro _ p hp; exact absurd hp (by simp)
  · rename_i h0
    split at hs
    · rename_i hg
      injection hs with hs
      have hres := h.res_pos
      obtain ⟨hg0, hg1, hg2⟩ := hg
      have hq0 : 0 ≤ (a.now + secs - c.start a.base) / c.res := Int.ediv_nonneg (by omega) (by omega)
      have hq1 : (a.now + secs - c.start a.base) / c.res < 128 := Int.ediv_lt_of_lt_mul hres (by omega)
      obtain ⟨q, hq⟩ := Int.eq_ofNat_of_zero_le hq0
      have hdelta : slotDelta (clearBit w fd) secs = q := by
        unfold slotDelta
        rw [hc.now, hc.baseTime, hc.res, Int.tdiv_eq_ediv_of_nonneg (by show 0 ≤ a.now + secs - c.start a.base; omega)]
        show (if (a.now + secs - c.start a.base) / c.res < 0 ∨ _ then _ else _) = _
        rw [hq, if_neg (by omega)]
        simp
      have hT : ((a.now + secs - c.t0) / c.res).toNat = a.base + q := by
        have : (a.now + secs - c.t0) / c.res = a.base + q := by
          have e : a.now + secs - c.t0 = (a.now + secs - c.start a.base) + a.base * c.res := by unfold Cfg.start; ring
          rw [e, Int.add_mul_ediv_right _ _ (by omega), hq]; ring
        rw [this]; omega
      have hdm := Int.ediv_mul_add_emod (a.now + secs - c.start a.base) c.res
      have hm0 := Int.emod_nonneg (a.now + secs - c.start a.base) (show c.res ≠ 0 by omega)
      have hm1 := Int.emod_lt_of_pos (a.now + secs - c.start a.base) hres
      rw [hq] at hdm
      have hq128 : q < 128 := by omega
      have hPq : P ((a.base + q) % 128) := by
        rcases hS with hS | ⟨he, hS⟩
        · exact hS _
        · apply hS
          have : q ≠ 0 := by
            rintro rfl
            simp at hdm
            omega
          omega
      have hst : c.start (a.base + q) = c.start a.base + q * c.res := start_add _ _ _
      have hb := setBit_inv hc fd q (a.now + secs) (by simp) hr hfd hq128 hPq
        (by show c.start (a.base + q) ≤ _; rw [hst]; omega) (by show _ < c.start (a.base + q) + _; rw [hst]; omega)
      rw [hT] at hs
      simp only [Function.update_idem] at hb
      subst hs
      refine ⟨setBit (clearBit w fd) fd q, ?_, hb.1, hf.trans hb.2, rfl, rfl, rfl, rfl, ?_, ?_, ?_⟩
      · show (if secs ≠ 0 then (if (clearBit w fd).res = 0 then none else _) else _) = _
        rw [if_pos h0, if_neg (by rw [hc.res]; omega), hdelta]
      · intro x hx; exact Function.update_of_ne hx _ _
      · intro p hp
        change Function.update a.arm fd (some (a.base + q, a.now + secs)) fd = some p at hp
        rw [Function.update_self] at hp
        injection hp with hp
        subst hp
        exact hPq
      · intro hn p hp
        change Function.update a.arm fd (some (a.base + q, a.now + secs)) fd = some p at hp
        rw [Function.update_self] at hp
        injection hp with hp
        subst hp
        intro h'
        change a.base + q = a.base at h'
        rw [h'] at hPq
        exact hn hPq
    · exact absurd hs (by simp)

/-- What an operation keeps. -/
structure Kept (c : Cfg) (P : Nat → Prop) (who : Option Nat) (w w' : Wheel) (a a' : AW) : Prop where
  inv : Inv c P w' a'
  frame : Frame P w w'
  base : a'.base = a.base
  now : a'.now = a.now
  log : a'.log = a.log
  own : ∀ fd, (who = none ∨ who = some fd) → ∀ p, a'.arm fd = some p → P (p.1 % 128)
  cur : ¬ P (a.base % 128) → ∀ fd d, a'.arm fd = some (a.base, d) ↔ a.arm fd = some (a.base, d)

theorem op_inv {c : Cfg} {P : Nat → Prop} {who : Option Nat} {w : Wheel} {a a' : AW} {o : COp} (h : Inv c P w a)
    (hS : Safe c P a) (hO : ∀ fd, (who = none ∨ who = some fd) → ∀ p, a.arm fd = some p → P (p.1 % 128))
    (hs : specOp c who a o = some a') : ∃ w', runOp w o = some w' ∧ Kept c P who w w' a a' := by
  cases o with
  | set fd secs =>
    simp only [specOp] at hs
    split at hs
    · rename_i hg
      obtain ⟨w', hw, hi, hf, hb, hn, hl, _, hx, hy, hz⟩ := set_inv h hS (hO fd hg.2.2) hg.2.1 hg.1 hs
      refine ⟨w', hw, hi, hf, hb, hn, hl, ?_, ?_⟩
      · intro x hxs p hp
        by_cases hxf : x = fd
        · subst hxf; exact hy p hp
        · rw [hx x hxf] at hp; exact hO x hxs p hp
      · intro hP x d
        by_cases hxf : x = fd
        · subst hxf
          constructor
          · intro h'; exact absurd rfl (hz hP _ h')
          · intro h'; exact absurd (hO x hg.2.2 _ h') hP
        · rw [hx x hxf]
    · exact absurd hs (by simp)
  | add fd secs =>
    simp only [specOp] at hs
    split at hs
    · rename_i hg
      have hnone : a.arm fd = none := by
        cases e : a.arm fd with
        | none => rfl
        | some p => exact absurd (h.arm fd p e).2.2.1 hg.2
      have hidx : Function.update w.idx fd 255 = w.idx := by
        have := h.idx fd
        rw [hnone] at this
        rw [show (255 : Nat) = w.idx fd from this.symm]
        exact Function.update_eq_self _ _
      have h1 : Inv c P { w with reg := Function.update w.reg fd true, idx := Function.update w.idx fd 255 }
          { a with reg := Function.update a.reg fd true } := by
        rw [hidx]
        refine { h with arm := ?_, reg := ?_ }
        rotate_left
        · show Function.update w.reg fd true = Function.update a.reg fd true
          rw [h.reg]
        · intro x p hp
          have := h.arm x p hp
          refine ⟨this.1, this.2.1, ?_, this.2.2.2⟩
          show Function.update a.reg fd true x = true
          by_cases hx : x = fd
          · subst hx; simp
          · rw [Function.update_of_ne hx]; exact this.2.2.1
      obtain ⟨w', hw, hi, hf, hb, hn, hl, _, hx, hy, hz⟩ := set_inv h1 hS
        (by intro p hp; change a.arm fd = some p at hp; rw [hnone] at hp; exact absurd hp (by simp)) (by simp) hg.1 hs
      refine ⟨w', hw, hi, hf, hb, hn, hl, ?_, ?_⟩
      · intro x hxs p hp
        by_cases hxf : x = fd
        · subst hxf; exact hy p hp
        · rw [hx x hxf] at hp; exact hO x hxs p hp
      · intro hP x d
        by_cases hxf : x = fd
        · subst hxf
          constructor
          · intro h'; exact absurd rfl (hz hP _ h')
          · intro h'; rw [hnone] at h'; exact absurd h' (by simp)
        · rw [hx x hxf]
    · exact absurd hs (by simp)
  | del fd =>
    simp only [specOp] at hs
    split at hs
    · rename_i hg
      injection hs with hs
      subst hs
      have hset : a.set c fd 0 = some { a with arm := Function.update a.arm fd none } := by simp [AW.set]
      obtain ⟨w', hw, hi, hf, hb, hn, hl, hr, hx, hy, hz⟩ := set_inv h hS (hO fd hg.2.2) hg.2.1 hg.1 hset
      refine ⟨{ w' with reg := Function.update w'.reg fd false }, ?_, ?_, hf, rfl, rfl, rfl, ?_, ?_⟩
      · show (setTimeout w fd 0).map _ = _
        rw [hw]; rfl
      · refine { hi with arm := ?_, reg := ?_ }
        rotate_left
        · show Function.update w'.reg fd false = Function.update a.reg fd false
          rw [hi.reg]
        · intro x p hp
          have := hi.arm x p hp
          refine ⟨this.1, this.2.1, ?_, this.2.2.2⟩
          show Function.update a.reg fd false x = true
          by_cases hxf : x = fd
          · subst hxf
            change Function.update a.arm x none x = some p at hp
            simp at hp
          · rw [Function.update_of_ne hxf]; exact this.2.2.1
      · intro x hxs p hp
        by_cases hxf : x = fd
        · subst hxf; exact hy p hp
        · have := hx x hxf
          change Function.update a.arm fd none x = some p at hp
          change Function.update a.arm fd none x = _ at this
          rw [this] at hp; exact hO x hxs p hp
      · intro hP x d
        by_cases hxf : x = fd
        · subst hxf
          constructor
          · intro h'; exact absurd rfl (hz hP _ h')
          · intro h'; exact absurd (hO x hg.2.2 _ h') hP
        · have := hx x hxf
          change Function.update a.arm fd none x = _ at this
          show Function.update a.arm fd none x = _ ↔ _
          rw [this]
    · exact absurd hs (by simp)

theorem ops_inv {c : Cfg} {P : Nat → Prop} {who : Option Nat} : ∀ {os : List COp} {w : Wheel} {a a' : AW}, Inv c P w a →
    Safe c P a → (∀ fd, (who = none ∨ who = some fd) → ∀ p, a.arm fd = some p → P (p.1 % 128)) →
    specOps c who a os = some a' → ∃ w', runOps w os = some w' ∧ Kept c P who w w' a a'
  | [], w, a, a', h, _, hO, hs => by
    simp only [specOps] at hs
    injection hs with hs
    subst hs
    exact ⟨w, rfl, h, Frame.refl _ _, rfl, rfl, rfl, hO, fun _ _ _ => Iff.rfl⟩
  | o :: os, w, a, a', h, hS, hO, hs => by
    simp only [specOps] at hs
    cases ho : specOp c who a o with
    | none => rw [ho] at hs; exact absurd hs (by simp)
    | some a1 =>
      rw [ho] at hs
      obtain ⟨w1, hw1, k1⟩ := op_inv h hS hO ho
      have hS1 : Safe c P a1 := by
        unfold Safe; rw [k1.base, k1.now]; exact hS
      obtain ⟨w2, hw2, k2⟩ := ops_inv k1.inv hS1 k1.own hs
      refine ⟨w2, ?_, k2.inv, k1.frame.trans k2.frame, k2.base.trans k1.base, k2.now.trans k1.now, k2.log.trans k1.log,
        k2.own, ?_⟩
      · simp only [runOps]; rw [hw1]; exact hw2
      · intro hP x d
        have := k2.cur (by rw [k1.base]; exact hP) x d
        rw [k1.base] at this
        rw [this]
        exact k1.cur hP x d

end Verif.Wheel
