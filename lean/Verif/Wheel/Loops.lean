import Verif.Wheel.Lemmas

namespace Verif.Wheel

/-- All slots but that of tick `b`. -/
def Oth (b : Nat) (s : Nat) : Prop := s ≠ b % 128

def Rem (b : Nat) (a : AW) (L : List Nat) : Prop := ∀ fd, (∃ d, a.arm fd = some (b, d)) ↔ fd ∈ L

/-- During the pass over tick `b`: `L` are the descriptors still to be called. -/
structure Mid (c : Cfg) (b : Nat) (w : Wheel) (a : AW) (L : List Nat) : Prop where
  inv : Inv c (Oth b) w a
  base : a.base = b
  ended : c.start b + c.res ≤ a.now
  rem : Rem b a L
  nodup : L.Nodup

def fireL (cb : Cb) (w : Wheel) : List Nat → Option Wheel
  | [] => some w
  | k :: ks => (fire cb w k).bind fun w => fireL cb w ks

theorem fireL_append (cb : Cb) : ∀ (l m : List Nat) (w : Wheel),
    fireL cb w (l ++ m) = (fireL cb w l).bind fun w => fireL cb w m
  | [], m, w => rfl
  | k :: l, m, w => by
    simp only [List.cons_append, fireL]
    cases fire cb w k with
    | none => rfl
    | some w1 => simp [fireL_append cb l m]

theorem fireAll_append (c : Cfg) (cb : Cb) : ∀ (l m : List Nat) (a : AW),
    fireAll c cb a (l ++ m) = (fireAll c cb a l).bind fun a => fireAll c cb a m
  | [], m, a => rfl
  | k :: l, m, a => by
    simp only [List.cons_append, fireAll]
    cases specFire c cb a k with
    | none => rfl
    | some a1 => simp [fireAll_append c cb l m]

theorem wordLoop_eq (cb : Cb) : ∀ (n : Nat) (v : BitVec 16) (k : Nat) (w : Wheel),
    (∀ j, n ≤ j → v.getMsbD j = false) → wordLoop cb (n + 1) v k w = fireL cb w (bitList (n + 1) v k)
  | 0, v, k, w, h => by
    have : v = 0 := by
      by_contra h0
      obtain ⟨j, _, hj⟩ := (ne_zero_iff v).1 h0
      rw [h j (Nat.zero_le _)] at hj
      exact absurd hj (by simp)
    simp [wordLoop, bitList, this, fireL]
  | n + 1, v, k, w, h => by
    have ih := fun w => wordLoop_eq cb n (v <<< 1) (k + 1) w (by intro j hj; rw [shl_bit]; exact h _ (by omega))
    unfold wordLoop bitList
    by_cases h0 : v = 0
    · rw [if_pos h0, if_pos h0]; rfl
    · rw [if_neg h0, if_neg h0]
      by_cases hm : v.msb
      · rw [if_pos hm, if_pos hm]
        simp only [List.cons_append, List.nil_append, fireL]
        congr 1
        funext w
        exact ih w
      · rw [if_neg hm, if_neg hm]
        exact ih w

theorem fire_mid {c : Cfg} {cb : Cb} {b : Nat} {w : Wheel} {a a' : AW} {k : Nat} {L : List Nat} (h : Mid c b w a (k :: L))
    (hs : specFire c cb a k = some a') :
    ∃ w', fire cb w k = some w' ∧ Mid c b w' a' L ∧ a'.now = a.now ∧ w'.vec (b % 128) = w.vec (b % 128) ∧
      w'.vov (b % 128) = w.vov (b % 128) := by
  obtain ⟨d, hd⟩ := (h.rem k).2 (by simp)
  have hb := h.base
  unfold specFire at hs
  rw [hd] at hs
  change specOps c (some k) { a with arm := Function.update a.arm k none, log := a.log ++ [(k, d, a.now)] }
    (cb a.log.length k) = some a' at hs
  obtain ⟨_, _, hreg, _, h1, h2⟩ := h.inv.arm k _ hd
  have hinv : Inv c (Oth b) { w with idx := Function.update w.idx k 255, log := w.log ++ [(k, w.now)] }
      { a with arm := Function.update a.arm k none, log := a.log ++ [(k, d, a.now)] } := by
    refine { h.inv with bits := ?_, idx := ?_, arm := ?_, log := ?_, early := ?_ }
    · intro s hs hP x
      have := h.inv.bits s hs hP x
      show bitOf (w.vec s) x = true ↔ ∃ p, Function.update a.arm k none x = some p ∧ p.1 % 128 = s
      rw [this]
      by_cases hx : x = k
      · subst hx
        rw [Function.update_self, hd]
        simp
        exact fun h => hP h.symm
      · rw [Function.update_of_ne hx]
    · intro x
      show Function.update w.idx k 255 x = match Function.update a.arm k none x with
        | some p => p.1 % 128
        | none => 255
      by_cases hx : x = k
      · subst hx; simp
      · rw [Function.update_of_ne hx, Function.update_of_ne hx]; exact h.inv.idx x
    · intro x q hq
      change Function.update a.arm k none x = some q at hq
      by_cases hx : x = k
      · subst hx; simp at hq
      · rw [Function.update_of_ne hx] at hq; exact h.inv.arm x q hq
    · show w.log ++ [(k, w.now)] = (a.log ++ [(k, d, a.now)]).map _
      rw [h.inv.log, h.inv.now]; simp
    · intro e he
      rcases List.mem_append.1 he with he | he
      · exact h.inv.early e he
      · simp at he
        subst he
        have := h.ended
        simp only at h1 h2 ⊢
        omega
  have hsafe : Safe c (Oth b) { a with arm := Function.update a.arm k none, log := a.log ++ [(k, d, a.now)] } := by
    right
    refine ⟨?_, ?_⟩
    · show c.start a.base + _ ≤ a.now
      rw [hb]; exact h.ended
    · intro s hs
      show s ≠ b % 128
      rw [← hb]; exact hs
  obtain ⟨w', hw, kp⟩ := ops_inv hinv hsafe (who := some k)
    (by
      intro fd hfd p hp
      have : k = fd := by simpa using hfd
      subst this
      change Function.update a.arm k none k = some p at hp
      simp at hp) hs
  have hnot : ¬ Oth b (b % 128) := fun h => h rfl
  refine ⟨w', ?_, ⟨kp.inv, kp.base.trans hb, by rw [kp.now]; exact h.ended, ?_, (List.nodup_cons.1 h.nodup).2⟩, kp.now,
    (kp.frame _ hnot).1, (kp.frame _ hnot).2⟩
  · unfold fire
    rw [if_pos (by rw [h.inv.reg]; exact hreg), show w.log.length = a.log.length by rw [h.inv.log]; simp]
    exact hw
  · intro fd
    have hcur : ∀ d, a'.arm fd = some (b, d) ↔ Function.update a.arm k none fd = some (b, d) := by
      intro d
      have := kp.cur (by show ¬ Oth b (a.base % 128); rw [hb]; exact hnot) fd d
      rw [← hb]
      exact this
    simp only [hcur]
    by_cases hx : fd = k
    · subst hx
      simp [(List.nodup_cons.1 h.nodup).1]
    · rw [Function.update_of_ne hx]
      rw [h.rem fd]
      simp [hx]

theorem fireL_mid {c : Cfg} {cb : Cb} {b : Nat} : ∀ {L1 L : List Nat} {w : Wheel} {a a' : AW}, Mid c b w a (L1 ++ L) →
    fireAll c cb a L1 = some a' →
    ∃ w', fireL cb w L1 = some w' ∧ Mid c b w' a' L ∧ a'.now = a.now ∧ w'.vec (b % 128) = w.vec (b % 128) ∧
      w'.vov (b % 128) = w.vov (b % 128)
  | [], L, w, a, a', h, hs => by
    simp only [fireAll] at hs
    injection hs with hs
    subst hs
    exact ⟨w, rfl, h, rfl, rfl, rfl⟩
  | k :: L1, L, w, a, a', h, hs => by
    simp only [fireAll] at hs
    cases h1 : specFire c cb a k with
    | none => rw [h1] at hs; exact absurd hs (by simp)
    | some a1 =>
      rw [h1] at hs
      obtain ⟨w1, hw1, m1, n1, v1, u1⟩ := fire_mid h h1
      obtain ⟨w2, hw2, m2, n2, v2, u2⟩ := fireL_mid m1 hs
      refine ⟨w2, ?_, m2, n2.trans n1, v2.trans v1, u2.trans u1⟩
      simp only [fireL]
      rw [hw1]
      exact hw2

/-- The set descriptors among `n` words from word `j` on. -/
def wordsList (f : Nat → BitVec 16) (n j : Nat) : List Nat := (List.range' (16 * j) (16 * n)).filter (bitOf f)

theorem sorted_ext {l m : List Nat} (hl : l.Pairwise (· < ·)) (hm : m.Pairwise (· < ·)) (h : ∀ x, x ∈ l ↔ x ∈ m) : l = m := by
  have hp : l.Perm m := (List.perm_ext_iff_of_nodup (hl.imp (by omega)) (hm.imp (by omega))).2 h
  exact hp.eq_of_pairwise (fun a b _ _ h1 h2 => by omega) hl hm

theorem wordsList_sorted (f : Nat → BitVec 16) (n j : Nat) : (wordsList f n j).Pairwise (· < ·) :=
  (List.pairwise_lt_range' (step := 1)).filter _

theorem wordsList_split (f : Nat → BitVec 16) (n m j : Nat) :
    wordsList f (n + m) j = wordsList f n j ++ wordsList f m (j + n) := by
  unfold wordsList
  rw [← List.filter_append, Nat.mul_add, ← List.range'_append]
  simp [Nat.mul_add]

theorem wordsList_one (f : Nat → BitVec 16) (j : Nat) : wordsList f 1 j = bitList 17 (f j) (j * 16) := by
  apply sorted_ext (wordsList_sorted _ _ _) (bitList_sorted (by intro i hi; exact BitVec.getMsbD_of_ge _ _ (by omega)))
  intro x
  rw [mem_bitList (by intro i hi; exact BitVec.getMsbD_of_ge _ _ (by omega))]
  unfold wordsList
  rw [List.mem_filter, List.mem_range'_1]
  unfold bitOf
  constructor
  · rintro ⟨hx, hb⟩
    refine ⟨x % 16, Nat.mod_lt _ (by omega), by omega, ?_⟩
    rw [show x / 16 = j by omega] at hb
    exact hb
  · rintro ⟨b, hb, rfl, hv⟩
    refine ⟨by omega, ?_⟩
    rw [show (j * 16 + b) / 16 = j by omega, show (j * 16 + b) % 16 = b by omega]
    exact hv

theorem bitList_zero (n k : Nat) : bitList n 0 k = [] := by
  cases n <;> simp [bitList]

/-- The words from `j` on; the earlier ones are done. -/
def cut (f : Nat → BitVec 16) (j : Nat) : Nat → BitVec 16 := fun x => if x < j then 0 else f x

theorem cut_zero {f : Nat → BitVec 16} {j : Nat} (h : f j = 0) : cut f j = cut f (j + 1) := by
  funext x
  unfold cut
  by_cases hx : x = j
  · subst hx; simp [h]
  · by_cases h1 : x < j
    · simp [h1, Nat.lt_succ_of_lt h1]
    · rw [if_neg h1, if_neg (by omega)]

theorem cut_zeros {f : Nat → BitVec 16} {j : Nat} : ∀ {m : Nat}, (∀ b, b < m → f (j + b) = 0) → cut f j = cut f (j + m)
  | 0, _ => rfl
  | m + 1, h => by
    rw [cut_zeros (m := m) (fun b hb => h b (by omega)), cut_zero (h m (by omega)), Nat.add_assoc]

theorem cut_update (f : Nat → BitVec 16) (j : Nat) : Function.update (cut f j) j 0 = cut f (j + 1) := by
  funext x
  by_cases hx : x = j
  · subst hx; simp [cut]
  · rw [Function.update_of_ne hx]
    unfold cut
    by_cases h1 : x < j
    · rw [if_pos h1, if_pos (by omega)]
    · rw [if_neg h1, if_neg (by omega)]

theorem wordsList_zeros {f : Nat → BitVec 16} {j : Nat} {m : Nat} (h : ∀ b, b < m → f (j + b) = 0) :
    wordsList f m j = [] := by
  unfold wordsList
  rw [List.filter_eq_nil_iff]
  intro x hx
  rw [List.mem_range'_1] at hx
  unfold bitOf
  have := h (x / 16 - j) (by omega)
  rw [show j + (x / 16 - j) = x / 16 by omega] at this
  rw [this]
  simp

theorem Mid.congr {c : Cfg} {b : Nat} {w : Wheel} {a : AW} {L : List Nat} (h : Mid c b w a L)
    {vec vov : Nat → Nat → BitVec 16} (hv : ∀ s, s ≠ b % 128 → vec s = w.vec s) (hu : ∀ s, s ≠ b % 128 → vov s = w.vov s) :
    Mid c b { w with vec := vec, vov := vov } a L := by
  refine { h with inv := { h.inv with bits := ?_, sums := ?_ } }
  · intro s hs hP x
    show bitOf (vec s) x = true ↔ _
    rw [hv s hP]; exact h.inv.bits s hs hP x
  · intro s hs hP j
    show bitOf (vov s) j = true ↔ vec s j ≠ 0
    rw [hv s hP, hu s hP]; exact h.inv.sums s hs hP j

theorem bits_mid {c : Cfg} {cb : Cb} {b : Nat} (cur : Nat → BitVec 16) : ∀ {m : Nat} {vv : BitVec 16} {j : Nat}
    {L : List Nat} {w : Wheel} {a a' : AW},
    (∀ i, i < m → (vv.getMsbD i = true ↔ cur (j + i) ≠ 0)) → (∀ i, m ≤ i → vv.getMsbD i = false) →
    w.vec (b % 128) = cut cur j → Mid c b w a (wordsList cur m j ++ L) → fireAll c cb a (wordsList cur m j) = some a' →
    ∃ w', bitsLoop cb (b % 128) (m + 1) vv j w = some w' ∧ Mid c b w' a' L ∧ a'.now = a.now ∧
      w'.vec (b % 128) = cut cur (j + m) ∧ w'.vov (b % 128) = w.vov (b % 128)
  | m, vv, j, L, w, a, a', hb, hh, hv, hm, hs => by
    by_cases h0 : vv = 0
    · have hz : ∀ i, i < m → cur (j + i) = 0 := by
        intro i hi
        have := hb i hi
        rw [h0] at this
        by_contra hc
        exact absurd (this.2 hc) (by simp)
      rw [wordsList_zeros hz] at hm hs
      simp only [fireAll] at hs
      injection hs with hs
      subst hs
      refine ⟨w, ?_, hm, rfl, ?_, rfl⟩
      · unfold bitsLoop; rw [if_pos h0]
      · rw [hv, cut_zeros hz]
    · obtain ⟨m', rfl⟩ : ∃ m', m = m' + 1 := by
        cases m with
        | zero =>
          obtain ⟨i, _, hi⟩ := (ne_zero_iff vv).1 h0
          rw [hh i (Nat.zero_le _)] at hi
          exact absurd hi (by simp)
        | succ m' => exact ⟨m', rfl⟩
      have hb' : ∀ i, i < m' → ((vv <<< 1).getMsbD i = true ↔ cur (j + 1 + i) ≠ 0) := by
        intro i hi
        rw [shl_bit, hb (i + 1) (by omega), show j + (i + 1) = j + 1 + i by omega]
      have hh' : ∀ i, m' ≤ i → (vv <<< 1).getMsbD i = false := by
        intro i hi; rw [shl_bit]; exact hh _ (by omega)
      have hmsb : vv.msb = true ↔ cur j ≠ 0 := hb 0 (by omega)
      have hsplit : wordsList cur (m' + 1) j = wordsList cur 1 j ++ wordsList cur m' (j + 1) := by
        rw [Nat.add_comm m' 1, wordsList_split]
      rw [hsplit] at hm hs
      rw [show j + (m' + 1) = j + 1 + m' by omega]
      have hvj : w.vec (b % 128) j = cur j := by rw [hv]; simp [cut]
      unfold bitsLoop
      rw [if_neg h0]
      by_cases hmb : vv.msb = true
      · have hne := hmsb.1 hmb
        rw [if_pos hmb, hvj, if_neg hne, wordLoop_eq cb 16 _ _ _ (by intro i hi; exact BitVec.getMsbD_of_ge _ _ hi),
          ← wordsList_one]
        rw [fireAll_append] at hs
        cases h1 : fireAll c cb a (wordsList cur 1 j) with
        | none => rw [h1] at hs; exact absurd hs (by simp)
        | some a1 =>
          rw [h1] at hs
          rw [List.append_assoc] at hm
          obtain ⟨w1, hw1, m1, n1, v1, u1⟩ := fireL_mid hm h1
          have m1' : Mid c b { w1 with vec := upd w1.vec (b % 128) j 0, vov := w1.vov } a1 (wordsList cur m' (j + 1) ++ L) :=
            m1.congr (fun s hs => upd_ne _ _ _ hs) (fun _ _ => rfl)
          obtain ⟨w2, hw2, m2, n2, v2, u2⟩ := bits_mid cur (m := m') hb' hh'
            (by show upd w1.vec (b % 128) j 0 (b % 128) = _; rw [upd_self, v1, hv, cut_update]) m1' hs
          refine ⟨w2, ?_, m2, n2.trans n1, v2, u2.trans u1⟩
          rw [hw1]
          exact hw2
      · rw [if_neg hmb]
        have hz : cur j = 0 := by
          by_contra hc
          exact hmb (hmsb.2 hc)
        rw [wordsList_one, hz, bitList_zero, List.nil_append] at hm hs
        exact bits_mid cur (m := m') hb' hh' (by rw [hv, cut_zero hz]) hm hs
  termination_by m => m

theorem row_mid {c : Cfg} {cb : Cb} {b : Nat} (cur : Nat → BitVec 16) : ∀ {n i : Nat} {w : Wheel} {a a' : AW} {L : List Nat},
    (∀ j, 16 * i ≤ j → (bitOf (w.vov (b % 128)) j = true ↔ cur j ≠ 0)) → (∀ j, j < i → w.vov (b % 128) j = 0) →
    w.vec (b % 128) = cut cur (16 * i) → Mid c b w a (wordsList cur (16 * n) (16 * i) ++ L) →
    fireAll c cb a (wordsList cur (16 * n) (16 * i)) = some a' →
    ∃ w', rowLoop cb (b % 128) n i w = some w' ∧ Mid c b w' a' L ∧ a'.now = a.now ∧
      w'.vec (b % 128) = cut cur (16 * (i + n)) ∧ (∀ j, j < i + n → w'.vov (b % 128) j = 0) ∧
      (∀ j, i + n ≤ j → w'.vov (b % 128) j = w.vov (b % 128) j)
  | 0, i, w, a, a', L, hb, hz, hv, hm, hs => by
    have : wordsList cur (16 * 0) (16 * i) = [] := by simp [wordsList]
    rw [this] at hm hs
    simp only [fireAll] at hs
    injection hs with hs
    subst hs
    exact ⟨w, rfl, hm, rfl, hv, hz, fun _ _ => rfl⟩
  | n + 1, i, w, a, a', L, hb, hz, hv, hm, hs => by
    have hsplit : wordsList cur (16 * (n + 1)) (16 * i) = wordsList cur 16 (16 * i) ++ wordsList cur (16 * n) (16 * (i + 1)) := by
      rw [show 16 * (n + 1) = 16 + 16 * n by ring, wordsList_split, show 16 * i + 16 = 16 * (i + 1) by ring]
    rw [hsplit] at hm hs
    rw [fireAll_append] at hs
    cases h1 : fireAll c cb a (wordsList cur 16 (16 * i)) with
    | none => rw [h1] at hs; exact absurd hs (by simp)
    | some a1 =>
      rw [h1] at hs
      rw [List.append_assoc] at hm
      have hbit : ∀ k, k < 16 → ((w.vov (b % 128) i).getMsbD k = true ↔ cur (16 * i + k) ≠ 0) := by
        intro k hk
        rw [← hb _ (by omega)]
        unfold bitOf
        rw [show (16 * i + k) / 16 = i by omega, show (16 * i + k) % 16 = k by omega]
      obtain ⟨w1, hw1, m1, n1, v1, u1⟩ := bits_mid cur (m := 16) (vv := w.vov (b % 128) i) (j := 16 * i) hbit
        (by intro k hk; exact BitVec.getMsbD_of_ge _ _ hk) hv hm h1
      have hgo : rowLoop cb (b % 128) (n + 1) i w =
          rowLoop cb (b % 128) n (i + 1) { w1 with vov := upd w1.vov (b % 128) i 0 } := by
        by_cases h0 : w.vov (b % 128) i = 0
        · have hzero : ∀ k, k < 16 → cur (16 * i + k) = 0 := by
            intro k hk
            by_contra hc
            have := (hbit k hk).2 hc
            rw [h0] at this
            exact absurd this (by simp)
          have hw : w1 = w := by
            have : bitsLoop cb (b % 128) (16 + 1) (w.vov (b % 128) i) (16 * i) w = some w := by
              unfold bitsLoop; rw [if_pos h0]
            rw [this] at hw1
            exact (Option.some.inj hw1).symm
          subst hw
          have hid : upd w1.vov (b % 128) i 0 = w1.vov := by
            unfold upd
            rw [← h0, Function.update_eq_self, Function.update_eq_self]
          rw [rowLoop, if_neg (by simp [h0]), hid]
        · rw [rowLoop, if_pos h0, Nat.mul_comm i 16, hw1]
          rfl
      have m1' : Mid c b { w1 with vec := w1.vec, vov := upd w1.vov (b % 128) i 0 } a1
          (wordsList cur (16 * n) (16 * (i + 1)) ++ L) := m1.congr (fun _ _ => rfl) (fun s hs => upd_ne _ _ _ hs)
      have hvov : upd w1.vov (b % 128) i 0 (b % 128) = Function.update (w.vov (b % 128)) i 0 := by rw [upd_self, u1]
      obtain ⟨w2, hw2, m2, n2, v2, z2, k2⟩ := row_mid cur (n := n) (i := i + 1)
        (w := { w1 with vec := w1.vec, vov := upd w1.vov (b % 128) i 0 })
        (by
          intro j hj
          rw [← hb j (by omega)]
          show bitOf (upd w1.vov (b % 128) i 0 (b % 128)) j = true ↔ _
          rw [hvov]
          unfold bitOf
          rw [Function.update_of_ne (by omega)])
        (by
          intro j hj
          show upd w1.vov (b % 128) i 0 (b % 128) j = 0
          rw [hvov]
          by_cases hji : j = i
          · subst hji; simp
          · rw [Function.update_of_ne hji]; exact hz j (by omega))
        (by show w1.vec (b % 128) = _; rw [v1, show 16 * i + 16 = 16 * (i + 1) by ring]) m1' hs
      refine ⟨w2, by rw [hgo]; exact hw2, m2, n2.trans n1, ?_, ?_, ?_⟩
      · rw [v2, show i + 1 + n = i + (n + 1) by omega]
      · intro j hj; exact z2 j (by omega)
      · intro j hj
        rw [k2 j (by omega)]
        show upd w1.vov (b % 128) i 0 (b % 128) j = _
        rw [hvov, Function.update_of_ne (by omega)]

end Verif.Wheel
