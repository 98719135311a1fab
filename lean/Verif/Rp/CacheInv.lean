import Verif.Rp.Cache

/-!
# The caches of spans: invariant
-/

namespace Verif.Rp.Cache

theorem put_same (st : St) (a : Place) (l : List Nat) : put st a l a = l := by simp [put]

theorem put_ne (st : St) {a b : Place} (l : List Nat) (h : b ≠ a) : put st a l b = st b := by simp [put, h]

/-- Every span is in at most one place, once. -/
def Good (st : St) : Prop := (∀ a, (st a).Nodup) ∧ ∀ a b s, s ∈ st a → s ∈ st b → a = b

/-- The same spans are somewhere. -/
def Same (st st' : St) : Prop := ∀ s, (∃ a, s ∈ st' a) ↔ ∃ a, s ∈ st a

theorem Same.refl (st : St) : Same st st := fun _ => Iff.rfl

theorem Same.trans {a b c : St} (h : Same a b) (h' : Same b c) : Same a c := fun s => (h' s).trans (h s)

theorem good_flat {st : St} (h : Good st) {P : List Place} (hP : P.Nodup) : (P.flatMap st).Nodup := by
  rw [List.nodup_flatMap]
  refine ⟨fun a _ => h.1 a, ?_⟩
  refine List.Pairwise.imp ?_ hP
  intro a b hab s hs ht
  exact hab (h.2 a b s hs ht)

/-- Moving spans between the places `P`. -/
theorem shuffle {st st' : St} (P : List Place) (hP : P.Nodup) (hout : ∀ a, a ∉ P → st' a = st a)
    (hperm : (P.flatMap st').Perm (P.flatMap st)) (h : Good st) : Good st' ∧ Same st st' := by
  have hn := hperm.nodup_iff.2 (good_flat h hP)
  rw [List.nodup_flatMap] at hn
  have hmem : ∀ s, (∃ a ∈ P, s ∈ st' a) ↔ ∃ a ∈ P, s ∈ st a := by
    intro s
    rw [← List.mem_flatMap, ← List.mem_flatMap]
    exact hperm.mem_iff
  refine ⟨⟨fun a => ?_, fun a b s ha hb => ?_⟩, fun s => ⟨?_, ?_⟩⟩
  · by_cases ha : a ∈ P
    · exact hn.1 a ha
    · rw [hout a ha]; exact h.1 a
  · by_cases hap : a ∈ P
    · by_cases hbp : b ∈ P
      · by_contra hne
        have := (List.pairwise_iff_getElem.1 hn.2)
        obtain ⟨i, hi, ei⟩ := List.getElem_of_mem hap
        obtain ⟨j, hj, ej⟩ := List.getElem_of_mem hbp
        rcases Nat.lt_trichotomy i j with hij | hij | hij
        · have d := this i j hi hj hij
          rw [ei, ej] at d
          exact d ha hb
        · subst hij
          exact hne (ei.symm.trans ej)
        · have d := this j i hj hi hij
          rw [ei, ej] at d
          exact d hb ha
      · obtain ⟨c, hc, hs⟩ := (hmem s).1 ⟨a, hap, ha⟩
        rw [hout b hbp] at hb
        exact absurd (h.2 c b s hs hb ▸ hc) hbp
    · rw [hout a hap] at ha
      by_cases hbp : b ∈ P
      · obtain ⟨c, hc, hs⟩ := (hmem s).1 ⟨b, hbp, hb⟩
        exact absurd (h.2 c a s hs ha ▸ hc) hap
      · rw [hout b hbp] at hb
        exact h.2 a b s ha hb
  · rintro ⟨a, ha⟩
    by_cases hap : a ∈ P
    · obtain ⟨c, _, hs⟩ := (hmem s).1 ⟨a, hap, ha⟩
      exact ⟨c, hs⟩
    · rw [hout a hap] at ha
      exact ⟨a, ha⟩
  · rintro ⟨a, ha⟩
    by_cases hap : a ∈ P
    · obtain ⟨c, _, hs⟩ := (hmem s).2 ⟨a, hap, ha⟩
      exact ⟨c, hs⟩
    · exact ⟨a, by rw [hout a hap]; exact ha⟩

/-- What always holds. -/
structure Inv (cnt : Nat → Nat) (st : St) : Prop where
  good : Good st
  range : ∀ a s, s ∈ st a → 1 ≤ cnt s ∧ cnt s ≤ 63
  tcCnt : ∀ h n s, s ∈ st (.tc h n) → cnt s = n
  arrCnt : ∀ n s, s ∈ st (.arr n) → cnt s = n
  ovfCnt : ∀ n s, s ∈ st (.ovf n) → cnt s = n
  keptCnt : ∀ h n s, s ∈ st (.kept h n) → cnt s = n
  clsCnt : ∀ h c s, s ∈ st (.cls h c) → cnt s = 1
  clsLen : ∀ h c, (st (.cls h c)).length ≤ 1
  tcLen : ∀ h n, 1 ≤ n → n ≤ 63 → (st (.tc h n)).length < tcLimit n
  arrLen : ∀ n, 1 ≤ n → n ≤ 63 → (st (.arr n)).length ≤ glLimit n

/-- The invariant while the array of heap `h` for `n` spans may be full. -/
structure Inv' (cnt : Nat → Nat) (st : St) (h n : Nat) : Prop where
  good : Good st
  range : ∀ a s, s ∈ st a → 1 ≤ cnt s ∧ cnt s ≤ 63
  tcCnt : ∀ h n s, s ∈ st (.tc h n) → cnt s = n
  arrCnt : ∀ n s, s ∈ st (.arr n) → cnt s = n
  ovfCnt : ∀ n s, s ∈ st (.ovf n) → cnt s = n
  keptCnt : ∀ h n s, s ∈ st (.kept h n) → cnt s = n
  clsCnt : ∀ h c s, s ∈ st (.cls h c) → cnt s = 1
  clsLen : ∀ h c, (st (.cls h c)).length ≤ 1
  tcLen : ∀ h' n', 1 ≤ n' → n' ≤ 63 → ¬ (h' = h ∧ n' = n) → (st (.tc h' n')).length < tcLimit n'
  arrLen : ∀ n, 1 ≤ n → n ≤ 63 → (st (.arr n)).length ≤ glLimit n

theorem Inv.weaken {cnt : Nat → Nat} {st : St} (I : Inv cnt st) (h n : Nat) : Inv' cnt st h n :=
  ⟨I.good, I.range, I.tcCnt, I.arrCnt, I.ovfCnt, I.keptCnt, I.clsCnt, I.clsLen, fun h' n' a b _ => I.tcLen h' n' a b, I.arrLen⟩

theorem Inv'.full {cnt : Nat → Nat} {st : St} {h n : Nat} (I : Inv' cnt st h n)
    (hl : 1 ≤ n → n ≤ 63 → (st (.tc h n)).length < tcLimit n) : Inv cnt st :=
  ⟨I.good, I.range, I.tcCnt, I.arrCnt, I.ovfCnt, I.keptCnt, I.clsCnt, I.clsLen, fun h' n' a b => by
    by_cases e : h' = h ∧ n' = n
    · obtain ⟨rfl, rfl⟩ := e
      exact hl a b
    · exact I.tcLen h' n' a b e, I.arrLen⟩

theorem limits {n : Nat} (h1 : 1 ≤ n) (h2 : n ≤ 63) :
    tcLimit n ≤ tcSize n ∧ 69 ≤ tcLimit n ∧ (n = 1 → 64 < tcLimit n) ∧ transfer n ≤ 64 ∧ 1 ≤ transfer n ∧ glLimit n ≤ 3200 := by
  unfold glLimit transfer tcLimit tcSize
  by_cases h : n = 1
  · simp [h]
  · simp only [h, if_false]
    refine ⟨by omega, by omega, by simp, ?_, ?_, by omega⟩
    · split <;> omega
    · split <;> omega

/-! ### Inserting into the common cache -/

theorem perm_split (l : List Nat) (remain ins : Nat) (pin : Nat → Bool) (A K U : List Nat) :
    (l.take remain ++ ((A ++ (l.drop remain).take ins) ++ ((((((l.drop remain).drop ins).filter pin).reverse ++ K)) ++
      (((((l.drop remain).drop ins).filter fun s => !pin s).reverse ++ U))))).Perm (l ++ (A ++ (K ++ U))) := by
  rw [List.perm_iff_count]
  intro x
  have h1 : l.count x = (l.take remain).count x + (l.drop remain).count x := by
    rw [← List.count_append, List.take_append_drop]
  have h2 : (l.drop remain).count x = ((l.drop remain).take ins).count x + ((l.drop remain).drop ins).count x := by
    rw [← List.count_append, List.take_append_drop]
  have h3 : ((l.drop remain).drop ins).count x = (((l.drop remain).drop ins).filter pin).count x +
      (((l.drop remain).drop ins).filter fun s => !pin s).count x := by
    rw [← List.count_append]
    exact ((List.filter_append_perm pin _).count_eq x).symm
  simp only [List.count_append, List.count_reverse]
  omega

theorem globInsert_inv {cnt : Nat → Nat} {st : St} {h n : Nat} (I : Inv' cnt st h n) (h1 : 1 ≤ n) (h2 : n ≤ 63)
    {remain : Nat} (hr : remain < tcLimit n) (pin : Nat → Bool) :
    ∃ st', globInsert st h n remain pin = some st' ∧ Inv cnt st' ∧ Same st st' ∧ st' .user = st .user ∧
      (∀ h', st' (.dfr h') = st (.dfr h')) ∧ (∀ h' c, st' (.cls h' c) = st (.cls h' c)) ∧
      (∀ h' n', ¬ (h' = h ∧ n' = n) → st' (.tc h' n') = st (.tc h' n')) ∧
      st' (.tc h n) = (st (.tc h n)).take remain := by
  have hA := I.arrLen n h1 h2
  obtain ⟨l1, l2, l3, l4, l5, l6⟩ := limits h1 h2
  unfold globInsert
  dsimp only
  rw [if_neg (by omega)]
  obtain ⟨ins, hins⟩ : ∃ ins, (if (st (.arr n)).length + ((st (.tc h n)).drop remain).length > glLimit n then
      glLimit n - (st (.arr n)).length else ((st (.tc h n)).drop remain).length) = ins := ⟨_, rfl⟩
  have hle : (st (.arr n)).length + ins ≤ glLimit n := by
    rw [← hins]
    split <;> omega
  rw [hins, if_neg (by omega)]
  refine ⟨_, rfl, ?_⟩
  obtain ⟨st', hst'⟩ : ∃ st', put (put (put (put st (.tc h n) ((st (.tc h n)).take remain)) (.arr n)
      (st (.arr n) ++ ((st (.tc h n)).drop remain).take ins)) (.kept h n)
      (((((st (.tc h n)).drop remain).drop ins).filter pin).reverse ++ st (.kept h n))) .unm
      (((((st (.tc h n)).drop remain).drop ins).filter fun s => !pin s).reverse ++ st .unm) = st' := ⟨_, rfl⟩
  rw [hst']
  have e1 : st' (.tc h n) = (st (.tc h n)).take remain := by subst hst'; simp [put]
  have e2 : st' (.arr n) = st (.arr n) ++ ((st (.tc h n)).drop remain).take ins := by subst hst'; simp [put]
  have e3 : st' (.kept h n) = ((((st (.tc h n)).drop remain).drop ins).filter pin).reverse ++ st (.kept h n) := by
    subst hst'; simp [put]
  have e4 : st' .unm = ((((st (.tc h n)).drop remain).drop ins).filter fun s => !pin s).reverse ++ st .unm := by
    subst hst'; simp [put]
  have eo : ∀ a, a ≠ .tc h n → a ≠ .arr n → a ≠ .kept h n → a ≠ .unm → st' a = st a := by
    intro a a1 a2 a3 a4
    subst hst'
    simp [put, a1, a2, a3, a4]
  clear hst'
  obtain ⟨g, sm⟩ := shuffle [.tc h n, .arr n, .kept h n, .unm] (by simp) (st := st) (st' := st')
    (fun a ha => by
      simp only [List.mem_cons, List.not_mem_nil, or_false, not_or] at ha
      exact eo a ha.1 ha.2.1 ha.2.2.1 ha.2.2.2)
    (by
      simp only [List.flatMap_cons, List.flatMap_nil, List.append_nil, e1, e2, e3, e4]
      exact perm_split _ _ _ _ _ _ _) I.good
  have hsub : ∀ s, s ∈ ((st (.tc h n)).drop remain) → s ∈ st (.tc h n) := fun s hs => List.mem_of_mem_drop hs
  refine ⟨⟨g, ?_, ?_, ?_, ?_, ?_, ?_, ?_, ?_, ?_⟩, sm, eo _ (by simp) (by simp) (by simp) (by simp),
    fun h' => eo _ (by simp) (by simp) (by simp) (by simp), fun h' c => eo _ (by simp) (by simp) (by simp) (by simp), ?_, e1⟩
  · intro a s hs
    obtain ⟨b, hb⟩ := (sm s).1 ⟨a, hs⟩
    exact I.range b s hb
  · intro h' n' s hs
    by_cases e : h' = h ∧ n' = n
    · obtain ⟨rfl, rfl⟩ := e
      rw [e1] at hs
      exact I.tcCnt _ _ s (List.mem_of_mem_take hs)
    · rw [eo _ (by simpa using e) (by simp) (by simp) (by simp)] at hs
      exact I.tcCnt _ _ s hs
  · intro n' s hs
    by_cases e : n' = n
    · subst e
      rw [e2, List.mem_append] at hs
      rcases hs with hs | hs
      · exact I.arrCnt _ s hs
      · exact I.tcCnt _ _ s (hsub s (List.mem_of_mem_take hs))
    · rw [eo _ (by simp) (by simpa using e) (by simp) (by simp)] at hs
      exact I.arrCnt _ s hs
  · intro n' s hs
    rw [eo _ (by simp) (by simp) (by simp) (by simp)] at hs
    exact I.ovfCnt _ s hs
  · intro h' n' s hs
    by_cases e : h' = h ∧ n' = n
    · obtain ⟨rfl, rfl⟩ := e
      rw [e3, List.mem_append] at hs
      rcases hs with hs | hs
      · rw [List.mem_reverse, List.mem_filter] at hs
        exact I.tcCnt _ _ s (hsub s (List.mem_of_mem_drop hs.1))
      · exact I.keptCnt _ _ s hs
    · rw [eo _ (by simp) (by simp) (by simpa using e) (by simp)] at hs
      exact I.keptCnt _ _ s hs
  · intro h' c s hs
    rw [eo _ (by simp) (by simp) (by simp) (by simp)] at hs
    exact I.clsCnt _ _ s hs
  · intro h' c
    rw [eo _ (by simp) (by simp) (by simp) (by simp)]
    exact I.clsLen _ _
  · intro h' n' a b
    by_cases e : h' = h ∧ n' = n
    · obtain ⟨rfl, rfl⟩ := e
      rw [e1, List.length_take]
      omega
    · rw [eo _ (by simpa using e) (by simp) (by simp) (by simp)]
      exact I.tcLen _ _ a b e
  · intro n' a b
    by_cases e : n' = n
    · subst e
      rw [e2, List.length_append, List.length_take]
      omega
    · rw [eo _ (by simp) (by simpa using e) (by simp) (by simp)]
      exact I.arrLen _ a b
  · intro h' n' e
    exact eo _ (by simpa using e) (by simp) (by simp) (by simp)

/-! ### Inserting into the cache of a heap -/

theorem heapInsert_inv {cnt : Nat → Nat} {st : St} (I : Inv cnt st) (h : Nat) {s : Nat} (hs : s ∈ st .user)
    (pin : Nat → Bool) :
    ∃ st', heapInsert cnt st h s pin = some st' ∧ Inv cnt st' ∧ Same st st' ∧ st' .user = (st .user).erase s ∧
      (∀ h', st' (.dfr h') = st (.dfr h')) ∧ (∀ h' c, st' (.cls h' c) = st (.cls h' c)) ∧
      (∀ h' n', ¬ (h' = h ∧ n' = cnt s) → st' (.tc h' n') = st (.tc h' n')) := by
  obtain ⟨h1, h2⟩ := I.range _ s hs
  obtain ⟨l1, l2, l3, l4, l5, l6⟩ := limits h1 h2
  have hlen := I.tcLen h (cnt s) h1 h2
  unfold heapInsert
  dsimp only
  rw [if_neg (by omega)]
  obtain ⟨st1, hst1⟩ : ∃ st1, put (put st .user ((st .user).erase s)) (.tc h (cnt s)) (st (.tc h (cnt s)) ++ [s]) = st1 :=
    ⟨_, rfl⟩
  rw [hst1]
  have e1 : st1 .user = (st .user).erase s := by subst hst1; simp [put]
  have e2 : st1 (.tc h (cnt s)) = st (.tc h (cnt s)) ++ [s] := by subst hst1; simp [put]
  have eo : ∀ a, a ≠ .user → a ≠ .tc h (cnt s) → st1 a = st a := by
    intro a a1 a2
    subst hst1
    simp [put, a1, a2]
  clear hst1
  obtain ⟨g, sm⟩ := shuffle [.user, .tc h (cnt s)] (by simp) (st := st) (st' := st1)
    (fun a ha => by
      simp only [List.mem_cons, List.not_mem_nil, or_false, not_or] at ha
      exact eo a ha.1 ha.2)
    (by
      simp only [List.flatMap_cons, List.flatMap_nil, List.append_nil, e1, e2]
      have p := List.perm_cons_erase hs
      refine List.Perm.trans ?_ (p.symm.append_right _)
      rw [← List.append_assoc]
      exact List.perm_append_singleton _ _) I.good
  have J : Inv' cnt st1 h (cnt s) := by
    refine ⟨g, ?_, ?_, ?_, ?_, ?_, ?_, ?_, ?_, ?_⟩
    · intro a t ht
      obtain ⟨b, hb⟩ := (sm t).1 ⟨a, ht⟩
      exact I.range b t hb
    · intro h' n' t ht
      by_cases e : h' = h ∧ n' = cnt s
      · obtain ⟨rfl, rfl⟩ := e
        rw [e2, List.mem_append, List.mem_singleton] at ht
        rcases ht with ht | rfl
        · exact I.tcCnt _ _ t ht
        · rfl
      · rw [eo _ (by simp) (by simpa using e)] at ht
        exact I.tcCnt _ _ t ht
    · intro n' t ht
      rw [eo _ (by simp) (by simp)] at ht
      exact I.arrCnt _ t ht
    · intro n' t ht
      rw [eo _ (by simp) (by simp)] at ht
      exact I.ovfCnt _ t ht
    · intro h' n' t ht
      rw [eo _ (by simp) (by simp)] at ht
      exact I.keptCnt _ _ t ht
    · intro h' c t ht
      rw [eo _ (by simp) (by simp)] at ht
      exact I.clsCnt _ _ t ht
    · intro h' c
      rw [eo _ (by simp) (by simp)]
      exact I.clsLen _ _
    · intro h' n' a b e
      rw [eo _ (by simp) (by simpa using e)]
      exact I.tcLen _ _ a b
    · intro n' a b
      rw [eo _ (by simp) (by simp)]
      exact I.arrLen _ a b
  split
  · obtain ⟨st', f1, f2, f3, f4, f5, f6, f7, _⟩ := globInsert_inv J h1 h2 (remain := tcLimit (cnt s) - transfer (cnt s))
      (by omega) pin
    refine ⟨st', f1, f2, sm.trans f3, f4.trans e1, fun h' => (f5 h').trans (eo _ (by simp) (by simp)),
      fun h' c => (f6 h' c).trans (eo _ (by simp) (by simp)), fun h' n' e => (f7 h' n' e).trans (eo _ (by simp) (by simpa using e))⟩
  · rename_i hne
    refine ⟨st1, rfl, J.full (fun _ _ => ?_), sm, e1, fun h' => eo _ (by simp) (by simp), fun h' c => eo _ (by simp) (by simp),
      fun h' n' e => eo _ (by simp) (by simpa using e)⟩
    rw [e2, List.length_append, List.length_singleton]
    omega

/-! ### Placing the kept spans -/

theorem placeLoop_perm (pin : Nat → Nat → Bool) : ∀ (ks : List Nat) (i : Nat) (arr unm : List Nat),
    ((placeLoop pin ks i arr unm).1 ++ ((placeLoop pin ks i arr unm).2.1 ++ (placeLoop pin ks i arr unm).2.2)).Perm
      (arr ++ (unm ++ ks)) ∧ (placeLoop pin ks i arr unm).1.length = arr.length ∧
    (∀ P : Nat → Prop, (∀ s ∈ arr, P s) → (∀ s ∈ ks, P s) →
      (∀ s ∈ (placeLoop pin ks i arr unm).1, P s) ∧ ∀ s ∈ (placeLoop pin ks i arr unm).2.2, P s)
  | [], i, arr, unm => ⟨List.Perm.refl _, rfl, fun P h1 h2 => ⟨h1, h2⟩⟩
  | x :: ks, i, arr, unm => by
    unfold placeLoop
    dsimp only
    obtain ⟨j, hj⟩ : ∃ j, i + (arr.drop i).findIdx (fun s => !pin ks.length s) = j := ⟨_, rfl⟩
    rw [hj]
    cases hy : arr[j]? with
    | none => exact ⟨List.Perm.refl _, rfl, fun P h1 h2 => ⟨h1, h2⟩⟩
    | some y =>
      dsimp only
      obtain ⟨hlt, hy'⟩ := List.getElem?_eq_some_iff.1 hy
      obtain ⟨p1, p2, p3⟩ := placeLoop_perm pin ks j (arr.set j x) (y :: unm)
      refine ⟨p1.trans ?_, p2.trans (by simp), fun P h1 h2 => p3 P ?_ fun s hs => h2 s (List.mem_cons_of_mem _ hs)⟩
      · rw [List.perm_iff_count]
        intro z
        have hc : (arr.set j x).count z + (if y = z then 1 else 0) = arr.count z + (if x = z then 1 else 0) := by
          rw [List.count_set hlt, hy']
          have : (if (y == z) = true then 1 else 0) ≤ arr.count z := by
            split
            · rename_i e
              have := List.count_pos_iff.2 ((eq_of_beq e) ▸ hy' ▸ List.getElem_mem hlt : z ∈ arr)
              omega
            · omega
          simp only [beq_iff_eq] at this ⊢
          omega
        simp only [List.count_append, List.count_cons, beq_iff_eq]
        omega
      · intro s hs
        rcases List.mem_or_eq_of_mem_set hs with h | h
        · exact h1 s h
        · subst h
          exact h2 _ List.mem_cons_self

end Verif.Rp.Cache
