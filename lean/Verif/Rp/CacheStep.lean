import Verif.Rp.CacheInv

/-!
# The caches of spans: each operation keeps the invariant
-/

namespace Verif.Rp.Cache

theorem place_inv {cnt : Nat → Nat} {st : St} (I : Inv cnt st) (h n : Nat) (pin : Nat → Nat → Bool) :
    Inv cnt (place st h n pin) ∧ Same st (place st h n pin) ∧ place st h n pin .user = st .user := by
  obtain ⟨p1, p2, p3⟩ := placeLoop_perm pin (st (.kept h n)) 0 (st (.arr n)) (st .unm)
  obtain ⟨q1, q2⟩ := p3 (fun s => cnt s = n) (I.arrCnt n) (I.keptCnt h n)
  obtain ⟨r, hr⟩ : ∃ r, placeLoop pin (st (.kept h n)) 0 (st (.arr n)) (st .unm) = r := ⟨_, rfl⟩
  rw [hr] at p1 p2 q1 q2
  obtain ⟨st', hst'⟩ : ∃ st', place st h n pin = st' := ⟨_, rfl⟩
  rw [hst']
  unfold place at hst'
  dsimp only at hst'
  rw [hr] at hst'
  have e1 : st' (.arr n) = r.1 := by subst hst'; simp [put]
  have e2 : st' .unm = r.2.1 := by subst hst'; simp [put]
  have e3 : st' (.ovf n) = r.2.2 ++ st (.ovf n) := by subst hst'; simp [put]
  have e4 : st' (.kept h n) = [] := by subst hst'; simp [put]
  have eo : ∀ a, a ≠ .arr n → a ≠ .unm → a ≠ .ovf n → a ≠ .kept h n → st' a = st a := by
    intro a a1 a2 a3 a4
    subst hst'
    simp [put, a1, a2, a3, a4]
  clear hst'
  obtain ⟨g, sm⟩ := shuffle [.arr n, .unm, .ovf n, .kept h n] (by simp) (st := st) (st' := st')
    (fun a ha => by
      simp only [List.mem_cons, List.not_mem_nil, or_false, not_or] at ha
      exact eo a ha.1 ha.2.1 ha.2.2.1 ha.2.2.2)
    (by
      simp only [List.flatMap_cons, List.flatMap_nil, List.append_nil, e1, e2, e3, e4]
      rw [List.perm_iff_count] at p1 ⊢
      intro x
      have := p1 x
      simp only [List.count_append] at this ⊢
      omega) I.good
  refine ⟨⟨g, ?_, ?_, ?_, ?_, ?_, ?_, ?_, ?_, ?_⟩, sm, eo _ (by simp) (by simp) (by simp) (by simp)⟩
  · intro a s hs
    obtain ⟨b, hb⟩ := (sm s).1 ⟨a, hs⟩
    exact I.range b s hb
  · intro h' n' s hs
    rw [eo _ (by simp) (by simp) (by simp) (by simp)] at hs
    exact I.tcCnt _ _ s hs
  · intro n' s hs
    by_cases e : n' = n
    · subst e
      rw [e1] at hs
      exact q1 s hs
    · rw [eo _ (by simpa using e) (by simp) (by simp) (by simp)] at hs
      exact I.arrCnt _ s hs
  · intro n' s hs
    by_cases e : n' = n
    · subst e
      rw [e3, List.mem_append] at hs
      exact hs.elim (q2 s) (I.ovfCnt _ s)
    · rw [eo _ (by simp) (by simp) (by simpa using e) (by simp)] at hs
      exact I.ovfCnt _ s hs
  · intro h' n' s hs
    by_cases e : h' = h ∧ n' = n
    · obtain ⟨rfl, rfl⟩ := e
      rw [e4] at hs
      exact absurd hs (List.not_mem_nil)
    · rw [eo _ (by simp) (by simp) (by simp) (by simpa using e)] at hs
      exact I.keptCnt _ _ s hs
  · intro h' c s hs
    rw [eo _ (by simp) (by simp) (by simp) (by simp)] at hs
    exact I.clsCnt _ _ s hs
  · intro h' c
    rw [eo _ (by simp) (by simp) (by simp) (by simp)]
    exact I.clsLen _ _
  · intro h' n' a b
    rw [eo _ (by simp) (by simp) (by simp) (by simp)]
    exact I.tcLen _ _ a b
  · intro n' a b
    by_cases e : n' = n
    · subst e
      rw [e1, p2]
      exact I.arrLen _ a b
    · rw [eo _ (by simpa using e) (by simp) (by simp) (by simp)]
      exact I.arrLen _ a b

/-- Taking a span out of the array of a heap. -/
theorem pop_inv {cnt : Nat → Nat} {st : St} (I : Inv cnt st) (h n : Nat) :
    (pop st h n = none ∧ st (.tc h n) = []) ∨
    ∃ s st', pop st h n = some (s, st') ∧ Inv cnt st' ∧ Same st st' ∧ st' .user = s :: st .user ∧ cnt s = n := by
  cases hl : (st (.tc h n)).getLast? with
  | none =>
    refine Or.inl ⟨by unfold pop; rw [hl], ?_⟩
    exact List.getLast?_eq_none_iff.1 hl
  | some s =>
    right
    have hne : st (.tc h n) ≠ [] := by
      intro e
      rw [e] at hl
      simp at hl
    have hsp : st (.tc h n) = (st (.tc h n)).dropLast ++ [s] := by
      have := List.dropLast_append_getLast hne
      rw [List.getLast?_eq_some_getLast hne] at hl
      simp only [Option.some.injEq] at hl
      rw [hl] at this
      exact this.symm
    have hmem : s ∈ st (.tc h n) := by rw [hsp]; simp
    obtain ⟨st', hst'⟩ : ∃ st', put (put st (.tc h n) (st (.tc h n)).dropLast) .user (s :: st .user) = st' := ⟨_, rfl⟩
    refine ⟨s, st', by unfold pop; rw [hl]; dsimp only; rw [hst'], ?_⟩
    have e1 : st' (.tc h n) = (st (.tc h n)).dropLast := by subst hst'; simp [put]
    have e2 : st' .user = s :: st .user := by subst hst'; simp [put]
    have eo : ∀ a, a ≠ .user → a ≠ .tc h n → st' a = st a := by
      intro a a1 a2
      subst hst'
      simp [put, a1, a2]
    clear hst'
    obtain ⟨g, sm⟩ := shuffle [.user, .tc h n] (by simp) (st := st) (st' := st')
      (fun a ha => by
        simp only [List.mem_cons, List.not_mem_nil, or_false, not_or] at ha
        exact eo a ha.1 ha.2)
      (by
        simp only [List.flatMap_cons, List.flatMap_nil, List.append_nil, e1, e2]
        rw [List.perm_iff_count]
        intro x
        have h1 : (st (.tc h n)).count x = ((st (.tc h n)).dropLast ++ [s]).count x := by rw [← hsp]
        simp only [List.count_append, List.count_cons, List.count_nil] at h1 ⊢
        omega) I.good
    refine ⟨⟨g, ?_, ?_, ?_, ?_, ?_, ?_, ?_, ?_, ?_⟩, sm, e2, I.tcCnt _ _ s hmem⟩
    · intro a t ht
      obtain ⟨b, hb⟩ := (sm t).1 ⟨a, ht⟩
      exact I.range b t hb
    · intro h' n' t ht
      by_cases e : h' = h ∧ n' = n
      · obtain ⟨rfl, rfl⟩ := e
        rw [e1] at ht
        exact I.tcCnt _ _ t (List.dropLast_subset _ ht)
      · rw [eo _ (by simp) (by simpa using e)] at ht
        exact I.tcCnt _ _ t ht
    · intro n' t ht
      rw [eo _ (by simp) (by simp)] at ht
      exact I.arrCnt _ t ht
    · intro n' t ht
      rw [eo _ (by simp) (by simp)] at ht
      exact I.ovfCnt _ t ht
    · intro h' n' t ht
      rw [eo _ (by simp) (by simp)] at ht
      exact I.keptCnt _ _ t ht
    · intro h' c t ht
      rw [eo _ (by simp) (by simp)] at ht
      exact I.clsCnt _ _ t ht
    · intro h' c
      rw [eo _ (by simp) (by simp)]
      exact I.clsLen _ _
    · intro h' n' a b
      by_cases e : h' = h ∧ n' = n
      · obtain ⟨rfl, rfl⟩ := e
        rw [e1, List.length_dropLast]
        have := I.tcLen h' n' a b
        omega
      · rw [eo _ (by simp) (by simpa using e)]
        exact I.tcLen _ _ a b
    · intro n' a b
      rw [eo _ (by simp) (by simp)]
      exact I.arrLen _ a b

/-- Filling the empty array of a heap from the common cache. -/
theorem globExtract_inv {cnt : Nat → Nat} {st : St} (I : Inv cnt st) {h n : Nat} (hemp : st (.tc h n) = []) :
    ∃ st' r, globExtract st h n = (st', r) ∧ Inv cnt st' ∧ Same st st' ∧ st' .user = r.toList ++ st .user ∧
      (∀ s, r = some s → cnt s = n) := by
  obtain ⟨want, hwant⟩ : ∃ want, (if n = 1 then 64 else 6) = want := ⟨_, rfl⟩
  obtain ⟨w, hw⟩ : ∃ w, (if want > (st (.arr n)).length then (st (.arr n)).length else want) = w := ⟨_, rfl⟩
  have hww : w ≤ want ∧ w ≤ (st (.arr n)).length := by
    rw [← hw]; split <;> omega
  obtain ⟨st1, hst1⟩ : ∃ st1, put (put (put st (.arr n) ((st (.arr n)).take ((st (.arr n)).length - w))) (.ovf n)
      ((st (.ovf n)).drop (want - w))) (.tc h n) ((st (.arr n)).drop ((st (.arr n)).length - w) ++ (st (.ovf n)).take (want - w)) =
      st1 := ⟨_, rfl⟩
  have hg : globExtract st h n = match pop st1 h n with | none => (st1, none) | some (s, st) => (st, some s) := by
    unfold globExtract
    dsimp only
    rw [hwant, hw, hst1]
    rfl
  have e1 : st1 (.arr n) = (st (.arr n)).take ((st (.arr n)).length - w) := by subst hst1; simp [put]
  have e2 : st1 (.ovf n) = (st (.ovf n)).drop (want - w) := by subst hst1; simp [put]
  have e3 : st1 (.tc h n) = (st (.arr n)).drop ((st (.arr n)).length - w) ++ (st (.ovf n)).take (want - w) := by
    subst hst1; simp [put]
  have eo : ∀ a, a ≠ .arr n → a ≠ .ovf n → a ≠ .tc h n → st1 a = st a := by
    intro a a1 a2 a3
    subst hst1
    simp [put, a1, a2, a3]
  clear hst1
  obtain ⟨g, sm⟩ := shuffle [.arr n, .ovf n, .tc h n] (by simp) (st := st) (st' := st1)
    (fun a ha => by
      simp only [List.mem_cons, List.not_mem_nil, or_false, not_or] at ha
      exact eo a ha.1 ha.2.1 ha.2.2)
    (by
      simp only [List.flatMap_cons, List.flatMap_nil, List.append_nil, e1, e2, e3, hemp]
      rw [List.perm_iff_count]
      intro x
      have h1 : (st (.arr n)).count x = ((st (.arr n)).take ((st (.arr n)).length - w)).count x +
          ((st (.arr n)).drop ((st (.arr n)).length - w)).count x := by
        rw [← List.count_append, List.take_append_drop]
      have h2 : (st (.ovf n)).count x = ((st (.ovf n)).take (want - w)).count x +
          ((st (.ovf n)).drop (want - w)).count x := by
        rw [← List.count_append, List.take_append_drop]
      simp only [List.count_append]
      omega) I.good
  have J : Inv cnt st1 := by
    refine ⟨g, ?_, ?_, ?_, ?_, ?_, ?_, ?_, ?_, ?_⟩
    · intro a t ht
      obtain ⟨b, hb⟩ := (sm t).1 ⟨a, ht⟩
      exact I.range b t hb
    · intro h' n' t ht
      by_cases e : h' = h ∧ n' = n
      · obtain ⟨rfl, rfl⟩ := e
        rw [e3, List.mem_append] at ht
        rcases ht with ht | ht
        · exact I.arrCnt _ t (List.mem_of_mem_drop ht)
        · exact I.ovfCnt _ t (List.mem_of_mem_take ht)
      · rw [eo _ (by simp) (by simp) (by simpa using e)] at ht
        exact I.tcCnt _ _ t ht
    · intro n' t ht
      by_cases e : n' = n
      · subst e
        rw [e1] at ht
        exact I.arrCnt _ t (List.mem_of_mem_take ht)
      · rw [eo _ (by simpa using e) (by simp) (by simp)] at ht
        exact I.arrCnt _ t ht
    · intro n' t ht
      by_cases e : n' = n
      · subst e
        rw [e2] at ht
        exact I.ovfCnt _ t (List.mem_of_mem_drop ht)
      · rw [eo _ (by simp) (by simpa using e) (by simp)] at ht
        exact I.ovfCnt _ t ht
    · intro h' n' t ht
      rw [eo _ (by simp) (by simp) (by simp)] at ht
      exact I.keptCnt _ _ t ht
    · intro h' c t ht
      rw [eo _ (by simp) (by simp) (by simp)] at ht
      exact I.clsCnt _ _ t ht
    · intro h' c
      rw [eo _ (by simp) (by simp) (by simp)]
      exact I.clsLen _ _
    · intro h' n' a b
      by_cases e : h' = h ∧ n' = n
      · obtain ⟨rfl, rfl⟩ := e
        rw [e3, List.length_append, List.length_drop, List.length_take]
        obtain ⟨_, l2, l3, _⟩ := limits a b
        have : want < tcLimit n' := by
          rw [← hwant]
          split
          · rename_i e
            exact l3 e
          · omega
        omega
      · rw [eo _ (by simp) (by simp) (by simpa using e)]
        exact I.tcLen _ _ a b
    · intro n' a b
      by_cases e : n' = n
      · subst e
        rw [e1, List.length_take]
        have := I.arrLen n' a b
        omega
      · rw [eo _ (by simpa using e) (by simp) (by simp)]
        exact I.arrLen _ a b
  have eu : st1 .user = st .user := eo _ (by simp) (by simp) (by simp)
  rcases pop_inv J h n with ⟨p1, _⟩ | ⟨s, st', p1, p2, p3, p4, p5⟩
  · rw [p1] at hg
    exact ⟨st1, none, hg, J, sm, by simpa using eu, fun s hs => by simp at hs⟩
  · rw [p1] at hg
    refine ⟨st', some s, hg, p2, sm.trans p3, by rw [p4, eu]; rfl, fun t ht => ?_⟩
    simp only [Option.some.injEq] at ht
    exact ht ▸ p5

/-! ### Spans freed by other threads -/

theorem adoptLoop_inv {cnt : Nat → Nat} (h : Nat) (single : Bool) (pin : Nat → Nat → Bool) :
    ∀ (rest : List Nat) (got : Option Nat) (st : St) (U : List Nat), Inv cnt st →
    (st .user).Perm (rest ++ (got.toList ++ U)) → (∀ s, got = some s → cnt s = 1) →
    ∃ st' r, adoptLoop cnt h single pin rest got st = some (st', r) ∧ Inv cnt st' ∧ Same st st' ∧
      (st' .user).Perm (r.toList ++ U) ∧ (∀ s, r = some s → cnt s = 1) ∧
      (single = false → r = got) ∧
      (single = true → got = none → r = none → st' (.tc h 1) = st (.tc h 1))
  | [], got, st, U, I, hu, hg =>
    ⟨st, got, rfl, I, Same.refl st, by simpa using hu, hg, fun _ => rfl, fun _ _ _ => rfl⟩
  | s :: rest, got, st, U, I, hu, hg => by
    have hs : s ∈ st .user := hu.mem_iff.2 (by simp)
    unfold adoptLoop
    split
    · rename_i hc
      obtain ⟨c1, c2, c3⟩ := hc
      subst c3
      obtain ⟨st', r, f1, f2, f3, f4, f5, f6, f7⟩ := adoptLoop_inv (cnt := cnt) h single pin rest (some s) st U I
        (by
          refine hu.trans ?_
          simp only [Option.toList_none, List.nil_append, Option.toList_some, List.cons_append]
          exact List.perm_middle.symm)
        (fun t ht => by simp only [Option.some.injEq] at ht; exact ht ▸ c2)
      refine ⟨st', r, f1, f2, f3, f4, f5, fun e => by simp [c1] at e, fun _ _ hr => ?_⟩
      exfalso
      -- a span that was taken stays taken
      have : ∀ (l : List Nat) (t : Nat) (st0 : St) st1 r1, adoptLoop cnt h single pin l (some t) st0 = some (st1, r1) → r1 ≠ none := by
        intro l
        induction l with
        | nil =>
          intro t st0 st1 r1 e
          simp only [adoptLoop, Option.some.injEq, Prod.mk.injEq] at e
          rw [← e.2]
          simp
        | cons a l ih =>
          intro t st0 st1 r1 e
          unfold adoptLoop at e
          rw [if_neg (by simp)] at e
          split at e
          · simp at e
          · exact ih _ _ _ _ e
      exact this _ _ _ _ _ f1 hr
    · rename_i hc
      obtain ⟨st1, g1, g2, g3, g4, g5, g6, g7⟩ := heapInsert_inv I h hs (pin rest.length)
      rw [g1]
      dsimp only
      obtain ⟨st', r, f1, f2, f3, f4, f5, f6, f7⟩ := adoptLoop_inv (cnt := cnt) h single pin rest got st1 U g2
        (by
          rw [g4]
          have := hu.erase s
          rwa [List.cons_append, List.erase_cons_head] at this) hg
      refine ⟨st', r, f1, f2, g3.trans f3, f4, f5, f6, fun e1 e2 e3 => (f7 e1 e2 e3).trans (g7 h 1 ?_)⟩
      rintro ⟨_, e⟩
      exact hc ⟨e1, e.symm, e2⟩

theorem adopt_inv {cnt : Nat → Nat} {st : St} (I : Inv cnt st) (h : Nat) (single : Bool) (pin : Nat → Nat → Bool) :
    ∃ st' r, adopt cnt st h single pin = some (st', r) ∧ Inv cnt st' ∧ Same st st' ∧
      (st' .user).Perm (r.toList ++ st .user) ∧ (∀ s, r = some s → cnt s = 1) ∧ (single = false → r = none) ∧
      (single = true → r = none → st' (.tc h 1) = st (.tc h 1)) := by
  obtain ⟨st1, hst1⟩ : ∃ st1, put (put st (.dfr h) []) .user (st (.dfr h) ++ st .user) = st1 := ⟨_, rfl⟩
  have e1 : st1 (.dfr h) = [] := by subst hst1; simp [put]
  have e2 : st1 .user = st (.dfr h) ++ st .user := by subst hst1; simp [put]
  have eo : ∀ a, a ≠ .user → a ≠ .dfr h → st1 a = st a := by
    intro a a1 a2
    subst hst1
    simp [put, a1, a2]
  obtain ⟨g, sm⟩ := shuffle [.user, .dfr h] (by simp) (st := st) (st' := st1)
    (fun a ha => by
      simp only [List.mem_cons, List.not_mem_nil, or_false, not_or] at ha
      exact eo a ha.1 ha.2)
    (by
      simp only [List.flatMap_cons, List.flatMap_nil, List.append_nil, e1, e2]
      exact List.perm_append_comm) I.good
  have J : Inv cnt st1 := by
    refine ⟨g, ?_, ?_, ?_, ?_, ?_, ?_, ?_, ?_, ?_⟩
    · intro a t ht
      obtain ⟨b, hb⟩ := (sm t).1 ⟨a, ht⟩
      exact I.range b t hb
    · intro h' n' t ht
      rw [eo _ (by simp) (by simp)] at ht
      exact I.tcCnt _ _ t ht
    · intro n' t ht
      rw [eo _ (by simp) (by simp)] at ht
      exact I.arrCnt _ t ht
    · intro n' t ht
      rw [eo _ (by simp) (by simp)] at ht
      exact I.ovfCnt _ t ht
    · intro h' n' t ht
      rw [eo _ (by simp) (by simp)] at ht
      exact I.keptCnt _ _ t ht
    · intro h' c t ht
      rw [eo _ (by simp) (by simp)] at ht
      exact I.clsCnt _ _ t ht
    · intro h' c
      rw [eo _ (by simp) (by simp)]
      exact I.clsLen _ _
    · intro h' n' a b
      rw [eo _ (by simp) (by simp)]
      exact I.tcLen _ _ a b
    · intro n' a b
      rw [eo _ (by simp) (by simp)]
      exact I.arrLen _ a b
  obtain ⟨st', r, f1, f2, f3, f4, f5, f6, f7⟩ := adoptLoop_inv (cnt := cnt) h single pin (st (.dfr h)) none st1 (st .user) J
    (by rw [e2]; simp) (fun s hs => by simp at hs)
  refine ⟨st', r, by unfold adopt; rw [hst1]; exact f1, f2, sm.trans f3, f4, f5, f6, fun e1 e2 => ?_⟩
  rw [f7 e1 rfl e2]
  exact eo _ (by simp) (by simp)

theorem deferredExtract_inv {cnt : Nat → Nat} {st : St} (I : Inv cnt st) {h n : Nat} (hemp : st (.tc h n) = [])
    (pin : Nat → Nat → Bool) :
    ∃ st' r, deferredExtract cnt st h n pin = some (st', r) ∧ Inv cnt st' ∧ Same st st' ∧
      (st' .user).Perm (r.toList ++ st .user) ∧ (∀ s, r = some s → cnt s = n) ∧ (r = none → st' (.tc h n) = []) := by
  unfold deferredExtract
  split
  · rename_i e
    subst e
    obtain ⟨st', r, f1, f2, f3, f4, f5, f6, f7⟩ := adopt_inv I h true pin
    exact ⟨st', r, f1, f2, f3, f4, f5, fun e => (f7 rfl e).trans hemp⟩
  · obtain ⟨st1, r, f1, f2, f3, f4, f5, f6, f7⟩ := adopt_inv I h false pin
    have hr := f6 rfl
    subst hr
    rw [f1]
    dsimp only
    rcases pop_inv f2 h n with ⟨p1, p2⟩ | ⟨s, st', p1, p2, p3, p4, p5⟩
    · rw [p1]
      exact ⟨st1, none, rfl, f2, f3, f4, fun s hs => by simp at hs, fun _ => p2⟩
    · rw [p1]
      refine ⟨st', some s, rfl, p2, f3.trans p3, ?_, fun t ht => ?_, fun e => by simp at e⟩
      · rw [p4]
        simpa using f4.cons s
      · simp only [Option.some.injEq] at ht
        exact ht ▸ p5

/-! ### New spans -/

/-- A span that was nowhere is given to the program. -/
theorem create_inv {cnt : Nat → Nat} {st : St} (I : Inv cnt st) {s : Nat} (hs : ∀ a, s ∉ st a) (h1 : 1 ≤ cnt s)
    (h2 : cnt s ≤ 63) :
    Inv cnt (put st .user (s :: st .user)) ∧
    (∀ t, (∃ a, t ∈ put st .user (s :: st .user) a) ↔ t = s ∨ ∃ a, t ∈ st a) := by
  obtain ⟨st', hst'⟩ : ∃ st', put st .user (s :: st .user) = st' := ⟨_, rfl⟩
  rw [hst']
  have e1 : st' .user = s :: st .user := by subst hst'; simp [put]
  have eo : ∀ a, a ≠ .user → st' a = st a := by
    intro a a1
    subst hst'
    simp [put, a1]
  have hmem : ∀ a t, t ∈ st' a → (t = s ∧ a = .user) ∨ t ∈ st a := by
    intro a t ht
    by_cases e : a = .user
    · subst e
      rw [e1, List.mem_cons] at ht
      rcases ht with ht | ht
      · exact Or.inl ⟨ht, rfl⟩
      · exact Or.inr ht
    · rw [eo a e] at ht
      exact Or.inr ht
  refine ⟨⟨⟨fun a => ?_, fun a b t ha hb => ?_⟩, ?_, ?_, ?_, ?_, ?_, ?_, ?_, ?_, ?_⟩, fun t => ⟨?_, ?_⟩⟩
  · by_cases e : a = .user
    · subst e
      rw [e1]
      exact List.nodup_cons.2 ⟨hs _, I.good.1 _⟩
    · rw [eo a e]
      exact I.good.1 a
  · rcases hmem a t ha with ⟨q1, q2⟩ | q <;> rcases hmem b t hb with ⟨r1, r2⟩ | r
    · rw [q2, r2]
    · exact absurd (q1 ▸ r) (hs b)
    · exact absurd (r1 ▸ q) (hs a)
    · exact I.good.2 a b t q r
  · intro a t ht
    rcases hmem a t ht with ⟨q, _⟩ | q
    · exact q ▸ ⟨h1, h2⟩
    · exact I.range a t q
  · intro h' n' t ht
    rw [eo _ (by simp)] at ht
    exact I.tcCnt _ _ t ht
  · intro n' t ht
    rw [eo _ (by simp)] at ht
    exact I.arrCnt _ t ht
  · intro n' t ht
    rw [eo _ (by simp)] at ht
    exact I.ovfCnt _ t ht
  · intro h' n' t ht
    rw [eo _ (by simp)] at ht
    exact I.keptCnt _ _ t ht
  · intro h' c t ht
    rw [eo _ (by simp)] at ht
    exact I.clsCnt _ _ t ht
  · intro h' c
    rw [eo _ (by simp)]
    exact I.clsLen _ _
  · intro h' n' a b
    rw [eo _ (by simp)]
    exact I.tcLen _ _ a b
  · intro n' a b
    rw [eo _ (by simp)]
    exact I.arrLen _ a b
  · rintro ⟨a, ha⟩
    rcases hmem a t ha with ⟨q, _⟩ | q
    · exact Or.inl q
    · exact Or.inr ⟨a, q⟩
  · rintro (rfl | ⟨a, ha⟩)
    · exact ⟨.user, by rw [e1]; simp⟩
    · by_cases e : a = .user
      · subst e
        exact ⟨.user, by rw [e1]; exact List.mem_cons_of_mem _ ha⟩
      · exact ⟨a, by rw [eo a e]; exact ha⟩

/-- What a request does: the invariant is kept, the span handed out is added to those in use, and nothing else appears or
disappears; the span has between `lo` and `hi` spans. -/
def Hands (cnt : Nat → Nat) (st st' : St) (r : Option Nat) (lo hi : Nat) : Prop :=
  Inv cnt st' ∧ (∀ t, (∃ a, t ∈ st' a) ↔ r = some t ∨ ∃ a, t ∈ st a) ∧ (st' .user).Perm (r.toList ++ st .user) ∧
  ∀ s, r = some s → lo ≤ cnt s ∧ cnt s ≤ hi

theorem hands_of_same {cnt : Nat → Nat} {st st' : St} {r : Option Nat} {lo hi : Nat} (I : Inv cnt st') (sm : Same st st')
    (hu : (st' .user).Perm (r.toList ++ st .user)) (hc : ∀ s, r = some s → lo ≤ cnt s ∧ cnt s ≤ hi) :
    Hands cnt st st' r lo hi := by
  refine ⟨I, fun t => ⟨fun h => Or.inr ((sm t).1 h), ?_⟩, hu, hc⟩
  rintro (h | h)
  · exact ⟨.user, hu.mem_iff.2 (by simp [h])⟩
  · exact (sm t).2 h

theorem hands_create {cnt : Nat → Nat} {st : St} (I : Inv cnt st) {s lo hi : Nat} (hs : ∀ a, s ∉ st a) (h1 : 1 ≤ cnt s)
    (h2 : cnt s ≤ 63) (h3 : lo ≤ cnt s) (h4 : cnt s ≤ hi) : Hands cnt st (put st .user (s :: st .user)) (some s) lo hi := by
  obtain ⟨c1, c2⟩ := create_inv I hs h1 h2
  refine ⟨c1, fun t => ?_, by rw [put_same]; simp, fun t ht => ?_⟩
  · rw [c2 t]
    simp only [Option.some.injEq]
    exact or_congr_left ⟨Eq.symm, Eq.symm⟩
  · simp only [Option.some.injEq] at ht
    exact ht ▸ ⟨h3, h4⟩

theorem hands_trans {cnt : Nat → Nat} {st st1 st' : St} {r : Option Nat} {lo hi : Nat} (sm : Same st st1)
    (hu : (st1 .user).Perm (st .user)) (h : Hands cnt st1 st' r lo hi) : Hands cnt st st' r lo hi :=
  ⟨h.1, fun t => (h.2.1 t).trans (or_congr_right (sm t)), h.2.2.1.trans (hu.append_left _), h.2.2.2⟩

theorem extractLoop_inv {cnt : Nat → Nat} (h : Nat) (e : Env) (st0 : St)
    (he : ∀ n s, e.reserve n = some s → (∀ a, s ∉ st0 a) ∧ cnt s = n) (lo hi : Nat) (hlo : 1 ≤ lo) (hhi : hi ≤ 63) :
    ∀ (fuel n : Nat) (st : St), Inv cnt st → Same st0 st → lo ≤ n → n + fuel ≤ hi + 1 →
    ∃ st' r, extractLoop cnt h e fuel n st = some (st', r) ∧ Hands cnt st st' r lo hi
  | 0, n, st, I, _, _, _ =>
    ⟨st, none, rfl, hands_of_same I (Same.refl st) (by simp) (fun s hs => by simp at hs)⟩
  | fuel + 1, n, st, I, hsm, hn, hf => by
    unfold extractLoop
    rcases pop_inv I h n with ⟨p1, p2⟩ | ⟨s, st', p1, p2, p3, p4, p5⟩
    · rw [p1]
      dsimp only
      obtain ⟨st1, r1, f1, f2, f3, f4, f5, f6⟩ := deferredExtract_inv I p2 (e.pin n)
      rw [f1]
      cases r1 with
      | some s =>
        exact ⟨st1, some s, rfl, hands_of_same f2 f3 f4 (fun t ht => by have := f5 t ht; omega)⟩
      | none =>
        dsimp only
        have hu1 : (st1 .user).Perm (st .user) := by simpa using f4
        obtain ⟨st2, r2, g1, g2, g3, g4, g5⟩ := globExtract_inv f2 (f6 rfl)
        rw [g1]
        cases r2 with
        | some s =>
          refine ⟨st2, some s, rfl, hands_trans f3 hu1 (hands_of_same g2 g3 (by rw [g4]) (fun t ht => ?_))⟩
          have := g5 t ht
          omega
        | none =>
          dsimp only
          have hu2 : (st2 .user).Perm (st .user) := by rw [g4]; simpa using hu1
          have sm2 := f3.trans g3
          cases hr : e.reserve n with
          | some s =>
            dsimp only
            obtain ⟨w1, w2⟩ := he n s hr
            refine ⟨_, some s, rfl, hands_trans sm2 hu2 (hands_create g2 (fun a ha => ?_) (by omega) (by omega) (by omega) (by omega))⟩
            obtain ⟨b, hb⟩ := ((hsm.trans sm2) s).1 ⟨a, ha⟩
            exact w1 b hb
          | none =>
            dsimp only
            obtain ⟨st3, r3, k1, k2⟩ := extractLoop_inv h e st0 he lo hi hlo hhi fuel (n + 1) st2 g2 (hsm.trans sm2) (by omega) (by omega)
            exact ⟨st3, r3, k1, hands_trans sm2 hu2 k2⟩
    · rw [p1]
      refine ⟨st', some s, rfl, hands_of_same p2 p3 (by rw [p4]; simp) (fun t ht => ?_)⟩
      simp only [Option.some.injEq] at ht
      subst ht
      omega

theorem limit_bounds {n : Nat} (h1 : 1 ≤ n) (h2 : n ≤ 63) : n ≤ limit n ∧ limit n ≤ 63 ∧ limit n ≤ n + n / 2 := by
  unfold limit
  dsimp only
  split <;> split <;> omega

theorem extract_inv {cnt : Nat → Nat} {st : St} (I : Inv cnt st) (h : Nat) (c : Option Nat) {n : Nat} (e : Env)
    (h1 : 1 ≤ n) (h2 : n ≤ 63) (hc : c ≠ none → n = 1)
    (he : ∀ n s, e.reserve n = some s → (∀ a, s ∉ st a) ∧ cnt s = n)
    (hf : ∀ s, e.fresh = some s → (∀ a, s ∉ st a) ∧ cnt s = n) :
    ∃ st' r, extract cnt st h c n e = some (st', r) ∧ Hands cnt st st' r n (n + n / 2) := by
  obtain ⟨b1, b2, b3⟩ := limit_bounds h1 h2
  unfold extract
  cases hb : (c.bind fun c => (st (.cls h c)).head?.map fun s => (c, s)) with
  | none =>
    dsimp only
    obtain ⟨st1, r, f1, f2⟩ := extractLoop_inv h e st he n (limit n) h1 b2 (limit n + 1 - n) n st I (Same.refl st)
      (Nat.le_refl _) (by omega)
    rw [f1]
    have f2' : Hands cnt st st1 r n (n + n / 2) :=
      ⟨f2.1, f2.2.1, f2.2.2.1, fun s hs => by have := f2.2.2.2 s hs; omega⟩
    cases r with
    | some s => exact ⟨st1, some s, rfl, f2'⟩
    | none =>
      dsimp only
      cases hr : e.fresh with
      | none => exact ⟨st1, none, rfl, f2'⟩
      | some s =>
        dsimp only
        obtain ⟨w1, w2⟩ := hf s hr
        have sm : Same st st1 := fun t => by
          have := f2.2.1 t
          simp only [reduceCtorEq, false_or] at this
          exact this
        refine ⟨_, some s, rfl, hands_trans sm (by simpa using f2.2.2.1)
          (hands_create f2.1 (fun a ha => ?_) (by omega) (by omega) (by omega) (by omega))⟩
        obtain ⟨b, hb⟩ := (sm s).1 ⟨a, ha⟩
        exact w1 b hb
  | some p =>
    obtain ⟨c', s⟩ := p
    dsimp only
    have hn : n = 1 := by
      apply hc
      intro e
      simp [e] at hb
    subst hn
    have hcls : st (.cls h c') = [s] := by
      cases c with
      | none => simp at hb
      | some c0 =>
        simp only [Option.bind_some, Option.map_eq_some_iff, Prod.mk.injEq] at hb
        obtain ⟨x, hx, hx1, hx2⟩ := hb
        subst hx1 hx2
        have hl := I.clsLen h c0
        cases hq : st (.cls h c0) with
        | nil => rw [hq] at hx; simp at hx
        | cons y ys =>
          rw [hq] at hx hl
          simp only [List.head?_cons, Option.some.injEq] at hx
          simp only [List.length_cons] at hl
          have : ys = [] := List.length_eq_zero_iff.1 (by omega)
          rw [this, hx]
    have hcnt : cnt s = 1 := I.clsCnt h c' s (by rw [hcls]; simp)
    cases hl : (st (.tc h 1)).getLast? with
    | none =>
      dsimp only
      obtain ⟨st', hst'⟩ : ∃ st', put (put st (.cls h c') []) .user (s :: st .user) = st' := ⟨_, rfl⟩
      rw [hst']
      have e1 : st' (.cls h c') = [] := by subst hst'; simp [put]
      have e2 : st' .user = s :: st .user := by subst hst'; simp [put]
      have eo : ∀ a, a ≠ .user → a ≠ .cls h c' → st' a = st a := by
        intro a a1 a2
        subst hst'
        simp [put, a1, a2]
      clear hst'
      obtain ⟨g, sm⟩ := shuffle [.user, .cls h c'] (by simp) (st := st) (st' := st')
        (fun a ha => by
          simp only [List.mem_cons, List.not_mem_nil, or_false, not_or] at ha
          exact eo a ha.1 ha.2)
        (by
          simp only [List.flatMap_cons, List.flatMap_nil, List.append_nil, e1, e2, hcls]
          exact (List.perm_append_singleton _ _).symm) I.good
      refine ⟨st', some s, rfl, hands_of_same ⟨g, ?_, ?_, ?_, ?_, ?_, ?_, ?_, ?_, ?_⟩ sm (by rw [e2]; simp) (fun t ht => ?_)⟩
      · intro a t ht
        obtain ⟨b, hb⟩ := (sm t).1 ⟨a, ht⟩
        exact I.range b t hb
      · intro h' n' t ht
        rw [eo _ (by simp) (by simp)] at ht
        exact I.tcCnt _ _ t ht
      · intro n' t ht
        rw [eo _ (by simp) (by simp)] at ht
        exact I.arrCnt _ t ht
      · intro n' t ht
        rw [eo _ (by simp) (by simp)] at ht
        exact I.ovfCnt _ t ht
      · intro h' n' t ht
        rw [eo _ (by simp) (by simp)] at ht
        exact I.keptCnt _ _ t ht
      · intro h' c t ht
        by_cases q : h' = h ∧ c = c'
        · obtain ⟨rfl, rfl⟩ := q
          rw [e1] at ht
          exact absurd ht List.not_mem_nil
        · rw [eo _ (by simp) (by simpa using q)] at ht
          exact I.clsCnt _ _ t ht
      · intro h' c
        by_cases q : h' = h ∧ c = c'
        · obtain ⟨rfl, rfl⟩ := q
          rw [e1]
          simp
        · rw [eo _ (by simp) (by simpa using q)]
          exact I.clsLen _ _
      · intro h' n' a b
        rw [eo _ (by simp) (by simp)]
        exact I.tcLen _ _ a b
      · intro n' a b
        rw [eo _ (by simp) (by simp)]
        exact I.arrLen _ a b
      · simp only [Option.some.injEq] at ht
        subst ht
        omega
    | some u =>
      dsimp only
      have hne : st (.tc h 1) ≠ [] := by
        intro e
        rw [e] at hl
        simp at hl
      have hsp : st (.tc h 1) = (st (.tc h 1)).dropLast ++ [u] := by
        have := List.dropLast_append_getLast hne
        rw [List.getLast?_eq_some_getLast hne] at hl
        simp only [Option.some.injEq] at hl
        rw [hl] at this
        exact this.symm
      have hmem : u ∈ st (.tc h 1) := by rw [hsp]; simp
      obtain ⟨st', hst'⟩ : ∃ st', put (put (put st (.cls h c') [u]) (.tc h 1) (st (.tc h 1)).dropLast) .user (s :: st .user) =
        st' := ⟨_, rfl⟩
      rw [hst']
      have e1 : st' (.cls h c') = [u] := by subst hst'; simp [put]
      have e2 : st' .user = s :: st .user := by subst hst'; simp [put]
      have e3 : st' (.tc h 1) = (st (.tc h 1)).dropLast := by subst hst'; simp [put]
      have eo : ∀ a, a ≠ .user → a ≠ .cls h c' → a ≠ .tc h 1 → st' a = st a := by
        intro a a1 a2 a3
        subst hst'
        simp [put, a1, a2, a3]
      clear hst'
      obtain ⟨g, sm⟩ := shuffle [.user, .cls h c', .tc h 1] (by simp) (st := st) (st' := st')
        (fun a ha => by
          simp only [List.mem_cons, List.not_mem_nil, or_false, not_or] at ha
          exact eo a ha.1 ha.2.1 ha.2.2)
        (by
          simp only [List.flatMap_cons, List.flatMap_nil, List.append_nil, e1, e2, e3, hcls]
          rw [List.perm_iff_count]
          intro x
          have q : (st (.tc h 1)).count x = ((st (.tc h 1)).dropLast ++ [u]).count x := by rw [← hsp]
          simp only [List.count_append, List.count_cons, List.count_nil] at q ⊢
          omega) I.good
      refine ⟨st', some s, rfl, hands_of_same ⟨g, ?_, ?_, ?_, ?_, ?_, ?_, ?_, ?_, ?_⟩ sm (by rw [e2]; simp) (fun t ht => ?_)⟩
      · intro a t ht
        obtain ⟨b, hb⟩ := (sm t).1 ⟨a, ht⟩
        exact I.range b t hb
      · intro h' n' t ht
        by_cases q : h' = h ∧ n' = 1
        · obtain ⟨rfl, rfl⟩ := q
          rw [e3] at ht
          exact I.tcCnt _ _ t (List.dropLast_subset _ ht)
        · rw [eo _ (by simp) (by simp) (by simpa using q)] at ht
          exact I.tcCnt _ _ t ht
      · intro n' t ht
        rw [eo _ (by simp) (by simp) (by simp)] at ht
        exact I.arrCnt _ t ht
      · intro n' t ht
        rw [eo _ (by simp) (by simp) (by simp)] at ht
        exact I.ovfCnt _ t ht
      · intro h' n' t ht
        rw [eo _ (by simp) (by simp) (by simp)] at ht
        exact I.keptCnt _ _ t ht
      · intro h' c t ht
        by_cases q : h' = h ∧ c = c'
        · obtain ⟨rfl, rfl⟩ := q
          rw [e1, List.mem_singleton] at ht
          exact ht ▸ I.tcCnt _ _ u hmem
        · rw [eo _ (by simp) (by simpa using q) (by simp)] at ht
          exact I.clsCnt _ _ t ht
      · intro h' c
        by_cases q : h' = h ∧ c = c'
        · obtain ⟨rfl, rfl⟩ := q
          rw [e1]
          simp
        · rw [eo _ (by simp) (by simpa using q) (by simp)]
          exact I.clsLen _ _
      · intro h' n' a b
        by_cases q : h' = h ∧ n' = 1
        · obtain ⟨rfl, rfl⟩ := q
          rw [e3, List.length_dropLast]
          have := I.tcLen h' 1 a b
          omega
        · rw [eo _ (by simp) (by simp) (by simpa using q)]
          exact I.tcLen _ _ a b
      · intro n' a b
        rw [eo _ (by simp) (by simp) (by simp)]
        exact I.arrLen _ a b
      · simp only [Option.some.injEq] at ht
        subst ht
        omega

end Verif.Rp.Cache
