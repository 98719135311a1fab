import Verif.Rp.CacheStep

/-!
# The caches of spans: what callers rely on (C138)
-/

namespace Verif.Rp.Cache

theorem inv_of {cnt : Nat → Nat} {st st' : St} (I : Inv cnt st) (g : Good st') (hsub : ∀ a s, s ∈ st' a → ∃ b, s ∈ st b)
    (htc : ∀ h n, st' (.tc h n) = st (.tc h n)) (harr : ∀ n, st' (.arr n) = st (.arr n) ∨ st' (.arr n) = [])
    (hovf : ∀ n, st' (.ovf n) = st (.ovf n) ∨ st' (.ovf n) = []) (hkept : ∀ h n, st' (.kept h n) = st (.kept h n))
    (hcls : ∀ h c, st' (.cls h c) = st (.cls h c) ∨ st' (.cls h c) = [] ∨ ∃ s, st' (.cls h c) = [s] ∧ cnt s = 1) :
    Inv cnt st' := by
  refine ⟨g, ?_, ?_, ?_, ?_, ?_, ?_, ?_, ?_, ?_⟩
  · intro a s hs
    obtain ⟨b, hb⟩ := hsub a s hs
    exact I.range b s hb
  · intro h n s hs
    rw [htc] at hs
    exact I.tcCnt _ _ s hs
  · intro n s hs
    rcases harr n with e | e <;> rw [e] at hs
    · exact I.arrCnt _ s hs
    · exact absurd hs List.not_mem_nil
  · intro n s hs
    rcases hovf n with e | e <;> rw [e] at hs
    · exact I.ovfCnt _ s hs
    · exact absurd hs List.not_mem_nil
  · intro h n s hs
    rw [hkept] at hs
    exact I.keptCnt _ _ s hs
  · intro h c s hs
    rcases hcls h c with e | e | ⟨t, e, ht⟩ <;> rw [e] at hs
    · exact I.clsCnt _ _ s hs
    · exact absurd hs List.not_mem_nil
    · exact (List.mem_singleton.1 hs) ▸ ht
  · intro h c
    rcases hcls h c with e | e | ⟨t, e, ht⟩ <;> rw [e]
    · exact I.clsLen _ _
    · simp
    · simp
  · intro h n a b
    rw [htc]
    exact I.tcLen _ _ a b
  · intro n a b
    rcases harr n with e | e <;> rw [e]
    · exact I.arrLen _ a b
    · simp

/-- A span in use is put into an empty cache of a class. -/
theorem toCls_inv {cnt : Nat → Nat} {st : St} (I : Inv cnt st) {h c s : Nat} (hs : s ∈ st .user) (h1 : cnt s = 1)
    (hemp : st (.cls h c) = []) :
    Inv cnt (put (put st .user ((st .user).erase s)) (.cls h c) [s]) ∧
    Same st (put (put st .user ((st .user).erase s)) (.cls h c) [s]) := by
  obtain ⟨st', hst'⟩ : ∃ st', put (put st .user ((st .user).erase s)) (.cls h c) [s] = st' := ⟨_, rfl⟩
  rw [hst']
  have e1 : st' (.cls h c) = [s] := by subst hst'; simp [put]
  have e2 : st' .user = (st .user).erase s := by subst hst'; simp [put]
  have eo : ∀ a, a ≠ .user → a ≠ .cls h c → st' a = st a := by
    intro a a1 a2
    subst hst'
    simp [put, a1, a2]
  clear hst'
  obtain ⟨g, sm⟩ := shuffle [.user, .cls h c] (by simp) (st := st) (st' := st')
    (fun a ha => by
      simp only [List.mem_cons, List.not_mem_nil, or_false, not_or] at ha
      exact eo a ha.1 ha.2)
    (by
      simp only [List.flatMap_cons, List.flatMap_nil, List.append_nil, e1, e2, hemp]
      exact (List.perm_append_singleton _ _).trans (List.perm_cons_erase hs).symm) I.good
  refine ⟨inv_of I g (fun a t ht => (sm t).1 ⟨a, ht⟩) (fun _ _ => eo _ (by simp) (by simp))
    (fun _ => Or.inl (eo _ (by simp) (by simp))) (fun _ => Or.inl (eo _ (by simp) (by simp))) (fun _ _ => eo _ (by simp) (by simp))
    (fun h' c' => ?_), sm⟩
  by_cases q : h' = h ∧ c' = c
  · obtain ⟨rfl, rfl⟩ := q
    exact Or.inr (Or.inr ⟨s, e1, h1⟩)
  · exact Or.inl (eo _ (by simp) (by simpa using q))

theorem release_inv {cnt : Nat → Nat} {st : St} (I : Inv cnt st) (h c : Nat) {s : Nat} (hs : s ∈ st .user) (h1 : cnt s = 1)
    (pin : Nat → Bool) :
    ∃ st', release cnt st h c s pin = some st' ∧ Inv cnt st' ∧ Same st st' ∧ st' .user = (st .user).erase s := by
  unfold release
  cases hc : st (.cls h c) with
  | nil =>
    obtain ⟨a, b⟩ := toCls_inv I hs h1 hc
    exact ⟨_, rfl, a, b, by simp [put]⟩
  | cons t ts =>
    dsimp only
    have hl := I.clsLen h c
    rw [hc, List.length_cons] at hl
    have hts : ts = [] := List.length_eq_zero_iff.1 (by omega)
    subst hts
    obtain ⟨st1, hst1⟩ : ∃ st1, put (put st (.cls h c) []) .user (t :: st .user) = st1 := ⟨_, rfl⟩
    rw [hst1]
    have e1 : st1 (.cls h c) = [] := by subst hst1; simp [put]
    have e2 : st1 .user = t :: st .user := by subst hst1; simp [put]
    have eo : ∀ a, a ≠ .user → a ≠ .cls h c → st1 a = st a := by
      intro a a1 a2
      subst hst1
      simp [put, a1, a2]
    clear hst1
    obtain ⟨g, sm⟩ := shuffle [.user, .cls h c] (by simp) (st := st) (st' := st1)
      (fun a ha => by
        simp only [List.mem_cons, List.not_mem_nil, or_false, not_or] at ha
        exact eo a ha.1 ha.2)
      (by
        simp only [List.flatMap_cons, List.flatMap_nil, List.append_nil, e1, e2, hc]
        exact (List.perm_append_singleton _ _).symm) I.good
    have J := inv_of I g (fun a t ht => (sm t).1 ⟨a, ht⟩) (fun _ _ => eo _ (by simp) (by simp))
      (fun _ => Or.inl (eo _ (by simp) (by simp))) (fun _ => Or.inl (eo _ (by simp) (by simp))) (fun _ _ => eo _ (by simp) (by simp))
      (fun h' c' => by
        by_cases q : h' = h ∧ c' = c
        · obtain ⟨rfl, rfl⟩ := q
          exact Or.inr (Or.inl e1)
        · exact Or.inl (eo _ (by simp) (by simpa using q)))
    obtain ⟨st2, f1, f2, f3, f4, f5, f6, f7⟩ := heapInsert_inv J h (s := t) (by rw [e2]; simp) pin
    rw [f1]
    rw [e2, List.erase_cons_head] at f4
    obtain ⟨a, b⟩ := toCls_inv f2 (h := h) (c := c) (s := s) (by rw [f4]; exact hs) h1 ((f6 h c).trans e1)
    refine ⟨_, rfl, a, (sm.trans f3).trans b, ?_⟩
    simp [put, f4]

theorem defer_inv {cnt : Nat → Nat} {st : St} (I : Inv cnt st) (h : Nat) {s : Nat} (hs : s ∈ st .user) :
    Inv cnt (put (put st .user ((st .user).erase s)) (.dfr h) (s :: st (.dfr h))) ∧
    Same st (put (put st .user ((st .user).erase s)) (.dfr h) (s :: st (.dfr h))) := by
  obtain ⟨st', hst'⟩ : ∃ st', put (put st .user ((st .user).erase s)) (.dfr h) (s :: st (.dfr h)) = st' := ⟨_, rfl⟩
  rw [hst']
  have e1 : st' (.dfr h) = s :: st (.dfr h) := by subst hst'; simp [put]
  have e2 : st' .user = (st .user).erase s := by subst hst'; simp [put]
  have eo : ∀ a, a ≠ .user → a ≠ .dfr h → st' a = st a := by
    intro a a1 a2
    subst hst'
    simp [put, a1, a2]
  clear hst'
  obtain ⟨g, sm⟩ := shuffle [.user, .dfr h] (by simp) (st := st) (st' := st')
    (fun a ha => by
      simp only [List.mem_cons, List.not_mem_nil, or_false, not_or] at ha
      exact eo a ha.1 ha.2)
    (by
      simp only [List.flatMap_cons, List.flatMap_nil, List.append_nil, e1, e2]
      exact List.perm_middle.trans ((List.perm_cons_erase hs).symm.append_right _)) I.good
  exact ⟨inv_of I g (fun a t ht => (sm t).1 ⟨a, ht⟩) (fun _ _ => eo _ (by simp) (by simp))
    (fun _ => Or.inl (eo _ (by simp) (by simp))) (fun _ => Or.inl (eo _ (by simp) (by simp))) (fun _ _ => eo _ (by simp) (by simp))
    (fun h' c' => Or.inl (eo _ (by simp) (by simp))), sm⟩

theorem empty_inv {cnt : Nat → Nat} {st : St} (I : Inv cnt st) (n : Nat) :
    Inv cnt (put (put (put st (.arr n) []) (.ovf n) []) .unm (st (.arr n) ++ st (.ovf n) ++ st .unm)) ∧
    Same st (put (put (put st (.arr n) []) (.ovf n) []) .unm (st (.arr n) ++ st (.ovf n) ++ st .unm)) := by
  obtain ⟨st', hst'⟩ : ∃ st', put (put (put st (.arr n) []) (.ovf n) []) .unm (st (.arr n) ++ st (.ovf n) ++ st .unm) = st' :=
    ⟨_, rfl⟩
  rw [hst']
  have e1 : st' (.arr n) = [] := by subst hst'; simp [put]
  have e2 : st' (.ovf n) = [] := by subst hst'; simp [put]
  have e3 : st' .unm = st (.arr n) ++ st (.ovf n) ++ st .unm := by subst hst'; simp [put]
  have eo : ∀ a, a ≠ .arr n → a ≠ .ovf n → a ≠ .unm → st' a = st a := by
    intro a a1 a2 a3
    subst hst'
    simp [put, a1, a2, a3]
  clear hst'
  obtain ⟨g, sm⟩ := shuffle [.arr n, .ovf n, .unm] (by simp) (st := st) (st' := st')
    (fun a ha => by
      simp only [List.mem_cons, List.not_mem_nil, or_false, not_or] at ha
      exact eo a ha.1 ha.2.1 ha.2.2)
    (by
      simp only [List.flatMap_cons, List.flatMap_nil, List.append_nil, e1, e2, e3, List.nil_append, List.append_assoc]
      exact List.Perm.refl _) I.good
  refine ⟨inv_of I g (fun a t ht => (sm t).1 ⟨a, ht⟩) (fun _ _ => eo _ (by simp) (by simp) (by simp))
    (fun n' => ?_) (fun n' => ?_) (fun _ _ => eo _ (by simp) (by simp) (by simp))
    (fun h' c' => Or.inl (eo _ (by simp) (by simp) (by simp))), sm⟩
  · by_cases q : n' = n
    · exact Or.inr (q ▸ e1)
    · exact Or.inl (eo _ (by simpa using q) (by simp) (by simp))
  · by_cases q : n' = n
    · exact Or.inr (q ▸ e2)
    · exact Or.inl (eo _ (by simp) (by simpa using q) (by simp))

theorem flush_inv {cnt : Nat → Nat} (h : Nat) (pin : Nat → Nat → Bool) : ∀ (fuel n : Nat) (st : St), Inv cnt st → 1 ≤ n →
    n + fuel ≤ 64 → ∃ st', flush h pin fuel n st = some st' ∧ Inv cnt st' ∧ Same st st' ∧ st' .user = st .user ∧
      (∀ n', n ≤ n' → n' < n + fuel → st' (.tc h n') = []) ∧ ∀ n', n' < n → st' (.tc h n') = st (.tc h n')
  | 0, n, st, I, _, _ => ⟨st, rfl, I, Same.refl st, rfl, fun n' a b => by omega, fun _ _ => rfl⟩
  | fuel + 1, n, st, I, hn, hf => by
    unfold flush
    split
    · rename_i he
      obtain ⟨st', f1, f2, f3, f4, f5, f6⟩ := flush_inv (cnt := cnt) h pin fuel (n + 1) st I (by omega) (by omega)
      refine ⟨st', f1, f2, f3, f4, fun n' a b => ?_, fun n' a => f6 n' (by omega)⟩
      by_cases e : n' = n
      · subst e
        exact (f6 n' (by omega)).trans he
      · exact f5 n' (by omega) (by omega)
    · have hl := (limits hn (by omega : n ≤ 63)).2.1
      obtain ⟨st1, g1, g2, g3, g4, g5, g6, g7, g8⟩ := globInsert_inv (I.weaken h n) hn (by omega) (remain := 0) (by omega) (pin n)
      rw [g1]
      dsimp only
      obtain ⟨st', f1, f2, f3, f4, f5, f6⟩ := flush_inv (cnt := cnt) h pin fuel (n + 1) st1 g2 (by omega) (by omega)
      refine ⟨st', f1, f2, g3.trans f3, f4.trans g4, fun n' a b => ?_, fun n' a => (f6 n' (by omega)).trans (g7 h n' (by omega))⟩
      by_cases e : n' = n
      · subst e
        rw [f6 n' (by omega), g8]
        rfl
      · exact f5 n' (by omega) (by omega)

/-! ## All executions -/

/-- What holds in every state that is reached. -/
structure Full (cnt : Nat → Nat) (st : St) (made used : List Nat) : Prop where
  inv : Inv cnt st
  all : ∀ s, s ∈ made ↔ ∃ a, s ∈ st a
  nodup : made.Nodup
  used : (st .user).Perm used

theorem step_full {cnt : Nat → Nat} {st : St} {made used : List Nat} (F : Full cnt st made used) {op : Op}
    (hl : Legal cnt made used op) :
    ∃ st' r, step cnt st op = some (st', r) ∧ Full cnt st' (madeAfter made op r) (usedAfter used op r) ∧
      (∀ h c n e, op = .extract h c n e → ∀ s, r = some s → s ∉ used ∧ n ≤ cnt s ∧ cnt s ≤ n + n / 2) := by
  have hmade : ∀ {st' : St}, Same st st' → ∀ s, s ∈ made ↔ ∃ a, s ∈ st' a := fun sm s => (F.all s).trans (sm s).symm
  cases op with
  | extract h c n e =>
    obtain ⟨h1, h2, h3, h4, h5⟩ := hl
    obtain ⟨st', r, f1, f2, f3, f4, f5⟩ := extract_inv F.inv h c e h1 h2 h3
      (fun n' s hs => ⟨fun a ha => (h4 n' s hs).1 ((F.all s).2 ⟨a, ha⟩), (h4 n' s hs).2⟩)
      (fun s hs => ⟨fun a ha => (h5 s hs).1 ((F.all s).2 ⟨a, ha⟩), (h5 s hs).2⟩)
    refine ⟨st', r, f1, ?_, ?_⟩
    · cases r with
      | none =>
        refine ⟨f2, fun s => ?_, F.nodup, f4.trans (by simpa [usedAfter] using F.used)⟩
        have := f3 s
        simp only [reduceCtorEq, false_or] at this
        exact (F.all s).trans this.symm
      | some s =>
        refine ⟨f2, fun t => ?_, ?_, f4.trans (by simpa [usedAfter] using F.used.cons s)⟩
        · rw [f3 t, ← F.all t]
          unfold madeAfter
          dsimp only
          split
          · rename_i hm
            refine ⟨Or.inr, ?_⟩
            rintro (e | e)
            · simp only [Option.some.injEq] at e
              exact e ▸ hm
            · exact e
          · rw [List.mem_cons]
            simp only [Option.some.injEq]
            exact or_congr_left ⟨Eq.symm, Eq.symm⟩
        · unfold madeAfter
          dsimp only
          split
          · exact F.nodup
          · rename_i hm
            exact List.nodup_cons.2 ⟨hm, F.nodup⟩
    · intro h' c' n' e' he s hs
      injection he with _ _ e3 _
      subst e3
      refine ⟨fun hu => ?_, f5 s hs⟩
      have hn := f4.nodup_iff.1 (f2.good.1 .user)
      rw [hs] at hn
      simp only [Option.toList_some, List.singleton_append, List.nodup_cons] at hn
      exact hn.1 (F.used.mem_iff.2 hu)
  | release h c s pin =>
    obtain ⟨h1, h2⟩ := hl
    obtain ⟨st', f1, f2, f3, f4⟩ := release_inv F.inv h c (F.used.mem_iff.2 h1) h2 pin
    refine ⟨st', none, by simp [step, f1], ⟨f2, hmade f3, F.nodup, ?_⟩, fun _ _ _ _ e => by cases e⟩
    rw [f4]
    exact F.used.erase s
  | insert h s pin =>
    obtain ⟨st', f1, f2, f3, f4, _⟩ := heapInsert_inv F.inv h (F.used.mem_iff.2 hl) pin
    refine ⟨st', none, by simp [step, f1], ⟨f2, hmade f3, F.nodup, ?_⟩, fun _ _ _ _ e => by cases e⟩
    rw [f4]
    exact F.used.erase s
  | reserve s =>
    obtain ⟨h1, _⟩ := hl
    have hs := F.used.mem_iff.2 h1
    obtain ⟨st', hst'⟩ : ∃ st', put st .user ((st .user).erase s) = st' := ⟨_, rfl⟩
    have e1 : st' .user = (st .user).erase s := by subst hst'; simp [put]
    have eo : ∀ a, a ≠ .user → st' a = st a := by
      intro a a1
      subst hst'
      simp [put, a1]
    have hin : ∀ a t, t ∈ st' a → t ∈ st a := by
      intro a t ht
      by_cases q : a = .user
      · subst q
        rw [e1] at ht
        exact List.mem_of_mem_erase ht
      · rwa [eo a q] at ht
    have g : Good st' := by
      refine ⟨fun a => ?_, fun a b t ha hb => F.inv.good.2 a b t (hin a t ha) (hin b t hb)⟩
      by_cases q : a = .user
      · subst q
        rw [e1]
        exact (F.inv.good.1 _).erase s
      · rw [eo a q]
        exact F.inv.good.1 a
    refine ⟨st', none, by simp [step, hst'], ⟨inv_of F.inv g (fun a t ht => ⟨a, hin a t ht⟩) (fun _ _ => eo _ (by simp))
      (fun _ => Or.inl (eo _ (by simp))) (fun _ => Or.inl (eo _ (by simp))) (fun _ _ => eo _ (by simp))
      (fun _ _ => Or.inl (eo _ (by simp))), fun t => ?_, F.nodup.erase s, ?_⟩, fun _ _ _ _ e => by cases e⟩
    · show t ∈ made.erase s ↔ _
      rw [F.nodup.mem_erase_iff, F.all t]
      constructor
      · rintro ⟨hne, a, ha⟩
        refine ⟨a, ?_⟩
        by_cases q : a = .user
        · subst q
          rw [e1, (F.inv.good.1 _).mem_erase_iff]
          exact ⟨hne, ha⟩
        · rw [eo a q]
          exact ha
      · rintro ⟨a, ha⟩
        refine ⟨?_, a, hin a t ha⟩
        rintro rfl
        have := F.inv.good.2 a .user t (hin a t ha) hs
        subst this
        rw [e1, (F.inv.good.1 _).mem_erase_iff] at ha
        exact ha.1 rfl
    · rw [e1]
      exact F.used.erase s
  | defer h s =>
    obtain ⟨a, b⟩ := defer_inv F.inv h (F.used.mem_iff.2 hl)
    refine ⟨_, none, rfl, ⟨a, hmade b, F.nodup, ?_⟩, fun _ _ _ _ e => by cases e⟩
    have : put (put st .user ((st .user).erase s)) (.dfr h) (s :: st (.dfr h)) .user = (st .user).erase s := by simp [put]
    rw [this]
    exact F.used.erase s
  | place h n pin =>
    obtain ⟨a, b, d⟩ := place_inv F.inv h n pin
    exact ⟨_, none, rfl, ⟨a, hmade b, F.nodup, by rw [d]; exact F.used⟩, fun _ _ _ _ e => by cases e⟩
  | finish h pin pin' =>
    obtain ⟨st1, r, f1, f2, f3, f4, f5, f6, f7⟩ := adopt_inv F.inv h false pin
    have hr := f6 rfl
    subst hr
    obtain ⟨st', g1, g2, g3, g4, _⟩ := flush_inv (cnt := cnt) h pin' 63 1 st1 f2 (by omega) (by omega)
    refine ⟨st', none, by simp [step, f1, g1], ⟨g2, hmade (f3.trans g3), F.nodup, ?_⟩, fun _ _ _ _ e => by cases e⟩
    rw [g4]
    exact f4.trans (by simpa [usedAfter] using F.used)
  | empty n =>
    obtain ⟨a, b⟩ := empty_inv F.inv n
    refine ⟨_, none, rfl, ⟨a, hmade b, F.nodup, ?_⟩, fun _ _ _ _ e => by cases e⟩
    have : put (put (put st (.arr n) []) (.ovf n) []) .unm (st (.arr n) ++ st (.ovf n) ++ st .unm) .user = st .user := by
      simp [put]
    rw [this]
    exact F.used

theorem init_full (cnt : Nat → Nat) : Full cnt init [] [] := by
  refine ⟨⟨⟨fun _ => List.nodup_nil, fun a b s h => absurd h List.not_mem_nil⟩, fun a s h => absurd h List.not_mem_nil,
    fun _ _ s h => absurd h List.not_mem_nil, fun _ s h => absurd h List.not_mem_nil, fun _ s h => absurd h List.not_mem_nil,
    fun _ _ s h => absurd h List.not_mem_nil, fun _ _ s h => absurd h List.not_mem_nil, fun _ _ => Nat.zero_le _, ?_,
    fun _ _ _ => Nat.zero_le _⟩, fun s => ⟨fun h => absurd h List.not_mem_nil, fun ⟨_, h⟩ => absurd h List.not_mem_nil⟩,
    List.nodup_nil, List.Perm.refl _⟩
  intro h n a b
  have := (limits a b).2.1
  show 0 < tcLimit n
  omega

theorem reach_full {cnt : Nat → Nat} {st : St} {made used : List Nat} (h : Reach cnt st made used) : Full cnt st made used := by
  induction h with
  | init => exact init_full cnt
  | step hr hl hs ih =>
    obtain ⟨st', r, f1, f2, _⟩ := step_full ih hl
    rw [hs] at f1
    simp only [Option.some.injEq, Prod.mk.injEq] at f1
    obtain ⟨rfl, rfl⟩ := f1
    exact f2

/-- C138: no operation ever writes behind one of the arrays, makes their counters wrap around or loses what is in them: every
operation is defined in every state that is reached, and the arrays hold at most what they have room for. -/
theorem caches_never_overflow {cnt : Nat → Nat} {st : St} {made used : List Nat} (h : Reach cnt st made used) :
    (∀ op, Legal cnt made used op → ∃ st' r, step cnt st op = some (st', r)) ∧
    (∀ hp, (st (.tc hp 1)).length < 400) ∧ (∀ hp n, 2 ≤ n → n ≤ 63 → (st (.tc hp n)).length < 100) ∧
    ∀ n, 1 ≤ n → n ≤ 63 → (st (.arr n)).length ≤ 3200 := by
  have F := reach_full h
  refine ⟨fun op hl => ?_, fun hp => F.inv.tcLen hp 1 (by omega) (by omega), fun hp n a b => ?_, fun n a b => ?_⟩
  · obtain ⟨st', r, f1, _⟩ := step_full F hl
    exact ⟨st', r, f1⟩
  · have h1 := F.inv.tcLen hp n (by omega) b
    have h2 := (limits (by omega : 1 ≤ n) b).1
    unfold tcSize at h2
    rw [if_neg (by omega)] at h2
    omega
  · have h1 := F.inv.arrLen n a b
    have h2 := (limits a b).2.2.2.2.2
    omega

/-- C138: each span that was made, and was not turned into a reserve, is in exactly one place and there once; the program has those
which were handed out and not freed. -/
theorem span_in_one_place {cnt : Nat → Nat} {st : St} {made used : List Nat} (h : Reach cnt st made used) :
    (∀ s, s ∈ made ↔ ∃ a, s ∈ st a) ∧ (∀ a, (st a).Nodup) ∧ (∀ a b s, s ∈ st a → s ∈ st b → a = b) ∧
    (st .user).Perm used := by
  have F := reach_full h
  exact ⟨F.all, F.inv.good.1, F.inv.good.2, F.used⟩

/-- C138: what a request is given is not in use, and has as many spans as were asked for or at most half as many more. -/
theorem span_handed_out_once {cnt : Nat → Nat} {st st' : St} {made used : List Nat} (h : Reach cnt st made used) {hp n : Nat}
    {c : Option Nat} {e : Env} (hl : Legal cnt made used (.extract hp c n e)) {s : Nat}
    (hs : step cnt st (.extract hp c n e) = some (st', some s)) :
    s ∉ used ∧ (∀ a, a ≠ .user → s ∉ st' a) ∧ n ≤ cnt s ∧ cnt s ≤ n + n / 2 := by
  have F := reach_full h
  obtain ⟨st1, r, f1, f2, f3⟩ := step_full F hl
  rw [hs] at f1
  simp only [Option.some.injEq, Prod.mk.injEq] at f1
  obtain ⟨rfl, rfl⟩ := f1
  obtain ⟨g1, g2, g3⟩ := f3 hp c n e rfl s rfl
  refine ⟨g1, fun a ha hm => ha ?_, g2, g3⟩
  exact f2.inv.good.2 a .user s hm (f2.used.mem_iff.2 (by simp [usedAfter]))

/-- C138: a request for a single span takes no new memory if there is one in the array of the heap, in the common cache or among those
which other threads freed: what it is given was made before. -/
theorem cached_span_reused {cnt : Nat → Nat} {st : St} {made used : List Nat} (h : Reach cnt st made used) {hp : Nat}
    (hne : st (.tc hp 1) ≠ [] ∨ st (.arr 1) ≠ [] ∨ st (.ovf 1) ≠ [] ∨ ∃ s ∈ st (.dfr hp), cnt s = 1) (e : Env) :
    ∃ st' s, step cnt st (.extract hp none 1 e) = some (st', some s) ∧ s ∈ made := by
  have F := reach_full h
  have I := F.inv
  have hgl : ∀ st : St, st (.tc hp 1) = [] → (st (.arr 1) ≠ [] ∨ st (.ovf 1) ≠ []) → ∃ st' s, globExtract st hp 1 = (st', some s) := by
    intro st _ hq
    unfold globExtract
    dsimp only
    obtain ⟨w, hw⟩ : ∃ w, (if (if (1 : Nat) = 1 then 64 else 6) > (st (.arr 1)).length then (st (.arr 1)).length else
      if (1 : Nat) = 1 then 64 else 6) = w := ⟨_, rfl⟩
    rw [hw]
    simp only [if_true] at hw ⊢
    have hout : (st (.arr 1)).drop ((st (.arr 1)).length - w) ++ (st (.ovf 1)).take (64 - w) ≠ [] := by
      intro e
      have e' := congrArg List.length e
      rw [List.length_append, List.length_drop, List.length_take, List.length_nil] at e'
      rcases hq with hq | hq
      · have := List.length_pos_iff.2 hq
        split at hw <;> omega
      · have := List.length_pos_iff.2 hq
        split at hw <;> omega
    unfold pop
    rw [put_same, List.getLast?_eq_some_getLast hout]
    exact ⟨_, _, rfl⟩
  -- a single span freed by another thread is taken
  have hloop : ∀ (l : List Nat) (got : Option Nat) (st0 st1 : St) (r : Option Nat) (pin : Nat → Nat → Bool),
      adoptLoop cnt hp true pin l got st0 = some (st1, r) → (got ≠ none ∨ ∃ s ∈ l, cnt s = 1) → r ≠ none := by
    intro l
    induction l with
    | nil =>
      intro got st0 st1 r pin e hq
      simp only [adoptLoop, Option.some.injEq, Prod.mk.injEq] at e
      rcases hq with hq | ⟨s, hs, _⟩
      · exact e.2 ▸ hq
      · simp at hs
    | cons a l ih =>
      intro got st0 st1 r pin e hq
      unfold adoptLoop at e
      split at e
      · exact ih _ _ _ _ _ e (Or.inl (by simp))
      · rename_i hc
        split at e
        · simp at e
        · refine ih _ _ _ _ _ e ?_
          rcases hq with hq | ⟨s, hs, h1⟩
          · exact Or.inl hq
          · by_cases hg : got = none
            · rcases List.mem_cons.1 hs with rfl | hs
              · exact absurd ⟨rfl, h1, hg⟩ hc
              · exact Or.inr ⟨s, hs, h1⟩
            · exact Or.inl hg
  have key : ∃ st' s, extractLoop cnt hp e (0 + 1) 1 st = some (st', some s) ∧ ∃ a, s ∈ st a := by
    unfold extractLoop
    rcases pop_inv I hp 1 with ⟨p1, p2⟩ | ⟨s, st', p1, p2, p3, p4, p5⟩
    · rw [p1]
      dsimp only
      obtain ⟨st1, r1, f1, f2, f3, f4, f5, f6⟩ := deferredExtract_inv I p2 (e.pin 1)
      rw [f1]
      cases r1 with
      | some s => exact ⟨st1, s, rfl, (f3 s).1 ⟨.user, f4.mem_iff.2 (by simp)⟩⟩
      | none =>
        dsimp only
        have had : adoptLoop cnt hp true (e.pin 1) (st (.dfr hp)) none
            (put (put st (.dfr hp) []) .user (st (.dfr hp) ++ st .user)) = some (st1, none) := by
          unfold deferredExtract adopt at f1
          rwa [if_pos rfl] at f1
        have hno : ¬ ∃ s ∈ st (.dfr hp), cnt s = 1 := fun hq => hloop _ _ _ _ _ _ had (Or.inr hq) rfl
        -- the common cache for single spans is not made smaller by putting larger ones away
        have hkeep : ∀ (l : List Nat) (st0 st2 : St) (r : Option Nat), (∀ s ∈ l, cnt s ≠ 1) →
            adoptLoop cnt hp true (e.pin 1) l none st0 = some (st2, r) → st2 (.arr 1) = st0 (.arr 1) ∧ st2 (.ovf 1) = st0 (.ovf 1) := by
          intro l
          induction l with
          | nil =>
            intro st0 st2 r _ e'
            simp only [adoptLoop, Option.some.injEq, Prod.mk.injEq] at e'
            rw [← e'.1]
            exact ⟨rfl, rfl⟩
          | cons a l ih =>
            intro st0 st2 r hq e'
            have ha := hq a List.mem_cons_self
            unfold adoptLoop at e'
            rw [if_neg (fun x => ha x.2.1)] at e'
            cases hi : heapInsert cnt st0 hp a (e.pin 1 l.length) with
            | none => rw [hi] at e'; simp at e'
            | some stx =>
              rw [hi] at e'
              obtain ⟨q1, q2⟩ := ih stx st2 r (fun s hs => hq s (List.mem_cons_of_mem _ hs)) e'
              have : stx (.arr 1) = st0 (.arr 1) ∧ stx (.ovf 1) = st0 (.ovf 1) := by
                unfold heapInsert at hi
                dsimp only at hi
                split at hi
                · simp at hi
                · split at hi
                  · unfold globInsert at hi
                    dsimp only at hi
                    split at hi
                    · simp at hi
                    · generalize (if _ > glLimit (cnt a) then _ else _ : Nat) = ins at hi
                      split at hi
                      · simp at hi
                      · simp only [Option.some.injEq] at hi
                        subst hi
                        have hne : (1 : Nat) ≠ cnt a := fun e => ha e.symm
                        constructor <;> simp [put, hne]
                  · simp only [Option.some.injEq] at hi
                    subst hi
                    constructor <;> simp [put]
              exact ⟨q1.trans this.1, q2.trans this.2⟩
        obtain ⟨k1, k2⟩ := hkeep _ _ _ _ (fun s hs h1 => hno ⟨s, hs, h1⟩) had
        have k1' : st1 (.arr 1) = st (.arr 1) := k1.trans (by simp [put])
        have k2' : st1 (.ovf 1) = st (.ovf 1) := k2.trans (by simp [put])
        have hq : st1 (.arr 1) ≠ [] ∨ st1 (.ovf 1) ≠ [] := by
          rw [k1', k2']
          rcases hne with hq | hq | hq | hq
          · exact absurd p2 hq
          · exact Or.inl hq
          · exact Or.inr hq
          · exact absurd hq hno
        obtain ⟨st2, s, g1⟩ := hgl st1 (f6 rfl) hq
        obtain ⟨st3, r3, t1, t2, t3, t4, t5⟩ := globExtract_inv f2 (f6 rfl)
        rw [g1] at t1
        simp only [Prod.mk.injEq] at t1
        obtain ⟨rfl, rfl⟩ := t1
        rw [g1]
        exact ⟨st2, s, rfl, ((f3.trans t3) s).1 ⟨.user, by rw [t4]; simp⟩⟩
    · rw [p1]
      exact ⟨st', s, rfl, (p3 s).1 ⟨.user, by rw [p4]; simp⟩⟩
  obtain ⟨st', s, hk, hm⟩ := key
  refine ⟨st', s, ?_, (F.all s).2 hm⟩
  show extract cnt st hp none 1 e = _
  unfold extract
  simp only [Option.bind_none]
  have : limit 1 + 1 - 1 = 0 + 1 := rfl
  rw [this, hk]

/-- C138: after the end of a thread nothing is left in the arrays of its heap. -/
theorem finished_heap_is_empty {cnt : Nat → Nat} {st st' : St} {made used : List Nat} (h : Reach cnt st made used) {hp : Nat}
    {pin pin' : Nat → Nat → Bool} {r : Option Nat} (hs : step cnt st (.finish hp pin pin') = some (st', r)) :
    ∀ n, 1 ≤ n → n ≤ 63 → st' (.tc hp n) = [] := by
  have F := reach_full h
  obtain ⟨st1, r1, f1, f2, f3, f4, f5, f6, f7⟩ := adopt_inv F.inv hp false pin
  obtain ⟨st2, g1, g2, g3, g4, g5, _⟩ := flush_inv (cnt := cnt) hp pin' 63 1 st1 f2 (by omega) (by omega)
  simp only [step, f1, g1, Option.map_some, Option.some.injEq, Prod.mk.injEq] at hs
  rw [← hs.1]
  exact fun n a b => g5 n a (by omega)

/-! ## An example -/

/-- Spans 10 and 11 are single, 20 has two, 30 has four. -/
def exCnt (s : Nat) : Nat := if s < 20 then 1 else if s < 30 then 2 else 4

/-- Nothing is pinned, nothing reserved, `s` is mapped. -/
def exEnv (s : Option Nat) : Env := ⟨fun _ _ _ => false, fun _ => none, s⟩

/-- The states of a list of operations and what was handed out. -/
def run (cnt : Nat → Nat) : St → List Op → Option (St × List (Option Nat))
  | st, [] => some (st, [])
  | st, op :: ops =>
    match step cnt st op with
    | none => none
    | some (st, r) => (run cnt st ops).map fun x => (x.1, r :: x.2)

/-- Heap 0 maps two single spans and one of four; another thread frees the four, the owner the single ones.  A request for three spans
is then given the four. -/
example : (run exCnt init [.extract 0 (some 3) 1 (exEnv (some 10)), .extract 0 none 1 (exEnv (some 11)),
    .extract 0 none 4 (exEnv (some 30)), .defer 0 30, .release 0 3 10 (fun _ => false), .insert 0 11 (fun _ => false),
    .extract 0 none 3 (exEnv (some 20)), .extract 0 (some 3) 1 (exEnv none)]).map
      (fun x => (x.2, x.1 .user, x.1 (.cls 0 3), x.1 (.tc 0 1), x.1 (.tc 0 4))) =
    some ([some 10, some 11, some 30, none, none, none, some 30, some 10], [10, 30], [11], [], []) := by
  decide +kernel

/-- The hypotheses of the theorems above are met: a state with a span in use and one in the cache of a class is reached. -/
example : ∃ st, Reach exCnt st [11, 10] [11] ∧ st (.cls 0 3) = [10] := by
  refine ⟨_, Reach.step (op := .release 0 3 10 (fun _ => false)) (r := none) (Reach.step (op := .extract 0 none 1 (exEnv (some 11)))
    (r := some 11) (Reach.step (op := .extract 0 (some 3) 1 (exEnv (some 10))) (r := some 10) Reach.init ?_ rfl) ?_ rfl)
    ?_ rfl, rfl⟩
  · refine ⟨by omega, by omega, fun _ => rfl, fun _ _ h => by simp [exEnv] at h, fun s h => ?_⟩
    simp only [exEnv, Option.some.injEq] at h
    subst h
    exact ⟨by simp, rfl⟩
  · refine ⟨by omega, by omega, fun _ => rfl, fun _ _ h => by simp [exEnv] at h, fun s h => ?_⟩
    simp only [exEnv, Option.some.injEq] at h
    subst h
    exact ⟨by decide, rfl⟩
  · exact ⟨by decide, rfl⟩

end Verif.Rp.Cache
