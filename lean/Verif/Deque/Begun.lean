import Verif.Deque.Lemmas

namespace Verif.Deque

theorem thief_pending {p} (h : Thief p) : pending p = [] := by
  cases p <;> simp [Thief] at h <;> rfl

theorem update_pending {o i : Tid} {f : Tid → Pc} {p : Pc} (h : pending p = pending (f i)) :
    pending (Function.update f i p o) = pending (f o) := by
  by_cases e : o = i
  · subst e; rw [Function.update_self, h]
  · rw [Function.update_of_ne e]

/-- Everything begun is pushed, apart from the push in progress. -/
theorem begun_go {o i s} (h : Inv o s) (hb : s.begun = s.pushed ++ pending (s.pcs o)) :
    (go s i).begun = (go s i).pushed ++ pending ((go s i).pcs o) := by
  have hth := h.thief i
  unfold go
  cases hq : s.pcs i <;> simp only [setPc, done, fail]
  case idle => exact hb
  case push5 w b =>
    have e : i = o := by
      by_contra hne
      have := hth hne
      rw [hq] at this
      simp [Thief] at this
    subst e
    rw [hb, hq, Function.update_self]
    simp [pending]
  all_goals (repeat' split) <;>
    first
    | exact hb
    | (rw [hb, update_pending (by rw [hq]; rfl)])

theorem begun_step {o s} (a : Act) (h : Inv o s) (hb : s.begun = s.pushed ++ pending (s.pcs o))
    (ha : ∀ i w, (a = .start i (.push w) → i = o)) :
    (step s a).begun = (step s a).pushed ++ pending ((step s a).pcs o) := by
  unfold step
  cases a with
  | go i =>
    simp only
    split
    · exact hb
    · exact begun_go h hb
  | start i op =>
    simp only
    split
    · exact hb
    · split
      · rename_i hi
        cases op with
        | push w =>
          have := ha i w rfl
          subst this
          rw [hi] at hb
          simp [setPc, pending, hb]
        | steal => simp only [setPc]; rw [hb, update_pending (by rw [hi]; rfl)]
        | take => simp only [setPc]; rw [hb, update_pending (by rw [hi]; rfl)]
      · exact hb

theorem begun_exec {o s} (acts : List Act) (hacts : OneProducer o acts) (h : s.ub = true ∨ Inv o s)
    (hb : s.ub = true ∨ s.begun = s.pushed ++ pending (s.pcs o)) :
    (exec s acts).ub = true ∨ (exec s acts).begun = (exec s acts).pushed ++ pending ((exec s acts).pcs o) := by
  induction acts generalizing s with
  | nil => exact hb
  | cons a l ih =>
    have hl : OneProducer o l := fun i w => ⟨fun hm => (hacts i w).1 (by simp [hm]), fun hm => (hacts i w).2 (by simp [hm])⟩
    rcases h with h | h
    · rw [exec_ub h]; exact .inl h
    · rcases hb with hb | hb
      · rw [exec_ub hb]; exact .inl hb
      · unfold exec
        rw [List.foldl_cons]
        apply ih hl
        · exact inv_step a h fun i w =>
            ⟨fun he => (hacts i w).1 (by simp [he]), fun he => (hacts i w).2 (by simp [he])⟩
        · exact .inr (begun_step a h hb fun i w he => (hacts i w).1 (by simp [he]))

end Verif.Deque
