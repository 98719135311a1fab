import Verif.Pth.Keys
import Mathlib.Tactic.Ring

/-!
# C188-C190: keys, values and destructors
-/

namespace Verif.Pth.Keys

theorem findFree_spec {l : List Nat} : ∀ (n lo : Nat), lo + n ≤ l.length →
    (∃ i, findFree (some l) lo n = some (some i) ∧ lo ≤ i ∧ i < lo + n ∧ l[i]? = some 0) ∨
    (findFree (some l) lo n = some none ∧ ∀ i, lo ≤ i → i < lo + n → l[i]? ≠ some 0)
  | 0, lo, _ => .inr ⟨rfl, fun i h1 h2 => by omega⟩
  | n + 1, lo, h => by
    have hlo : lo < l.length := by omega
    cases hx : l[lo] with
    | zero =>
      refine .inl ⟨lo, ?_, Nat.le_refl _, by omega, by simp [hlo, hx]⟩
      simp [findFree, hlo, hx]
    | succ x =>
      have e2 : findFree (some l) lo (n + 1) = findFree (some l) (lo + 1) n := by simp [findFree, hlo, hx]
      rw [e2]
      rcases findFree_spec (l := l) n (lo + 1) (by omega) with ⟨i, h1, h2, h3, h4⟩ | ⟨h1, h2⟩
      · exact .inl ⟨i, h1, by omega, by omega, h4⟩
      · refine .inr ⟨h1, fun i h3 h4 => ?_⟩
        by_cases hi : i = lo
        · subst hi; simp [hlo, hx]
        · exact h2 i (by omega) (by omega)

theorem find_spec {g : G} {l : List Nat} (ht : g.tab = some l) (hm : l.length = g.max) (hs : g.sch ≤ g.max) :
    (∃ i, find g = some (some i) ∧ l[i]? = some 0) ∨ (find g = some none ∧ ∀ i, i < g.max → l[i]? ≠ some 0) := by
  unfold find
  rw [ht]
  rcases findFree_spec (l := l) (g.max - g.sch) g.sch (by omega) with ⟨i, h1, h2, h3, h4⟩ | ⟨h1, h2⟩
  · exact .inl ⟨i, by rw [h1], h4⟩
  · rw [h1]
    dsimp only
    rcases findFree_spec (l := l) g.sch 0 (by omega) with ⟨i, h3, _, _, h4⟩ | ⟨h3, h4⟩
    · exact .inl ⟨i, h3, h4⟩
    · refine .inr ⟨h3, fun i hi => ?_⟩
      by_cases h : i < g.sch
      · exact h4 i (by omega) (by omega)
      · exact h2 i (by omega) (by omega)

theorem stored_ne (d : Nat) : stored d ≠ 0 := by unfold stored; split <;> omega

/-- The table and the keys that are in use. -/
structure Tab (g : G) (p : Spec) (l : List Nat) : Prop where
  tab : g.tab = some l
  len : l.length = g.max
  two : 2 ≤ g.max
  cap : g.max ≤ KEYS_MAX
  sch : g.sch ≤ g.max
  live : ∀ k d, p.live k = some d → l[k]? = some (stored d)
  used : ∀ k x, l[k]? = some x → x ≠ 0 → p.live k ≠ none ∨ (k = 0 ∧ ∀ t, p.last t 0 = 0)

structure Empty (g : G) (p : Spec) : Prop where
  tab : g.tab = none
  max : g.max ≤ 1
  sch : g.sch = 0
  live : ∀ k, p.live k = none

structure Inv (s : St) (p : Spec) : Prop where
  shape : Empty s.g p ∨ ∃ l, Tab s.g p l
  vals : ∀ t k, getVal (s.vals t) k = p.last t k
  inside : ∀ t k, getVal (s.vals t) k ≠ 0 → k < (s.g.tab.getD []).length
  room : ∀ t, (s.vals t).length ≤ 2 * (s.g.tab.getD []).length

theorem getVal_setVal (vals : List Nat) (k v k' : Nat) :
    getVal (setVal vals k v) k' = if k' = k then v else getVal vals k' := by
  unfold setVal getVal
  simp only [List.getD_eq_getElem?_getD, List.getElem?_set]
  by_cases e : k = k'
  · subst e
    have h : k < (if vals.length ≤ k then vals ++ List.replicate ((k + 1) * 2 - vals.length) 0 else vals).length := by
      split
      · simp only [List.length_append, List.length_replicate]; omega
      · omega
    simp [h]
  · rw [if_neg e, if_neg (Ne.symm e)]
    split
    · rename_i h
      rw [List.getElem?_append]
      split
      · rfl
      · rename_i h'
        rw [List.getElem?_eq_none (by omega : vals.length ≤ k')]
        simp only [List.getElem?_replicate]
        split <;> rfl
    · rfl

theorem setVal_length (vals : List Nat) (k v : Nat) :
    (setVal vals k v).length = if vals.length ≤ k then (k + 1) * 2 else vals.length := by
  unfold setVal
  split
  · simp; omega
  · simp

theorem reach_inv {s : St} {p : Spec} (h : Reach s p) : Inv s p := by
  induction h with
  | init =>
    exact ⟨.inl ⟨rfl, Nat.zero_le _, rfl, fun _ => rfl⟩, fun _ _ => rfl, fun _ _ h => absurd rfl h, fun _ => Nat.zero_le _⟩
  | @step s p op s' o h ha hs ih =>
    cases op with
    | get t k =>
      simp only [step, Option.some.injEq, Prod.mk.injEq] at hs
      obtain ⟨rfl, rfl⟩ := hs
      exact ih
    | set t k v mem =>
      simp only [step] at hs
      split at hs
      · simp only [Option.some.injEq, Prod.mk.injEq] at hs
        obtain ⟨rfl, rfl⟩ := hs
        exact ih
      · simp only [Option.some.injEq, Prod.mk.injEq] at hs
        obtain ⟨rfl, rfl⟩ := hs
        have hk : k < (s.g.tab.getD []).length := by
          rcases ih.shape with he | ⟨l, hl⟩
          · exact absurd (he.live k) ha
          · obtain ⟨d, hd⟩ := Option.ne_none_iff_exists'.1 ha
            rw [hl.tab]
            exact (List.getElem?_eq_some_iff.1 (hl.live k d hd)).1
        refine ⟨?_, ?_, ?_, ?_⟩
        · rcases ih.shape with he | ⟨l, hl⟩
          · exact .inl ⟨he.tab, he.max, he.sch, he.live⟩
          · refine .inr ⟨l, hl.tab, hl.len, hl.two, hl.cap, hl.sch, hl.live, fun k' x hx hx0 => ?_⟩
            rcases hl.used k' x hx hx0 with h1 | ⟨rfl, h1⟩
            · exact .inl h1
            · by_cases e : k = 0
              · subst e; exact .inl ha
              · exact .inr ⟨rfl, fun t' => by simp [Spec.next, Ne.symm e, h1]⟩
        · intro t' k'
          simp only [Spec.next]
          by_cases e : t' = t
          · subst e
            simp only [Function.update_self, getVal_setVal, true_and]
            split
            · rfl
            · exact ih.vals t' k'
          · simp only [Function.update_of_ne e, e, false_and, if_false]
            exact ih.vals t' k'
        · intro t' k' hv
          by_cases e : t' = t
          · subst e
            simp only [Function.update_self, getVal_setVal] at hv
            split at hv
            · rename_i e; rw [e]; exact hk
            · exact ih.inside t' k' hv
          · simp only [Function.update_of_ne e] at hv
            exact ih.inside t' k' hv
        · intro t'
          by_cases e : t' = t
          · subst e
            simp only [Function.update_self, setVal_length]
            split
            · omega
            · exact ih.room t'
          · simp only [Function.update_of_ne e]
            exact ih.room t'
    | delete k =>
      simp only [step, Option.map_eq_some_iff, Prod.mk.injEq] at hs
      obtain ⟨⟨g', o'⟩, hd, rfl, rfl⟩ := hs
      dsimp only
      rcases ih.shape with he | ⟨l, hl⟩
      · exact absurd (he.live k) ha
      · simp only [delete, hl.tab] at hd
        split at hd
        · simp only [Option.some.injEq, Prod.mk.injEq] at hd
          obtain ⟨rfl, rfl⟩ := hd
          exact ih
        · split at hd
          · cases hd
          · rename_i h1 h2
            simp only [Option.some.injEq, Prod.mk.injEq] at hd
            obtain ⟨rfl, rfl⟩ := hd
            have hsch := hl.sch
            refine ⟨.inr ⟨l.set k 0, rfl, by simpa using hl.len, hl.two, hl.cap, ?_, ?_, ?_⟩, ih.vals, ?_, ?_⟩
            · dsimp only; split <;> omega
            · intro k' d hk'
              simp only [Spec.next] at hk'
              by_cases e : k' = k
              · subst e; simp at hk'
              · rw [Function.update_of_ne e] at hk'
                rw [List.getElem?_set_ne (Ne.symm e)]
                exact hl.live k' d hk'
            · intro k' x hx hx0
              by_cases e : k' = k
              · subst e
                rw [List.getElem?_set_self (by omega)] at hx
                cases hx; exact absurd rfl hx0
              · rw [List.getElem?_set_ne (Ne.symm e)] at hx
                simp only [Spec.next, Function.update_of_ne e]
                exact hl.used k' x hx hx0
            · have := ih.inside; rw [hl.tab] at this; simpa using this
            · have := ih.room; rw [hl.tab] at this; simpa using this
    | create d mem junk =>
      simp only [step, Option.map_eq_some_iff, Prod.mk.injEq] at hs
      obtain ⟨⟨g', o'⟩, hc, rfl, rfl⟩ := hs
      dsimp only
      rcases ih.shape with he | ⟨l, hl⟩
      · -- no table yet
        have h0 : s.g.max = 0 ∨ s.g.max = 1 := by have := he.max; omega
        rcases h0 with h0 | h0
        · have hf : find s.g = some none := by simp [find, he.sch, h0, findFree]
          simp only [create, hf, grow, h0, he.tab] at hc
          have hK : (1 : Nat) ≠ KEYS_MAX := by unfold KEYS_MAX; omega
          have hmin : min (1 * 2) KEYS_MAX = 2 := by unfold KEYS_MAX; omega
          simp only [if_true, if_neg hK, hmin] at hc
          cases mem with
          | false =>
            simp only [Bool.not_false, if_true, Option.some.injEq, Prod.mk.injEq] at hc
            obtain ⟨rfl, rfl⟩ := hc
            have hin := ih.inside
            have hro := ih.room
            rw [he.tab] at hin hro
            exact ⟨.inl ⟨rfl, Nat.le_refl _, he.sch, he.live⟩, ih.vals, hin, hro⟩
          | true =>
            simp only [Bool.not_true, Bool.false_eq_true, if_false, Option.some.injEq, Prod.mk.injEq] at hc
            obtain ⟨rfl, rfl⟩ := hc
            refine ⟨.inr ⟨[junk, stored d], by simp, rfl, Nat.le_refl _, by show 2 ≤ KEYS_MAX; unfold KEYS_MAX; omega, Nat.le_refl _, ?_, ?_⟩, ih.vals, ?_, ?_⟩
            · intro k' d' hk
              simp only [Spec.next] at hk
              by_cases e : k' = 1
              · subst e; simp at hk; subst hk; rfl
              · rw [Function.update_of_ne e, he.live] at hk; cases hk
            · intro k' x hx hx0
              simp only [Spec.next]
              match k', hx with
              | 0, _ =>
                refine .inr ⟨rfl, fun t => ?_⟩
                by_contra hne
                rw [← ih.vals] at hne
                have := ih.inside t 0 hne
                rw [he.tab] at this; simp at this
              | 1, _ => exact .inl (by simp)
              | n + 2, hx => simp at hx
            · intro t k hv
              have := ih.inside t k hv
              rw [he.tab] at this; simp at this
            · intro t
              have := ih.room t
              rw [he.tab] at this
              simp at this
              simp [this]
        · have hf : find s.g = none := by simp [find, he.sch, h0, findFree, he.tab]
          simp [create, hf] at hc
      · rcases find_spec hl.tab hl.len hl.sch with ⟨i, hf, hi⟩ | ⟨hf, hfull⟩
        · simp only [create, hf, Option.some.injEq, Prod.mk.injEq] at hc
          obtain ⟨rfl, rfl⟩ := hc
          have hil := (List.getElem?_eq_some_iff.1 hi).1
          refine ⟨.inr ⟨l.set i (stored d), by simp [hl.tab], by simpa using hl.len, hl.two, hl.cap, hl.sch, ?_, ?_⟩, ih.vals, ?_, ?_⟩
          · intro k' d' hk
            simp only [Spec.next] at hk
            by_cases e : k' = i
            · subst e
              rw [Function.update_self] at hk
              cases hk
              exact List.getElem?_set_self hil
            · rw [Function.update_of_ne e] at hk
              rw [List.getElem?_set_ne (Ne.symm e)]
              exact hl.live k' d' hk
          · intro k' x hx hx0
            simp only [Spec.next]
            by_cases e : k' = i
            · subst e; exact .inl (by simp)
            · rw [List.getElem?_set_ne (Ne.symm e)] at hx
              rw [Function.update_of_ne e]
              exact hl.used k' x hx hx0
          · have := ih.inside; rw [hl.tab] at this; simpa [hl.tab] using this
          · have := ih.room; rw [hl.tab] at this; simpa [hl.tab] using this
        · have hm0 : s.g.max ≠ 0 := by have := hl.two; omega
          simp only [create, hf, grow, hm0, if_false, hl.tab, Option.getD_some, Option.some.injEq] at hc
          have h2 := hl.two
          have hcap := hl.cap
          split at hc
          · simp only [Prod.mk.injEq] at hc
            obtain ⟨rfl, rfl⟩ := hc
            exact ⟨.inr ⟨l, rfl, hl.len, hl.two, hl.cap, hl.sch, hl.live, hl.used⟩, ih.vals,
              by have := ih.inside; rw [hl.tab] at this; exact this, by have := ih.room; rw [hl.tab] at this; exact this⟩
          · rename_i hne
            split at hc
            · simp only [Prod.mk.injEq] at hc
              obtain ⟨rfl, rfl⟩ := hc
              exact ⟨.inr ⟨l, rfl, hl.len, hl.two, hl.cap, hl.sch, hl.live, hl.used⟩, ih.vals,
                by have := ih.inside; rw [hl.tab] at this; exact this, by have := ih.room; rw [hl.tab] at this; exact this⟩
            · simp only [Prod.mk.injEq] at hc
              obtain ⟨rfl, rfl⟩ := hc
              have hgr : s.g.max < min (s.g.max * 2) KEYS_MAX := by omega
              have hlen : (l ++ List.replicate (min (s.g.max * 2) KEYS_MAX - s.g.max) 0).length = min (s.g.max * 2) KEYS_MAX := by
                simp only [List.length_append, List.length_replicate, hl.len]; omega
              refine ⟨.inr ⟨_, rfl, by rw [List.length_set]; exact hlen, ?_, ?_, ?_, ?_, ?_⟩, ih.vals, ?_, ?_⟩
              · show 2 ≤ min (s.g.max * 2) KEYS_MAX; omega
              · show min (s.g.max * 2) KEYS_MAX ≤ KEYS_MAX; omega
              · show s.g.max + 1 ≤ min (s.g.max * 2) KEYS_MAX; omega
              · intro k' d' hk
                simp only [Spec.next] at hk
                by_cases e : k' = s.g.max
                · subst e
                  rw [Function.update_self] at hk
                  cases hk
                  exact List.getElem?_set_self (by omega)
                · rw [Function.update_of_ne e] at hk
                  have h3 := hl.live k' d' hk
                  have hk' := (List.getElem?_eq_some_iff.1 h3).1
                  rw [List.getElem?_set_ne (Ne.symm e), List.getElem?_append_left hk']
                  exact h3
              · intro k' x hx hx0
                simp only [Spec.next]
                by_cases e : k' = s.g.max
                · subst e; exact .inl (by simp)
                · rw [List.getElem?_set_ne (Ne.symm e)] at hx
                  rw [Function.update_of_ne e]
                  by_cases hk' : k' < l.length
                  · rw [List.getElem?_append_left hk'] at hx
                    exact hl.used k' x hx hx0
                  · rw [List.getElem?_append_right (by omega), List.getElem?_replicate] at hx
                    split at hx
                    · cases hx; exact absurd rfl hx0
                    · cases hx
              · intro t k hv
                have := ih.inside t k hv
                rw [hl.tab] at this
                simp only [Option.getD_some, List.length_set, hlen]
                simp only [Option.getD_some] at this
                have := hl.len
                omega
              · intro t
                have := ih.room t
                rw [hl.tab] at this
                simp only [Option.getD_some, List.length_set, hlen]
                simp only [Option.getD_some] at this
                have := hl.len
                omega

/-! ## C188 -/

/-- **C188.**  A new key is not one of those in use, and all others go on as they are. -/
theorem key_fresh {s : St} {p : Spec} (h : Reach s p) {d : Nat} {mem : Bool} {junk : Nat} {s' : St} {k : Nat}
    (hs : step s (.create d mem junk) = some (s', .key k)) :
    p.live k = none ∧ k < KEYS_MAX := by
  have ih := reach_inv h
  simp only [step, Option.map_eq_some_iff, Prod.mk.injEq] at hs
  obtain ⟨⟨g', o'⟩, hc, -, ho⟩ := hs
  simp only at ho
  subst ho
  have noUse : ∀ l, Tab s.g p l → ∀ i, (l[i]? = some 0 ∨ l.length ≤ i) → p.live i = none := by
    intro l hl i hi
    by_contra hne
    obtain ⟨d', hd'⟩ := Option.ne_none_iff_exists'.1 hne
    have h3 := hl.live i d' hd'
    have := (List.getElem?_eq_some_iff.1 h3).1
    rcases hi with hi | hi
    · rw [h3] at hi; exact stored_ne d' (by simpa using hi)
    · omega
  rcases ih.shape with he | ⟨l, hl⟩
  · refine ⟨he.live k, ?_⟩
    have h0 : s.g.max = 0 ∨ s.g.max = 1 := by have := he.max; omega
    rcases h0 with h0 | h0
    · have hf : find s.g = some none := by simp [find, he.sch, h0, findFree]
      have hK : (1 : Nat) ≠ KEYS_MAX := by unfold KEYS_MAX; omega
      simp only [create, hf, grow, h0, if_true, if_neg hK, Option.some.injEq] at hc
      split at hc
      · cases hc
      · simp only [Prod.mk.injEq, Out.key.injEq] at hc
        rw [← hc.2]; unfold KEYS_MAX; omega
    · have hf : find s.g = none := by simp [find, he.sch, h0, findFree, he.tab]
      simp [create, hf] at hc
  · have hcap := hl.cap
    have hlen := hl.len
    rcases find_spec hl.tab hl.len hl.sch with ⟨i, hf, hi⟩ | ⟨hf, hfull⟩
    · simp only [create, hf, Option.some.injEq, Prod.mk.injEq, Out.key.injEq] at hc
      rw [← hc.2]
      have := (List.getElem?_eq_some_iff.1 hi).1
      exact ⟨noUse l hl i (.inl hi), by omega⟩
    · have hm0 : s.g.max ≠ 0 := by have := hl.two; omega
      simp only [create, hf, grow, hm0, if_false, Option.some.injEq] at hc
      split at hc
      · cases hc
      · split at hc
        · cases hc
        · simp only [Prod.mk.injEq, Out.key.injEq] at hc
          rw [← hc.2]
          exact ⟨noUse l hl _ (.inr (by omega)), by omega⟩

/-- **C188, part.**  If there is memory, and the first attempt to make a key did not fail, making a key works until all keys from 1 on are in
use.  After a failed first attempt it is false: `create_after_failure_faults`. -/
theorem key_create_works_partial {s : St} {p : Spec} (h : Reach s p) (hx : s.g.tab = none → s.g.max = 0) (d junk : Nat) :
    (∃ s' k, step s (.create d true junk) = some (s', .key k)) ∨
    (∃ s', step s (.create d true junk) = some (s', .enomem)) ∧ ∀ k, 1 ≤ k → k < KEYS_MAX → p.live k ≠ none := by
  have ih := reach_inv h
  rcases ih.shape with he | ⟨l, hl⟩
  · have h0 := hx he.tab
    have hf : find s.g = some none := by simp [find, he.sch, h0, findFree]
    have hK : (1 : Nat) ≠ KEYS_MAX := by unfold KEYS_MAX; omega
    left
    simp only [step, create, hf, grow, h0, if_true, if_neg hK]
    exact ⟨_, _, rfl⟩
  · have hcap := hl.cap
    have hlen := hl.len
    rcases find_spec hl.tab hl.len hl.sch with ⟨i, hf, hi⟩ | ⟨hf, hfull⟩
    · left
      simp only [step, create, hf]
      exact ⟨_, _, rfl⟩
    · have hm0 : s.g.max ≠ 0 := by have := hl.two; omega
      by_cases hm : s.g.max = KEYS_MAX
      · right
        refine ⟨by simp only [step, create, hf, grow, hm0, if_false, if_pos hm]; exact ⟨_, rfl⟩, fun k h1 h2 => ?_⟩
        have hk : k < l.length := by omega
        rcases hl.used k l[k] (List.getElem?_eq_getElem hk) (fun e => hfull k (by omega)
          (by rw [List.getElem?_eq_getElem hk, e])) with h3 | h3
        · exact h3
        · exact absurd h3.1 (by omega)
      · left
        simp only [step, create, hf, grow, hm0, if_false, if_neg hm]
        exact ⟨_, _, rfl⟩

/-- **C188, the claim fails.**  If the very first attempt to make a key fails for want of memory, the next one reads through NULL, with or
without memory. -/
theorem create_after_failure_faults (d junk d' junk' : Nat) (mem : Bool) :
    ∃ s, step init (.create d false junk) = some (s, .enomem) ∧ Reach s Spec.init ∧ step s (.create d' mem junk') = none := by
  have hK : (1 : Nat) ≠ KEYS_MAX := by unfold KEYS_MAX; omega
  have e : step init (Op.create d false junk) = some (⟨⟨1, 0, none⟩, fun _ => []⟩, .enomem) := by
    simp [step, create, find, findFree, init, grow, hK]
  exact ⟨_, e, Reach.step Reach.init (by trivial) e, by simp [step, create, find, findFree]⟩

/-- Deleting a key in use works and leaves the others. -/
theorem key_delete_works {s : St} {p : Spec} (h : Reach s p) {k : Nat} (hk : p.live k ≠ none) :
    ∃ s', step s (.delete k) = some (s', .ok) ∧ Reach s' ⟨Function.update p.live k none, p.last⟩ := by
  rcases (reach_inv h).shape with he | ⟨l, hl⟩
  · exact absurd (he.live k) hk
  · obtain ⟨d, hd⟩ := Option.ne_none_iff_exists'.1 hk
    have h1 := (List.getElem?_eq_some_iff.1 (hl.live k d hd)).1
    have hlen := hl.len
    have e : ∃ s', step s (.delete k) = some (s', .ok) := by
      simp only [step, delete, hl.tab, if_neg (show ¬ k > s.g.max by omega), if_neg (show ¬ l.length ≤ k by omega)]
      exact ⟨_, rfl⟩
    obtain ⟨s', e⟩ := e
    exact ⟨s', e, Reach.step h (op := .delete k) hk e⟩

/-- **C188, the claim fails.**  As soon as a key has been made, `pthread_key_delete` of the number one past the table, which it should refuse,
writes behind the table. -/
theorem delete_past_end {s : St} {p : Spec} (h : Reach s p) (ht : s.g.tab ≠ none) : ∃ k, p.live k = none ∧ step s (.delete k) = none := by
  rcases (reach_inv h).shape with he | ⟨l, hl⟩
  · exact absurd he.tab ht
  · have hlen := hl.len
    refine ⟨s.g.max, ?_, ?_⟩
    · by_contra hne
      obtain ⟨d, hd⟩ := Option.ne_none_iff_exists'.1 hne
      have h1 := (List.getElem?_eq_some_iff.1 (hl.live _ d hd)).1
      omega
    · simp [step, delete, hl.tab, hlen]

/-! ## C189 -/

/-- **C189.**  A thread reads for a key the value that it has last set for it (NULL if it has set none), whatever other threads and other
keys were used for. -/
theorem get_last_set {s : St} {p : Spec} (h : Reach s p) (t k : Nat) : step s (.get t k) = some (s, .val (p.last t k)) := by
  simp only [step, (reach_inv h).vals]

/-- The histories that the next theorem is about: a key is made, a thread sets a value, the key is deleted, another is made. -/
theorem reused_history (t v d d' junk : Nat) : ∃ s p, Reach s p ∧ p.live 1 = some d' ∧ p.last t 1 = v ∧
    (∃ s0 p0, Reach s0 p0 ∧ p0.live 1 = none ∧ step s0 (.create d' true junk) = some (s, .key 1)) := by
  have hK : (1 : Nat) ≠ KEYS_MAX := by unfold KEYS_MAX; omega
  have hmin : min (1 * 2) KEYS_MAX = 2 := by unfold KEYS_MAX; omega
  have e1 : step init (Op.create d true junk) = some (⟨⟨2, 2, some [junk, stored d]⟩, fun _ => []⟩, .key 1) := by
    simp [step, create, find, findFree, init, grow, hK, hmin]
  have r1 := Reach.step Reach.init (by trivial) e1
  have e2 : step ⟨⟨2, 2, some [junk, stored d]⟩, fun _ => []⟩ (.set t 1 v true) =
      some (⟨⟨2, 2, some [junk, stored d]⟩, Function.update (fun _ => []) t (setVal [] 1 v)⟩, .ok) := by
    simp [step]
  have r2 := Reach.step r1 (by simp [Allowed, Spec.next]) e2
  have e3 : step ⟨⟨2, 2, some [junk, stored d]⟩, Function.update (fun _ => []) t (setVal [] 1 v)⟩ (.delete 1) =
      some (⟨⟨2, 1, some [junk, 0]⟩, Function.update (fun _ => []) t (setVal [] 1 v)⟩, .ok) := by
    simp [step, delete]
  have r3 := Reach.step r2 (by simp [Allowed, Spec.next]) e3
  have e4 : step ⟨⟨2, 1, some [junk, 0]⟩, Function.update (fun _ => []) t (setVal [] 1 v)⟩ (.create d' true junk) =
      some (⟨⟨2, 1, some [junk, stored d']⟩, Function.update (fun _ => []) t (setVal [] 1 v)⟩, .key 1) := by
    simp [step, create, find, findFree]
  have r4 := Reach.step r3 (by trivial) e4
  exact ⟨_, _, r4, by simp [Spec.next], by simp [Spec.next], _, _, r3, by simp [Spec.next], e4⟩

/-- **C189, the claim fails.**  The value of a new key is not NULL in every thread: a thread that set a value for a key that has been
deleted finds that value under the new key. -/
theorem new_key_stale (t v d d' junk : Nat) : ∃ s0 p0 s, Reach s0 p0 ∧ step s0 (.create d' true junk) = some (s, .key 1) ∧
    step s (.get t 1) = some (s, .val v) := by
  obtain ⟨s, p, hr, -, hl, s0, p0, hr0, -, he⟩ := reused_history t v d d' junk
  exact ⟨s0, p0, s, hr0, he, by rw [get_last_set hr, hl]⟩

/-- **C189, part.**  A key under whose number no thread has set anything reads as NULL in every thread. -/
theorem new_key_null_partial {s : St} {p : Spec} (h : Reach s p) {d : Nat} {mem : Bool} {junk : Nat} {s' : St} {k : Nat}
    (hs : step s (.create d mem junk) = some (s', .key k)) (hk : ∀ t, p.last t k = 0) (t : Nat) :
    step s' (.get t k) = some (s', .val 0) := by
  rw [get_last_set (Reach.step h (by trivial) hs)]
  simp [Spec.next, hk]

/-! ## C190 -/

/-- A destructor that only sets values, for keys that are in use. -/
def Tame (p : Spec) (D : Nat → Nat → List DAct) : Prop :=
  ∀ d v, ∀ a ∈ D d v, ∃ k x, a = .set k x ∧ p.live k ≠ none

/-- Values that lie inside a table of `n` entries. -/
structure Fits (n : Nat) (vals : List Nat) : Prop where
  room : vals.length ≤ 2 * n
  inside : ∀ k, getVal vals k ≠ 0 → k < n

theorem Fits.set {n : Nat} {vals : List Nat} (h : Fits n vals) {k : Nat} (hk : k < n) (v : Nat) : Fits n (setVal vals k v) := by
  have := h.room
  constructor
  · rw [setVal_length]; split <;> omega
  · intro k' hv
    rw [getVal_setVal] at hv
    split at hv
    · omega
    · exact h.inside k' hv

theorem Fits.clear {n : Nat} {vals : List Nat} (h : Fits n vals) (i : Nat) : Fits n (vals.set i 0) := by
  have := h.room
  refine ⟨by simpa using this, fun k hv => h.inside k fun e => hv ?_⟩
  unfold getVal at e ⊢
  simp only [List.getD_eq_getElem?_getD, List.getElem?_set] at e ⊢
  split
  · split <;> rfl
  · exact e

theorem acts_ok {n : Nat} : ∀ (l : List DAct) (vals : List Nat), Fits n vals → (∀ a ∈ l, ∃ k x, a = .set k x ∧ k < n) →
    ∃ w, acts vals l = .ok w ∧ Fits n w
  | [], vals, h, _ => ⟨vals, rfl, h⟩
  | a :: l, vals, h, ha => by
    obtain ⟨k, x, rfl, hk⟩ := ha a List.mem_cons_self
    exact acts_ok l _ (h.set hk x) fun b hb => ha b (List.mem_cons_of_mem _ hb)

theorem pass_ok {tab : List Nat} {D : Nat → Nat → List DAct} (hD : ∀ d v, ∀ a ∈ D d v, ∃ k x, a = .set k x ∧ k < tab.length) :
    ∀ (n i : Nat) (vals : List Nat), Fits tab.length vals → 2 * tab.length ≤ n + i →
      ∃ w cs, pass tab D n i vals = .ok (w, cs) ∧ Fits tab.length w ∧
        (∀ c ∈ cs, tab[c.key]? = some c.dest ∧ 1 < c.dest ∧ c.val ≠ 0) ∧
        (cs = [] → w = vals ∧ ∀ k d, i ≤ k → tab[k]? = some d → 1 < d → getVal vals k = 0) := by
  intro n
  induction n with
  | zero =>
    intro i vals h hi
    have := h.room
    refine ⟨vals, [], by rw [pass, if_pos (by omega)], h, by simp, fun _ => ⟨rfl, fun k d hk _ _ => ?_⟩⟩
    simp [getVal, List.getD_eq_getElem?_getD, List.getElem?_eq_none (show vals.length ≤ k by omega)]
  | succ n ih =>
    intro i vals h hi
    rw [pass]
    by_cases hl : vals.length ≤ i
    · rw [if_pos hl]
      refine ⟨vals, [], rfl, h, by simp, fun _ => ⟨rfl, fun k d hk _ _ => ?_⟩⟩
      simp [getVal, List.getD_eq_getElem?_getD, List.getElem?_eq_none (show vals.length ≤ k by omega)]
    · rw [if_neg hl]
      by_cases hv : vals.getD i 0 = 0
      · rw [if_pos hv]
        obtain ⟨w, cs, h1, h2, h3, h4⟩ := ih (i + 1) vals h (by omega)
        refine ⟨w, cs, h1, h2, h3, fun e => ⟨(h4 e).1, fun k d hk ht hd => ?_⟩⟩
        by_cases e2 : k = i
        · subst e2; exact hv
        · exact (h4 e).2 k d (by omega) ht hd
      · rw [if_neg hv]
        have hit : i < tab.length := h.inside i hv
        rw [List.getElem?_eq_getElem hit]
        dsimp only
        by_cases hd : tab[i] > 1
        · rw [if_pos hd]
          obtain ⟨u, hu, hfu⟩ := acts_ok (D tab[i] (vals.getD i 0)) _ (h.clear i) (hD _ _)
          rw [hu]
          obtain ⟨w, cs, h1, h2, h3, -⟩ := ih (i + 1) u hfu (by omega)
          simp only [h1]
          refine ⟨w, _, rfl, h2, ?_, fun e => by cases e⟩
          intro c hc
          rcases List.mem_cons.1 hc with rfl | hc
          · exact ⟨List.getElem?_eq_getElem hit, hd, hv⟩
          · exact h3 c hc
        · rw [if_neg hd]
          obtain ⟨w, cs, h1, h2, h3, h4⟩ := ih (i + 1) vals h (by omega)
          refine ⟨w, cs, h1, h2, h3, fun e => ⟨(h4 e).1, fun k d hk ht hd' => ?_⟩⟩
          by_cases e2 : k = i
          · subst e2
            rw [List.getElem?_eq_getElem hit] at ht
            cases ht; exact absurd hd' hd
          · exact (h4 e).2 k d (by omega) ht hd'

theorem rounds_ok {tab : List Nat} {D : Nat → Nat → List DAct} (hD : ∀ d v, ∀ a ∈ D d v, ∃ k x, a = .set k x ∧ k < tab.length) :
    ∀ (r : Nat) (vals : List Nat), Fits tab.length vals →
      ∃ w rs q, rounds tab D r vals = .ok (w, rs, q) ∧
        (∀ cs ∈ rs, ∀ c ∈ cs, tab[c.key]? = some c.dest ∧ 1 < c.dest ∧ c.val ≠ 0) ∧
        (q = true → ∀ k d, tab[k]? = some d → 1 < d → getVal w k = 0) ∧ (q = false → rs.length = r) := by
  intro r
  induction r with
  | zero => exact fun vals h => ⟨vals, [], false, rfl, by simp, by simp, by simp⟩
  | succ r ih =>
    intro vals h
    obtain ⟨w, cs, h1, h2, h3, h4⟩ := pass_ok hD (vals.length + 2 * tab.length) 0 vals h (by omega)
    simp only [rounds, h1]
    by_cases e : cs = []
    · rw [if_pos e]
      refine ⟨w, [], true, rfl, by simp, fun _ k d ht hd => ?_, by simp⟩
      rw [(h4 e).1]
      exact (h4 e).2 k d (Nat.zero_le _) ht hd
    · rw [if_neg e]
      obtain ⟨w', rs, q, h5, h6, h7, h8⟩ := ih w h2
      simp only [h5]
      refine ⟨w', cs :: rs, q, rfl, ?_, h7, fun hq => by simp [h8 hq]⟩
      intro x hx
      rcases List.mem_cons.1 hx with rfl | hx
      · exact h3
      · exact h6 x hx

/-- What the table says about a key under which the thread has a value. -/
theorem tab_live {s : St} {p : Spec} (h : Reach s p) {t k d : Nat} (ht : (s.g.tab.getD [])[k]? = some d) (hd : 1 < d)
    (hv : p.last t k ≠ 0) : p.live k = some d := by
  rcases (reach_inv h).shape with he | ⟨l, hl⟩
  · rw [he.tab] at ht; simp at ht
  · rw [hl.tab] at ht
    simp only [Option.getD_some] at ht
    rcases hl.used k d ht (by omega) with h1 | ⟨rfl, h1⟩
    · obtain ⟨d', h2⟩ := Option.ne_none_iff_exists'.1 h1
      have := hl.live k d' h2
      rw [ht] at this
      simp only [Option.some.injEq, stored] at this
      split at this
      · rw [h2, this]
      · omega
    · exact absurd (h1 t) hv

theorem live_tab {s : St} {p : Spec} (h : Reach s p) {k d : Nat} (hk : p.live k = some d) :
    (s.g.tab.getD [])[k]? = some (stored d) := by
  rcases (reach_inv h).shape with he | ⟨l, hl⟩
  · rw [he.live] at hk; cases hk
  · rw [hl.tab]; exact hl.live k d hk

theorem reach_fits {s : St} {p : Spec} (h : Reach s p) (t : Nat) : Fits (s.g.tab.getD []).length (s.vals t) :=
  ⟨(reach_inv h).room t, (reach_inv h).inside t⟩

theorem tame_tab {s : St} {p : Spec} (h : Reach s p) {D : Nat → Nat → List DAct} (hD : Tame p D) :
    ∀ d v, ∀ a ∈ D d v, ∃ k x, a = .set k x ∧ k < (s.g.tab.getD []).length := by
  intro d v a ha
  obtain ⟨k, x, e, hk⟩ := hD d v a ha
  obtain ⟨d', hd'⟩ := Option.ne_none_iff_exists'.1 hk
  exact ⟨k, x, e, (List.getElem?_eq_some_iff.1 (live_tab h hd')).1⟩

/-- **C190.**  At the end of a thread whose destructors only set values of keys in use (any values, again and again), nothing outside of memory
is touched, no destructor gets NULL, and either no key with a destructor has a value left or there were 256 rounds. -/
theorem destructors_end {s : St} {p : Spec} (h : Reach s p) (t : Nat) {D : Nat → Nat → List DAct} (hD : Tame p D) :
    ∃ w rs q, cleanup s t D = .ok (w, rs, q) ∧ (∀ cs ∈ rs, ∀ c ∈ cs, c.val ≠ 0) ∧
      (q = true → ∀ k d, p.live k = some d → 1 < d → getVal w k = 0) ∧ (q = false → rs.length = 256) := by
  obtain ⟨w, rs, q, h1, h2, h3, h4⟩ := rounds_ok (tame_tab h hD) ITERATIONS (s.vals t) (reach_fits h t)
  refine ⟨w, rs, q, h1, fun cs hcs c hc => (h2 cs hcs c hc).2.2, fun hq k d hk hd => ?_, h4⟩
  refine h3 hq k (stored d) (live_tab h hk) ?_
  unfold stored; split <;> omega

/-- The calls of one pass when the destructors set nothing. -/
def plain (tab vals : List Nat) (i : Nat) : Option Call :=
  match tab[i]? with
  | none => none
  | some d => if 1 < d ∧ vals.getD i 0 ≠ 0 then some ⟨i, d, vals.getD i 0⟩ else none

theorem getD_set_gt {vals : List Nat} {i k : Nat} (h : i < k) : (vals.set i 0).getD k 0 = vals.getD k 0 := by
  simp only [List.getD_eq_getElem?_getD]
  rw [List.getElem?_set_ne (by omega)]

theorem pass_plain {tab : List Nat} {D : Nat → Nat → List DAct} (hD : ∀ d v, D d v = []) :
    ∀ (n i : Nat) (vals : List Nat), Fits tab.length vals → 2 * tab.length ≤ n + i →
      ∃ w cs, pass tab D n i vals = .ok (w, cs) ∧ Fits tab.length w ∧
        (∀ c, c ∈ cs ↔ i ≤ c.key ∧ tab[c.key]? = some c.dest ∧ 1 < c.dest ∧ c.val = getVal vals c.key ∧ c.val ≠ 0) ∧
        cs.Pairwise (·.key < ·.key) ∧
        (∀ k, i ≤ k → ∀ d, tab[k]? = some d → 1 < d → getVal w k = 0) ∧ (∀ k < i, getVal w k = getVal vals k) := by
  intro n
  induction n with
  | zero =>
    intro i vals h hi
    have := h.room
    have hz : ∀ k, i ≤ k → getVal vals k = 0 := fun k hk => by
      simp [getVal, List.getD_eq_getElem?_getD, List.getElem?_eq_none (show vals.length ≤ k by omega)]
    refine ⟨vals, [], by rw [pass, if_pos (by omega)], h, fun c => ⟨by simp, fun ⟨h1, _, _, h2, h3⟩ => ?_⟩, .nil,
      fun k hk _ _ _ => hz k hk, fun _ _ => rfl⟩
    rw [hz _ h1] at h2
    exact absurd h2 h3
  | succ n ih =>
    intro i vals h hi
    rw [pass]
    by_cases hl : vals.length ≤ i
    · rw [if_pos hl]
      have hz : ∀ k, i ≤ k → getVal vals k = 0 := fun k hk => by
        simp [getVal, List.getD_eq_getElem?_getD, List.getElem?_eq_none (show vals.length ≤ k by omega)]
      refine ⟨vals, [], rfl, h, fun c => ⟨by simp, fun ⟨h1, _, _, h2, h3⟩ => ?_⟩, .nil, fun k hk _ _ _ => hz k hk, fun _ _ => rfl⟩
      rw [hz _ h1] at h2
      exact absurd h2 h3
    · rw [if_neg hl]
      have skip : (vals.getD i 0 = 0 ∨ ∀ d, tab[i]? = some d → ¬ 1 < d) → ∃ w cs, pass tab D n (i + 1) vals = .ok (w, cs) ∧
          Fits tab.length w ∧
          (∀ c, c ∈ cs ↔ i ≤ c.key ∧ tab[c.key]? = some c.dest ∧ 1 < c.dest ∧ c.val = getVal vals c.key ∧ c.val ≠ 0) ∧
          cs.Pairwise (·.key < ·.key) ∧
          (∀ k, i ≤ k → ∀ d, tab[k]? = some d → 1 < d → getVal w k = 0) ∧ (∀ k < i, getVal w k = getVal vals k) := by
        intro hs
        obtain ⟨w, cs, h1, h2, h3, h4, h5, h6⟩ := ih (i + 1) vals h (by omega)
        refine ⟨w, cs, h1, h2, fun c => (h3 c).trans ⟨fun ⟨a, b⟩ => ⟨by omega, b⟩, fun ⟨a, b1, b2, b3, b4⟩ => ?_⟩, h4, ?_,
          fun k hk => h6 k (by omega)⟩
        · by_cases e : c.key = i
          · rw [e] at b1 b3
            rcases hs with hs | hs
            · exact absurd (b3.trans hs) b4
            · exact absurd b2 (hs _ b1)
          · exact ⟨by omega, b1, b2, b3, b4⟩
        · intro k hk d ht hd
          by_cases e : k = i
          · subst e
            rw [h6 k (by omega)]
            rcases hs with hs | hs
            · exact hs
            · exact absurd hd (hs _ ht)
          · exact h5 k (by omega) d ht hd
      by_cases hv : vals.getD i 0 = 0
      · rw [if_pos hv]; exact skip (.inl hv)
      · rw [if_neg hv]
        have hit : i < tab.length := h.inside i hv
        rw [List.getElem?_eq_getElem hit]
        dsimp only
        by_cases hd : tab[i] > 1
        · rw [if_pos hd, hD, acts]
          obtain ⟨w, cs, h1, h2, h3, h4, h5, h6⟩ := ih (i + 1) _ (h.clear i) (by omega)
          simp only [h1]
          refine ⟨w, _, rfl, h2, ?_, ?_, ?_, ?_⟩
          · intro c
            rw [List.mem_cons, h3]
            constructor
            · rintro (rfl | ⟨a, b1, b2, b3, b4⟩)
              · exact ⟨Nat.le_refl _, List.getElem?_eq_getElem hit, hd, rfl, hv⟩
              · refine ⟨by omega, b1, b2, ?_, b4⟩
                rw [b3]; exact getD_set_gt (by omega)
            · rintro ⟨a, b1, b2, b3, b4⟩
              by_cases e : c.key = i
              · left
                rw [e, List.getElem?_eq_getElem hit] at b1
                rw [e] at b3
                simp only [Option.some.injEq] at b1
                cases c
                simp_all [getVal]
              · right
                refine ⟨by omega, b1, b2, ?_, b4⟩
                rw [b3]; exact (getD_set_gt (by omega)).symm
          · refine List.pairwise_cons.2 ⟨fun c hc => ?_, h4⟩
            have := ((h3 c).1 hc).1
            show i < c.key
            omega
          · intro k hk d ht hd'
            by_cases e : k = i
            · subst e
              rw [h6 k (by omega)]
              simp only [getVal, List.getD_eq_getElem?_getD, List.getElem?_set]
              simp only [if_true]; split <;> rfl
            · exact h5 k (by omega) d ht hd'
          · intro k hk
            rw [h6 k (by omega)]
            simp only [getVal, List.getD_eq_getElem?_getD]
            rw [List.getElem?_set_ne (by omega)]
        · rw [if_neg hd]
          refine skip (.inr fun d ht => ?_)
          rw [List.getElem?_eq_getElem hit] at ht
          cases ht; exact hd

/-- **C190.**  At the end of a thread whose destructors set nothing, the destructor of each key in use for which the thread has a value that is
not NULL is called, once, with this value, in the order of the keys; no other destructor is called. -/
theorem destructors_once {s : St} {p : Spec} (h : Reach s p) (t : Nat) :
    ∃ w rs, cleanup s t (fun _ _ => []) = .ok (w, rs, true) ∧ rs.flatten.Pairwise (·.key < ·.key) ∧
      ∀ c, c ∈ rs.flatten ↔ p.live c.key = some c.dest ∧ 1 < c.dest ∧ c.val = p.last t c.key ∧ c.val ≠ 0 := by
  obtain ⟨w, cs, h1, h2, h3, h4, h5, -⟩ := pass_plain (tab := s.g.tab.getD []) (D := fun _ _ => []) (fun _ _ => rfl)
    ((s.vals t).length + 2 * (s.g.tab.getD []).length) 0 (s.vals t) (reach_fits h t) (by omega)
  have key : ∀ c, c ∈ cs ↔ p.live c.key = some c.dest ∧ 1 < c.dest ∧ c.val = p.last t c.key ∧ c.val ≠ 0 := by
    intro c
    rw [h3, (reach_inv h).vals]
    constructor
    · rintro ⟨-, b1, b2, b3, b4⟩
      exact ⟨tab_live h b1 b2 (by rw [← b3]; exact b4), b2, b3, b4⟩
    · rintro ⟨b1, b2, b3, b4⟩
      refine ⟨Nat.zero_le _, ?_, b2, b3, b4⟩
      rw [live_tab h b1, stored, if_pos (by omega)]
  by_cases e : cs = []
  · refine ⟨w, [], ?_, by simp, ?_⟩
    · simp [cleanup, ITERATIONS, rounds, h1, e]
    · rw [e] at key; exact key
  · obtain ⟨w', cs', g1, -, g3, -⟩ := pass_plain (tab := s.g.tab.getD []) (D := fun _ _ => []) (fun _ _ => rfl)
      (w.length + 2 * (s.g.tab.getD []).length) 0 w h2 (by omega)
    have e' : cs' = [] := by
      rw [List.eq_nil_iff_forall_not_mem]
      intro c hc
      obtain ⟨-, b1, b2, b3, b4⟩ := (g3 c).1 hc
      exact b4 (b3.trans (h5 _ (Nat.zero_le _) _ b1 b2))
    refine ⟨w', [cs], ?_, by simpa using h4, by simpa using key⟩
    have hr : ∀ n, rounds (s.g.tab.getD []) (fun _ _ => []) (n + 1) w = .ok (w', [], true) := by
      intro n; rw [rounds, g1]; simp [e']
    show rounds (s.g.tab.getD []) (fun _ _ => []) (254 + 1 + 1) (s.vals t) = _
    rw [rounds, h1]
    simp only [if_neg e, hr]

/-- A destructor that begins by making or deleting a key. -/
def Locks : List DAct → Prop
  | .create :: _ => True
  | .delete _ :: _ => True
  | _ => False

theorem pass_hangs {tab : List Nat} {D : Nat → Nat → List DAct} (hD : ∀ d v, D d v = [] ∨ Locks (D d v)) {k d : Nat}
    (ht : tab[k]? = some d) (hd : 1 < d) :
    ∀ (n i : Nat) (vals : List Nat), Fits tab.length vals → 2 * tab.length ≤ n + i → i ≤ k → getVal vals k ≠ 0 →
      Locks (D d (getVal vals k)) → pass tab D n i vals = .error .hang := by
  have lk : ∀ (l : List DAct) (vals : List Nat), Locks l → acts vals l = .error .hang := by
    intro l vals h
    match l, h with
    | .create :: _, _ => rfl
    | .delete _ :: _, _ => rfl
  have hk := (List.getElem?_eq_some_iff.1 ht).1
  intro n
  induction n with
  | zero => intro i vals h hi hik; omega
  | succ n ih =>
    intro i vals h hi hik hv hL
    have hkl : k < vals.length := by
      by_contra hc
      exact hv (by simp [getVal, List.getD_eq_getElem?_getD, List.getElem?_eq_none (show vals.length ≤ k by omega)])
    rw [pass, if_neg (by omega)]
    by_cases e : i = k
    · subst e
      rw [if_neg (show ¬ vals.getD i 0 = 0 from hv), ht]
      dsimp only
      rw [if_pos hd, lk (D d (vals.getD i 0)) _ hL]
    · by_cases hvi : vals.getD i 0 = 0
      · rw [if_pos hvi]; exact ih (i + 1) vals h (by omega) (by omega) hv hL
      · have hit : i < tab.length := h.inside i hvi
        rw [if_neg hvi, List.getElem?_eq_getElem hit]
        dsimp only
        split
        · rcases hD tab[i] (vals.getD i 0) with h0 | h0
          · rw [h0, acts]
            dsimp only
            have e2 : getVal (vals.set i 0) k = getVal vals k := getD_set_gt (by omega)
            rw [ih (i + 1) (vals.set i 0) (h.clear i) (by omega) (by omega) (by rw [e2]; exact hv) (by rw [e2]; exact hL)]
          · rw [lk _ _ h0]
        · exact ih (i + 1) vals h (by omega) (by omega) hv hL

/-- **C190, the claim fails** for destructors that make or delete a key, as POSIX allows: the thread waits for ever for the lock that it holds
itself. -/
theorem destructor_locks_hangs {s : St} {p : Spec} (h : Reach s p) {t k d : Nat} (hk : p.live k = some d) (hd : 1 < d)
    (hv : p.last t k ≠ 0) {D : Nat → Nat → List DAct} (hD : ∀ d v, D d v = [] ∨ Locks (D d v)) (hL : Locks (D d (p.last t k))) :
    cleanup s t D = .error .hang := by
  have ht := live_tab h hk
  rw [stored, if_pos (by omega)] at ht
  rw [← (reach_inv h).vals] at hv hL
  have := pass_hangs hD ht hd ((s.vals t).length + 2 * (s.g.tab.getD []).length) 0 (s.vals t) (reach_fits h t) (by omega)
    (Nat.zero_le _) hv hL
  show rounds (s.g.tab.getD []) D (255 + 1) (s.vals t) = _
  rw [rounds, this]

/-- **C190, the claim fails**: the destructor of a key is called with a value that was set under a deleted key. -/
theorem destructor_stale (t v d d' junk : Nat) (hv : v ≠ 0) (hd : 1 < d') : ∃ s0 p0 s w rs, Reach s0 p0 ∧ p0.live 1 = none ∧
    step s0 (.create d' true junk) = some (s, .key 1) ∧ cleanup s t (fun _ _ => []) = .ok (w, rs, true) ∧
    (⟨1, d', v⟩ : Call) ∈ rs.flatten := by
  obtain ⟨s, p, hr, h1, h2, s0, p0, h3, h4, h5⟩ := reused_history t v d d' junk
  obtain ⟨w, rs, h6, -, h7⟩ := destructors_once hr t
  exact ⟨s0, p0, s, w, rs, h3, h4, h5, h6, (h7 _).2 ⟨h1, hd, h2.symm, hv⟩⟩

/-! ## Examples -/

/-- A history of calls. -/
def hist : St → List Op → Option (St × List Out)
  | s, [] => some (s, [])
  | s, o :: l => match step s o with
    | none => none
    | some (s', r) => (hist s' l).map fun x => (x.1, r :: x.2)

example : (hist init [.create 7 true 5, .create 0 true 0, .set 1 1 70 true, .set 1 2 80 true, .get 1 1, .get 2 1, .create 9 true 0,
    .set 1 3 90 true, .delete 2, .create 8 true 0, .get 1 2]).map (·.2) =
    some [.key 1, .key 2, .ok, .ok, .val 70, .val 0, .key 3, .ok, .ok, .key 2, .val 80] := by decide
example : (hist init [.create 7 true 5, .create 9 true 0, .set 1 2 90 true, .set 1 1 70 true]).bind
    (fun x => (cleanup x.1 1 (fun d _ => if d = 9 then [.set 1 71] else [])).toOption.map (·.2)) =
    some ([[⟨1, 7, 70⟩, ⟨2, 9, 90⟩], [⟨1, 7, 71⟩]], true) := by decide

end Verif.Pth.Keys
