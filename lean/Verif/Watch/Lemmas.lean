import Verif.Watch.Props

/-!
# Helper lemmas about the table of watches
-/

namespace Verif.Watch

theorem set_slot (s : St) (i : Nat) (x : Slot) (j : Nat) : (s.set i x).slot j = if j = i then x else s.slot j := by
  simp [St.set, Function.update_apply]

@[simp] theorem set_size (s : St) (i : Nat) (x : Slot) : (s.set i x).size = s.size := rfl
@[simp] theorem set_kern (s : St) (i : Nat) (x : Slot) : (s.set i x).kern = s.kern := rfl

theorem pick_some {s : St} {n i : Nat} (h : pick s n = some i) : i < s.size ∧ (s.slot i).used = false := by
  unfold pick at h
  split at h
  · rename_i hc
    cases h
    exact hc
  · split at h
    · have h1 := List.mem_of_find?_eq_some h
      have h2 := List.find?_some h
      simp at h1 h2
      exact ⟨h1, h2.2⟩
    · cases h

theorem pick_own {s : St} {n : Nat} (h1 : n < s.size) (h2 : (s.slot n).used = false) : pick s n = some n := by
  unfold pick
  rw [if_pos ⟨h1, h2⟩]

/-- With the own entry taken the first free one is used. -/
theorem pick_first {s : St} {n i : Nat} (hn : 0 < n) (hu : (s.slot n).used = true) (hi : i < s.size) (h0 : 1 ≤ i)
    (hf : (s.slot i).used = false) (hb : ∀ j, 1 ≤ j → j < i → (s.slot j).used = true) : pick s n = some i := by
  unfold pick
  rw [if_neg (by rintro ⟨_, h⟩; rw [hu] at h; cases h), if_pos hn]
  rw [List.find?_eq_some_iff_append]
  refine ⟨by simp [h0, hf], List.range i, (List.range' (i + 1) (s.size - i - 1)), ?_, ?_⟩
  · rw [List.range_eq_range', List.range_eq_range']
    have : s.size = i + (1 + (s.size - i - 1)) := by omega
    conv_lhs => rw [this]
    rw [← List.range'_append_1, Nat.add_comm 1, List.range'_succ]
    simp
  · intro j hj
    simp only [List.mem_range] at hj
    by_cases h1 : 1 ≤ j
    · simp [hb j h1 hj]
    · simp [h1]

theorem pick_none {s : St} {n : Nat} (hn : 0 < n) (h : pick s n = none) : ∀ i, 1 ≤ i → i < s.size → (s.slot i).used = true := by
  intro i h1 h2
  unfold pick at h
  split at h
  · cases h
  · rw [List.find?_eq_none] at h
    have := h i (by simpa using h2)
    simp [h1] at this
    exact this

/-- What adding a directory does to the table. -/
structure Added (p : Nat) (root : Bool) (w : Nat) (path : Bytes) (s s' : St) (i : Nat) : Prop where
  pick : pick s w = some i
  new : s'.slot i = ⟨true, true, w, p, root, some path, 0, (s.slot i).rid, none⟩
  mon : s'.slot p = { s.slot p with wds := some ((s.slot p).wds.getD [] ++ [i]) }
  rest : ∀ j, j ≠ i → j ≠ p → s'.slot j = s.slot j
  size : s'.size = s.size
  kern : s'.kern = Function.update s.kern (getFd s p) (Function.update (s.kern (getFd s p)) w (some path))
  ne : i ≠ p

theorem addDir_ok {p w : Nat} {root : Bool} {path : Bytes} {s s' : St} (hp : (s.slot p).used = true)
    (h : addDir p root w path s = .ok s') : ∃ i, Added p root w path s s' i := by
  simp only [addDir, newFd] at h
  cases hk : pick { s with kern := Function.update s.kern (getFd s p) (Function.update (s.kern (getFd s p)) w (some path)) } w with
  | none => rw [hk] at h; cases h
  | some i =>
    rw [hk] at h
    simp only [Res.ok.injEq] at h
    have hk' : pick s w = some i := hk
    have hne : i ≠ p := by
      rintro rfl
      have := (pick_some hk').2
      rw [hp] at this
      cases this
    refine ⟨i, hk', ?_, ?_, ?_, ?_, ?_, hne⟩
    · subst h
      simp [set_slot, addWd, hne, fresh]
    · subst h
      simp [set_slot, addWd, hne.symm, fresh]
    · intro j h1 h2
      subst h
      simp [set_slot, addWd, h1, h2]
    · subst h; rfl
    · subst h; rfl

theorem addDir_eq {p w i : Nat} (root : Bool) (path : Bytes) {s : St} (h : pick s w = some i) :
    ∃ s', addDir p root w path s = .ok s' := by
  simp only [addDir, newFd]
  have hk : pick { s with kern := Function.update s.kern (getFd s p) (Function.update (s.kern (getFd s p)) w (some path)) } w
      = some i := h
  rw [hk]
  exact ⟨_, rfl⟩

theorem addDir_ub {p w : Nat} (root : Bool) (path : Bytes) {s : St} (h : pick s w = none) :
    addDir p root w path s = .ub := by
  simp only [addDir, newFd]
  have hk : pick { s with kern := Function.update s.kern (getFd s p) (Function.update (s.kern (getFd s p)) w (some path)) } w
      = none := h
  rw [hk]

theorem addSubs_append (p : Nat) : ∀ (a b : List (Nat × Bytes)) (s : St),
    addSubs p (a ++ b) s = (addSubs p a s >>= addSubs p b)
  | [], _, _ => rfl
  | (w, path) :: a, b, s => by
    simp only [List.cons_append, addSubs]
    cases addDir p false w path s with
    | ub => rfl
    | ok s1 =>
      simp only [Res.ok_bind]
      exact addSubs_append p a b s1

/-- Entries in use stay as they are; the monitor's own entry changes in its list only. -/
structure Kept (p : Nat) (s s' : St) : Prop where
  size : s'.size = s.size
  used : ∀ j, (s.slot j).used = true → j ≠ p → s'.slot j = s.slot j
  mon : (s'.slot p).used = (s.slot p).used ∧ (s'.slot p).fd = (s.slot p).fd ∧ (s'.slot p).changes = (s.slot p).changes ∧
    (s'.slot p).path = (s.slot p).path ∧ (s'.slot p).sync = (s.slot p).sync

theorem Kept.refl (p : Nat) (s : St) : Kept p s s := ⟨rfl, fun _ _ _ => rfl, rfl, rfl, rfl, rfl, rfl⟩

theorem Kept.trans {p : Nat} {a b c : St} (h : Kept p a b) (g : Kept p b c) : Kept p a c := by
  refine ⟨g.size.trans h.size, fun j hj hp => ?_, ?_⟩
  · have e := h.used j hj hp
    rw [← e]
    exact g.used j (by rw [e]; exact hj) hp
  · obtain ⟨a1, a2, a3, a4, a5⟩ := h.mon
    obtain ⟨b1, b2, b3, b4, b5⟩ := g.mon
    exact ⟨b1.trans a1, b2.trans a2, b3.trans a3, b4.trans a4, b5.trans a5⟩

theorem Added.kept {p w i : Nat} {root : Bool} {path : Bytes} {s s' : St} (h : Added p root w path s s' i) : Kept p s s' := by
  refine ⟨h.size, fun j hj hp => h.rest j ?_ hp, ?_⟩
  · rintro rfl
    have := (pick_some h.pick).2
    rw [hj] at this
    cases this
  · rw [h.mon]
    exact ⟨rfl, rfl, rfl, rfl, rfl⟩

theorem addSubs_kept {p : Nat} : ∀ {l : List (Nat × Bytes)} {s s' : St}, (s.slot p).used = true → addSubs p l s = .ok s' →
    Kept p s s'
  | [], s, s', _, h => by cases h; exact .refl p s
  | (w, path) :: l, s, s', hp, h => by
    rw [addSubs, Res.bind_eq_ok] at h
    obtain ⟨s1, h1, h2⟩ := h
    obtain ⟨i, ha⟩ := addDir_ok hp h1
    exact ha.kept.trans (addSubs_kept (by rw [ha.mon]; exact hp) h2)

theorem getFd_kept {p : Nat} {s s' : St} (h : Kept p s s') : getFd s' p = getFd s p := by
  have e : valid s' p = valid s p := by simp only [valid, h.size, h.mon.1, h.mon.2.1]
  rw [getFd, getFd, e, h.mon.2.1]

theorem addSubs_kern {p : Nat} : ∀ {l : List (Nat × Bytes)} {s s' : St}, (s.slot p).used = true → addSubs p l s = .ok s' →
    ∀ w, w ∉ l.map Prod.fst → s'.kern (getFd s p) w = s.kern (getFd s p) w
  | [], s, s', _, h, w, _ => by cases h; rfl
  | (v, path) :: l, s, s', hp, h, w, hw => by
    rw [addSubs, Res.bind_eq_ok] at h
    obtain ⟨s1, h1, h2⟩ := h
    obtain ⟨i, ha⟩ := addDir_ok hp h1
    have := addSubs_kern (by rw [ha.mon]; exact hp) h2 w (fun hm => hw (by simp at hm ⊢; exact .inr hm))
    rw [getFd_kept ha.kept] at this
    rw [this, ha.kern]
    have hne : w ≠ v := fun e => hw (by simp [e])
    simp [hne]

end Verif.Watch
