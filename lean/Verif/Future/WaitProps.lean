import Verif.Future.Wait

/-!
Properties of `queue_wait` (C43).
-/
namespace Verif.Future.Wait

/-- The invariant: what is left plus what was called back is what was given, and only finished promises were
called back. -/
structure Inv (orig : List P) (doneAt : Nat → P → Bool) (t : Nat) (s : WS) : Prop where
  perm : List.Perm (s.called ++ s.work) orig
  spent : ∀ p, p ∈ s.spent ↔ p ∈ s.called
  past : ∀ p ∈ s.called, ∃ u < t, doneAt u p = true
  ret : s.returned = true → s.work = []

theorem nodup_parts {orig : List P} {s : WS} (hn : orig.Nodup) (hp : List.Perm (s.called ++ s.work) orig) :
    s.called.Nodup ∧ s.work.Nodup ∧ ∀ p ∈ s.work, p ∉ s.called := by
  have := hp.nodup_iff.2 hn
  rw [List.nodup_append] at this
  exact ⟨this.1, this.2.1, fun p hw hc => this.2.2 p hc p hw rfl⟩

theorem eraseIdx_perm {l : List P} {i : Nat} {p : P} (h : l[i]? = some p) : List.Perm (p :: l.eraseIdx i) l := by
  obtain ⟨hi, rfl⟩ := List.getElem?_eq_some_iff.1 h
  exact (List.getElem_cons_eraseIdx_perm hi)

theorem inv_step {orig : List P} {doneAt : Nat → P → Bool} {t : Nat} {s : WS} (hn : orig.Nodup) (h : Inv orig doneAt t s) :
    Inv orig doneAt (t + 1) (wstep true (doneAt t) s) := by
  have hpast : ∀ p ∈ s.called, ∃ u < t + 1, doneAt u p = true := fun p hp => by
    obtain ⟨u, hu, hd⟩ := h.past p hp
    exact ⟨u, by omega, hd⟩
  unfold wstep
  split
  · exact ⟨h.perm, h.spent, hpast, h.ret⟩
  · rename_i hr
    split
    · rename_i p hp
      unfold visit
      split
      · rename_i hd
        have hmem : p ∈ s.work := List.mem_of_getElem? hp
        have hnc := (nodup_parts hn h.perm).2.2 p hmem
        rw [if_pos rfl, if_neg (fun e => hnc ((h.spent p).1 e))]
        refine ⟨?_, ?_, ?_, fun e => absurd e hr⟩
        · refine List.Perm.trans ?_ h.perm
          simp only [List.append_assoc, List.singleton_append]
          exact List.Perm.append_left _ (eraseIdx_perm hp)
        · intro q
          simp only [List.mem_cons, List.mem_append, List.not_mem_nil, or_false, h.spent q]
          exact or_comm
        · intro q hq
          rcases List.mem_append.1 hq with hq | hq
          · exact hpast q hq
          · rw [List.mem_singleton] at hq
            subst hq
            exact ⟨t, Nat.lt_succ_self t, hd⟩
      · exact ⟨h.perm, h.spent, hpast, fun e => absurd e hr⟩
    · split
      · rename_i hw
        exact ⟨h.perm, h.spent, hpast, fun _ => hw⟩
      · exact ⟨h.perm, h.spent, hpast, fun e => absurd e hr⟩

theorem inv_run {orig : List P} {doneAt : Nat → P → Bool} (hn : orig.Nodup) : ∀ (n : Nat) {t : Nat} {s : WS},
    Inv orig doneAt t s → Inv orig doneAt (t + n) (wrun true doneAt t n s)
  | 0, _, _, h => h
  | n + 1, t, s, h => by
    have := inv_run hn n (inv_step hn h)
    rw [Nat.add_right_comm, Nat.add_assoc] at this
    exact this

theorem inv_init (orig : List P) (doneAt : Nat → P → Bool) : Inv orig doneAt 0 (WS.init orig []) :=
  ⟨by simp [WS.init], by simp [WS.init], by simp [WS.init], by simp [WS.init]⟩

/-! Termination -/

theorem wrun_add (ht : Bool) (doneAt : Nat → P → Bool) : ∀ (n m t : Nat) (s : WS),
    wrun ht doneAt t (n + m) s = wrun ht doneAt (t + n) m (wrun ht doneAt t n s)
  | 0, m, t, s => by simp [wrun]
  | n + 1, m, t, s => by
    rw [Nat.add_right_comm]
    simp only [wrun]
    rw [wrun_add ht doneAt n m]
    congr 1
    omega

theorem returned_stays (ht : Bool) (doneAt : Nat → P → Bool) : ∀ (n t : Nat) (s : WS), s.returned = true →
    wrun ht doneAt t n s = s
  | 0, _, _, _ => rfl
  | n + 1, t, s, h => by
    simp only [wrun]
    have : wstep ht (doneAt t) s = s := by unfold wstep; rw [if_pos h]
    rw [this]
    exact returned_stays ht doneAt n (t + 1) s h

/-- Steps to go once everything is done: each look removes an entry, each turn resets the index. -/
def cost (s : WS) : Nat := if s.returned then 0 else 2 * s.work.length + 1 + (if s.idx = 0 then 0 else 1)

theorem cost_dec {ht : Bool} {isDone : P → Bool} {s : WS} (hall : ∀ p ∈ s.work, isDone p = true) (hr : s.returned = false) :
    cost (wstep ht isDone s) < cost s ∧ (∀ p ∈ (wstep ht isDone s).work, p ∈ s.work) := by
  unfold wstep
  rw [if_neg (by rw [hr]; simp)]
  split
  · rename_i p hp
    have hmem : p ∈ s.work := List.mem_of_getElem? hp
    obtain ⟨hi, _⟩ := List.getElem?_eq_some_iff.1 hp
    have hlen : (s.work.eraseIdx s.idx).length = s.work.length - 1 := List.length_eraseIdx_of_lt hi
    have hsub : ∀ q ∈ s.work.eraseIdx s.idx, q ∈ s.work := fun q hq => List.mem_of_mem_eraseIdx hq
    have hpos : 0 < s.work.length := by omega
    unfold visit
    rw [if_pos (hall p hmem)]
    have hcost : ∀ c sp, cost { s with work := s.work.eraseIdx s.idx, idx := s.idx + 1, called := c, spent := sp } < cost s := by
      intro c sp
      simp only [cost, hr, Bool.false_eq_true, if_false, hlen]
      rw [if_neg (Nat.succ_ne_zero _)]
      split <;> omega
    cases ht
    · exact ⟨hcost _ _, hsub⟩
    · simp only [if_true]
      split
      · exact ⟨hcost _ _, hsub⟩
      · exact ⟨hcost _ _, hsub⟩
  · rename_i hp
    have hle := List.getElem?_eq_none_iff.1 hp
    split
    · refine ⟨?_, fun q hq => hq⟩
      simp only [cost, hr, if_true, Bool.false_eq_true, if_false]
      omega
    · rename_i hw
      refine ⟨?_, fun q hq => hq⟩
      have : 0 < s.work.length := List.length_pos_iff.2 hw
      have hi : s.idx ≠ 0 := by omega
      simp [cost, hr, hi]

theorem finishes {ht : Bool} {doneAt : Nat → P → Bool} : ∀ (k : Nat) {t : Nat} {s : WS}, cost s ≤ k →
    (∀ u ≥ t, ∀ p ∈ s.work, doneAt u p = true) → ∃ n, (wrun ht doneAt t n s).returned = true
  | k, t, s, hk, hall => by
    cases hr : s.returned with
    | true => exact ⟨0, hr⟩
    | false =>
      obtain ⟨h1, h2⟩ := cost_dec (ht := ht) (isDone := doneAt t) (hall t (Nat.le_refl t)) hr
      match k with
      | 0 => omega
      | k + 1 =>
        obtain ⟨n, hn⟩ := finishes (ht := ht) (doneAt := doneAt) k (t := t + 1) (s := wstep ht (doneAt t) s) (by omega)
          (fun u hu p hp => hall u (by omega) p (h2 p hp))
        exact ⟨n + 1, hn⟩

theorem work_subset {ht : Bool} {doneAt : Nat → P → Bool} : ∀ (n : Nat) {t : Nat} {s : WS},
    ∀ p ∈ (wrun ht doneAt t n s).work, p ∈ s.work
  | 0, _, _, _, h => h
  | n + 1, t, s, p, h => by
    have := work_subset n p h
    revert this
    unfold wstep
    split
    · exact id
    · split
      · unfold visit
        split
        · split
          · split
            · exact List.mem_of_mem_eraseIdx
            · exact List.mem_of_mem_eraseIdx
          · exact List.mem_of_mem_eraseIdx
        · exact id
      · split
        · exact id
        · exact id

/-! ### C43 -/

/-- C43, safety.  For distinct outstanding promises and any behaviour of the workers: at every moment the
handler has been called at most once per promise, only for given promises that were done at the time, and
once `queue_wait` has returned it has been called exactly once for each. -/
theorem queue_wait_once (orig : List P) (hn : orig.Nodup) (doneAt : Nat → P → Bool) (n : Nat) :
    let s := wrun true doneAt 0 n (WS.init orig [])
    s.called.Nodup ∧ (∀ p ∈ s.called, p ∈ orig ∧ ∃ u < n, doneAt u p = true) ∧
    (s.returned = true → List.Perm s.called orig) := by
  intro s
  have h := inv_run (doneAt := doneAt) hn n (inv_init orig doneAt)
  rw [Nat.zero_add] at h
  refine ⟨(nodup_parts hn h.perm).1, fun p hp => ⟨?_, h.past p hp⟩, fun hr => ?_⟩
  · exact h.perm.mem_iff.1 (List.mem_append_left _ hp)
  · have hw := h.ret hr
    have hp := h.perm
    rw [hw, List.append_nil] at hp
    exact hp

/-- C43, termination.  If every outstanding promise gets done sooner or later (and stays done), `queue_wait`
returns — with or without a handler — and then nothing changes any more. -/
theorem queue_wait_returns (ht : Bool) (orig : List P) (spent : List P) (doneAt : Nat → P → Bool) (T : Nat)
    (hd : ∀ p ∈ orig, ∀ u ≥ T, doneAt u p = true) :
    ∃ n, ∀ m ≥ n, (wrun ht doneAt 0 m (WS.init orig spent)).returned = true ∧
      wrun ht doneAt 0 m (WS.init orig spent) = wrun ht doneAt 0 n (WS.init orig spent) := by
  obtain ⟨k, hk⟩ := finishes (ht := ht) (doneAt := doneAt) _ (t := 0 + T) (s := wrun ht doneAt 0 T (WS.init orig spent))
    (Nat.le_refl _) (fun u hu p hp => hd p (work_subset T p hp) u (by omega))
  rw [← wrun_add] at hk
  refine ⟨T + k, fun m hm => ?_⟩
  obtain ⟨d, rfl⟩ := Nat.exists_eq_add_of_le hm
  rw [wrun_add ht doneAt (T + k) d, returned_stays ht doneAt d _ _ hk]
  exact ⟨hk, rfl⟩

/-- It does not return while a promise is still outstanding. -/
theorem queue_wait_waits (orig : List P) (hn : orig.Nodup) (doneAt : Nat → P → Bool) (p : P) (hp : p ∈ orig) (n : Nat)
    (hd : ∀ u < n, doneAt u p = false) : (wrun true doneAt 0 n (WS.init orig [])).returned = false := by
  obtain ⟨_, h2, h3⟩ := queue_wait_once orig hn doneAt n
  cases hr : (wrun true doneAt 0 n (WS.init orig [])).returned with
  | false => rfl
  | true =>
    obtain ⟨_, u, hu, he⟩ := h2 p ((h3 hr).mem_iff.2 hp)
    rw [hd u hu] at he
    cases he

/-- Promises 3, 5, 8 finish at times 9, 0 and 4: all are called back, 5 first, and the loop ends. -/
example :
    let s := wrun true (fun t p => if p = 3 then 9 ≤ t else if p = 5 then true else 4 ≤ t) 0 30 (WS.init [3, 5, 8] [])
    s.called = [5, 8, 3] ∧ s.returned = true := by decide +kernel

/-- The same promise listed twice is called back once only. -/
example : (wrun true (fun _ _ => true) 0 20 (WS.init [4, 4] [])).called = [4] := by decide +kernel

end Verif.Future.Wait
