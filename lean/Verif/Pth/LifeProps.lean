import Verif.Pth.Life
import Mathlib.Data.List.Induction

/-!
# What holds of the life of a thread (C191, C192)
-/

namespace Verif.Pth.Life

/-! ## C191: nobody uses the record after it has been freed -/

theorem run_snoc (det : Bool) (evs : List Ev) (e : Ev) : run det (evs ++ [e]) = step (run det evs) e := by
  simp [run]

/-- The function of the thread ended in the step `e` and gave `r`. -/
def Ends (det : Bool) (before : List Ev) (r : Nat) : Prop :=
  (run det before).th = .func ∧ (run det (before ++ [.thread r])).th = .spin

theorem ret_step {s : St} {e : Ev} (h : (step s e).ret ≠ s.ret) :
    ∃ r, e = .thread r ∧ s.th = .func ∧ (step s e).th = .spin ∧ (step s e).ret = some r := by
  cases e <;> simp only [step] at h ⊢
  case thread r =>
    refine ⟨r, rfl, ?_⟩
    obtain ⟨d, hh, cr, th, us, own, ret, got, freed, closed, bad⟩ := s
    cases th <;> simp [thread, touch, freeRec] at h ⊢
    · split at h
      · simp at h
      · next hn => simp [hn]
    · split at h <;> simp at h
  case create ok => split at h <;> simp [touch] at h; split at h <;> simp at h
  case creator => unfold creator at h; split at h <;> simp [touch, closeH] at h
  case user =>
    unfold user at h; split at h <;> simp [touch, closeH, freeRec] at h
    split at h <;> simp at h
  all_goals split at h <;> simp at h

theorem ret_from (det : Bool) (evs : List Ev) {r : Nat} (h : (run det evs).ret = some r) :
    ∃ before after, evs = before ++ .thread r :: after ∧ Ends det before r := by
  induction evs using List.reverseRecOn with
  | nil => simp [run] at h
  | append_singleton l e ih =>
    rw [run_snoc] at h
    by_cases hr : (step (run det l) e).ret = (run det l).ret
    · obtain ⟨b, a, rfl, hE⟩ := ih (hr ▸ h)
      exact ⟨b, a ++ [e], by simp, hE⟩
    · obtain ⟨r', rfl, h1, h2, h3⟩ := ret_step hr
      obtain rfl : r' = r := by rw [h] at h3; exact (Option.some.inj h3).symm
      exact ⟨l, [], rfl, h1, by rw [run_snoc]; exact h2⟩

/-- Whatever the order in which the three threads go on: the record is not used after it has been freed and not freed twice, the
handle is not closed twice; and when `pthread_join` has returned the record has been freed, the handle closed, the thread has ended
and the caller has what the thread's function gave.  Missing: a thread that detaches itself before the `pthread_create` that made it
has returned (`self_detach_early`). -/
theorem life_safe_partial {det : Bool} {evs : List Ev} (hw : Waits { det } evs) :
    (run det evs).bad = false ∧ (run det evs).freed ≤ 1 ∧ (run det evs).closed ≤ 1 ∧
      ((run det evs).us = .joined → (run det evs).freed = 1 ∧ (run det evs).closed = 1 ∧ (run det evs).th = .exited ∧
        ∃ r before after, evs = before ++ .thread r :: after ∧ Ends det before r ∧ (run det evs).got = some r) := by
  have h := run_ok hw
  have hr := fun r => ret_from det evs (r := r)
  generalize run det evs = s at h hr
  obtain ⟨d, h, cr, th, us, own, ret, got, freed, closed, bad⟩ := s
  cases cr <;> cases us <;> simp only [Ok, and_false, Gone, Live] at h <;> simp_all [Option.isSome_iff_exists] <;> try omega
  obtain ⟨_, _, _, _, ⟨r, hret⟩, _⟩ := h
  obtain ⟨b, ⟨a, h1⟩, h2⟩ := hr r hret
  exact ⟨r, b, ⟨a, h1⟩, h2, hret⟩

/-- A thread that gives 7 and ends before `pthread_create` has stored its handle waits for it; then it is joined. -/
def joined7 : List Ev :=
  [.create true, .thread 7, .thread 0, .creator, .creator, .join, .user, .thread 0, .thread 0, .user, .user, .user, .user]

example : Waits { det := false } joined7 ∧ (run false joined7).us = .joined ∧ (run false joined7).got = some 7 := by
  refine ⟨?_, by decide, by decide⟩
  simp [Waits, joined7]

/-- A thread that detaches itself before `pthread_create` has returned: `tv->h` is 0, so it frees the record when it ends and
`pthread_create` writes the handle into freed memory (735) and looks at it again (738, 740).  The result of the function does not
matter, nor what happens afterwards. -/
theorem self_detach_early (r r' r'' r''' : Nat) (evs : List Ev) :
    (run false ([.create true, .detachSelf, .user, .user, .thread r, .thread r', .thread r'', .thread r''', .creator] ++ evs)).bad =
      true := by
  have key : ∀ (evs : List Ev) (s : St), s.bad = true → (evs.foldl step s).bad = true := by
    intro evs
    induction evs with
    | nil => intro s h; exact h
    | cons e t ih =>
      intro s h
      refine ih _ ?_
      obtain ⟨d, hh, cr, th, us, own, ret, got, freed, closed, bad⟩ := s
      dsimp only at h; subst h
      cases e <;> simp only [step] <;> (try split) <;>
        simp [touch, closeH, freeRec, creator, thread, user] <;> (try split) <;> (try split) <;> simp
  rw [run, List.foldl_append]
  exact key _ _ (by simp [step, user, thread, creator, touch, closeH, freeRec])

/-! ## `pthread_join` returns -/

/-- Steps `pthread_join` still has to take. -/
def todo : Us → Nat
  | .wait => 4 | .close => 3 | .read => 2 | .free => 1 | _ => 0

def joining (s : St) : Prop := s.us = .wait ∨ s.us = .close ∨ s.us = .read ∨ s.us = .free ∨ s.us = .joined

theorem join_step {s : St} (e : Ev) (hc : s.cr = .back) (ht : s.th = .exited) (hj : joining s) :
    (step s e).cr = .back ∧ (step s e).th = .exited ∧ joining (step s e) ∧
      todo (step s e).us ≤ todo s.us - (if e = .user then 1 else 0) := by
  obtain ⟨d, h, cr, th, us, own, ret, got, freed, closed, bad⟩ := s
  dsimp only at hc ht; subst ht; subst hc
  simp only [joining] at hj
  cases e with
  | creator => simp_all [step, creator, joining]
  | create ok => simp_all [step, joining]
  | thread r => simp_all [step, thread, joining]
  | user => rcases hj with rfl | rfl | rfl | rfl | rfl <;> simp [step, user, touch, closeH, freeRec, joining, todo]
  | _ => rcases hj with rfl | rfl | rfl | rfl | rfl <;> simp [step, joining, todo]

/-- Once the thread has ended, `pthread_join` returns after four more of its own steps, whatever the others do. -/
theorem join_returns {s : St} (evs : List Ev) (hc : s.cr = .back) (ht : s.th = .exited) (hj : joining s) (h4 : 4 ≤ evs.count .user) :
    (evs.foldl step s).us = .joined := by
  have key : ∀ (evs : List Ev) (s : St), s.cr = .back → s.th = .exited → joining s → todo s.us ≤ evs.count .user →
      joining (evs.foldl step s) ∧ todo (evs.foldl step s).us = 0 := by
    intro evs
    induction evs with
    | nil => intro s _ _ hj h; exact ⟨hj, by simpa using h⟩
    | cons e t ih =>
      intro s hc ht hj h
      obtain ⟨h0, h1, h2, h3⟩ := join_step e hc ht hj
      refine ih _ h0 h1 h2 ?_
      rw [List.count_cons] at h
      by_cases he : e = .user
      · simp [he] at h h3 ⊢; omega
      · simp [he] at h h3; omega
  have h0 : todo s.us ≤ 4 := by cases s.us <;> simp [todo]
  obtain ⟨h1, h2⟩ := key evs s hc ht hj (by omega)
  rcases h1 with h | h | h | h | h <;> rw [h] at h2 <;> first | exact h | simp [todo] at h2

/-! ## C192: the memory of threads -/

theorem foldl_det (evs : List Ev) : ∀ s : St, (evs.foldl step s).det = s.det := by
  induction evs with
  | nil => intro s; rfl
  | cons e t ih =>
    intro s
    rw [List.foldl_cons, ih]
    cases e <;> simp only [step, creator, thread, user] <;> split <;> (try split) <;> simp [touch, closeH, freeRec]

theorem run_det (det : Bool) (evs : List Ev) : (run det evs).det = det := foldl_det evs _

theorem us_detached (evs : List Ev) : ∀ {s : St}, s.us = .detached → (evs.foldl step s).us = .detached := by
  induction evs with
  | nil => intro s h; exact h
  | cons e t ih =>
    intro s h
    refine ih ?_
    cases e <;> simp only [step, creator, thread, user] <;> split <;> (try split) <;> simp_all [touch, closeH, freeRec]

theorem failed_stays (evs : List Ev) : ∀ {s : St}, s.cr = .failed → (evs.foldl step s).cr = .failed := by
  induction evs with
  | nil => intro s h; exact h
  | cons e t ih =>
    intro s h
    refine ih ?_
    cases e <;> simp only [step, creator, thread, user] <;> split <;> (try split) <;> simp_all [touch, closeH, freeRec]

/-- Steps `pthread_create` still has to take at most. -/
def steps : Cr → Nat
  | .assign => 4 | .test => 3 | .close => 2 | .zero => 1 | _ => 0

theorem cr_step {s : St} {e : Ev} (h : s.cr ≠ .begin) (he : e ≠ .creator) : (step s e).cr = s.cr := by
  cases e
  case creator => exact absurd rfl he
  all_goals simp only [step, thread, user]; split <;> (try split) <;> simp_all [touch, closeH, freeRec]

theorem creator_ends (evs : List Ev) : ∀ {s : St}, s.cr ≠ .begin ∧ s.cr ≠ .failed → steps s.cr ≤ evs.count .creator →
    (evs.foldl step s).cr = .back := by
  induction evs with
  | nil =>
    intro s h hs
    cases hc : s.cr <;> simp_all [steps]
  | cons e t ih =>
    intro s h hs
    by_cases he : e = .creator
    · subst he
      obtain ⟨d, hh, cr, th, us, own, ret, got, freed, closed, bad⟩ := s
      refine ih ?_ ?_ <;> cases cr <;> cases d <;> simp_all [step, creator, touch, closeH, steps]
    · have hc := cr_step h.1 he
      refine ih (by rw [hc]; exact h) ?_
      rw [hc]
      simpa [List.count_cons, he] using hs

/-- Steps the thread has to take when it has been detached. -/
def left : Th → Nat
  | .func => 4 | .spin => 3 | .check => 2 | .free => 1 | _ => 0

def isThread : Ev → Bool
  | .thread _ => true
  | _ => false

/-- A thread that is detached and will free its record. -/
def Frees (s : St) : Prop :=
  s.h = .zero ∧ (s.us = .detached ∨ s.us = .none ∧ s.det = true ∧ s.own = false) ∧ s.cr = .back ∧
    ((s.th = .func ∨ s.th = .spin ∨ s.th = .check ∨ s.th = .free) ∧ s.freed = 0 ∨ s.th = .exited ∧ s.freed = 1)

theorem frees_step {s : St} (e : Ev) (h : Frees s) :
    Frees (step s e) ∧ left (step s e).th ≤ left s.th - (if isThread e then 1 else 0) := by
  obtain ⟨d, hh, cr, th, us, own, ret, got, freed, closed, bad⟩ := s
  simp only [Frees] at h
  obtain ⟨rfl, h2, rfl, h4⟩ := h
  cases e with
  | thread r => rcases h4 with ⟨rfl | rfl | rfl | rfl, rfl⟩ | ⟨rfl, rfl⟩ <;> rcases h2 with rfl | ⟨rfl, rfl, rfl⟩ <;>
      simp [step, thread, touch, freeRec, Frees, left, isThread]
  | _ => rcases h2 with rfl | ⟨rfl, rfl, rfl⟩ <;> simp [step, creator, user, Frees, left, isThread, h4]

/-- A thread whose detaching is complete before it ends frees its record, exactly once: the detaching is complete if
`pthread_create` with the attribute, or `pthread_detach`, has returned.  Four more steps of the thread are enough. -/
theorem detached_freed_partial {det : Bool} {evs : List Ev} (hw : Waits { det } evs)
    (hd : det = true ∧ (run det evs).cr = .back ∨ (run det evs).us = .detached)
    (ht : (run det evs).th = .func) (more : List Ev) :
    let s := run det (evs ++ more)
    (s.th = .exited → s.freed = 1) ∧ (4 ≤ more.countP isThread → s.th = .exited) := by
  have h := run_ok hw
  have hdet : (run det evs).det = det := run_det det evs
  have hF : Frees (run det evs) := by
    generalize run det evs = s at *
    obtain ⟨d, hh, cr, th, us, own, ret, got, freed, closed, bad⟩ := s
    dsimp only at ht hdet; subst ht; subst hdet
    cases cr <;> cases us <;> simp only [Ok, and_false, Gone, Live] at h <;> simp_all [Frees]
  have key : ∀ (evs : List Ev) (s : St), Frees s → Frees (evs.foldl step s) ∧
      (left s.th ≤ evs.countP isThread → left (evs.foldl step s).th = 0) := by
    intro evs
    induction evs with
    | nil => intro s hs; exact ⟨hs, by simp⟩
    | cons e t ih =>
      intro s hs
      obtain ⟨h1, h2⟩ := frees_step e hs
      refine ⟨(ih _ h1).1, fun hl => (ih _ h1).2 ?_⟩
      rw [List.countP_cons] at hl
      by_cases he : isThread e = true <;> simp [he] at hl h2 <;> omega
  have hs : run det (evs ++ more) = more.foldl step (run det evs) := by simp [run]
  obtain ⟨h1, h2⟩ := key more _ hF
  dsimp only
  rw [hs]
  refine ⟨fun hx => ?_, fun hc => ?_⟩
  · rcases h1.2.2.2 with ⟨hy, _⟩ | ⟨_, hy⟩
    · rw [hx] at hy; simp at hy
    · exact hy
  · have := h2 (by rw [ht]; exact hc)
    rcases h1.2.2.2 with ⟨hy, _⟩ | ⟨hy, _⟩
    · rcases hy with hy | hy | hy | hy <;> rw [hy] at this <;> simp [left] at this
    · exact hy

example : (run true ([.create true, .creator, .creator, .creator, .creator] ++ [.thread 7, .thread 0, .thread 0, .thread 0])).freed = 1 := by
  decide

/-- A detached thread that has ended without freeing its record: nobody frees it afterwards. -/
theorem leak_stays {s : St} (hc : s.cr ≠ .begin) (ht : s.th = .exited ∨ s.th = .none)
    (hu : s.us = .detached ∨ s.us = .dclose ∨ s.us = .dzero ∨ s.us = .none ∧ (s.det = true ∨ s.cr = .failed)) (hf : s.freed = 0)
    (evs : List Ev) : (evs.foldl step s).freed = 0 := by
  induction evs generalizing s with
  | nil => exact hf
  | cons e t ih =>
    obtain ⟨d, hh, cr, th, us, own, ret, got, freed, closed, bad⟩ := s
    dsimp only at hc ht hu hf
    subst hf
    refine ih (s := step _ e) ?_ ?_ ?_ ?_ <;> rcases ht with rfl | rfl <;> rcases hu with rfl | rfl | rfl | ⟨rfl, rfl | rfl⟩ <;>
      cases e <;> simp_all [step, user, thread, creator, touch, closeH] <;> cases cr <;> simp_all <;> split <;> simp_all

/-- `pthread_detach` of a thread that has already ended does not free its record, now or later. -/
theorem detach_after_end_leaks {evs : List Ev} (hw : Waits { det := false } evs) (hc : (run false evs).cr = .back)
    (ht : (run false evs).th = .exited) (hu : (run false evs).us = .none) (more : List Ev) :
    (run false (evs ++ .detach :: .user :: .user :: more)).us = .detached ∧
      (run false (evs ++ .detach :: .user :: .user :: more)).freed = 0 := by
  have h := run_ok hw
  have hs : run false (evs ++ .detach :: .user :: .user :: more) =
      more.foldl step (step (step (step (run false evs) .detach) .user) .user) := by simp [run]
  rw [hs]
  have hdet : (run false evs).det = false := run_det _ _
  generalize run false evs = s at *
  obtain ⟨d, hh, cr, th, us, own, ret, got, freed, closed, bad⟩ := s
  dsimp only at hc ht hu hdet
  subst hc; subst ht; subst hu; subst hdet
  have hf : freed = 0 := by
    simp [Ok, Live] at h
    tauto
  subst hf
  refine ⟨?_, ?_⟩
  · refine us_detached more ?_
    simp [step, user, touch, closeH]
  · refine leak_stays ?_ ?_ ?_ ?_ more <;> simp [step, user, touch, closeH]

example : let evs : List Ev := [.create true, .creator, .creator, .thread 7, .thread 0, .thread 0]
    Waits { det := false } evs ∧ (run false evs).cr = .back ∧ (run false evs).th = .exited ∧ (run false evs).us = .none := by
  refine ⟨?_, by decide, by decide, by decide⟩
  simp [Waits]

/-- A thread created detached that looks at its handle (704) after `pthread_create` has stored it and before it has put 0 there
does not free its record, nor does anybody later. -/
theorem detached_race_leaks {evs : List Ev} (hw : Waits { det := true } evs) (ht : (run true evs).th = .check)
    (hc : (run true evs).cr ≠ .back) (r : Nat) (more : List Ev) :
    (run true (evs ++ .thread r :: more)).freed = 0 ∧
      (3 ≤ more.count .creator → (run true (evs ++ .thread r :: more)).cr = .back) := by
  have h := run_ok hw
  have hs : run true (evs ++ .thread r :: more) = more.foldl step (step (run true evs) (.thread r)) := by simp [run]
  rw [hs]
  have hdet : (run true evs).det = true := run_det _ _
  generalize run true evs = s at *
  obtain ⟨d, hh, cr, th, us, own, ret, got, freed, closed, bad⟩ := s
  dsimp only at hc ht hdet
  subst ht; subst hdet
  cases cr <;> cases us <;> simp [Ok, Live] at h <;> simp at hc
  all_goals
    obtain ⟨-, rfl, -, rfl, rfl, -⟩ := h
    refine ⟨leak_stays ?_ ?_ ?_ ?_ more, ?_⟩
    · simp [step, thread, touch]
    · simp [step, thread, touch]
    · simp [step, thread, touch]
    · simp [step, thread, touch]
    · intro h3
      exact creator_ends more (by simp [step, thread, touch]) (Nat.le_trans (by simp [step, thread, touch, steps]) h3)

example : let evs : List Ev := [.create true, .thread 7, .creator, .thread 0]
    Waits { det := true } evs ∧ (run true evs).th = .check ∧ (run true evs).cr ≠ .back := by
  refine ⟨?_, by decide, by decide⟩
  simp [Waits]

/-- When `_beginthreadex` fails `pthread_create` reports it, and the record is never freed. -/
theorem create_failure_leaks (det : Bool) (more : List Ev) :
    (run det (.create false :: more)).cr = .failed ∧ (run det (.create false :: more)).freed = 0 := by
  have hs : run det (.create false :: more) = more.foldl step (step { det } (.create false)) := rfl
  rw [hs]
  refine ⟨failed_stays more (by simp [step, touch]), ?_⟩
  refine leak_stays ?_ ?_ ?_ ?_ more <;> simp [step, touch]

end Verif.Pth.Life
