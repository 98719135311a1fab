import Mathlib.Logic.Function.Basic

/-!
# `pthread_once` of the bundled POSIX threads for Windows (`include/compat/pthread.h` 191-225), C185

Any number of threads call `pthread_once` on one control word with one routine.  A step is one access to the word, or one of the
things that can happen to the thread that runs the routine.  `_pthread_once_raw` (227-254) is the same without the cleanup handler;
its only routine (`pthread_tls_init`) cannot be cancelled.
-/

namespace Verif.Pth.Once

/-- Where a thread is: outside; at the head of the loop having read `v`; about to read again (220); in the routine (206); after the
routine and after `pthread_cleanup_pop`, before the store of 1 (210); returned; ended. -/
inductive Pc where
  | idle
  | look (v : Nat)
  | again
  | run
  | fin
  | back
  | gone
  deriving DecidableEq

structure St where
  /-- the control word -/
  o : Nat
  pcs : Nat → Pc
  /-- how often the routine has been started, and how often it has come to its end -/
  started : Nat
  ended : Nat

def init : St := { o := 0, pcs := fun _ => .idle, started := 0, ended := 0 }

def St.set (s : St) (i : Nat) (p : Pc) : St := { s with pcs := Function.update s.pcs i p }

inductive Ev where
  /-- the thread calls `pthread_once` -/
  | call (i : Nat)
  /-- the thread makes its next step in the loop, or stores 1 -/
  | go (i : Nat)
  /-- the routine comes to its end -/
  | finish (i : Nat)
  /-- the thread is cancelled in the routine -/
  | cancel (i : Nat)
  /-- the routine calls `pthread_exit` -/
  | exit (i : Nat)
  /-- the thread is cancelled asynchronously between 207 and 210 -/
  | late (i : Nat)
  deriving DecidableEq

/-- One step of `pthread_once` (196-225).  `cancel` runs the cleanup handlers (`_pthread_invoke_cancel` 518-529), so
`_pthread_once_cleanup` (191-193) stores 0; `pthread_exit` (507-515) does not run them.  Events that cannot happen do nothing. -/
def step (s : St) : Ev → St
  | .call i => if s.pcs i = .idle ∨ s.pcs i = .back then s.set i (.look s.o) else s
  | .go i =>
    match s.pcs i with
    | .look v =>
      if v = 1 then s.set i .back
      else if v = 0 then
        if s.o = 0 then { s.set i .run with o := 2, started := s.started + 1 } else s.set i .again
      else s.set i .again
    | .again => s.set i (.look s.o)
    | .fin => { s.set i .back with o := 1 }
    | _ => s
  | .finish i => if s.pcs i = .run then { s.set i .fin with ended := s.ended + 1 } else s
  | .cancel i => if s.pcs i = .run then { s.set i .gone with o := 0 } else s
  | .exit i => if s.pcs i = .run then s.set i .gone else s
  | .late i => if s.pcs i = .fin then s.set i .gone else s

def run (evs : List Ev) : St := evs.foldl step init

/-- The thread is the one that runs the routine. -/
def Act (s : St) (i : Nat) : Prop := s.pcs i = .run ∨ s.pcs i = .fin

structure Inv (s : St) : Prop where
  uniq : ∀ i j, Act s i → Act s j → i = j
  act : ∀ i, Act s i → s.o = 2
  atRun : ∀ i, s.pcs i = .run → s.ended = 0
  atFin : ∀ i, s.pcs i = .fin → s.ended = 1
  zero : s.o = 0 → s.ended = 0
  one : s.o = 1 → s.ended = 1
  le : s.o ≤ 2
  once : s.ended ≤ 1
  look : ∀ i, s.pcs i = .look 1 → s.o = 1
  back : ∀ i, s.pcs i = .back → s.o = 1

theorem init_inv : Inv init := by
  constructor <;> simp [init, Act]

/-- Moving one thread between places outside the routine. -/
theorem set_inv {s : St} (h : Inv s) {i : Nat} {p : Pc} (hp : p ≠ .run ∧ p ≠ .fin) (hb : p = .back ∨ p = .look 1 → s.o = 1) :
    Inv (s.set i p) := by
  have hact : ∀ j, Act (s.set i p) j → Act s j ∧ j ≠ i := by
    intro j hj
    by_cases e : j = i
    · subst e; simp [Act, St.set, hp.1, hp.2] at hj
    · simp only [Act, St.set, Function.update_of_ne e] at hj
      exact ⟨hj, e⟩
  have hpc : ∀ j, (s.set i p).pcs j = s.pcs j ∨ (s.set i p).pcs j = p := by
    intro j
    by_cases e : j = i
    · subst e; right; simp [St.set]
    · left; simp [St.set, e]
  refine ⟨?_, ?_, ?_, ?_, h.zero, h.one, h.le, h.once, ?_, ?_⟩
  · exact fun a b ha hb => h.uniq a b (hact a ha).1 (hact b hb).1
  · exact fun a ha => h.act a (hact a ha).1
  · intro j hj
    rcases hpc j with e | e
    · exact h.atRun j (e ▸ hj)
    · exact absurd (e ▸ hj) hp.1
  · intro j hj
    rcases hpc j with e | e
    · exact h.atFin j (e ▸ hj)
    · exact absurd (e ▸ hj) hp.2
  · intro j hj
    rcases hpc j with e | e
    · exact h.look j (e ▸ hj)
    · exact hb (.inr (e ▸ hj))
  · intro j hj
    rcases hpc j with e | e
    · exact h.back j (e ▸ hj)
    · exact hb (.inl (e ▸ hj))

theorem step_inv {s : St} (h : Inv s) (e : Ev) : Inv (step s e) := by
  cases e with
  | call i =>
    simp only [step]
    split
    · refine set_inv h ⟨by simp, by simp⟩ ?_
      rintro (hx | hx)
      · cases hx
      · injection hx
    · exact h
  | go i =>
    simp only [step]
    cases hp : s.pcs i with
    | look v =>
      dsimp only
      split
      · rename_i hv
        subst hv
        exact set_inv h ⟨by simp, by simp⟩ (fun _ => h.look i hp)
      · split
        · split
          · rename_i ho
            have hno : ∀ j, ¬ Act s j := fun j hj => by have := h.act j hj; omega
            refine ⟨?_, fun _ _ => rfl, fun _ _ => h.zero ho, ?_, ?_, ?_, Nat.le_refl 2, h.once, ?_, ?_⟩
            · intro a b ha hb
              have key : ∀ j, Act { s.set i .run with o := 2, started := s.started + 1 } j → j = i := by
                intro j hj
                by_contra e
                simp only [Act, St.set, Function.update_of_ne e] at hj
                exact hno j hj
              rw [key a ha, key b hb]
            · intro j hj
              exfalso
              by_cases e : j = i
              · subst e; simp [St.set] at hj
              · simp only [St.set, Function.update_of_ne e] at hj
                exact hno j (.inr hj)
            · intro hx; cases hx
            · intro hx; cases hx
            · intro j hj
              exfalso
              by_cases e : j = i
              · subst e; simp [St.set] at hj
              · simp only [St.set, Function.update_of_ne e] at hj
                have := h.look j hj; omega
            · intro j hj
              exfalso
              by_cases e : j = i
              · subst e; simp [St.set] at hj
              · simp only [St.set, Function.update_of_ne e] at hj
                have := h.back j hj; omega
          · exact set_inv h ⟨by simp, by simp⟩ (by simp)
        · exact set_inv h ⟨by simp, by simp⟩ (by simp)
    | again =>
      dsimp only
      refine set_inv h ⟨by simp, by simp⟩ ?_
      rintro (hx | hx)
      · cases hx
      · injection hx
    | fin =>
      dsimp only
      have hi : Act s i := .inr hp
      have hothers : ∀ j, j ≠ i → ¬ Act s j := fun j hj ha => hj (h.uniq j i ha hi)
      have hnone : ∀ j, ¬ Act { s.set i .back with o := 1 } j := by
        intro j hj
        by_cases e : j = i
        · subst e; simp [Act, St.set] at hj
        · simp only [Act, St.set, Function.update_of_ne e] at hj
          exact hothers j e hj
      exact ⟨fun a _ ha => absurd ha (hnone a), fun a ha => absurd ha (hnone a), fun a ha => absurd (.inl ha) (hnone a),
        fun a ha => absurd (.inr ha) (hnone a), fun hx => (by cases hx), fun _ => h.atFin i hp, Nat.le_succ 1, h.once, fun _ _ => rfl,
        fun _ _ => rfl⟩
    | idle => exact h
    | run => exact h
    | back => exact h
    | gone => exact h
  | finish i =>
    simp only [step]
    split
    · rename_i hp
      have hi : Act s i := .inl hp
      have ho := h.act i hi
      have h0 := h.atRun i hp
      have key : ∀ j, Act { s.set i .fin with ended := s.ended + 1 } j → j = i := by
        intro j hj
        by_contra e
        simp only [Act, St.set, Function.update_of_ne e] at hj
        exact e (h.uniq j i hj hi)
      refine ⟨fun a b ha hb => by rw [key a ha, key b hb], fun _ _ => ho, ?_, ?_, ?_, ?_, h.le, ?_, ?_, ?_⟩
      · intro j hj
        have e := key j (.inl hj)
        subst e; simp [St.set] at hj
      · intro j _
        show s.ended + 1 = 1
        omega
      · intro hx
        exact absurd (show s.o = 0 from hx) (by omega)
      · intro hx
        exact absurd (show s.o = 1 from hx) (by omega)
      · show s.ended + 1 ≤ 1
        omega
      · intro j hj
        by_cases e : j = i
        · subst e; simp [St.set] at hj
        · simp only [St.set, Function.update_of_ne e] at hj
          exact h.look j hj
      · intro j hj
        by_cases e : j = i
        · subst e; simp [St.set] at hj
        · simp only [St.set, Function.update_of_ne e] at hj
          exact h.back j hj
    · exact h
  | cancel i =>
    simp only [step]
    split
    · rename_i hp
      have hi : Act s i := .inl hp
      have ho := h.act i hi
      have hnone : ∀ j, ¬ Act { s.set i .gone with o := 0 } j := by
        intro j hj
        by_cases e : j = i
        · subst e; simp [Act, St.set] at hj
        · simp only [Act, St.set, Function.update_of_ne e] at hj
          exact e (h.uniq j i hj hi)
      refine ⟨fun a _ ha => absurd ha (hnone a), fun a ha => absurd ha (hnone a), fun a ha => absurd (.inl ha) (hnone a),
        fun a ha => absurd (.inr ha) (hnone a), fun _ => h.atRun i hp, fun hx => (by cases hx), Nat.zero_le 2, h.once, ?_, ?_⟩
      · intro j hj
        exfalso
        by_cases e : j = i
        · subst e; simp [St.set] at hj
        · simp only [St.set, Function.update_of_ne e] at hj
          have := h.look j hj; omega
      · intro j hj
        exfalso
        by_cases e : j = i
        · subst e; simp [St.set] at hj
        · simp only [St.set, Function.update_of_ne e] at hj
          have := h.back j hj; omega
    · exact h
  | exit i =>
    simp only [step]
    split
    · exact set_inv h ⟨by simp, by simp⟩ (by simp)
    · exact h
  | late i =>
    simp only [step]
    split
    · exact set_inv h ⟨by simp, by simp⟩ (by simp)
    · exact h

theorem run_inv (evs : List Ev) : Inv (run evs) := by
  have : ∀ (evs : List Ev) (s : St), Inv s → Inv (evs.foldl step s) := by
    intro evs
    induction evs with
    | nil => exact fun _ h => h
    | cons e evs ih => exact fun s h => ih _ (step_inv h e)
  exact this evs _ init_inv

/-! ## C185 -/

/-- **C185.**  The routine comes to its end at most once, at most one thread is in it at any time, and a call returns only after the
routine has come to its end. -/
theorem once_exactly (evs : List Ev) :
    (run evs).ended ≤ 1 ∧ (∀ i j, (run evs).pcs i = .run → (run evs).pcs j = .run → i = j) ∧
    ∀ i, (run evs).pcs i = .back → (run evs).ended = 1 :=
  ⟨(run_inv evs).once, fun i j hi hj => (run_inv evs).uniq i j (.inl hi) (.inl hj),
    fun i hi => (run_inv evs).one ((run_inv evs).back i hi)⟩

/-- Once the routine has come to its end it is not started again. -/
theorem once_no_restart (evs : List Ev) (h : (run evs).ended = 1) (i : Nat) : (run evs).pcs i ≠ .run := by
  intro hp
  have := (run_inv evs).atRun i hp
  omega

/-- The events after which the routine can be called again: the routine does not call `pthread_exit`, and no thread is cancelled
asynchronously after the handler is gone. -/
def Ev.tame : Ev → Bool
  | .exit _ => false
  | .late _ => false
  | _ => true

theorem held {evs : List Ev} (ht : ∀ e ∈ evs, e.tame = true) : (run evs).o = 2 → ∃ i, Act (run evs) i := by
  have : ∀ (evs : List Ev) (s : St), Inv s → (∀ e ∈ evs, e.tame = true) → (s.o = 2 → ∃ i, Act s i) →
      ((evs.foldl step s).o = 2 → ∃ i, Act (evs.foldl step s) i) := by
    intro evs
    induction evs with
    | nil => exact fun _ _ _ h => h
    | cons e evs ih =>
      intro s hs ht h
      refine ih _ (step_inv hs e) (fun e' he' => ht e' (List.mem_cons_of_mem _ he')) ?_
      have hte := ht e List.mem_cons_self
      have keep : ∀ (i : Nat) (p : Pc), ¬ Act s i → ((s.set i p).o = 2 → ∃ j, Act (s.set i p) j) := by
        intro i p hni ho
        obtain ⟨j, hj⟩ := h ho
        have e : j ≠ i := fun e => hni (e ▸ hj)
        refine ⟨j, ?_⟩
        simp only [Act, St.set, Function.update_of_ne e]
        exact hj
      cases e with
      | call i =>
        simp only [step]
        split
        · rename_i hp
          refine keep i _ ?_
          rintro (hx | hx) <;> rw [hx] at hp <;> simp at hp
        · exact h
      | go i =>
        simp only [step]
        cases hp : s.pcs i with
        | look v =>
          have hni : ¬ Act s i := by simp [Act, hp]
          dsimp only
          split
          · exact keep i _ hni
          · split
            · split
              · exact fun _ => ⟨i, .inl (by simp [St.set])⟩
              · exact keep i _ hni
            · exact keep i _ hni
        | again => exact keep i _ (by simp [Act, hp])
        | fin => exact fun hx => by cases hx
        | idle => exact h
        | run => exact h
        | back => exact h
        | gone => exact h
      | finish i =>
        simp only [step]
        split
        · exact fun _ => ⟨i, .inr (by simp [St.set])⟩
        · exact h
      | cancel i =>
        simp only [step]
        split
        · exact fun hx => by cases hx
        · exact h
      | exit i => cases hte
      | late i => cases hte
  exact this evs _ init_inv ht (by simp [init])

/-- **C185, part.**  If no routine calls `pthread_exit` and no thread is cancelled asynchronously in the wrong place, then while no
thread is in the routine the word says whether it has been done, so every caller, at its first step, either returns or starts
the routine.  Without these conditions the claim is false: `once_exit_hangs`. -/
theorem once_retries_partial {evs : List Ev} (ht : ∀ e ∈ evs, e.tame = true) (hn : ∀ i, ¬ Act (run evs) i) {i : Nat}
    (hi : (run evs).pcs i = .idle ∨ (run evs).pcs i = .back) :
    if (run evs).ended = 1 then (run (evs ++ [.call i, .go i])).pcs i = .back
    else (run (evs ++ [.call i, .go i])).pcs i = .run := by
  have h := run_inv evs
  have e1 : run (evs ++ [.call i, .go i]) = step (step (run evs) (.call i)) (.go i) := by
    show (evs ++ [Ev.call i, Ev.go i]).foldl step init = _
    rw [List.foldl_append]; rfl
  have e2 : step (run evs) (.call i) = (run evs).set i (.look (run evs).o) := by
    simp only [step]; rw [if_pos hi]
  rw [e1, e2]
  have ho : (run evs).o ≠ 2 := fun ho => by
    obtain ⟨j, hj⟩ := held ht ho
    exact hn j hj
  have hle := h.le
  have hp : ((run evs).set i (.look (run evs).o)).pcs i = .look (run evs).o := by simp [St.set]
  simp only [step]
  rw [hp]
  dsimp only
  rcases (show (run evs).o = 0 ∨ (run evs).o = 1 by omega) with h0 | h1
  · rw [if_neg (by have := h.zero h0; omega), if_neg (by omega), if_pos h0, if_pos (show ((run evs).set i _).o = 0 from h0)]
    simp [St.set]
  · rw [if_pos (h.one h1), if_pos h1]
    simp [St.set]

/-- A state in which nobody can ever get through. -/
structure Stuck (s : St) : Prop where
  o : s.o = 2
  act : ∀ i, ¬ Act s i
  back : ∀ i, s.pcs i ≠ .back
  look : ∀ i, s.pcs i ≠ .look 1

theorem stuck_set {s : St} (h : Stuck s) {i : Nat} {p : Pc} (h1 : p ≠ .run) (h2 : p ≠ .fin) (h3 : p ≠ .back) (h4 : p ≠ .look 1) :
    Stuck (s.set i p) := by
  refine ⟨h.o, ?_, ?_, ?_⟩ <;> intro j
  · by_cases e : j = i
    · subst e; simp [Act, St.set, h1, h2]
    · simp only [Act, St.set, Function.update_of_ne e]; exact h.act j
  · by_cases e : j = i
    · subst e; simp [St.set, h3]
    · simp only [St.set, Function.update_of_ne e]; exact h.back j
  · by_cases e : j = i
    · subst e; simp [St.set, h4]
    · simp only [St.set, Function.update_of_ne e]; exact h.look j

theorem stuck_step {s : St} (h : Stuck s) (e : Ev) : Stuck (step s e) ∧ (step s e).started = s.started := by
  have nr : ∀ i, s.pcs i ≠ .run := fun i hp => h.act i (.inl hp)
  have nf : ∀ i, s.pcs i ≠ .fin := fun i hp => h.act i (.inr hp)
  cases e with
  | call i =>
    simp only [step]
    split
    · exact ⟨stuck_set h (by simp) (by simp) (by simp) (by simp [h.o]), rfl⟩
    · exact ⟨h, rfl⟩
  | go i =>
    simp only [step]
    cases hp : s.pcs i with
    | look v =>
      dsimp only
      split
      · rename_i hv
        exact absurd (hv ▸ hp) (h.look i)
      · split
        · rw [if_neg (by rw [h.o]; decide)]
          exact ⟨stuck_set h (by simp) (by simp) (by simp) (by simp), rfl⟩
        · exact ⟨stuck_set h (by simp) (by simp) (by simp) (by simp), rfl⟩
    | again => exact ⟨stuck_set h (by simp) (by simp) (by simp) (by simp [h.o]), rfl⟩
    | fin => exact absurd hp (nf i)
    | idle => exact ⟨h, rfl⟩
    | run => exact ⟨h, rfl⟩
    | back => exact ⟨h, rfl⟩
    | gone => exact ⟨h, rfl⟩
  | finish i => simp only [step]; rw [if_neg (nr i)]; exact ⟨h, rfl⟩
  | cancel i => simp only [step]; rw [if_neg (nr i)]; exact ⟨h, rfl⟩
  | exit i => simp only [step]; rw [if_neg (nr i)]; exact ⟨h, rfl⟩
  | late i => simp only [step]; rw [if_neg (nf i)]; exact ⟨h, rfl⟩

/-- **C185, the claim fails.**  If the routine ends its thread with `pthread_exit`, no call ever returns and the routine is never
started again, whatever happens afterwards. -/
theorem once_exit_hangs (evs later : List Ev) {i : Nat} (hi : (run evs).pcs i = .run) :
    (∀ j, (run (evs ++ .exit i :: later)).pcs j ≠ .back) ∧
    (run (evs ++ .exit i :: later)).started = (run evs).started := by
  have h := run_inv evs
  have ho := h.act i (.inl hi)
  have hs : Stuck (step (run evs) (.exit i)) := by
    have e : step (run evs) (.exit i) = (run evs).set i .gone := by simp only [step]; rw [if_pos hi]
    rw [e]
    refine ⟨ho, ?_, ?_, ?_⟩ <;> intro j
    · intro hj
      by_cases ej : j = i
      · subst ej; simp [Act, St.set] at hj
      · simp only [Act, St.set, Function.update_of_ne ej] at hj
        exact ej (h.uniq j i hj (.inl hi))
    · intro hj
      by_cases ej : j = i
      · subst ej; simp [St.set] at hj
      · simp only [St.set, Function.update_of_ne ej] at hj
        have := h.back j hj; omega
    · intro hj
      by_cases ej : j = i
      · subst ej; simp [St.set] at hj
      · simp only [St.set, Function.update_of_ne ej] at hj
        have := h.look j hj; omega
  have e1 : run (evs ++ .exit i :: later) = later.foldl step (step (run evs) (.exit i)) := by
    show (evs ++ Ev.exit i :: later).foldl step init = _
    rw [List.foldl_append]; rfl
  have e2 : (step (run evs) (.exit i)).started = (run evs).started := by simp only [step]; rw [if_pos hi]; rfl
  rw [e1, ← e2]
  generalize step (run evs) (.exit i) = s at hs
  clear e1 e2
  induction later generalizing s with
  | nil => exact ⟨hs.back, rfl⟩
  | cons e later ih =>
    obtain ⟨h1, h2⟩ := stuck_step hs e
    obtain ⟨h3, h4⟩ := ih _ h1
    exact ⟨h3, h4.trans h2⟩

/-! ## Examples -/

/-- Three threads; the first to run the routine is cancelled in it, the second completes it. -/
def demo : List Ev := [.call 0, .call 1, .go 1, .go 0, .call 2, .go 2, .cancel 1, .go 0, .go 0, .finish 0, .go 0, .go 2, .go 2, .go 2]

example : (run demo).pcs 0 = .back ∧ (run demo).pcs 2 = .back ∧ (run demo).ended = 1 ∧ (run demo).started = 2 := by decide
example : (∀ e ∈ demo, e.tame = true) ∧ (run demo).pcs 5 = .idle := by decide
example : (run [.call 0, .call 1, .go 1]).pcs 1 = .run := by decide

end Verif.Pth.Once
