import Verif.Io.Pseudo
import Mathlib.Logic.Function.Basic

/-!
# Pseudo descriptors made by several threads (`src/os_unix.c` 125-168, 347-360, 378-457), C225

`events_new_fd` puts `fcntl(F_SETLKW)` and `fcntl(F_SETLK)` around the choice and the marking of an entry.  Such locks belong to
the process: a request waits only for locks of *other* processes.  Every thread is a machine of its own here and the schedule is
arbitrary; the table is that of `Verif.Io.Pseudo`.
-/

namespace Verif.Io.PseudoRace
open Verif.Io.Pseudo (pick)

/-- Where a thread stands in `events_new_fd(type, fd, desired)`, src/os_unix.c:392-457. -/
inductive Pc where
  | out
  /-- Before `acquire_lock(fd)`, line 395. -/
  | enter (fd desired : Int)
  /-- Before the choice, lines 399-416. -/
  | look (fd desired : Int)
  /-- `index` is set, line 418. -/
  | chosen (fd desired : Int) (i : Option Nat)
  /-- Before `release_lock(fd)`, line 451. -/
  | leave (fd : Int) (i : Option Nat)
  /-- It has returned `i`, which the thread has not closed. -/
  | has (i : Nat)
  /-- It has returned -1. -/
  | none

/-- `lock f`: the process that has the record lock of the file behind descriptor `f` (the process itself is 0). -/
structure St where
  tab : Pseudo.St
  path : Nat → Option String
  lock : Int → Option Nat
  pc : Nat → Pc

inductive Ev where
  /-- Thread `t` calls `events_new_fd`. -/
  | call (t : Nat) (fd desired : Int)
  /-- Thread `t` makes its next step. -/
  | run (t : Nat)
  /-- Thread `t` gives the entry it holds a path, as `os_mkfifo` does, src/os_unix.c:163-164. -/
  | name (t : Nat) (p : String)
  /-- Thread `t` closes the entry it holds, src/os_unix.c:347-360. -/
  | close (t : Nat)
  /-- Another process takes or drops its lock. -/
  | other (q : Nat) (f : Int) (take : Bool)

/-- `fcntl(F_SETLKW)` waits if another process holds the lock. -/
def waits (s : St) (f : Int) : Bool :=
  match s.lock f with
  | some q => q != 0
  | Option.none => false

/-- What the call leaves the thread with. -/
def result : Option Nat → Pc
  | some i => .has i
  | Option.none => .none

/-- The next step of thread `t`.  What `acquire_lock` returns is not looked at (line 395), so a lock that is refused, not
waited for, makes no difference.  The table does not grow: the event descriptors and `hIoCompPort`
these calls are made for belong to no loop when the call is made.  The choice is one step: entries are only read in it. -/
def stepT (s : St) (t : Nat) : St :=
  match s.pc t with
  | .enter fd d =>
    if waits s fd then s
    else { s with lock := Function.update s.lock fd (some 0), pc := Function.update s.pc t (.look fd d) }
  | .look fd d => { s with pc := Function.update s.pc t (.chosen fd d (pick s.tab fd d)) }
  | .chosen fd _ Option.none => { s with pc := Function.update s.pc t (.leave fd Option.none) }
  | .chosen fd d (some i) =>
    { s with
      tab := { s.tab with used := Function.update s.tab.used i true, fd := Function.update s.tab.fd i d }
      path := Function.update s.path i Option.none
      pc := Function.update s.pc t (.leave fd (some i)) }
  | .leave fd i =>
    { s with
      lock := if s.lock fd = some 0 then Function.update s.lock fd Option.none else s.lock
      pc := Function.update s.pc t (result i) }
  | _ => s

def step (s : St) : Ev → St
  | .call t fd d =>
    match s.pc t with
    | .out => { s with pc := Function.update s.pc t (.enter fd d) }
    | .none => { s with pc := Function.update s.pc t (.enter fd d) }
    | _ => s
  | .run t => stepT s t
  | .name t p =>
    match s.pc t with
    | .has i => { s with path := Function.update s.path i (some p) }
    | _ => s
  | .close t =>
    match s.pc t with
    | .has i =>
      { s with
        tab := { s.tab with used := Function.update s.tab.used i false, fd := Function.update s.tab.fd i (-1) }
        pc := Function.update s.pc t .out }
    | _ => s
  | .other q f take =>
    if q = 0 then s
    else if take then
      (if s.lock f = Option.none then { s with lock := Function.update s.lock f (some q) } else s)
    else if s.lock f = some q then { s with lock := Function.update s.lock f Option.none } else s

def exec (s : St) (es : List Ev) : St := es.foldl step s

/-- After `os_init`. -/
def init : St := { tab := Pseudo.init, path := fun _ => Option.none, lock := fun _ => Option.none, pc := fun _ => .out }

/-- `events_pseudo_fd`, src/os_unix.c:378-390, for the whole path. -/
def lookup (s : St) (p : String) : Option Nat :=
  (List.range s.tab.size).find? fun i => s.tab.used i && (s.path i == some p)

/-! ## Specification -/

/-- No two threads hold the same entry. -/
def Distinct (s : St) : Prop := ∀ t u i, t ≠ u → s.pc t = .has i → s.pc u ≠ .has i

/-- A thread is between choosing an entry and marking it. -/
def Between (s : St) (t : Nat) : Prop := ∃ fd d i, s.pc t = .chosen fd d i

/-- At no time two threads are between choosing and marking. -/
def NoOverlap (s : St) : List Ev → Prop
  | [] => True
  | e :: es => (∀ t u, Between (step s e) t → Between (step s e) u → t = u) ∧ NoOverlap (step s e) es

/-- The number a call is made for: the descriptor wanted or, if none is, the one the entry stands for. -/
def own (fd d : Int) : Int := if 0 ≤ d then d else fd

/-- The number a thread has in use: of its call, or of the entry it got. -/
def number : Pc → Option Int
  | .enter fd d => some (own fd d)
  | .look fd d => some (own fd d)
  | .chosen fd d _ => some (own fd d)
  | .leave _ (some i) => some i
  | .has i => some i
  | _ => Option.none

/-- Every call is made for a descriptor within the table that no other thread has in use, and is not 0. -/
def OwnNumbers (s : St) : List Ev → Prop
  | [] => True
  | e :: es =>
    (match e with
      | .call t fd d => 0 < own fd d ∧ own fd d < 256 ∧ ∀ u, u ≠ t → number (s.pc u) ≠ some (own fd d)
      | _ => True) ∧ OwnNumbers (step s e) es

/-! ## Proofs -/

theorem fd_lock_is_no_barrier (s : St) (t : Nat) (fd d : Int) (h : s.pc t = .enter fd d)
    (hn : ∀ q, s.lock fd = some q → q = 0) : (stepT s t).pc t = .look fd d := by
  have hw : waits s fd = false := by
    unfold waits
    split
    · rename_i q hq
      simp [hn q hq]
    · rfl
  simp [stepT, h, hw]

/-- The schedule in which both threads choose before either marks. -/
def race (t u : Nat) (fd₁ d₁ fd₂ d₂ : Int) : List Ev :=
  [.call t fd₁ d₁, .call u fd₂ d₂, .run t, .run u, .run t, .run u, .run t, .run u, .run t, .run u]

theorem race_end (s : St) (t u : Nat) (htu : t ≠ u) (fd₁ d₁ fd₂ d₂ : Int) (i : Nat)
    (ht : s.pc t = .out) (hu : s.pc u = .out)
    (hl : ∀ f, s.lock f = Option.none)
    (h₁ : pick s.tab fd₁ d₁ = some i) (h₂ : pick s.tab fd₂ d₂ = some i) :
    (exec s (race t u fd₁ d₁ fd₂ d₂)).pc t = .has i ∧ (exec s (race t u fd₁ d₁ fd₂ d₂)).pc u = .has i := by
  have hut : u ≠ t := fun h => htu h.symm
  by_cases hf : fd₁ = fd₂
  · subst hf
    simp [exec, race, step, stepT, ht, hu, hl, waits, h₁, h₂, htu, hut, result, Function.update]
  · have hf' : fd₂ ≠ fd₁ := fun h => hf h.symm
    simp [exec, race, step, stepT, ht, hu, hl, waits, h₁, h₂, htu, hut, result, Function.update, hf, hf']

/-- The entry a thread has marked. -/
def owns : Pc → Option Nat
  | .leave _ (some i) => some i
  | .has i => some i
  | _ => Option.none

structure Inv (s : St) : Prop where
  used : ∀ t i, owns (s.pc t) = some i → s.tab.used i = true
  dist : ∀ t u i, t ≠ u → owns (s.pc t) = some i → owns (s.pc u) ≠ some i
  free : ∀ t fd d i, s.pc t = .chosen fd d (some i) → s.tab.used i = false
  one : ∀ t u, Between s t → Between s u → t = u

theorem init_inv : Inv init :=
  ⟨fun _ _ h => by simp [init, owns] at h, fun _ _ _ _ h => by simp [init, owns] at h,
    fun _ _ _ _ h => by simp [init] at h, fun _ _ h => by obtain ⟨_, _, _, h⟩ := h; simp [init] at h⟩

/-- A step of `t` that leaves the table alone. -/
theorem move_inv {s s' : St} (h : Inv s) (t : Nat) (p : Pc) (htab : s'.tab = s.tab)
    (hpc : s'.pc = Function.update s.pc t p) (ho : ∀ i, owns p = some i → owns (s.pc t) = some i)
    (hc : ∀ fd d i, p = .chosen fd d (some i) → s.tab.used i = false)
    (h1 : ∀ t u, Between s' t → Between s' u → t = u) : Inv s' := by
  refine ⟨fun v i hv => ?_, fun v w i hvw hv hw => ?_, fun v fd d i hv => ?_, h1⟩
  · rw [htab]
    rw [hpc] at hv
    by_cases e : v = t
    · subst e; simp at hv; exact h.used _ i (ho i hv)
    · rw [Function.update_of_ne e] at hv; exact h.used _ i hv
  · rw [hpc] at hv hw
    have g : ∀ v, owns (Function.update s.pc t p v) = some i → owns (s.pc v) = some i := by
      intro v hv
      by_cases e : v = t
      · subst e; simp at hv; exact ho i hv
      · rwa [Function.update_of_ne e] at hv
    exact h.dist v w i hvw (g v hv) (g w hw)
  · rw [htab]
    rw [hpc] at hv
    by_cases e : v = t
    · subst e; simp at hv; exact hc fd d i hv
    · rw [Function.update_of_ne e] at hv; exact h.free _ _ _ _ hv

theorem same_inv {s s' : St} (h : Inv s) (htab : s'.tab = s.tab) (hpc : s'.pc = s.pc) : Inv s' := by
  have hb : ∀ t, Between s' t → Between s t := by
    rintro t ⟨fd, d, i, e⟩; exact ⟨fd, d, i, by rw [← hpc]; exact e⟩
  refine ⟨?_, ?_, ?_, fun t u a b => h.one t u (hb t a) (hb u b)⟩
  · rw [htab, hpc]; exact h.used
  · rw [hpc]; exact h.dist
  · rw [htab, hpc]; exact h.free

theorem step_inv {s : St} (h : Inv s) (e : Ev) (h1 : ∀ t u, Between (step s e) t → Between (step s e) u → t = u) :
    Inv (step s e) := by
  cases e with
  | call t fd d =>
    cases hp : s.pc t <;> simp only [step, hp] at h1 ⊢ <;> first
      | exact h
      | exact move_inv h t (.enter fd d) rfl rfl (by simp [owns]) (by simp) h1
  | name t p =>
    cases hp : s.pc t <;> simp only [step, hp] at h1 ⊢ <;> first
      | exact h
      | exact same_inv h rfl rfl
  | other q f take =>
    simp only [step] at h1 ⊢
    repeat' split
    all_goals first
      | exact h
      | exact same_inv h rfl rfl
  | close t =>
    cases hp : s.pc t with
    | has i =>
      simp only [step, hp] at h1 ⊢
      have ht : owns (s.pc t) = some i := by rw [hp]; rfl
      refine ⟨fun v j hv => ?_, fun v w j hvw hv hw => ?_, fun v fd d j hv => ?_, h1⟩
      · by_cases e : v = t
        · subst e; simp [owns] at hv
        · simp only [Function.update_of_ne e] at hv
          have : j ≠ i := fun hji => h.dist v t i e (hji ▸ hv) ht
          simp only [Function.update_of_ne this]
          exact h.used v j hv
      · by_cases e : v = t
        · subst e; simp [owns] at hv
        · by_cases e' : w = t
          · subst e'; simp [owns] at hw
          · simp only [Function.update_of_ne e, Function.update_of_ne e'] at hv hw
            exact h.dist v w j hvw hv hw
      · by_cases e : v = t
        · subst e; simp at hv
        · simp only [Function.update_of_ne e] at hv
          by_cases hji : j = i
          · subst hji; simp
          · simp only [Function.update_of_ne hji]
            exact h.free v fd d j hv
    | _ => simp only [step, hp] at h1 ⊢; exact h
  | run t =>
    simp only [step] at h1 ⊢
    unfold stepT at h1 ⊢
    cases hp : s.pc t with
    | out => simp only [hp] at h1 ⊢; exact h
    | none => simp only [hp] at h1 ⊢; exact h
    | has i => simp only [hp] at h1 ⊢; exact h
    | enter fd d =>
      simp only [hp] at h1 ⊢
      split
      · exact h
      · rename_i hw
        rw [if_neg hw] at h1
        exact move_inv h t (.look fd d) rfl rfl (by simp [owns]) (by simp) h1
    | look fd d =>
      simp only [hp] at h1 ⊢
      refine move_inv h t (.chosen fd d (pick s.tab fd d)) rfl rfl (by simp [owns]) (fun fd' d' i hi => ?_) h1
      simp only [Pc.chosen.injEq] at hi
      exact (Pseudo.pick_free hi.2.2).1
    | leave fd i =>
      simp only [hp] at h1 ⊢
      refine move_inv h t (result i) rfl rfl ?_ ?_ h1
      · intro j hj
        rw [hp]
        cases i <;> simp_all [owns, result]
      · cases i <;> simp [result]
    | chosen fd d i =>
      cases i with
      | none =>
        simp only [hp] at h1 ⊢
        exact move_inv h t (.leave fd Option.none) rfl rfl (by simp [owns]) (by simp) h1
      | some i =>
        simp only [hp] at h1 ⊢
        have hf := h.free t fd d i hp
        have hno : ∀ v, owns (s.pc v) ≠ some i := fun v hv => by rw [h.used v i hv] at hf; simp at hf
        have hb : Between s t := ⟨fd, d, some i, hp⟩
        refine ⟨fun v j hv => ?_, fun v w j hvw hv hw => ?_, fun v fd' d' j hv => ?_, h1⟩
        · by_cases e : v = t
          · subst e; simp [owns] at hv; subst hv; simp
          · simp only [Function.update_of_ne e] at hv
            have : j ≠ i := fun hji => hno v (hji ▸ hv)
            simp only [Function.update_of_ne this]
            exact h.used v j hv
        · by_cases e : v = t
          · subst e
            simp [owns] at hv
            subst hv
            simp only [Function.update_of_ne (fun h => hvw h.symm : w ≠ v)] at hw
            exact hno w hw
          · by_cases e' : w = t
            · subst e'
              simp [owns] at hw
              subst hw
              simp only [Function.update_of_ne e] at hv
              exact hno v hv
            · simp only [Function.update_of_ne e, Function.update_of_ne e'] at hv hw
              exact h.dist v w j hvw hv hw
        · by_cases e : v = t
          · subst e; simp at hv
          · simp only [Function.update_of_ne e] at hv
            exact absurd (h.one v t ⟨fd', d', some j, hv⟩ hb) e

theorem exec_inv : ∀ (es : List Ev) (s : St), Inv s → NoOverlap s es → Inv (exec s es)
  | [], _, h, _ => h
  | e :: es, s, h, hn => exec_inv es (step s e) (step_inv h e hn.1) hn.2

/-- The entry of a thread that has marked it and not returned yet has no path. -/
def Fresh (s : St) : Prop := ∀ t fd i, s.pc t = .leave fd (some i) → s.path i = Option.none

theorem step_fresh {s : St} (h : Inv s) (hf : Fresh s) (e : Ev) : Fresh (step s e) := by
  have keep : ∀ (t : Nat) (p : Pc), (∀ fd i, p ≠ .leave fd (some i)) → ∀ u fd i,
      Function.update s.pc t p u = .leave fd (some i) → s.path i = Option.none := by
    intro t p hp u fd i hu
    by_cases e : u = t
    · subst e; simp at hu; exact absurd hu (hp fd i)
    · rw [Function.update_of_ne e] at hu; exact hf u fd i hu
  intro u fd i hu
  cases e with
  | call t fd' d' =>
    cases hp : s.pc t <;> simp only [step, hp] at hu ⊢ <;> first
      | exact hf u fd i hu
      | exact keep t _ (by simp) u fd i hu
  | name t p =>
    cases hp : s.pc t with
    | has j =>
      simp only [step, hp] at hu ⊢
      have hji : i ≠ j := by
        intro hij
        have e : u ≠ t := fun e => by subst e; rw [hp] at hu; simp at hu
        exact h.dist u t i e (by rw [hu]; rfl) (by rw [hp, hij]; rfl)
      rw [Function.update_of_ne hji]
      exact hf u fd i hu
    | _ => simp only [step, hp] at hu ⊢; exact hf u fd i hu
  | close t =>
    cases hp : s.pc t <;> simp only [step, hp] at hu ⊢ <;> first
      | exact hf u fd i hu
      | exact keep t _ (by simp) u fd i hu
  | other q f take =>
    simp only [step] at hu ⊢
    repeat' split at hu
    all_goals
      repeat' split
      all_goals exact hf u fd i hu
  | run t =>
    simp only [step] at hu ⊢
    unfold stepT at hu ⊢
    cases hp : s.pc t with
    | out => simp only [hp] at hu ⊢; exact hf u fd i hu
    | none => simp only [hp] at hu ⊢; exact hf u fd i hu
    | has j => simp only [hp] at hu ⊢; exact hf u fd i hu
    | enter fd' d' =>
      simp only [hp] at hu ⊢
      split at hu
      · rename_i hw
        rw [if_pos hw]
        exact hf u fd i hu
      · rename_i hw
        rw [if_neg hw]
        exact keep t _ (by simp) u fd i hu
    | look fd' d' => simp only [hp] at hu ⊢; exact keep t _ (by simp) u fd i hu
    | leave fd' j =>
      simp only [hp] at hu ⊢
      exact keep t _ (by cases j <;> simp [result]) u fd i hu
    | chosen fd' d' j =>
      cases j with
      | none => simp only [hp] at hu ⊢; exact keep t _ (by simp) u fd i hu
      | some j =>
        simp only [hp] at hu ⊢
        by_cases hij : i = j
        · subst hij; simp
        · rw [Function.update_of_ne hij]
          by_cases e : u = t
          · subst e; simp at hu; exact absurd hu.2.symm hij
          · rw [Function.update_of_ne e] at hu; exact hf u fd i hu

theorem exec_fresh : ∀ (es : List Ev) (s : St), Inv s → Fresh s → NoOverlap s es → Fresh (exec s es)
  | [], _, _, hf, _ => hf
  | e :: es, s, h, hf, hn => exec_fresh es (step s e) (step_inv h e hn.1) (step_fresh h hf e) hn.2

/-! ### Calls for numbers of their own -/

structure OInv (s : St) : Prop where
  size : s.tab.size = 256
  dist : ∀ t u n, t ≠ u → number (s.pc t) = some n → number (s.pc u) ≠ some n
  rng : ∀ t n, number (s.pc t) = some n → 0 < n ∧ n < 256
  mark : ∀ i, s.tab.used i = true → ∃ t, owns (s.pc t) = some i
  pick : ∀ t fd d i, s.pc t = .chosen fd d i → i = some (own fd d).toNat

theorem owns_number {p : Pc} {i : Nat} (h : owns p = some i) : number p = some (i : Int) := by
  cases p with
  | leave fd j => cases j <;> simp_all [owns, number]
  | has j => simp_all [owns, number]
  | _ => simp [owns] at h

theorem init_oinv : OInv init :=
  ⟨rfl, fun _ _ _ _ h => by simp [init, number] at h, fun _ _ h => by simp [init, number] at h,
    fun _ h => by simp [init, Pseudo.init] at h, fun _ _ _ _ h => by simp [init] at h⟩

theorem pick_own {s : Pseudo.St} {fd d : Int} (hs : s.size = 256) (h0 : 0 < own fd d) (h1 : own fd d < 256)
    (hu : s.used (own fd d).toNat = false) : pick s fd d = some (own fd d).toNat := by
  unfold pick
  unfold own at *
  split at h0
  · rename_i hd
    simp only [hd, if_true] at h1 hu ⊢
    rw [if_pos ⟨trivial, by omega, hu⟩]
  · rename_i hd
    simp only [hd, if_false] at h1 hu ⊢
    rw [if_neg (by simp), if_pos h0, if_pos ⟨by omega, hu⟩]

/-- A step of `t` that leaves the marks alone and keeps the number. -/
theorem move_oinv {s s' : St} (h : OInv s) (t : Nat) (p : Pc) (htab : s'.tab = s.tab)
    (hpc : s'.pc = Function.update s.pc t p) (hn : number p = number (s.pc t))
    (ho : owns (s.pc t) = owns p) (hc : ∀ fd d i, p = .chosen fd d i → i = some (own fd d).toNat) : OInv s' := by
  have g : ∀ v, number (s'.pc v) = number (s.pc v) := by
    intro v
    rw [hpc]
    by_cases e : v = t
    · subst e; simp [hn]
    · rw [Function.update_of_ne e]
  have g' : ∀ v, owns (s'.pc v) = owns (s.pc v) := by
    intro v
    rw [hpc]
    by_cases e : v = t
    · subst e; simp [ho]
    · rw [Function.update_of_ne e]
  refine ⟨by rw [htab]; exact h.size, fun v w n e a b => h.dist v w n e (g v ▸ a) (g w ▸ b),
    fun v n a => h.rng v n (g v ▸ a), fun i hi => ?_, fun v fd d i hv => ?_⟩
  · rw [htab] at hi
    obtain ⟨v, hv⟩ := h.mark i hi
    exact ⟨v, by rw [g']; exact hv⟩
  · rw [hpc] at hv
    by_cases e : v = t
    · subst e; simp at hv; exact hc fd d i hv
    · rw [Function.update_of_ne e] at hv; exact h.pick _ _ _ _ hv

theorem same_oinv {s s' : St} (h : OInv s) (htab : s'.tab = s.tab) (hpc : s'.pc = s.pc) : OInv s' :=
  ⟨by rw [htab]; exact h.size, by rw [hpc]; exact h.dist, by rw [hpc]; exact h.rng, by rw [htab, hpc]; exact h.mark,
    by rw [hpc]; exact h.pick⟩

theorem step_oinv {s : St} (h : OInv s) (e : Ev)
    (hown : match e with
      | .call t fd d => 0 < own fd d ∧ own fd d < 256 ∧ ∀ u, u ≠ t → number (s.pc u) ≠ some (own fd d)
      | _ => True) : OInv (step s e) := by
  cases e with
  | call t fd d =>
    simp only at hown
    have key : owns (s.pc t) = Option.none → OInv { s with pc := Function.update s.pc t (.enter fd d) } := by
      intro ht
      refine ⟨h.size, fun v w n hvw hv hw => ?_, fun v n hv => ?_, fun i hi => ?_, fun v fd' d' i hv => ?_⟩
      · by_cases e : v = t
        · subst e
          simp [number] at hv
          simp only [Function.update_of_ne (fun h => hvw h.symm : w ≠ v)] at hw
          exact hown.2.2 w (fun h => hvw h.symm) (hv ▸ hw)
        · by_cases e' : w = t
          · subst e'
            simp [number] at hw
            simp only [Function.update_of_ne e] at hv
            exact hown.2.2 v e (hw ▸ hv)
          · simp only [Function.update_of_ne e, Function.update_of_ne e'] at hv hw
            exact h.dist v w n hvw hv hw
      · by_cases e : v = t
        · subst e
          simp [number] at hv
          exact hv ▸ ⟨hown.1, hown.2.1⟩
        · simp only [Function.update_of_ne e] at hv
          exact h.rng v n hv
      · obtain ⟨v, hv⟩ := h.mark i hi
        refine ⟨v, ?_⟩
        have e : v ≠ t := fun e => by subst e; rw [ht] at hv; simp at hv
        simp only [Function.update_of_ne e]
        exact hv
      · by_cases e : v = t
        · subst e; simp at hv
        · simp only [Function.update_of_ne e] at hv
          exact h.pick _ _ _ _ hv
    cases hp : s.pc t <;> simp only [step, hp] <;> first
      | exact h
      | exact key (by rw [hp]; rfl)
  | name t p =>
    cases hp : s.pc t <;> simp only [step, hp] <;> first
      | exact h
      | exact same_oinv h rfl rfl
  | other q f take =>
    simp only [step]
    repeat' split
    all_goals first
      | exact h
      | exact same_oinv h rfl rfl
  | close t =>
    cases hp : s.pc t with
    | has i =>
      simp only [step, hp]
      refine ⟨h.size, fun v w n hvw hv hw => ?_, fun v n hv => ?_, fun j hj => ?_, fun v fd' d' j hv => ?_⟩
      · by_cases e : v = t
        · subst e; simp [number] at hv
        · by_cases e' : w = t
          · subst e'; simp [number] at hw
          · simp only [Function.update_of_ne e, Function.update_of_ne e'] at hv hw
            exact h.dist v w n hvw hv hw
      · by_cases e : v = t
        · subst e; simp [number] at hv
        · simp only [Function.update_of_ne e] at hv
          exact h.rng v n hv
      · by_cases hji : j = i
        · subst hji; simp at hj
        · simp only [Function.update_of_ne hji] at hj
          obtain ⟨v, hv⟩ := h.mark j hj
          have e : v ≠ t := fun e => by subst e; rw [hp] at hv; simp [owns] at hv; exact hji hv.symm
          exact ⟨v, by simp only [Function.update_of_ne e]; exact hv⟩
      · by_cases e : v = t
        · subst e; simp at hv
        · simp only [Function.update_of_ne e] at hv
          exact h.pick _ _ _ _ hv
    | _ => simp only [step, hp]; exact h
  | run t =>
    simp only [step]
    unfold stepT
    cases hp : s.pc t with
    | out => simp only; exact h
    | none => simp only; exact h
    | has i => simp only; exact h
    | enter fd d =>
      simp only
      split
      · exact h
      · exact move_oinv h t (.look fd d) rfl rfl (by rw [hp]; rfl) (by rw [hp]; rfl) (by simp)
    | look fd d =>
      simp only
      refine move_oinv h t (.chosen fd d (pick s.tab fd d)) rfl rfl (by rw [hp]; rfl) (by rw [hp]; rfl) ?_
      intro fd' d' i hi
      simp only [Pc.chosen.injEq] at hi
      obtain ⟨rfl, rfl, rfl⟩ := hi
      have hn : number (s.pc t) = some (own fd d) := by rw [hp]; rfl
      have hr := h.rng t _ hn
      refine pick_own h.size hr.1 hr.2 ?_
      cases hu : s.tab.used (own fd d).toNat
      · rfl
      · obtain ⟨v, hv⟩ := h.mark _ hu
        have hv' := owns_number hv
        rw [Int.toNat_of_nonneg (by omega)] at hv'
        by_cases e : v = t
        · subst e; rw [hp] at hv; simp [owns] at hv
        · exact absurd hn (h.dist v t _ e hv')
    | leave fd i =>
      simp only
      refine move_oinv h t (result i) rfl rfl ?_ ?_ ?_
      · rw [hp]; cases i <;> rfl
      · rw [hp]; cases i <;> rfl
      · cases i <;> simp [result]
    | chosen fd d i =>
      have hi := h.pick t fd d i hp
      subst hi
      simp only
      have hn : number (s.pc t) = some (own fd d) := by rw [hp]; rfl
      have hr := h.rng t _ hn
      have hc : ((own fd d).toNat : Int) = own fd d := Int.toNat_of_nonneg (by omega)
      refine ⟨h.size, fun v w n hvw hv hw => ?_, fun v n hv => ?_, fun j hj => ?_, fun v fd' d' j hv => ?_⟩
      · have g : ∀ v, number (Function.update s.pc t (Pc.leave fd (some (own fd d).toNat)) v) = some n →
            number (s.pc v) = some n := by
          intro v hv
          by_cases e : v = t
          · subst e
            simp [number, hc] at hv
            rw [hn, ← hv]
          · rwa [Function.update_of_ne e] at hv
        exact h.dist v w n hvw (g v hv) (g w hw)
      · by_cases e : v = t
        · subst e
          simp [number] at hv
          omega
        · simp only [Function.update_of_ne e] at hv
          exact h.rng v n hv
      · by_cases hji : j = (own fd d).toNat
        · exact ⟨t, by simp [owns, hji]⟩
        · simp only [Function.update_of_ne hji] at hj
          obtain ⟨v, hv⟩ := h.mark j hj
          have e : v ≠ t := fun e => by subst e; rw [hp] at hv; simp [owns] at hv
          exact ⟨v, by simp only [Function.update_of_ne e]; exact hv⟩
      · by_cases e : v = t
        · subst e; simp at hv
        · simp only [Function.update_of_ne e] at hv
          exact h.pick _ _ _ _ hv

theorem exec_oinv : ∀ (es : List Ev) (s : St), OInv s → OwnNumbers s es → OInv (exec s es)
  | [], _, h, _ => h
  | e :: es, s, h, hn => exec_oinv es (step s e) (step_oinv h e hn.1) hn.2

/-! ## C225 -/

/-- **C225** (full statement: whatever the schedule, no two threads hold the same entry; false).  For every state and every two
threads whose calls would get entry `i` when made alone there is a schedule in which both get `i`: the lock stops neither. -/
theorem threads_get_same_entry (s : St) (t u : Nat) (htu : t ≠ u) (fd₁ d₁ fd₂ d₂ : Int) (i : Nat)
    (ht : s.pc t = .out) (hu : s.pc u = .out) (hl : ∀ f, s.lock f = Option.none)
    (h₁ : pick s.tab fd₁ d₁ = some i) (h₂ : pick s.tab fd₂ d₂ = some i) :
    ∃ es, ¬ Distinct (exec s es) := by
  obtain ⟨a, b⟩ := race_end s t u htu fd₁ d₁ fd₂ d₂ i ht hu hl h₁ h₂
  exact ⟨_, fun h => h t u i htu a b⟩

example : ∃ es, ¬ Distinct (exec init es) :=
  threads_get_same_entry init 0 1 (by decide) 5 (-1) 5 (-1) 5 rfl rfl (fun _ => rfl) (by decide) (by decide)

/-- **C225.** Two threads make FIFOs at the same time (`os_mkfifo` calls for `hIoCompPort`): the name of the first one is not
found afterwards. -/
theorem fifo_name_lost (s : St) (t u : Nat) (htu : t ≠ u) (port : Int) (i : Nat) (p q : String) (hpq : p ≠ q)
    (ht : s.pc t = .out) (hu : s.pc u = .out) (hl : ∀ f, s.lock f = Option.none)
    (h : pick s.tab port (-1) = some i) (hp : ∀ j, s.path j ≠ some p) :
    lookup (exec s (race t u port (-1) port (-1) ++ [.name t p, .name u q])) p = Option.none := by
  have hut : u ≠ t := fun h => htu h.symm
  have e : (exec s (race t u port (-1) port (-1) ++ [.name t p, .name u q])).path =
      Function.update (Function.update (Function.update (Function.update s.path i Option.none) i Option.none) i (some p)) i
        (some q) := by
    simp [exec, race, step, stepT, ht, hu, hl, waits, h, htu, hut, result]
  rw [lookup, List.find?_eq_none]
  intro j _
  rw [e]
  by_cases hj : j = i
  · subst hj
    simp [Ne.symm hpq]
  · simp [Function.update_of_ne hj, hp j]

/-- Made one after the other both are found. -/
example : let s := exec init [.call 0 5 (-1), .run 0, .run 0, .run 0, .run 0, .name 0 "/tmp/a",
      .call 1 5 (-1), .run 1, .run 1, .run 1, .run 1, .name 1 "/tmp/b"]
    lookup s "/tmp/a" = some 5 ∧ lookup s "/tmp/b" = some 1 := by
  decide +kernel

example : lookup (exec init (race 0 1 5 (-1) 5 (-1) ++ [.name 0 "/tmp/a", .name 1 "/tmp/b"])) "/tmp/a" = Option.none :=
  fifo_name_lost init 0 1 (by decide) 5 5 "/tmp/a" "/tmp/b" (by decide) rfl rfl (fun _ => rfl) (by decide)
    (fun _ => by simp [init])

/-- **C225.** A thread waits at the lock only for another process, never for a thread of its own. -/
theorem lock_waits_for_no_thread (s : St) (t : Nat) (fd d : Int) (h : s.pc t = .enter fd d)
    (hn : ∀ q, s.lock fd = some q → q = 0) : (step s (.run t)).pc t = .look fd d :=
  fd_lock_is_no_barrier s t fd d h hn

/-- Thread 0 has the lock and chooses; thread 1 goes past the lock. -/
example : (exec init [.call 0 5 (-1), .run 0, .call 1 5 (-1)]).lock 5 = some 0 ∧
    (exec init [.call 0 5 (-1), .run 0, .call 1 5 (-1), .run 1]).pc 1 = .look 5 (-1) := by
  constructor <;> simp [exec, init, step, stepT, waits, Function.update]

/-- **C225**, the part that holds: threads hold different entries as long as no two of them are between choosing and marking
at the same time. -/
theorem entries_distinct_partial (es : List Ev) (h : NoOverlap init es) : Distinct (exec init es) := by
  intro t u i htu a b
  exact (exec_inv es init init_inv h).dist t u i htu (by rw [a]; rfl) (by rw [b]; rfl)

/-- **C225**, the part that holds: whatever the schedule, threads hold different entries if every call is made for a descriptor
within the table that no other thread has in use. -/
theorem own_numbers_distinct_partial (es : List Ev) (h : OwnNumbers init es) : Distinct (exec init es) := by
  intro t u i htu a b
  exact (exec_oinv es init init_oinv h).dist t u i htu (by rw [a]; rfl) (by rw [b]; rfl)

/-- **C225.** And the entry a thread gets is then the one it was made for. -/
theorem own_numbers_kept (es : List Ev) (h : OwnNumbers init es) (t : Nat) (fd d : Int) (i : Option Nat)
    (hc : (exec init es).pc t = .chosen fd d i) : i = some (own fd d).toNat :=
  (exec_oinv es init init_oinv h).pick t fd d i hc

/-- **C225**, the part that holds: as long as no two threads are between choosing and marking at the same time, a new entry does
not answer to the name of the FIFO that had the entry before. -/
theorem old_name_gone_partial (es : List Ev) (h : NoOverlap init es) (t : Nat) (fd : Int) (i : Nat) (p : String)
    (hl : (exec init es).pc t = .leave fd (some i)) : lookup (exec init es) p ≠ some i := by
  intro hk
  have hn := exec_fresh es init init_inv (fun _ _ _ h => by simp [init] at h) h t fd i hl
  have := List.find?_some hk
  rw [hn] at this
  simp at this

/-- Thread 0 made a FIFO in entry 5 and closed it; thread 1 gets entry 5. -/
example : (exec init [.call 0 5 (-1), .run 0, .run 0, .run 0, .run 0, .name 0 "/tmp/a", .close 0,
      .call 1 5 (-1), .run 1, .run 1, .run 1]).pc 1 = .leave 5 (some 5) := by
  simp [exec, init, step, stepT, waits, result, Function.update, pick, Pseudo.init]

/-- Two calls, interleaved, for descriptors 5 and 6. -/
example : OwnNumbers init (race 0 1 5 (-1) 6 6) ∧ (exec init (race 0 1 5 (-1) 6 6)).pc 1 = .has 6 := by
  constructor
  · simp [OwnNumbers, race, own, init, number, step]
    intro u hu
    by_cases h0 : u = 0 <;> simp [Function.update, h0, number, own]
  · simp [exec, race, init, step, stepT, waits, result, Function.update, pick, Pseudo.init]

/-- Two calls one after the other. -/
example : NoOverlap init [.call 0 5 (-1), .run 0, .run 0, .run 0, .run 0, .call 1 6 6, .run 1, .run 1] := by
  have p1 : pick Pseudo.init 5 (-1) = some 5 := by decide
  simp only [NoOverlap]
  refine ⟨?_, ?_, ?_, ?_, ?_, ?_, ?_, ?_, trivial⟩ <;>
    · rintro t u ⟨_, _, _, a⟩ ⟨_, _, _, b⟩
      by_cases t0 : t = 0 <;> by_cases t1 : t = 1 <;> by_cases u0 : u = 0 <;> by_cases u1 : u = 1 <;>
        simp_all [step, init, stepT, waits, result, Function.update]

end Verif.Io.PseudoRace
