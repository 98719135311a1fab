import Mathlib.Logic.Function.Basic
import Mathlib.Data.List.Basic
import Mathlib.Tactic.Linarith

/-!
# The table of pseudo descriptors (`src/os_unix.c` 64-75, 347-360, 392-510), C53

Of an entry only `type != FD_UNUSED` (`used`) and the descriptor `fd` are kept; the other fields are bookkeeping of the
owner.  The calls are made one after the other: the lock around the allocation does not keep threads apart (C225,
`Verif.Io.PseudoRace`).
-/

namespace Verif.Io.Pseudo

/-- `closed`: the arguments of `close` in `os_close`, oldest first. -/
structure St where
  size : Nat
  used : Nat → Bool
  fd : Nat → Int
  closed : List Int

/-- `grow_ioTable`, src/os_unix.c:64-75: the new half is cleared (`FD_UNUSED` is 0).  Memory is not short. -/
def grow (s : St) : St :=
  { s with
    size := s.size * 2
    used := fun i => if s.size ≤ i ∧ i < s.size * 2 then false else s.used i
    fd := fun i => if s.size ≤ i ∧ i < s.size * 2 then 0 else s.fd i }

/-- The loop in src/os_unix.c:396-397; `active` is `active_descriptors` of the loop.  Each round at least doubles a size that is
not zero, so `active` rounds are enough. -/
def growLoop (active : Nat) : Nat → St → St
  | 0, s => s
  | k + 1, s => if s.size ≤ active then growLoop active k (grow s) else s

/-- The choice of the index, src/os_unix.c:399-416. -/
def pick (s : St) (fd desired : Int) : Option Nat :=
  if 0 ≤ desired ∧ desired < s.size ∧ s.used desired.toNat = false then some desired.toNat
  else if 0 < fd then
    if fd < s.size ∧ s.used fd.toNat = false then some fd.toNat
    else (List.range s.size).find? fun i => decide (1 ≤ i) && !s.used i
  else none

/-- `events_new_fd`, src/os_unix.c:392-457, with a `type` other than `FD_UNUSED`.  `active`: `none` if `fd` is not registered
with a loop. -/
def newFd (active : Option Nat) (fd desired : Int) (s : St) : Option Nat × St :=
  let s := match active with
    | some a => growLoop a (a + 1) s
    | none => s
  match pick s fd desired with
  | some i => (some i, { s with used := Function.update s.used i true, fd := Function.update s.fd i desired })
  | none => (none, s)

/-- `events_valid_fd`, src/os_unix.c:459-463. -/
def valid (s : St) (p : Int) : Bool := decide (0 ≤ p) && decide (p < s.size) && s.used p.toNat && decide (s.fd p.toNat ≠ -1)

/-- `events_get_fd`, src/os_unix.c:484-486, for descriptors that are not negative. -/
def getFd (s : St) (p : Int) : Int := if valid s p then s.fd p.toNat else p

/-- `events_assign_fd`, src/os_unix.c:465-482. -/
def assign (p h : Int) (s : St) : St :=
  if 0 ≤ p ∧ p < s.size then { s with fd := Function.update s.fd p.toNat h } else s

/-- `events_free_fd`, src/os_unix.c:488-510: of the entry as modelled nothing changes. -/
def freeFd (_p : Int) (s : St) : St := s

/-- `os_close`, src/os_unix.c:347-360. -/
def osClose (p : Int) (s : St) : St :=
  if p = -1 then s
  else
    let c := valid s p
    let s := if c then freeFd p s else s
    let s := { s with closed := s.closed ++ [getFd s p] }
    if c then { s with used := Function.update s.used p.toNat false, fd := Function.update s.fd p.toNat (-1) } else s

inductive Op where
  | new (active : Option Nat) (fd desired : Int)
  | assign (p h : Int)
  | free (p : Int)
  | close (p : Int)

/-- A call with its result (the index of `new`). -/
def step (s : St) : Op → Option Nat × St
  | .new a fd d => newFd a fd d s
  | .assign p h => (none, assign p h s)
  | .free p => (none, freeFd p s)
  | .close p => (none, osClose p s)

/-- After `os_init`, src/os_unix.c:76-108. -/
def init : St := { size := 256, used := fun _ => false, fd := fun _ => 0, closed := [] }

def run (os : List Op) : St := os.foldl (fun s o => (step s o).2) init

/-! ## Specification: indices given out and not closed, with the descriptor that belongs to them (-1: none yet) -/

abbrev Spec := Nat → Option Int

/-- `r` is the index that `new` returned. -/
def specStep (m : Spec) (r : Option Nat) : Op → Spec
  | .new _ _ d => match r with | some i => Function.update m i (some d) | none => m
  | .assign p h => if 0 ≤ p ∧ (m p.toNat).isSome then Function.update m p.toNat (some h) else m
  | .free _ => m
  | .close p => if 0 ≤ p ∧ m p.toNat ≠ some (-1) then Function.update m p.toNat none else m

/-- The live indices after a history. -/
def specRun (s : St) (m : Spec) : List Op → Spec
  | [] => m
  | o :: os => specRun (step s o).2 (specStep m (step s o).1 o) os

structure Inv (s : St) (m : Spec) : Prop where
  used : ∀ i, s.used i = (m i).isSome
  fd : ∀ i d, m i = some d → s.fd i = d
  lt : ∀ i, (m i).isSome → i < s.size
  pos : 0 < s.size

theorem grow_inv {s : St} {m : Spec} (h : Inv s m) : Inv (grow s) m := by
  have e : ∀ i, (m i).isSome → ¬ (s.size ≤ i ∧ i < s.size * 2) := fun i hi hc => by have := h.lt i hi; omega
  refine ⟨fun i => ?_, fun i d hd => ?_, fun i hi => ?_, ?_⟩
  · simp only [grow]
    split
    · rename_i hc
      cases hm : (m i).isSome
      · rfl
      · exact absurd hc (e i hm)
    · exact h.used i
  · simp only [grow]
    rw [if_neg (e i (by simp [hd]))]
    exact h.fd i d hd
  · have := h.lt i hi
    simp only [grow]
    omega
  · have := h.pos
    simp only [grow]
    omega

theorem growLoop_inv {m : Spec} (a : Nat) : ∀ (k : Nat) (s : St), Inv s m → Inv (growLoop a k s) m
  | 0, _, h => h
  | k + 1, s, h => by
    simp only [growLoop]
    split
    · exact growLoop_inv a k _ (grow_inv h)
    · exact h

theorem growLoop_done (a : Nat) : ∀ (k : Nat) (s : St), 0 < s.size → a < s.size + k → a < (growLoop a k s).size
  | 0, s, _, h => by simpa [growLoop] using h
  | k + 1, s, hp, h => by
    simp only [growLoop]
    split
    · exact growLoop_done a k _ (by simp only [grow]; omega) (by simp only [grow]; omega)
    · omega

/-- The state `newFd` picks in. -/
def grown (active : Option Nat) (s : St) : St :=
  match active with
  | some a => growLoop a (a + 1) s
  | none => s

theorem grown_inv {s : St} {m : Spec} (h : Inv s m) (active : Option Nat) : Inv (grown active s) m := by
  unfold grown
  split
  · exact growLoop_inv _ _ _ h
  · exact h

theorem pick_free {s : St} {fd d : Int} {i : Nat} (h : pick s fd d = some i) : s.used i = false ∧ i < s.size := by
  unfold pick at h
  split at h
  · rename_i hc
    simp only [Option.some.injEq] at h
    subst h
    exact ⟨hc.2.2, by omega⟩
  · split at h
    · split at h
      · rename_i hc
        simp only [Option.some.injEq] at h
        subst h
        exact ⟨hc.2, by omega⟩
      · have h1 := List.find?_some h
        have h2 := List.mem_of_find?_eq_some h
        simp at h1 h2
        exact ⟨h1.2, h2⟩
    · exact absurd h (by simp)

theorem valid_iff {s : St} {m : Spec} (h : Inv s m) (p : Int) :
    valid s p = true ↔ 0 ≤ p ∧ ∃ d, m p.toNat = some d ∧ d ≠ -1 := by
  unfold valid
  simp only [Bool.and_eq_true, decide_eq_true_eq]
  constructor
  · rintro ⟨⟨⟨h1, h2⟩, h3⟩, h4⟩
    rw [h.used] at h3
    obtain ⟨d, hd⟩ := Option.isSome_iff_exists.1 h3
    rw [h.fd _ d hd] at h4
    exact ⟨h1, d, hd, h4⟩
  · rintro ⟨h1, d, hd, h4⟩
    have hs : (m p.toNat).isSome := by simp [hd]
    have := h.lt _ hs
    exact ⟨⟨⟨h1, by omega⟩, by rw [h.used]; exact hs⟩, by rw [h.fd _ d hd]; exact h4⟩

theorem step_inv {s : St} {m : Spec} (h : Inv s m) (o : Op) : Inv (step s o).2 (specStep m (step s o).1 o) := by
  cases o with
  | new a fd d =>
    have hg := grown_inv h a
    simp only [step, newFd]
    change Inv (match pick (grown a s) fd d with
      | some i => (some i, { grown a s with used := Function.update (grown a s).used i true, fd := Function.update (grown a s).fd i d })
      | none => (none, grown a s)).2 (specStep m (match pick (grown a s) fd d with
      | some i => (some i, { grown a s with used := Function.update (grown a s).used i true, fd := Function.update (grown a s).fd i d })
      | none => (none, grown a s)).1 (.new a fd d))
    generalize grown a s = g at hg
    cases hp : pick g fd d with
    | none => exact hg
    | some i =>
      obtain ⟨p1, p2⟩ := pick_free hp
      simp only [specStep]
      refine ⟨fun j => ?_, fun j e hj => ?_, fun j hj => ?_, hg.pos⟩
      · by_cases e : j = i
        · subst e; simp
        · simp only [Function.update_of_ne e]; exact hg.used j
      · by_cases e' : j = i
        · subst e'; simp at hj; simp [hj]
        · simp only [Function.update_of_ne e'] at hj ⊢; exact hg.fd j e hj
      · by_cases e' : j = i
        · subst e'; exact p2
        · simp only [Function.update_of_ne e'] at hj; exact hg.lt j hj
  | assign p x =>
    simp only [step, specStep, assign]
    by_cases hp : 0 ≤ p ∧ (m p.toNat).isSome
    · have := h.lt _ hp.2
      rw [if_pos hp, if_pos ⟨hp.1, by omega⟩]
      refine ⟨fun j => ?_, fun j e hj => ?_, fun j hj => ?_, h.pos⟩
      · by_cases e : j = p.toNat
        · subst e; simp only [Function.update_self]; rw [h.used]; simpa using hp.2
        · simp only [Function.update_of_ne e]; exact h.used j
      · by_cases e' : j = p.toNat
        · subst e'; simp at hj; simp [hj]
        · simp only [Function.update_of_ne e'] at hj ⊢; exact h.fd j e hj
      · by_cases e' : j = p.toNat
        · subst e'; exact this
        · simp only [Function.update_of_ne e'] at hj; exact h.lt j hj
    · rw [if_neg hp]
      split
      · rename_i hc
        refine ⟨h.used, fun j e hj => ?_, h.lt, h.pos⟩
        have : j ≠ p.toNat := by rintro rfl; exact hp ⟨hc.1, by simp [hj]⟩
        simp only [Function.update_of_ne this]
        exact h.fd j e hj
      · exact h
  | free p => exact h
  | close p =>
    simp only [step, specStep, osClose]
    by_cases hp1 : p = -1
    · subst hp1
      rw [if_pos rfl, if_neg (by simp)]
      exact h
    · rw [if_neg hp1]
      by_cases hv : valid s p = true
      · rw [hv]
        obtain ⟨h0, d, hd, h1⟩ := (valid_iff h p).1 hv
        rw [if_pos rfl, if_pos rfl, if_pos ⟨h0, by rw [hd]; simpa using h1⟩]
        refine ⟨fun j => ?_, fun j e hj => ?_, fun j hj => ?_, h.pos⟩
        · by_cases e : j = p.toNat
          · subst e; simp
          · simp only [Function.update_of_ne e, freeFd]; exact h.used j
        · by_cases e' : j = p.toNat
          · subst e'; simp at hj
          · simp only [Function.update_of_ne e', freeFd] at hj ⊢; exact h.fd j e hj
        · by_cases e' : j = p.toNat
          · subst e'; simp at hj
          · simp only [Function.update_of_ne e', freeFd] at hj ⊢; exact h.lt j hj
      · have hf : valid s p = false := by simpa using hv
        rw [hf, if_neg (by simp), if_neg (by simp)]
        have hm : (if 0 ≤ p ∧ m p.toNat ≠ some (-1) then Function.update m p.toNat none else m) = m := by
          split
          · rename_i hc
            have hn : m p.toNat = none := by
              cases hq : m p.toNat with
              | none => rfl
              | some d => exact absurd ((valid_iff h p).2 ⟨hc.1, d, hq, fun e => hc.2 (by rw [hq, e])⟩) hv
            funext j
            by_cases e : j = p.toNat
            · subst e; simp [hn]
            · rw [Function.update_of_ne e]
          · rfl
        rw [hm]
        exact ⟨h.used, h.fd, h.lt, h.pos⟩

theorem init_inv : Inv init (fun _ => none) := ⟨fun _ => rfl, fun _ _ h => by simp at h, fun _ h => by simp at h, by decide⟩

theorem run_inv (os : List Op) : Inv (run os) (specRun init (fun _ => none) os) := by
  unfold run
  have : ∀ s m, Inv s m → Inv (os.foldl (fun s o => (step s o).2) s) (specRun s m os) := by
    induction os with
    | nil => exact fun _ _ h => h
    | cons o os ih => exact fun s m h => ih _ _ (step_inv h o)
  exact this _ _ init_inv

/-- The indices in use after a history. -/
def live (os : List Op) : Spec := specRun init (fun _ => none) os

theorem newFd_eq (active : Option Nat) (fd desired : Int) (s : St) :
    (newFd active fd desired s).1 = pick (grown active s) fd desired := by
  simp only [newFd]
  change (match pick (grown active s) fd desired with
      | some i => (some i, { grown active s with used := Function.update (grown active s).used i true, fd := Function.update (grown active s).fd i desired })
      | none => (none, grown active s)).1 = _
  cases pick (grown active s) fd desired <;> rfl

/-- Claim C53: `events_new_fd` never returns an index that is in use, whatever happened before, including growth. -/
theorem new_index_unused (os : List Op) (active : Option Nat) (fd d : Int) (i : Nat)
    (h : (newFd active fd d (run os)).1 = some i) : live os i = none := by
  rw [newFd_eq] at h
  have := grown_inv (run_inv os) active
  have hu := (pick_free h).1
  rw [this.used] at hu
  simpa [live] using hu

/-- Claim C53: an index that has its descriptor is mapped to it; every number that is not such an index is mapped to itself. -/
theorem get_fd_maps (os : List Op) (p : Int) :
    (∀ d, 0 ≤ p → live os p.toNat = some d → d ≠ -1 → getFd (run os) p = d) ∧
    (p < 0 ∨ live os p.toNat = none ∨ live os p.toNat = some (-1) → getFd (run os) p = p) := by
  have h := run_inv os
  unfold getFd
  refine ⟨fun d h0 hd h1 => ?_, fun hc => ?_⟩
  · rw [if_pos ((valid_iff h p).2 ⟨h0, d, hd, h1⟩)]
    exact h.fd _ d hd
  · rw [if_neg]
    intro hv
    obtain ⟨h0, d, hd, h1⟩ := (valid_iff h p).1 hv
    change live os p.toNat = some d at hd
    rcases hc with hc | hc | hc
    · omega
    · rw [hc] at hd; simp at hd
    · rw [hc] at hd; simp at hd; exact h1 hd.symm

/-- Claim C53: closing an index that has its descriptor closes exactly this descriptor and makes the index available again. -/
theorem close_releases_partial (os : List Op) (i : Nat) (d : Int) (h : live os i = some d) (hd : d ≠ -1) :
    (run (os ++ [.close i])).closed = (run os).closed ++ [d] ∧
      (newFd none 0 i (run (os ++ [.close i]))).1 = some i := by
  have hi := run_inv os
  have hv : valid (run os) i = true := (valid_iff hi i).2 ⟨by omega, d, by simpa [live] using h, hd⟩
  have e : run (os ++ [.close i]) = (step (run os) (.close i)).2 := by
    unfold run; rw [List.foldl_append]; rfl
  have hg : getFd (run os) i = d := (get_fd_maps os i).1 d (by omega) (by simpa using h) hd
  have hlt := hi.lt i (by change (live os i).isSome; simp [h])
  rw [e]
  simp only [step, osClose]
  rw [if_neg (by omega), hv, if_pos rfl, if_pos rfl]
  refine ⟨by simp [freeFd, hg], ?_⟩
  rw [newFd_eq]
  simp only [grown, freeFd, pick]
  simp [hlt]

/-- When `events_new_fd` fails: the wanted index is not available, and there is no descriptor to stand for or every index is
in use. -/
theorem new_fails_only_when_full (os : List Op) (active : Option Nat) (fd d : Int)
    (h : (newFd active fd d (run os)).1 = none) :
    (d < 0 ∨ (grown active (run os)).size ≤ d ∨ (live os d.toNat).isSome) ∧
      (fd ≤ 0 ∨ ∀ i, 1 ≤ i → i < (grown active (run os)).size → (live os i).isSome) := by
  rw [newFd_eq] at h
  have hi := grown_inv (run_inv os) active
  change Inv _ (live os) at hi
  unfold pick at h
  split at h
  · exact absurd h (by simp)
  · rename_i h1
    refine ⟨?_, ?_⟩
    · by_contra hc
      simp only [not_or, not_lt, not_le] at hc
      refine h1 ⟨by omega, by omega, ?_⟩
      rw [hi.used]
      simpa using hc.2.2
    · by_cases h0 : fd ≤ 0
      · exact .inl h0
      · right
        rw [if_pos (by omega)] at h
        split at h
        · exact absurd h (by simp)
        · intro i h2 h3
          rw [List.find?_eq_none] at h
          have := h i (List.mem_range.2 h3)
          simp only [h2, decide_true, Bool.true_and, Bool.not_eq_true, Bool.not_eq_false'] at this
          rw [hi.used] at this
          exact this

/-- With `active` descriptors in the loop the table has room for them. -/
theorem table_grows (os : List Op) (a : Nat) : a < (grown (some a) (run os)).size := by
  have := (run_inv os).pos
  exact growLoop_done a (a + 1) _ this (by omega)

/-- Cases for the theorems: an index with its own number, one for a busy number, one after growth. -/
example : (newFd none 7 7 init).1 = some 7 ∧ (newFd none 7 (-1) (run [.new none 7 7])).1 = some 1 ∧
    (newFd (some 300) 290 290 init).1 = some 290 ∧ live [.new none 7 7] 7 = some 7 := by decide +kernel

/-- Against C53: closing an index that got no descriptor does not release it; instead the real descriptor of the same number is
closed. -/
theorem close_unassigned_leaks (os : List Op) (i : Nat) (h : live os i = some (-1)) :
    live (os ++ [.close i]) i = some (-1) ∧ (run (os ++ [.close i])).closed = (run os).closed ++ [(i : Int)] := by
  have hi := run_inv os
  have hg : getFd (run os) i = i := (get_fd_maps os i).2 (.inr (.inr (by simpa using h)))
  have hv : valid (run os) i = false := by
    by_contra hc
    obtain ⟨_, d, hd, h1⟩ := (valid_iff hi i).1 (by simpa using hc)
    change live os _ = _ at hd
    simp only [Int.toNat_natCast] at hd
    rw [h] at hd
    exact h1 (by simpa using hd.symm)
  have app : ∀ (os os' : List Op) (s : St) (m : Spec), specRun s m (os ++ os') =
      specRun (os.foldl (fun s o => (step s o).2) s) (specRun s m os) os' := by
    intro os
    induction os with
    | nil => exact fun _ _ _ => rfl
    | cons o os ih => exact fun os' s m => ih os' _ _
  refine ⟨?_, ?_⟩
  · unfold live
    rw [app]
    change specStep (live os) none (.close i) i = _
    simp only [specStep]
    rw [if_neg (by simp [h])]
    exact h
  · have e : run (os ++ [.close i]) = (step (run os) (.close i)).2 := by
      unfold run; rw [List.foldl_append]; rfl
    rw [e]
    simp only [step, osClose]
    rw [if_neg (by omega), hv, if_neg (by simp), if_neg (by simp)]
    simp [hg]

example : live [.new none 7 (-1)] 7 = some (-1) := by decide +kernel

/-- Against C53: `events_free_fd` alone does not make the index available: `events_new_fd` does not give it out again. -/
theorem free_does_not_release (os : List Op) (i : Nat) (h : (live os i).isSome) (active : Option Nat) (fd d : Int) :
    (newFd active fd d (run (os ++ [.free i]))).1 ≠ some i := by
  intro hn
  have e : run (os ++ [.free i]) = run os := by unfold run; rw [List.foldl_append]; rfl
  rw [e] at hn
  have := new_index_unused os active fd d i hn
  rw [this] at h
  simp at h

/-- Against C53: a real descriptor that happens to have the number of an index in use is redirected to another one. -/
theorem real_descriptor_redirected (os : List Op) (i : Nat) (d : Int) (h : live os i = some d) (h1 : d ≠ -1) (h2 : d ≠ i) :
    getFd (run os) i ≠ i := by
  rw [(get_fd_maps os i).1 d (by omega) (by simpa using h) h1]
  exact h2

example : live [.new none 7 7, .new none 7 (-1), .assign 1 9] 1 = some 9 := by decide +kernel

end Verif.Io.Pseudo
