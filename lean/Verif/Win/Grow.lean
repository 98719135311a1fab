import Mathlib.Data.List.Basic
import Mathlib.Tactic.Cases

/-!
# Growth of the table of descriptors on Windows (`src/os_windows.c` 33, 106-118, 177-242, 470-487, 549-574, 1688-1694), C253

The records that the system writes to when an operation ends (`OVERLAPPED`) lie in the entries of the table.  The table grows with `realloc`.

`none` is undefined behaviour: use of the null pointer or of memory that was not set, and a write of the system to memory given back.
-/

namespace Verif.Win.Grow

/-- `tab`: the address of `fdTable` and which entries are in use, `none` if the pointer is null or the entries were not set; `size` is `ioTableSize`;
`pend` the operations that go on, with the address of the table at their start, and the index; `calls` counts the calls of `realloc`. -/
structure St where
  tab : Option (Nat × List Bool)
  size : Nat
  pend : List (Nat × Nat) := []
  calls : Nat := 0
  deriving DecidableEq, Repr

/-- `grow_ioTable`, os_windows.c:106-118.  `alloc` gives the results of `realloc` (`none`: no memory).  Once the pointer was lost, a later success gives entries
of which the first half is not set. -/
def grow (alloc : Nat → Option Nat) (s : St) : St :=
  { s with
    size := s.size * 2
    calls := s.calls + 1
    tab := match alloc s.calls, s.tab with
      | some a, some (_, used) => some (a, used ++ List.replicate s.size false)
      | _, _ => none }

/-- `while (active >= ioTableSize) grow_ioTable();`, os_windows.c:181-182; `n` bounds the rounds. -/
def growLoop (alloc : Nat → Option Nat) (active : Nat) : Nat → St → Option St
  | 0, s => if active < s.size then some s else none
  | n + 1, s => if active < s.size then some s else growLoop alloc active n (grow alloc s)

/-- The search for the first free entry from index 1 on, os_windows.c:198-203. -/
def firstFree (used : List Bool) : Option Nat := (List.range used.length).find? fun i => decide (1 ≤ i) && used[i]? == some false

/-- `events_new_fd(type, fd, -1)` with a handle `fd` above 0 whose target has a loop, os_windows.c:177-242.  `active`: the descriptors active in the loop. -/
def newFd (alloc : Nat → Option Nat) (active fd : Nat) (s : St) : Option (Option Nat × St) :=
  match growLoop alloc active (active + 1) s with
  | none => none
  | some s =>
    match s.tab with
    | none => none
    | some (a, used) =>
      let index := if used[fd]? = some false then some fd else firstFree used
      match index with
      | none => some (none, s)
      | some i => some (some i, { s with tab := some (a, used.set i true) })

/-- An operation begins whose record is in entry `i`: `ReadDirectoryChangesW` (os_windows.c:476-483, 1692-1693), `ConnectNamedPipe` (551). -/
def start (i : Nat) (s : St) : Option St :=
  match s.tab with
  | none => none
  | some (a, used) => if i < used.length then some { s with pend := s.pend ++ [(a, i)] } else none

/-- The system ends the operation number `k`: it writes the result to the record. -/
def finish (k : Nat) (s : St) : Option St :=
  match s.pend[k]? with
  | none => some s
  | some (a, _) =>
    match s.tab with
    | none => none
    | some (b, _) => if a = b then some { s with pend := s.pend.eraseIdx k } else none

inductive Ev where
  | new (active fd : Nat)
  | start (i : Nat)
  | finish (k : Nat)

def step (alloc : Nat → Option Nat) (s : St) : Ev → Option St
  | .new active fd => (newFd alloc active fd s).map (·.2)
  | .start i => start i s
  | .finish k => finish k s

/-- What holds of a table: as many entries as `size` says, and all operations have their record in it. -/
structure Good (s : St) (a : Nat) (used : List Bool) : Prop where
  tab : s.tab = some (a, used)
  len : used.length = s.size
  pos : 0 < s.size
  pend : ∀ p ∈ s.pend, p.1 = a ∧ p.2 < s.size

/-! ## Lemmas -/

theorem growLoop_lt {alloc : Nat → Option Nat} {active : Nat} {s : St} (h : active < s.size) (n : Nat) : growLoop alloc active n s = some s := by
  cases n <;> simp [growLoop, h]

/-- With memory the loop ends with a table large enough, that has the old entries in front. -/
theorem growLoop_ok (alloc : Nat → Option Nat) (active : Nat) (ha : ∀ n, (alloc n).isSome) :
    ∀ (n : Nat) (s : St) (a : Nat) (used : List Bool), s.tab = some (a, used) → used.length = s.size → 0 < s.size → active < s.size + n →
      ∃ s' b m, growLoop alloc active n s = some s' ∧ s'.tab = some (b, used ++ List.replicate m false) ∧ used.length + m = s'.size ∧
        active < s'.size ∧ s'.pend = s.pend ∧ (s.size ≤ active → ∃ k, alloc k = some b) := by
  intro n
  induction n with
  | zero =>
    intro s a used ht hl hp hlt
    exact ⟨s, a, 0, by simp [growLoop]; omega, by simpa using ht, by simpa using hl, by omega, rfl, fun h => by omega⟩
  | succ n ih =>
    intro s a used ht hl hp hlt
    by_cases h : active < s.size
    · exact ⟨s, a, 0, growLoop_lt h _, by simpa using ht, by simpa using hl, h, rfl, fun h' => by omega⟩
    · obtain ⟨b, hb⟩ := Option.isSome_iff_exists.1 (ha s.calls)
      have hg : (grow alloc s).tab = some (b, used ++ List.replicate s.size false) := by simp [grow, hb, ht]
      obtain ⟨s', c, m, h1, h2, h3, h4, h5, h6⟩ := ih (grow alloc s) b (used ++ List.replicate s.size false) hg
        (by simp [grow, hl]; omega) (by simp [grow]; omega) (by simp [grow]; omega)
      refine ⟨s', c, s.size + m, ?_, ?_, ?_, h4, h5, fun _ => ?_⟩
      · simp only [growLoop, if_neg h]; exact h1
      · rw [h2, List.append_assoc, List.replicate_append_replicate]
      · rw [← h3]; simp; omega
      · by_cases h' : (grow alloc s).size ≤ active
        · exact h6 h'
        · rw [growLoop_lt (by omega)] at h1
          have : s' = grow alloc s := by injection h1 with h1; exact h1.symm
          rw [this, hg] at h2
          injection h2 with h2
          injection h2 with h2 _
          exact ⟨s.calls, by rw [hb, h2]⟩

theorem growLoop_lost (alloc : Nat → Option Nat) (active : Nat) :
    ∀ (n : Nat) (s s' : St), s.tab = none → growLoop alloc active n s = some s' → s'.tab = none := by
  intro n
  induction n with
  | zero =>
    intro s s' ht h
    simp only [growLoop] at h
    split at h
    · injection h with h; rw [← h]; exact ht
    · simp at h
  | succ n ih =>
    intro s s' ht h
    simp only [growLoop] at h
    split at h
    · injection h with h; rw [← h]; exact ht
    · exact ih (grow alloc s) s' (by simp [grow, ht]) h

theorem firstFree_spec {used : List Bool} {i : Nat} (h : firstFree used = some i) : used[i]? = some false := by
  have := List.find?_some h
  simp at this
  exact this.2

/-! ## C253 -/

/-- As long as the table need not grow, whatever operations begin and end and whatever descriptors are made, the system only writes to records that are
there. -/
theorem no_growth_partial (alloc : Nat → Option Nat) (a : Nat) (l : List Ev) :
    ∀ (s : St) (used : List Bool), Good s a used → (∀ act fd, Ev.new act fd ∈ l → act < s.size) → (∀ i, Ev.start i ∈ l → i < s.size) →
      ∃ s' used', l.foldlM (step alloc) s = some s' ∧ Good s' a used' ∧ s'.size = s.size ∧ s'.calls = s.calls := by
  induction l with
  | nil => intro s used hg _ _; exact ⟨s, used, rfl, hg, rfl, rfl⟩
  | cons e l ih =>
    intro s used hg hn hs
    have one : ∃ s1 u1, step alloc s e = some s1 ∧ Good s1 a u1 ∧ s1.size = s.size ∧ s1.calls = s.calls := by
      cases e with
      | new act fd =>
        have hlt := hn act fd (by simp)
        simp only [step, newFd, growLoop_lt hlt, hg.tab]
        by_cases hu : used[fd]? = some false
        · rw [if_pos hu]
          exact ⟨_, _, rfl, ⟨rfl, by simp [hg.len], hg.pos, hg.pend⟩, rfl, rfl⟩
        · rw [if_neg hu]
          cases hf : firstFree used with
          | none => exact ⟨_, _, rfl, hg, rfl, rfl⟩
          | some i => exact ⟨_, _, rfl, ⟨rfl, by simp [hg.len], hg.pos, hg.pend⟩, rfl, rfl⟩
      | start i =>
        have hi := hs i (by simp)
        refine ⟨{ s with pend := s.pend ++ [(a, i)] }, used, ?_, ⟨hg.tab, hg.len, hg.pos, ?_⟩, rfl, rfl⟩
        · simp only [step, start, hg.tab]; exact if_pos (by rw [hg.len]; exact hi)
        intro p hp
        rcases List.mem_append.1 hp with h | h
        · exact hg.pend p h
        · simp at h; subst h; exact ⟨rfl, hi⟩
      | finish k =>
        simp only [step, finish]
        cases hk : s.pend[k]? with
        | none => exact ⟨s, used, rfl, hg, rfl, rfl⟩
        | some p =>
          obtain ⟨b, i⟩ := p
          have hb := (hg.pend _ (List.mem_of_getElem? hk)).1
          simp only [hg.tab]
          rw [if_pos hb]
          exact ⟨_, used, rfl, ⟨rfl, hg.len, hg.pos, fun p hp => hg.pend p (List.mem_of_mem_eraseIdx hp)⟩, rfl, rfl⟩
    obtain ⟨s1, u1, h1, h2, h3, h4⟩ := one
    obtain ⟨s', u', h5, h6, h7, h8⟩ := ih s1 u1 h2 (fun act fd h => by rw [h3]; exact hn act fd (by simp [h]))
      (fun i h => by rw [h3]; exact hs i (by simp [h]))
    refine ⟨s', u', ?_, h6, by rw [h7, h3], by rw [h8, h4]⟩
    rw [List.foldlM_cons, h1]
    exact h5

/-- With no operation going on, growth is harmless if there is memory: the entries stay as they are, the table is larger than the number of active
descriptors, and the number given was not in use. -/
theorem growth_idle_partial (alloc : Nat → Option Nat) (ha : ∀ n, (alloc n).isSome) (s : St) (a : Nat) (used : List Bool) (hg : Good s a used)
    (hp : s.pend = []) (active fd : Nat) :
    ∃ r s' b used', newFd alloc active fd s = some (r, s') ∧ Good s' b used' ∧ active < s'.size ∧
      (∀ j, (∀ i, r = some i → j ≠ i) → j < s.size → used'[j]? = used[j]?) ∧
      (∀ i, r = some i → used[i]? ≠ some true ∧ used'[i]? = some true) := by
  obtain ⟨s', b, m, h1, h2, h3, h4, h5, -⟩ := growLoop_ok alloc active ha (active + 1) s a used hg.tab hg.len hg.pos (by have := hg.pos; omega)
  have hpre : ∀ j, j < s.size → (used ++ List.replicate m false)[j]? = used[j]? := by
    intro j hj
    rw [List.getElem?_append_left (by rw [hg.len]; exact hj)]
  have hpend : s'.pend = [] := by rw [h5, hp]
  have hset : ∀ i, (used ++ List.replicate m false)[i]? = some false →
      Good { s' with tab := some (b, (used ++ List.replicate m false).set i true) } b ((used ++ List.replicate m false).set i true) ∧
      (∀ j, (∀ i', some i = some i' → j ≠ i') → j < s.size → ((used ++ List.replicate m false).set i true)[j]? = used[j]?) ∧
      (∀ i', some i = some i' → used[i']? ≠ some true ∧ ((used ++ List.replicate m false).set i true)[i']? = some true) := by
    intro i hi
    obtain ⟨hlt, -⟩ := List.getElem?_eq_some_iff.1 hi
    refine ⟨⟨rfl, by simp [h3], by simp only; omega, by simp [hpend]⟩, ?_, ?_⟩
    · intro j hj hjs
      rw [List.getElem?_set_ne (fun h => hj i rfl h.symm), hpre j hjs]
    · intro i' hi'
      injection hi' with hi'
      subst hi'
      refine ⟨?_, by rw [List.getElem?_set_self hlt]⟩
      intro hu
      obtain ⟨hlt', -⟩ := List.getElem?_eq_some_iff.1 hu
      rw [List.getElem?_append_left hlt', hu] at hi
      simp at hi
  simp only [newFd, h1, h2]
  by_cases hu : (used ++ List.replicate m false)[fd]? = some false
  · rw [if_pos hu]
    obtain ⟨g1, g2, g3⟩ := hset fd hu
    exact ⟨some fd, _, b, _, rfl, g1, h4, g2, g3⟩
  · rw [if_neg hu]
    cases hf : firstFree (used ++ List.replicate m false) with
    | none =>
      exact ⟨none, s', b, _, rfl, ⟨h2, by simp [h3], by omega, by simp [hpend]⟩, h4, fun j _ hj => hpre j hj, fun i h => by simp at h⟩
    | some i =>
      obtain ⟨g1, g2, g3⟩ := hset i (firstFree_spec hf)
      exact ⟨some i, _, b, _, rfl, g1, h4, g2, g3⟩

/-- But if an operation goes on while the table grows and moves, the system writes to memory that was given back when the operation ends: for every table, every
operation, and all addresses that differ from the old one. -/
theorem growth_pending (alloc : Nat → Option Nat) (ha : ∀ n, (alloc n).isSome) (s : St) (a : Nat) (used : List Bool) (hg : Good s a used)
    (hmove : ∀ n, alloc n ≠ some a) (active fd k : Nat) (hk : k < s.pend.length) (hact : s.size ≤ active) :
    [Ev.new active fd, Ev.finish k].foldlM (step alloc) s = none := by
  obtain ⟨s', b, m, h1, h2, h3, h4, h5, h6⟩ := growLoop_ok alloc active ha (active + 1) s a used hg.tab hg.len hg.pos (by have := hg.pos; omega)
  obtain ⟨j, hj⟩ := h6 hact
  have hne : a ≠ b := fun h => hmove j (by rw [hj, h])
  have hfin : ∀ t : St, t.pend = s.pend → (∃ u, t.tab = some (b, u)) → finish k t = none := by
    rintro t ht ⟨u, hu⟩
    have hget : t.pend[k]? = some s.pend[k] := by rw [ht]; exact List.getElem?_eq_getElem hk
    have hp := (hg.pend _ (List.getElem_mem hk)).1
    simp only [finish, hget, hu]
    exact if_neg (by rw [hp]; exact hne)
  have : ∃ t, step alloc s (.new active fd) = some t ∧ t.pend = s.pend ∧ ∃ u, t.tab = some (b, u) := by
    simp only [step, newFd, h1, h2]
    by_cases hu : (used ++ List.replicate m false)[fd]? = some false
    · rw [if_pos hu]; exact ⟨_, rfl, h5, _, rfl⟩
    · rw [if_neg hu]
      cases firstFree (used ++ List.replicate m false) with
      | none => exact ⟨_, rfl, h5, _, h2⟩
      | some i => exact ⟨_, rfl, h5, _, rfl⟩
  obtain ⟨t, t1, t2, t3⟩ := this
  rw [List.foldlM_cons, t1]
  show (step alloc t (.finish k) >>= fun s => pure s) = none
  rw [show step alloc t (.finish k) = none from hfin t t2 t3]
  rfl

/-- If there is no memory when the table is to grow, the pointer is lost, and the code goes on with it: undefined in every state. -/
theorem growth_fails (alloc : Nat → Option Nat) (s : St) (active fd : Nat) (hact : s.size ≤ active) (hf : alloc s.calls = none) :
    newFd alloc active fd s = none := by
  have hg : (grow alloc s).tab = none := by simp [grow, hf]
  have h1 : growLoop alloc active (active + 1) s = growLoop alloc active active (grow alloc s) := by
    simp only [growLoop]; rw [if_neg (by omega)]
  rw [newFd, h1]
  cases h : growLoop alloc active active (grow alloc s) with
  | none => rfl
  | some s' =>
    have := growLoop_lost alloc active active (grow alloc s) s' hg h
    simp only [this]

example : Good { tab := some (100, [true, true]), size := 2, pend := [(100, 1)] } 100 [true, true] :=
  ⟨rfl, rfl, by decide, by simp⟩

example : newFd (fun _ => some 200) 2 7 { tab := some (100, [true, true]), size := 2 } =
    some (some 2, { tab := some (200, [true, true, true, false]), size := 4, calls := 1 }) := by decide

example : [Ev.new 1 7, .start 1, .finish 0].foldlM (step fun _ => none) { tab := some (100, [true, false]), size := 2 } =
    some { tab := some (100, [true, true]), size := 2 } := by decide

end Verif.Win.Grow
