import Mathlib.Data.List.Basic
import Mathlib.Data.List.Nodup
import Mathlib.Tactic.Cases

/-!
# Signals on Windows (`src/os_windows.c` 93-97, 860-888), C248

The C runtime calls the handler of a console signal in a new thread, after it has set the action of the signal back to the default, which ends
the process; the handler installs itself again.  A flag that all threads share says that a handler is running, and ends the process
if a second one finds it set.

Simplified: every signal of the model has a callback, in a table that does not change meanwhile; `signal` succeeds; callbacks return and raise
nothing.  Each access to memory shared by the threads is one step.  `events_got_signal` is counted up and down under the lock and left out.
-/

namespace Verif.Win.Signals

/-- Where a handler is, os_windows.c:860-888. -/
inductive Pc
  /-- 861, `events_signal_set`: takes and leaves the critical section. -/
  | set
  /-- 862 -/
  | test
  /-- 865 -/
  | mark
  /-- 868 -/
  | enter
  /-- 873 -/
  | reinstall
  /-- 881: the callback -/
  | call
  /-- 886 -/
  | leave
  /-- 887 -/
  | unmark
  | done
  deriving DecidableEq, Repr

inductive Death
  /-- The default action of a signal. -/
  | default
  /-- `exit(1)`, 863. -/
  | exit1
  deriving DecidableEq, Repr

/-- `thr`: the handlers called so far, with their signal; `dfl`: the signals with default action; `lock`: who is in the critical section;
`running`: `signal_running`; `calls`: the handlers that called their callback, in order. -/
structure St where
  thr : List (Nat × Pc)
  dfl : List Nat
  lock : Option Nat
  running : Bool
  calls : List Nat
  dead : Option Death
  deriving DecidableEq, Repr

def init : St := ⟨[], [], none, false, [], none⟩

inductive Ev
  | arrive (sig : Nat)
  | go (i : Nat)
  deriving DecidableEq, Repr

/-- The next thing handler `i` does; `none`: it waits for the critical section, or has ended. -/
def go (s : St) (i : Nat) : Nat × Pc → Option St
  | (g, .set) => if s.lock = none then some { s with thr := s.thr.set i (g, .test) } else none
  | (g, .test) => some (if s.running then { s with dead := some .exit1 } else { s with thr := s.thr.set i (g, .mark) })
  | (g, .mark) => some { s with thr := s.thr.set i (g, .enter), running := true }
  | (g, .enter) => if s.lock = none then some { s with thr := s.thr.set i (g, .reinstall), lock := some i } else none
  | (g, .reinstall) => some { s with thr := s.thr.set i (g, .call), dfl := s.dfl.erase g }
  | (g, .call) => some { s with thr := s.thr.set i (g, .leave), calls := s.calls ++ [i] }
  | (g, .leave) => some { s with thr := s.thr.set i (g, .unmark), lock := none }
  | (g, .unmark) => some { s with thr := s.thr.set i (g, .done), running := false }
  | (_, .done) => none

/-- A signal arrives (the runtime looks at its action and resets it), or a handler goes on. -/
def step (s : St) (e : Ev) : Option St :=
  if s.dead ≠ none then none
  else match e with
  | .arrive g =>
    if g ∈ s.dfl then some { s with dead := some .default }
    else some { s with thr := s.thr ++ [(g, .set)], dfl := g :: s.dfl }
  | .go i =>
    match s.thr[i]? with
    | none => none
    | some t => go s i t

def run (s : St) (l : List Ev) : Option St := l.foldlM step s

/-! ## Specification -/

/-- The handler has not yet called its callback. -/
def Pc.before : Pc → Bool
  | .set | .test | .mark | .enter | .reinstall | .call => true
  | _ => false

/-- The handler has not yet installed itself again. -/
def Pc.unset : Pc → Bool
  | .set | .test | .mark | .enter | .reinstall => true
  | _ => false

/-- The handler is between entering and leaving the critical section. -/
def Pc.inside : Pc → Bool
  | .reinstall | .call | .leave => true
  | _ => false

/-! ## Lemmas -/

structure Inv (s : St) : Prop where
  nodup : s.calls.Nodup
  calls : ∀ i, i ∈ s.calls ↔ ∃ t, s.thr[i]? = some t ∧ t.2.before = false
  dnodup : s.dfl.Nodup
  dfl : ∀ g, g ∈ s.dfl ↔ ∃ (i : Nat) (t : Nat × Pc), s.thr[i]? = some t ∧ t.1 = g ∧ t.2.unset = true
  uniq : ∀ (i j : Nat) (t u : Nat × Pc), s.thr[i]? = some t → s.thr[j]? = some u → t.1 = u.1 → t.2.unset = true → u.2.unset = true → i = j
  lock : ∀ i, s.lock = some i ↔ ∃ t, s.thr[i]? = some t ∧ t.2.inside = true

theorem inv_init : Inv init := ⟨by simp [init], by simp [init], by simp [init], by simp [init], by simp [init], by simp [init]⟩

theorem getElem?_set_some {α : Type} {l : List α} {i : Nat} {t : α} (h : l[i]? = some t) (u : α) (j : Nat) :
    (l.set i u)[j]? = if j = i then some u else l[j]? := by
  have hi : i < l.length := by
    by_contra hc
    rw [List.getElem?_eq_none (by omega)] at h
    simp at h
  rw [List.getElem?_set]
  by_cases hj : i = j
  · subst hj; simp [hi]
  · rw [if_neg hj, if_neg (fun h => hj h.symm)]

/-- Moving one handler of a list: what the invariant needs of the old and new place. -/
theorem move {s : St} (h : Inv s) {i g : Nat} {p q : Pc} (hi : s.thr[i]? = some (g, p)) {calls : List Nat} {dfl : List Nat}
    {lock : Option Nat} {r : Bool} {d : Option Death}
    (hc : calls = if p.before = true ∧ q.before = false then s.calls ++ [i] else s.calls) (hpq : p.before = false → q.before = false)
    (hd : dfl = if p.unset = true ∧ q.unset = false then s.dfl.erase g else s.dfl) (hpu : p.unset = false → q.unset = false)
    (hl : lock = if p.inside = true ∧ q.inside = false then none else if p.inside = false ∧ q.inside = true then some i else s.lock)
    (hl0 : p.inside = false → q.inside = true → s.lock = none) :
    Inv { thr := s.thr.set i (g, q), dfl := dfl, lock := lock, running := r, calls := calls, dead := d } := by
  have hget := getElem?_set_some hi (g, q)
  have hicalls : i ∈ s.calls ↔ p.before = false := by
    rw [h.calls, hi]; simp
  have hgd : p.unset = true → g ∈ s.dfl := fun hp => (h.dfl g).2 ⟨i, _, hi, rfl, hp⟩
  have hli : s.lock = some i ↔ p.inside = true := by rw [h.lock, hi]; simp
  subst hc hd hl
  refine ⟨?_, ?_, ?_, ?_, ?_, ?_⟩
  · show (if _ then _ else _ : List Nat).Nodup
    split
    · rename_i hb
      rw [List.nodup_append]
      refine ⟨h.nodup, by simp, ?_⟩
      intro a ha b hb' he
      simp only [List.mem_singleton] at hb'
      subst hb'; subst he
      rw [hicalls] at ha
      simp [ha] at hb
    · exact h.nodup
  · intro j
    show j ∈ (if _ then _ else _ : List Nat) ↔ _
    rw [hget j]
    by_cases hj : j = i
    · subst hj
      simp only [if_true, Option.some.injEq, exists_eq_left']
      cases hp : p.before
      · rw [if_neg (by simp), hicalls]; simp [hp, hpq hp]
      · cases hq : q.before
        · simp
        · simp only [Bool.true_eq_false, and_false, if_false]; rw [hicalls]; simp [hp]
    · rw [if_neg hj, ← h.calls j]
      split
      · simp [hj]
      · rfl
  · show (if _ then _ else _ : List Nat).Nodup
    split
    · exact h.dnodup.erase g
    · exact h.dnodup
  · intro x
    show x ∈ (if _ then _ else _ : List Nat) ↔ ∃ (j : Nat) (t : Nat × Pc), (s.thr.set i (g, q))[j]? = some t ∧ t.1 = x ∧ t.2.unset = true
    by_cases hc : p.unset = true ∧ q.unset = false
    · rw [if_pos hc, h.dnodup.mem_erase_iff, h.dfl x]
      constructor
      · rintro ⟨hx, j, t, hj, ht, hu⟩
        refine ⟨j, t, ?_, ht, hu⟩
        rw [hget j, if_neg ?_]; · exact hj
        intro hji; subst hji
        rw [hi] at hj; injection hj with hj; subst hj; exact hx ht.symm
      · rintro ⟨j, t, hj, ht, hu⟩
        rw [hget j] at hj
        by_cases hji : j = i
        · rw [if_pos hji] at hj; injection hj with hj; subst hj
          simp [hc.2] at hu
        · rw [if_neg hji] at hj
          refine ⟨?_, j, t, hj, ht, hu⟩
          intro hx; subst hx
          exact hji (h.uniq j i t _ hj hi ht hu hc.1)
    · rw [if_neg hc, h.dfl x]
      have hsame : p.unset = q.unset := by
        cases hp : p.unset <;> cases hq : q.unset <;> simp_all
      constructor
      · rintro ⟨j, t, hj, ht, hu⟩
        by_cases hji : j = i
        · subst hji; rw [hi] at hj; injection hj with hj; subst hj
          exact ⟨j, (g, q), by rw [hget j, if_pos rfl], ht, by rw [← hsame]; exact hu⟩
        · exact ⟨j, t, by rw [hget j, if_neg hji]; exact hj, ht, hu⟩
      · rintro ⟨j, t, hj, ht, hu⟩
        rw [hget j] at hj
        by_cases hji : j = i
        · rw [if_pos hji] at hj; injection hj with hj; subst hj
          exact ⟨i, (g, p), hi, ht, by rw [hsame]; exact hu⟩
        · rw [if_neg hji] at hj; exact ⟨j, t, hj, ht, hu⟩
  · -- the places of `q` before reinstalling come from places of `p` before it
    have back : ∀ (j : Nat) (t : Nat × Pc), (s.thr.set i (g, q))[j]? = some t → t.2.unset = true →
        ∃ t' : Nat × Pc, s.thr[j]? = some t' ∧ t'.1 = t.1 ∧ t'.2.unset = true := by
      intro j t hj hu
      rw [hget j] at hj
      by_cases hji : j = i
      · rw [if_pos hji] at hj; injection hj with hj; subst hj; subst hji
        refine ⟨(g, p), hi, rfl, ?_⟩
        cases hp : p.unset
        · simp [hpu hp] at hu
        · rfl
      · rw [if_neg hji] at hj; exact ⟨t, hj, rfl, hu⟩
    intro j k t u hj hk he hu1 hu2
    obtain ⟨t', h1, h2, h3⟩ := back j t hj hu1
    obtain ⟨u', k1, k2, k3⟩ := back k u hk hu2
    exact h.uniq j k t' u' h1 k1 (by rw [h2, k2]; exact he) h3 k3
  · intro j
    show (if _ then _ else _ : Option Nat) = some j ↔ ∃ t, (s.thr.set i (g, q))[j]? = some t ∧ t.2.inside = true
    rw [hget j]
    by_cases hj : j = i
    · subst hj
      simp only [if_true, Option.some.injEq, exists_eq_left']
      cases hp : p.inside <;> cases hq : q.inside <;> simp [hli, hp]
    · rw [if_neg hj, ← h.lock j]
      cases hp : p.inside <;> cases hq : q.inside
      · simp
      · simp only [Bool.false_eq_true, false_and, if_false, if_true, and_self, hl0 hp hq]
        simp [Ne.symm hj]
      · simp only [if_true, and_self]
        rw [hli.2 hp]
        simp [Ne.symm hj]
      · simp

theorem go_inv {s s' : St} (h : Inv s) {i : Nat} {t : Nat × Pc} (hi : s.thr[i]? = some t) (hg : go s i t = some s') : Inv s' := by
  obtain ⟨g, p⟩ := t
  cases p <;> simp only [go] at hg
  case set =>
    split at hg
    · cases hg; exact move (q := .test) h hi (by rfl) (by simp [Pc.before]) (by rfl) (by simp [Pc.unset]) (by rfl) (by simp [Pc.inside])
    · cases hg
  case test =>
    cases hg
    split
    · exact ⟨h.nodup, h.calls, h.dnodup, h.dfl, h.uniq, h.lock⟩
    · exact move (q := .mark) h hi (by rfl) (by simp [Pc.before]) (by rfl) (by simp [Pc.unset]) (by rfl) (by simp [Pc.inside])
  case mark =>
    cases hg; exact move (q := .enter) h hi (by rfl) (by simp [Pc.before]) (by rfl) (by simp [Pc.unset]) (by rfl) (by simp [Pc.inside])
  case enter =>
    split at hg
    · rename_i hl
      cases hg; exact move (q := .reinstall) h hi (by rfl) (by simp [Pc.before]) (by rfl) (by simp [Pc.unset]) (by rfl) (fun _ _ => hl)
    · cases hg
  case reinstall =>
    cases hg; exact move (q := .call) h hi (by rfl) (by simp [Pc.before]) (by rfl) (by simp [Pc.unset]) (by rfl) (by simp [Pc.inside])
  case call =>
    cases hg; exact move (q := .leave) h hi (by rfl) (by simp [Pc.before]) (by rfl) (by simp [Pc.unset]) (by rfl) (by simp [Pc.inside])
  case leave =>
    cases hg; exact move (q := .unmark) h hi (by rfl) (by simp [Pc.before]) (by rfl) (by simp [Pc.unset]) (by rfl) (by simp [Pc.inside])
  case unmark =>
    cases hg; exact move (q := .done) h hi (by rfl) (by simp [Pc.before]) (by rfl) (by simp [Pc.unset]) (by rfl) (by simp [Pc.inside])
  case done => cases hg

theorem get_append {α : Type} (l : List α) (x t : α) (i : Nat) : (l ++ [x])[i]? = some t ↔ l[i]? = some t ∨ i = l.length ∧ x = t := by
  rcases Nat.lt_trichotomy i l.length with h | h | h
  · rw [List.getElem?_append_left h]
    constructor
    · exact Or.inl
    · rintro (h' | ⟨h', _⟩)
      · exact h'
      · omega
  · subst h
    rw [List.getElem?_append_right (Nat.le_refl _)]
    simp
  · rw [List.getElem?_eq_none (by simp; omega), List.getElem?_eq_none (by omega)]
    simp
    omega

theorem arrive_inv {s : St} (h : Inv s) {g : Nat} (hg : g ∉ s.dfl) :
    Inv { s with thr := s.thr ++ [(g, .set)], dfl := g :: s.dfl } := by
  have hnew := get_append s.thr (g, Pc.set)
  refine ⟨h.nodup, ?_, by simp [hg, h.dnodup], ?_, ?_, ?_⟩
  · intro i
    show i ∈ s.calls ↔ ∃ t, (s.thr ++ [(g, Pc.set)])[i]? = some t ∧ t.2.before = false
    rw [h.calls]
    constructor
    · rintro ⟨t, h1, h2⟩; exact ⟨t, (hnew t i).2 (Or.inl h1), h2⟩
    · rintro ⟨t, h1, h2⟩
      rcases (hnew t i).1 h1 with h1 | ⟨_, h1⟩
      · exact ⟨t, h1, h2⟩
      · subst h1; simp [Pc.before] at h2
  · intro x
    show x ∈ g :: s.dfl ↔ ∃ (i : Nat) (t : Nat × Pc), (s.thr ++ [(g, Pc.set)])[i]? = some t ∧ t.1 = x ∧ t.2.unset = true
    rw [List.mem_cons, h.dfl]
    constructor
    · rintro (h1 | ⟨i, t, h1, h2⟩)
      · exact ⟨s.thr.length, (g, .set), (hnew _ _).2 (Or.inr ⟨rfl, rfl⟩), h1.symm, rfl⟩
      · exact ⟨i, t, (hnew t i).2 (Or.inl h1), h2⟩
    · rintro ⟨i, t, h1, h2, h3⟩
      rcases (hnew t i).1 h1 with h1 | ⟨_, h1⟩
      · exact Or.inr ⟨i, t, h1, h2, h3⟩
      · subst h1; exact Or.inl h2.symm
  · intro i j t u h1 h2 h3 h4 h5
    rcases (hnew t i).1 h1 with h1 | ⟨h1, h1'⟩ <;> rcases (hnew u j).1 h2 with h2 | ⟨h2, h2'⟩
    · exact h.uniq i j t u h1 h2 h3 h4 h5
    · subst h2'; exact absurd ((h.dfl g).2 ⟨i, t, h1, h3, h4⟩) hg
    · subst h1'; exact absurd ((h.dfl g).2 ⟨j, u, h2, h3.symm, h5⟩) hg
    · rw [h1, h2]
  · intro i
    show s.lock = some i ↔ ∃ t, (s.thr ++ [(g, Pc.set)])[i]? = some t ∧ t.2.inside = true
    rw [h.lock]
    constructor
    · rintro ⟨t, h1, h2⟩; exact ⟨t, (hnew t i).2 (Or.inl h1), h2⟩
    · rintro ⟨t, h1, h2⟩
      rcases (hnew t i).1 h1 with h1 | ⟨_, h1⟩
      · exact ⟨t, h1, h2⟩
      · subst h1; simp [Pc.inside] at h2

theorem step_inv {s s' : St} (h : Inv s) {e : Ev} (hs : step s e = some s') : Inv s' := by
  unfold step at hs
  split at hs
  · cases hs
  · cases e with
    | arrive g =>
      simp only at hs
      split at hs
      · cases hs; exact ⟨h.nodup, h.calls, h.dnodup, h.dfl, h.uniq, h.lock⟩
      · rename_i hg; cases hs; exact arrive_inv h hg
    | go i =>
      simp only at hs
      cases ht : s.thr[i]? with
      | none => simp [ht] at hs
      | some t => rw [ht] at hs; exact go_inv h ht hs

theorem run_inv {s s' : St} (h : Inv s) {l : List Ev} (hr : run s l = some s') : Inv s' := by
  induction l generalizing s with
  | nil => simp only [run, List.foldlM_nil] at hr; cases hr; exact h
  | cons e l ih =>
    simp only [run, List.foldlM_cons] at hr
    cases hs : step s e with
    | none => rw [hs] at hr; cases hr
    | some m => rw [hs] at hr; exact ih (step_inv h hs) hr

/-! ## C248 -/

/-- In every schedule: a callback is called at most once for an arrival, and the handlers that have called it are those that are past it. -/
theorem called_once_partial (l : List Ev) (s : St) (hr : run init l = some s) :
    s.calls.Nodup ∧ (∀ i g, s.thr[i]? = some (g, .done) → i ∈ s.calls) ∧ (∀ i ∈ s.calls, i < s.thr.length) := by
  have h := run_inv inv_init hr
  refine ⟨h.nodup, fun i g hi => (h.calls i).2 ⟨_, hi, rfl⟩, fun i hi => ?_⟩
  obtain ⟨t, ht, -⟩ := (h.calls i).1 hi
  by_contra hc
  rw [List.getElem?_eq_none (by omega)] at ht
  simp at ht

/-- Callbacks never run at the same time in two threads: there is only one between entering and leaving. -/
theorem callbacks_exclude (l : List Ev) (s : St) (hr : run init l = some s) (i j g k : Nat) (hi : s.thr[i]? = some (g, .call))
    (hj : s.thr[j]? = some (k, .call)) : i = j := by
  have h := run_inv inv_init hr
  have h1 := (h.lock i).2 ⟨_, hi, rfl⟩
  have h2 := (h.lock j).2 ⟨_, hj, rfl⟩
  rw [h1] at h2
  injection h2

/-- Signals that arrive when no handler is active. -/
def one (sig i : Nat) : List Ev := .arrive sig :: List.replicate 8 (.go i)

/-- All handlers have ended and the signals have their handlers. -/
def Quiet (s : St) (n : Nat) : Prop :=
  s.thr.length = n ∧ (∀ t ∈ s.thr, t.2 = .done) ∧ s.dfl = [] ∧ s.lock = none ∧ s.running = false ∧ s.dead = none ∧ s.calls = List.range n

theorem quiet_one (s : St) (n g : Nat) (h : Quiet s n) :
    ∃ s', run s (one g n) = some s' ∧ Quiet s' (n + 1) ∧ s'.thr = s.thr ++ [(g, .done)] := by
  obtain ⟨thr, dfl, lock, running, calls, dead⟩ := s
  obtain ⟨h1, h2, h3, h4, h5, h6, h7⟩ := h
  simp only at h1 h2 h3 h4 h5 h6 h7
  subst h1 h3 h4 h5 h6 h7
  refine ⟨⟨thr ++ [(g, .done)], [], none, false, List.range thr.length ++ [thr.length], none⟩, ?_, ?_, rfl⟩
  · simp [run, one, List.replicate, step, go]
  · refine ⟨by simp, ?_, rfl, rfl, rfl, rfl, by rw [List.range_succ]⟩
    intro t ht
    rcases List.mem_append.1 ht with ht | ht
    · exact h2 t ht
    · simp only [List.mem_singleton] at ht; subst ht; rfl

/-- The whole schedule of signals one after the other. -/
def series : Nat → List Nat → List Ev
  | _, [] => []
  | n, g :: gs => one g n ++ series (n + 1) gs

theorem series_quiet (gs : List Nat) (s : St) (n : Nat) (h : Quiet s n) :
    ∃ s', run s (series n gs) = some s' ∧ Quiet s' (n + gs.length) ∧ s'.thr = s.thr ++ gs.map (·, .done) := by
  induction gs generalizing s n with
  | nil => exact ⟨s, rfl, h, by simp⟩
  | cons g gs ih =>
    obtain ⟨m, m1, m2, m3⟩ := quiet_one s n g h
    obtain ⟨e, e1, e2, e3⟩ := ih m (n + 1) m2
    refine ⟨e, ?_, by rw [List.length_cons, show n + (gs.length + 1) = n + 1 + gs.length by omega]; exact e2, by rw [e3, m3]; simp⟩
    show List.foldlM step s (one g n ++ series (n + 1) gs) = some e
    rw [List.foldlM_append]
    rw [show List.foldlM step s (one g n) = some m from m1]
    exact e1

/-- Signals that arrive one after the other, each after the handler of the one before has ended, are all delivered, once and in order. -/
theorem one_by_one_partial (gs : List Nat) :
    ∃ s, run init (series 0 gs) = some s ∧ s.dead = none ∧ s.thr = gs.map (·, .done) ∧ s.calls = List.range gs.length := by
  obtain ⟨s, h1, h2, h3⟩ := series_quiet gs init 0 ⟨rfl, by simp [init], rfl, rfl, rfl, rfl, rfl⟩
  refine ⟨s, h1, h2.2.2.2.2.2.1, by rw [h3]; simp [init], ?_⟩
  have := h2.2.2.2.2.2.2
  rwa [Nat.zero_add] at this

/-- In every schedule: a signal that arrives again before the handler of its first arrival has installed itself again ends the process. -/
theorem again_too_early (l : List Ev) (s : St) (hr : run init l = some s) (hd : s.dead = none) (i g : Nat) (p : Pc)
    (hi : s.thr[i]? = some (g, p)) (hp : p = .set ∨ p = .test ∨ p = .mark ∨ p = .enter ∨ p = .reinstall) :
    step s (.arrive g) = some { s with dead := some .default } := by
  have h := run_inv inv_init hr
  have hm : g ∈ s.dfl := (h.dfl g).2 ⟨i, _, hi, rfl, by rcases hp with hp | hp | hp | hp | hp <;> subst hp <;> rfl⟩
  simp [step, hd, hm]

/-- And only then. -/
theorem again_later (l : List Ev) (s : St) (hr : run init l = some s) (hd : s.dead = none) (g : Nat)
    (hg : ∀ (i : Nat) (p : Pc), s.thr[i]? = some (g, p) → p = .call ∨ p = .leave ∨ p = .unmark ∨ p = .done) :
    ∃ s', step s (.arrive g) = some s' ∧ s'.dead = none ∧ s'.thr = s.thr ++ [(g, .set)] := by
  have h := run_inv inv_init hr
  have hm : g ∉ s.dfl := by
    rw [h.dfl]
    rintro ⟨i, ⟨g', p⟩, h1, h2, h3⟩
    simp only at h2; subst h2
    rcases hg i p h1 with hp | hp | hp | hp <;> subst hp <;> simp [Pc.unset] at h3
  refine ⟨{ s with thr := s.thr ++ [(g, .set)], dfl := g :: s.dfl }, ?_, hd, rfl⟩
  simp only [step, hd, ne_eq, not_true_eq_false, if_false, if_neg hm]

example : ∃ s, run init [.arrive 2, .go 0, .go 0, .arrive 15] = some s ∧ s.dead = none ∧ s.thr[0]? = some (2, .mark) :=
  ⟨_, rfl, rfl, rfl⟩

/-- After any number of signals that went well: another signal (or the same again) that arrives while a callback runs is not delivered if its
thread goes on right after the critical section is free, but ends the process with `exit(1)`; if the first thread goes on before it, both
are delivered. -/
theorem second_during_callback (gs : List Nat) (g k : Nat) :
    let n := gs.length
    (run init (series 0 gs ++ [.arrive g, .go n, .go n, .go n, .go n, .go n] ++
        [.arrive k, .go n, .go n, .go (n + 1), .go (n + 1)])).map (fun s => (s.dead, s.calls)) = some (some .exit1, List.range (n + 1)) ∧
    (run init (series 0 gs ++ [.arrive g, .go n, .go n, .go n, .go n, .go n] ++
        ([.arrive k, .go n, .go n, .go n] ++ List.replicate 8 (.go (n + 1))))).map (fun s => (s.dead, s.calls)) =
      some (none, List.range (n + 2)) := by
  intro n
  obtain ⟨s, h1, h2, h3⟩ := series_quiet gs init 0 ⟨rfl, by simp [init], rfl, rfl, rfl, rfl, rfl⟩
  rw [Nat.zero_add] at h2
  obtain ⟨thr, dfl, lock, running, calls, dead⟩ := s
  obtain ⟨q1, q2, q3, q4, q5, q6, q7⟩ := h2
  simp only at q1 q2 q3 q4 q5 q6 q7
  subst q3 q4 q5 q6 q7
  have e1 : List.foldlM step init (series 0 gs) = some _ := h1
  have hn : n = thr.length := q1.symm
  simp only [run, List.foldlM_append, e1]
  rw [← show n = gs.length from rfl, hn]
  constructor
  · simp [step, go, List.range_succ]
  · simp [step, go, List.range_succ, List.replicate]

end Verif.Win.Signals
