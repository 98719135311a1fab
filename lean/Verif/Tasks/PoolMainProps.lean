import Verif.Tasks.PoolMain

/-!
# A pool thread serves what it is given
-/

namespace Verif.Tasks.Count

/-- The history of a pool thread under an infinite sequence of events. -/
def hist (f : Nat → Ev) : Nat → Pool
  | 0 => Pool.init
  | n + 1 => step (hist f n) (f n)

/-- The thread goes on scheduling. -/
def Ev.isTurn : Ev → Prop
  | .turn _ _ _ => True
  | _ => False

/-- No group of tasks comes to its end at the queue, no task of the thread comes to the end of a wait without having met a sleeper, and the pool is
not told to stop. -/
def Ev.plain : Ev → Prop
  | .turn acts _ group => group = false ∧ acts.count (.waitEnd false) = 0
  | .stop => False
  | _ => True

theorem acts_run (xs : List Act) (s : St) : ∃ l, (xs.foldl act s).run = s.run ++ l := by
  induction xs generalizing s with
  | nil => exact ⟨[], by simp⟩
  | cons x xs ih =>
    obtain ⟨l, hl⟩ := ih (act s x)
    cases x with
    | spawn t => exact ⟨t :: l, by rw [List.foldl_cons, hl]; simp [act]⟩
    | waitEnd b => exact ⟨l, by rw [List.foldl_cons, hl]; cases b <;> rfl⟩

theorem fin_run (s : St) (t : Nat) (f : Fin) : ∃ l, (fin s t f).run = s.run ++ l := by
  cases f with
  | yield => exact ⟨[t], rfl⟩
  | finish => exact ⟨[], by simp [fin]⟩
  | sleep => exact ⟨[], by simp [fin]⟩
  | park => exact ⟨[], by simp [fin]⟩

theorem wake_run (n : Nat) (s : St) : ∃ l, (n.repeat wakeOne s).run = s.run ++ l := by
  induction n with
  | zero => exact ⟨[], by simp [Nat.repeat]⟩
  | succ n ih =>
    obtain ⟨l, hl⟩ := ih
    have one : ∀ s : St, ∃ l, (wakeOne s).run = s.run ++ l := by
      intro s
      unfold wakeOne
      split
      · exact ⟨[], by simp⟩
      · exact ⟨[_], rfl⟩
    obtain ⟨l', hl'⟩ := one (n.repeat wakeOne s)
    exact ⟨l ++ l', by show (wakeOne (n.repeat wakeOne s)).run = _; rw [hl', hl]; simp⟩

/-- A turn takes the first ready task off the run queue and adds at its end. -/
theorem turn_run (s : St) (acts : List Act) (f : Fin) (t : Nat) (rest : List Nat) (h : s.run = t :: rest) :
    ∃ l, (turn s (.user acts f)).run = rest ++ l := by
  unfold turn
  rw [h]
  dsimp only
  obtain ⟨l1, h1⟩ := acts_run acts { s with run := rest }
  obtain ⟨l2, h2⟩ := fin_run (acts.foldl act { s with run := rest }) t f
  exact ⟨l1 ++ l2, by rw [h2, h1]; simp⟩

theorem spawns_run (l : List Nat) (s : St) (tail : List Act) :
    ∃ r, ((l.map Act.spawn ++ tail).foldl act s).run = s.run ++ l ++ r := by
  induction l generalizing s with
  | nil =>
    obtain ⟨r, hr⟩ := acts_run tail s
    exact ⟨r, by simpa using hr⟩
  | cons x l ih =>
    obtain ⟨r, hr⟩ := ih (act s (.spawn x))
    exact ⟨r, by rw [List.map_cons, List.cons_append, List.foldl_cons, hr]; simp [act]⟩

/-- The main task of the pool is ready, nothing has lowered the count, the thread is not to stop. -/
structure Good (p : Pool) : Prop where
  inv : Inv p.th
  bare : p.th.bare = 0
  stop : p.stop = false
  main : 0 ∈ p.th.run

theorem Good.count {p : Pool} (h : Good p) : ¬ (p.th.count = 0 ∨ p.stop = true) := by
  have := h.inv.count
  rw [h.bare] at this
  have hl : 0 < p.th.run.length := List.length_pos_of_mem h.main
  rintro (h0 | h0)
  · omega
  · rw [h.stop] at h0; exact absurd h0 (by simp)

theorem count_spawns (l : List Nat) : (l.map Act.spawn).count (Act.waitEnd false) = 0 := by
  rw [List.count_eq_zero]
  simp

theorem init_good : Good Pool.init := ⟨start_inv 0, rfl, rfl, by simp [Pool.init, start, act]⟩

theorem step_good {p : Pool} (h : Good p) (e : Ev) (he : e.plain) : Good (step p e) := by
  cases e with
  | push t => exact ⟨h.inv, h.bare, h.stop, h.main⟩
  | stop => exact he.elim
  | system n =>
    simp only [step]
    rw [if_neg h.count]
    refine ⟨turn_inv h.inv (.system n), ?_, h.stop, ?_⟩
    · have := turn_bare p.th (.system n)
      rw [h.bare] at this
      exact Nat.le_zero.1 this
    · obtain ⟨l, hl⟩ := wake_run n p.th
      show 0 ∈ (n.repeat wakeOne p.th).run
      rw [hl]
      exact List.mem_append_left _ h.main
  | unpark =>
    simp only [step]
    rw [if_neg h.count]
    refine ⟨turn_inv h.inv .unpark, ?_, h.stop, ?_⟩
    · have := turn_bare p.th .unpark
      rw [h.bare] at this
      exact Nat.le_zero.1 this
    · simp only [turn]
      split
      · exact h.main
      · exact List.mem_append_left _ h.main
  | turn acts f group =>
    obtain ⟨hg, ha⟩ := he
    subst hg
    simp only [step]
    rw [if_neg h.count]
    cases hr : p.th.run with
    | nil => exact h
    | cons t rest =>
      dsimp only
      split
      · rename_i h0
        subst h0
        simp only [mainTurn, Bool.false_eq_true, if_false, List.append_nil]
        refine ⟨turn_inv h.inv (.user (p.pend.map Act.spawn) .yield), ?_, h.stop, ?_⟩
        · have := turn_bare p.th (.user (p.pend.map Act.spawn) .yield)
          rw [h.bare] at this
          simp only [Turn.bares] at this
          rw [count_spawns] at this
          exact Nat.le_zero.1 this
        · simp only [turn, hr, fin]
          simp
      · rename_i h0
        refine ⟨turn_inv h.inv (.user acts f), ?_, h.stop, ?_⟩
        · have := turn_bare p.th (.user acts f)
          rw [h.bare] at this
          simp only [Turn.bares] at this
          rw [ha] at this
          exact Nat.le_zero.1 this
        · obtain ⟨l, hl⟩ := turn_run p.th acts f t rest hr
          show 0 ∈ (turn p.th (.user acts f)).run
          rw [hl]
          have hm := h.main
          rw [hr] at hm
          rcases List.mem_cons.1 hm with hm | hm
          · exact absurd hm.symm h0
          · exact List.mem_append_left _ hm

theorem hist_good (f : Nat → Ev) (hf : ∀ n, (f n).plain) (n : Nat) : Good (hist f n) := by
  induction n with
  | zero => exact init_good
  | succ n ih => exact step_good ih _ (hf n)

/-- What comes nearer at each turn and nearer or stays otherwise happens, if there is always another turn. -/
theorem eventually (f : Nat → Ev) (hinf : ∀ n, ∃ m, n ≤ m ∧ (f m).isTurn) (P : Nat → Pool → Prop) (Q : Pool → Prop)
    (hstep : ∀ j n, P j (hist f n) → Q (hist f (n + 1)) ∨
      ∃ j', j' ≤ j ∧ P j' (hist f (n + 1)) ∧ ((f n).isTurn → j' < j)) :
    ∀ j n, P j (hist f n) → ∃ m, n ≤ m ∧ Q (hist f m) := by
  intro j
  induction j using Nat.strong_induction_on with
  | _ j ih =>
    intro n hP
    obtain ⟨m, hm, ht⟩ := hinf n
    obtain ⟨d, rfl⟩ := Nat.exists_eq_add_of_le hm
    clear hm
    induction d generalizing n with
    | zero =>
      rcases hstep j n hP with hq | ⟨j', _, hP', hlt⟩
      · exact ⟨n + 1, by omega, hq⟩
      · obtain ⟨m, hm, hq⟩ := ih j' (hlt ht) (n + 1) hP'
        exact ⟨m, by omega, hq⟩
    | succ d ihd =>
      rcases hstep j n hP with hq | ⟨j', hle, hP', _⟩
      · exact ⟨n + 1, by omega, hq⟩
      · rcases Nat.lt_or_eq_of_le hle with hlt | rfl
        · obtain ⟨m, hm, hq⟩ := ih j' hlt (n + 1) hP'
          exact ⟨m, by omega, hq⟩
        · obtain ⟨m, hm, hq⟩ := ihd (n + 1) hP' (by rw [show n + 1 + d = n + (d + 1) by omega]; exact ht)
          exact ⟨m, by omega, hq⟩

/-- A task on the run queue moves up at each turn until it has one. -/
theorem step_place {p : Pool} (h : Good p) (e : Ev) (he : e.plain) (x j : Nat) (hj : p.th.run[j]? = some x) :
    x ∈ (step p e).turns ∨ ∃ j', j' ≤ j ∧ (step p e).th.run[j']? = some x ∧ (e.isTurn → j' < j) := by
  have stay : ∀ l, (step p e).th.run = p.th.run ++ l → ¬ e.isTurn →
      ∃ j', j' ≤ j ∧ (step p e).th.run[j']? = some x ∧ (e.isTurn → j' < j) := by
    intro l hl hn
    refine ⟨j, Nat.le_refl _, ?_, fun h => absurd h hn⟩
    rw [hl, List.getElem?_append_left (List.getElem?_eq_some_iff.1 hj).1]
    exact hj
  cases e with
  | push t => exact Or.inr (stay [] (by simp [step]) (fun h => h))
  | stop => exact he.elim
  | system n =>
    obtain ⟨l, hl⟩ := wake_run n p.th
    refine Or.inr (stay l ?_ (fun h => h))
    simp only [step]
    rw [if_neg h.count]
    exact hl
  | unpark =>
    cases hp : p.th.parked with
    | nil =>
      refine Or.inr (stay [] ?_ (fun h => h))
      simp only [step]
      rw [if_neg h.count]
      simp [turn, hp]
    | cons t ts =>
      refine Or.inr (stay [t] ?_ (fun h => h))
      simp only [step]
      rw [if_neg h.count]
      simp [turn, hp]
  | turn acts f group =>
    cases hr : p.th.run with
    | nil => rw [hr] at hj; simp at hj
    | cons t rest =>
      rw [hr] at hj
      have hturn : t ∈ (step p (.turn acts f group)).turns ∧
          ∃ l, (step p (.turn acts f group)).th.run = rest ++ l := by
        simp only [step]
        rw [if_neg h.count, hr]
        dsimp only
        split
        · rename_i h0
          subst h0
          refine ⟨by simp [mainTurn], ?_⟩
          exact turn_run p.th _ _ 0 rest hr
        · exact ⟨by simp, turn_run p.th _ _ t rest hr⟩
      obtain ⟨ht, l, hl⟩ := hturn
      cases j with
      | zero =>
        simp only [List.getElem?_cons_zero, Option.some.injEq] at hj
        rw [← hj]
        exact Or.inl ht
      | succ j =>
        rw [List.getElem?_cons_succ] at hj
        refine Or.inr ⟨j, by omega, ?_, fun _ => by omega⟩
        rw [hl, List.getElem?_append_left (List.getElem?_eq_some_iff.1 hj).1]
        exact hj

/-- A task handed over is on the run queue after the next turn of the main task. -/
theorem step_pend {p : Pool} (h : Good p) (e : Ev) (he : e.plain) (t j : Nat) (ht : t ∈ p.pend) (hj : p.th.run[j]? = some 0) :
    t ∈ (step p e).th.run ∨ ∃ j', j' ≤ j ∧ (t ∈ (step p e).pend ∧ (step p e).th.run[j']? = some 0) ∧ (e.isTurn → j' < j) := by
  by_cases hm : ∃ acts f group rest, e = .turn acts f group ∧ p.th.run = 0 :: rest
  · obtain ⟨acts, f, group, rest, rfl, hr⟩ := hm
    left
    simp only [step]
    rw [if_neg h.count, hr]
    simp only [if_true, mainTurn, turn, hr]
    obtain ⟨r, hrr⟩ := spawns_run p.pend { p.th with run := rest } (if group then [.waitEnd false] else [])
    simp only [fin]
    rw [hrr]
    simp [ht]
  · right
    have hpend : t ∈ (step p e).pend := by
      cases e with
      | push u => simp [step, ht]
      | stop => exact he.elim
      | system n => simp only [step]; split <;> exact ht
      | unpark => simp only [step]; split <;> exact ht
      | turn acts f group =>
        simp only [step]
        rw [if_neg h.count]
        cases hr : p.th.run with
        | nil => exact ht
        | cons u rest =>
          dsimp only
          split
          · rename_i h0
            exact absurd ⟨acts, f, group, rest, rfl, by rw [hr, h0]⟩ hm
          · exact ht
    cases j with
    | zero =>
      have hnt : ¬ e.isTurn := by
        intro hti
        cases e with
        | turn acts f group =>
          cases hr : p.th.run with
          | nil => rw [hr] at hj; simp at hj
          | cons u rest =>
            rw [hr] at hj
            simp only [List.getElem?_cons_zero, Option.some.injEq] at hj
            exact hm ⟨acts, f, group, rest, rfl, by rw [hr, hj]⟩
        | _ => exact hti
      have : ∃ l, (step p e).th.run = p.th.run ++ l := by
        cases e with
        | push u => exact ⟨[], by simp [step]⟩
        | stop => exact he.elim
        | system n =>
          simp only [step]
          rw [if_neg h.count]
          exact wake_run n p.th
        | unpark =>
          simp only [step]
          rw [if_neg h.count]
          simp only [turn]
          split
          · exact ⟨[], by simp⟩
          · exact ⟨[_], rfl⟩
        | turn acts f group => exact absurd trivial hnt
      obtain ⟨l, hl⟩ := this
      refine ⟨0, Nat.le_refl _, ⟨hpend, ?_⟩, fun h => absurd h hnt⟩
      rw [hl, List.getElem?_append_left (List.getElem?_eq_some_iff.1 hj).1]
      exact hj
    | succ j =>
      by_cases hti : e.isTurn
      · cases e with
        | turn acts f group =>
          cases hr : p.th.run with
          | nil => rw [hr] at hj; simp at hj
          | cons u rest =>
            have hu : u ≠ 0 := fun h0 => hm ⟨acts, f, group, rest, rfl, by rw [hr, h0]⟩
            rw [hr, List.getElem?_cons_succ] at hj
            refine ⟨j, by omega, ⟨hpend, ?_⟩, fun _ => by omega⟩
            simp only [step]
            rw [if_neg h.count, hr]
            dsimp only
            rw [if_neg hu]
            obtain ⟨l, hl⟩ := turn_run p.th acts f u rest hr
            dsimp only
            rw [hl, List.getElem?_append_left (List.getElem?_eq_some_iff.1 hj).1]
            exact hj
        | _ => exact hti.elim
      · have : ∃ l, (step p e).th.run = p.th.run ++ l := by
          cases e with
          | push u => exact ⟨[], by simp [step]⟩
          | stop => exact he.elim
          | system n =>
            simp only [step]
            rw [if_neg h.count]
            exact wake_run n p.th
          | unpark =>
            simp only [step]
            rw [if_neg h.count]
            simp only [turn]
            split
            · exact ⟨[], by simp⟩
            · exact ⟨[_], rfl⟩
          | turn acts f group => exact absurd trivial hti
        obtain ⟨l, hl⟩ := this
        refine ⟨j + 1, Nat.le_refl _, ⟨hpend, ?_⟩, fun h => absurd h hti⟩
        rw [hl, List.getElem?_append_left (List.getElem?_eq_some_iff.1 hj).1]
        exact hj

/-- C182 (the part that holds): a pool thread never stops by itself, and every task handed over to it gets a turn, whatever its tasks do in their
turns, as long as it goes on scheduling, no group was posted to it, no task of it came to the end of a wait without having met a sleeper, and the pool
was not told to stop.  Missing: groups (`group_ends_thread`). -/
theorem pool_serves_partial (f : Nat → Ev) (hf : ∀ n, (f n).plain) (hinf : ∀ n, ∃ m, n ≤ m ∧ (f m).isTurn) :
    (∀ n, (hist f n).th.count ≠ 0) ∧
    ∀ n t, t ∈ (hist f n).pend → ∃ m, n ≤ m ∧ t ∈ (hist f m).turns := by
  refine ⟨fun n h0 => (hist_good f hf n).count (Or.inl h0), ?_⟩
  intro n t ht
  obtain ⟨j, hj⟩ := List.mem_iff_getElem?.1 (hist_good f hf n).main
  obtain ⟨k, hk, hrun⟩ := eventually f hinf (fun j p => t ∈ p.pend ∧ p.th.run[j]? = some 0) (fun p => t ∈ p.th.run)
    (fun j n hP => step_pend (hist_good f hf n) (f n) (hf n) t j hP.1 hP.2) j n ⟨ht, hj⟩
  obtain ⟨i, hi⟩ := List.mem_iff_getElem?.1 hrun
  obtain ⟨m, hm, hq⟩ := eventually f hinf (fun j p => p.th.run[j]? = some t) (fun p => t ∈ p.turns)
    (fun j n hP => step_place (hist_good f hf n) (f n) (hf n) t j hP) i k hi
  exact ⟨m, by omega, hq⟩

theorem dead_stays (p : Pool) (h : p.th.count = 0 ∨ p.stop = true) (es : List Ev) :
    (runs p es).turns = p.turns ∧ (runs p es).th = p.th ∧ ∃ l, (runs p es).pend = p.pend ++ l := by
  induction es generalizing p with
  | nil => exact ⟨rfl, rfl, [], by simp [runs]⟩
  | cons e es ih =>
    have hs : (step p e).turns = p.turns ∧ (step p e).th = p.th ∧ (∃ l, (step p e).pend = p.pend ++ l) ∧
        ((step p e).th.count = 0 ∨ (step p e).stop = true) := by
      cases e with
      | push t => exact ⟨rfl, rfl, ⟨[t], rfl⟩, h⟩
      | stop => exact ⟨rfl, rfl, ⟨[], by simp [step]⟩, Or.inr rfl⟩
      | system n => simp only [step]; rw [if_pos h]; exact ⟨rfl, rfl, ⟨[], by simp⟩, h⟩
      | unpark => simp only [step]; rw [if_pos h]; exact ⟨rfl, rfl, ⟨[], by simp⟩, h⟩
      | turn acts f group => simp only [step]; rw [if_pos h]; exact ⟨rfl, rfl, ⟨[], by simp⟩, h⟩
    obtain ⟨h1, h2, ⟨l, h3⟩, h4⟩ := hs
    obtain ⟨i1, i2, l', i3⟩ := ih (step p e) h4
    refine ⟨i1.trans h1, i2.trans h2, l ++ l', ?_⟩
    show (runs (step p e) es).pend = _
    rw [i3, h3]
    simp

/-- C182, negated: whatever a pool thread did before, when a group posted to it has come to its end and the thread has no other task at that time,
the thread stops; every task handed over to it from then on is never given a turn. -/
theorem group_ends_thread (es : List Ev) (hes : ∀ e ∈ es, e.plain) (acts : List Act) (fn : Fin) (later : List Ev)
    (hrun : (runs Pool.init es).th.run = [0]) (hsl : (runs Pool.init es).th.asleep = [])
    (hpk : (runs Pool.init es).th.parked = []) (hpend : (runs Pool.init es).pend = []) :
    (runs Pool.init (es ++ [.turn acts fn true])).th.count = 0 ∧
    (runs Pool.init (es ++ [.turn acts fn true] ++ later)).turns = (runs Pool.init es).turns ++ [0] := by
  have good : Good (runs Pool.init es) := by
    have : ∀ (es : List Ev) (p : Pool), (∀ e ∈ es, e.plain) → Good p → Good (runs p es) := by
      intro es
      induction es with
      | nil => exact fun p _ h => h
      | cons e es ih =>
        exact fun p h1 h2 => ih (step p e) (fun x hx => h1 x (List.mem_cons_of_mem _ hx))
          (step_good h2 e (h1 e List.mem_cons_self))
    exact this es _ hes init_good
  have hc := good.inv.count
  rw [good.bare, hrun, hsl, hpk] at hc
  simp at hc
  have e1 : runs Pool.init (es ++ [.turn acts fn true]) = step (runs Pool.init es) (.turn acts fn true) := by
    simp [runs]
  have e2 : step (runs Pool.init es) (.turn acts fn true) = mainTurn (runs Pool.init es) true := by
    simp only [step]
    rw [if_neg good.count, hrun]
    rfl
  have h0 : (mainTurn (runs Pool.init es) true).th.count = 0 := by
    simp only [mainTurn, hpend, turn, hrun, List.map_nil, List.nil_append, if_true, List.foldl_cons, List.foldl_nil, act, fin, Bool.false_eq_true,
      if_false]
    omega
  rw [e1, e2]
  refine ⟨h0, ?_⟩
  have e3 : runs Pool.init (es ++ [.turn acts fn true] ++ later) = runs (mainTurn (runs Pool.init es) true) later := by
    rw [← e2, ← e1]
    simp [runs]
  rw [e3, (dead_stays _ (Or.inl h0) later).1]
  rfl

/-- C182: a pool that is told to stop gives no further turn to any task: what was handed over or not finished is dropped. -/
theorem stop_drops (p : Pool) (es : List Ev) : (runs (step p .stop) es).turns = p.turns :=
  (dead_stays (step p .stop) (Or.inr rfl) es).1

/-- Tasks 1 and 2 are handed over and run. -/
example : (runs Pool.init [.push 1, .push 2, .turn [] .yield false, .turn [] .sleep false, .turn [] .finish false, .system 1, .turn [] .yield false,
    .turn [] .finish false]).turns = [0, 1, 2, 0, 1] := by decide

/-- The hypotheses of `group_ends_thread` are met at the start, and after a task has come and gone. -/
example : (runs Pool.init [.push 1, .turn [] .yield false, .turn [] .finish false]).th.run = [0] ∧
    (runs Pool.init [.push 1, .turn [] .yield false, .turn [] .finish false, .turn [] .yield true, .push 2, .turn [] .yield false,
      .turn [] .yield false]).turns = [0, 1, 0] := by decide

end Verif.Tasks.Count
