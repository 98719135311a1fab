import Verif.Tasks.Count

/-!
# When the loops of tasks end
-/

namespace Verif.Tasks.Count

structure Inv (s : St) : Prop where
  tasks : List.Perm s.started (s.ended ++ s.run ++ (s.asleep ++ s.parked))
  sleepers : s.sleepCount = s.asleep.length
  count : s.count + s.bare = s.run.length + s.asleep.length + s.parked.length + (min s.asleep.length 1 : Nat)

/-- The invariant while `t` runs and is in no list. -/
structure InvAt (s : St) (t : Nat) : Prop where
  tasks : List.Perm s.started (s.ended ++ s.run ++ (s.asleep ++ s.parked) ++ [t])
  sleepers : s.sleepCount = s.asleep.length
  count : s.count + s.bare = s.run.length + s.asleep.length + s.parked.length + (min s.asleep.length 1 : Nat) + 1

theorem perm_mid {α : Type} (a b c : List α) (x : α) : List.Perm (a ++ b ++ c ++ [x]) (a ++ (b ++ [x]) ++ c) := by
  have : List.Perm (c ++ [x]) ([x] ++ c) := List.perm_append_comm
  calc List.Perm (a ++ b ++ c ++ [x]) (a ++ b ++ (c ++ [x])) := by rw [List.append_assoc (a ++ b)]
    List.Perm _ (a ++ b ++ ([x] ++ c)) := List.Perm.append_left _ this
    List.Perm _ _ := by simp

theorem perm_end {α : Type} (a b c : List α) (x : α) : List.Perm (a ++ b ++ c ++ [x]) (a ++ [x] ++ b ++ c) := by
  have : List.Perm ((b ++ c) ++ [x]) ([x] ++ (b ++ c)) := List.perm_append_comm
  calc List.Perm (a ++ b ++ c ++ [x]) (a ++ ((b ++ c) ++ [x])) := by simp
    List.Perm _ (a ++ ([x] ++ (b ++ c))) := List.Perm.append_left _ this
    List.Perm _ _ := by simp

theorem act_inv {s : St} {t : Nat} (h : InvAt s t) (x : Act) : InvAt (act s x) t := by
  obtain ⟨h1, h2, h3⟩ := h
  cases x with
  | spawn u =>
    refine ⟨?_, h2, ?_⟩
    · show List.Perm (s.started ++ [u]) (s.ended ++ (s.run ++ [u]) ++ (s.asleep ++ s.parked) ++ [t])
      have e1 := h1.append_right [u]
      refine e1.trans ?_
      have e2 : List.Perm (s.ended ++ s.run ++ (s.asleep ++ s.parked) ++ [t] ++ [u])
          (s.ended ++ s.run ++ (s.asleep ++ s.parked ++ [t]) ++ [u]) := by
        simp
      refine e2.trans ((perm_mid s.ended s.run (s.asleep ++ s.parked ++ [t]) u).trans ?_)
      simp
    · simp only [act, List.length_append, List.length_singleton]
      omega
  | waitEnd slept =>
    cases slept
    · refine ⟨h1, h2, ?_⟩
      simp only [act, Bool.false_eq_true, if_false]
      omega
    · exact ⟨h1, h2, h3⟩

theorem acts_inv (xs : List Act) {s : St} {t : Nat} (h : InvAt s t) : InvAt (xs.foldl act s) t := by
  induction xs generalizing s with
  | nil => exact h
  | cons x xs ih => exact ih (act_inv h x)

theorem fin_inv {s : St} {t : Nat} (h : InvAt s t) (f : Fin) : Inv (fin s t f) := by
  obtain ⟨h1, h2, h3⟩ := h
  cases f with
  | yield =>
    refine ⟨h1.trans (perm_mid _ _ _ _), h2, ?_⟩
    simp only [fin, List.length_append, List.length_singleton]
    omega
  | finish =>
    refine ⟨h1.trans (perm_end _ _ _ _), h2, ?_⟩
    simp only [fin]
    omega
  | sleep =>
    refine ⟨?_, ?_, ?_⟩
    · show List.Perm s.started (s.ended ++ s.run ++ (s.asleep ++ [t] ++ s.parked))
      have e := perm_mid (s.ended ++ s.run) s.asleep s.parked t
      refine h1.trans ?_
      simpa using e
    · simp only [fin, List.length_append, List.length_singleton]
      push_cast
      omega
    · simp only [fin, List.length_append, List.length_singleton]
      split <;> omega
  | park =>
    refine ⟨?_, h2, ?_⟩
    · show List.Perm s.started (s.ended ++ s.run ++ (s.asleep ++ (s.parked ++ [t])))
      simpa using h1
    · simp only [fin, List.length_append, List.length_singleton]
      omega

theorem wakeOne_inv {s : St} (h : Inv s) : Inv (wakeOne s) := by
  obtain ⟨h1, h2, h3⟩ := h
  unfold wakeOne
  cases ha : s.asleep with
  | nil => exact ⟨h1, h2, h3⟩
  | cons t ts =>
    rw [ha] at h1 h2 h3
    simp only [List.length_cons] at h2 h3
    refine ⟨?_, ?_, ?_⟩
    · refine h1.trans ?_
      simp
    · show s.sleepCount - 1 = (ts.length : Int)
      omega
    · simp only [List.length_append, List.length_singleton]
      split <;> omega

theorem turn_inv {s : St} (h : Inv s) (x : Turn) : Inv (turn s x) := by
  cases x with
  | user acts f =>
    unfold turn
    cases hr : s.run with
    | nil => exact h
    | cons t rest =>
      refine fin_inv (acts_inv acts (s := { s with run := rest }) (t := t) ⟨?_, h.sleepers, ?_⟩) f
      · have := h.tasks
        rw [hr] at this
        refine this.trans ?_
        have e : List.Perm ([t] ++ (rest ++ (s.asleep ++ s.parked))) ((rest ++ (s.asleep ++ s.parked)) ++ [t]) :=
          List.perm_append_comm
        have := e.append_left s.ended
        simpa using this
      · have := h.count
        rw [hr] at this
        simp only [List.length_cons] at this
        dsimp only
        omega
  | system n =>
    unfold turn
    induction n with
    | zero => exact h
    | succ n ih => exact wakeOne_inv ih
  | unpark =>
    unfold turn
    cases hp : s.parked with
    | nil => exact h
    | cons t ts =>
      obtain ⟨h1, h2, h3⟩ := h
      rw [hp] at h1 h3
      simp only [List.length_cons] at h3
      refine ⟨?_, h2, ?_⟩
      · refine h1.trans ?_
        have e : List.Perm (s.asleep ++ [t] ++ ts) ([t] ++ s.asleep ++ ts) := List.perm_append_comm.append_right ts
        have := e.append_left (s.ended ++ s.run)
        simpa using this
      · simp only [List.length_append, List.length_singleton]
        omega

theorem start_inv (m : Nat) : Inv (start m) := by
  refine ⟨?_, rfl, ?_⟩ <;> simp [start, act]

theorem loop_inv (xs : List Turn) {s : St} (h : Inv s) : Inv (loop xs s) := by
  induction xs generalizing s with
  | nil => exact h
  | cons x xs ih =>
    unfold loop
    split
    · exact h
    · exact ih (turn_inv h x)

/-- The waits of a script at whose end the count is lowered. -/
def Turn.bares : Turn → Nat
  | .user acts _ => acts.count (.waitEnd false)
  | _ => 0

theorem act_bare (xs : List Act) (s : St) : (xs.foldl act s).bare = s.bare + xs.count (.waitEnd false) := by
  induction xs generalizing s with
  | nil => rfl
  | cons x xs ih =>
    rw [List.foldl_cons, ih]
    cases x with
    | spawn t => simp [act]
    | waitEnd b => cases b <;> simp [act]; omega

theorem repeat_bare (n : Nat) (s : St) : (n.repeat wakeOne s).bare = s.bare := by
  induction n with
  | zero => rfl
  | succ n ih =>
    show (wakeOne (n.repeat wakeOne s)).bare = s.bare
    rw [← ih]
    unfold wakeOne
    split <;> rfl

theorem turn_bare (s : St) (x : Turn) : (turn s x).bare ≤ s.bare + x.bares := by
  cases x with
  | user acts f =>
    unfold turn
    cases s.run with
    | nil => simp [Turn.bares]
    | cons t rest =>
      dsimp only
      have : (fin (acts.foldl act { s with run := rest }) t f).bare = (acts.foldl act { s with run := rest }).bare := by
        cases f <;> rfl
      rw [this, act_bare]
      exact Nat.le_refl _
  | system n => exact Nat.le_of_eq (repeat_bare n s)
  | unpark =>
    simp only [turn]
    split <;> exact Nat.le_refl _

theorem loop_bare (xs : List Turn) (s : St) (h : ∀ x ∈ xs, x.bares = 0) : (loop xs s).bare ≤ s.bare := by
  induction xs generalizing s with
  | nil => exact Nat.le_refl _
  | cons x xs ih =>
    unfold loop
    split
    · exact Nat.le_refl _
    · have h1 := ih (turn s x) (fun y hy => h y (List.mem_cons_of_mem _ hy))
      have h2 := turn_bare s x
      rw [h x List.mem_cons_self] at h2
      omega

/-- C181 (the part that holds): as long as no task comes to the end of a wait for a group without having met a sleeping member of it, `async_run`
stops exactly when every task that was started has ended, whatever the tasks do.  Missing: such waits (`bare_wait_never_right`). -/
theorem run_ends_partial (m : Nat) (xs : List Turn) (h : ∀ x ∈ xs, x.bares = 0) :
    ((loop xs (start m)).count = 0 ↔ List.Perm (loop xs (start m)).started (loop xs (start m)).ended) := by
  have hi := loop_inv xs (start_inv m)
  have hb : (loop xs (start m)).bare = 0 := Nat.le_zero.1 (loop_bare xs (start m) h)
  have hc := hi.count
  rw [hb] at hc
  have hp := hi.tasks
  constructor
  · intro h0
    rw [h0] at hc
    have h1 : (loop xs (start m)).run = [] := by
      apply List.length_eq_zero_iff.1
      omega
    have h2 : (loop xs (start m)).asleep = [] := by
      apply List.length_eq_zero_iff.1
      omega
    have h3 : (loop xs (start m)).parked = [] := by
      apply List.length_eq_zero_iff.1
      omega
    rw [h1, h2, h3] at hp
    simpa using hp
  · intro h0
    have hl := hp.length_eq
    rw [h0.length_eq] at hl
    simp only [List.length_append] at hl
    omega

/-- C181, negated: once a task has come to the end of a wait without having met a sleeping member, `async_run` never stops rightly: when it stops,
a task has not ended, and when all have ended, it goes on. -/
theorem bare_wait_never_right (m : Nat) (xs : List Turn) (h : 0 < (loop xs (start m)).bare) :
    ((loop xs (start m)).count = 0 → (loop xs (start m)).ended.length < (loop xs (start m)).started.length) ∧
    (List.Perm (loop xs (start m)).started (loop xs (start m)).ended → (loop xs (start m)).count < 0) := by
  have hi := loop_inv xs (start_inv m)
  have hc := hi.count
  have hl := hi.tasks.length_eq
  simp only [List.length_append] at hl
  constructor
  · intro h0
    rw [h0] at hc
    omega
  · intro hp
    rw [hp.length_eq] at hl
    omega

/-- C181, negated: for any number of members that end in their first turn, a main task that waits for them and then yields is never resumed. -/
theorem main_not_resumed (n : Nat) :
    let xs := Turn.user ((List.range n).map fun i => Act.spawn (i + 1)) .yield :: (List.replicate n (Turn.user [] .finish) ++
      [Turn.user [.waitEnd false] .yield])
    (loop xs (start 0)).count = 0 ∧ 0 ∉ (loop xs (start 0)).ended := by
  have spawn : ∀ (l : List Nat) (s : St), (l.map fun i => Act.spawn i).foldl act s =
      { s with run := s.run ++ l, count := s.count + l.length, started := s.started ++ l } := by
    intro l
    induction l with
    | nil => intro s; simp
    | cons x l ih =>
      intro s
      rw [List.map_cons, List.foldl_cons, ih]
      simp only [act, List.append_assoc, List.singleton_append, List.length_cons]
      congr 1
      push_cast
      omega
  have ends : ∀ (l : List Nat) (s : St) (ys : List Turn), s.run = l ++ [0] → s.count = l.length + 1 →
      loop (List.replicate l.length (Turn.user [] .finish) ++ ys) s =
        loop ys { s with run := [0], count := 1, ended := s.ended ++ l } := by
    intro l
    induction l with
    | nil =>
      intro s ys h1 h2
      obtain ⟨a, b, b', c, d, e, f, g⟩ := s
      simp only [List.nil_append, List.length_nil] at h1 h2
      subst h1; subst h2
      simp
    | cons x l ih =>
      intro s ys h1 h2
      rw [List.length_cons, List.replicate_succ, List.cons_append, loop, if_neg (by rw [h2]; simp only [List.length_cons]; omega)]
      have e : turn s (.user [] .finish) = { s with run := l ++ [0], ended := s.ended ++ [x], count := s.count - 1 } := by
        unfold turn
        rw [h1]
        rfl
      rw [e, ih _ ys rfl (by simp only [List.length_cons] at h2; push_cast at h2; show s.count - 1 = _; omega)]
      simp
  intro xs
  have hx : loop xs (start 0) = ⟨[0], [], [], (List.range n).map (· + 1), 0, 0, [0] ++ (List.range n).map (· + 1), 1⟩ := by
    show loop (Turn.user ((List.range n).map fun i => Act.spawn (i + 1)) .yield :: _) (start 0) = _
    rw [loop, if_neg (by simp [start, act])]
    have e : turn (start 0) (.user ((List.range n).map fun i => Act.spawn (i + 1)) .yield) =
        ⟨(List.range n).map (· + 1) ++ [0], [], [], [], 1 + n, 0, [0] ++ (List.range n).map (· + 1), 0⟩ := by
      have := spawn ((List.range n).map (· + 1)) ⟨[], [], [], [], 1, 0, [0], 0⟩
      rw [List.map_map] at this
      show fin (((List.range n).map (fun i => Act.spawn (i + 1))).foldl act ⟨[], [], [], [], 1, 0, [0], 0⟩) 0 .yield = _
      rw [show ((List.range n).map (fun i => Act.spawn (i + 1))) =
        (List.range n).map ((fun i => Act.spawn i) ∘ (· + 1)) from rfl, this]
      simp [fin]
    rw [e]
    have hl : ((List.range n).map (· + 1)).length = n := by simp
    have := ends ((List.range n).map (· + 1)) ⟨(List.range n).map (· + 1) ++ [0], [], [], [], 1 + n, 0,
      [0] ++ (List.range n).map (· + 1), 0⟩ [Turn.user [.waitEnd false] .yield] rfl (by rw [hl]; dsimp only; omega)
    rw [hl] at this
    rw [this]
    rfl
  rw [hx]
  refine ⟨rfl, ?_⟩
  simp

/-- Main starts a task that sleeps once, waits for it, and ends: the loop stops with both ended. -/
example : let s := loop [.user [.spawn 1] .yield, .user [] .sleep, .user [] .park, .system 1, .unpark, .user [] .finish, .user [.waitEnd true] .finish,
    .system 0] (start 0)
    s.count = 0 ∧ s.ended = [1, 0] := by decide

end Verif.Tasks.Count
