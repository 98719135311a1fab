import Verif.Proc.Spawn

/-!
# C85, C86: output and end of a spawned process
-/

namespace Verif.Proc.Spawn

open Verif (Bytes)
open Verif.Proc (End exitCode)

/-- What the output callback was given, put together. -/
def got (s : St) : Bytes := s.calls.flatten

structure Inv (cap : Nat) (s : St) : Prop where
  whole : s.task = .waiting → got s ++ s.pipe = s.out
  pre : got s <+: s.out
  room : s.pipe.length ≤ cap
  small : ∀ c ∈ s.calls, c ≠ [] ∧ c.length ≤ 32768
  waiting : s.task = .waiting → s.opn = true ∧ s.exits = [] ∧ s.life ≠ some .unknown
  after : s.task = .ended → s.opn = false ∧ s.exits.length = 1 ∧ s.life ≠ some .running ∧ ∀ e, s.life ≠ some (.ended e)
  failed : s.task = .failed → s.opn = false ∧ s.exits = []

theorem launch_inv (cap : Nat) (forked reg : Bool) : Inv cap (launch forked reg) := by
  cases forked <;> cases reg <;> exact ⟨by simp [launch, got], by simp [launch, got], by simp [launch], by simp [launch],
    by simp [launch], by simp [launch], by simp [launch]⟩

theorem turn_cases (s : St) :
    (turn s = s ∧ (s.task ≠ .waiting ∨ s.life = some .running)) ∨
    (s.task = .waiting ∧ (∃ e, s.life = some (.ended e) ∧ turn s = { finish (exitCode e) s with life := some .unknown })) ∨
    (s.task = .waiting ∧ (s.life = none ∨ s.life = some .unknown) ∧ turn s = finish 0 s) := by
  unfold turn
  cases ht : s.task with
  | waiting =>
    cases hl : s.life with
    | none => exact .inr (.inr ⟨rfl, .inl rfl, rfl⟩)
    | some l =>
      cases l with
      | running => exact .inl ⟨rfl, .inr rfl⟩
      | ended e => exact .inr (.inl ⟨rfl, e, rfl, rfl⟩)
      | unknown => exact .inr (.inr ⟨rfl, .inr rfl, rfl⟩)
  | ended => exact .inl ⟨rfl, .inl (by simp)⟩
  | failed => exact .inl ⟨rfl, .inl (by simp)⟩

theorem step_inv {cap : Nat} {s : St} (h : Inv cap s) (e : Ev) : Inv cap (step cap s e) := by
  cases e with
  | childWrites bs =>
    simp only [step]
    split
    · rename_i hr
      refine ⟨fun ht => ?_, ?_, ?_, h.small, h.waiting, fun ht => ?_, h.failed⟩
      · have := h.whole ht
        simp only [got] at this ⊢
        rw [← List.append_assoc, this]
      · exact h.pre.trans (List.prefix_append _ _)
      · have := h.room
        simp only [List.length_append, List.length_take]
        omega
      · have := h.after ht
        exact absurd hr this.2.2.1
    · exact h
  | childEnds e =>
    simp only [step]
    split
    · rename_i hr
      refine ⟨h.whole, h.pre, h.room, h.small, fun ht => ?_, fun ht => ?_, h.failed⟩
      · exact ⟨(h.waiting ht).1, (h.waiting ht).2.1, by simp⟩
      · exact absurd hr (h.after ht).2.2.1
    · exact h
  | poll w =>
    simp only [step]
    split
    · rename_i hp
      unfold spawnIo
      simp only
      split
      · exact h
      · rename_i hd
        have ho : s.opn = true := by
          simp only [Bool.and_eq_true] at hp
          exact hp.1.1
        have hw : s.task = .waiting := by
          cases ht : s.task with
          | waiting => rfl
          | ended => have := (h.after ht).1; rw [ho] at this; cases this
          | failed => have := (h.failed ht).1; rw [ho] at this; cases this
        have hwh := h.whole hw
        have e : got { s with pipe := s.pipe.drop bufSize, calls := s.calls ++ [s.pipe.take bufSize] } =
            got s ++ s.pipe.take bufSize := by simp [got]
        refine ⟨fun _ => ?_, ?_, ?_, ?_, h.waiting, h.after, h.failed⟩
        · rw [e]
          simp only [List.append_assoc, List.take_append_drop]
          exact hwh
        · rw [e]
          simp only
          rw [← hwh]
          refine ⟨s.pipe.drop bufSize, ?_⟩
          rw [List.append_assoc, List.take_append_drop]
        · have := h.room
          simp only [List.length_drop]
          omega
        · intro c hc
          rcases List.mem_append.1 hc with hc | hc
          · exact h.small c hc
          · simp only [List.mem_singleton] at hc
            subst hc
            refine ⟨hd, ?_⟩
            rw [List.length_take]
            exact Nat.min_le_left _ _
    · exact h
  | turn =>
    simp only [step]
    rcases turn_cases s with ⟨e, _⟩ | ⟨ht, e, hl, he⟩ | ⟨ht, hl, he⟩
    · rw [e]; exact h
    · rw [he]
      refine ⟨by simp [finish], h.pre, by simp [finish], h.small, by simp [finish], fun _ => ?_, by simp [finish]⟩
      simp [finish, (h.waiting ht).2.1]
    · rw [he]
      refine ⟨by simp [finish], h.pre, by simp [finish], h.small, by simp [finish], fun _ => ?_, by simp [finish]⟩
      have := (h.waiting ht).2.1
      refine ⟨rfl, by simp [finish, this], ?_, ?_⟩
      · rcases hl with hl | hl <;> simp [finish, hl]
      · rcases hl with hl | hl <;> simp [finish, hl]

theorem run_inv {cap : Nat} {s : St} (h : Inv cap s) (es : List Ev) : Inv cap (run cap s es) := by
  induction es generalizing s with
  | nil => exact h
  | cons e es ih => exact ih (step_inv h e)

theorem run_append (cap : Nat) (s : St) (es es' : List Ev) : run cap s (es ++ es') = run cap (run cap s es) es' := by
  simp [run, List.foldl_append]

/-! ## C85: output -/

/-- C85, order: under every schedule, what the output callback was given is a beginning of what the child wrote: nothing is
invented, repeated or reordered; every call is given at least one and at most 32768 bytes. -/
theorem output_is_prefix (cap : Nat) (forked reg : Bool) (es : List Ev) :
    got (run cap (launch forked reg) es) <+: (run cap (launch forked reg) es).out ∧
      ∀ c ∈ (run cap (launch forked reg) es).calls, 0 < c.length ∧ c.length ≤ 32768 := by
  have h := run_inv (launch_inv cap forked reg) es
  exact ⟨h.pre, fun c hc => ⟨List.length_pos_iff.2 (h.small c hc).1, (h.small c hc).2⟩⟩

/-- C85, completeness: the child's output is handed over completely, provided that the pipe is empty when the task finds the
child ended, which is not ensured by anything; see `output_lost_at_exit` and `full_pipe_stalls`. -/
theorem output_complete_partial (cap : Nat) (forked : Bool) (es es' : List Ev)
    (ht : (run cap (launch forked true) es).task = .waiting) (hp : (run cap (launch forked true) es).pipe = [])
    (hx : (run cap (launch forked true) (es ++ [.turn])).task = .ended) :
    got (run cap (launch forked true) (es ++ .turn :: es')) = (run cap (launch forked true) (es ++ .turn :: es')).out := by
  have h := run_inv (launch_inv cap forked true) es
  have hw := h.whole ht
  rw [hp, List.append_nil] at hw
  have e1 : run cap (launch forked true) (es ++ [.turn]) = turn (run cap (launch forked true) es) := by
    rw [run_append]; rfl
  have e2 : run cap (launch forked true) (es ++ .turn :: es') = run cap (turn (run cap (launch forked true) es)) es' := by
    rw [run_append]; rfl
  rw [e1] at hx
  have h1 : Inv cap (turn (run cap (launch forked true) es)) := step_inv h .turn
  have hg : got (turn (run cap (launch forked true) es)) = (turn (run cap (launch forked true) es)).out := by
    rcases turn_cases (run cap (launch forked true) es) with ⟨e, _⟩ | ⟨_, e, _, he⟩ | ⟨_, _, he⟩
    · rw [e]; exact hw
    · rw [he]; exact hw
    · rw [he]; exact hw
  rw [e2]
  generalize turn (run cap (launch forked true) es) = s at h1 hg hx
  clear e1 e2 hw hp ht h
  induction es' generalizing s with
  | nil => exact hg
  | cons e es' ih =>
    have hov := h1.after hx
    have hs : step cap s e = s := by
      cases e with
      | childWrites bs => simp [step, hov.2.2.1]
      | childEnds e => simp [step, hov.2.2.1]
      | poll w => simp [step, hov.1]
      | turn =>
        simp only [step]
        rcases turn_cases s with ⟨e, _⟩ | ⟨ht, _⟩ | ⟨ht, _⟩
        · exact e
        · rw [hx] at ht; cases ht
        · rw [hx] at ht; cases ht
    have : run cap s (e :: es') = run cap (step cap s e) es' := rfl
    rw [this, hs]
    exact ih s h1 hg hx

theorem ended_fixed {cap : Nat} {s : St} (h : Inv cap s) (hx : s.task = .ended) (es : List Ev) : run cap s es = s := by
  induction es with
  | nil => rfl
  | cons e es ih =>
    have hov := h.after hx
    have hs : step cap s e = s := by
      cases e with
      | childWrites bs => simp [step, hov.2.2.1]
      | childEnds e => simp [step, hov.2.2.1]
      | poll w => simp [step, hov.1]
      | turn =>
        simp only [step]
        rcases turn_cases s with ⟨e, _⟩ | ⟨ht, _⟩ | ⟨ht, _⟩
        · exact e
        · rw [hx] at ht; cases ht
        · rw [hx] at ht; cases ht
    have : run cap s (e :: es) = run cap (step cap s e) es := rfl
    rw [this, hs]
    exact ih

/-- C85 is false: whatever a child writes (if it fits into the pipe), if it ends before the next poll and the task is resumed
first, the exit is reported and the output is never handed over, whatever happens afterwards. -/
theorem output_lost_at_exit (cap : Nat) (bs : Bytes) (hb : bs.length ≤ cap) (e : End) (es : List Ev) :
    let s := run cap (launch true true) ([.childWrites bs, .childEnds e, .turn] ++ es)
    s.out = bs ∧ s.exits.length = 1 ∧ s.calls = [] := by
  have hi : Inv cap (run cap (launch true true) [.childWrites bs, .childEnds e, .turn]) := run_inv (launch_inv cap true true) _
  have hs : (run cap (launch true true) [.childWrites bs, .childEnds e, .turn]).task = .ended := by
    simp [run, step, launch, turn, finish]
  simp only
  rw [run_append, ended_fixed hi hs]
  have ht : bs.take cap = bs := List.take_of_length_le hb
  simp [run, step, launch, turn, finish, ht]

theorem stalls (cap : Nat) (s : St) (h : Inv cap s) (hf : s.pipe.length = cap) (hc : 0 < cap)
    (ht : s.task = .waiting) (es : List Ev) :
    (run cap s es).calls = s.calls ∧ (run cap s es).out = s.out ∧ got (run cap s es) ≠ (run cap s es).out := by
  have hne : got s ≠ s.out := by
    intro he
    have := h.whole ht
    rw [← he] at this
    have hl := congrArg List.length this
    simp at hl
    rw [hl] at hf
    simp at hf
    omega
  suffices hk : ∀ (es : List Ev) (s : St), Inv cap s → (s.pipe.length = cap ∧ s.task = .waiting ∨ s.task = .ended) →
      (run cap s es).calls = s.calls ∧ (run cap s es).out = s.out by
    obtain ⟨h1, h2⟩ := hk es s h (.inl ⟨hf, ht⟩)
    refine ⟨h1, h2, ?_⟩
    rw [h2]
    unfold got at hne ⊢
    rw [h1]
    exact hne
  intro es
  induction es with
  | nil => exact fun s _ _ => ⟨rfl, rfl⟩
  | cons e es ih =>
    intro s h hor
    rcases hor with ⟨hf, ht⟩ | ht
    · have hkeep : ((step cap s e).pipe.length = cap ∧ (step cap s e).task = .waiting ∨ (step cap s e).task = .ended) ∧
          (step cap s e).calls = s.calls ∧ (step cap s e).out = s.out := by
        cases e with
        | childWrites bs =>
          simp only [step]
          split
          · simp [hf, ht]
          · exact ⟨.inl ⟨hf, ht⟩, rfl, rfl⟩
        | childEnds e =>
          simp only [step]
          split
          · exact ⟨.inl ⟨hf, ht⟩, rfl, rfl⟩
          · exact ⟨.inl ⟨hf, ht⟩, rfl, rfl⟩
        | poll w =>
          have : step cap s (.poll w) = s := by simp [step, hf]
          rw [this]
          exact ⟨.inl ⟨hf, ht⟩, rfl, rfl⟩
        | turn =>
          simp only [step]
          rcases turn_cases s with ⟨e, _⟩ | ⟨_, e, _, he⟩ | ⟨_, _, he⟩
          · rw [e]; exact ⟨.inl ⟨hf, ht⟩, rfl, rfl⟩
          · rw [he]; exact ⟨.inr rfl, rfl, rfl⟩
          · rw [he]; exact ⟨.inr rfl, rfl, rfl⟩
      obtain ⟨h1, h2⟩ := ih (step cap s e) (step_inv h e) hkeep.1
      exact ⟨h1.trans hkeep.2.1, h2.trans hkeep.2.2⟩
    · rw [ended_fixed h ht]
      exact ⟨rfl, rfl⟩

/-- C85 is false for more than a pipeful: once the child has filled the pipe, nothing is handed over any more, under any
schedule, since the callback waits for room in the pipe instead of for data: no poll reports the write end, only the child's
end is noticed, and then the output is thrown away. -/
theorem full_pipe_stalls (cap : Nat) (hc : 0 < cap) (es es' : List Ev)
    (hf : (run cap (launch true true) es).pipe.length = cap) (ht : (run cap (launch true true) es).task = .waiting) :
    (run cap (launch true true) (es ++ es')).calls = (run cap (launch true true) es).calls ∧
      got (run cap (launch true true) (es ++ es')) ≠ (run cap (launch true true) (es ++ es')).out := by
  rw [run_append]
  obtain ⟨h1, _, h3⟩ := stalls cap _ (run_inv (launch_inv cap true true) es) hf hc ht es'
  exact ⟨h1, h3⟩

/-! ## C86: the end -/

/-- C86: the exit callback is called at most once, never while the child is running, and the output callback never after it. -/
theorem exit_at_most_once (cap : Nat) (forked reg : Bool) (es es' : List Ev) :
    (run cap (launch forked reg) es).exits.length ≤ 1 ∧
      ((run cap (launch forked reg) es).exits ≠ [] → (run cap (launch forked reg) es).life ≠ some .running ∧
        (run cap (launch forked reg) (es ++ es')).calls = (run cap (launch forked reg) es).calls ∧
        (run cap (launch forked reg) (es ++ es')).exits = (run cap (launch forked reg) es).exits) := by
  have h := run_inv (launch_inv cap forked reg) es
  cases ht : (run cap (launch forked reg) es).task with
  | waiting => rw [(h.waiting ht).2.1]; simp
  | failed => rw [(h.failed ht).2]; simp
  | ended =>
    have := h.after ht
    refine ⟨by omega, fun _ => ⟨this.2.2.1, ?_⟩⟩
    rw [run_append, ended_fixed h ht]
    exact ⟨rfl, rfl⟩

/-- C86: when the child has ended, the next turn of the task calls the exit callback with the exit status, or with the negated
number of the signal that killed the child. -/
theorem exit_status_reported (cap : Nat) (es : List Ev) (e : End)
    (hl : (run cap (launch true true) es).life = some (.ended e)) :
    ∃ sig, (run cap (launch true true) (es ++ [.turn])).exits = [((match e with | .exited n => (n : Int) | .killed n => -(n : Int)), sig)] := by
  have h := run_inv (launch_inv cap true true) es
  have hw : (run cap (launch true true) es).task = .waiting := by
    cases ht : (run cap (launch true true) es).task with
    | waiting => rfl
    | ended => exact absurd hl ((h.after ht).2.2.2 e)
    | failed =>
      exfalso
      have hk : ∀ (es : List Ev) (s : St), s.task ≠ .failed → (run cap s es).task ≠ .failed := by
        intro es
        induction es with
        | nil => exact fun _ h => h
        | cons ev es ih =>
          intro s hs
          refine ih (step cap s ev) ?_
          cases ev with
          | childWrites bs => simp only [step]; split <;> exact hs
          | childEnds e => simp only [step]; split <;> exact hs
          | poll w =>
            simp only [step, spawnIo]
            split
            · split <;> exact hs
            · exact hs
          | turn =>
            simp only [step]
            rcases turn_cases s with ⟨e, _⟩ | ⟨_, e, _, he⟩ | ⟨_, _, he⟩
            · rw [e]; exact hs
            · rw [he]; simp [finish]
            · rw [he]; simp [finish]
      exact hk es (launch true true) (by simp [launch]) ht
  refine ⟨exitCode e, ?_⟩
  rw [run_append]
  have : run cap (run cap (launch true true) es) [.turn] = turn (run cap (launch true true) es) := rfl
  rw [this]
  unfold turn
  simp only [hw, hl, finish, (h.waiting hw).2.1]
  cases e <;> rfl

/-- C86 is false for the second argument of the exit callback (`term_signal`): it is always the same as the first, so an
ordinary exit with status `n` is reported as termination by signal `n`, and signals as negative numbers. -/
theorem term_signal_is_status (cap : Nat) (forked reg : Bool) (es : List Ev) :
    ∀ x ∈ (run cap (launch forked reg) es).exits, x.2 = x.1 := by
  have hk : ∀ (es : List Ev) (s : St), (∀ x ∈ s.exits, x.2 = x.1) → ∀ x ∈ (run cap s es).exits, x.2 = x.1 := by
    intro es
    induction es with
    | nil => exact fun _ h => h
    | cons ev es ih =>
      intro s hs
      refine ih (step cap s ev) ?_
      cases ev with
      | childWrites bs => simp only [step]; split <;> exact hs
      | childEnds e => simp only [step]; split <;> exact hs
      | poll w =>
        simp only [step, spawnIo]
        split
        · split <;> exact hs
        · exact hs
      | turn =>
        simp only [step]
        have fin : ∀ st, ∀ x ∈ (finish st s).exits, x.2 = x.1 := by
          intro st x hx
          simp only [finish, List.mem_append, List.mem_singleton] at hx
          rcases hx with hx | hx
          · exact hs x hx
          · rw [hx]
        rcases turn_cases s with ⟨e, _⟩ | ⟨_, e, _, he⟩ | ⟨_, _, he⟩
        · rw [e]; exact hs
        · rw [he]; exact fin _
        · rw [he]; exact fin 0
  exact hk es (launch forked reg) (by simp [launch])

/-- C86 is false when no process could be made: the exit callback reports a process that exited with status 0. -/
theorem failed_launch_exits_zero (cap : Nat) (es : List Ev) :
    (run cap (launch false true) (.turn :: es)).exits = [(0, 0)] := by
  have hi : Inv cap (run cap (launch false true) [.turn]) := run_inv (launch_inv cap false true) _
  have : run cap (launch false true) (.turn :: es) = run cap (run cap (launch false true) [.turn]) es := rfl
  rw [this, ended_fixed hi rfl]
  rfl

/-- C86 is false when the pipe cannot be registered with the loop: the process runs, but its end is never reported. -/
theorem unregistered_exit_never_reported (cap : Nat) (es : List Ev) :
    (launch true false).life = some .running ∧ (run cap (launch true false) es).exits = [] := by
  refine ⟨rfl, ?_⟩
  have hk : ∀ (es : List Ev) (s : St), s.task = .failed → (run cap s es).task = .failed := by
    intro es
    induction es with
    | nil => exact fun _ h => h
    | cons ev es ih =>
      intro s hs
      refine ih (step cap s ev) ?_
      cases ev with
      | childWrites bs => simp only [step]; split <;> exact hs
      | childEnds e => simp only [step]; split <;> exact hs
      | poll w =>
        simp only [step, spawnIo]
        split
        · split <;> exact hs
        · exact hs
      | turn =>
        simp only [step]
        rcases turn_cases s with ⟨e, _⟩ | ⟨ht, _⟩ | ⟨ht, _⟩
        · rw [e]; exact hs
        · rw [hs] at ht; cases ht
        · rw [hs] at ht; cases ht
  exact ((run_inv (launch_inv cap true false) es).failed (hk es _ rfl)).2

/-! ## Concrete cases -/

/-- Two writes, handed over in one and then another call, the child exits with 3. -/
example :
    (run 65536 (launch true true) [.childWrites [1, 2], .childWrites [3], .poll true, .turn, .childWrites [4], .poll true,
      .childEnds (.exited 3), .turn, .poll true]).calls = [[1, 2, 3], [4]] ∧
    (run 65536 (launch true true) [.childWrites [1, 2], .childWrites [3], .poll true, .turn, .childWrites [4], .poll true,
      .childEnds (.exited 3), .turn, .poll true]).exits = [(3, 3)] := by decide +kernel

/-- A pipe of four bytes is filled. -/
example : (run 4 (launch true true) [.childWrites [1, 2, 3, 4, 5]]).pipe.length = 4 ∧
    (run 4 (launch true true) [.childWrites [1, 2, 3, 4, 5]]).task = .waiting :=
  ⟨by decide +kernel, by decide +kernel⟩

example : (run 65536 (launch true true) [.childWrites [7], .poll true, .childEnds (.killed 9)]).task = .waiting ∧
    (run 65536 (launch true true) [.childWrites [7], .poll true, .childEnds (.killed 9)]).pipe = [] ∧
    (run 65536 (launch true true) ([.childWrites [7], .poll true, .childEnds (.killed 9)] ++ [.turn])).task = .ended ∧
    (run 65536 (launch true true) ([.childWrites [7], .poll true, .childEnds (.killed 9)] ++ [.turn])).exits = [(-9, -9)] := by
  decide +kernel

end Verif.Proc.Spawn
