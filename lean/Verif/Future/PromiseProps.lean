import Verif.Future.Promise

/-!
Properties of futures and promises (C41).
-/
namespace Verif.Future.Promise

variable {V E : Type}

/-- The value a getter returns for a job with this outcome when it does not throw. -/
def Outcome.plain : Outcome V E → Option V
  | .value v => v
  | .raised _ => none
  | .recovered _ => none

/-- Invariant of every history. -/
structure Inv (sc : Nat → Nat) (s : FS V E) : Prop where
  fresh : ∀ f, (s.pc f = .absent ∨ s.pc f = .created ∨ s.pc f = .begun) →
    s.job f = none ∧ s.val f = none ∧ s.done f = false ∧ s.got f = false ∧ s.spent f = false
  ret : ∀ f o, s.pc f = .returned o → s.job f = some o ∧ s.val f = none ∧ s.done f = false ∧ s.got f = false ∧ s.spent f = false
  stored : ∀ f, s.pc f = .stored → ∃ o, s.job f = some o ∧ s.val f = o.plain ∧ (∀ e, o ≠ .recovered e) ∧ s.done f = false ∧
    s.got f = false ∧ s.spent f = false
  ended : ∀ f, s.pc f = .ended → ∃ o, s.job f = some o ∧ s.val f = o.plain ∧
    ((∀ e, o ≠ .recovered e) ∨ (s.done f = false ∧ s.got f = false))
  err : ∀ k e, s.err k = some e → ∃ g, sc g = k ∧ s.job g = some (.raised e)
  log : ∀ x ∈ s.log, s.pc x.2.1 = .ended ∧ ∃ o, s.job x.2.1 = some o ∧ (∀ e, o ≠ .recovered e) ∧
    match x.2.2 with
    | .value v => v = o.plain
    | .threw e => x.1 = .thrdGet ∧ ∃ g, sc g = sc x.2.1 ∧ s.job g = some (.raised e)
    | .logic => x.1 = .queueGet

theorem inv_init (sc : Nat → Nat) : Inv sc (FS.init V E) := by
  refine ⟨fun f _ => ⟨rfl, rfl, rfl, rfl, rfl⟩, ?_, ?_, ?_, ?_, ?_⟩
  · intro f o h; cases h
  · intro f h; cases h
  · intro f h; cases h
  · intro k e h; cases h
  · intro x h; cases h

theorem done_ended {sc : Nat → Nat} {s : FS V E} (h : Inv sc s) {f : Nat} (hd : s.done f = true) : s.pc f = .ended := by
  rcases hp : s.pc f with _ | _ | _ | o | _ | _
  · have := (h.fresh f (Or.inl hp)).2.2.1; rw [hd] at this; cases this
  · have := (h.fresh f (Or.inr (Or.inl hp))).2.2.1; rw [hd] at this; cases this
  · have := (h.fresh f (Or.inr (Or.inr hp))).2.2.1; rw [hd] at this; cases this
  · have := (h.ret f o hp).2.2.1; rw [hd] at this; cases this
  · obtain ⟨o, _, _, _, hh, _⟩ := h.stored f hp; rw [hd] at hh; cases hh
  · rfl

theorem got_ended {sc : Nat → Nat} {s : FS V E} (h : Inv sc s) {f : Nat} (hd : s.got f = true) : s.pc f = .ended := by
  rcases hp : s.pc f with _ | _ | _ | o | _ | _
  · have := (h.fresh f (Or.inl hp)).2.2.2.1; rw [hd] at this; cases this
  · have := (h.fresh f (Or.inr (Or.inl hp))).2.2.2.1; rw [hd] at this; cases this
  · have := (h.fresh f (Or.inr (Or.inr hp))).2.2.2.1; rw [hd] at this; cases this
  · have := (h.ret f o hp).2.2.2.1; rw [hd] at this; cases this
  · obtain ⟨o, _, _, _, _, hh, _⟩ := h.stored f hp; rw [hd] at hh; cases hh
  · rfl

/-- The facts about one future that a step of another future does not touch. -/
structure Same (s s' : FS V E) (f : Nat) : Prop where
  pc : s'.pc f = s.pc f
  val : s'.val f = s.val f
  done : s'.done f = s.done f
  got : s'.got f = s.got f
  spent : s'.spent f = s.spent f
  job : s'.job f = s.job f

/-- Rebuild the invariant after a step on future `f` only. -/
theorem Inv.rebuild {sc : Nat → Nat} {s s' : FS V E} (h : Inv sc s) (f : Nat) (hsame : ∀ g, g ≠ f → Same s s' g)
    (h1 : (s'.pc f = .absent ∨ s'.pc f = .created ∨ s'.pc f = .begun) →
      s'.job f = none ∧ s'.val f = none ∧ s'.done f = false ∧ s'.got f = false ∧ s'.spent f = false)
    (h2 : ∀ o, s'.pc f = .returned o → s'.job f = some o ∧ s'.val f = none ∧ s'.done f = false ∧ s'.got f = false ∧ s'.spent f = false)
    (h3 : s'.pc f = .stored → ∃ o, s'.job f = some o ∧ s'.val f = o.plain ∧ (∀ e, o ≠ .recovered e) ∧ s'.done f = false ∧
      s'.got f = false ∧ s'.spent f = false)
    (h4 : s'.pc f = .ended → ∃ o, s'.job f = some o ∧ s'.val f = o.plain ∧
      ((∀ e, o ≠ .recovered e) ∨ (s'.done f = false ∧ s'.got f = false)))
    (hjob : s'.job f = s.job f ∨ s.job f = none)
    (herr : ∀ k e, s'.err k = some e → s.err k = some e ∨ (sc f = k ∧ s'.job f = some (.raised e)))
    (hpc : s.pc f = .ended → s'.pc f = .ended)
    (hlog : ∀ x ∈ s'.log, x ∈ s.log ∨ (s'.pc x.2.1 = .ended ∧ ∃ o, s'.job x.2.1 = some o ∧ (∀ e, o ≠ .recovered e) ∧
      match x.2.2 with
      | .value v => v = o.plain
      | .threw e => x.1 = .thrdGet ∧ ∃ g, sc g = sc x.2.1 ∧ s'.job g = some (.raised e)
      | .logic => x.1 = .queueGet)) : Inv sc s' := by
  have hj : ∀ g o, s.job g = some o → s'.job g = some o := by
    intro g o hg
    by_cases e : g = f
    · subst e
      rcases hjob with e | e
      · rw [e, hg]
      · rw [e] at hg; cases hg
    · rw [(hsame g e).job, hg]
  have hp : ∀ g, s.pc g = .ended → s'.pc g = .ended := by
    intro g hg
    by_cases e : g = f
    · subst e; exact hpc hg
    · rw [(hsame g e).pc, hg]
  refine ⟨fun g hg => ?_, fun g o hg => ?_, fun g hg => ?_, fun g hg => ?_, fun k e he => ?_, fun x hx => ?_⟩
  · by_cases e : g = f
    · subst e; exact h1 hg
    · have hs := hsame g e
      rw [hs.pc] at hg
      rw [hs.job, hs.val, hs.done, hs.got, hs.spent]; exact h.fresh g hg
  · by_cases e : g = f
    · subst e; exact h2 o hg
    · have hs := hsame g e
      rw [hs.pc] at hg
      rw [hs.job, hs.val, hs.done, hs.got, hs.spent]; exact h.ret g o hg
  · by_cases e : g = f
    · subst e; exact h3 hg
    · have hs := hsame g e
      rw [hs.pc] at hg
      rw [hs.job, hs.val, hs.done, hs.got, hs.spent]; exact h.stored g hg
  · by_cases e : g = f
    · subst e; exact h4 hg
    · have hs := hsame g e
      rw [hs.pc] at hg
      rw [hs.job, hs.val, hs.done, hs.got]; exact h.ended g hg
  · rcases herr k e he with he | he
    · obtain ⟨g, hg, hgj⟩ := h.err k e he
      exact ⟨g, hg, hj g _ hgj⟩
    · exact ⟨f, he.1, he.2⟩
  · rcases hlog x hx with hx | hx
    · obtain ⟨a, o, b, c, d⟩ := h.log x hx
      refine ⟨hp _ a, o, hj _ _ b, c, ?_⟩
      split
      · rename_i v hv; rw [hv] at d; exact d
      · rename_i e hv
        rw [hv] at d
        obtain ⟨d1, g, d2, d3⟩ := d
        exact ⟨d1, g, d2, hj _ _ d3⟩
      · rename_i hv; rw [hv] at d; exact d
    · exact hx

theorem inv_step {sc : Nat → Nat} {s : FS V E} (h : Inv sc s) (a : FAct V E) : Inv sc (fstep sc s a) := by
  have usame : ∀ {α : Type} (m : Nat → α) (f : Nat) (x : α) (g : Nat), g ≠ f → Function.update m f x g = m g :=
    fun m f x g hg => Function.update_of_ne hg _ _
  cases a with
  | create f =>
    simp only [fstep]
    split
    · rename_i hp
      have hf := h.fresh f (Or.inl hp)
      refine h.rebuild f (fun g hg => ⟨usame _ _ _ _ hg, rfl, rfl, rfl, rfl, rfl⟩) (fun _ => hf) ?_ ?_ ?_ (Or.inl rfl)
        (fun k e he => Or.inl he) ?_ (fun x hx => Or.inl hx)
      · intro o e; simp only [Function.update_self] at e; cases e
      · intro e; simp only [Function.update_self] at e; cases e
      · intro e; simp only [Function.update_self] at e; cases e
      · intro e; rw [hp] at e; cases e
    · exact h
  | begin f =>
    simp only [fstep]
    split
    · rename_i hp
      have hf := h.fresh f (Or.inr (Or.inl hp))
      refine h.rebuild f (fun g hg => ⟨usame _ _ _ _ hg, rfl, rfl, rfl, rfl, rfl⟩) (fun _ => hf) ?_ ?_ ?_ (Or.inl rfl)
        (fun k e he => ?_) ?_ (fun x hx => Or.inl hx)
      · intro o e; simp only [Function.update_self] at e; cases e
      · intro e; simp only [Function.update_self] at e; cases e
      · intro e; simp only [Function.update_self] at e; cases e
      · by_cases ek : k = sc f
        · subst ek; simp only [Function.update_self] at he; cases he
        · simp only [Function.update_of_ne ek] at he; exact Or.inl he
      · intro e; rw [hp] at e; cases e
    · exact h
  | call f o =>
    simp only [fstep]
    split
    · rename_i hp
      obtain ⟨hf1, hf2, hf3, hf4, hf5⟩ := h.fresh f (Or.inr (Or.inr hp))
      refine h.rebuild f (fun g hg => ⟨usame _ _ _ _ hg, rfl, rfl, rfl, rfl, usame _ _ _ _ hg⟩) ?_ ?_ ?_ ?_ (Or.inr hf1)
        (fun k e he => Or.inl he) ?_ (fun x hx => Or.inl hx)
      · intro e
        simp only [Function.update_self] at e
        rcases e with e | e | e <;> cases e
      · intro o' e
        simp only [Function.update_self] at e ⊢
        cases e
        exact ⟨rfl, hf2, hf3, hf4, hf5⟩
      · intro e; simp only [Function.update_self] at e; cases e
      · intro e; simp only [Function.update_self] at e; cases e
      · intro e; rw [hp] at e; cases e
    · exact h
  | store f =>
    simp only [fstep]
    split
    · rename_i o hp
      obtain ⟨hf1, hf2, hf3, hf4, hf5⟩ := h.ret f o hp
      have hne : s.pc f ≠ .ended := by rw [hp]; intro e; cases e
      unfold storeOutcome
      split
      · refine h.rebuild f (fun g hg => ⟨usame _ _ _ _ hg, rfl, rfl, rfl, rfl, rfl⟩) ?_ ?_ ?_ ?_ (Or.inl rfl)
          (fun k e he => Or.inl he) (fun e => absurd e hne) (fun x hx => Or.inl hx)
        · intro e
          simp only [Function.update_self] at e
          rcases e with e | e | e <;> cases e
        · intro o' e; simp only [Function.update_self] at e; cases e
        · intro _; exact ⟨_, hf1, hf2, (fun e he => by cases he), hf3, hf4, hf5⟩
        · intro e; simp only [Function.update_self] at e; cases e
      · rename_i v
        refine h.rebuild f (fun g hg => ⟨usame _ _ _ _ hg, usame _ _ _ _ hg, rfl, rfl, rfl, rfl⟩) ?_ ?_ ?_ ?_ (Or.inl rfl)
          (fun k e he => Or.inl he) (fun e => absurd e hne) (fun x hx => Or.inl hx)
        · intro e
          simp only [Function.update_self] at e
          rcases e with e | e | e <;> cases e
        · intro o' e; simp only [Function.update_self] at e; cases e
        · intro _
          refine ⟨_, hf1, ?_, (fun e he => by cases he), hf3, hf4, hf5⟩
          simp only [Function.update_self]; rfl
        · intro e; simp only [Function.update_self] at e; cases e
      · rename_i ex
        refine h.rebuild f (fun g hg => ⟨usame _ _ _ _ hg, rfl, rfl, rfl, rfl, rfl⟩) ?_ ?_ ?_ ?_ (Or.inl rfl)
          (fun k e he => ?_) (fun e => absurd e hne) (fun x hx => Or.inl hx)
        · intro e
          simp only [Function.update_self] at e
          rcases e with e | e | e <;> cases e
        · intro o' e; simp only [Function.update_self] at e; cases e
        · intro _; exact ⟨_, hf1, hf2, (fun e he => by cases he), hf3, hf4, hf5⟩
        · intro e; simp only [Function.update_self] at e; cases e
        · by_cases ek : k = sc f
          · subst ek
            simp only [Function.update_self] at he
            cases he
            exact Or.inr ⟨rfl, hf1⟩
          · simp only [Function.update_of_ne ek] at he; exact Or.inl he
      · rename_i ex
        refine h.rebuild f (fun g hg => ⟨usame _ _ _ _ hg, rfl, rfl, rfl, rfl, rfl⟩) ?_ ?_ ?_ ?_ (Or.inl rfl)
          (fun k e he => Or.inl he) (fun e => absurd e hne) (fun x hx => Or.inl hx)
        · intro e
          simp only [Function.update_self] at e
          rcases e with e | e | e <;> cases e
        · intro o' e; simp only [Function.update_self] at e; cases e
        · intro e; simp only [Function.update_self] at e; cases e
        · intro _; exact ⟨_, hf1, hf2, Or.inr ⟨hf3, hf4⟩⟩
    · exact h
  | finish f =>
    simp only [fstep]
    split
    · rename_i hp
      obtain ⟨o, hf1, hf2, hf3, hf4, hf5⟩ := h.stored f hp
      refine h.rebuild f (fun g hg => ⟨usame _ _ _ _ hg, rfl, usame _ _ _ _ hg, rfl, rfl, rfl⟩) ?_ ?_ ?_ ?_ (Or.inl rfl)
        (fun k e he => Or.inl he) ?_ (fun x hx => Or.inl hx)
      · intro e
        simp only [Function.update_self] at e
        rcases e with e | e | e <;> cases e
      · intro o' e; simp only [Function.update_self] at e; cases e
      · intro e; simp only [Function.update_self] at e; cases e
      · intro _; exact ⟨o, hf1, hf2, Or.inl hf3⟩
      · intro _; simp only [Function.update_self]
    · exact h
  | get f =>
    simp only [fstep, thrdGet]
    split
    · rename_i hg
      have hp := got_ended h hg
      obtain ⟨o, ho, hv, hr⟩ := h.ended f hp
      have hr' : ∀ e, o ≠ .recovered e := by
        rcases hr with hr | hr
        · exact hr
        · rw [hg] at hr; cases hr.2
      refine h.rebuild f (fun g _ => ⟨rfl, rfl, rfl, rfl, rfl, rfl⟩) (h.fresh f) (h.ret f) (h.stored f) (h.ended f) (Or.inl rfl)
        (fun k e he => Or.inl he) id (fun x hx => ?_)
      rcases List.mem_append.1 hx with hx | hx
      · exact Or.inl hx
      · rw [List.mem_singleton] at hx
        subst hx
        exact Or.inr ⟨hp, o, ho, hr', hv⟩
    · split
      · rename_i hg hd
        have hp := done_ended h hd
        obtain ⟨o, ho, hv, hr⟩ := h.ended f hp
        have hr' : ∀ e, o ≠ .recovered e := by
          rcases hr with hr | hr
          · exact hr
          · rw [hd] at hr; cases hr.1
        have hbad : ¬ (s.pc f = .absent ∨ s.pc f = .created ∨ s.pc f = .begun) := by
          rw [hp]; rintro (e | e | e) <;> cases e
        refine h.rebuild f (fun g hg => ⟨rfl, rfl, usame _ _ _ _ hg, usame _ _ _ _ hg, rfl, rfl⟩) (fun e => absurd e hbad) ?_ ?_ ?_
          (Or.inl rfl) (fun k e he => Or.inl he) id (fun x hx => ?_)
        · intro o' e; simp only [hp] at e; cases e
        · intro e; simp only [hp] at e; cases e
        · intro _; exact ⟨o, ho, hv, Or.inl hr'⟩
        rcases List.mem_append.1 hx with hx | hx
        · exact Or.inl hx
        · rw [List.mem_singleton] at hx
          subst hx
          refine Or.inr ⟨hp, o, ho, hr', ?_⟩
          cases he : s.err (sc f) with
          | none => exact hv
          | some e => exact ⟨rfl, h.err _ _ he⟩
      · exact h
  | wait f =>
    simp only [fstep]
    split
    · rename_i hd
      have hp := done_ended h hd
      obtain ⟨o, ho, hv, hr⟩ := h.ended f hp
      have hr' : ∀ e, o ≠ .recovered e := by
        rcases hr with hr | hr
        · exact hr
        · rw [hd] at hr; cases hr.1
      refine h.rebuild f (fun g _ => ⟨rfl, rfl, rfl, rfl, rfl, rfl⟩) (h.fresh f) (h.ret f) (h.stored f) (h.ended f) (Or.inl rfl)
        (fun k e he => Or.inl he) id (fun x hx => ?_)
      rcases List.mem_append.1 hx with hx | hx
      · exact Or.inl hx
      · rw [List.mem_singleton] at hx
        subst hx
        exact Or.inr ⟨hp, o, ho, hr', hv⟩
    · exact h
  | qget f =>
    simp only [fstep, queueGet]
    split
    · rename_i hd
      have hp := done_ended h hd
      obtain ⟨o, ho, hv, hr⟩ := h.ended f hp
      have hr' : ∀ e, o ≠ .recovered e := by
        rcases hr with hr | hr
        · exact hr
        · rw [hd] at hr; cases hr.1
      have hbad : ¬ (s.pc f = .absent ∨ s.pc f = .created ∨ s.pc f = .begun) := by
        rw [hp]; rintro (e | e | e) <;> cases e
      split
      · refine h.rebuild f (fun g _ => ⟨rfl, rfl, rfl, rfl, rfl, rfl⟩) (h.fresh f) (h.ret f) (h.stored f) (h.ended f) (Or.inl rfl)
          (fun k e he => Or.inl he) id (fun x hx => ?_)
        rcases List.mem_append.1 hx with hx | hx
        · exact Or.inl hx
        · rw [List.mem_singleton] at hx
          subst hx
          exact Or.inr ⟨hp, o, ho, hr', rfl⟩
      · refine h.rebuild f (fun g hg => ⟨rfl, rfl, rfl, rfl, usame _ _ _ _ hg, rfl⟩) (fun e => absurd e hbad) ?_ ?_ (h.ended f)
          (Or.inl rfl) (fun k e he => Or.inl he) id (fun x hx => ?_)
        · intro o' e; simp only [hp] at e; cases e
        · intro e; simp only [hp] at e; cases e
        rcases List.mem_append.1 hx with hx | hx
        · exact Or.inl hx
        · rw [List.mem_singleton] at hx
          subst hx
          exact Or.inr ⟨hp, o, ho, hr', hv⟩
    · exact h

theorem inv_run {sc : Nat → Nat} (as : List (FAct V E)) : ∀ {s : FS V E}, Inv sc s → Inv sc (frun sc s as) := by
  induction as with
  | nil => intro s h; exact h
  | cons a as ih => intro s h; exact ih (inv_step h a)

/-! ### Isolated histories -/

/-- The exception the scope of an uncollected future holds. -/
def expected (s : FS V E) (f : Nat) : Option E :=
  match s.pc f with
  | .stored | .ended => match s.job f with
    | some (.raised e) => some e
    | _ => none
  | _ => none

def Active (s : FS V E) (f : Nat) : Prop := s.pc f ≠ .absent ∧ s.pc f ≠ .created ∧ s.got f = false

structure Iso (sc : Nat → Nat) (s : FS V E) : Prop where
  err : ∀ f, Active s f → s.err (sc f) = expected s f
  uniq : ∀ f g, Active s f → Active s g → sc f = sc g → f = g
  log : ∀ x ∈ s.log, x.1 = .thrdGet → ∀ o, s.job x.2.1 = some o →
    x.2.2 = match o with
      | .value v => .value v
      | .raised e => .threw e
      | .recovered _ => .logic

theorem active_ended {sc : Nat → Nat} {s : FS V E} (h : Inv sc s) {f : Nat} (hd : s.done f = true) (hg : s.got f = false) :
    Active s f := by
  have := done_ended h hd
  exact ⟨(by rw [this]; intro e; cases e), (by rw [this]; intro e; cases e), hg⟩

/-- Steps that leave `pc`, `job`, `got` and `err` alone. -/
theorem Iso.keep {sc : Nat → Nat} {s s' : FS V E} (h : Iso sc s) (h1 : s'.pc = s.pc) (h2 : s'.job = s.job) (h3 : s'.got = s.got)
    (h4 : s'.err = s.err) (hlog : ∀ x ∈ s'.log, x ∈ s.log ∨ x.1 ≠ .thrdGet) : Iso sc s' := by
  have ha : ∀ f, Active s' f ↔ Active s f := fun f => by unfold Active; rw [h1, h3]
  have hx : ∀ f, expected s' f = expected s f := fun f => by unfold expected; rw [h1, h2]
  refine ⟨fun f hf => ?_, fun f g hf hg => h.uniq f g ((ha f).1 hf) ((ha g).1 hg), fun x hx hk o ho => ?_⟩
  · rw [h4, hx]; exact h.err f ((ha f).1 hf)
  · rw [h2] at ho
    rcases hlog x hx with hx | hx
    · exact h.log x hx hk o ho
    · exact absurd hk hx

/-- A step of future `f` that changes its `pc` (and maybe its `job` and the error of its scope). -/
theorem Iso.move {sc : Nat → Nat} {s s' : FS V E} (h : Iso sc s) (hi : Inv sc s) (f : Nat)
    (hpc : ∀ g, g ≠ f → s'.pc g = s.pc g) (hjob : ∀ g, g ≠ f → s'.job g = s.job g) (hgot : s'.got = s.got)
    (hlog : s'.log = s.log) (hne : s.pc f ≠ .ended)
    (hothers : ∀ g, g ≠ f → Active s g → sc g = sc f → False)
    (herr : ∀ k, k ≠ sc f → s'.err k = s.err k) (hf : Active s' f → s'.err (sc f) = expected s' f) : Iso sc s' := by
  have ha : ∀ g, g ≠ f → (Active s' g ↔ Active s g) := fun g hg => by unfold Active; rw [hpc g hg, hgot]
  have hx : ∀ g, g ≠ f → expected s' g = expected s g := fun g hg => by unfold expected; rw [hpc g hg, hjob g hg]
  refine ⟨fun g hg => ?_, fun g k hg hk e => ?_, fun x hxm hk o ho => ?_⟩
  · by_cases e : g = f
    · subst e; exact hf hg
    · rw [hx g e, herr _ (fun e' => hothers g e ((ha g e).1 hg) e')]
      exact h.err g ((ha g e).1 hg)
  · by_cases eg : g = f
    · by_cases ek : k = f
      · rw [eg, ek]
      · subst eg; exact absurd (hothers k ek ((ha k ek).1 hk) e.symm) id
    · by_cases ek : k = f
      · subst ek; exact absurd (hothers g eg ((ha g eg).1 hg) e) id
      · exact h.uniq g k ((ha g eg).1 hg) ((ha k ek).1 hk) e
  · rw [hlog] at hxm
    have hend := (hi.log x hxm).1
    have hxf : x.2.1 ≠ f := fun e => hne (by rw [← e]; exact hend)
    rw [hjob _ hxf] at ho
    exact h.log x hxm hk o ho

theorem iso_step {sc : Nat → Nat} {s : FS V E} (hi : Inv sc s) (h : Iso sc s) (a : FAct V E)
    (ho : match a with
      | .begin f => ∀ g, g ≠ f → sc g = sc f → s.pc g = .absent ∨ s.pc g = .created ∨ s.got g = true
      | _ => True) : Iso sc (fstep sc s a) := by
  have usame : ∀ {α : Type} (m : Nat → α) (f : Nat) (x : α) (g : Nat), g ≠ f → Function.update m f x g = m g :=
    fun m f x g hg => Function.update_of_ne hg _ _
  cases a with
  | create f =>
    simp only [fstep]
    split
    · rename_i hp
      -- the future is not active before or after
      refine ⟨fun g hg => ?_, fun g k hg hk e => ?_, fun x hx => ?_⟩
      · have hgf : g ≠ f := fun e => by subst e; exact hg.2.1 (Function.update_self ..)
        have : Active s g := ⟨by have := hg.1; simp only [usame _ _ _ _ hgf] at this; exact this,
          by have := hg.2.1; simp only [usame _ _ _ _ hgf] at this; exact this, hg.2.2⟩
        have hx : expected { s with pc := Function.update s.pc f .created } g = expected s g := by
          unfold expected; simp only [usame _ _ _ _ hgf]
        rw [hx]; exact h.err g this
      · have hgf : g ≠ f := fun e => by subst e; exact hg.2.1 (Function.update_self ..)
        have hkf : k ≠ f := fun e => by subst e; exact hk.2.1 (Function.update_self ..)
        refine h.uniq g k ⟨?_, ?_, hg.2.2⟩ ⟨?_, ?_, hk.2.2⟩ e
        · have := hg.1; simp only [usame _ _ _ _ hgf] at this; exact this
        · have := hg.2.1; simp only [usame _ _ _ _ hgf] at this; exact this
        · have := hk.1; simp only [usame _ _ _ _ hkf] at this; exact this
        · have := hk.2.1; simp only [usame _ _ _ _ hkf] at this; exact this
      · exact h.log x hx
    · exact h
  | begin f =>
    simp only [fstep]
    split
    · rename_i hp
      refine h.move hi f (fun g hg => usame _ _ _ _ hg) (fun _ _ => rfl) rfl rfl (by rw [hp]; intro e; cases e)
        (fun g hg ha hs => ?_) (fun k hk => usame _ _ _ _ hk) (fun _ => ?_)
      · rcases ho g hg hs with e | e | e
        · exact ha.1 e
        · exact ha.2.1 e
        · rw [ha.2.2] at e; cases e
      · unfold expected
        simp only [Function.update_self]
    · exact h
  | call f o =>
    simp only [fstep]
    split
    · rename_i hp
      have hact : Active s f := ⟨(by rw [hp]; intro e; cases e), (by rw [hp]; intro e; cases e),
        (hi.fresh f (Or.inr (Or.inr hp))).2.2.2.1⟩
      refine h.move hi f (fun g hg => usame _ _ _ _ hg) (fun g hg => usame _ _ _ _ hg) rfl rfl (by rw [hp]; intro e; cases e)
        (fun g hg ha hs => hg (h.uniq g f ha hact hs)) (fun k _ => rfl) (fun _ => ?_)
      have := h.err f hact
      simp only [expected, hp] at this
      rw [this]
      unfold expected
      simp only [Function.update_self]
    · exact h
  | store f =>
    simp only [fstep]
    split
    · rename_i o hp
      obtain ⟨hj, _, _, hg, _⟩ := hi.ret f o hp
      have hact : Active s f := ⟨(by rw [hp]; intro e; cases e), (by rw [hp]; intro e; cases e), hg⟩
      have hne : s.pc f ≠ .ended := by rw [hp]; intro e; cases e
      have hoth : ∀ g, g ≠ f → Active s g → sc g = sc f → False := fun g hg ha hs => hg (h.uniq g f ha hact hs)
      have herr := h.err f hact
      simp only [expected, hp] at herr
      unfold storeOutcome
      split
      · refine h.move hi f (fun g hg => usame _ _ _ _ hg) (fun _ _ => rfl) rfl rfl hne hoth (fun k _ => rfl) (fun _ => ?_)
        simp only [expected, Function.update_self, hj]; exact herr
      · refine h.move hi f (fun g hg => usame _ _ _ _ hg) (fun _ _ => rfl) rfl rfl hne hoth (fun k _ => rfl) (fun _ => ?_)
        simp only [expected, Function.update_self, hj]; exact herr
      · refine h.move hi f (fun g hg => usame _ _ _ _ hg) (fun _ _ => rfl) rfl rfl hne hoth (fun k hk => usame _ _ _ _ hk) (fun _ => ?_)
        simp only [expected, Function.update_self, hj]
      · refine h.move hi f (fun g hg => usame _ _ _ _ hg) (fun _ _ => rfl) rfl rfl hne hoth (fun k _ => rfl) (fun _ => ?_)
        simp only [expected, Function.update_self, hj]; exact herr
    · exact h
  | finish f =>
    simp only [fstep]
    split
    · rename_i hp
      obtain ⟨o, hj, _, _, _, hg, _⟩ := hi.stored f hp
      have hact : Active s f := ⟨(by rw [hp]; intro e; cases e), (by rw [hp]; intro e; cases e), hg⟩
      have herr := h.err f hact
      simp only [expected, hp] at herr
      refine h.move hi f (fun g hg => usame _ _ _ _ hg) (fun _ _ => rfl) rfl rfl (by rw [hp]; intro e; cases e)
        (fun g hg ha hs => hg (h.uniq g f ha hact hs)) (fun k _ => rfl) (fun _ => ?_)
      simp only [expected, Function.update_self]; exact herr
    · exact h
  | get f =>
    simp only [fstep, thrdGet]
    split
    · refine h.keep rfl rfl rfl rfl (fun x hx => ?_)
      rcases List.mem_append.1 hx with hx | hx
      · exact Or.inl hx
      · rw [List.mem_singleton] at hx; subst hx; right; intro e; cases e
    · split
      · rename_i hg hd
        have hg : s.got f = false := by simpa using hg
        have hact := active_ended hi hd hg
        have herr := h.err f hact
        have hp := done_ended hi hd
        simp only [expected, hp] at herr
        have hact' : ∀ g, Active { s with
            got := Function.update s.got f true
            done := Function.update s.done f false
            log := s.log ++ [(.thrdGet, f, match s.err (sc f) with | some e => Seen.threw e | none => .value (s.val f))] } g →
            Active s g := fun g ha => by
          refine ⟨ha.1, ha.2.1, ?_⟩
          have := ha.2.2
          by_cases e : g = f
          · subst e; simp only [Function.update_self] at this; cases this
          · simp only [usame _ _ _ _ e] at this; exact this
        refine ⟨fun g ha => h.err g (hact' g ha), fun g k ha hk e => h.uniq g k (hact' g ha) (hact' k hk) e, fun x hx hk o ho => ?_⟩
        rcases List.mem_append.1 hx with hx | hx
        · exact h.log x hx hk o ho
        · rw [List.mem_singleton] at hx
          subst hx
          replace ho : s.job f = some o := ho
          obtain ⟨o', ho', hv, hr⟩ := hi.ended f hp
          have : o' = o := by rw [ho] at ho'; cases ho'; rfl
          subst this
          rw [ho] at herr
          rw [herr, hv]
          cases o' with
          | value v => rfl
          | raised e => rfl
          | recovered e =>
            rcases hr with hr | hr
            · exact absurd rfl (hr e)
            · rw [hd] at hr; cases hr.1
      · exact h
  | wait f =>
    simp only [fstep]
    split
    · refine h.keep rfl rfl rfl rfl (fun x hx => ?_)
      rcases List.mem_append.1 hx with hx | hx
      · exact Or.inl hx
      · rw [List.mem_singleton] at hx; subst hx; right; intro e; cases e
    · exact h
  | qget f =>
    simp only [fstep, queueGet]
    split
    · split
      · refine h.keep rfl rfl rfl rfl (fun x hx => ?_)
        rcases List.mem_append.1 hx with hx | hx
        · exact Or.inl hx
        · rw [List.mem_singleton] at hx; subst hx; right; intro e; cases e
      · refine h.keep rfl rfl rfl rfl (fun x hx => ?_)
        rcases List.mem_append.1 hx with hx | hx
        · exact Or.inl hx
        · rw [List.mem_singleton] at hx; subst hx; right; intro e; cases e
    · exact h

theorem iso_run {sc : Nat → Nat} (as : List (FAct V E)) : ∀ {s : FS V E}, Inv sc s → Iso sc s → Isolated sc s as →
    Iso sc (frun sc s as) := by
  induction as with
  | nil => intro s _ h _; exact h
  | cons a as ih => intro s hi h ho; exact ih (inv_step hi a) (iso_step hi h a ho.1) ho.2

theorem iso_init (sc : Nat → Nat) : Iso sc (FS.init V E) :=
  ⟨fun f h => absurd rfl h.1, fun f g h => absurd rfl h.1, fun x h => by cases h⟩

/-- Futures that all have scopes of their own are isolated. -/
theorem isolated_of_injective {sc : Nat → Nat} (hinj : ∀ f g, sc f = sc g → f = g) (as : List (FAct V E)) :
    ∀ s : FS V E, Isolated sc s as := by
  induction as with
  | nil => intro s; trivial
  | cons a as ih =>
    intro s
    refine ⟨?_, ih _⟩
    cases a with
    | begin f => intro g hg hs; exact absurd (hinj g f hs) hg
    | _ => trivial

/-! ### C41 -/

/-- C41, for every history without restriction: a getter that came back did so only after the job was over
(`promise_set` or `promise_erred` done), a value returned is the value the job returned (zero if the job
raised), an exception thrown was raised by a job *of the same scope*, and `logic_error` comes only from
`queue_get`.  Full claim: `get_own_outcome_partial`; what is missing is shown by `get_reports_other_exception`,
`get_loses_exception`. -/
theorem getters_general_partial (sc : Nat → Nat) (as : List (FAct V E)) (k : Getter) (f : Nat) (seen : Seen V E)
    (hx : (k, f, seen) ∈ (frun sc (FS.init V E) as).log) :
    ∃ o, (frun sc (FS.init V E) as).job f = some o ∧ (∀ e, o ≠ .recovered e) ∧
      (∀ v, seen = .value v → o = .value v ∨ (v = none ∧ ∃ e, o = .raised e)) ∧
      (∀ e, seen = .threw e → k = .thrdGet ∧ ∃ g, sc g = sc f ∧ (frun sc (FS.init V E) as).job g = some (.raised e)) ∧
      (seen = .logic → k = .queueGet) := by
  obtain ⟨_, o, ho, hr, hm⟩ := (inv_run as (inv_init sc)).log _ hx
  refine ⟨o, ho, hr, fun v hv => ?_, fun e he => ?_, fun hl => ?_⟩
  · subst hv
    cases o with
    | value w => exact Or.inl (by rw [show v = w from hm])
    | raised e => exact Or.inr ⟨hm, e, rfl⟩
    | recovered e => exact absurd rfl (hr e)
  · subst he; exact hm
  · subst hl; exact hm

/-- C41.  If no future begins while another one of the same scope is running or uncollected, `thrd_get` returns
exactly the value its own job returned, or throws exactly the exception its own job raised — whatever the
interleaving.  `_partial`: the isolation hypothesis, which holds when every future is created in its own task
(`isolated_of_injective`) or each is collected before the next begins; and jobs that recover never deliver
(`recovered_never_done`). -/
theorem get_own_outcome_partial (sc : Nat → Nat) (as : List (FAct V E)) (hiso : Isolated sc (FS.init V E) as) (f : Nat)
    (seen : Seen V E) (hx : (Getter.thrdGet, f, seen) ∈ (frun sc (FS.init V E) as).log) :
    (∃ v, (frun sc (FS.init V E) as).job f = some (.value v) ∧ seen = .value v) ∨
    (∃ e, (frun sc (FS.init V E) as).job f = some (.raised e) ∧ seen = .threw e) := by
  obtain ⟨_, o, ho, hr, _⟩ := (inv_run as (inv_init sc)).log _ hx
  have := (iso_run as (inv_init sc) (iso_init sc) hiso).log _ hx rfl o ho
  cases o with
  | value v => exact Or.inl ⟨v, ho, this⟩
  | raised e => exact Or.inr ⟨e, ho, this⟩
  | recovered e => exact absurd rfl (hr e)

/-- C41 for jobs that do not raise, scopes shared or not: every `thrd_get`, `promise_wait` and first `queue_get`
yields exactly the value of its own job. -/
theorem getters_value (sc : Nat → Nat) (as : List (FAct V E))
    (hv : ∀ f o, (frun sc (FS.init V E) as).job f = some o → ∃ v, o = .value v) (k : Getter) (f : Nat) (seen : Seen V E)
    (hx : (k, f, seen) ∈ (frun sc (FS.init V E) as).log) :
    (∃ v, (frun sc (FS.init V E) as).job f = some (.value v) ∧ seen = .value v) ∨ (k = .queueGet ∧ seen = .logic) := by
  obtain ⟨o, ho, _, h1, h2, h3⟩ := getters_general_partial sc as k f seen hx
  obtain ⟨v, rfl⟩ := hv f o ho
  cases seen with
  | value w =>
    rcases h1 w rfl with e | ⟨_, e, he⟩
    · cases e; exact Or.inl ⟨_, ho, rfl⟩
    · cases he
  | threw e =>
    obtain ⟨_, g, _, hg⟩ := h2 e rfl
    obtain ⟨v', he⟩ := hv g _ hg
    cases he
  | logic => exact Or.inr ⟨h3 rfl, rfl⟩

/-- The C41 claim is false for futures sharing a scope: two futures of one task, the second returns `v`
normally, and yet its `thrd_get` throws the exception of the first. -/
theorem get_reports_other_exception (v : V) (e : E) :
    let s := frun (fun _ => 0) (FS.init V E)
      [.create 0, .create 1, .begin 0, .begin 1, .call 0 (.raised e), .store 0, .finish 0,
       .call 1 (.value (some v)), .store 1, .finish 1, .get 1]
    s.job 1 = some (.value (some v)) ∧ s.log = [(.thrdGet, 1, .threw e)] := ⟨rfl, rfl⟩

/-- The other way round: the first future raises, the second merely begins afterwards, and `thrd_get` of the
first returns the zero value instead of throwing. -/
theorem get_loses_exception (e : E) :
    let s := frun (fun _ => 0) (FS.init V E)
      [.create 0, .create 1, .begin 0, .call 0 (.raised e), .store 0, .finish 0, .begin 1, .get 0]
    s.job 0 = some (.raised e) ∧ s.log = [(.thrdGet, 0, .value none)] := ⟨rfl, rfl⟩

/-- `promise_wait` and `queue_get` never rethrow: on a raising job they return the zero value. -/
theorem wait_swallows_exception (e : E) :
    let s := frun id (FS.init V E) [.create 0, .begin 0, .call 0 (.raised e), .store 0, .finish 0, .wait 0, .qget 0]
    s.job 0 = some (.raised e) ∧ s.log = [(.promiseWait, 0, .value none), (.queueGet, 0, .value none)] := ⟨rfl, rfl⟩

/-- A step never makes a promise done whose job recovered. -/
theorem recovered_step {sc : Nat → Nat} {s : FS V E} (h : Inv sc s) {f : Nat} {e : E} (hj : s.job f = some (.recovered e))
    (a : FAct V E) : (fstep sc s a).job f = some (.recovered e) := by
  have hnb : s.pc f ≠ .begun := fun hp => by
    rw [(h.fresh f (Or.inr (Or.inr hp))).1] at hj; cases hj
  cases a with
  | create g => simp only [fstep]; split <;> exact hj
  | begin g => simp only [fstep]; split <;> exact hj
  | call g o =>
    simp only [fstep]
    split
    · rename_i hp
      have : f ≠ g := fun e => by subst e; exact hnb hp
      simp only [Function.update_of_ne this]; exact hj
    · exact hj
  | store g =>
    simp only [fstep]
    split
    · unfold storeOutcome; split <;> exact hj
    · exact hj
  | finish g => simp only [fstep]; split <;> exact hj
  | get g => simp only [fstep, thrdGet]; split; exact hj; split <;> exact hj
  | wait g => simp only [fstep]; split <;> exact hj
  | qget g => simp only [fstep, queueGet]; split; split <;> exact hj; exact hj

/-- If a function deferred by the job recovers from its exception, the promise is never set: no getter ever comes
back, in any continuation. -/
theorem recovered_never_done (sc : Nat → Nat) (as bs : List (FAct V E)) (f : Nat) (e : E)
    (hj : (frun sc (FS.init V E) as).job f = some (.recovered e)) :
    (frun sc (FS.init V E) (as ++ bs)).done f = false ∧
    ∀ k seen, (k, f, seen) ∉ (frun sc (FS.init V E) (as ++ bs)).log := by
  have hkeep : ∀ (bs : List (FAct V E)) (s : FS V E), Inv sc s → s.job f = some (.recovered e) →
      (frun sc s bs).job f = some (.recovered e) := by
    intro bs
    induction bs with
    | nil => intro s _ h; exact h
    | cons b bs ih => intro s hi h; exact ih _ (inv_step hi b) (recovered_step hi h b)
  have hi : Inv sc (frun sc (FS.init V E) as) := inv_run as (inv_init sc)
  have hrun : frun sc (FS.init V E) (as ++ bs) = frun sc (frun sc (FS.init V E) as) bs := by
    unfold frun; rw [List.foldl_append]
  rw [hrun]
  have hj' := hkeep bs _ hi hj
  have hi' : Inv sc (frun sc (frun sc (FS.init V E) as) bs) := inv_run bs hi
  refine ⟨?_, fun k seen hx => ?_⟩
  · cases hd : (frun sc (frun sc (FS.init V E) as) bs).done f with
    | false => rfl
    | true =>
      obtain ⟨o, ho, _, hr⟩ := hi'.ended f (done_ended hi' hd)
      rw [hj'] at ho
      cases ho
      rcases hr with hr | hr
      · exact absurd rfl (hr e)
      · rw [hd] at hr; cases hr.1
  · obtain ⟨_, o, ho, hr, _⟩ := hi'.log _ hx
    rw [hj'] at ho
    cases ho
    exact absurd rfl (hr e)

/-- `thrd_get` clears the `done` flag for good, so `thrd_is_done` is false and `thrd_wait` would spin forever
afterwards. -/
theorem collected_never_done (sc : Nat → Nat) (as bs : List (FAct V E)) (f : Nat)
    (hg : (frun sc (FS.init V E) as).got f = true) (hd : (frun sc (FS.init V E) as).done f = false) :
    (frun sc (FS.init V E) (as ++ bs)).done f = false := by
  have key : ∀ (bs : List (FAct V E)) (s : FS V E), Inv sc s → s.got f = true → s.done f = false →
      (frun sc s bs).done f = false := by
    intro bs
    induction bs with
    | nil => intro s _ _ h; exact h
    | cons b bs ih =>
      intro s hi hg hd
      have hp := got_ended hi hg
      refine ih _ (inv_step hi b) ?_ ?_
      · cases b with
        | create g => simp only [fstep]; split <;> exact hg
        | begin g => simp only [fstep]; split <;> exact hg
        | call g o => simp only [fstep]; split <;> exact hg
        | store g => simp only [fstep]; split; unfold storeOutcome; split <;> exact hg; exact hg
        | finish g => simp only [fstep]; split <;> exact hg
        | get g =>
          simp only [fstep, thrdGet]
          split
          · exact hg
          · split
            · by_cases e : f = g
              · subst e; exact Function.update_self ..
              · simp only [Function.update_of_ne e]; exact hg
            · exact hg
        | wait g => simp only [fstep]; split <;> exact hg
        | qget g => simp only [fstep, queueGet]; split; split <;> exact hg; exact hg
      · cases b with
        | create g => simp only [fstep]; split <;> exact hd
        | begin g => simp only [fstep]; split <;> exact hd
        | call g o => simp only [fstep]; split <;> exact hd
        | store g => simp only [fstep]; split; unfold storeOutcome; split <;> exact hd; exact hd
        | finish g =>
          simp only [fstep]
          split
          · rename_i hs
            have : f ≠ g := fun e => by subst e; rw [hp] at hs; cases hs
            simp only [Function.update_of_ne this]; exact hd
          · exact hd
        | get g =>
          simp only [fstep, thrdGet]
          split
          · exact hd
          · split
            · by_cases e : f = g
              · subst e; exact Function.update_self ..
              · simp only [Function.update_of_ne e]; exact hd
            · exact hd
        | wait g => simp only [fstep]; split <;> exact hd
        | qget g => simp only [fstep, queueGet]; split; split <;> exact hd; exact hd
  have hrun : frun sc (FS.init V E) (as ++ bs) = frun sc (frun sc (FS.init V E) as) bs := by
    unfold frun; rw [List.foldl_append]
  rw [hrun]
  exact key bs _ (inv_run as (inv_init sc)) hg hd

/-- Three isolated futures in one scope, collected one after the other: value, exception, value. -/
example :
    let as : List (FAct Nat String) :=
      [.create 0, .begin 0, .get 0, .call 0 (.value (some 7)), .store 0, .finish 0, .get 0,
       .create 1, .begin 1, .call 1 (.raised "E"), .store 1, .finish 1, .get 1, .get 1,
       .create 2, .begin 2, .call 2 (.value none), .store 2, .finish 2, .get 2]
    (frun (fun _ => 0) (FS.init Nat String) as).log =
      [(.thrdGet, 0, .value (some 7)), (.thrdGet, 1, .threw "E"), (.thrdGetAgain, 1, .value none), (.thrdGet, 2, .value none)] := by
  decide +kernel

/-- Two futures with scopes of their own, interleaved: each reports its own outcome. -/
example :
    let as : List (FAct Nat String) :=
      [.create 0, .create 1, .begin 0, .call 0 (.raised "E"), .begin 1, .store 0, .call 1 (.value (some 3)), .finish 0, .store 1,
       .finish 1, .get 1, .get 0]
    Isolated id (FS.init Nat String) as ∧
    (frun id (FS.init Nat String) as).log = [(.thrdGet, 1, .value (some 3)), (.thrdGet, 0, .threw "E")] :=
  ⟨isolated_of_injective (fun _ _ e => e) _ _, by decide +kernel⟩

example (e : String) (bs : List (FAct Nat String)) :
    (frun id (FS.init Nat String) ([.create 0, .begin 0, .call 0 (.recovered e), .store 0] ++ bs)).done 0 = false :=
  (recovered_never_done id [.create 0, .begin 0, .call 0 (.recovered e), .store 0] bs 0 e rfl).1

example (bs : List (FAct Nat String)) :
    (frun id (FS.init Nat String) ([.create 0, .begin 0, .call 0 (.value (some 1)), .store 0, .finish 0, .get 0] ++ bs)).done 0 = false :=
  collected_never_done id [.create 0, .begin 0, .call 0 (.value (some 1)), .store 0, .finish 0, .get 0] bs 0 rfl rfl

end Verif.Future.Promise
