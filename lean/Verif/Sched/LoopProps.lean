import Verif.Sched.Loop
import Verif.Sched.QueueProps
import Verif.Sched.Sorted

/-!
Round-robin scheduling (C56).
-/
namespace Verif.Sched.Loop
open Verif.Sched

/-! ### Specification: a list of runnable tasks. -/

structure Spec where
  queue : List Id          -- runnable, next to run first
  halted : List Id
  log : List Id            -- who ran

/-- Make tasks runnable (also finished ones).  `none`: the task is runnable already or is the one in control. -/
def addAll (t : Id) (q : List Id) : List Id → Option (List Id)
  | [] => some q
  | u :: us => if u ∈ q ∨ u = t then none else addAll t (q ++ [u]) us

/-- One turn; `none`: nobody is runnable, or the turn breaks the rule of `addAll`.  A finished task is passed over. -/
def specTurn (a : Spec) (x : Turn) : Option Spec :=
  match a.queue with
  | [] => none
  | t :: rest =>
    if t ∈ a.halted then (addAll t rest x.pre).map fun q => { a with queue := q }
    else (addAll t rest (x.pre ++ x.during)).map fun q =>
    match x.fin with
    | .yield => { queue := q ++ [t], halted := a.halted, log := a.log ++ [t] }
    | .block => { queue := q, halted := a.halted, log := a.log ++ [t] }
    | .finish => { queue := q, halted := t :: a.halted, log := a.log ++ [t] }

def specTurns (a : Spec) : List Turn → Option Spec
  | [] => some a
  | x :: xs => (specTurn a x).bind (fun a => specTurns a xs)

/-! ### Refinement -/

structure Inv (s : St) (a : Spec) : Prop where
  rep : Rep s.q a.queue
  halt : ∀ t, s.halt t = true ↔ t ∈ a.halted
  active : s.active = none
  running : s.running = none
  log : s.log = a.log
  cycles : ∀ t, t ∉ a.halted → s.cycles t = a.log.count t

theorem addAll_append {t : Id} : ∀ {us vs q q' : List Id}, addAll t q (us ++ vs) = some q' →
    ∃ q1, addAll t q us = some q1 ∧ addAll t q1 vs = some q' := by
  intro us
  induction us with
  | nil => intro vs q q' h; exact ⟨q, rfl, h⟩
  | cons u us ih =>
    intro vs q q' h
    simp only [List.cons_append, addAll] at h ⊢
    split at h
    · cases h
    · rename_i hc
      obtain ⟨q1, h1, h2⟩ := ih h
      exact ⟨q1, by rw [if_neg hc]; exact h1, h2⟩

theorem addAll_eq {t : Id} : ∀ {us q q' : List Id}, addAll t q us = some q' →
    q' = q ++ us ∧ (∀ u ∈ us, u ∉ q ∧ u ≠ t) ∧ us.Nodup := by
  intro us
  induction us with
  | nil => intro q q' h; simp only [addAll, Option.some.injEq] at h; subst h; simp
  | cons u us ih =>
    intro q q' h
    simp only [addAll] at h
    split at h
    · cases h
    · rename_i hc
      push Not at hc
      obtain ⟨e, h1, h2⟩ := ih h
      refine ⟨by simp [e], ?_, ?_⟩
      · intro v hv
        rcases List.mem_cons.1 hv with rfl | hv
        · exact hc
        · have := h1 v hv
          exact ⟨fun hm => this.1 (by simp [hm]), this.2⟩
      · rw [List.nodup_cons]
        exact ⟨fun hm => (h1 u hm).1 (by simp), h2⟩

/-- Enqueueing tasks keeps everything but the queue. -/
theorem foldl_enq {t : Id} : ∀ {us q q' : List Id} {s : St}, Rep s.q q → addAll t q us = some q' →
    ∃ l, us.foldl enq s = { s with q := l } ∧ Rep l q' := by
  intro us
  induction us with
  | nil => intro q q' s h hs; simp only [addAll, Option.some.injEq] at hs; subst hs; exact ⟨s.q, rfl, h⟩
  | cons u us ih =>
    intro q q' s h hs
    simp only [addAll] at hs
    split at hs
    · cases hs
    · rename_i hc
      push Not at hc
      obtain ⟨l, e, hr⟩ := ih (s := enq s u) (enqueue_rep h hc.1) hs
      exact ⟨l, by rw [List.foldl_cons, e]; rfl, hr⟩

theorem foldl_act_enq : ∀ (us : List Id) (s : St) (t : Id), s.active = some t →
    us.foldl (fun s u => act (.enq u) s) s = us.foldl enq s := by
  intro us
  induction us with
  | nil => intro s t _; rfl
  | cons u us ih =>
    intro s t h
    rw [List.foldl_cons, List.foldl_cons]
    have : act (.enq u) s = enq s u := by simp [act, h]
    rw [this]
    exact ih _ t (by simpa [enq] using h)

/-- What the scheduler does when the task at the head has finished. -/
theorem sched_halted {s : St} {a : Spec} {t : Id} {rest q' : List Id} (h : Inv s a) (hq : a.queue = t :: rest) (ht : t ∈ a.halted)
    {pre : List Id} (hadd : addAll t rest pre = some q') :
    (sched pre s).active = none ∧ Inv (sched pre s) { a with queue := q' } := by
  have hrep := h.rep
  rw [hq] at hrep
  obtain ⟨e1, hr1⟩ := taskDequeue_cons hrep
  obtain ⟨l0, hl0⟩ : ∃ l0, taskDequeue s.q = (some t, l0) := ⟨(taskDequeue s.q).2, by rw [← e1]⟩
  rw [hl0] at hr1
  obtain ⟨l1, f1, hr2⟩ := foldl_enq (s := { s with q := l0, cycles := Function.update s.cycles t (s.cycles t + 1), running := some t })
    hr1 hadd
  have hsched : sched pre s = { s with
      q := l1, cycles := Function.update s.cycles t (s.cycles t + 1), running := none } := by
    unfold sched
    rw [h.active]
    simp only [hl0]
    rw [h.active] at f1
    rw [f1]
    simp only [(h.halt t).2 ht, if_true]
  rw [hsched]
  refine ⟨h.active, hr2, h.halt, h.active, rfl, h.log, fun u hu => ?_⟩
  have hne : u ≠ t := fun e => hu (e ▸ ht)
  show Function.update s.cycles t (s.cycles t + 1) u = _
  rw [Function.update_of_ne hne]
  exact h.cycles u hu

theorem idle_acts : ∀ (us : List Id) (s : St), s.active = none → us.foldl (fun s u => act (.enq u) s) s = s := by
  intro us
  induction us with
  | nil => intro s _; rfl
  | cons u us ih =>
    intro s h
    rw [List.foldl_cons]
    have : act (.enq u) s = s := by simp [act, h]
    rw [this]
    exact ih s h

theorem addAll_notMem {t : Id} {rest us q' : List Id} (h : addAll t rest us = some q') (ht : t ∉ rest) : t ∉ q' := by
  obtain ⟨hq', hnew, _⟩ := addAll_eq h
  rw [hq', List.mem_append]
  rintro (hm | hm)
  · exact ht hm
  · exact (hnew t hm).2 rfl

/-- The task at the head gets control, and makes the tasks `during` runnable. -/
theorem sched_live {s : St} {a : Spec} {t : Id} {rest q' : List Id} (h : Inv s a) (hq : a.queue = t :: rest) (ht : t ∉ a.halted)
    {pre during : List Id} (hadd : addAll t rest (pre ++ during) = some q') :
    ∃ l, Rep l q' ∧ during.foldl (fun s u => act (.enq u) s) (sched pre s) = { s with
        q := l
        cycles := Function.update s.cycles t (s.cycles t + 1)
        running := some t
        active := some t
        current := none
        log := s.log ++ [t] } := by
  obtain ⟨q1, hpre, hdur⟩ := addAll_append hadd
  have hrep := h.rep
  rw [hq] at hrep
  have hth : s.halt t = false := by
    cases e : s.halt t with
    | false => rfl
    | true => exact absurd ((h.halt t).1 e) ht
  obtain ⟨e1, hr1⟩ := taskDequeue_cons hrep
  obtain ⟨l0, hl0⟩ : ∃ l0, taskDequeue s.q = (some t, l0) := ⟨(taskDequeue s.q).2, by rw [← e1]⟩
  rw [hl0] at hr1
  -- the wake-ups by callbacks
  obtain ⟨l1, f1, hr2⟩ := foldl_enq (s := { s with q := l0, cycles := Function.update s.cycles t (s.cycles t + 1), running := some t })
    hr1 hpre
  have hsched : sched pre s = { s with
      q := l1
      cycles := Function.update s.cycles t (s.cycles t + 1)
      running := some t
      active := some t
      current := none
      log := s.log ++ [t] } := by
    rw [h.active] at f1
    unfold sched
    rw [h.active]
    simp only [hl0]
    rw [f1]
    simp only [hth, Bool.false_eq_true, if_false, switchTo]
  -- the turn itself
  obtain ⟨l2, f2, hr3⟩ := foldl_enq (s := { s with
      q := l1
      cycles := Function.update s.cycles t (s.cycles t + 1)
      running := some t
      active := some t
      current := none
      log := s.log ++ [t] }) hr2 hdur
  exact ⟨l2, hr3, by rw [hsched, foldl_act_enq _ _ t rfl, f2]⟩

theorem cycles_count {s : St} {a : Spec} (h : Inv s a) (t u : Id) (hu : u ∉ a.halted) :
    Function.update s.cycles t (s.cycles t + 1) u = (a.log ++ [t]).count u := by
  rw [List.count_append, List.count_singleton]
  by_cases e : u = t
  · subst e
    rw [Function.update_self, h.cycles u hu]; simp
  · rw [Function.update_of_ne e, h.cycles u hu]
    simp [Ne.symm e]

theorem turn_inv {s : St} {a a' : Spec} {x : Turn} (h : Inv s a) (hs : specTurn a x = some a') : Inv (turn s x) a' := by
  unfold specTurn at hs
  split at hs
  · cases hs
  · rename_i t rest hq
    split at hs
    · rename_i hta
      rw [Option.map_eq_some_iff] at hs
      obtain ⟨q', hadd, rfl⟩ := hs
      obtain ⟨h1, h2⟩ := sched_halted h hq hta hadd
      unfold turn
      rw [idle_acts _ _ h1]
      have : act x.fin.act (sched x.pre s) = sched x.pre s := by simp [act, h1]
      rw [this]; exact h2
    rename_i hta
    rw [Option.map_eq_some_iff] at hs
    obtain ⟨q', hadd, hs⟩ := hs
    have htr : t ∉ rest := by
      have := h.rep.nodup
      rw [hq] at this
      exact (List.nodup_cons.1 this).1
    have htq : t ∉ q' := addAll_notMem hadd htr
    obtain ⟨l, hr3, e⟩ := sched_live h hq hta hadd
    unfold turn
    rw [e]
    cases hx : x.fin with
    | yield =>
      rw [hx] at hs
      simp only at hs
      subst hs
      exact ⟨enqueue_rep hr3 htq, h.halt, rfl, rfl, congrArg (· ++ [t]) h.log, fun u hu => cycles_count h t u hu⟩
    | block =>
      rw [hx] at hs
      simp only at hs
      subst hs
      exact ⟨hr3, h.halt, rfl, rfl, congrArg (· ++ [t]) h.log, fun u hu => cycles_count h t u hu⟩
    | finish =>
      rw [hx] at hs
      simp only at hs
      subst hs
      refine ⟨hr3, ?_, rfl, rfl, congrArg (· ++ [t]) h.log,
        fun u hu => cycles_count h t u (fun hm => hu (List.mem_cons_of_mem _ hm))⟩
      intro u
      show Function.update s.halt t true u = true ↔ u ∈ t :: a.halted
      by_cases e : u = t
      · subst e; simp
      · rw [Function.update_of_ne e, h.halt, List.mem_cons]; simp [e]

theorem turns_inv : ∀ {xs : List Turn} {s : St} {a a' : Spec}, Inv s a → specTurns a xs = some a' → Inv (turns s xs) a' := by
  intro xs
  induction xs with
  | nil => intro s a a' h hs; simp only [specTurns, Option.some.injEq] at hs; subst hs; exact h
  | cons x xs ih =>
    intro s a a' h hs
    rw [specTurns, Option.bind_eq_some_iff] at hs
    obtain ⟨b, h1, h2⟩ := hs
    exact ih (turn_inv h h1) h2

/-- A start: the given tasks have been created, in this order. -/
def start (m : Id → Links) (ts : List Id) : St := ts.foldl enq (St.init m)

theorem start_inv (m : Id → Links) (ts : List Id) (hn : ts.Nodup) : Inv (start m ts) ⟨ts, [], []⟩ := by
  have key : ∀ (us q : List Id) (s : St), (q ++ us).Nodup → Inv s ⟨q, [], []⟩ → Inv (us.foldl enq s) ⟨q ++ us, [], []⟩ := by
    intro us
    induction us with
    | nil => intro q s _ h; simpa using h
    | cons u us ih =>
      intro q s hn h
      have hu : u ∉ q := by
        intro hm
        rw [List.nodup_append] at hn
        exact hn.2.2 u hm u (by simp) rfl
      have := ih (q ++ [u]) (enq s u) (by simpa using hn)
        ⟨enqueue_rep h.rep hu, h.halt, h.active, h.running, h.log, h.cycles⟩
      simpa using this
  have := key ts [] (St.init m) (by simpa using hn) ⟨empty_rep m, (by simp [St.init]), rfl, rfl, rfl, (by simp [St.init])⟩
  simpa [start] using this

/-! ### The order of turns, on the specification -/

theorem specTurn_shape {a a' : Spec} {x : Turn} (h : specTurn a x = some a') :
    ∃ t rest extra, a.queue = t :: rest ∧ a'.queue = rest ++ extra ∧ a'.log = a.log ++ (if t ∈ a.halted then [] else [t]) ∧
      (∀ u, u ∈ a'.halted ↔ u ∈ a.halted ∨ (u = t ∧ u ∈ a'.halted)) := by
  unfold specTurn at h
  split at h
  · cases h
  · rename_i t rest hq
    split at h
    · rename_i ht
      rw [Option.map_eq_some_iff] at h
      obtain ⟨q', hadd, rfl⟩ := h
      obtain ⟨e, _, _⟩ := addAll_eq hadd
      subst e
      exact ⟨t, rest, x.pre, hq, rfl, by simp [ht], fun u => ⟨.inl, fun hu => hu.elim id (·.2)⟩⟩
    rename_i ht
    rw [Option.map_eq_some_iff] at h
    obtain ⟨q', hadd, h⟩ := h
    obtain ⟨e, _, _⟩ := addAll_eq hadd
    subst e
    cases hx : x.fin <;> (rw [hx] at h; simp only at h; subst h)
    · exact ⟨t, rest, x.pre ++ x.during ++ [t], hq, by simp, by simp [ht], fun u => ⟨.inl, fun hu => hu.elim id (·.2)⟩⟩
    · exact ⟨t, rest, x.pre ++ x.during, hq, by simp, by simp [ht], fun u => ⟨.inl, fun hu => hu.elim id (·.2)⟩⟩
    · refine ⟨t, rest, x.pre ++ x.during, hq, by simp, by simp [ht], fun u => ?_⟩
      simp only [List.mem_cons]
      tauto

theorem specTurn_nodup {a a' : Spec} {x : Turn} (hn : a.queue.Nodup) (h : specTurn a x = some a') : a'.queue.Nodup := by
  have key : ∀ {t : Id} {rest us q' : List Id}, (t :: rest).Nodup → addAll t rest us = some q' → q'.Nodup ∧ t ∉ q' := by
    intro t rest us q' hn hadd
    obtain ⟨e, h1, h2⟩ := addAll_eq hadd
    rw [List.nodup_cons] at hn
    refine ⟨?_, addAll_notMem hadd hn.1⟩
    rw [e, List.nodup_append]
    exact ⟨hn.2, h2, fun v hv w hw e => (h1 w hw).1 (e ▸ hv)⟩
  unfold specTurn at h
  split at h
  · cases h
  · rename_i t rest hq
    rw [hq] at hn
    split at h
    · rw [Option.map_eq_some_iff] at h
      obtain ⟨q', hadd, rfl⟩ := h
      exact (key hn hadd).1
    · rw [Option.map_eq_some_iff] at h
      obtain ⟨q', hadd, h⟩ := h
      have hk := key hn hadd
      cases hx : x.fin <;> (rw [hx] at h; simp only at h; subst h)
      · show (q' ++ [t]).Nodup
        rw [List.nodup_append]
        exact ⟨hk.1, by simp, fun v hv w hw e => hk.2 (by rw [List.mem_singleton] at hw; rw [← hw, ← e]; exact hv)⟩
      · exact hk.1
      · exact hk.1

/-- Who has control in the next turns, as long as `u` waits behind `p`. -/
theorem spec_order : ∀ {xs : List Turn} {a a' : Spec}, a.queue.Nodup → specTurns a xs = some a' →
    ∃ ran, a'.log = a.log ++ ran ∧
      ∀ p u r, a.queue = p ++ u :: r → u ∉ a.halted →
        (u ∉ ran → ran <+: p.filter (· ∉ a.halted)) ∧ (p.length < xs.length → u ∈ ran) := by
  intro xs
  induction xs with
  | nil =>
    intro a a' _ hs
    simp only [specTurns, Option.some.injEq] at hs
    subst hs
    exact ⟨[], by simp, fun p u r _ _ => ⟨fun _ => List.nil_prefix, fun h => by simp at h⟩⟩
  | cons x xs ih =>
    intro a a' hnd hs
    rw [specTurns, Option.bind_eq_some_iff] at hs
    obtain ⟨b, h1, h2⟩ := hs
    obtain ⟨t, rest, extra, e1, e2, e3, e4⟩ := specTurn_shape h1
    have hbn : b.queue.Nodup := specTurn_nodup hnd h1
    obtain ⟨ran, r1, r3⟩ := ih hbn h2
    refine ⟨(if t ∈ a.halted then [] else [t]) ++ ran, by rw [r1, e3]; simp, ?_⟩
    intro p u r hq hua
    rw [e1] at hq
    rw [e1, List.nodup_cons] at hnd
    cases p with
    | nil =>
      simp only [List.nil_append, List.cons.injEq] at hq
      obtain ⟨rfl, -⟩ := hq
      simp [hua]
    | cons y p =>
      simp only [List.cons_append, List.cons.injEq] at hq
      obtain ⟨rfl, hq⟩ := hq
      have hne : u ≠ t := by rintro rfl; exact hnd.1 (by rw [hq]; simp)
      have hub : u ∉ b.halted := fun hm => by
        rcases (e4 u).1 hm with hm | hm
        · exact hua hm
        · exact hne hm.1
      have hf : p.filter (· ∉ b.halted) = p.filter (· ∉ a.halted) := by
        apply List.filter_congr
        intro v hv
        have hvt : v ≠ t := by rintro rfl; exact hnd.1 (by rw [hq]; simp [hv])
        have := e4 v
        simp only [decide_not, Bool.not_eq_eq_eq_not, Bool.not_not, decide_eq_decide]
        rw [this]
        simp [hvt]
      obtain ⟨g1, g2⟩ := r3 p u (r ++ extra) (by rw [e2, hq]; simp) hub
      rw [hf] at g1
      refine ⟨fun hu => ?_, fun hlt => List.mem_append_right _ (g2 (by simp at hlt; omega))⟩
      have g3 := g1 (fun hm => hu (List.mem_append_right _ hm))
      by_cases ht : t ∈ a.halted
      · simpa [ht] using g3
      · simpa [ht, List.filter_cons] using g3

/-! ### C56 -/

/-- C56, round robin.  Start with any tasks, let any history of turns happen in which nobody is made runnable
who is runnable already; then an unfinished task `u` that is waiting for its turn behind the tasks `p`.  In any
continuation: until `u` runs, the tasks that run are the first ones of the unfinished ones of `p`, in order, each once; so nobody
runs twice before `u` has run, and `u` runs at the latest in turn `p.length + 1`.
`_partial`: the code itself makes runnable tasks runnable again (`requeue_head_starves`, `requeue_drops`) and
`resume` of a new task bypasses the queue (`resume_new_bypasses`). -/
theorem round_robin_partial (m : Id → Links) (ts : List Id) (hn : ts.Nodup) (xs ys : List Turn) (a b : Spec)
    (ha : specTurns ⟨ts, [], []⟩ xs = some a) (hb : specTurns a ys = some b)
    (p r : List Id) (u : Id) (hq : a.queue = p ++ u :: r) (hu : u ∉ a.halted) :
    ∃ ran, (turns (start m ts) (xs ++ ys)).log = (turns (start m ts) xs).log ++ ran ∧
      (u ∉ ran → ran <+: p.filter (· ∉ a.halted) ∧ ran.Nodup) ∧ (p.length < ys.length → u ∈ ran) := by
  have h1 := turns_inv (start_inv m ts hn) ha
  have h2 := turns_inv h1 hb
  obtain ⟨ran, r1, r3⟩ := spec_order h1.rep.nodup hb
  have hnd : p.Nodup := by
    have := h1.rep.nodup
    rw [hq, List.nodup_append] at this
    exact this.1
  refine ⟨ran, ?_, ?_, (r3 p u r hq hu).2⟩
  · rw [h1.log, ← r1, ← h2.log, turns, turns, turns, List.foldl_append]
  · intro hur
    have := (r3 p u r hq hu).1 hur
    exact ⟨this, (hnd.filter _).sublist this.sublist⟩

/-- C56, finished tasks.  A task that has finished never gets control again, in any continuation, even if it is made runnable. -/
theorem finished_never_runs_partial (m : Id → Links) (ts : List Id) (hn : ts.Nodup) (xs ys : List Turn) (a b : Spec)
    (ha : specTurns ⟨ts, [], []⟩ xs = some a) (hb : specTurns a ys = some b) (u : Id) (hu : u ∈ a.halted) :
    ∃ ran, (turns (start m ts) (xs ++ ys)).log = (turns (start m ts) xs).log ++ ran ∧ u ∉ ran := by
  have h1 := turns_inv (start_inv m ts hn) ha
  clear ha
  have key : ∀ {ys : List Turn} {s : St} {a b : Spec}, Inv s a → specTurns a ys = some b → u ∈ a.halted →
      ∃ ran, (turns s ys).log = s.log ++ ran ∧ u ∉ ran := by
    intro ys
    induction ys with
    | nil => intro s a b _ _ _; exact ⟨[], by simp [turns], by simp⟩
    | cons y ys ih =>
      intro s a b h hs hu
      rw [specTurns, Option.bind_eq_some_iff] at hs
      obtain ⟨c, hc, hs⟩ := hs
      obtain ⟨t, rest, extra, e1, e2, e3, e4⟩ := specTurn_shape hc
      have hc' := turn_inv h hc
      obtain ⟨ran, r1, r2⟩ := ih hc' hs ((e4 u).2 (.inl hu))
      refine ⟨(if t ∈ a.halted then [] else [t]) ++ ran, ?_, ?_⟩
      · show (turns (turn s y) ys).log = _
        rw [r1, hc'.log, e3, h.log]; simp
      · rw [List.mem_append, not_or]
        refine ⟨?_, r2⟩
        split
        · simp
        · rename_i ht
          rw [List.mem_singleton]
          rintro rfl
          exact ht hu
  obtain ⟨ran, r1, r2⟩ := key h1 hb hu
  exact ⟨ran, by rw [← r1, turns, turns, turns, List.foldl_append], r2⟩

theorem resume_old_inv (m : Id → Links) (ts : List Id) (hn : ts.Nodup) (xs : List Turn) (a : Spec)
    (ha : specTurns ⟨ts, [], []⟩ xs = some a) (t : Id) (rest : List Id) (hq : a.queue = t :: rest) (ht : t ∉ a.halted)
    (co : Id) (hco : co ∉ rest) (hne : co ≠ t) (hch : co ∉ a.halted) (htwo : 2 ≤ (turns (start m ts) xs).log.count co) :
    Inv (act (.resume co) (sched [] (turns (start m ts) xs))) ⟨rest ++ [co, t], a.halted, a.log ++ [t]⟩ := by
  have h := turns_inv (start_inv m ts hn) ha
  have htr : t ∉ rest := by
    have := h.rep.nodup
    rw [hq] at this
    exact (List.nodup_cons.1 this).1
  obtain ⟨l, hr, e⟩ := sched_live (during := []) (pre := []) h hq ht rfl
  simp only [List.foldl_nil] at e
  rw [e]
  have hc : Function.update (turns (start m ts) xs).cycles t ((turns (start m ts) xs).cycles t + 1) co > 1 := by
    rw [Function.update_of_ne hne, h.cycles co hch, ← h.log]
    omega
  have hr2 := enqueue_rep (enqueue_rep hr hco) (t := t) (by simp [htr, Ne.symm hne])
  simp only [act, hc, if_true]
  refine ⟨by simpa [enqRunning, enq, switchTo] using hr2, h.halt, rfl, rfl, congrArg (· ++ [t]) h.log, fun u hu => cycles_count h t u hu⟩

/-- C56, `resume`.  After any such history, with `t` in control and the tasks `q` waiting: `resume(co)` of a task that has had two turns or
more, is unfinished, does not wait for its turn and is not `t` itself, puts `co` and then `t` at the end of the queue, and the scheduler goes
on from there. -/
theorem resume_old_queues (m : Id → Links) (ts : List Id) (hn : ts.Nodup) (xs : List Turn) (a : Spec)
    (ha : specTurns ⟨ts, [], []⟩ xs = some a) (t : Id) (rest : List Id) (hq : a.queue = t :: rest) (ht : t ∉ a.halted)
    (co : Id) (hco : co ∉ rest) (hne : co ≠ t) (hch : co ∉ a.halted) (htwo : 2 ≤ (turns (start m ts) xs).log.count co) :
    let s := act (.resume co) (sched [] (turns (start m ts) xs))
    s.active = none ∧ s.log = a.log ++ [t] ∧ (∀ k, forward s.q.mem (rest.length + 2 + k) s.q.head = rest ++ [co, t]) ∧
    ∀ ys b, specTurns ⟨rest ++ [co, t], a.halted, a.log ++ [t]⟩ ys = some b → (turns s ys).log = b.log := by
  have h := resume_old_inv m ts hn xs a ha t rest hq ht co hco hne hch htwo
  refine ⟨h.active, h.log, fun k => ?_, fun ys b hb => (turns_inv h hb).log⟩
  have h1 := h.rep.head
  rw [h1]
  have := forward_seg (k := k) h.rep.seg
  simpa using this

example : ∃ a, specTurns ⟨[1, 2], [], []⟩ [⟨[], [], .yield⟩, ⟨[], [], .yield⟩, ⟨[], [], .block⟩] = some a ∧ a.queue = [2] ∧
    a.log.count 1 = 2 := ⟨_, rfl, rfl, rfl⟩

/-- C56, only yielding.  If `n` tasks do nothing but yield, turn `i` belongs to task `i % n`. -/
theorem yielding_is_cyclic (m : Id → Links) (ts : List Id) (hn : ts.Nodup) (h0 : ts ≠ []) (k i : Nat) (hi : i < k) :
    (turns (start m ts) (List.replicate k ⟨[], [], .yield⟩)).log[i]? = ts[i % ts.length]? := by
  have key : ∀ (k : Nat) (ts : List Id) (lg : List Id), ts ≠ [] →
      specTurns ⟨ts, [], lg⟩ (List.replicate k ⟨[], [], .yield⟩)
        = some ⟨ts.rotate k, [], lg ++ (List.range k).filterMap (fun i => ts[i % ts.length]?)⟩ := by
    intro k
    induction k with
    | zero => intro ts lg _; simp [specTurns]
    | succ k ih =>
      intro ts lg h0
      obtain ⟨t, rest, rfl⟩ := List.exists_cons_of_ne_nil h0
      simp only [List.replicate_succ, specTurns, specTurn, List.append_nil, addAll, Option.map_some, Option.bind_some, List.not_mem_nil, if_false]
      rw [ih (rest ++ [t]) (lg ++ [t]) (by simp), List.rotate_cons_succ]
      congr 2
      rw [List.range_succ_eq_map, List.filterMap_cons]
      simp only [Nat.zero_mod, List.getElem?_cons_zero, List.filterMap_map, List.append_assoc, List.singleton_append]
      congr 2
      apply List.filterMap_congr
      intro i _
      have h1 := List.getElem?_rotate (l := t :: rest) (n := 1) (m := i % (rest.length + 1)) (Nat.mod_lt _ (by simp))
      rw [List.rotate_cons_succ, List.rotate_zero] at h1
      simp only [List.length_append, Function.comp_apply, List.length_cons, List.length_nil, Nat.zero_add, Nat.succ_eq_add_one] at h1 ⊢
      rw [h1]
      congr 1
      simp
  have hlog := (turns_inv (start_inv m ts hn) (key k ts [] h0)).log
  rw [hlog]
  simp only [List.nil_append]
  have hall : ∀ j, ts[j % ts.length]? = some (ts[j % ts.length]'(Nat.mod_lt _ (List.length_pos_iff.2 h0))) := by
    intro j; exact List.getElem?_eq_getElem _
  have : (List.range k).filterMap (fun i => ts[i % ts.length]?)
      = (List.range k).map (fun i => ts[i % ts.length]'(Nat.mod_lt _ (List.length_pos_iff.2 h0))) := by
    rw [← List.filterMap_eq_map]
    apply List.filterMap_congr
    intro j _
    exact hall j
  rw [this, List.getElem?_map, List.getElem?_range hi, hall i]
  rfl

/-- Three tasks, one creates a fourth, one finishes: a history as the theorems above want it. -/
example : ∃ a b, specTurns ⟨[1, 2, 3], [], []⟩ [⟨[], [4], .yield⟩, ⟨[], [], .finish⟩] = some a ∧ a.queue = [3, 4, 1] ∧ a.halted = [2] ∧
    specTurns a [⟨[], [], .yield⟩, ⟨[5], [], .block⟩, ⟨[], [4], .yield⟩] = some b ∧ b.log = [1, 2, 3, 4, 1] := by
  exact ⟨_, _, rfl, rfl, rfl, rfl, rfl⟩

end Verif.Sched.Loop
