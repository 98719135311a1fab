import Verif.Future.Queue

/-!
Properties of the job queue of a worker thread (C42).
-/
namespace Verif.Future

variable {J : Type} {n : Nat}

/-- The submission a producer has called but not yet appended. -/
def PPc.waiting : PPc J → List J
  | .wants j => [j]
  | .locked j => [j]
  | .adding j _ => [j]
  | _ => []

/-- A producer that has appended but not yet counted its job. -/
def PPc.owed : PPc J → Nat
  | .appended => 1
  | .counting => 1
  | _ => 0

/-- Inside the critical section. -/
def PPc.crit : PPc J → Nat
  | .locked _ => 1
  | .adding _ _ => 1
  | .appended => 1
  | _ => 0

/-- A job the worker has taken but whose function it has not called yet. -/
def WPc.inHand : WPc J → List J
  | .unlock j => [j]
  | .call j => [j]
  | _ => []

/-- The worker has counted a job off but not taken it yet. -/
def WPc.owed : WPc J → Nat
  | .lock => 1
  | .shift => 1
  | .shifting _ => 1
  | _ => 0

/-- Inside the critical section. -/
def WPc.crit : WPc J → Nat
  | .shift => 1
  | .shifting _ => 1
  | .unlock _ => 1
  | _ => 0

/-- The job the worker is executing. -/
def WPc.running : WPc J → List J
  | .set j => [j]
  | _ => []

structure Inv (s : QS J n) (order : List (Fin n × J)) : Prop where
  taken : order.map (·.2) = s.started ++ s.wk.inHand ++ s.jobs
  calls : ∀ p, submittedBy s.calls p = submittedBy order p ++ (s.prod p).waiting
  fin : s.started = s.finished ++ s.wk.running
  count : s.jobs.length = s.avail + (∑ p, (s.prod p).owed) + s.wk.owed
  dec : s.wk = .dec → 0 < s.avail
  excl : (∑ p, (s.prod p).crit) + s.wk.crit = if s.mutex then 1 else 0
  adding : ∀ p j seen, s.prod p = .adding j seen → seen = s.jobs
  shifting : ∀ seen, s.wk = .shifting seen → seen = s.jobs

theorem submittedBy_append (a b : List (Fin n × J)) (p : Fin n) :
    submittedBy (a ++ b) p = submittedBy a p ++ submittedBy b p := by
  simp [submittedBy]

theorem submittedBy_single_self (p : Fin n) (j : J) : submittedBy [(p, j)] p = [j] := by simp [submittedBy]

theorem submittedBy_single_ne {p q : Fin n} (j : J) (h : p ≠ q) : submittedBy [(p, j)] q = [] := by
  simp [submittedBy, h]

theorem sum_update (g : PPc J → Nat) (f : Fin n → PPc J) (p : Fin n) (x : PPc J) :
    (∑ q, g (Function.update f p x q)) + g (f p) = (∑ q, g (f q)) + g x := by
  rw [← Finset.add_sum_erase Finset.univ _ (Finset.mem_univ p),
    ← Finset.add_sum_erase Finset.univ (fun q => g (f q)) (Finset.mem_univ p)]
  have : ∑ q ∈ Finset.univ.erase p, g (Function.update f p x q)
      = ∑ q ∈ Finset.univ.erase p, g (f q) := by
    refine Finset.sum_congr rfl fun q hq => ?_
    rw [Function.update_of_ne (Finset.ne_of_mem_erase hq)]
  rw [this, Function.update_self]
  omega

theorem sum_update' (g : PPc J → Nat) (f : Fin n → PPc J) (p : Fin n) (x : PPc J) (a b : Nat) (ha : g (f p) = a)
    (hb : g x = b) : (∑ q, g (Function.update f p x q)) + a = (∑ q, g (f q)) + b := by
  rw [← ha, ← hb]; exact sum_update g f p x

theorem waiting_update_same {f : Fin n → PPc J} {p : Fin n} {x : PPc J} (h : x.waiting = (f p).waiting) (q : Fin n) :
    (Function.update f p x q).waiting = (f q).waiting := by
  by_cases hq : q = p
  · subst hq; rw [Function.update_self]; exact h
  · rw [Function.update_of_ne hq]

theorem appendJob_jobs (mv : Bool) (s : QS J n) (l : List J) (j : J) : (appendJob mv s l j).jobs = l ++ [j] := by
  unfold appendJob; split <;> rfl
theorem appendJob_wk (mv : Bool) (s : QS J n) (l : List J) (j : J) : (appendJob mv s l j).wk = s.wk := by
  unfold appendJob; split <;> rfl
theorem appendJob_mutex (mv : Bool) (s : QS J n) (l : List J) (j : J) : (appendJob mv s l j).mutex = s.mutex := by
  unfold appendJob; split <;> rfl
theorem appendJob_avail (mv : Bool) (s : QS J n) (l : List J) (j : J) : (appendJob mv s l j).avail = s.avail := by
  unfold appendJob; split <;> rfl
theorem appendJob_calls (mv : Bool) (s : QS J n) (l : List J) (j : J) : (appendJob mv s l j).calls = s.calls := by
  unfold appendJob; split <;> rfl
theorem appendJob_started (mv : Bool) (s : QS J n) (l : List J) (j : J) : (appendJob mv s l j).started = s.started := by
  unfold appendJob; split <;> rfl
theorem appendJob_finished (mv : Bool) (s : QS J n) (l : List J) (j : J) : (appendJob mv s l j).finished = s.finished := by
  unfold appendJob; split <;> rfl

theorem inv_init (cap : Nat) : Inv (QS.init J n cap) [] := by
  refine ⟨rfl, fun p => rfl, rfl, ?_, ?_, ?_, ?_, ?_⟩
  · simp [QS.init, PPc.owed, WPc.owed]
  · intro h; cases h
  · simp [QS.init, PPc.crit, WPc.crit]
  · intro p j seen h; cases h
  · intro seen h; cases h

/-- Two threads are never both in the critical section. -/
theorem crit_unique {s : QS J n} {order : List (Fin n × J)} (h : Inv s order) {p q : Fin n} (hp : (s.prod p).crit = 1)
    (hq : (s.prod q).crit = 1) : p = q := by
  by_contra hne
  have h1 := sum_update' PPc.crit s.prod p .idle 1 0 hp rfl
  have h2 := sum_update' PPc.crit (Function.update s.prod p .idle) q .idle 1 0
    (by rw [Function.update_of_ne (fun e => hne e.symm)]; exact hq) rfl
  have := h.excl
  split at this <;> omega

theorem crit_worker {s : QS J n} {order : List (Fin n × J)} (h : Inv s order) {p : Fin n} (hp : (s.prod p).crit = 1) :
    s.wk.crit = 0 := by
  have h1 := sum_update' PPc.crit s.prod p .idle 1 0 hp rfl
  have := h.excl
  split at this <;> omega

theorem adding_update {s : QS J n} {order : List (Fin n × J)} (h : Inv s order) {p : Fin n} {x : PPc J}
    (hx : ∀ j seen, x = .adding j seen → seen = s.jobs) :
    ∀ q j seen, Function.update s.prod p x q = .adding j seen → seen = s.jobs := by
  intro q j seen e
  by_cases hq : q = p
  · subst hq; rw [Function.update_self] at e; exact hx j seen e
  · rw [Function.update_of_ne hq] at e; exact h.adding q j seen e

theorem inv_prod {mv : Bool} {s : QS J n} {order : List (Fin n × J)} (h : Inv s order) (p : Fin n) :
    ∃ order', Inv (prodStep mv s p) order' := by
  have hc := h.count
  have hx := h.excl
  unfold prodStep
  split
  · exact ⟨order, h⟩
  · rename_i j hp
    have h1 := sum_update' PPc.owed s.prod p (.locked j) 0 0 (by rw [hp]; rfl) rfl
    have h2 := sum_update' PPc.crit s.prod p (.locked j) 0 1 (by rw [hp]; rfl) rfl
    split
    · exact ⟨order, h⟩
    · rename_i hm
      rw [if_neg hm] at hx
      refine ⟨order, h.taken, fun q => ?_, h.fin, ?_, h.dec, ?_, ?_, h.shifting⟩
      · rw [h.calls q]
        congr 1
        exact (waiting_update_same (by rw [hp]; rfl) q).symm
      · simp only; omega
      · simp only [if_true]; omega
      · exact adding_update h (fun _ _ e => by cases e)
  · rename_i j hp
    have h1 := sum_update' PPc.owed s.prod p (.adding j s.jobs) 0 0 (by rw [hp]; rfl) rfl
    have h2 := sum_update' PPc.crit s.prod p (.adding j s.jobs) 1 1 (by rw [hp]; rfl) rfl
    refine ⟨order, h.taken, fun q => ?_, h.fin, ?_, h.dec, ?_, ?_, h.shifting⟩
    · rw [h.calls q]
      congr 1
      exact (waiting_update_same (by rw [hp]; rfl) q).symm
    · simp only; omega
    · simp only; omega
    · exact adding_update h (fun _ _ e => by cases e; rfl)
  · rename_i j seen hp
    have h1 := sum_update' PPc.owed s.prod p .appended 0 1 (by rw [hp]; rfl) rfl
    have h2 := sum_update' PPc.crit s.prod p .appended 1 1 (by rw [hp]; rfl) rfl
    have hs := h.adding p j seen hp
    have hcr : (s.prod p).crit = 1 := by rw [hp]; rfl
    have hw := crit_worker h hcr
    refine ⟨order ++ [(p, j)], ?_, fun q => ?_, ?_, ?_, ?_, ?_, ?_, ?_⟩
    · simp only [appendJob_jobs, appendJob_wk, appendJob_started, List.map_append, h.taken, hs]
      simp
    · simp only [appendJob_calls]
      rw [h.calls q, submittedBy_append]
      by_cases hq : q = p
      · subst hq
        rw [Function.update_self, hp, submittedBy_single_self]
        simp [PPc.waiting]
      · rw [Function.update_of_ne hq, submittedBy_single_ne j (fun e => hq e.symm)]
        simp
    · simp only [appendJob_started, appendJob_finished, appendJob_wk]; exact h.fin
    · simp only [appendJob_jobs, appendJob_avail, appendJob_wk, List.length_append, List.length_singleton, hs]
      omega
    · simp only [appendJob_wk, appendJob_avail]; exact h.dec
    · simp only [appendJob_wk, appendJob_mutex]; omega
    · intro q j' seen' e
      by_cases hq : q = p
      · subst hq; simp only [Function.update_self] at e; cases e
      · simp only [Function.update_of_ne hq] at e
        exact absurd (crit_unique h hcr (q := q) (by rw [e]; rfl)) (fun e => hq e.symm)
    · intro seen' e
      simp only [appendJob_wk] at e
      rw [e] at hw
      cases hw
  · rename_i hp
    have h1 := sum_update' PPc.owed s.prod p .counting 1 1 (by rw [hp]; rfl) rfl
    have h2 := sum_update' PPc.crit s.prod p .counting 1 0 (by rw [hp]; rfl) rfl
    refine ⟨order, h.taken, fun q => ?_, h.fin, ?_, h.dec, ?_, ?_, h.shifting⟩
    · rw [h.calls q]
      congr 1
      exact (waiting_update_same (by rw [hp]; rfl) q).symm
    · simp only; omega
    · simp only [Bool.false_eq_true, if_false]
      split at hx <;> omega
    · exact adding_update h (fun _ _ e => by cases e)
  · rename_i hp
    have h1 := sum_update' PPc.owed s.prod p .idle 1 0 (by rw [hp]; rfl) rfl
    have h2 := sum_update' PPc.crit s.prod p .idle 0 0 (by rw [hp]; rfl) rfl
    refine ⟨order, h.taken, fun q => ?_, h.fin, ?_, fun hd => ?_, ?_, ?_, h.shifting⟩
    · rw [h.calls q]
      congr 1
      exact (waiting_update_same (by rw [hp]; rfl) q).symm
    · simp only; omega
    · exact Nat.succ_pos _
    · simp only; omega
    · exact adding_update h (fun _ _ e => by cases e)

theorem shift_nonempty {s : QS J n} {order : List (Fin n × J)} (h : Inv s order) {seen : List J}
    (hw : s.wk = .shifting seen) : seen ≠ [] := by
  intro e
  have hc := h.count
  rw [← h.shifting seen hw, e, hw] at hc
  simp [WPc.owed] at hc

theorem inv_work {s : QS J n} {order : List (Fin n × J)} (h : Inv s order) : Inv (workStep s) order := by
  have ht := h.taken
  have hf := h.fin
  have hc := h.count
  have hd := h.dec
  have hx := h.excl
  unfold workStep
  split
  · rename_i hw
    rw [hw] at ht hf hc hx
    split
    · rename_i ha
      exact ⟨ht, h.calls, hf, hc, fun _ => ha, hx, h.adding, fun _ e => by cases e⟩
    · exact h
  · rename_i hw
    rw [hw] at ht hf hc hx
    refine ⟨ht, h.calls, hf, ?_, (fun e => by cases e), hx, h.adding, fun _ e => by cases e⟩
    have := hd hw
    simp only [WPc.owed] at hc ⊢
    omega
  · rename_i hw
    rw [hw] at ht hf hc hx
    split
    · exact h
    · rename_i hm
      rw [if_neg hm] at hx
      refine ⟨ht, h.calls, hf, hc, (fun e => by cases e), ?_, h.adding, fun _ e => by cases e⟩
      simp only [WPc.crit, if_true] at hx ⊢
      omega
  · rename_i hw
    rw [hw] at ht hf hc hx
    exact ⟨ht, h.calls, hf, hc, (fun e => by cases e), hx, h.adding, fun _ e => by cases e; rfl⟩
  · rename_i seen hw
    have hs := h.shifting seen hw
    have hne := shift_nonempty h hw
    split
    · exact absurd rfl hne
    · rename_i j r
      rw [hw] at ht hf hc hx
      refine ⟨?_, h.calls, hf, ?_, (fun e => by cases e), hx, ?_, fun _ e => by cases e⟩
      · rw [ht, ← hs]; simp [WPc.inHand]
      · rw [← hs] at hc
        simp only [WPc.owed, List.length_cons] at hc ⊢
        omega
      · intro q j' seen' e
        have hz := crit_worker h (p := q) (by rw [e]; rfl)
        rw [hw] at hz
        cases hz
  · rename_i j hw
    rw [hw] at ht hf hc hx
    refine ⟨ht, h.calls, hf, hc, (fun e => by cases e), ?_, h.adding, fun _ e => by cases e⟩
    simp only [WPc.crit, Bool.false_eq_true, if_false] at hx ⊢
    split at hx <;> omega
  · rename_i j hw
    rw [hw] at ht hf hc hx
    refine ⟨?_, h.calls, ?_, hc, (fun e => by cases e), hx, h.adding, fun _ e => by cases e⟩
    · rw [ht]; simp [WPc.inHand]
    · simp only [WPc.running, List.append_nil] at hf ⊢
      rw [hf]
  · rename_i j hw
    rw [hw] at ht hf hc hx
    refine ⟨ht, h.calls, ?_, hc, (fun e => by cases e), hx, h.adding, fun _ e => by cases e⟩
    simp only [WPc.running, List.append_nil] at hf ⊢
    exact hf

theorem inv_step {mv : Bool} {s : QS J n} {order : List (Fin n × J)} (h : Inv s order) (a : QAct J n) :
    ∃ order', Inv (qstep mv s a) order' := by
  cases a with
  | prod p => exact inv_prod h p
  | work => exact ⟨order, inv_work h⟩
  | submit p j =>
    unfold qstep
    simp only
    split
    · rename_i hi
      have h1 := sum_update' PPc.owed s.prod p (.wants j) 0 0 (by rw [hi]; rfl) rfl
      have h2 := sum_update' PPc.crit s.prod p (.wants j) 0 0 (by rw [hi]; rfl) rfl
      have hc := h.count
      have hx := h.excl
      refine ⟨order, h.taken, fun q => ?_, h.fin, ?_, h.dec, ?_, ?_, h.shifting⟩
      · simp only [submittedBy_append]
        rw [h.calls q]
        by_cases hq : q = p
        · subst hq
          rw [Function.update_self, hi, submittedBy_single_self]
          simp [PPc.waiting]
        · rw [Function.update_of_ne hq, submittedBy_single_ne j (fun e => hq e.symm)]
          simp
      · simp only; omega
      · simp only; omega
      · exact adding_update h (fun _ _ e => by cases e)
    · exact ⟨order, h⟩

theorem inv_run {mv : Bool} (as : List (QAct J n)) : ∀ {s : QS J n} {order : List (Fin n × J)}, Inv s order →
    ∃ order', Inv (qrun mv s as) order' := by
  induction as with
  | nil => intro s o h; exact ⟨o, h⟩
  | cons a as ih =>
    intro s o h
    obtain ⟨o', h'⟩ := inv_step (mv := mv) h a
    exact ih h'

/-! `bad` -/

theorem bad_work {s : QS J n} {order : List (Fin n × J)} (h : Inv s order) : (workStep s).bad = s.bad := by
  unfold workStep
  split
  · split <;> rfl
  · rfl
  · split <;> rfl
  · rfl
  · rename_i hw
    split
    · exact absurd rfl (shift_nonempty h hw)
    · rfl
  · rfl
  · rfl
  · rfl

/-- A step makes `bad` true only by appending to a full array that moves. -/
theorem bad_step {mv : Bool} {s : QS J n} {order : List (Fin n × J)} (h : Inv s order) (hb : s.bad = false)
    (hm : mv = false ∨ s.jobs.length < s.cap) (a : QAct J n) : (qstep mv s a).bad = false := by
  cases a with
  | submit p j =>
    simp only [qstep]
    split
    · exact hb
    · exact hb
  | prod p =>
    simp only [qstep, prodStep]
    split
    · exact hb
    · split
      · exact hb
      · exact hb
    · exact hb
    · rename_i j seen hp
      have hs := h.adding p j seen hp
      simp only [appendJob]
      split
      · rename_i hcap
        rcases hm with hm | hm
        · simp [hb, hm]
        · rw [hs] at hcap; omega
      · exact hb
    · exact hb
    · exact hb
  | work => exact (bad_work h).trans hb

theorem bad_run (as : List (QAct J n)) : ∀ {s : QS J n} {order : List (Fin n × J)}, Inv s order → s.bad = false →
    (qrun false s as).bad = false := by
  induction as with
  | nil => intro s o _ hb; exact hb
  | cons a as ih =>
    intro s o h hb
    obtain ⟨o', h'⟩ := inv_step (mv := false) h a
    exact ih h' (bad_step h hb (Or.inl rfl) a)

/-! Draining -/

def Idle (s : QS J n) : Prop := ∀ p, s.prod p = .idle

theorem idle_sum {s : QS J n} (h : Idle s) (g : PPc J → Nat) (hg : g .idle = 0) : (∑ p, g (s.prod p)) = 0 := by
  refine Finset.sum_eq_zero fun p _ => ?_
  rw [h p]; exact hg

theorem workStep_prod (s : QS J n) : (workStep s).prod = s.prod := by
  unfold workStep
  split <;> try rfl
  · split <;> rfl
  · split <;> rfl
  · split <;> rfl

theorem workStep_calls (s : QS J n) : (workStep s).calls = s.calls := by
  unfold workStep
  split <;> try rfl
  · split <;> rfl
  · split <;> rfl
  · split <;> rfl

/-- Work left for the worker. -/
def WPc.rank : WPc J → Nat
  | .poll => 4
  | .dec => 3
  | .lock => 2
  | .shift => 1
  | .shifting _ => 0
  | .unlock _ => 7
  | .call _ => 6
  | .set _ => 5

theorem work_progress {s : QS J n} {order : List (Fin n × J)} (h : Inv s order) (hi : Idle s)
    (hd : ¬ (s.jobs = [] ∧ s.wk = .poll)) :
    8 * (workStep s).jobs.length + (workStep s).wk.rank < 8 * s.jobs.length + s.wk.rank := by
  have hc := h.count
  rw [idle_sum hi PPc.owed rfl] at hc
  have hx := h.excl
  rw [idle_sum hi PPc.crit rfl] at hx
  unfold workStep
  rcases hw : s.wk with _ | _ | _ | _ | seen | j | j | j
  · have ha : 0 < s.avail := by
      rw [hw] at hc
      simp only [WPc.owed] at hc
      rcases Nat.eq_zero_or_pos s.avail with e | e
      · exfalso
        exact hd ⟨List.length_eq_zero_iff.1 (by omega), hw⟩
      · exact e
    simp only [gt_iff_lt, ha, if_true]
    simp [WPc.rank]
  · simp [WPc.rank]
  · have : s.mutex = false := by
      cases e : s.mutex
      · rfl
      · rw [hw, e] at hx; simp [WPc.crit] at hx
    simp only [this, Bool.false_eq_true, if_false]
    simp [WPc.rank]
  · simp [WPc.rank]
  · have hne := shift_nonempty h hw
    have hs := h.shifting seen hw
    cases seen with
    | nil => exact absurd rfl hne
    | cons j r =>
      rw [← hs]
      simp only [WPc.rank, List.length_cons]
      omega
  · simp [WPc.rank]
  · simp [WPc.rank]
  · simp [WPc.rank]

theorem drain {mv : Bool} : ∀ (k : Nat) {s : QS J n} {order : List (Fin n × J)}, Inv s order → Idle s →
    8 * s.jobs.length + s.wk.rank ≤ k →
    ∃ m, let t := qrun mv s (List.replicate m .work)
      Inv t order ∧ t.jobs = [] ∧ t.wk = .poll ∧ t.calls = s.calls ∧ t.prod = s.prod
  | k, s, order, h, hi, hk => by
    by_cases hd : s.jobs = [] ∧ s.wk = .poll
    · exact ⟨0, h, hd.1, hd.2, rfl, rfl⟩
    · have hp := work_progress h hi hd
      match k with
      | 0 => omega
      | k + 1 =>
        obtain ⟨m, h1, h2, h3, h4, h5⟩ := drain (mv := mv) k (inv_work h)
          (fun p => by rw [workStep_prod]; exact hi p) (by omega)
        rw [workStep_calls] at h4
        rw [workStep_prod] at h5
        exact ⟨m + 1, h1, h2, h3, h4, h5⟩

/-! ### C42 -/

/-- C42.  Any number of producers, any interleaving.  There is one order of the submissions, agreeing with
every producer's own call order, such that the worker has started exactly a prefix of it (so every job at most
once and in order), it never takes a job that is not there, and a job is started only after the
previous one has finished.  `_partial`: the job array never has to move when it grows (`moves = false`); see
`full_queue_dangles` for what happens otherwise. -/
theorem jobs_fifo_partial (cap : Nat) (as : List (QAct J n)) :
    let s := qrun false (QS.init J n cap) as
    s.bad = false ∧
    (∃ order : List (Fin n × J), (∀ p, submittedBy order p <+: submittedBy s.calls p) ∧
      s.started <+: order.map (·.2)) ∧
    s.finished <+: s.started ∧ s.started.length ≤ s.finished.length + 1 := by
  intro s
  obtain ⟨order, h⟩ := inv_run (mv := false) as (inv_init (J := J) (n := n) cap)
  refine ⟨bad_run as (inv_init cap) rfl, ⟨order, fun p => ?_, ?_⟩, ?_, ?_⟩
  · rw [h.calls p]; exact List.prefix_append _ _
  · rw [h.taken, List.append_assoc]; exact List.prefix_append _ _
  · rw [h.fin]; exact List.prefix_append _ _
  · have hf := congrArg List.length h.fin
    rw [List.length_append] at hf
    have : ∀ w : WPc J, w.running.length ≤ 1 := by intro w; cases w <;> simp [WPc.running]
    have := this (qrun false (QS.init J n cap) as).wk
    show (qrun false (QS.init J n cap) as).started.length ≤ (qrun false (QS.init J n cap) as).finished.length + 1
    omega

theorem submittedBy_one (l : List (Fin 1 × J)) : submittedBy l 0 = l.map (·.2) := by
  have : l.filter (·.1 = 0) = l := List.filter_eq_self.2 (fun a _ => by simp [Subsingleton.elim a.1 0])
  unfold submittedBy; rw [this]

/-- With one producer the worker has started exactly the first so many jobs submitted, in that order. -/
theorem jobs_one_producer_partial (cap : Nat) (as : List (QAct J 1)) :
    let s := qrun false (QS.init J 1 cap) as
    s.started <+: s.calls.map (·.2) := by
  intro s
  obtain ⟨_, ⟨order, h1, h2⟩, _⟩ := jobs_fifo_partial (J := J) (n := 1) cap as
  have := h1 0
  rw [submittedBy_one, submittedBy_one] at this
  exact h2.trans this

/-- Nothing is left behind: from any reachable state in which all submissions have returned, the worker alone
runs and finishes every job submitted so far, each exactly once. -/
theorem jobs_all_run_partial (cap : Nat) (as : List (QAct J n))
    (hi : ∀ p, (qrun false (QS.init J n cap) as).prod p = .idle) :
    ∃ m, let s := qrun false (QS.init J n cap) (as ++ List.replicate m .work)
      s.bad = false ∧ s.calls = (qrun false (QS.init J n cap) as).calls ∧ s.finished = s.started ∧
      ∃ order : List (Fin n × J), (∀ p, submittedBy order p = submittedBy s.calls p) ∧
        s.finished = order.map (·.2) := by
  obtain ⟨order, h⟩ := inv_run (mv := false) as (inv_init (J := J) (n := n) cap)
  obtain ⟨m, h1, h2, h3, h4, h5⟩ := drain (mv := false) _ h hi (Nat.le_refl _)
  have hrun : qrun false (QS.init J n cap) (as ++ List.replicate m .work)
      = qrun false (qrun false (QS.init J n cap) as) (List.replicate m .work) := by
    unfold qrun; rw [List.foldl_append]
  refine ⟨m, ?_⟩
  simp only [hrun]
  have hb := bad_run (List.replicate m (QAct.work (J := J) (n := n))) h (bad_run as (inv_init cap) rfl)
  have hf := h1.fin
  rw [h3] at hf
  simp only [WPc.running, List.append_nil] at hf
  refine ⟨hb, h4, hf.symm, order, fun p => ?_, ?_⟩
  · rw [h1.calls p, h5, hi p]; simp [PPc.waiting]
  · rw [← hf, h1.taken, h2, h3]; simp [WPc.inHand]

/-- One whole submission by a producer that meets no contention. -/
def submitWhole (p : Fin n) (j : J) : List (QAct J n) := [.submit p j, .prod p, .prod p, .prod p, .prod p, .prod p]

theorem submitWhole_state {mv : Bool} {s : QS J n} (p : Fin n) (j : J) (hp : s.prod p = .idle) (hm : s.mutex = false) :
    qrun mv s (submitWhole p j) = { appendJob mv s s.jobs j with calls := s.calls ++ [(p, j)], avail := s.avail + 1 } := by
  have hu : ∀ (f : Fin n → PPc J), f p = .idle → Function.update f p .idle = f := fun f hf => by
    rw [← hf]; exact Function.update_eq_self _ _
  unfold appendJob
  by_cases hc : s.cap ≤ s.jobs.length
  · simp [qrun, submitWhole, qstep, prodStep, hp, hm, appendJob, hc, hu]
  · simp [qrun, submitWhole, qstep, prodStep, hp, hm, appendJob, hc, hu]

/-- `bad` is never taken back. -/
theorem fill_queue (mv : Bool) (cap : Nat) (js : List J) : ∀ {s : QS J n} (p : Fin n), s.prod p = .idle → s.mutex = false →
    s.cap = cap → s.jobs.length + js.length ≤ cap →
    let t := qrun mv s (js.flatMap (submitWhole p))
    t.prod p = .idle ∧ t.mutex = false ∧ t.cap = cap ∧ t.jobs = s.jobs ++ js ∧ t.bad = s.bad := by
  induction js with
  | nil => intro s p hp hm hc _; exact ⟨hp, hm, hc, by simp [qrun], rfl⟩
  | cons j js ih =>
    intro s p hp hm hc hl
    rw [List.length_cons] at hl
    have hrun : qrun mv s ((j :: js).flatMap (submitWhole p))
        = qrun mv (qrun mv s (submitWhole p j)) (js.flatMap (submitWhole p)) := by
      unfold qrun; rw [List.flatMap_cons, List.foldl_append]
    simp only [hrun]
    have he := submitWhole_state (mv := mv) p j hp hm
    have hcap : ¬ s.cap ≤ s.jobs.length := by omega
    unfold appendJob at he
    rw [if_neg hcap] at he
    rw [he]
    have := ih (s := { s with jobs := s.jobs ++ [j], calls := s.calls ++ [(p, j)], avail := s.avail + 1 }) p hp hm hc
      (by simp; omega)
    simpa using this

/-- The other side of the partial theorems: with the worker busy elsewhere, one submission more than the
array has room for leaves the queue with a dangling array if `realloc` moves the block.  For every capacity. -/
theorem full_queue_dangles (js : List J) (j : J) :
    let s := qrun true (QS.init J 1 js.length) ((js ++ [j]).flatMap (submitWhole 0))
    s.bad = true := by
  intro s
  have hrun : s = qrun true (qrun true (QS.init J 1 js.length) (js.flatMap (submitWhole 0))) (submitWhole 0 j) := by
    show qrun true (QS.init J 1 js.length) ((js ++ [j]).flatMap (submitWhole 0)) = _
    unfold qrun; rw [List.flatMap_append, List.foldl_append]; simp
  obtain ⟨h1, h2, h3, h4, h5⟩ := fill_queue (n := 1) true js.length js (s := QS.init J 1 js.length) 0 rfl rfl rfl
    (by simp [QS.init])
  rw [hrun, submitWhole_state 0 j h1 h2]
  unfold appendJob
  rw [if_pos (by rw [h3, h4]; simp [QS.init])]
  simp

/-- Two producers, two jobs each, interleaved; the worker starts and finishes all four in an order that keeps
`1` before `2` and `10` before `20`. -/
example :
    let s := qrun false (QS.init Nat 2 4)
      (submitWhole 0 1 ++ [.submit 1 10, .prod 1, .submit 0 2, .prod 0, .work, .prod 1, .prod 1, .prod 1, .prod 1,
        .prod 0, .prod 0, .prod 0, .prod 0, .prod 0] ++ submitWhole 1 20 ++ List.replicate 40 .work)
    s.finished = [1, 10, 2, 20] ∧ s.bad = false := by decide +kernel

example : (qrun true (QS.init Nat 1 2) (([7, 8] ++ [9]).flatMap (submitWhole 0))).bad = true :=
  full_queue_dangles [7, 8] 9

end Verif.Future
