import Verif.Sched.Loop
import Verif.Sched.QueueProps

/-!
What happens to the run queue when a task that is in it is put on it again, and when a new task is resumed (C56, C37, C38).
`tasks_wait`, `waitfor` (src/events.c:2241, 2304) and `yielded` (1627-1630) do the former.
-/
namespace Verif.Sched

/-! ### A queued task at the head is queued again -/

def Stuck (l : TL) (w : Id) : Prop := l.head = some w ∧ (l.mem w).prev ≠ none ∧ l.tail ≠ none

theorem setNext_prev (m : Id → Links) (i : Id) (v : Option Id) (j : Id) : (setNext m i v j).prev = (m j).prev := by
  by_cases h : j = i
  · subst h; rw [setNext_self]
  · rw [setNext_of_ne h]

theorem setPrev_next (m : Id → Links) (i : Id) (v : Option Id) (j : Id) : (setPrev m i v j).next = (m j).next := by
  by_cases h : j = i
  · subst h; rw [setPrev_self]
  · rw [setPrev_of_ne h]

theorem stuck_enqueue {l : TL} {w u : Id} (h : Stuck l w) : Stuck (enqueue l u) w := by
  obtain ⟨h1, h2, h3⟩ := h
  unfold enqueue
  cases e : l.tail with
  | none => exact absurd e h3
  | some z =>
    refine ⟨h1, ?_, by simp⟩
    simp only [setNext_prev]
    by_cases hw : w = u
    · subst hw; rw [setPrev_self]; simp
    · rw [setPrev_of_ne hw, setNext_prev]; exact h2

theorem stuck_pop {l : TL} {w : Id} (h : Stuck l w) : (taskDequeue l).1 = some w ∧ Stuck (taskDequeue l).2 w := by
  obtain ⟨h1, h2, h3⟩ := h
  unfold taskDequeue
  rw [h1]
  refine ⟨rfl, ?_⟩
  obtain ⟨p, hp⟩ := Option.ne_none_iff_exists'.1 h2
  have hf : skipForward l w = { l with mem := setNext l.mem p (l.mem w).next } := by simp [skipForward, hp]
  simp only [dequeue]
  rw [hf]
  unfold skipBackward
  simp only
  split
  · rename_i n hn
    refine ⟨h1, ?_, h3⟩
    simp only [setNext_prev]
    by_cases e : w = n
    · subst e; rw [setPrev_self]; exact h2
    · rw [setPrev_of_ne e, setNext_prev]; exact h2
  · refine ⟨h1, ?_, ?_⟩
    · simp only [setNext_prev]; exact h2
    · simp only [setNext_prev]; exact h2

def notRemove : QOp → Bool
  | .remove _ => false
  | _ => true

/-- The task at the head of the run queue is queued again: from then on the scheduler takes only this task,
whatever else is queued before or later, even after the task has finished. -/
theorem requeue_head_starves (l : TL) (w : Id) (b : List Id) (h : Rep l (w :: b)) (ops : List QOp)
    (hops : ∀ op ∈ ops, notRemove op = true) :
    ∀ o ∈ (ops.foldl implQ (enqueue l w, [])).2, o = some w := by
  have hst : Stuck (enqueue l w) w := by
    have hh : l.head = some w := by simpa using h.head
    have ht : l.tail ≠ none := by rw [h.tail]; simp
    unfold enqueue
    cases e : l.tail with
    | none => exact absurd e ht
    | some z => exact ⟨hh, by simp [setNext_prev, setPrev_self], by simp⟩
  have key : ∀ (ops : List QOp) (l : TL) (out : List (Option Id)), (∀ op ∈ ops, notRemove op = true) → Stuck l w →
      (∀ o ∈ out, o = some w) → ∀ o ∈ (ops.foldl implQ (l, out)).2, o = some w := by
    intro ops
    induction ops with
    | nil => intro l out _ _ ho; exact ho
    | cons op ops ih =>
      intro l out hops hs ho
      rw [List.foldl_cons]
      have hrest : ∀ op ∈ ops, notRemove op = true := fun o ho => hops o (by simp [ho])
      cases op with
      | enq u => exact ih _ _ hrest (stuck_enqueue hs) ho
      | remove u => exact absurd (hops (.remove u) (by simp)) (by simp [notRemove])
      | pop =>
        have := stuck_pop hs
        refine ih _ _ hrest this.2 ?_
        intro o hm
        rcases List.mem_append.1 hm with hm | hm
        · exact ho o hm
        · rw [List.mem_singleton] at hm; rw [hm]; exact this.1
  exact key ops _ [] hops hst (by simp)

/-! ### A queued task further back is queued again -/

/-- The list is right but for the `prev` field of `w`, which is not at the head. -/
def Weak (l : TL) (w : Id) (xs : List Id) : Prop :=
  (∃ p, Rep { l with mem := setPrev l.mem w p } xs) ∧ w ∈ xs ∧ xs.head? ≠ some w

theorem setPrev_setPrev (m : Id → Links) (i : Id) (v v' : Option Id) : setPrev (setPrev m i v) i v' = setPrev m i v' := by
  unfold setPrev
  rw [Function.update_self, Function.update_idem]

theorem setPrev_comm (m : Id → Links) {i j : Id} (h : i ≠ j) (v v' : Option Id) :
    setPrev (setPrev m i v) j v' = setPrev (setPrev m j v') i v := by
  unfold setPrev
  rw [Function.update_of_ne h.symm, Function.update_of_ne h, Function.update_comm h]

theorem setPrev_setNext (m : Id → Links) (i j : Id) (v v' : Option Id) :
    setPrev (setNext m i v) j v' = setNext (setPrev m j v') i v := by
  by_cases h : i = j
  · subst h; unfold setPrev setNext; rw [Function.update_self, Function.update_self, Function.update_idem, Function.update_idem]
  · unfold setPrev setNext
    rw [Function.update_of_ne (Ne.symm h), Function.update_of_ne h, Function.update_comm h]

theorem weak_enqueue {l : TL} {w u : Id} {xs : List Id} (h : Weak l w xs) (hu : u ∉ xs) : Weak (enqueue l u) w (xs ++ [u]) := by
  obtain ⟨⟨p, hr⟩, hm, hh⟩ := h
  have hne : w ≠ u := fun e => hu (e ▸ hm)
  refine ⟨⟨p, ?_⟩, by simp [hm], ?_⟩
  · have := enqueue_rep hr hu
    have e : enqueue { l with mem := setPrev l.mem w p } u = { enqueue l u with mem := setPrev (enqueue l u).mem w p } := by
      unfold enqueue
      cases l.tail with
      | none => simp only [setPrev_setNext, setPrev_comm _ hne]
      | some z => simp only [setPrev_setNext, setPrev_comm _ hne]
    rw [← e]
    exact this
  · cases xs with
    | nil => simp at hm
    | cons x xs => simpa using hh

theorem weak_pop {l : TL} {w x : Id} {xs : List Id} (h : Weak l w (x :: xs)) :
    (taskDequeue l).1 = some x ∧ (Rep (taskDequeue l).2 xs ∨ Weak (taskDequeue l).2 w xs) := by
  obtain ⟨⟨p, hr⟩, hm, hh⟩ := h
  have hne : x ≠ w := by simpa using hh
  have hd := taskDequeue_cons hr
  have hhead : l.head = some x := by simpa using hr.head
  have hxm : setPrev l.mem w p x = l.mem x := setPrev_of_ne hne
  have hxprev : (l.mem x).prev = none := by rw [← hxm]; exact hr.seg.1
  have hxnext : (l.mem x).next = xs.head?.or none := by rw [← hxm]; exact hr.seg.2.1
  have hwx : w ∈ xs := by
    rcases List.mem_cons.1 hm with e | e
    · exact absurd e.symm hne
    · exact e
  refine ⟨by simp [taskDequeue, hhead], ?_⟩
  obtain ⟨y, ys, rfl⟩ : ∃ y ys, xs = y :: ys := by
    cases xs with
    | nil => simp at hwx
    | cons y ys => exact ⟨y, ys, rfl⟩
  simp only [List.head?_cons, Option.some_or] at hxnext
  have e1 : (taskDequeue { l with mem := setPrev l.mem w p }).2 = { l with head := some y, mem := setPrev (setPrev l.mem w p) y none } := by
    simp only [taskDequeue, hhead, dequeue, skipForward, skipBackward, hxm, hxprev, hxnext]
  have e2 : (taskDequeue l).2 = { l with head := some y, mem := setPrev l.mem y none } := by
    simp only [taskDequeue, hhead, dequeue, skipForward, skipBackward, hxprev, hxnext]
  rw [e1] at hd
  rw [e2]
  by_cases hy : y = w
  · left
    subst hy
    have := hd.2
    rw [setPrev_setPrev] at this
    exact this
  · right
    refine ⟨⟨p, ?_⟩, hwx, by simpa using hy⟩
    simp only
    rw [setPrev_comm _ hy]
    exact hd.2

theorem requeue_weak {l : TL} {w : Id} {a b : List Id} (ha : a ≠ []) (h : Rep l (a ++ w :: b)) : Weak (enqueue l w) w (a ++ [w]) := by
  have hw : w ∉ a := by
    have := h.nodup
    rw [List.nodup_append] at this
    exact fun hm => this.2.2 w hm w (by simp) rfl
  refine ⟨?_, by simp, ?_⟩
  · obtain ⟨s1, s2⟩ := seg_append.1 h.seg
    have hhead : l.head = (a ++ [w]).head? := by
      rw [h.head]
      obtain ⟨y, ys, rfl⟩ := List.exists_cons_of_ne_nil ha
      simp
    have hnd : (a ++ [w]).Nodup := by
      have := h.nodup
      rw [show a ++ w :: b = (a ++ [w]) ++ b by simp, List.nodup_append] at this
      exact this.1
    refine ⟨a.getLast?, hnd, ?_, ?_, ?_⟩
    · unfold enqueue
      have ht : l.tail ≠ none := by rw [h.tail]; simp
      cases e : l.tail with
      | none => exact absurd e ht
      | some z => simpa using hhead
    · simp [enqueue]
    · have ht : l.tail ≠ none := by rw [h.tail]; simp
      cases e : l.tail with
      | none => exact absurd e ht
      | some z =>
        have hmem : ∀ x ∈ a, setPrev (enqueue l w).mem w a.getLast? x = l.mem x := by
          intro x hx
          have hxw : x ≠ w := fun e => hw (e ▸ hx)
          have hxz : x ≠ z := by
            intro exz
            subst exz
            have hz := h.tail
            rw [e] at hz
            have hl : (w :: b).getLast? = some x := by
              rw [hz, List.getLast?_append]
              obtain ⟨v, hv⟩ : ∃ v, (w :: b).getLast? = some v := ⟨_, List.getLast?_eq_some_getLast (by simp)⟩
              rw [hv]; simp
            have hxm : x ∈ w :: b := List.mem_of_getLast? hl
            have := h.nodup
            rw [List.nodup_append] at this
            exact this.2.2 x hx x hxm rfl
          simp only [enqueue, e]
          rw [setPrev_of_ne hxw, setNext_of_ne hxw, setPrev_of_ne hxw, setNext_of_ne hxz]
        rw [seg_append]
        refine ⟨seg_congr hmem (by simpa using s1), ?_⟩
        simp only [Seg, List.head?_nil, Option.none_or, and_true]
        refine ⟨by rw [setPrev_self]; simp, ?_⟩
        rw [setPrev_next]
        simp only [enqueue, e, setNext_self]
  · obtain ⟨y, ys, rfl⟩ := List.exists_cons_of_ne_nil ha
    simp only [List.cons_append, List.head?_cons, ne_eq, Option.some.injEq]
    exact fun e => hw (by simp [e])

/-- Not at the head: the scheduler goes on exactly as if the queue ended with the task queued twice; all tasks that
were behind it are gone.  `ops` is any later use of the queue that is legal for the shortened queue. -/
theorem requeue_cuts_queue (l : TL) (w : Id) (a b : List Id) (ha : a ≠ []) (h : Rep l (a ++ w :: b)) (ops : List QOp)
    (hops : ∀ op ∈ ops, notRemove op = true) (xs : List Id) (out : List (Option Id))
    (hs : specQs (a ++ [w], []) ops = some (xs, out)) :
    (ops.foldl implQ (enqueue l w, [])).2 = out := by
  have key : ∀ (ops : List QOp) (l : TL) (xs xs' : List Id) (o out : List (Option Id)),
      (∀ op ∈ ops, notRemove op = true) → (Rep l xs ∨ Weak l w xs) → specQs (xs, o) ops = some (xs', out) →
      (ops.foldl implQ (l, o)).2 = out := by
    intro ops
    induction ops with
    | nil =>
      intro l xs xs' o out _ _ hs
      simp only [specQs, Option.some.injEq, Prod.mk.injEq] at hs
      exact hs.2
    | cons op ops ih =>
      intro l xs xs' o out hops hr hs
      have hrest : ∀ op ∈ ops, notRemove op = true := fun o ho => hops o (by simp [ho])
      simp only [specQs, Option.bind_eq_some_iff] at hs
      obtain ⟨⟨xs1, o1⟩, h1, h2⟩ := hs
      rw [List.foldl_cons]
      cases op with
      | enq u =>
        simp only [specQ] at h1
        split at h1
        · cases h1
        · rename_i hu
          cases h1
          refine ih _ _ _ _ _ hrest ?_ h2
          rcases hr with hr | hr
          · exact Or.inl (enqueue_rep hr hu)
          · exact Or.inr (weak_enqueue hr hu)
      | remove u => exact absurd (hops (.remove u) (by simp)) (by simp [notRemove])
      | pop =>
        cases xs with
        | nil =>
          cases h1
          rcases hr with hr | hr
          · simp only [implQ, taskDequeue_nil hr]
            exact ih _ _ _ _ _ hrest (Or.inl hr) h2
          · exact absurd hr.2.1 (by simp)
        | cons x xs =>
          simp only [specQ, Option.some.injEq, Prod.mk.injEq] at h1
          obtain ⟨e1, e2⟩ := h1
          rw [← e1, ← e2] at h2
          have : (taskDequeue l).1 = some x ∧ (Rep (taskDequeue l).2 xs ∨ Weak (taskDequeue l).2 w xs) := by
            rcases hr with hr | hr
            · have := taskDequeue_cons hr
              exact ⟨this.1, Or.inl this.2⟩
            · exact weak_pop hr
          simp only [implQ, this.1]
          exact ih _ _ _ _ _ hrest this.2 h2
  exact key ops _ _ _ [] out hops (Or.inr (requeue_weak ha h)) hs

theorem spec_out_enq (x : Id) : ∀ (ops : List QOp) (xs xs' : List Id) (o out : List (Option Id)), x ∉ xs → some x ∉ o →
    (∀ op ∈ ops, op ≠ .enq x) → specQs (xs, o) ops = some (xs', out) → some x ∉ out := by
  intro ops
  induction ops with
  | nil =>
    intro xs xs' o out _ ho _ hs
    simp only [specQs, Option.some.injEq, Prod.mk.injEq] at hs
    rw [← hs.2]; exact ho
  | cons op ops ih =>
    intro xs xs' o out hx ho hops hs
    simp only [specQs, Option.bind_eq_some_iff] at hs
    obtain ⟨⟨xs1, o1⟩, h1, h2⟩ := hs
    have hrest : ∀ op ∈ ops, op ≠ .enq x := fun o ho => hops o (by simp [ho])
    cases op with
    | enq u =>
      have hu : u ≠ x := fun e => hops (.enq u) (by simp) (by rw [e])
      simp only [specQ] at h1
      split at h1
      · cases h1
      · cases h1
        exact ih _ _ _ _ (by simp [hx, hu.symm]) ho hrest h2
    | remove u =>
      simp only [specQ] at h1
      split at h1
      · cases h1
        exact ih _ _ _ _ (fun hm => hx (List.mem_of_mem_erase hm)) ho hrest h2
      · cases h1
    | pop =>
      cases xs with
      | nil => cases h1; exact ih _ _ _ _ hx (by simp [ho]) hrest h2
      | cons y xs =>
        cases h1
        refine ih _ _ _ _ (fun hm => hx (by simp [hm])) ?_ hrest h2
        rw [List.mem_append, not_or]
        refine ⟨ho, ?_⟩
        rw [List.mem_singleton]
        intro e
        cases e
        exact hx (by simp)

/-- So a task `x` behind the one queued twice never runs again unless somebody queues it again. -/
theorem requeue_drops (l : TL) (w x : Id) (a b : List Id) (ha : a ≠ []) (h : Rep l (a ++ w :: b)) (hx : x ∈ b) (ops : List QOp)
    (hops : ∀ op ∈ ops, notRemove op = true ∧ op ≠ .enq x) (xs : List Id) (out : List (Option Id))
    (hs : specQs (a ++ [w], []) ops = some (xs, out)) :
    some x ∉ (ops.foldl implQ (enqueue l w, [])).2 := by
  rw [requeue_cuts_queue l w a b ha h ops (fun op ho => (hops op ho).1) xs out hs]
  refine spec_out_enq x ops _ _ _ _ ?_ (by simp) (fun op ho => (hops op ho).2) hs
  have := h.nodup
  rw [show a ++ w :: b = (a ++ [w]) ++ b by simp, List.nodup_append] at this
  exact fun hm => this.2.2 x hm x hx rfl

namespace Loop

/-! ### Resuming a new task -/

inductive Op
  | sched (pre : List Id)
  | act (a : Act)

def Op.do (s : St) : Op → St
  | .sched pre => Loop.sched pre s
  | .act a => Loop.act a s

def pingPong : Op → Bool
  | .sched _ => true
  | .act (.enq _) => true
  | .act .yield => true
  | .act .block => true
  | _ => false

/-- `resume(co)` of a task that has run at most once switches to it directly, and `suspend` always goes back to the
task switched from: until one of the two finishes (or resumes a third), however often they yield, only these two
get control; no other task runs, and the scheduler is never reached. -/
theorem resume_new_bypasses (s : St) (t co : Id) (ht : s.active = some t) (hc : s.cycles co ≤ 1)
    (ops : List Op) (hops : ∀ op ∈ ops, pingPong op = true) :
    (ops.foldl Op.do (act (.resume co) s)).active ≠ none ∧
    ∃ ran, (ops.foldl Op.do (act (.resume co) s)).log = s.log ++ ran ∧ ∀ u ∈ ran, u = t ∨ u = co := by
  have key : ∀ (ops : List Op) (s0 : St), (∀ op ∈ ops, pingPong op = true) →
      ((s0.active = some t ∧ s0.current = some co) ∨ (s0.active = some co ∧ s0.current = some t)) →
      (ops.foldl Op.do s0).active ≠ none ∧ ∃ ran, (ops.foldl Op.do s0).log = s0.log ++ ran ∧ ∀ u ∈ ran, u = t ∨ u = co := by
    intro ops
    induction ops with
    | nil =>
      intro s0 _ h
      refine ⟨?_, [], by simp, by simp⟩
      rcases h with h | h <;> simp [h.1]
    | cons op ops ih =>
      intro s0 hops h
      have hrest : ∀ op ∈ ops, pingPong op = true := fun o ho => hops o (by simp [ho])
      obtain ⟨x, y, hx, hy, hxy⟩ : ∃ x y, s0.active = some x ∧ s0.current = some y ∧ ((x = t ∧ y = co) ∨ (x = co ∧ y = t)) := by
        rcases h with h | h
        · exact ⟨t, co, h.1, h.2, Or.inl ⟨rfl, rfl⟩⟩
        · exact ⟨co, t, h.1, h.2, Or.inr ⟨rfl, rfl⟩⟩
      have hyt : y = t ∨ y = co := by rcases hxy with h | h; exact Or.inr h.2; exact Or.inl h.2
      have swapped : (some y = some t ∧ some x = some co) ∨ (some y = some co ∧ some x = some t) := by
        rcases hxy with h | h
        · exact Or.inr ⟨by rw [h.2], by rw [h.1]⟩
        · exact Or.inl ⟨by rw [h.2], by rw [h.1]⟩
      rw [List.foldl_cons]
      have hop := hops op (by simp)
      cases op with
      | sched pre =>
        have e : Op.do s0 (.sched pre) = s0 := by simp [Op.do, Loop.sched, hx]
        rw [e]; exact ih s0 hrest h
      | act a =>
        cases a with
        | enq u =>
          have e : Op.do s0 (.act (.enq u)) = enq s0 u := by simp [Op.do, Loop.act, hx]
          rw [e]; exact ih (enq s0 u) hrest h
        | yield =>
          have e : Op.do s0 (.act .yield) = switchTo (enqRunning s0) (some y) := by simp [Op.do, Loop.act, hx, hy]
          have ea : (enqRunning s0).active = some x := by unfold enqRunning; split <;> exact hx
          have el : (enqRunning s0).log = s0.log := by unfold enqRunning; split <;> rfl
          rw [e]
          obtain ⟨r1, ran, r2, r3⟩ := ih (switchTo (enqRunning s0) (some y)) hrest (by simpa [switchTo, ea] using swapped)
          refine ⟨r1, y :: ran, by rw [r2]; simp [switchTo, el], ?_⟩
          intro u hu
          rcases List.mem_cons.1 hu with rfl | hu
          · exact hyt
          · exact r3 u hu
        | block =>
          have e : Op.do s0 (.act .block) = switchTo s0 (some y) := by simp [Op.do, Loop.act, hx, hy]
          rw [e]
          obtain ⟨r1, ran, r2, r3⟩ := ih (switchTo s0 (some y)) hrest (by simpa [switchTo, hx] using swapped)
          refine ⟨r1, y :: ran, by rw [r2]; simp [switchTo], ?_⟩
          intro u hu
          rcases List.mem_cons.1 hu with rfl | hu
          · exact hyt
          · exact r3 u hu
        | finish => exact absurd hop (by simp [pingPong])
        | resume c => exact absurd hop (by simp [pingPong])
  have e : act (.resume co) s = switchTo (enqRunning s) (some co) := by
    simp only [act, ht]
    rw [if_neg (by omega)]
  have ea : (enqRunning s).active = some t := by unfold enqRunning; split <;> exact ht
  have el : (enqRunning s).log = s.log := by unfold enqRunning; split <;> rfl
  rw [e]
  obtain ⟨r1, ran, r2, r3⟩ := key ops (switchTo (enqRunning s) (some co)) hops (Or.inr ⟨rfl, ea⟩)
  refine ⟨r1, co :: ran, by rw [r2]; simp [switchTo, el], ?_⟩
  intro u hu
  rcases List.mem_cons.1 hu with rfl | hu
  · exact Or.inr rfl
  · exact r3 u hu

end Loop

/-! ### Instances -/

/-- Queue 1, 2, 3, 4; 2 is queued again; then everybody who is taken yields: 3 and 4 never come. -/
example (m : Id → Links) : (([QOp.pop, .enq 1, .pop, .enq 2, .pop, .enq 1, .pop]).foldl implQ
    (enqueue (enqueue (enqueue (enqueue (enqueue (TL.empty m) 1) 2) 3) 4) 2, [])).2 = [some 1, some 2, some 1, some 2] := by
  refine requeue_cuts_queue _ 2 [1] [3, 4] (by simp) ?_ _ (by decide) [1] _ (by decide)
  exact enqueue_rep (enqueue_rep (enqueue_rep (enqueue_rep (empty_rep m) (by simp)) (by simp)) (by simp)) (by simp)

/-- Queue 1, 2; 1 is queued again. -/
example (m : Id → Links) : ∀ o ∈ (([QOp.pop, .enq 1, .pop, .enq 5, .pop]).foldl implQ
    (enqueue (enqueue (enqueue (TL.empty m) 1) 2) 1, [])).2, o = some 1 :=
  requeue_head_starves _ 1 [2] (enqueue_rep (enqueue_rep (empty_rep m) (by simp)) (by simp)) _ (by decide)

end Verif.Sched
