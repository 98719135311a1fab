import Verif.Sched.QueueLemmas

/-!
# C27: the run queue
-/

namespace Verif.Sched

/-- Follow `next` from a pointer, at most `n` nodes. -/
def forward (m : Id → Links) : Nat → Option Id → List Id
  | 0, _ => []
  | _, none => []
  | n + 1, some x => x :: forward m n (m x).next

/-- Follow `prev` from a pointer, at most `n` nodes. -/
def backward (m : Id → Links) : Nat → Option Id → List Id
  | 0, _ => []
  | _, none => []
  | n + 1, some x => x :: backward m n (m x).prev

/-- What a user of a queue does. -/
inductive QOp where
  | enq (t : Id)
  | remove (t : Id)
  | pop
  deriving DecidableEq

/-- The abstract queue: a list, what `pop` returns recorded in the second component.  A task already queued is never
enqueued again and only a queued task is removed (the callers' discipline); other requests are not legal. -/
def specQ : List Id × List (Option Id) → QOp → Option (List Id × List (Option Id))
  | (xs, out), .enq t => if t ∈ xs then none else some (xs ++ [t], out)
  | (xs, out), .remove t => if t ∈ xs then some (xs.erase t, out) else none
  | ([], out), .pop => some ([], out ++ [none])
  | (x :: xs, out), .pop => some (xs, out ++ [some x])

def specQs (s : List Id × List (Option Id)) : List QOp → Option (List Id × List (Option Id))
  | [] => some s
  | op :: ops => (specQ s op).bind fun s => specQs s ops

/-- The same operations on the linked list. -/
def implQ : TL × List (Option Id) → QOp → TL × List (Option Id)
  | (l, out), .enq t => (enqueue l t, out)
  | (l, out), .remove t => (dequeue l t, out)
  | (l, out), .pop => ((taskDequeue l).2, out ++ [(taskDequeue l).1])

theorem forward_seg {m : Id → Links} {p : Option Id} : ∀ {xs : List Id} {k : Nat}, Seg m p xs none →
    forward m (xs.length + k) xs.head? = xs
  | [], k, _ => by cases k <;> rfl
  | x :: xs, k, h => by
    rw [show (x :: xs).length + k = (xs.length + k) + 1 by simp; omega]
    simp only [List.head?_cons, forward]
    have hn := h.2.1
    rw [Option.or_none] at hn
    rw [hn, forward_seg h.2.2]

theorem backward_seg {m : Id → Links} : ∀ (n : Nat) (xs : List Id) (k : Nat), xs.length = n →
    (∃ t, Seg m none xs t) → backward m (xs.length + k) xs.getLast? = xs.reverse := by
  intro n
  induction n with
  | zero =>
    intro xs k hl _
    have : xs = [] := List.length_eq_zero_iff.1 hl
    subst this
    cases k <;> rfl
  | succ n ih =>
    intro xs k hl ⟨t, h⟩
    rcases List.eq_nil_or_concat xs with rfl | ⟨a, z, rfl⟩
    · simp at hl
    · simp only [List.concat_eq_append] at *
      rw [seg_append] at h
      have hp := h.2.1
      rw [Option.or_none] at hp
      rw [show (a ++ [z]).length + k = (a.length + k) + 1 by simp; omega]
      have hgl : (a ++ [z]).getLast? = some z := by simp
      rw [hgl]
      simp only [backward]
      rw [hp, ih a k (by simpa using hl) ⟨_, h.1⟩]
      simp

theorem impl_step {l : TL} {xs xs' : List Id} {out out'} (op : QOp) (h : Rep l xs)
    (hs : specQ (xs, out) op = some (xs', out')) : Rep (implQ (l, out) op).1 xs' ∧ (implQ (l, out) op).2 = out' := by
  cases op with
  | enq t =>
    simp only [specQ] at hs
    split at hs
    · exact absurd hs (by simp)
    · rename_i ht
      simp only [Option.some.injEq, Prod.mk.injEq] at hs
      obtain ⟨rfl, rfl⟩ := hs
      exact ⟨enqueue_rep h ht, rfl⟩
  | remove t =>
    simp only [specQ] at hs
    split at hs
    · rename_i ht
      simp only [Option.some.injEq, Prod.mk.injEq] at hs
      obtain ⟨rfl, rfl⟩ := hs
      obtain ⟨a, b, hta, rfl, e⟩ := List.exists_erase_eq ht
      rw [e]
      exact ⟨dequeue_rep h, rfl⟩
    · exact absurd hs (by simp)
  | pop =>
    cases xs with
    | nil =>
      simp only [specQ, Option.some.injEq, Prod.mk.injEq] at hs
      obtain ⟨rfl, rfl⟩ := hs
      simp only [implQ, taskDequeue_nil h]
      exact ⟨h, trivial⟩
    | cons x xs =>
      simp only [specQ, Option.some.injEq, Prod.mk.injEq] at hs
      obtain ⟨rfl, rfl⟩ := hs
      have := taskDequeue_cons h
      simp only [implQ, this.1]
      exact ⟨this.2, trivial⟩

theorem impl_run {ops : List QOp} : ∀ {l : TL} {xs xs' : List Id} {out out'}, Rep l xs →
    specQs (xs, out) ops = some (xs', out') →
    Rep (ops.foldl implQ (l, out)).1 xs' ∧ (ops.foldl implQ (l, out)).2 = out' := by
  induction ops with
  | nil =>
    intro l xs xs' out out' h hs
    simp only [specQs, Option.some.injEq, Prod.mk.injEq] at hs
    obtain ⟨rfl, rfl⟩ := hs
    exact ⟨h, rfl⟩
  | cons op ops ih =>
    intro l xs xs' out out' h hs
    simp only [specQs, Option.bind_eq_some_iff] at hs
    obtain ⟨⟨xs1, out1⟩, h1, h2⟩ := hs
    have := impl_step op h h1
    rw [List.foldl_cons]
    have e : implQ (l, out) op = ((implQ (l, out) op).1, out1) := by rw [← this.2]
    rw [e]
    exact ih this.1 h2

/-- C27: for every legal history of enqueues, removals and pops on an initially empty list (whatever the link fields
held before), every pop returns what a FIFO list returns, and afterwards following `next` from the head visits exactly
the queued tasks in order, and following `prev` from the tail visits them in reverse order. -/
theorem run_queue_fifo (m : Id → Links) (ops : List QOp) (xs : List Id) (out : List (Option Id))
    (h : specQs ([], []) ops = some (xs, out)) :
    (ops.foldl implQ (TL.empty m, [])).2 = out ∧
    (∀ k, forward (ops.foldl implQ (TL.empty m, [])).1.mem (xs.length + k) (ops.foldl implQ (TL.empty m, [])).1.head = xs) ∧
    (∀ k, backward (ops.foldl implQ (TL.empty m, [])).1.mem (xs.length + k) (ops.foldl implQ (TL.empty m, [])).1.tail =
      xs.reverse) := by
  have := impl_run (empty_rep m) h
  refine ⟨this.2, fun k => ?_, fun k => ?_⟩
  · rw [this.1.head]; exact forward_seg this.1.seg
  · rw [this.1.tail]; exact backward_seg _ _ _ rfl ⟨_, this.1.seg⟩

example : specQs ([], []) [.enq 3, .enq 5, .enq 9, .remove 5, .pop, .enq 5, .pop, .pop, .pop] =
    some ([], [some 3, some 9, some 5, none]) := by decide

end Verif.Sched
