import Verif.Deque.Model

/-!
# What the queue is supposed to do
-/

namespace Verif.Deque

/-- The tasks handed out (by steals and takes), in order. -/
def delivered (rets : List (Tid × Ret)) : List (Option Task) :=
  rets.filterMap fun r => match r.2 with
    | .got x => some x
    | _ => none

/-- One thread `o` pushes; every thread may steal; nobody takes. -/
def OneProducer (o : Tid) (acts : List Act) : Prop :=
  ∀ i w, (Act.start i (.push w) ∈ acts → i = o) ∧ Act.start i .take ∉ acts

/-- The tasks in the queue, oldest first, read from the ring. -/
def contents (s : St) : List (Option Task) :=
  (List.range' s.top (s.bottom - s.top)).map fun k => (s.heap s.cur).buf (k % (s.heap s.cur).size)

/-- Number of pushes begun. -/
def pushStarts (acts : List Act) : Nat :=
  (acts.filter fun a => match a with
    | .start _ (.push _) => true
    | _ => false).length

end Verif.Deque
