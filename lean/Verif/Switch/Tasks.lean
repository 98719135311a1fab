import Verif.Switch.Bytes

/-!
# Executions of several tasks that switch with `coro_swap`

One thread of the library runs many tasks.  `task_switch`
(`src/events.c` lines 1543-1558) calls `coro_swap(the task to run, the task
that ran)`; each handle points to the memory where registers are kept.
What a task does between two switches is arbitrary, except that it does not
change what suspended tasks own.
-/

namespace Verif.Switch

/-- `x` is in one of the ranges. -/
def Within (l : List (Nat × Nat)) (x : Nat) : Prop := ∃ e ∈ l, e.1 ≤ x ∧ x < e.1 + e.2

/-- Two memories hold the same bytes in the ranges. -/
def Same (l : List (Nat × Nat)) (m m' : Mem) : Prop := ∀ x, Within l x → m x = m' x

/-- A processor with a function `coro_swap`. -/
structure Arch where
  C : Type
  mem : C → Mem
  /-- the function, from its first instruction to the first one after it;
  `none` is a fault of the processor -/
  swap : C → Option C
  /-- its first argument: where the registers to be loaded are -/
  load : C → Nat
  /-- its second argument: where the registers are saved -/
  save : C → Nat
  /-- bytes for the registers of one task -/
  size : Nat
  /-- where the caller's return address is, if it is in memory -/
  ret : C → List (Nat × Nat)
  /-- what the function may write besides, in the description of the thread -/
  extra : C → List (Nat × Nat)
  /-- what the caller has to see to -/
  ok : C → Prop
  /-- the second state is one in which the call made in the first one has
  returned, as the rules for calls of the platform say -/
  back : C → C → Prop

/-- What is shown of each machine: only the registers of the task that stops
are written, and the task that stopped goes on when it is the one to be run,
provided nobody changed what it owns. -/
structure Good (a : Arch) : Prop where
  frame : ∀ {c c'}, a.ok c → a.swap c = some c' → ∀ x,
    ¬ Within ((a.save c, a.size) :: a.extra c) x → a.mem c' x = a.mem c x
  resume : ∀ {s s' t t'}, a.ok s → a.swap s = some s' → a.ok t → a.swap t = some t' →
    a.load t = a.save s →
    Same ((a.save s, a.size) :: a.ret s) (a.mem t) (a.mem s') →
    (∀ e ∈ a.ret s, Apart (a.save s) a.size e.1 e.2) →
    (∀ e ∈ (a.save s, a.size) :: a.ret s, Apart (a.save t) a.size e.1 e.2) →
    (∀ e ∈ a.ret s, ∀ f ∈ a.extra s, Apart f.1 f.2 e.1 e.2) →
    (∀ e ∈ (a.save s, a.size) :: a.ret s, ∀ f ∈ a.extra t, Apart f.1 f.2 e.1 e.2) →
    a.back s t'

/-- A thread with its tasks: the processor, the task that runs, and for a task
that called `coro_swap` the states just before and just after. -/
structure Thr (a : Arch) where
  cpu : a.C
  cur : Nat
  susp : Nat → Option (a.C × a.C)

/-- The call is made as `task_switch` makes it: from the running task `k` to
another one `j`, and the caller's return address lies neither among the
registers of any task nor in the description of the thread; the latter is not
among the registers of a task either. -/
structure Call (a : Arch) (ctx : Nat → Nat) (teb : List (Nat × Nat)) (c : a.C) (k j : Nat) :
    Prop where
  ok : a.ok c
  other : j ≠ k
  load : a.load c = ctx j
  save : a.save c = ctx k
  extra : a.extra c = teb
  ret : ∀ e ∈ a.ret c, (∀ i, Apart (ctx i) a.size e.1 e.2) ∧ ∀ f ∈ teb, Apart f.1 f.2 e.1 e.2

/-- What can happen: the running task does anything to the processor and to
memory except to what suspended tasks own, or switches. -/
inductive Step (a : Arch) (ctx : Nat → Nat) (teb : List (Nat × Nat)) : Thr a → Thr a → Prop
  | run {st : Thr a} {c : a.C}
      (h : ∀ j s s', st.susp j = some (s, s') →
        Same ((ctx j, a.size) :: a.ret s) (a.mem c) (a.mem st.cpu)) :
      Step a ctx teb st { st with cpu := c }
  | swap {st : Thr a} {j : Nat} {c : a.C} (h : Call a ctx teb st.cpu st.cur j)
      (hc : a.swap st.cpu = some c) :
      Step a ctx teb st
        ⟨c, j, fun i => if i = st.cur then some (st.cpu, c) else if i = j then none else st.susp i⟩

inductive Reach (a : Arch) (ctx : Nat → Nat) (teb : List (Nat × Nat)) : Thr a → Thr a → Prop
  | refl (st : Thr a) : Reach a ctx teb st st
  | tail {st st' st'' : Thr a} (h : Reach a ctx teb st st') (h' : Step a ctx teb st' st'') :
      Reach a ctx teb st st''

/-- The memory of the tasks' registers: distinct, and apart from the
description of the thread. -/
structure Layout (a : Arch) (ctx : Nat → Nat) (teb : List (Nat × Nat)) : Prop where
  apart : ∀ i j, i ≠ j → Apart (ctx i) a.size (ctx j) a.size
  teb : ∀ i, ∀ f ∈ teb, Apart f.1 f.2 (ctx i) a.size

/-- What holds of a suspended task. -/
structure Held (a : Arch) (ctx : Nat → Nat) (teb : List (Nat × Nat)) (m : Mem) (j : Nat)
    (s s' : a.C) : Prop where
  ok : a.ok s
  swapped : a.swap s = some s'
  save : a.save s = ctx j
  extra : a.extra s = teb
  ret : ∀ e ∈ a.ret s, (∀ i, Apart (ctx i) a.size e.1 e.2) ∧ ∀ f ∈ teb, Apart f.1 f.2 e.1 e.2
  same : Same ((ctx j, a.size) :: a.ret s) m (a.mem s')

def Inv (a : Arch) (ctx : Nat → Nat) (teb : List (Nat × Nat)) (st : Thr a) : Prop :=
  ∀ j s s', st.susp j = some (s, s') → Held a ctx teb (a.mem st.cpu) j s s'

theorem apart_not {a n b k x : Nat} (h : Apart a n b k) (hx : b ≤ x ∧ x < b + k) :
    ¬ (a ≤ x ∧ x < a + n) := by
  unfold Apart at h
  omega

theorem step_inv {a : Arch} {ctx : Nat → Nat} {teb : List (Nat × Nat)} (hl : Layout a ctx teb)
    (hg : Good a) {st st' : Thr a} (h : Inv a ctx teb st) (hs : Step a ctx teb st st') :
    Inv a ctx teb st' := by
  cases hs with
  | run hr =>
    intro j s s' hj
    have q := h j s s' hj
    exact { q with same := fun x hx => (hr j s s' hj x hx).trans (q.same x hx) }
  | @swap j c hcall hc =>
    intro i s s' hi
    dsimp only at hi ⊢
    by_cases hk : i = st.cur
    · rw [if_pos hk] at hi
      simp only [Option.some.injEq, Prod.mk.injEq] at hi
      obtain ⟨rfl, rfl⟩ := hi
      subst hk
      exact ⟨hcall.ok, hc, hcall.save, hcall.extra, hcall.ret, fun _ _ => rfl⟩
    · rw [if_neg hk] at hi
      split at hi
      · simp at hi
      · have q := h i s s' hi
        refine { q with same := fun x hx => Eq.trans ?_ (q.same x hx) }
        apply hg.frame hcall.ok hc
        rintro ⟨f, hf, hfx⟩
        obtain ⟨e, he, hex⟩ := hx
        rw [List.mem_cons] at he hf
        rcases hf with rfl | hf
        · dsimp only at hfx
          rw [hcall.save] at hfx
          rcases he with rfl | he
          · exact apart_not (hl.apart _ _ (Ne.symm hk)) hex hfx
          · exact apart_not ((q.ret e he).1 _) hex hfx
        · rw [hcall.extra] at hf
          rcases he with rfl | he
          · exact apart_not (hl.teb i f hf) hex hfx
          · exact apart_not ((q.ret e he).2 f hf) hex hfx

theorem reach_inv {a : Arch} {ctx : Nat → Nat} {teb : List (Nat × Nat)} (hl : Layout a ctx teb)
    (hg : Good a) {st st' : Thr a} (h : Inv a ctx teb st) (hs : Reach a ctx teb st st') :
    Inv a ctx teb st' := by
  induction hs with
  | refl => exact h
  | tail _ h' ih => exact step_inv hl hg ih h'

/-- In every execution, a task that switched away and is switched to again
goes on as if its call of `coro_swap` had returned. -/
theorem good_returns {a : Arch} {ctx : Nat → Nat} {teb : List (Nat × Nat)}
    (hl : Layout a ctx teb) (hg : Good a) {c : a.C} {k : Nat} {st : Thr a}
    (hr : Reach a ctx teb ⟨c, k, fun _ => none⟩ st) {j : Nat} {s s' : a.C}
    (hj : st.susp j = some (s, s')) (hcall : Call a ctx teb st.cpu st.cur j) {t : a.C}
    (ht : a.swap st.cpu = some t) : a.back s t := by
  have hi : Inv a ctx teb st := reach_inv hl hg (by intro i s s' h; simp at h) hr
  have q := hi j s s' hj
  refine hg.resume q.ok q.swapped hcall.ok ht (hcall.load.trans q.save.symm) ?_ ?_ ?_ ?_ ?_
  · rw [q.save]
    exact q.same
  · intro e he
    rw [q.save]
    exact (q.ret e he).1 j
  · intro e he
    rw [hcall.save]
    rw [List.mem_cons] at he
    rcases he with rfl | he
    · rw [q.save]
      exact hl.apart _ _ hcall.other.symm
    · exact (q.ret e he).1 _
  · intro e he f hf
    rw [q.extra] at hf
    exact (q.ret e he).2 f hf
  · intro e he f hf
    rw [hcall.extra] at hf
    rw [List.mem_cons] at he
    rcases he with rfl | he
    · rw [q.save]
      exact hl.teb j f hf
    · exact (q.ret e he).2 f hf

end Verif.Switch
