import Verif.Tasks.Generator
import Mathlib.Data.List.Basic

/-!
Generators (C37).
-/
namespace Verif.Tasks.Generator

/-- The value on its way: stored and not yet taken. -/
def pending (s : GS) : List Val := if s.ready then s.value.toList else []

structure Inv (vs : List Val) (s : GS) : Prop where
  parts : s.out ++ pending s ++ s.todo = vs
  val : s.ready = true → s.value ≠ none
  gone : s.freed = true → s.todo = []

theorem gen_inv {vs : List Val} {s : GS} (h : Inv vs s) : Inv vs (genSeg s) := by
  unfold genSeg
  split
  · exact h
  · rename_i hf
    split
    · rename_i v ws hw
      split
      · exact h
      · rename_i hr
        have hp := h.parts
        simp only [pending, hr, hw] at hp
        exact ⟨by simpa [pending] using hp, by simp, fun hf' => absurd hf' hf⟩
    · rename_i hw
      exact ⟨by simpa [pending] using h.parts, h.val, fun _ => hw⟩

theorem consume_inv {vs : List Val} {s s' : GS} (h : Inv vs s) (hs : consumeSeg s = .ok s') : Inv vs s' := by
  unfold consumeSeg at hs
  split at hs
  · cases hs
  · split at hs
    · rename_i hr
      split at hs
      · rename_i v hv
        cases hs
        have hp := h.parts
        simp only [pending, hr, hv] at hp
        exact ⟨by simpa [pending] using hp, by simp, h.gone⟩
      · cases hs
    · cases hs; exact h

theorem run_inv {vs : List Val} : ∀ {xs : List Seg} {s s' : GS}, Inv vs s → run s xs = .ok s' → Inv vs s' := by
  intro xs
  induction xs with
  | nil => intro s s' h hs; cases hs; exact h
  | cons x xs ih =>
    intro s s' h hs
    cases x with
    | gen => exact ih (gen_inv h) hs
    | consume =>
      rw [run, Res.bind_eq_ok] at hs
      obtain ⟨s1, h1, h2⟩ := hs
      exact ih (consume_inv h h1) h2

theorem init_inv (vs : List Val) : Inv vs (GS.init vs) := ⟨by simp [GS.init, pending], by simp [GS.init], by simp [GS.init]⟩

/-! ### C37 -/

/-- C37, order.  For every list of values and every order of the generator's and any number of consumers' segments:
as long as nothing undefined has happened, what the consumers received is, in this order, the beginning of the
values; nothing was skipped or given twice: the rest is the value on its way and those not yet given out.
`_partial`: see `last_value_lost` and `end_is_ub`. -/
theorem values_in_order_partial (vs : List Val) (xs : List Seg) (s : GS) (h : run (GS.init vs) xs = .ok s) :
    s.out ++ pending s ++ s.todo = vs ∧ s.out <+: vs := by
  have := (run_inv (init_inv vs) h).parts
  exact ⟨this, ⟨pending s ++ s.todo, by rw [← this]; simp⟩⟩

/-- It is undefined only after the generator function has returned: no history in which it is still alive
at the last consumer segment goes wrong. -/
theorem defined_while_alive (vs : List Val) (xs : List Seg) (s : GS) (h : run (GS.init vs) xs = .ok s) (hf : s.freed = false) :
    ∃ s', run (GS.init vs) (xs ++ [.consume]) = .ok s' ∧
      s'.out = s.out ++ pending s := by
  have hi := run_inv (init_inv vs) h
  have hcat : ∀ (xs : List Seg) (s0 s1 : GS), run s0 xs = .ok s1 → run s0 (xs ++ [.consume]) = consumeSeg s1 := by
    intro xs
    induction xs with
    | nil =>
      intro s0 s1 h; cases h
      simp only [List.nil_append, run]
      cases consumeSeg s0 <;> rfl
    | cons x xs ih =>
      intro s0 s1 h
      cases x with
      | gen => exact ih _ _ h
      | consume =>
        rw [run, Res.bind_eq_ok] at h
        obtain ⟨s2, h1, h2⟩ := h
        rw [List.cons_append, run, h1, Res.ok_bind]
        exact ih _ _ h2
  rw [hcat xs _ _ h]
  unfold consumeSeg
  rw [hf]
  cases hr : s.ready with
  | false => exact ⟨s, by simp, by simp [pending, hr]⟩
  | true =>
    obtain ⟨v, hv⟩ := Option.ne_none_iff_exists'.1 (hi.val hr)
    exact ⟨{ s with ready := false, out := s.out ++ [v] }, by simp [hv, hf], by simp [pending, hr, hv]⟩

/-- The two in turn: `n` rounds deliver the first `n` values. -/
theorem alternating_delivers (n : Nat) : ∀ (vs : List Val) (o : List Val) (val : Option Val), n ≤ vs.length →
    run ⟨vs, false, val, false, o⟩ (List.replicate n [Seg.gen, .consume]).flatten
      = .ok ⟨vs.drop n, false, if n = 0 then val else vs[n - 1]?, false, o ++ vs.take n⟩ := by
  induction n with
  | zero => intro vs o val _; simp [run]
  | succ n ih =>
    intro vs o val hn
    cases vs with
    | nil => simp at hn
    | cons v vs =>
      have := ih vs (o ++ [v]) (some v) (by simpa using hn)
      simp only [List.replicate_succ, List.flatten_cons, List.cons_append, List.nil_append, run, genSeg, consumeSeg,
        Bool.false_eq_true, if_false, if_true, Res.ok_bind]
      rw [this]
      cases n with
      | zero => simp
      | succ n => simp

theorem all_delivered (vs : List Val) : ∃ s, run (GS.init vs) (List.replicate vs.length [Seg.gen, .consume]).flatten = .ok s ∧
    s.out = vs ∧ s.todo = [] := by
  refine ⟨_, alternating_delivers vs.length vs [] none (Nat.le_refl _), by simp, by simp⟩

/-! ### False of the code -/

/-- The end cannot be seen: after all values were taken and the generator function has returned, the next call of `yielded`
reads the freed generator. -/
theorem end_is_ub (vs : List Val) :
    run (GS.init vs) ((List.replicate vs.length [Seg.gen, .consume]).flatten ++ [.gen, .consume]) = .ub := by
  have happ : ∀ (xs ys : List Seg) (s : GS), run s (xs ++ ys) = run s xs >>= fun s => run s ys := by
    intro xs
    induction xs with
    | nil => intro ys s; rfl
    | cons x xs ih =>
      intro ys s
      cases x with
      | gen => exact ih ys _
      | consume =>
        simp only [List.cons_append, run]
        cases consumeSeg s with
        | ok s1 => simp only [Res.ok_bind]; exact ih ys s1
        | ub => rfl
  rw [happ, GS.init, alternating_delivers vs.length vs [] none (Nat.le_refl _), Res.ok_bind]
  simp [run, genSeg, consumeSeg]

/-- A value may never arrive: the generator gets control again before the consumer has taken the last value, the
function returns, and the value is gone with the generator. -/
theorem last_value_lost (vs : List Val) (v : Val) :
    run (GS.init (vs ++ [v])) ((List.replicate vs.length [Seg.gen, .consume]).flatten ++ [.gen, .gen, .consume]) = .ub := by
  have happ : ∀ (xs ys : List Seg) (s : GS), run s (xs ++ ys) = run s xs >>= fun s => run s ys := by
    intro xs
    induction xs with
    | nil => intro ys s; rfl
    | cons x xs ih =>
      intro ys s
      cases x with
      | gen => exact ih ys _
      | consume =>
        simp only [List.cons_append, run]
        cases consumeSeg s with
        | ok s1 => simp only [Res.ok_bind]; exact ih ys s1
        | ub => rfl
  rw [happ, GS.init, alternating_delivers vs.length (vs ++ [v]) [] none (by simp), Res.ok_bind]
  simp [run, genSeg, consumeSeg]

/-- Two values, consumers early and late. -/
example : run (GS.init [7, 8]) [.consume, .gen, .gen, .consume, .consume, .gen, .consume] = .ok ⟨[], false, some 8, false, [7, 8]⟩ := by
  decide

end Verif.Tasks.Generator
