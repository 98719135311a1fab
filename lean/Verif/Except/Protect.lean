import Mathlib.Data.List.Nodup
import Mathlib.Data.List.Chain
import Mathlib.Data.List.Perm.Subperm
import Mathlib.Logic.Function.Basic

/-!
# Protected pointers (`src/except.c` 131-187, `include/except.h` 439-450), C48

A thread protects variables (`protected(p, func)`), unprotects them, enters and leaves `try` statements and throws.  Addresses
of objects are natural numbers, variables are numbered.  `is_unwind` is off: there is no guard section.
-/

namespace Verif.Except.Protect

/-- `ex_ptr_t`: `live` is `type == DATA_EXCEPT_PROTECTED`, `val` the object the variable points to now. -/
structure Node where
  next : Option Nat
  val : Nat
  live : Bool
  deriving DecidableEq

/-- `ctxs`: the heads `ctx->stack` of the active records, innermost first; the last one is the root record of the thread.
`log`: the objects that were released.  Only nodes below `bound` have been used. -/
structure St where
  node : Nat → Node
  ctxs : List (Option Nat)
  bound : Nat
  log : List Nat

inductive Op where
  | protect (n v : Nat)
  | assign (n v : Nat)
  | unprotect (n : Nat)
  | enter
  | leave
  | throw

/-- `is_ptr_usable`, src/arrays.c:334-336. -/
def usable (v : Nat) : Bool := decide (0x20000000 < v)

/-- The loop of `ex_unwind_stack`, src/except.c:168-181; `temp` is the object of the node before (0: NULL). -/
def walk : Nat → Option Nat → Nat → (Nat → Node) × List Nat → Option ((Nat → Node) × List Nat)
  | _, none, _, r => some r
  | 0, some _, _, _ => none
  | k + 1, some p, temp, (m, log) =>
    if (m p).live then
      if temp == (m p).val || !usable (m p).val then some (m, log)
      else walk k (m p).next (m p).val (Function.update m p { m p with live := false }, log ++ [(m p).val])
    else some (m, log)

/-- `ex_protect_ptr` (131-139), `unprotected` (include/except.h:450), `try_start` (893-906), `try_finish` (908-911), and
`ex_throw` up to the jump (484-507).  A throw leaves the record active: its handler runs next.  `none` stands for a loop
that does not end, or a `leave` without `enter`. -/
def step (s : St) : Op → Option St
  | .protect n v =>
    match s.ctxs with
    | [] => none
    | h :: t => some { s with node := Function.update s.node n ⟨h, v, true⟩, ctxs := some n :: t, bound := max s.bound (n + 1) }
  | .assign n v => some { s with node := Function.update s.node n { s.node n with val := v } }
  | .unprotect n =>
    match s.ctxs with
    | [] => none
    | _ :: t => some { s with ctxs := (s.node n).next :: t }
  | .enter => some { s with ctxs := none :: s.ctxs }
  | .leave =>
    match s.ctxs with
    | _ :: h :: t => some { s with ctxs := h :: t }
    | _ => none
  | .throw =>
    match s.ctxs with
    | [] => none
    | h :: t =>
      match walk s.bound h 0 (s.node, s.log) with
      | none => none
      | some r => some { s with node := r.1, log := r.2, ctxs := none :: t }

def init : St := { node := fun _ => ⟨none, 0, false⟩, ctxs := [none], bound := 0, log := [] }

def run (s : St) : List Op → Option St
  | [] => some s
  | o :: os => (step s o).bind (run · os)

/-! ## Specification -/

/-- The protected variables with their objects, newest first, for each active `try` statement. -/
structure AS where
  ctxs : List (List (Nat × Nat))
  log : List Nat
  deriving DecidableEq

def vars (a : AS) : List Nat := a.ctxs.flatten.map (·.1)

/-- The rules: a variable is not protected twice; unprotecting takes the newest one of the current `try`; at a throw the
protected objects are valid and no two neighbours are the same. -/
def specStep (a : AS) : Op → Option AS
  | .protect n v =>
    if n ∈ vars a then none else
    match a.ctxs with
    | [] => none
    | l :: t => some { a with ctxs := ((n, v) :: l) :: t }
  | .assign n v => some { a with ctxs := a.ctxs.map fun l => l.map fun x => if x.1 = n then (n, v) else x }
  | .unprotect n =>
    match a.ctxs with
    | ((m, _) :: l) :: t => if m = n then some { a with ctxs := l :: t } else none
    | _ => none
  | .enter => some { a with ctxs := [] :: a.ctxs }
  | .leave =>
    match a.ctxs with
    | _ :: h :: t => some { a with ctxs := h :: t }
    | _ => none
  | .throw =>
    match a.ctxs with
    | [] => none
    | l :: t =>
      if (l.all fun x => decide (0x20000000 < x.2)) ∧ (l.map (·.2)).IsChain (· ≠ ·) then
        some { ctxs := [] :: t, log := a.log ++ l.map (·.2) }
      else none

def specRun (a : AS) : List Op → Option AS
  | [] => some a
  | o :: os => (specStep a o).bind (specRun · os)

def specInit : AS := ⟨[[]], []⟩

/-! ## Refinement -/

/-- The list of a record in memory. -/
def Seg (m : Nat → Node) : Option Nat → List (Nat × Nat) → Prop
  | h, [] => h = none
  | h, (n, v) :: l => h = some n ∧ (m n).live = true ∧ (m n).val = v ∧ Seg m (m n).next l

theorem Seg.congr {m m' : Nat → Node} {h : Option Nat} {l : List (Nat × Nat)} (hs : Seg m h l)
    (he : ∀ x ∈ l, m' x.1 = m x.1) : Seg m' h l := by
  induction l generalizing h with
  | nil => exact hs
  | cons x l ih =>
    obtain ⟨n, v⟩ := x
    obtain ⟨h1, h2, h3, h4⟩ := hs
    have e := he (n, v) (List.mem_cons_self ..)
    simp only at e
    refine ⟨h1, by rw [e]; exact h2, by rw [e]; exact h3, ?_⟩
    rw [e]
    exact ih h4 fun x hx => he x (List.mem_cons_of_mem _ hx)

structure Inv (s : St) (a : AS) : Prop where
  segs : List.Forall₂ (Seg s.node) s.ctxs a.ctxs
  nodup : (vars a).Nodup
  lt : ∀ n ∈ vars a, n < s.bound
  log : s.log = a.log

theorem segs_congr {m m' : Nat → Node} {hs : List (Option Nat)} {ls : List (List (Nat × Nat))}
    (h : List.Forall₂ (Seg m) hs ls) (he : ∀ n ∈ ls.flatten.map (·.1), m' n = m n) : List.Forall₂ (Seg m') hs ls := by
  induction h with
  | nil => exact .nil
  | @cons x l hs ls h1 _ ih =>
    refine .cons (h1.congr fun x hx => he _ ?_) (ih fun n hn => he n ?_)
    · simp only [List.flatten_cons, List.map_append, List.mem_append]
      exact .inl (List.mem_map_of_mem hx)
    · simp only [List.flatten_cons, List.map_append, List.mem_append]
      exact .inr hn

theorem Seg.assign {m : Nat → Node} {h : Option Nat} {l : List (Nat × Nat)} (n v : Nat) (hs : Seg m h l) :
    Seg (Function.update m n { m n with val := v }) h (l.map fun x => if x.1 = n then (n, v) else x) := by
  induction l generalizing h with
  | nil => exact hs
  | cons x l ih =>
    obtain ⟨k, w⟩ := x
    obtain ⟨h1, h2, h3, h4⟩ := hs
    simp only [List.map_cons]
    by_cases hk : k = n
    · subst hk
      rw [if_pos rfl]
      refine ⟨h1, ?_, ?_, ?_⟩
      · rw [Function.update_self]; exact h2
      · rw [Function.update_self]
      · rw [Function.update_self]; exact ih h4
    · rw [if_neg hk]
      refine ⟨h1, ?_, ?_, ?_⟩
      · rw [Function.update_of_ne hk]; exact h2
      · rw [Function.update_of_ne hk]; exact h3
      · rw [Function.update_of_ne hk]; exact ih h4

theorem walk_spec : ∀ (l : List (Nat × Nat)) (k : Nat) (h : Option Nat) (temp : Nat) (m : Nat → Node) (log : List Nat),
    Seg m h l → (l.map (·.1)).Nodup → l.length ≤ k → (l.all fun x => usable x.2) = true →
    (temp :: l.map (·.2)).IsChain (· ≠ ·) →
    ∃ m', walk k h temp (m, log) = some (m', log ++ l.map (·.2)) ∧ ∀ n, n ∉ l.map (·.1) → m' n = m n
  | [], k, h, temp, m, log, hs, _, _, _, _ => by
    have : h = none := hs
    subst this
    refine ⟨m, ?_, fun _ _ => rfl⟩
    cases k <;> simp [walk]
  | (n, v) :: l, k, h, temp, m, log, hs, hnd, hk, hu, hc => by
    obtain ⟨rfl, h2, rfl, h4⟩ := hs
    obtain ⟨k, rfl⟩ : ∃ j, k = j + 1 := ⟨k - 1, by simp only [List.length_cons] at hk; omega⟩
    simp only [List.map_cons, List.nodup_cons] at hnd
    simp only [List.all_cons, Bool.and_eq_true] at hu
    simp only [List.map_cons, List.isChain_cons_cons] at hc
    have hne : (temp == (m n).val) = false := by simpa using hc.1
    obtain ⟨m', e1, e2⟩ := walk_spec l k (m n).next (m n).val (Function.update m n { m n with live := false })
      (log ++ [(m n).val])
      (h4.congr fun x hx => Function.update_of_ne (fun e : x.1 = n => hnd.1 (e ▸ List.mem_map_of_mem hx)) ..) hnd.2
      (by simp only [List.length_cons] at hk; omega) hu.2 hc.2
    refine ⟨m', ?_, ?_⟩
    · simp only [walk]
      rw [if_pos h2, hne, hu.1]
      simp only [Bool.not_true, Bool.or_self, Bool.false_eq_true, if_false]
      rw [e1]
      simp
    · intro j hj
      simp only [List.map_cons, List.mem_cons, not_or] at hj
      rw [e2 j hj.2, Function.update_of_ne hj.1]

theorem nodup_lt_length {l : List Nat} {b : Nat} (h : l.Nodup) (hb : ∀ n ∈ l, n < b) : l.length ≤ b := by
  have h1 : l ⊆ List.range b := fun n hn => List.mem_range.2 (hb n hn)
  have h2 := (List.subperm_of_subset h h1).length_le
  simpa using h2

theorem usable_pos {v : Nat} (h : usable v = true) : 0 ≠ v := by
  simp only [usable, decide_eq_true_eq] at h
  omega

theorem step_inv {s : St} {a a' : AS} (o : Op) (h : Inv s a) (ha : specStep a o = some a') :
    ∃ s', step s o = some s' ∧ Inv s' a' := by
  obtain ⟨ctxs, log⟩ := a
  obtain ⟨hseg, hnd, hlt, hlog⟩ := h
  cases o with
  | protect n v =>
    simp only [specStep] at ha
    split at ha
    · exact absurd ha (by simp)
    · rename_i hn
      cases ctxs with
      | nil => exact absurd ha (by simp)
      | cons l t =>
        simp only [Option.some.injEq] at ha
        subst ha
        obtain ⟨node, hs, b, lg⟩ := s
        cases hseg with
        | @cons x _ xs _ h1 h2 =>
          have hv : vars ⟨((n, v) :: l) :: t, log⟩ = n :: vars ⟨l :: t, log⟩ := by simp [vars]
          refine ⟨_, rfl, ?_, ?_, ?_, hlog⟩
          · have hall := segs_congr (m' := Function.update node n ⟨x, v, true⟩) (List.Forall₂.cons h1 h2)
              fun k hk => Function.update_of_ne (fun e : k = n => hn (e ▸ hk)) ..
            cases hall with
            | cons k1 k2 =>
              refine .cons ⟨rfl, ?_, ?_, ?_⟩ k2
              · simp
              · simp
              · simpa using k1
          · rw [hv]
            exact List.nodup_cons.2 ⟨hn, hnd⟩
          · rw [hv]
            intro k hk
            show k < max b (n + 1)
            rcases List.mem_cons.1 hk with rfl | hk
            · omega
            · have := hlt k hk
              simp only at this
              omega
  | assign n v =>
    simp only [specStep, Option.some.injEq] at ha
    subst ha
    have hv : vars ⟨ctxs.map fun l => l.map fun x => if x.1 = n then (n, v) else x, log⟩ = vars ⟨ctxs, log⟩ := by
      simp only [vars, ← List.map_flatten, List.map_map]
      apply List.map_congr_left
      intro x _
      simp only [Function.comp]
      split
      · rename_i h; exact h.symm
      · rfl
    refine ⟨_, rfl, ?_, by rw [hv]; exact hnd, by rw [hv]; exact hlt, hlog⟩
    simp only
    clear hnd hlt hlog hv
    generalize s.ctxs = hs at hseg
    replace hseg : List.Forall₂ (Seg s.node) hs ctxs := hseg
    induction hseg with
    | nil => exact .nil
    | cons h1 _ ih => exact .cons (h1.assign n v) ih
  | unprotect n =>
    simp only [specStep] at ha
    match ctxs, ha with
    | ((m, w) :: l) :: t, ha =>
      replace ha : (if m = n then some (⟨l :: t, log⟩ : AS) else none) = some a' := ha
      split at ha
      · rename_i hm
        have ha2 := Option.some.inj ha
        subst hm ha2
        have hv : vars ⟨((m, w) :: l) :: t, log⟩ = m :: vars ⟨l :: t, log⟩ := by simp [vars]
        rw [hv] at hnd hlt
        obtain ⟨node, hs, b, lg⟩ := s
        cases hseg with
        | @cons x _ xs _ h1 h2 =>
          refine ⟨_, rfl, .cons h1.2.2.2 h2, (List.nodup_cons.1 hnd).2, fun k hk => hlt k (List.mem_cons_of_mem _ hk), hlog⟩
      · exact absurd ha (by simp)
  | enter =>
    simp only [specStep, Option.some.injEq] at ha
    subst ha
    exact ⟨_, rfl, .cons rfl hseg, by simpa [vars] using hnd, by simpa [vars] using hlt, hlog⟩
  | leave =>
    simp only [specStep] at ha
    match ctxs, ha with
    | l :: l2 :: t, ha =>
      simp only [Option.some.injEq] at ha
      subst ha
      have hv : vars ⟨l :: l2 :: t, log⟩ = l.map (·.1) ++ vars ⟨l2 :: t, log⟩ := by simp [vars]
      rw [hv] at hnd hlt
      obtain ⟨node, hs, b, lg⟩ := s
      cases hseg with
      | cons h1 h2 =>
        cases h2 with
        | cons h2 h3 =>
          exact ⟨_, rfl, .cons h2 h3, hnd.of_append_right, fun k hk => hlt k (List.mem_append_right _ hk), hlog⟩
  | throw =>
    simp only [specStep] at ha
    match ctxs, ha with
    | l :: t, ha =>
      replace ha : (if (l.all fun x => decide (0x20000000 < x.2)) ∧ (l.map (·.2)).IsChain (· ≠ ·) then
        some (⟨[] :: t, log ++ l.map (·.2)⟩ : AS) else none) = some a' := ha
      split at ha
      · rename_i hc
        simp only [Option.some.injEq] at ha
        subst ha
        have hv : vars ⟨l :: t, log⟩ = l.map (·.1) ++ vars ⟨[] :: t, log⟩ := by simp [vars]
        rw [hv] at hnd hlt
        obtain ⟨node, hs, b, lg⟩ := s
        cases hseg with
        | @cons x _ xs _ h1 h2 =>
          have hlen : l.length ≤ b := by
            have := nodup_lt_length (hnd.of_append_left) fun n hn => hlt n (List.mem_append_left _ hn)
            simpa using this
          have hch : (0 :: l.map (·.2)).IsChain (· ≠ ·) := by
            cases l with
            | nil => simp
            | cons y l =>
              simp only [List.map_cons, List.isChain_cons_cons]
              refine ⟨?_, by simpa using hc.2⟩
              have := hc.1
              simp only [List.all_cons, Bool.and_eq_true, decide_eq_true_eq] at this
              show 0 ≠ y.2
              omega
          obtain ⟨m', e1, e2⟩ := walk_spec l b x 0 node lg h1 hnd.of_append_left hlen (by simpa [usable] using hc.1) hch
          refine ⟨⟨m', none :: xs, b, lg ++ l.map (·.2)⟩, by simp only [step]; rw [e1], .cons rfl ?_, hnd.of_append_right,
            fun k hk => hlt k (List.mem_append_right _ hk), ?_⟩
          · refine segs_congr h2 fun n hn => e2 n fun hm => ?_
            exact (List.disjoint_of_nodup_append hnd) hm (by simpa [vars] using hn)
          · show lg ++ _ = _
            rw [show lg = log from hlog]
      · exact absurd ha (by simp)

/-- Claim C48, within the rules of `specStep`: at every throw exactly the pointers still protected in the current `try` are
released, once each, the most recent first, and never one that was unprotected before. -/
theorem protected_released_partial (os : List Op) (a : AS) (h : specRun specInit os = some a) :
    ∃ s, run init os = some s ∧ s.log = a.log := by
  have key : ∀ (os : List Op) (s : St) (b : AS), Inv s b → specRun b os = some a → ∃ s', run s os = some s' ∧ s'.log = a.log := by
    intro os
    induction os with
    | nil =>
      intro s b hi hr
      simp only [specRun, Option.some.injEq] at hr
      subst hr
      exact ⟨s, rfl, hi.log⟩
    | cons o os ih =>
      intro s b hi hr
      simp only [specRun] at hr
      cases e : specStep b o with
      | none => rw [e] at hr; exact absurd hr (by simp)
      | some b' =>
        rw [e] at hr
        obtain ⟨s', h1, h2⟩ := step_inv o hi e
        obtain ⟨s'', h3, h4⟩ := ih s' b' h2 hr
        exact ⟨s'', by simp only [run]; rw [h1]; exact h3, h4⟩
  exact key os init specInit ⟨.cons rfl .nil, by simp [vars, specInit], by simp [vars, specInit], rfl⟩ h

example : specRun specInit [.protect 1 0x30000000, .enter, .protect 2 0x30000010, .protect 3 0x30000020, .unprotect 3,
    .protect 3 0x30000030, .throw, .leave, .throw] = some ⟨[[]], [0x30000030, 0x30000010, 0x30000000]⟩ := by decide

/-- Against C48: if the newest protected variable is null (or any address up to 0x20000000), nothing is released. -/
theorem null_pointer_stops_release (s : St) (n v : Nat) (hv : v ≤ 0x20000000) (h : s.ctxs ≠ []) :
    (run s [.protect n v, .throw]).map (·.log) = some s.log := by
  have hv : usable v = false := by simp only [usable, decide_eq_false_iff_not]; omega
  obtain ⟨node, cs, b, lg⟩ := s
  cases cs with
  | nil => exact absurd rfl h
  | cons c t =>
    obtain ⟨k, hk⟩ : ∃ k, max b (n + 1) = k + 1 := ⟨max b (n + 1) - 1, by omega⟩
    simp [run, step, hk, walk, hv]

/-- Against C48: unprotecting an older variable also drops the newer ones. -/
theorem unprotect_drops_newer (s : St) (n k v w : Nat) (hnk : n ≠ k) (h : s.ctxs.head? = some none) :
    (run s [.protect n v, .protect k w, .unprotect n, .throw]).map (·.log) = some s.log := by
  obtain ⟨node, cs, b, lg⟩ := s
  cases cs with
  | nil => simp at h
  | cons c t =>
    simp only [List.head?_cons, Option.some.injEq] at h
    subst h
    simp [run, step, hnk, walk]

/-- Against C48: if the two newest variables point to the same object, the older ones are not released. -/
theorem equal_pointers_stop_release (s : St) (i j k v w : Nat) (hv : 0x20000000 < v)
    (hjk : j ≠ k) (h : s.ctxs ≠ []) :
    (run s [.protect i w, .protect j v, .protect k v, .throw]).map (·.log) = some (s.log ++ [v]) := by
  have hv : usable v = true := by simpa [usable] using hv
  obtain ⟨node, cs, b, lg⟩ := s
  cases cs with
  | nil => exact absurd rfl h
  | cons c t =>
    obtain ⟨q, hq⟩ : ∃ q, max (max (max b (i + 1)) (j + 1)) (k + 1) = q + 2 :=
      ⟨max (max (max b (i + 1)) (j + 1)) (k + 1) - 2, by omega⟩
    have h0 : (0 == v) = false := by simpa using usable_pos hv
    simp only [run, step, Option.bind_some, hq]
    simp [walk, hv, h0, hjk]

/-- Against C48: unprotecting a variable of an outer `try` inside of an inner one does not unprotect it: it is released when
the exception is passed on. -/
theorem unprotect_in_inner_try_releases (s : St) (n v : Nat) (hv : 0x20000000 < v) (h : s.ctxs.head? = some none) :
    (run s [.protect n v, .enter, .unprotect n, .throw, .leave, .throw]).map (·.log) = some (s.log ++ [v]) := by
  have hv : usable v = true := by simpa [usable] using hv
  obtain ⟨node, cs, b, lg⟩ := s
  cases cs with
  | nil => simp at h
  | cons c t =>
    simp only [List.head?_cons, Option.some.injEq] at h
    subst h
    obtain ⟨q, hq⟩ : ∃ q, max b (n + 1) = q + 1 := ⟨max b (n + 1) - 1, by omega⟩
    have h1 := usable_pos hv
    simp [run, step, hq, walk, hv, h1]

end Verif.Except.Protect
