import Mathlib.Logic.Function.Basic
import Mathlib.Tactic.Cases

/-!
# Exceptions on Windows (`src/except.c` 484-629, 733-772, 879-963, `include/except.h` 128, 274-296), C249

There `throw` raises an exception of the system, and each `try` statement has a filter that the system asks, from the innermost body on whose
code is running.  The record of the current `try` statement is found through a pointer of the thread, as elsewhere.

Simplified: `catch_if`, `rethrow`, protected pointers, guards and signals are left out; a `try` statement has one catch clause (the macros allow no
more there, as `__except` has to follow the body).  Names are numbers, `_panic` is 0.
-/

namespace Verif.Except.Seh

/-- `EXCEPTION_PANIC`, include/except.h:389. -/
def panicCode : Nat := 0xE0000001

inductive Pat
  /-- `catch(E)` -/
  | name (e : Nat)
  /-- `catch_any` -/
  | any
  deriving DecidableEq, Repr

inductive Stmt
  /-- Something visible. -/
  | act (n : Nat)
  | seq (a b : Stmt)
  /-- `throw(E)`, include/except.h:128, the same as `panic("E")`. -/
  | throw (e : Nat)
  /-- The processor or the system raises an exception, such as 0xC0000005 for an access violation. -/
  | hw (code : Nat)
  /-- `try body catch h`, with `finally fin` if `hasFin`. -/
  | try_ (body : Stmt) (pat : Pat) (h : Stmt) (hasFin : Bool) (fin : Stmt)
  deriving DecidableEq, Repr

inductive S
  | trying
  | thrown
  | caught
  deriving DecidableEq, Repr

/-- The record of a `try` statement, `ex_context_t`: `state`, `ex`, `_panic`, `caught`, `next`. -/
structure Ctx where
  state : S
  ex : Option Nat
  panic : Option Nat
  caught : Nat
  next : Nat
  deriving DecidableEq, Repr

/-- `cur`: the thread's pointer, 0 for the root record; `top`: where the record of the next `try` statement will be. -/
structure M where
  ctx : Nat → Ctx
  cur : Nat
  top : Nat
  log : List Nat

def M.set (m : M) (c : Nat) (x : Ctx) : M := { m with ctx := Function.update m.ctx c x }

inductive Out
  | norm
  /-- An exception of the system looks for a filter. -/
  | seh (code : Nat)
  /-- `ex_terminate`: the exception is named and the program ends. -/
  | dead
  deriving DecidableEq, Repr

/-- The table `ex_sig` after `ex_signal_setup`, except.c:733-772 and 616-629, 676-698: code and name; entries of signals have code 0, free entries
no name.  Numbers of the names: 1 sig_segv, 2 array_bounds_exceeded, 3 sig_fpe, 4 divide_by_zero, 5 sig_ill, 6 int_overflow,
7 stack_overflow, 8 invalid_handle, 9 sig_int, 10 sig_abrt, 11 sig_break, 12 sig_term. -/
def table : List (Nat × Option Nat) :=
  [(0xC0000005, some 1), (0xC000008C, some 2), (0xC000008E, some 3), (0xC0000094, some 4), (0xC000001D, some 5), (0xC0000095, some 6),
    (0xC00000FD, some 7), (0xC0000008, some 8), (panicCode, some 0), (0xC000013A, some 9), (0, some 1), (0, some 10), (0, some 3), (0, some 5),
    (0, some 11), (0, some 9), (0, some 12)] ++ List.replicate 15 (0, none)

/-- The last part of `catch_seh`, except.c:552-575. -/
def sehLoop (e code : Nat) (found : Bool) (x : Ctx) : Ctx × Bool :=
  match table.find? (fun t => found || t.1 == code || x.caught == t.1 || x.ex == some e) with
  | none => (x, false)
  | some t =>
    let x := { x with state := .thrown }
    if 2 ^ 31 ≤ code ∧ x.ex ≠ some e ∧ found = false then ({ x with ex := t.2 }, true) else (x, true)

/-- `catch_seh`, except.c:526-577: the record afterwards, and whether the handler is executed. -/
def catchSeh (e code : Nat) (x : Ctx) : Ctx × Bool :=
  let x := { x with state := .thrown }
  if x.ex ≠ some e ∧ x.panic = none then (x, true)
  else if x.ex = none ∧ 2 ^ 31 ≤ code then
    match table.find? (fun t => t.1 == code) with
    | some t => sehLoop e code true { x with panic := none, ex := t.2 }
    | none => ({ x with panic := none }, true)
  else if x.panic ≠ some e ∧ x.ex ≠ some e then (x, true)
  else sehLoop e code false x

/-- `catch_filter_seh`, except.c:579-614. -/
def catchFilter (code : Nat) (x : Ctx) : Ctx × Bool :=
  if code = panicCode then ({ x with state := .thrown }, true)
  else match table.find? (fun t => t.1 == code || x.caught == t.1) with
    | some t => ({ x with state := .thrown, ex := t.2, panic := none }, true)
    | none => (x, false)

def filter : Pat → Nat → Ctx → Ctx × Bool
  | .name e => catchSeh e
  | .any => catchFilter

/-- `ex_throw`, except.c:484-523: sets the current record and raises; at the root it terminates. -/
def throwTo (m : M) (ex panic : Option Nat) : Out × M :=
  if m.cur = 0 then (.dead, m) else (.seh panicCode, m.set m.cur { m.ctx m.cur with ex := ex, panic := panic })

/-- `try_catching`, except.c:935-950, with the name of `try_updating_err`, 863-864. -/
def matchesPat (p : Pat) (x : Ctx) : Bool :=
  x.state = .thrown && match p with
    | .any => true
    | .name e => x.panic.or x.ex == some e

/-- `try_finish`, except.c:908-922. -/
def finish (c : Nat) (m : M) : Out × M :=
  let m := if m.cur = c then { m with cur := (m.ctx c).next } else m
  if (m.ctx c).state = .thrown then throwTo m (m.ctx c).ex (m.ctx c).panic else (.norm, m)

/-- The last stage: `try_finallying` (952-963) with its block, then the end. -/
def finalStage (c : Nat) (hasFin : Bool) (fin : M → Out × M) (m : M) : Out × M :=
  if hasFin then
    match fin { m with cur := (m.ctx c).next } with
    | (.norm, m) => finish c m
    | r => r
  else finish c m

/-- The stage of the catch clause and the last one. -/
def catchStage (c : Nat) (p : Pat) (h : M → Out × M) (final : M → Out × M) (m : M) : Out × M :=
  if matchesPat p (m.ctx c) then
    match h (m.set c { m.ctx c with state := .caught }) with
    | (.norm, m) => final m
    | r => r
  else final m

/-- A `try` statement after its body, include/except.h:274-296. -/
def afterBody (c : Nat) (p : Pat) (rest : M → Out × M) : Out × M → Out × M
  | (.norm, m) => rest { m with top := c + 1 }
  | (.dead, m) => (.dead, m)
  | (.seh code, m) =>
    let r := filter p code (m.ctx m.cur)
    let m := m.set m.cur r.1
    if r.2 then rest ({ m with top := c + 1 }.set c { m.ctx c with state := .thrown }) else (.seh code, m)

/-- `try_start`, except.c:893-906, on the record `ex_err = {0}`. -/
def start (m : M) : M :=
  { ctx := Function.update m.ctx m.top ⟨.trying, none, none, 0, m.cur⟩
    cur := m.top
    top := m.top + 1
    log := m.log }

def exec : Stmt → M → Out × M
  | .act n, m => (.norm, { m with log := m.log ++ [n] })
  | .seq a b, m =>
    match exec a m with
    | (.norm, m) => exec b m
    | r => r
  | .throw e, m => throwTo m (some 0) (some e)
  | .hw code, m => (.seh code, m)
  | .try_ body p h hasFin fin, m =>
    let r := afterBody m.top p (catchStage m.top p (exec h) (finalStage m.top hasFin (exec fin))) (exec body (start m))
    (r.1, { r.2 with top := m.top })

def init : M := ⟨fun _ => ⟨.trying, none, none, 2 ^ 32 - 1, 0⟩, 0, 1, []⟩

/-! ## Specification: the usual meaning -/

inductive SOut
  | norm
  | exn (e : Nat)
  deriving DecidableEq, Repr

def catches : Pat → Nat → Bool
  | .any, _ => true
  | .name e, x => e == x

/-- The documented name of an exception of the system. -/
def hwName (code : Nat) : Nat :=
  if code = 0xC0000005 then 1 else if code = 0xC000008C then 2 else if code = 0xC000008E then 3 else if code = 0xC0000094 then 4
  else if code = 0xC000001D then 5 else if code = 0xC0000095 then 6 else if code = 0xC00000FD then 7 else if code = 0xC0000008 then 8
  else if code = 0xC000013A then 9 else code

/-- The finally block, then what was pending. -/
def sFinally (hasFin : Bool) (fin : List Nat → SOut × List Nat) (pend : SOut) (l : List Nat) : SOut × List Nat :=
  if hasFin then
    match fin l with
    | (.norm, l) => (pend, l)
    | r => r
  else (pend, l)

def sexec : Stmt → List Nat → SOut × List Nat
  | .act n, l => (.norm, l ++ [n])
  | .seq a b, l =>
    match sexec a l with
    | (.norm, l) => sexec b l
    | r => r
  | .throw e, l => (.exn e, l)
  | .hw code, l => (.exn (hwName code), l)
  | .try_ body p h hasFin fin, l =>
    match sexec body l with
    | (.norm, l) => sFinally hasFin (sexec fin) .norm l
    | (.exn e, l) =>
      if catches p e then
        match sexec h l with
        | (r, l) => sFinally hasFin (sexec fin) r l
      else sFinally hasFin (sexec fin) (.exn e) l

/-- Only `throw` throws, and no catch block is left by an exception. -/
def Plain : Stmt → Prop
  | .act _ => True
  | .seq a b => Plain a ∧ Plain b
  | .throw _ => True
  | .hw _ => False
  | .try_ body _ h _ fin => Plain body ∧ Plain h ∧ Plain fin ∧ ∀ l, (sexec h l).1 = .norm

/-! ## Lemmas -/

/-- The machine after a piece of program, as the specification says. -/
def Agrees (m : M) : SOut × List Nat → Out × M → Prop
  | (.norm, l), r => r.1 = .norm ∧ r.2.cur = m.cur ∧ r.2.top = m.top ∧ r.2.log = l ∧ ∀ i < m.top, r.2.ctx i = m.ctx i
  | (.exn e, l), r =>
    r.2.log = l ∧ if m.cur = 0 then r.1 = .dead
      else r.1 = .seh panicCode ∧ r.2.cur = m.cur ∧ r.2.ctx m.cur = { m.ctx m.cur with ex := some 0, panic := some e } ∧
        ∀ i < m.top, i ≠ m.cur → r.2.ctx i = m.ctx i

theorem filter_throw (p : Pat) (e : Nat) (x : Ctx) (hx : x.ex = some 0) (hp : x.panic = some e) (hc : x.caught = 0) :
    filter p panicCode x = ({ x with state := .thrown }, true) := by
  obtain ⟨st, ex, panic, caught, next⟩ := x
  simp only at hx hp hc
  subst hx hp hc
  cases p with
  | any => simp [filter, catchFilter]
  | name k =>
    simp only [filter, catchSeh]
    rw [if_neg (by simp), if_neg (by simp)]
    split
    · rfl
    · by_cases hk : k = 0
      · subst hk
        simp [sehLoop, table]
      · have hk' : ((0 : Nat) == k) = false := by simp [Ne.symm hk]
        simp [sehLoop, table, panicCode, Ne.symm hk]

theorem throwTo_agrees (m : M) (e : Nat) : Agrees m (.exn e, m.log) (throwTo m (some 0) (some e)) := by
  unfold throwTo
  by_cases h : m.cur = 0
  · simp [Agrees, h]
  · simp only [if_neg h, Agrees, M.set, Function.update_self, true_and]
    intro i _ hi
    rw [Function.update_of_ne hi]

theorem Agrees.retop {m : M} {s : SOut × List Nat} {r : Out × M} (h : Agrees m s r) : Agrees m s (r.1, { r.2 with top := m.top }) := by
  obtain ⟨o, l⟩ := s
  cases o with
  | norm => exact ⟨h.1, h.2.1, rfl, h.2.2.2.1, h.2.2.2.2⟩
  | exn e => exact h

/-- What the record says is still to be thrown. -/
def Pending (x : Ctx) : SOut → Prop
  | .norm => x.state ≠ .thrown
  | .exn e => x.state = .thrown ∧ x.ex = some 0 ∧ x.panic = some e

/-- The end of a `try` statement. -/
theorem finish_agrees (m m' : M) (o : SOut) (hc : m.cur < m.top) (h1 : m'.cur = m.top ∨ m'.cur = m.cur)
    (h2 : (m'.ctx m.top).next = m.cur) (h4 : ∀ i < m.top, m'.ctx i = m.ctx i)
    (h5 : Pending (m'.ctx m.top) o) :
    Agrees m (o, m'.log) ((finish m.top m').1, { (finish m.top m').2 with top := m.top }) := by
  have hm : (if m'.cur = m.top then { m' with cur := (m'.ctx m.top).next } else m') = { m' with cur := m.cur } := by
    split
    · rw [h2]
    · rename_i hn
      rcases h1 with h1 | h1
      · exact absurd h1 hn
      · rw [← h1]
  have hf : finish m.top m' = if (m'.ctx m.top).state = .thrown then
      throwTo { m' with cur := m.cur } (m'.ctx m.top).ex (m'.ctx m.top).panic else (.norm, { m' with cur := m.cur }) := by
    unfold finish
    rw [hm]
  rw [hf]
  cases o with
  | norm =>
    rw [if_neg h5]
    exact ⟨rfl, rfl, rfl, rfl, h4⟩
  | exn e =>
    obtain ⟨s1, s2, s3⟩ := h5
    rw [if_pos s1, s2, s3]
    unfold throwTo
    by_cases h0 : m.cur = 0
    · simp [Agrees, h0]
    · simp only [if_neg h0, Agrees, M.set, Function.update_self, true_and]
      refine ⟨by rw [h4 _ hc], ?_⟩
      intro i hi hne
      rw [Function.update_of_ne hne]
      exact h4 i hi

/-- The finally block and the end. -/
theorem finalStage_agrees (m m' : M) (o : SOut) (hasFin : Bool) (fin : Stmt) (hc : m.cur < m.top)
    (ih : ∀ k : M, k.cur < k.top → (∀ i, 0 < i → i < k.top → (k.ctx i).caught = 0) → Agrees k (sexec fin k.log) (exec fin k))
    (hz : ∀ i, 0 < i → i < m'.top → (m'.ctx i).caught = 0) (h1 : m'.cur = m.top ∨ m'.cur = m.cur)
    (h2 : (m'.ctx m.top).next = m.cur) (h3 : m'.top = m.top + 1) (h4 : ∀ i < m.top, m'.ctx i = m.ctx i)
    (h5 : Pending (m'.ctx m.top) o) :
    Agrees m (sFinally hasFin (sexec fin) o m'.log)
      ((finalStage m.top hasFin (exec fin) m').1, { (finalStage m.top hasFin (exec fin) m').2 with top := m.top }) := by
  cases hasFin with
  | false =>
    simp only [sFinally, finalStage, Bool.false_eq_true, if_false]
    exact finish_agrees m m' o hc h1 h2 h4 h5
  | true =>
    simp only [sFinally, finalStage, if_true, h2]
    have hk := ih { m' with cur := m.cur } (by show m.cur < m'.top; omega) hz
    simp only at hk
    rcases hs : sexec fin m'.log with ⟨o', l⟩
    rcases hr : exec fin { m' with cur := m.cur } with ⟨r, k⟩
    rw [hs, hr] at hk
    cases o' with
    | norm =>
      obtain ⟨k1, k2, k3, k4, k5⟩ := hk
      simp only at k1 k2 k3 k4 k5
      subst k1
      have hctx : k.ctx m.top = m'.ctx m.top := k5 m.top (by omega)
      have := finish_agrees m k o hc (Or.inr k2) (by rw [hctx, h2])
        (fun i hi => by rw [k5 i (by omega), h4 i hi]) (by rw [hctx]; exact h5)
      rw [k4] at this
      exact this
    | exn e =>
      obtain ⟨k1, k2⟩ := hk
      simp only at k1 k2
      by_cases h0 : m.cur = 0
      · rw [if_pos h0] at k2
        subst k2
        exact ⟨k1, by rw [if_pos h0]⟩
      · rw [if_neg h0] at k2
        obtain ⟨q1, q2, q3, q4⟩ := k2
        subst q1
        refine ⟨k1, ?_⟩
        rw [if_neg h0]
        exact ⟨rfl, q2, by rw [q3, h4 _ hc], fun i hi hne => by rw [q4 i (by omega) hne, h4 i hi]⟩

theorem agrees : ∀ (s : Stmt), Plain s → ∀ (m : M), m.cur < m.top → (∀ i, 0 < i → i < m.top → (m.ctx i).caught = 0) →
    Agrees m (sexec s m.log) (exec s m)
  | .act n, _, m, _, _ => by simp [exec, sexec, Agrees]
  | .throw e, _, m, _, _ => throwTo_agrees m e
  | .hw _, h, _, _, _ => h.elim
  | .seq a b, h, m, hc, hz => by
    have ha := agrees a h.1 m hc hz
    simp only [exec, sexec]
    rcases hs : sexec a m.log with ⟨o, l⟩
    rcases hr : exec a m with ⟨r, k⟩
    rw [hs, hr] at ha
    cases o with
    | norm =>
      obtain ⟨k1, k2, k3, k4, k5⟩ := ha
      simp only at k1 k2 k3 k4 k5
      subst k1
      have hb := agrees b h.2 k (by omega) (fun i h0 hi => by rw [k5 i (by omega)]; exact hz i h0 (by omega))
      rw [k4] at hb
      rcases hs' : sexec b l with ⟨o', l'⟩
      rw [hs'] at hb
      show Agrees m (sexec b l) (exec b k)
      rw [hs']
      cases o' with
      | norm =>
        obtain ⟨b1, b2, b3, b4, b5⟩ := hb
        exact ⟨b1, by rw [b2, k2], by rw [b3, k3], b4, fun i hi => by rw [b5 i (by omega), k5 i hi]⟩
      | exn e =>
        obtain ⟨b1, b2⟩ := hb
        refine ⟨b1, ?_⟩
        rw [k2] at b2
        by_cases h0 : m.cur = 0
        · rw [if_pos h0] at b2 ⊢; exact b2
        · rw [if_neg h0] at b2 ⊢
          obtain ⟨q1, q2, q3, q4⟩ := b2
          exact ⟨q1, q2, by rw [q3, k5 _ hc], fun i hi hne => by rw [q4 i (by omega) hne, k5 i hi]⟩
    | exn e =>
      obtain ⟨b1, b2⟩ := ha
      simp only at b1 b2
      by_cases h0 : m.cur = 0
      · rw [if_pos h0] at b2
        subst b2
        exact ⟨b1, by rw [if_pos h0]⟩
      · rw [if_neg h0] at b2
        obtain ⟨q1, q2⟩ := b2
        subst q1
        refine ⟨b1, ?_⟩
        rw [if_neg h0]
        exact ⟨rfl, q2⟩
  | .try_ body p hd hasFin fin, h, m, hc, hz => by
    obtain ⟨hb, hh, hf, hn⟩ := h
    have ihf := fun k => agrees fin hf k
    have hstart : ∀ i, 0 < i → i < (start m).top → ((start m).ctx i).caught = 0 := by
      intro i h0 hi
      simp only [start] at hi ⊢
      by_cases hit : i = m.top
      · subst hit; rw [Function.update_self]
      · rw [Function.update_of_ne hit]; exact hz i h0 (by omega)
    have sctx : ∀ i < m.top, (start m).ctx i = m.ctx i := by
      intro i hi; simp only [start]; rw [Function.update_of_ne (by omega)]
    have stop : (start m).ctx m.top = ⟨.trying, none, none, 0, m.cur⟩ := by simp [start]
    have ib := agrees body hb (start m) (by simp [start]) hstart
    simp only [exec, sexec]
    rw [show (start m).log = m.log from rfl] at ib
    rcases hs : sexec body m.log with ⟨o, l⟩
    rcases hr : exec body (start m) with ⟨r, k⟩
    rw [hs, hr] at ib
    have htop : 0 < m.top := by omega
    cases o with
    | norm =>
      obtain ⟨k1, k2, k3, k4, k5⟩ := ib
      simp only at k1 k2 k3 k4 k5
      subst k1
      have k3' : k.top = m.top + 1 := k3
      have kc : k.ctx m.top = ⟨.trying, none, none, 0, m.cur⟩ := by rw [k5 m.top (by simp [start])]; exact stop
      have hkt : ({ k with top := m.top + 1 } : M) = k := by rw [← k3']
      simp only [afterBody, catchStage, hkt, kc, matchesPat]
      rw [if_neg (by simp)]
      have := finalStage_agrees m k .norm hasFin fin hc ihf
        (fun i h0 hi => by rw [k5 i (by rw [k3] at hi; exact hi)]; exact hstart i h0 (by rw [k3] at hi; exact hi))
        (Or.inl k2) (by rw [kc]) k3' (fun i hi => by rw [k5 i (by simp [start]; omega)]; exact sctx i hi) (by rw [kc]; simp [Pending])
      rw [k4] at this
      exact this
    | exn e =>
      obtain ⟨k1, k2⟩ := ib
      simp only at k1 k2
      rw [if_neg (by simp only [start]; omega)] at k2
      obtain ⟨q1, q2, q3, q4⟩ := k2
      subst q1
      have q2' : k.cur = m.top := q2
      have kc : k.ctx m.top = ⟨.trying, some 0, some e, 0, m.cur⟩ := by
        have := q3
        rw [show (start m).cur = m.top from rfl, stop] at this
        exact this
      have q4' : ∀ i < m.top, k.ctx i = m.ctx i := fun i hi => by
        rw [q4 i (by simp only [start]; omega) (by simp only [start]; omega)]; exact sctx i hi
      simp only [afterBody, q2', kc]
      rw [filter_throw p e _ rfl rfl rfl]
      simp only [if_true]
      -- the machine that the catch clause sees
      generalize hg : ({ k.set m.top ⟨.thrown, some 0, some e, 0, m.cur⟩ with top := m.top + 1 } : M).set m.top
        { (k.set m.top ⟨.thrown, some 0, some e, 0, m.cur⟩).ctx m.top with state := .thrown } = g
      have gc : g.ctx m.top = ⟨.thrown, some 0, some e, 0, m.cur⟩ := by rw [← hg]; simp [M.set]
      have gi : ∀ i < m.top, g.ctx i = m.ctx i := by
        intro i hi
        rw [← hg]; simp only [M.set]
        rw [Function.update_of_ne (by omega), Function.update_of_ne (by omega)]
        exact q4' i hi
      have gcur : g.cur = m.top := by rw [← hg]; exact q2'
      have gtop : g.top = m.top + 1 := by rw [← hg]; rfl
      have glog : g.log = l := by rw [← hg]; exact k1
      have gz : ∀ i, 0 < i → i < g.top → (g.ctx i).caught = 0 := by
        intro i h0 hi
        rcases Nat.lt_or_ge i m.top with h | h
        · rw [gi i h]; exact hz i h0 h
        · rw [show i = m.top by omega, gc]
      have hmatch : matchesPat p (g.ctx m.top) = catches p e := by
        rw [gc]; cases p <;> simp [matchesPat, catches, eq_comm]
      simp only [catchStage, hmatch]
      cases hcat : catches p e with
      | false =>
        simp only [Bool.false_eq_true, if_false]
        have := finalStage_agrees m g (.exn e) hasFin fin hc ihf gz (Or.inl gcur) (by rw [gc]) gtop gi (by rw [gc]; simp [Pending])
        rw [glog] at this
        exact this
      | true =>
        simp only [if_true]
        have ih := agrees hd hh (g.set m.top { g.ctx m.top with state := .caught }) (by simp only [M.set]; omega) (by
          intro i h0 hi
          simp only [M.set] at hi ⊢
          by_cases hit : i = m.top
          · subst hit; rw [Function.update_self, gc]
          · rw [Function.update_of_ne hit]; exact gz i h0 hi)
        have hl : (g.set m.top { g.ctx m.top with state := .caught }).log = l := glog
        rw [hl] at ih
        have hnl := hn l
        rcases hs' : sexec hd l with ⟨o', l'⟩
        rw [hs'] at ih hnl
        simp only at hnl
        subst hnl
        rcases hr' : exec hd (g.set m.top { g.ctx m.top with state := .caught }) with ⟨r', k'⟩
        rw [hr'] at ih
        obtain ⟨k1', k2', k3', k4', k5'⟩ := ih
        simp only [M.set] at k1' k2' k3' k4' k5'
        subst k1'
        simp only
        have kc' : k'.ctx m.top = { g.ctx m.top with state := .caught } := by
          rw [k5' m.top (by omega), Function.update_self]
        have := finalStage_agrees m k' .norm hasFin fin hc ihf (by
            intro i h0 hi
            rw [k5' i (by omega)]
            by_cases hit : i = m.top
            · subst hit; rw [Function.update_self, gc]
            · rw [Function.update_of_ne hit]; exact gz i h0 (by omega))
          (Or.inl (by rw [k2', gcur])) (by rw [kc', gc]) (by rw [k3', gtop])
          (fun i hi => by rw [k5' i (by omega), Function.update_of_ne (by omega)]; exact gi i hi) (by rw [kc']; simp [Pending])
        rw [k4'] at this
        exact this

/-! ## C249 -/

/-- For all programs in which no catch block is left by an exception and only `throw` throws: they do what is usual; an exception that nobody
catches is named and ends the program. -/
theorem follows_spec_partial (s : Stmt) (hs : Plain s) :
    (exec s init).2.log = (sexec s []).2 ∧
      (exec s init).1 = match (sexec s []).1 with
        | .norm => .norm
        | .exn _ => .dead := by
  have h := agrees s hs init (by simp [init]) (by simp only [init]; intro i h0 hi; omega)
  rw [show init.log = [] from rfl] at h
  rcases hr : sexec s [] with ⟨o, l⟩
  rw [hr] at h
  cases o with
  | norm => exact ⟨h.2.2.2.1, h.1⟩
  | exn e =>
    refine ⟨h.1, ?_⟩
    have := h.2
    rwa [if_pos (by rfl)] at this

/-- A nested statement whose inner catch does not match, with finally blocks. -/
def sample : Stmt :=
  .seq (.try_ (.try_ (.seq (.act 1) (.throw 20)) (.name 21) (.act 2) true (.act 3)) (.name 20) (.act 4) true (.act 5))
    (.try_ (.throw 22) .any (.act 6) false (.act 0))

example : Plain sample ∧ sexec sample [] = (.norm, [1, 3, 4, 5, 6]) := by
  refine ⟨?_, by decide⟩
  simp [Plain, sample, sexec]

/-- An exception thrown in a catch block is not caught by a statement around it that names it, nor is the inner finally block run: the exception
of the system ends the program, without a word.  Without the finally block the catch block around it should run. -/
theorem throw_in_catch_block (e f n : Nat) (b : Bool) (fin : Stmt) :
    (exec (.try_ (.try_ (.throw e) (.name e) (.throw f) b fin) (.name f) (.act n) false (.act 0)) init).1 = .seh panicCode ∧
      (exec (.try_ (.try_ (.throw e) (.name e) (.throw f) b fin) (.name f) (.act n) false (.act 0)) init).2.log = [] ∧
      sexec (.try_ (.try_ (.throw e) (.name e) (.throw f) false fin) (.name f) (.act n) false (.act 0)) [] = (.norm, [n]) := by
  refine ⟨?_, ?_, by simp [sexec, catches, sFinally]⟩ <;>
  · simp only [exec, start, init, throwTo, M.set]
    simp [afterBody, filter_throw, M.set, catchStage, matchesPat, finalStage, finish, throwTo, Function.update]

/-- With `catch_any` around it the exception is caught, but the thread's pointer still points to the record of the inner statement, which has ended:
an exception thrown after both is not the end in good order that it should be. -/
theorem pointer_to_ended_statement (e f g n : Nat) (b : Bool) (fin : Stmt) :
    (exec (.try_ (.try_ (.throw e) (.name e) (.throw f) b fin) .any (.act n) false (.act 0)) init).1 = .norm ∧
      (exec (.try_ (.try_ (.throw e) (.name e) (.throw f) b fin) .any (.act n) false (.act 0)) init).2.cur = 2 ∧
      (exec (.try_ (.try_ (.throw e) (.name e) (.throw f) b fin) .any (.act n) false (.act 0)) init).2.top = 1 ∧
      (exec (.seq (.try_ (.try_ (.throw e) (.name e) (.throw f) b fin) .any (.act n) false (.act 0)) (.throw g)) init).1 = .seh panicCode := by
  refine ⟨?_, ?_, rfl, ?_⟩ <;>
  · simp only [exec, start, init, throwTo, M.set]
    simp [afterBody, filter_throw, M.set, catchStage, matchesPat, finalStage, finish, Function.update]

/-- `catch(E)` never catches an exception of the processor or the system, whatever `E` and the code: the catch block plays no part. -/
theorem hardware_not_caught (e code : Nat) (h h' fin : Stmt) (b : Bool) (m : M) :
    exec (.try_ (.hw code) (.name e) h b fin) m = exec (.try_ (.hw code) (.name e) h' b fin) m ∧
      (exec (.try_ (.hw code) (.name e) h false fin) init).1 = .dead := by
  refine ⟨?_, ?_⟩
  · simp [exec, start, afterBody, filter, catchSeh, catchStage, matchesPat, M.set]
  · simp [exec, start, init, afterBody, filter, catchSeh, catchStage, matchesPat, M.set, finalStage, finish, throwTo]

/-- An access violation and `catch(sig_segv)`. -/
example : sexec (.try_ (.hw 0xC0000005) (.name 1) (.act 7) false (.act 0)) [] = (.norm, [7]) := by decide

/-- `catch_any` catches the codes of the table under their names (the record's `ex`). -/
theorem hardware_any_partial (code : Nat) (x : Ctx)
    (hc : code ∈ [0xC0000005, 0xC000008C, 0xC000008E, 0xC0000094, 0xC000001D, 0xC0000095, 0xC00000FD, 0xC0000008, 0xC000013A])
    (hx : x.caught = 0) :
    (catchFilter code x).2 = true ∧ (catchFilter code x).1.ex = some (hwName code) ∧ (catchFilter code x).1.panic = none := by
  simp only [List.mem_cons, List.not_mem_nil, or_false] at hc
  rcases hc with h | h | h | h | h | h | h | h | h <;> subst h <;> simp [catchFilter, table, panicCode, hwName, hx]

/-- Every other code is taken for an access violation. -/
theorem other_codes_misnamed (code : Nat) (x : Ctx)
    (hc : code ∉ [0xC0000005, 0xC000008C, 0xC000008E, 0xC0000094, 0xC000001D, 0xC0000095, 0xC00000FD, 0xC0000008, 0xC000013A, 0xE0000001])
    (hx : x.caught = 0) :
    (catchFilter code x).2 = true ∧ (catchFilter code x).1.ex = some 1 := by
  simp only [List.mem_cons, List.not_mem_nil, or_false, not_or] at hc
  obtain ⟨c1, c2, c3, c4, c5, c6, c7, c8, c9, c10⟩ := hc
  have e1 : ¬ (3221225477 = code) := fun h => c1 h.symm
  have e2 : ¬ (3221225612 = code) := fun h => c2 h.symm
  have e3 : ¬ (3221225614 = code) := fun h => c3 h.symm
  have e4 : ¬ (3221225620 = code) := fun h => c4 h.symm
  have e5 : ¬ (3221225501 = code) := fun h => c5 h.symm
  have e6 : ¬ (3221225621 = code) := fun h => c6 h.symm
  have e7 : ¬ (3221225725 = code) := fun h => c7 h.symm
  have e8 : ¬ (3221225480 = code) := fun h => c8 h.symm
  have e9 : ¬ (3221225786 = code) := fun h => c9 h.symm
  have e10 : ¬ (3758096385 = code) := fun h => c10 h.symm
  simp [catchFilter, table, panicCode, hx, e1, e2, e3, e4, e5, e6, e7, e8, e9, e10, c10]

/-- Such as a breakpoint, 0x80000003. -/
example : (catchFilter 0x80000003 ⟨.trying, none, none, 0, 0⟩).1.ex = some 1 := by decide

end Verif.Except.Seh
