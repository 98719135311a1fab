import Mathlib.Logic.Function.Basic
import Mathlib.Data.List.Basic
import Mathlib.Tactic.ByContra

/-!
# The setup of epoll on Windows (`src/wepoll.c` 825-855), C269

Every call that makes or uses an epoll handle first calls `init`.  Any number of threads do; `InitOnceExecuteOnce` lets one of them in,
makes the others wait, and lets the next one in if that one failed.
-/

namespace Verif.Wepoll.Init

/-- `init__once`: nobody inside, thread `t` inside having done `i` parts (4: all; 5: `init__done` is set too), or complete. -/
inductive Once where
  | free
  | running (t i : Nat)
  | complete
  deriving DecidableEq

/-- `done`: `init__done`; `log`: parts set up, the latest last (0 Winsock, 1 the functions of
ntdll, 2 the locks, 3 the handles); `ret`: what `init` returned in each thread (true: 0). -/
structure St where
  done : Bool
  once : Once
  log : List Nat
  ret : Nat → Option Bool

inductive Ev where
  /-- Thread `t` calls `init` (or goes on waiting in it). -/
  | call (t : Nat)
  /-- The thread inside goes on; `ok`: the part is set up. -/
  | go (ok : Bool)
  deriving DecidableEq

/-- `init`, src/wepoll.c:844-855, with `init__once_callback`, 828-842.  The four functions are those of 2180, 873, 1514 and 516. -/
def step (s : St) : Ev → St
  | .call t =>
    if s.done then { s with ret := Function.update s.ret t (some true) }
    else match s.once with
      | .free => { s with once := .running t 0, ret := Function.update s.ret t none }
      | .running _ _ => s
      | .complete => { s with ret := Function.update s.ret t (some true) }
  | .go ok =>
    match s.once with
    | .running t i =>
      if i < 4 then
        if ok then { s with once := .running t (i + 1), log := s.log ++ [i] }
        else { s with once := .free, ret := Function.update s.ret t (some false) }
      else if i = 4 then { s with done := true, once := .running t 5 }
      else { s with once := .complete, ret := Function.update s.ret t (some true) }
    | _ => s

def run (s : St) (l : List Ev) : St := l.foldl step s

def init : St := ⟨false, .free, [], fun _ => none⟩

/-! ## Specification -/

/-- All parts are set up, in their order, without anything between. -/
def Ready (log : List Nat) : Prop := ∃ p, log = p ++ [0, 1, 2, 3]

/-- The attempts that failed, in a schedule. -/
def failures (l : List Ev) : Nat := (l.filter (· = .go false)).length

/-! ## Proofs -/

/-- Nats done in the attempt that goes on, after those of failed attempts. -/
def Ok (s : St) : Prop :=
  match s.once with
  | .free => s.done = false ∧ ∀ u, s.ret u ≠ some true
  | .running _ i =>
    (∃ p, s.log = p ++ List.range (min i 4)) ∧ (i ≤ 5) ∧ (s.done = true ↔ i = 5) ∧ (i < 5 → ∀ u, s.ret u ≠ some true)
  | .complete => s.done = true ∧ Ready s.log

theorem step_ok {s : St} (h : Ok s) (e : Ev) : Ok (step s e) := by
  obtain ⟨done, once, log, ret⟩ := s
  cases e with
  | call t =>
    cases once with
    | free =>
      obtain ⟨h1, h2⟩ := h
      simp only at h1
      subst h1
      refine ⟨⟨log, by simp [step]⟩, by omega, by simp [step], fun _ u => ?_⟩
      show Function.update ret t none u ≠ some true
      by_cases e : u = t
      · subst e; simp
      · rw [Function.update_of_ne e]; exact h2 u
    | running v i =>
      cases done with
      | false => exact h
      | true =>
        obtain ⟨h1, h2, h3, h4⟩ := h
        have : i = 5 := by simpa using h3
        exact ⟨h1, h2, h3, fun hi => by omega⟩
    | complete =>
      obtain ⟨h1, h2⟩ := h
      simp only at h1
      subst h1
      exact ⟨rfl, h2⟩
  | go ok =>
    cases once with
    | free => exact h
    | complete => exact h
    | running t i =>
      obtain ⟨h1, h2, h3, h4⟩ := h
      simp only at h1 h2 h3 h4
      by_cases hi : i < 4
      · have hd : done = false := by
          cases done with
          | false => rfl
          | true => have := h3.1 rfl; omega
        cases ok with
        | true =>
          simp only [step, hi, if_true]
          obtain ⟨p, hp⟩ := h1
          refine ⟨⟨p, ?_⟩, by omega, by simp [hd]; omega, fun _ => h4 (by omega)⟩
          show log ++ [i] = _
          rw [hp, show min (i + 1) 4 = min i 4 + 1 by omega, List.range_succ, show min i 4 = i by omega, List.append_assoc]
        | false =>
          simp only [step, hi, if_true, Bool.false_eq_true, if_false]
          refine ⟨hd, fun u => ?_⟩
          show Function.update ret t (some false) u ≠ some true
          by_cases e : u = t
          · subst e; simp
          · rw [Function.update_of_ne e]; exact h4 (by omega) u
      · by_cases h4' : i = 4
        · subst h4'
          exact ⟨h1, by omega, by simp [step], fun h => by omega⟩
        · have h5 : i = 5 := by omega
          subst h5
          obtain ⟨p, hp⟩ := h1
          exact ⟨h3.2 rfl, p, hp⟩

theorem run_ok : ∀ (l : List Ev) (s : St), Ok s → Ok (run s l)
  | [], _, h => h
  | e :: l, _, h => run_ok l _ (step_ok h e)

theorem init_ok : Ok init := ⟨rfl, fun _ => by simp [init]⟩

/-- The log is final. -/
def Final (s : St) : Prop := Ready s.log ∧ s.done = true ∧ (s.once = .complete ∨ ∃ t, s.once = .running t 5)

theorem final_of_ret {s : St} (h : Ok s) (hr : ∃ u, s.ret u = some true) : Final s := by
  obtain ⟨u, hu⟩ := hr
  obtain ⟨done, once, log, ret⟩ := s
  cases once with
  | free => exact absurd hu (h.2 u)
  | complete => exact ⟨h.2, h.1, Or.inl rfl⟩
  | running t i =>
    obtain ⟨⟨p, hp⟩, h2, h3, h4⟩ := h
    by_cases h5 : i < 5
    · exact absurd hu (h4 h5 u)
    · obtain rfl : i = 5 := by omega
      exact ⟨⟨p, hp⟩, h3.2 rfl, Or.inr ⟨t, rfl⟩⟩

theorem final_step {s : St} (h : Final s) (e : Ev) : Final (step s e) ∧ (step s e).log = s.log := by
  obtain ⟨done, once, log, ret⟩ := s
  obtain ⟨h1, h2, h3⟩ := h
  simp only at h1 h2 h3
  subst h2
  cases e with
  | call t => exact ⟨⟨h1, rfl, h3⟩, rfl⟩
  | go ok =>
    rcases h3 with rfl | ⟨t, rfl⟩
    · exact ⟨⟨h1, rfl, Or.inl rfl⟩, rfl⟩
    · exact ⟨⟨h1, rfl, Or.inl rfl⟩, rfl⟩

/-- **C269**: whatever the schedule, once `init` has returned 0 in any thread, all four parts were set up, in order and in one
attempt, and none is ever set up again. -/
theorem ready (l m : List Ev) (u : Nat) (h : (run init l).ret u = some true) :
    Ready (run init l).log ∧ (run init (l ++ m)).log = (run init l).log := by
  have hf := final_of_ret (run_ok l init init_ok) ⟨u, h⟩
  refine ⟨hf.1, ?_⟩
  have e : run init (l ++ m) = run (run init l) m := by simp [run, List.foldl_append]
  rw [e]
  have key : ∀ (m : List Ev) (s : St), Final s → (run s m).log = s.log := by
    intro m
    induction m with
    | nil => exact fun _ _ => rfl
    | cons e m ih =>
      intro s hs
      obtain ⟨h1, h2⟩ := final_step hs e
      exact (ih _ h1).trans h2
  exact key m _ hf

/-- Starts of part `p`, by the place the schedule has got to. -/
theorem starts_le (p : Nat) : ∀ (l : List Ev) (s : St), Ok s →
    (run s l).log.count p ≤ s.log.count p + failures l +
      (match s.once with | .free => 1 | .running _ i => if i ≤ p then 1 else 0 | .complete => 0)
  | [], s, _ => by
    show s.log.count p ≤ _
    omega
  | e :: l, s, hs => by
    have ih := starts_le p l (step s e) (step_ok hs e)
    have er : run s (e :: l) = run (step s e) l := rfl
    rw [er]
    obtain ⟨done, once, log, ret⟩ := s
    have hf : failures (e :: l) = failures l + if e = .go false then 1 else 0 := by
      unfold failures
      by_cases he : e = .go false <;> simp [he]
    rw [hf]
    cases e with
    | call t =>
      cases once with
      | free =>
        have hd : done = false := hs.1
        subst hd
        simp only [step, Bool.false_eq_true, if_false, Nat.zero_le, if_true, reduceCtorEq] at ih ⊢
        omega
      | running v i =>
        cases done <;> simp only [step, Bool.false_eq_true, if_false, if_true, reduceCtorEq] at ih ⊢ <;> omega
      | complete =>
        cases done <;> simp only [step, Bool.false_eq_true, if_false, if_true, reduceCtorEq] at ih ⊢ <;> omega
    | go ok =>
      cases once with
      | free =>
        simp only [step] at ih ⊢
        omega
      | complete =>
        simp only [step] at ih ⊢
        omega
      | running t i =>
        by_cases hi : i < 4
        · cases ok with
          | true =>
            simp only [step, hi, if_true] at ih ⊢
            rw [List.count_append] at ih
            by_cases hp : i = p
            · subst hp
              have h9 : ¬ i + 1 ≤ i := by omega
              simp only [h9, Nat.le_refl, if_true, if_false, List.count_singleton_self] at ih ⊢
              omega
            · have : List.count p [i] = 0 := by simp [hp]
              rw [this] at ih
              by_cases h1 : i ≤ p
              · have : i + 1 ≤ p := by omega
                simp only [h1, this, if_true] at ih ⊢
                omega
              · have : ¬ i + 1 ≤ p := by omega
                simp only [h1, this, if_false] at ih ⊢
                omega
          | false =>
            simp only [step, hi, if_true, Bool.false_eq_true, if_false] at ih ⊢
            omega
        · by_cases h4 : i = 4
          · subst h4
            simp only [step, Nat.lt_irrefl, if_false, if_true] at ih ⊢
            by_cases h5 : 5 ≤ p
            · have h6 : 4 ≤ p := by omega
              simp only [h5, h6, if_true] at ih ⊢
              omega
            · simp only [h5, if_false] at ih
              omega
          · simp only [step, hi, h4, if_false] at ih ⊢
            omega

/-- **C269**: a part is set up at most once more often than attempts fail: without failures each is set up at most once, however many
threads call. -/
theorem at_most (l : List Ev) (p : Nat) : (run init l).log.count p ≤ failures l + 1 := by
  have := starts_le p l init init_ok
  simpa [init, Nat.add_comm] using this

/-- **C269**, false of the code if taken strictly: a later part that fails leaves the earlier ones set up, and the next attempt sets
them up again: after `n` failures of the second part Winsock is started `n` times, and never ended. -/
theorem again (n t : Nat) (m : List Ev)
    (hm : m = (List.replicate n [Ev.call t, Ev.go true, Ev.go false]).flatten) :
    (run init m).log = List.replicate n 0 ∧ (run init m).once = .free := by
  subst hm
  have key : ∀ n (s : St), s.done = false → s.once = .free →
      (run s (List.replicate n [Ev.call t, Ev.go true, Ev.go false]).flatten).log = s.log ++ List.replicate n 0 ∧
      (run s (List.replicate n [Ev.call t, Ev.go true, Ev.go false]).flatten).once = .free := by
    intro n
    induction n with
    | zero => exact fun s _ h => ⟨by simp [run], h⟩
    | succ n ih =>
      intro s hd ho
      obtain ⟨done, once, log, ret⟩ := s
      simp only at hd ho
      subst hd ho
      have e : run ⟨false, .free, log, ret⟩ (List.replicate (n + 1) [Ev.call t, Ev.go true, Ev.go false]).flatten =
          run ⟨false, .free, log ++ [0], Function.update (Function.update ret t none) t (some false)⟩
            (List.replicate n [Ev.call t, Ev.go true, Ev.go false]).flatten := by
        rw [List.replicate_succ, List.flatten_cons]
        rfl
      obtain ⟨h1, h2⟩ := ih ⟨false, .free, log ++ [0], Function.update (Function.update ret t none) t (some false)⟩ rfl rfl
      rw [e]
      refine ⟨?_, h2⟩
      rw [h1, List.replicate_succ]
      simp
  obtain ⟨h1, h2⟩ := key n init rfl rfl
  exact ⟨by simpa [init] using h1, h2⟩

/-- **C269**: a failure is not final: in any state that can be reached, with nobody inside, a thread that calls succeeds if its four
parts do. -/
theorem retried (l : List Ev) (t : Nat) (h : (run init l).once = .free) :
    (run init (l ++ [.call t, .go true, .go true, .go true, .go true, .go true, .go true])).ret t = some true := by
  have hk := run_ok l init init_ok
  have e : run init (l ++ [.call t, .go true, .go true, .go true, .go true, .go true, .go true]) =
      run (run init l) [.call t, .go true, .go true, .go true, .go true, .go true, .go true] := by
    simp [run, List.foldl_append]
  rw [e]
  generalize run init l = s at h hk
  obtain ⟨done, once, log, ret⟩ := s
  simp only at h
  subst h
  have hd : done = false := hk.1
  subst hd
  simp [run, step]

/-- **C269**: `init` fails only in a thread one of whose own parts failed. -/
theorem fails_own (s : St) (e : Ev) (u : Nat) (h0 : s.ret u ≠ some false) (h : (step s e).ret u = some false) :
    e = .go false ∧ ∃ i, i < 4 ∧ s.once = .running u i := by
  obtain ⟨done, once, log, ret⟩ := s
  have up : ∀ (f : Nat → Option Bool) t (v : Option Bool), f u ≠ some false → Function.update f t v u = some false →
      u = t ∧ v = some false := by
    intro f t v h1 h2
    by_cases e : u = t
    · subst e
      exact ⟨rfl, by simpa using h2⟩
    · rw [Function.update_of_ne e] at h2
      exact absurd h2 h1
  cases e with
  | call t =>
    exfalso
    cases done with
    | true =>
      have := (up ret t (some true) h0 h).2
      simp at this
    | false =>
      cases once with
      | free =>
        have := (up ret t none h0 h).2
        simp at this
      | running v i => exact h0 h
      | complete =>
        have := (up ret t (some true) h0 h).2
        simp at this
  | go ok =>
    cases once with
    | free => exact absurd h h0
    | complete => exact absurd h h0
    | running t i =>
      by_cases hi : i < 4
      · cases ok with
        | true =>
          simp only [step, hi, if_true] at h
          exact absurd h h0
        | false =>
          simp only [step, hi, if_true, Bool.false_eq_true, if_false] at h
          obtain ⟨h1, _⟩ := up ret t _ h0 h
          exact ⟨rfl, i, hi, by rw [h1]⟩
      · exfalso
        by_cases h4 : i = 4
        · simp only [step, h4, if_false, if_true, Nat.lt_irrefl] at h
          exact h0 h
        · simp only [step, hi, h4, if_false] at h
          have := (up ret t _ h0 h).2
          simp at this

/-- Two threads; the first attempt fails at the locks, the second succeeds. -/
def two : List Ev := [.call 0, .go true, .call 1, .go true, .go false, .call 1, .go true, .go true, .go true, .go true, .go true, .go true]

example : (run init two).ret 0 = some false ∧ (run init two).ret 1 = some true ∧ (run init two).log = [0, 1, 0, 1, 2, 3] := by decide
example : (run init [.call 0, .go true, .go false]).once = .free := by decide

end Verif.Wepoll.Init
