import Mathlib.Logic.Function.Basic
import Mathlib.Data.List.Basic

/-!
# The close after a connection's handler (`src/events.c` 1793-1819, `src/async_tls.c` 1075-1092, `src/async_uds.c` 65-83), C245

`accept_handler`, `tls_handler` and `uds_handler` start a task for an accepted connection, which runs the function of the user and has the
close of the connection deferred: `tls_closer(client)` for the first two, `close(client)` for the last.  The close is of the number, whoever
has it then.

Simplified: the task could be made; TLS objects are left out (`Tls/CloseRace`); the deferred call runs in whatever way the function of
the user ends.
-/

namespace Verif.Io.Handlers

/-- A connection's task: not yet accepted, the function of the user running with the number, ended. -/
inductive Task
  | none
  | run (fd : Nat)
  | done
  deriving DecidableEq, Repr

/-- The connection behind each number, as the system sees it, and the tasks, named by their connections. -/
structure St where
  conn : Nat → Option Nat
  task : Nat → Task

def init : St := ⟨fun _ => none, fun _ => .none⟩

inductive Ev
  | accept (c fd : Nat)
  | use (c : Nat)
  | close (c : Nat)
  | ret (c : Nat)
  deriving DecidableEq, Repr

/-- Which of the handlers. -/
inductive Kind
  | accept
  | tls
  | uds
  deriving DecidableEq, Repr

/-- `tls_closer` and `close` of a number: the table afterwards, and what was closed. -/
def closer (k : Kind) (conn : Nat → Option Nat) (fd : Nat) : (Nat → Option Nat) × Option Nat :=
  match k with
  | .uds => (Function.update conn fd none, conn fd)
  | .accept | .tls => if fd = 0 then (conn, none) else (Function.update conn fd none, conn fd)

/-- What happened to a connection: used (read, written) or closed by the task of `actor`. -/
structure Hit where
  actor : Nat
  target : Nat
  deriving DecidableEq, Repr

def hit (c : Nat) (o : Option Nat) : List Hit := (o.map fun t => ⟨c, t⟩).toList

/-- One step; a step that is not possible changes nothing.
* `accept`: the system gives a number not in use, and the task starts (events.c:1793-1798, async_tls.c:1075-1080, async_uds.c:65-70);
* `use`: the function of the user reads or writes;
* `close`: the function of the user closes the number;
* `ret`: it ends, and the deferred call runs. -/
def step (k : Kind) (s : St) : Ev → St × List Hit
  | .accept c fd =>
    if s.task c = .none ∧ s.conn fd = none then
      (⟨Function.update s.conn fd (some c), Function.update s.task c (.run fd)⟩, [])
    else (s, [])
  | .use c =>
    match s.task c with
    | .run fd => (s, hit c (s.conn fd))
    | _ => (s, [])
  | .close c =>
    match s.task c with
    | .run fd => (⟨Function.update s.conn fd none, s.task⟩, hit c (s.conn fd))
    | _ => (s, [])
  | .ret c =>
    match s.task c with
    | .run fd => (⟨(closer k s.conn fd).1, Function.update s.task c .done⟩, hit c (closer k s.conn fd).2)
    | _ => (s, [])

def run (k : Kind) (s : St) : List Ev → St × List Hit
  | [] => (s, [])
  | e :: l => ((run k (step k s e).1 l).1, (step k s e).2 ++ (run k (step k s e).1 l).2)

/-! ## Specification -/

/-- No number is given out that a function still running was given. -/
def Careful (k : Kind) : St → List Ev → Prop
  | _, [] => True
  | s, e :: l => (∀ c fd, e = .accept c fd → ∀ d, s.task d ≠ .run fd) ∧ Careful k (step k s e).1 l

/-- No function closes its connection. -/
def NoClose (l : List Ev) : Prop := ∀ c, Ev.close c ∉ l

/-- The handler does not get the number 0, or is that for unix sockets. -/
def NotZero (k : Kind) (l : List Ev) : Prop := k = .uds ∨ ∀ c, Ev.accept c 0 ∉ l

/-! ## Invariant -/

structure Inv (k : Kind) (s : St) : Prop where
  uniq : ∀ c d fd, s.task c = .run fd → s.task d = .run fd → c = d
  own : ∀ c fd, s.task c = .run fd → s.conn fd = some c ∨ s.conn fd = none
  run : ∀ fd c, s.conn fd = some c → s.task c = .run fd
  zero : k = .uds ∨ ∀ c, s.task c ≠ .run 0

theorem closer_of {k : Kind} {conn : Nat → Option Nat} {fd : Nat} (h : k = .uds ∨ fd ≠ 0) :
    closer k conn fd = (Function.update conn fd none, conn fd) := by
  cases k <;> simp_all [closer]

theorem hit_own {c : Nat} {o : Option Nat} (h : o = some c ∨ o = none) : ∀ x ∈ hit c o, x.target = x.actor := by
  rcases h with h | h <;> subst h <;> simp [hit]

theorem step_inv {k : Kind} {s : St} (h : Inv k s) (e : Ev) (hc : ∀ c fd, e = .accept c fd → ∀ d, s.task d ≠ .run fd)
    (hz : k = .uds ∨ ∀ c, e ≠ .accept c 0) : Inv k (step k s e).1 ∧ ∀ x ∈ (step k s e).2, x.target = x.actor := by
  cases e with
  | accept c fd =>
    simp only [step]
    split
    · rename_i hg
      have hno := hc c fd rfl
      refine ⟨⟨?_, ?_, ?_, ?_⟩, by simp⟩
      · intro a b g ha hb
        simp only [Function.update_apply] at ha hb
        split at ha <;> split at hb
        · rename_i h1 h2; rw [h1, h2]
        · injection ha with ha; subst ha; exact absurd hb (hno b)
        · injection hb with hb; subst hb; exact absurd ha (hno a)
        · exact h.uniq a b g ha hb
      · intro a g ha
        simp only [Function.update_apply] at ha ⊢
        split at ha
        · rename_i he; injection ha with ha; subst ha; subst he; simp
        · have : g ≠ fd := fun he => hno a (by rw [← he]; exact ha)
          rw [if_neg this]; exact h.own a g ha
      · intro g a ha
        simp only [Function.update_apply] at ha ⊢
        split at ha
        · rename_i he; injection ha with ha; subst ha; subst he; simp
        · rw [if_neg]
          · exact h.run g a ha
          · intro he
            have := h.run g a ha
            rw [he, hg.1] at this
            cases this
      · rcases hz with hz | hz
        · exact Or.inl hz
        · rcases h.zero with h0 | h0
          · exact Or.inl h0
          · right
            intro a
            simp only [Function.update_apply]
            split
            · intro he; injection he with he; subst he; exact hz c rfl
            · exact h0 a
    · exact ⟨h, by simp⟩
  | use c =>
    simp only [step]
    split
    · rename_i fd hp
      exact ⟨h, hit_own (h.own c fd hp)⟩
    · exact ⟨h, by simp⟩
  | close c =>
    simp only [step]
    split
    · rename_i fd hp
      refine ⟨⟨h.uniq, ?_, ?_, h.zero⟩, hit_own (h.own c fd hp)⟩
      · intro a g ha
        simp only [Function.update_apply]
        split
        · simp
        · exact h.own a g ha
      · intro g a ha
        simp only [Function.update_apply] at ha
        split at ha
        · simp at ha
        · exact h.run g a ha
    · exact ⟨h, by simp⟩
  | ret c =>
    simp only [step]
    split
    · rename_i fd hp
      have hk : k = .uds ∨ fd ≠ 0 := by
        rcases h.zero with h0 | h0
        · exact Or.inl h0
        · exact Or.inr (fun he => h0 c (by rw [← he]; exact hp))
      rw [closer_of hk]
      refine ⟨⟨?_, ?_, ?_, ?_⟩, hit_own (h.own c fd hp)⟩
      · intro a b g ha hb
        simp only [Function.update_apply] at ha hb
        split at ha
        · simp at ha
        · split at hb
          · simp at hb
          · exact h.uniq a b g ha hb
      · intro a g ha
        simp only [Function.update_apply] at ha ⊢
        split at ha
        · simp at ha
        · split
          · simp
          · exact h.own a g ha
      · intro g a ha
        simp only [Function.update_apply] at ha ⊢
        split at ha
        · simp at ha
        · rename_i hg
          rw [if_neg]
          · exact h.run g a ha
          · intro he; subst he
            have := h.run g a ha
            rw [hp] at this
            injection this with this
            exact hg this.symm
      · rcases h.zero with h0 | h0
        · exact Or.inl h0
        · right
          intro a
          simp only [Function.update_apply]
          split
          · simp
          · exact h0 a
    · exact ⟨h, by simp⟩

theorem inv_init (k : Kind) : Inv k init := ⟨by simp [init], by simp [init], by simp [init], by simp [init]⟩

theorem run_inv {k : Kind} (l : List Ev) (s : St) (h : Inv k s) (hc : Careful k s l) (hz : NotZero k l) :
    Inv k (run k s l).1 ∧ ∀ x ∈ (run k s l).2, x.target = x.actor := by
  induction l generalizing s with
  | nil => exact ⟨h, by simp [run]⟩
  | cons e l ih =>
    have hz1 : k = .uds ∨ ∀ c, e ≠ .accept c 0 := by
      rcases hz with hz | hz
      · exact Or.inl hz
      · exact Or.inr (fun c he => hz c (by rw [he]; simp))
    have hz2 : NotZero k l := by
      rcases hz with hz | hz
      · exact Or.inl hz
      · exact Or.inr (fun c he => hz c (List.mem_cons_of_mem _ he))
    obtain ⟨h1, h2⟩ := step_inv h e hc.1 hz1
    obtain ⟨h3, h4⟩ := ih _ h1 hc.2 hz2
    refine ⟨h3, fun x hx => ?_⟩
    simp only [run, List.mem_append] at hx
    rcases hx with hx | hx
    · exact h2 x hx
    · exact h4 x hx

/-- Without a close by the user a task that runs has its connection open, so the system gives no number out that it has. -/
structure Open (s : St) : Prop where
  opened : ∀ c fd, s.task c = .run fd → s.conn fd = some c

theorem step_open {k : Kind} {s : St} (h : Inv k s) (ho : Open s) (e : Ev) (hn : ∀ c, e ≠ .close c) (hz : k = .uds ∨ ∀ c, e ≠ .accept c 0) :
    (step k s e).1 = s ∨ ((∀ c fd, e = .accept c fd → ∀ d, s.task d ≠ .run fd) ∧ Open (step k s e).1) := by
  cases e with
  | accept c fd =>
    simp only [step]
    split
    · rename_i hg
      right
      have hno : ∀ d, s.task d ≠ .run fd := fun d hd => by have := ho.opened d fd hd; rw [hg.2] at this; simp at this
      refine ⟨fun c' fd' he d => by injection he with h1 h2; rw [← h2]; exact hno d, ⟨fun a g ha => ?_⟩⟩
      simp only [Function.update_apply] at ha ⊢
      split at ha
      · rename_i he; injection ha with ha; subst ha; subst he; simp
      · have : g ≠ fd := fun he => hno a (by rw [← he]; exact ha)
        rw [if_neg this]; exact ho.opened a g ha
    · exact Or.inl rfl
  | use c => left; simp only [step]; split <;> rfl
  | close c => exact absurd rfl (hn c)
  | ret c =>
    simp only [step]
    split
    · rename_i fd hp
      right
      refine ⟨by simp, ⟨fun a g ha => ?_⟩⟩
      have hk : k = .uds ∨ fd ≠ 0 := by
        rcases h.zero with h0 | h0
        · exact Or.inl h0
        · exact Or.inr (fun he => h0 c (by rw [← he]; exact hp))
      rw [closer_of hk]
      simp only [Function.update_apply] at ha ⊢
      split at ha
      · simp at ha
      · rename_i hne
        rw [if_neg]
        · exact ho.opened a g ha
        · intro he; subst he; exact hne (h.uniq a c _ ha hp)
    · exact Or.inl rfl

theorem run_open {k : Kind} (l : List Ev) (s : St) (h : Inv k s) (ho : Open s) (hn : NoClose l) (hz : NotZero k l) :
    Inv k (run k s l).1 ∧ Open (run k s l).1 ∧ ∀ x ∈ (run k s l).2, x.target = x.actor := by
  induction l generalizing s with
  | nil => exact ⟨h, ho, by simp [run]⟩
  | cons e l ih =>
    have hz1 : k = .uds ∨ ∀ c, e ≠ .accept c 0 := by
      rcases hz with hz | hz
      · exact Or.inl hz
      · exact Or.inr (fun c he => hz c (by rw [he]; simp))
    have hz2 : NotZero k l := by
      rcases hz with hz | hz
      · exact Or.inl hz
      · exact Or.inr (fun c he => hz c (List.mem_cons_of_mem _ he))
    have hn2 : NoClose l := fun c hm => hn c (List.mem_cons_of_mem _ hm)
    have hne : ∀ c, e ≠ .close c := fun c he => hn c (by rw [he]; simp)
    have hhits : ∀ x ∈ (step k s e).2, x.target = x.actor := by
      cases e with
      | accept c fd => simp only [step]; split <;> simp
      | use c => exact (step_inv h (.use c) (by simp) (by simp)).2
      | close c => exact absurd rfl (hne c)
      | ret c => exact (step_inv h (.ret c) (by simp) (by simp)).2
    have key : Inv k (step k s e).1 ∧ Open (step k s e).1 := by
      rcases step_open h ho e hne hz1 with he | ⟨hc, ho'⟩
      · rw [he]; exact ⟨h, ho⟩
      · exact ⟨(step_inv h e hc hz1).1, ho'⟩
    obtain ⟨h3, h4, h5⟩ := ih _ key.1 key.2 hn2 hz2
    refine ⟨h3, h4, fun x hx => ?_⟩
    simp only [run, List.mem_append] at hx
    rcases hx with hx | hx
    · exact hhits x hx
    · exact h5 x hx

/-! ## C245 -/

/-- If no function closes its connection: each uses and closes only its own, which is open exactly as long as the function runs.  Missing:
functions that close the connection, and number 0. -/
theorem own_connection_partial (k : Kind) (l : List Ev) (hn : NoClose l) (hz : NotZero k l) :
    (∀ x ∈ (run k init l).2, x.target = x.actor) ∧
      ∀ c fd, (run k init l).1.conn fd = some c ↔ (run k init l).1.task c = .run fd := by
  obtain ⟨h1, h2, h3⟩ := run_open l init (inv_init k) ⟨by simp [init]⟩ hn hz
  exact ⟨h3, fun c fd => ⟨h1.run fd c, h2.opened c fd⟩⟩

/-- Two connections one after the other under the same number beside a third. -/
def twice : List Ev := [.accept 0 5, .use 0, .accept 1 6, .ret 0, .accept 2 5, .use 2, .use 1, .ret 2]

example : NoClose twice ∧ NotZero .tls twice :=
  ⟨fun c => by simp [twice], Or.inr fun c => by simp [twice]⟩

example : (run .tls init twice).2 = [⟨0, 0⟩, ⟨0, 0⟩, ⟨2, 2⟩, ⟨1, 1⟩, ⟨2, 2⟩] := by decide

/-- The same with functions that close, if the number is not given out before the function ends.  Missing: the other case. -/
theorem closes_itself_partial (k : Kind) (l : List Ev) (hc : Careful k init l) (hz : NotZero k l) :
    (∀ x ∈ (run k init l).2, x.target = x.actor) ∧
      ∀ c fd, (run k init l).1.conn fd = some c → (run k init l).1.task c = .run fd := by
  obtain ⟨h1, h2⟩ := run_inv l init (inv_init k) hc hz
  exact ⟨h2, fun c fd => h1.run fd c⟩

example : Careful .tls init [.accept 0 5, .use 0, .close 0, .ret 0, .accept 1 5, .use 1] := by
  refine ⟨by simp [init], by simp, by simp, by simp, ?_, by simp, trivial⟩
  intro c fd _ d
  simp [step, init, Function.update_apply]
  split <;> simp

/-- A function that closes its connection and goes on while another connection is accepted under the number, the first free one: the end of
the first closes the second connection, whose function goes on using a closed number. -/
theorem closes_other (k : Kind) (s : St) (c d fd : Nat) (hcd : c ≠ d) (hfd : fd ≠ 0) (hc : s.task c = .none) (hd : s.task d = .none)
    (hfree : s.conn fd = none) :
    (run k s [.accept c fd, .close c, .accept d fd, .ret c]).2 = [⟨c, c⟩, ⟨c, d⟩] ∧
      (run k s [.accept c fd, .close c, .accept d fd, .ret c]).1.task d = .run fd ∧
      (run k s [.accept c fd, .close c, .accept d fd, .ret c]).1.conn fd = none := by
  have hdc : d ≠ c := fun h => hcd h.symm
  have hcl : ∀ conn, closer k conn fd = (Function.update conn fd none, conn fd) := fun conn => closer_of (Or.inr hfd)
  simp [run, step, hc, hd, hfree, hcd, hdc, hcl, hit]

/-- Also what the function writes after its own close goes to the other connection. -/
theorem writes_to_other (k : Kind) (s : St) (c d fd : Nat) (hcd : c ≠ d) (hc : s.task c = .none) (hd : s.task d = .none)
    (hfree : s.conn fd = none) :
    (run k s [.accept c fd, .close c, .accept d fd, .use c]).2 = [⟨c, c⟩, ⟨c, d⟩] := by
  have hdc : d ≠ c := fun h => hcd h.symm
  simp [run, step, hc, hd, hfree, hcd, hdc, hit]

example : init.task 0 = .none ∧ init.task 1 = .none ∧ init.conn 5 = none := ⟨rfl, rfl, rfl⟩

/-- A connection under number 0 stays open after its function has ended, whatever happens then, except with the handler for unix sockets. -/
theorem zero_stays_open (k : Kind) (hk : k ≠ .uds) (s : St) (c : Nat) (h0 : s.task c = .run 0) (hc : s.conn 0 = some c)
    (hu : ∀ d, s.task d = .run 0 → d = c) (l : List Ev) :
    (run k s (.ret c :: l)).1.conn 0 = some c := by
  have keep : ∀ (l : List Ev) (s : St), s.conn 0 = some c → (∀ d, s.task d ≠ .run 0) → (run k s l).1.conn 0 = some c := by
    intro l
    induction l with
    | nil => intro s h _; exact h
    | cons e l ih =>
      intro s h hn
      simp only [run]
      refine ih _ ?_ ?_
      · cases e with
        | accept a g =>
          simp only [step]
          split
          · rename_i hg
            simp only [Function.update_apply]
            rw [if_neg]
            · exact h
            · intro he; rw [← he, h] at hg; simp at hg
          · exact h
        | use a => simp only [step]; split <;> exact h
        | close a =>
          simp only [step]
          split
          · rename_i fd hp
            simp only [Function.update_apply]
            rw [if_neg]
            · exact h
            · intro he; rw [← he] at hp; exact hn a hp
          · exact h
        | ret a =>
          simp only [step]
          split
          · rename_i fd hp
            have : fd ≠ 0 := fun he => hn a (by rw [← he]; exact hp)
            rw [closer_of (Or.inr this)]
            simp only [Function.update_apply]
            rw [if_neg (fun he => this he.symm)]
            exact h
          · exact h
      · intro d
        cases e with
        | accept a g =>
          simp only [step]
          split
          · rename_i hg
            simp only [Function.update_apply]
            split
            · intro he; injection he with he; subst he; rw [h] at hg; simp at hg
            · exact hn d
          · exact hn d
        | use a => simp only [step]; split <;> exact hn d
        | close a => simp only [step]; split <;> exact hn d
        | ret a =>
          simp only [step]
          split
          · simp only [Function.update_apply]
            split
            · simp
            · exact hn d
          · exact hn d
  simp only [run]
  refine keep l _ ?_ ?_
  · simp only [step, h0]
    cases k <;> simp_all [closer]
  · intro d
    simp only [step, h0, Function.update_apply]
    split
    · simp
    · rename_i hne; exact fun hd => hne (hu d hd)

example : (run .accept init [.accept 3 0, .ret 3, .accept 4 1, .ret 4]).1.conn 0 = some 3 ∧
    (run .uds init [.accept 3 0, .ret 3]).1.conn 0 = none := by decide

end Verif.Io.Handlers
