import Mathlib.Logic.Function.Basic
import Mathlib.Data.List.Basic

/-!
# Closing a secure connection while another thread accepts one (`src/async_tls.c` 1106-1119), C244

`tls_closer` ends the TLS object of a connection, then closes the descriptor, then empties the field `tls` of the descriptor's entry in the
table, which all threads share.  After the second of these the system may give the number to a connection accepted in another thread.

Simplified: the three reads of the field by `tls_closer` before the descriptor is closed (1111-1113) are one step; the closing of a connection
without a TLS object (1117) is one step; the handshake succeeds and is one step with the making of the object; a TLS object is
named by the connection it was made for; descriptor 0 is not used (`tls_closer` leaves it alone).
-/

namespace Verif.Tls.CloseRace

/-- Where a connection is: accepted under a number, with a TLS object, object freed (after line 1113), descriptor closed (after 1114), finished. -/
inductive Phase
  | unborn
  | plain (fd : Nat)
  | secure (fd : Nat)
  | freed (fd : Nat)
  | closed (fd : Nat)
  | gone
  deriving DecidableEq, Repr

/-- The descriptor of a connection that the system has open. -/
def Phase.held : Phase → Option Nat
  | .plain fd => some fd
  | .secure fd => some fd
  | .freed fd => some fd
  | _ => none

/-- The field `tls` of the entries (`events_target(fd)->tls`), the TLS objects not yet freed, and the connections. -/
structure St where
  tls : Nat → Option Nat
  live : Nat → Bool
  phase : Nat → Phase

def init : St := ⟨fun _ => none, fun _ => false, fun _ => .unborn⟩

inductive Ev
  | accept (c fd : Nat)
  | secure (c : Nat)
  | free (c : Nat)
  | close (c : Nat)
  | clear (c : Nat)
  | drop (c : Nat)
  deriving DecidableEq, Repr

def St.put (s : St) (c : Nat) (p : Phase) : St := { s with phase := Function.update s.phase c p }

open Classical in
/-- One step of one of the threads; a step that is not the connection's turn changes nothing; `none` is a use of a freed TLS object.
* `accept`: the system gives a number that no open connection has, `async_accept` of src/async_io.c.
* `secure`: `tls_accept_socket(starget->tls, &ctarget->tls, socket)`, src/async_tls.c:977, or the same for `tls_client()`, 1010.
* `free`: `tls_closer` up to `tls_free`, 1111-1113, or all of it if the field is null, 1116-1118.
* `close`: line 1114.
* `clear`: line 1115.
* `drop`: the program calls `close` for the connection, `os_close` of src/os_unix.c:347-360, which leaves the field alone. -/
noncomputable def step (s : St) : Ev → Option St
  | .accept c fd =>
    if s.phase c = .unborn ∧ ∀ d, (s.phase d).held ≠ some fd then some (s.put c (.plain fd)) else some s
  | .secure c =>
    match s.phase c with
    | .plain fd => some { s.put c (.secure fd) with
        tls := Function.update s.tls fd (some c)
        live := Function.update s.live c true }
    | _ => some s
  | .free c =>
    match s.phase c with
    | .plain fd | .secure fd =>
      match s.tls fd with
      | none => some (s.put c .gone)
      | some d => if s.live d then some { s.put c (.freed fd) with live := Function.update s.live d false } else none
    | _ => some s
  | .close c =>
    match s.phase c with
    | .freed fd => some (s.put c (.closed fd))
    | _ => some s
  | .clear c =>
    match s.phase c with
    | .closed fd => some { s.put c .gone with tls := Function.update s.tls fd none }
    | _ => some s
  | .drop c =>
    match s.phase c with
    | .plain _ | .secure _ => some (s.put c .gone)
    | _ => some s

noncomputable def run (s : St) (l : List Ev) : Option St := l.foldlM step s

/-- What `tls_reader` and `tls_writer` do with the connection's descriptor, async_tls.c:1128-1133 and 1152-1159: the descriptor is read and
written as it is, or through the TLS object of a connection, or through a freed one. -/
inductive Use
  | clearText
  | through (c : Nat)
  | freed
  deriving DecidableEq, Repr

def use (s : St) (fd : Nat) : Use :=
  match s.tls fd with
  | none => .clearText
  | some d => if s.live d then .through d else .freed

/-! ## Specification -/

/-- No number is given out again between the close and the emptying of the field, and secure connections are closed with `tls_closer`. -/
def Careful : St → List Ev → Prop
  | _, [] => True
  | s, e :: l =>
    (∀ c fd, e = .accept c fd → ∀ d, s.phase d ≠ .closed fd) ∧ (∀ c fd, e = .drop c → s.phase c ≠ .secure fd) ∧ ∀ s', step s e = some s' → Careful s' l

/-- What a program in a single thread does: `tls_closer` runs as a whole. -/
inductive Op
  | accept (c fd : Nat)
  | secure (c : Nat)
  | closer (c : Nat)
  deriving DecidableEq, Repr

def Op.evs : Op → List Ev
  | .accept c fd => [.accept c fd]
  | .secure c => [.secure c]
  | .closer c => [.free c, .close c, .clear c]

/-! ## Invariant -/

/-- The number a connection has or has in mind. -/
def Phase.fd : Phase → Option Nat
  | .plain fd => some fd
  | .secure fd => some fd
  | .freed fd => some fd
  | .closed fd => some fd
  | _ => none

structure Inv (s : St) : Prop where
  uniq : ∀ c d fd, (s.phase c).fd = some fd → (s.phase d).fd = some fd → c = d
  plain : ∀ c fd, s.phase c = .plain fd → s.tls fd = none
  secure : ∀ c fd, s.phase c = .secure fd → s.tls fd = some c ∧ s.live c = true
  rest : ∀ fd, (∀ c, (s.phase c).fd ≠ some fd) → s.tls fd = none

theorem inv_init : Inv init := ⟨by simp [init, Phase.fd], by simp [init], by simp [init], by simp [init]⟩

theorem held_fd {p : Phase} {fd : Nat} (h : p.held = some fd) : p.fd = some fd := by
  cases p <;> simp_all [Phase.held, Phase.fd]

theorem fd_held {p : Phase} {fd : Nat} (h : p.fd = some fd) : p.held = some fd ∨ p = .closed fd := by
  cases p <;> simp_all [Phase.held, Phase.fd]

theorem step_inv {s : St} (h : Inv s) (e : Ev) (hc : ∀ c fd, e = .accept c fd → ∀ d, s.phase d ≠ .closed fd)
    (hd : ∀ c fd, e = .drop c → s.phase c ≠ .secure fd) :
    ∃ s', step s e = some s' ∧ Inv s' := by
  -- a connection that is finished at once
  have hgone : ∀ c fd, (s.phase c).fd = some fd → s.tls fd = none → Inv (s.put c .gone) := by
    intro c fd hfd ht
    refine ⟨?_, ?_, ?_, ?_⟩
    · intro a b g ha hb
      simp only [St.put, Function.update_apply] at ha hb
      split at ha
      · simp [Phase.fd] at ha
      · split at hb
        · simp [Phase.fd] at hb
        · exact h.uniq a b g ha hb
    · intro a g ha
      simp only [St.put, Function.update_apply] at ha
      split at ha
      · simp at ha
      · exact h.plain a g ha
    · intro a g ha
      simp only [St.put, Function.update_apply] at ha
      split at ha
      · simp at ha
      · exact h.secure a g ha
    · intro g hg
      show s.tls g = none
      by_cases hgf : g = fd
      · rw [hgf]; exact ht
      · refine h.rest g (fun a ha => ?_)
        have := hg a
        simp only [St.put, Function.update_apply] at this
        split at this
        · rename_i he; subst he; rw [hfd] at ha; injection ha with ha; exact hgf ha.symm
        · exact this ha
  cases e with
  | drop c =>
    simp only [step]
    split
    · rename_i fd hp
      exact ⟨_, rfl, hgone c fd (by rw [hp]; rfl) (h.plain c fd hp)⟩
    · rename_i fd hp
      exact absurd hp (hd c fd rfl)
    · exact ⟨s, rfl, h⟩
  | accept c fd =>
    simp only [step]
    split
    · rename_i hg
      obtain ⟨hu, hf⟩ := hg
      have hno : ∀ d, (s.phase d).fd ≠ some fd := by
        intro d hd
        rcases fd_held hd with h1 | h1
        · exact hf d h1
        · exact hc c fd rfl d h1
      refine ⟨_, rfl, ⟨?_, ?_, ?_, ?_⟩⟩
      · intro a b g ha hb
        simp only [St.put, Function.update_apply] at ha hb
        split at ha <;> split at hb
        · rename_i h1 h2; rw [h1, h2]
        · simp only [Phase.fd, Option.some.injEq] at ha; subst ha; exact absurd hb (hno b)
        · simp only [Phase.fd, Option.some.injEq] at hb; subst hb; exact absurd ha (hno a)
        · exact h.uniq a b g ha hb
      · intro a g ha
        simp only [St.put, Function.update_apply] at ha
        split at ha
        · injection ha with ha; subst ha; exact h.rest _ hno
        · exact h.plain a g ha
      · intro a g ha
        simp only [St.put, Function.update_apply] at ha
        split at ha
        · simp at ha
        · exact h.secure a g ha
      · intro g hg
        refine h.rest g (fun a ha => ?_)
        have := hg a
        simp only [St.put, Function.update_apply] at this
        split at this
        · rename_i he; subst he; rw [hu] at ha; simp [Phase.fd] at ha
        · exact this ha
    · exact ⟨s, rfl, h⟩
  | secure c =>
    simp only [step]
    split
    · rename_i fd hp
      have hcfd : (s.phase c).fd = some fd := by rw [hp]; rfl
      refine ⟨_, rfl, ⟨?_, ?_, ?_, ?_⟩⟩
      · intro a b g ha hb
        simp only [St.put, Function.update_apply] at ha hb
        split at ha <;> split at hb
        · rename_i h1 h2; rw [h1, h2]
        · rename_i h1 _; subst h1; simp only [Phase.fd, Option.some.injEq] at ha; subst ha; exact h.uniq _ _ _ hcfd hb
        · rename_i _ h1; subst h1; simp only [Phase.fd, Option.some.injEq] at hb; subst hb; exact h.uniq _ _ _ ha hcfd
        · exact h.uniq a b g ha hb
      · intro a g ha
        simp only [St.put, Function.update_apply] at ha ⊢
        split at ha
        · simp at ha
        · rename_i hne
          rw [if_neg]
          · exact h.plain a g ha
          · intro he; subst he
            exact hne (h.uniq a c _ (by rw [ha]; rfl) hcfd)
      · intro a g ha
        simp only [St.put, Function.update_apply] at ha ⊢
        split at ha
        · rename_i he; subst he; injection ha with ha; subst ha; simp
        · rename_i hne
          rw [if_neg, if_neg hne]
          · exact h.secure a g ha
          · intro he; subst he
            exact hne (h.uniq a c _ (by rw [ha]; rfl) hcfd)
      · intro g hg
        simp only [Function.update_apply]
        have hgf : g ≠ fd := by
          intro he; subst he
          have := hg c
          simp [St.put, Phase.fd] at this
        rw [if_neg hgf]
        refine h.rest g (fun a ha => ?_)
        have := hg a
        simp only [St.put, Function.update_apply] at this
        split at this
        · rename_i he; subst he; rw [hp] at ha; simp only [Phase.fd, Option.some.injEq] at ha; exact hgf ha.symm
        · exact this ha
    · exact ⟨s, rfl, h⟩
  | free c =>
    simp only [step]
    split
    · rename_i fd hp
      have ht := h.plain c fd hp
      rw [ht]
      exact ⟨_, rfl, hgone c fd (by rw [hp]; rfl) ht⟩
    · rename_i fd hp
      obtain ⟨ht, hl⟩ := h.secure c fd hp
      have hcfd : (s.phase c).fd = some fd := by rw [hp]; rfl
      rw [ht]
      simp only [hl, if_true]
      refine ⟨_, rfl, ⟨?_, ?_, ?_, ?_⟩⟩
      · intro a b g ha hb
        simp only [St.put, Function.update_apply] at ha hb
        split at ha <;> split at hb
        · rename_i h1 h2; rw [h1, h2]
        · rename_i h1 _; subst h1; simp only [Phase.fd, Option.some.injEq] at ha; subst ha; exact h.uniq _ _ _ hcfd hb
        · rename_i _ h1; subst h1; simp only [Phase.fd, Option.some.injEq] at hb; subst hb; exact h.uniq _ _ _ ha hcfd
        · exact h.uniq a b g ha hb
      · intro a g ha
        simp only [St.put, Function.update_apply] at ha
        split at ha
        · simp at ha
        · exact h.plain a g ha
      · intro a g ha
        simp only [St.put, Function.update_apply] at ha ⊢
        split at ha
        · simp at ha
        · rename_i hne
          rw [if_neg hne]
          exact h.secure a g ha
      · intro g hg
        refine h.rest g (fun a ha => ?_)
        have := hg a
        simp only [St.put, Function.update_apply] at this
        split at this
        · rename_i he; subst he; rw [hcfd] at ha; exact this ha
        · exact this ha
    · exact ⟨s, rfl, h⟩
  | close c =>
    simp only [step]
    split
    · rename_i fd hp
      have hcfd : (s.phase c).fd = some fd := by rw [hp]; rfl
      refine ⟨_, rfl, ⟨?_, ?_, ?_, ?_⟩⟩
      · intro a b g ha hb
        simp only [St.put, Function.update_apply] at ha hb
        split at ha <;> split at hb
        · rename_i h1 h2; rw [h1, h2]
        · rename_i h1 _; subst h1; simp only [Phase.fd, Option.some.injEq] at ha; subst ha; exact h.uniq _ _ _ hcfd hb
        · rename_i _ h1; subst h1; simp only [Phase.fd, Option.some.injEq] at hb; subst hb; exact h.uniq _ _ _ ha hcfd
        · exact h.uniq a b g ha hb
      · intro a g ha
        simp only [St.put, Function.update_apply] at ha
        split at ha
        · simp at ha
        · exact h.plain a g ha
      · intro a g ha
        simp only [St.put, Function.update_apply] at ha
        split at ha
        · simp at ha
        · exact h.secure a g ha
      · intro g hg
        refine h.rest g (fun a ha => ?_)
        have := hg a
        simp only [St.put, Function.update_apply] at this
        split at this
        · rename_i he; subst he; rw [hcfd] at ha; exact this ha
        · exact this ha
    · exact ⟨s, rfl, h⟩
  | clear c =>
    simp only [step]
    split
    · rename_i fd hp
      have hcfd : (s.phase c).fd = some fd := by rw [hp]; rfl
      refine ⟨_, rfl, ⟨?_, ?_, ?_, ?_⟩⟩
      · intro a b g ha hb
        simp only [St.put, Function.update_apply] at ha hb
        split at ha
        · simp [Phase.fd] at ha
        · split at hb
          · simp [Phase.fd] at hb
          · exact h.uniq a b g ha hb
      · intro a g ha
        simp only [St.put, Function.update_apply] at ha ⊢
        split at ha
        · simp at ha
        · split
          · rfl
          · exact h.plain a g ha
      · intro a g ha
        simp only [St.put, Function.update_apply] at ha ⊢
        split at ha
        · simp at ha
        · rename_i hne
          rw [if_neg]
          · exact h.secure a g ha
          · intro he; subst he
            exact hne (h.uniq a c _ (by rw [ha]; rfl) hcfd)
      · intro g hg
        simp only [Function.update_apply]
        split
        · rfl
        · rename_i hgf
          refine h.rest g (fun a ha => ?_)
          have := hg a
          simp only [St.put, Function.update_apply] at this
          split at this
          · rename_i he; subst he; rw [hcfd] at ha; injection ha with ha; exact hgf ha.symm
          · exact this ha
    · exact ⟨s, rfl, h⟩

theorem run_cons (s : St) (e : Ev) (l : List Ev) : run s (e :: l) = (step s e).bind fun s' => run s' l := rfl

theorem run_inv (l : List Ev) (s : St) (h : Inv s) (hc : Careful s l) : ∃ s', run s l = some s' ∧ Inv s' := by
  induction l generalizing s with
  | nil => exact ⟨s, rfl, h⟩
  | cons e l ih =>
    obtain ⟨s1, he, h1⟩ := step_inv h e hc.1 hc.2.1
    obtain ⟨s2, h2, h3⟩ := ih s1 h1 (hc.2.2 s1 he)
    exact ⟨s2, by rw [run_cons, he]; exact h2, h3⟩

/-! ## C244 -/

/-- No freed object is used, each secure connection is read and written through its own TLS object and each other one in clear text, whatever
the threads do in whatever order, as long as no number is given out again between close and emptying.  Secure
connections are closed with `tls_closer`, others in any way.  Missing: the rest. -/
theorem own_object_partial (l : List Ev) (hc : Careful init l) :
    ∃ s, run init l = some s ∧ (∀ c fd, s.phase c = .secure fd → use s fd = .through c) ∧
      ∀ c fd, s.phase c = .plain fd → use s fd = .clearText := by
  obtain ⟨s, hs, h⟩ := run_inv l init inv_init hc
  refine ⟨s, hs, fun c fd hp => ?_, fun c fd hp => ?_⟩
  · obtain ⟨h1, h2⟩ := h.secure c fd hp
    simp [use, h1, h2]
  · simp [use, h.plain c fd hp]

/-- A step that is defined, as a function on what matters. -/
theorem step_accept {s : St} {c fd : Nat} (h : s.phase c = .unborn) (hf : ∀ d, (s.phase d).held ≠ some fd) :
    step s (.accept c fd) = some (s.put c (.plain fd)) := by
  simp only [step]; rw [if_pos ⟨h, hf⟩]

theorem careful_cons {s s' : St} {e : Ev} {l : List Ev} (h : step s e = some s')
    (hc : ∀ c fd, e = .accept c fd → ∀ d, s.phase d ≠ .closed fd) (hl : Careful s' l)
    (hd : ∀ c fd, e = .drop c → s.phase c ≠ .secure fd := by simp) : Careful s (e :: l) :=
  ⟨hc, hd, fun t ht => by rw [h] at ht; injection ht with ht; rw [← ht]; exact hl⟩

/-- Two threads; the second gets the number of the first one's connection as soon as the field is empty. -/
example : Careful init [.accept 0 5, .secure 0, .accept 2 6, .free 0, .secure 2, .close 0, .clear 0, .accept 1 5, .secure 1] := by
  refine careful_cons (step_accept rfl (by simp [init, Phase.held])) (by simp [init]) ?_
  refine careful_cons (by simp only [step, St.put, Function.update_self]; rfl) (by simp) ?_
  refine careful_cons (step_accept (by simp [init]) ?_) ?_ ?_
  · intro d; simp only [Function.update_apply]; repeat' split
    all_goals simp_all [init, Phase.held]
  · intro c fd _ d; simp only [Function.update_apply]; repeat' split
    all_goals simp_all [init]
  refine careful_cons (by simp [step, St.put]; rfl) (by simp) ?_
  refine careful_cons (by simp [step, St.put]; rfl) (by simp) ?_
  refine careful_cons (by simp [step, St.put]; rfl) (by simp) ?_
  refine careful_cons (by simp [step, St.put]; rfl) (by simp) ?_
  refine careful_cons (step_accept (by simp [init]) ?_) ?_ ?_
  · intro d; simp only [Function.update_apply]; repeat' split
    all_goals simp_all [init, Phase.held]
  · intro c fd _ d; simp only [Function.update_apply]; repeat' split
    all_goals simp_all [init]
  exact careful_cons (by simp [step, St.put]; rfl) (by simp) trivial

/-- A program in a single thread: nothing is given out in between. -/
theorem none_closed_ops (ops : List Op) (s : St) (h : Inv s) (hn : ∀ d fd, s.phase d ≠ .closed fd) :
    ∃ s', run s (ops.flatMap Op.evs) = some s' ∧ Inv s' ∧ ∀ d fd, s'.phase d ≠ .closed fd := by
  have one : ∀ (e : Ev) (s : St), Inv s → (∀ d fd, s.phase d ≠ .closed fd) → (∀ c, e ≠ .close c) → (∀ c, e ≠ .drop c) →
      ∃ s', step s e = some s' ∧ Inv s' ∧ ∀ d fd, s'.phase d ≠ .closed fd := by
    intro e s h hn hne hnd
    obtain ⟨s', he, h'⟩ := step_inv h e (fun c fd _ d => hn d fd) (fun c fd he => absurd he (hnd c))
    refine ⟨s', he, h', fun d fd => ?_⟩
    have key : ∀ (c : Nat) (p : Phase), (∀ g, p ≠ .closed g) → (s.put c p).phase d ≠ .closed fd := by
      intro c p hp
      simp only [St.put, Function.update_apply]
      split
      · exact hp fd
      · exact hn d fd
    cases e with
    | accept c g =>
      simp only [step] at he
      split at he <;> injection he with he <;> subst he
      · exact key c _ (by simp)
      · exact hn d fd
    | secure c =>
      simp only [step] at he
      split at he <;> injection he with he <;> subst he
      · exact key c _ (by simp)
      · exact hn d fd
    | free c =>
      simp only [step] at he
      split at he
      · split at he
        · injection he with he; subst he; exact key c _ (by simp)
        · split at he
          · injection he with he; subst he; exact key c _ (by simp)
          · simp at he
      · split at he
        · injection he with he; subst he; exact key c _ (by simp)
        · split at he
          · injection he with he; subst he; exact key c _ (by simp)
          · simp at he
      · injection he with he; subst he; exact hn d fd
    | close c => exact absurd rfl (hne c)
    | drop c => exact absurd rfl (hnd c)
    | clear c =>
      simp only [step] at he
      split at he <;> injection he with he <;> subst he
      · exact key c _ (by simp)
      · exact hn d fd
  induction ops generalizing s with
  | nil => exact ⟨s, rfl, h, hn⟩
  | cons o ops ih =>
    cases o with
    | accept c fd =>
      obtain ⟨s1, h1, h2, h3⟩ := one (.accept c fd) s h hn (by simp) (by simp)
      obtain ⟨s2, h4, h5⟩ := ih s1 h2 h3
      exact ⟨s2, by simp only [List.flatMap_cons, Op.evs, List.cons_append, List.nil_append]; rw [run_cons, h1]; exact h4, h5⟩
    | secure c =>
      obtain ⟨s1, h1, h2, h3⟩ := one (.secure c) s h hn (by simp) (by simp)
      obtain ⟨s2, h4, h5⟩ := ih s1 h2 h3
      exact ⟨s2, by simp only [List.flatMap_cons, Op.evs, List.cons_append, List.nil_append]; rw [run_cons, h1]; exact h4, h5⟩
    | closer c =>
      obtain ⟨s1, h1, h2, h3⟩ := one (.free c) s h hn (by simp) (by simp)
      obtain ⟨s2, h4, h5⟩ := step_inv h2 (.close c) (by simp) (by simp)
      obtain ⟨s3, h6, h7⟩ := step_inv h5 (.clear c) (by simp) (by simp)
      have h8 : ∀ d fd, s3.phase d ≠ .closed fd := by
        intro d fd
        simp only [step] at h4
        split at h4
        · injection h4 with h4; subst h4
          have hp : (s1.put c (.closed ‹Nat›)).phase c = .closed ‹Nat› := by simp [St.put]
          simp only [step, hp] at h6
          injection h6 with h6; subst h6
          simp only [St.put, Function.update_apply]
          split
          · simp
          · exact h3 d fd
        · injection h4 with h4; subst h4
          simp only [step] at h6
          split at h6
          · rename_i g hg; exact absurd hg (h3 c g)
          · injection h6 with h6; subst h6; exact h3 d fd
      obtain ⟨s4, h9, h10⟩ := ih s3 h7 h8
      refine ⟨s4, ?_, h10⟩
      simp only [List.flatMap_cons, Op.evs, List.cons_append, List.nil_append]
      rw [run_cons, h1]; simp only [Option.bind_some]
      rw [run_cons, h4]; simp only [Option.bind_some]
      rw [run_cons, h6]; exact h9

/-- In a single thread every program is right, with all reuses of numbers. -/
theorem single_thread (ops : List Op) :
    ∃ s, run init (ops.flatMap Op.evs) = some s ∧ (∀ c fd, s.phase c = .secure fd → use s fd = .through c) ∧
      ∀ c fd, s.phase c = .plain fd → use s fd = .clearText := by
  obtain ⟨s, hs, h, -⟩ := none_closed_ops ops init inv_init (by simp [init])
  refine ⟨s, hs, fun c fd hp => ?_, fun c fd hp => ?_⟩
  · obtain ⟨h1, h2⟩ := h.secure c fd hp
    simp [use, h1, h2]
  · simp [use, h.plain c fd hp]

/-- A number used by three connections one after the other, the third of them not secure. -/
example (s : St) (h : run init ([.accept 0 5, .secure 0, .closer 0, .accept 1 5, .secure 1, .closer 1, .accept 2 5].flatMap Op.evs) = some s) :
    s.phase 2 = .plain 5 := by
  simp only [List.flatMap_cons, List.flatMap_nil, Op.evs, List.cons_append, List.nil_append] at h
  rw [run_cons, step_accept rfl (by simp [init, Phase.held])] at h
  simp only [Option.bind_some] at h
  rw [run_cons] at h; simp only [step, St.put, Function.update_self, Option.bind_some] at h
  rw [run_cons] at h; simp only [step, St.put, Function.update_self, Option.bind_some, if_true] at h
  rw [run_cons] at h; simp only [step, St.put, Function.update_self, Option.bind_some] at h
  rw [run_cons] at h; simp only [step, St.put, Function.update_self, Option.bind_some] at h
  rw [run_cons, step_accept (by simp [init])] at h
  · simp only [Option.bind_some] at h
    rw [run_cons] at h; simp only [step, St.put, Function.update_self, Option.bind_some] at h
    rw [run_cons] at h; simp only [step, St.put, Function.update_self, Option.bind_some, if_true] at h
    rw [run_cons] at h; simp only [step, St.put, Function.update_self, Option.bind_some] at h
    rw [run_cons] at h; simp only [step, St.put, Function.update_self, Option.bind_some] at h
    rw [run_cons, step_accept (by simp [init])] at h
    · injection h with h; subst h; simp [St.put]
    · intro d; simp only [Function.update_apply]; repeat' split
      all_goals simp_all [init, Phase.held]
  · intro d; simp only [Function.update_apply]; repeat' split
    all_goals simp_all [init, Phase.held]

/-- The state after the closer of connection `c` has closed the descriptor `fd`. -/
theorem until_closed (c fd : Nat) :
    run init [.accept c fd, .secure c, .free c, .close c] =
      some { (init.put c (.closed fd)) with tls := Function.update init.tls fd (some c) } := by
  have h0 : step init (.accept c fd) = some (init.put c (.plain fd)) := step_accept rfl (by simp [init, Phase.held])
  have hl : Function.update (Function.update init.live c true) c false = init.live := by
    funext x; simp [Function.update_apply, init]
  have h1 : step (init.put c (.plain fd)) (.secure c) =
      some { (init.put c (.secure fd)) with
        tls := Function.update init.tls fd (some c)
        live := Function.update init.live c true } := by
    simp [step, St.put]
  have h2 : step { (init.put c (.secure fd)) with
        tls := Function.update init.tls fd (some c)
        live := Function.update init.live c true } (.free c) =
      some { (init.put c (.freed fd)) with tls := Function.update init.tls fd (some c) } := by
    simp [step, St.put, hl]
  have h3 : step { (init.put c (.freed fd)) with tls := Function.update init.tls fd (some c) } (.close c) =
      some { (init.put c (.closed fd)) with tls := Function.update init.tls fd (some c) } := by
    simp [step, St.put]
  rw [run_cons, h0, Option.bind_some, run_cons, h1, Option.bind_some, run_cons, h2, Option.bind_some, run_cons, h3]
  rfl

/-- Not so with two: a connection accepted and made secure under the number in between goes on in clear text. -/
theorem continues_in_clear_text (c d fd : Nat) (hcd : c ≠ d) :
    ∃ s, run init [.accept c fd, .secure c, .free c, .close c, .accept d fd, .secure d, .clear c] = some s ∧
      s.phase d = .secure fd ∧ s.live d = true ∧ use s fd = .clearText := by
  rw [show ([.accept c fd, .secure c, .free c, .close c, .accept d fd, .secure d, .clear c] : List Ev) =
      [.accept c fd, .secure c, .free c, .close c] ++ [.accept d fd, .secure d, .clear c] from rfl]
  unfold run
  rw [List.foldlM_append]
  change ∃ s, (run init _).bind (fun s => run s _) = some s ∧ _
  rw [until_closed, Option.bind_some, run_cons, step_accept, Option.bind_some]
  · have hdc : d ≠ c := fun h => hcd h.symm
    refine ⟨_, by simp [run, step, St.put, hcd]; rfl, ?_, ?_, ?_⟩ <;> simp [use, hdc]
  · simp [St.put, init, hcd.symm]
  · intro e
    simp only [St.put, Function.update_apply]
    split <;> simp [init, Phase.held]

/-- In general: whoever has the number when the closer goes on loses the TLS object. -/
theorem clear_takes_away (s : St) (c d fd : Nat) (hc : s.phase c = .closed fd) :
    ∃ s', step s (.clear c) = some s' ∧ use s' fd = .clearText ∧ (d ≠ c → s'.phase d = s.phase d) := by
  refine ⟨_, by simp only [step, hc]; rfl, by simp [use], fun h => by simp [St.put, h]⟩

/-- A connection without TLS accepted in between is read through the freed object, and its close frees that once more. -/
theorem freed_twice (c d fd : Nat) (hcd : c ≠ d) :
    (∃ s, run init [.accept c fd, .secure c, .free c, .close c, .accept d fd] = some s ∧ s.phase d = .plain fd ∧ use s fd = .freed) ∧
    run init [.accept c fd, .secure c, .free c, .close c, .accept d fd, .free d] = none := by
  have h : run init [.accept c fd, .secure c, .free c, .close c, .accept d fd] =
      some (({ (init.put c (.closed fd)) with tls := Function.update init.tls fd (some c) } : St).put d (.plain fd)) := by
    rw [show ([.accept c fd, .secure c, .free c, .close c, .accept d fd] : List Ev) =
        [.accept c fd, .secure c, .free c, .close c] ++ [.accept d fd] from rfl]
    unfold run
    rw [List.foldlM_append]
    change (run init _).bind (fun s => run s _) = _
    rw [until_closed, Option.bind_some, run_cons, step_accept]
    · rfl
    · simp [St.put, init, hcd.symm]
    · intro e
      simp only [St.put, Function.update_apply]
      split <;> simp [init, Phase.held]
  refine ⟨⟨_, h, by simp [St.put], by simp [use, St.put, init]⟩, ?_⟩
  rw [show ([.accept c fd, .secure c, .free c, .close c, .accept d fd, .free d] : List Ev) =
      [.accept c fd, .secure c, .free c, .close c, .accept d fd] ++ [.free d] from rfl]
  unfold run at h ⊢
  rw [List.foldlM_append, h]
  simp [step, St.put, init]

/-- After a plain `close` of a secure connection, also in a single thread, the next connection with the number, not a secure one, is
read and written through the TLS object of the first. -/
theorem dropped_object_used (c d fd : Nat) (hcd : c ≠ d) :
    ∃ s, run init [.accept c fd, .secure c, .drop c, .accept d fd] = some s ∧ s.phase c = .gone ∧ s.phase d = .plain fd ∧
      use s fd = .through c := by
  have h0 : step init (.accept c fd) = some (init.put c (.plain fd)) := step_accept rfl (by simp [init, Phase.held])
  have h1 : step (init.put c (.plain fd)) (.secure c) =
      some { (init.put c (.secure fd)) with
        tls := Function.update init.tls fd (some c)
        live := Function.update init.live c true } := by
    simp [step, St.put]
  have h2 : step { (init.put c (.secure fd)) with
        tls := Function.update init.tls fd (some c)
        live := Function.update init.live c true } (.drop c) =
      some { (init.put c .gone) with
        tls := Function.update init.tls fd (some c)
        live := Function.update init.live c true } := by
    simp [step, St.put]
  rw [run_cons, h0, Option.bind_some, run_cons, h1, Option.bind_some, run_cons, h2, Option.bind_some, run_cons, step_accept]
  · exact ⟨_, rfl, by simp [St.put, hcd], by simp [St.put], by simp [use, St.put]⟩
  · simp [St.put, init, hcd.symm]
  · intro e
    simp only [St.put, Function.update_apply]
    split <;> simp [init, Phase.held]

end Verif.Tls.CloseRace
