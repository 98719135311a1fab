import Mathlib.Tactic
import Verif.Basic

/-!
# Telling UNIX sockets from others (`socket_is_uds`, `uds_bind`, `uds_connect`, `uds_accept`, `async_accept`), C112

A history of descriptors: tasks make UNIX sockets and others, accept, close, open files, and end.  Which number the kernel gives is arbitrary among the free
ones.  `async_accept` asks `socket_is_uds` about the listening socket.
-/

namespace Verif.Sock.Kind

/-- `kind`: the open descriptors, `some true` for UNIX sockets; `uds`: the field of the table's entries (a record's number); `owner`: the task at whose end a
record is freed, `none` after that; `n`: records made. -/
structure St where
  kind : Nat → Option Bool
  uds : Nat → Option Nat
  owner : Nat → Option Nat
  n : Nat

def St.init : St := ⟨fun _ => none, fun _ => none, fun _ => none, 0⟩

/-- `socket_is_uds(fd)`, src/async_uds.c:59-63: the record's type is read, also if the record was freed. -/
def isUds (s : St) (fd : Nat) : Res Bool :=
  if fd = 0 then .ok false
  else match s.uds fd with
  | none => .ok false
  | some r => if (s.owner r).isSome then .ok true else .ub

inductive Op where
  /-- Task `t` makes a UNIX socket with `uds_bind` or `uds_connect`. -/
  | unix (t fd : Nat)
  /-- A network socket is made with `async_bind` or `async_connect` (TCP, UDP, TLS). -/
  | net (fd : Nat)
  /-- `uds_accept(server)`. -/
  | acceptUnix (server fd : Nat)
  /-- `async_accept(server)` (also by `tls_accept`). -/
  | accept (server fd : Nat)
  /-- A file, a pipe or any other descriptor is opened. -/
  | file (fd : Nat)
  | close (fd : Nat)
  /-- Task `t` ends: what it deferred is freed. -/
  | finish (t : Nat)
  deriving DecidableEq

/-- One operation; `fd` is the number that the kernel gives, and the operation changes nothing if it is 0 or in use.  `uds_bind`, `uds_connect` and
`uds_accept`, src/async_uds.c:4-32, with src/async_io.c:169 and 282 (`uds` is set to the record or to null) and src/async_io.c:173-207 (`async_accept` does not
set it). -/
def step (s : St) : Op → Res St
  | .unix t fd =>
    if fd = 0 ∨ s.kind fd ≠ none then .ok s
    else .ok { kind := Function.update s.kind fd (some true), uds := Function.update s.uds fd (some s.n),
               owner := Function.update s.owner s.n (some t), n := s.n + 1 }
  | .net fd =>
    if fd = 0 ∨ s.kind fd ≠ none then .ok s
    else .ok { s with kind := Function.update s.kind fd (some false), uds := Function.update s.uds fd none }
  | .acceptUnix server fd =>
    if s.kind server ≠ some true ∨ fd = 0 ∨ s.kind fd ≠ none then .ok s
    else isUds s server >>= fun _ =>
      .ok { s with kind := Function.update s.kind fd (some true), uds := Function.update s.uds fd (s.uds server) }
  | .accept server fd =>
    if s.kind server ≠ some false ∨ fd = 0 ∨ s.kind fd ≠ none then .ok s
    else isUds s server >>= fun _ => .ok { s with kind := Function.update s.kind fd (some false) }
  | .file fd => if fd = 0 ∨ s.kind fd ≠ none then .ok s else .ok { s with kind := Function.update s.kind fd (some false) }
  | .close fd => .ok { s with kind := Function.update s.kind fd none }
  | .finish t => .ok { s with owner := fun r => if s.owner r = some t then none else s.owner r }

def run (s : St) : List Op → Res St
  | [] => .ok s
  | o :: os => step s o >>= fun s => run s os

/-- The numbers that were given to UNIX sockets. -/
def Op.unixFd : Op → Option Nat
  | .unix _ fd => some fd
  | .acceptUnix _ fd => some fd
  | _ => none

/-- The numbers given to descriptors whose entry is not reset. -/
def Op.reused : Op → Option Nat
  | .accept _ fd => some fd
  | .file fd => some fd
  | _ => none

/-- No file and no accepted connection gets a number that a UNIX socket had before, and no task ends that made a UNIX socket. -/
def Tidy : List Op → Prop
  | os => ∀ a o b, os = a ++ o :: b →
      (∀ fd, o.reused = some fd → ∀ x ∈ a, x.unixFd ≠ some fd) ∧ (∀ t, o = .finish t → ∀ fd, Op.unix t fd ∉ a)

theorem run_append (s : St) (a b : List Op) : run s (a ++ b) = run s a >>= fun s => run s b := by
  induction a generalizing s with
  | nil => rfl
  | cons o a ih =>
    simp only [List.cons_append, run]
    cases step s o with
    | ub => rfl
    | ok s' => simpa using ih s'

/-- What holds after the history `h`. -/
structure Inv (h : List Op) (s : St) : Prop where
  right : ∀ fd, s.kind fd ≠ none → (s.kind fd = some true ↔ s.uds fd ≠ none)
  been : ∀ fd, s.uds fd ≠ none → ∃ x ∈ h, x.unixFd = some fd
  live : ∀ fd r, s.uds fd = some r → ∃ t, s.owner r = some t
  made : ∀ r t, s.owner r = some t → ∃ fd, Op.unix t fd ∈ h
  zero : s.kind 0 = none

theorem isUds_ok {h : List Op} {s : St} (i : Inv h s) (fd : Nat) (h0 : fd ≠ 0) : isUds s fd = .ok (decide (s.uds fd ≠ none)) := by
  unfold isUds
  rw [if_neg h0]
  cases hu : s.uds fd with
  | none => rfl
  | some r =>
    obtain ⟨t, ht⟩ := i.live fd r hu
    simp [ht]

theorem step_inv {h : List Op} {s : St} (i : Inv h s) (o : Op) (h1 : ∀ fd, o.reused = some fd → ∀ x ∈ h, x.unixFd ≠ some fd)
    (h2 : ∀ t, o = .finish t → ∀ fd, Op.unix t fd ∉ h) : ∃ s', step s o = .ok s' ∧ Inv (h ++ [o]) s' := by
  have weak : Inv (h ++ [o]) s := ⟨i.right, fun fd hf => by
      obtain ⟨x, hx, e⟩ := i.been fd hf
      exact ⟨x, List.mem_append_left _ hx, e⟩, i.live, fun r t hr => by
      obtain ⟨fd, hf⟩ := i.made r t hr
      exact ⟨fd, List.mem_append_left _ hf⟩, i.zero⟩
  cases o with
  | unix t fd =>
    by_cases hc : fd = 0 ∨ s.kind fd ≠ none
    · exact ⟨s, if_pos hc, weak⟩
    · refine ⟨_, if_neg hc, ?_, ?_, ?_, ?_, ?_⟩
      · intro x hx
        by_cases e : x = fd
        · subst e; simp
        · simp only [Function.update_of_ne e] at hx ⊢; exact i.right x hx
      · intro x hx
        by_cases e : x = fd
        · subst e; exact ⟨.unix t x, by simp, rfl⟩
        · simp only [Function.update_of_ne e] at hx; exact weak.been x hx
      · intro x r hx
        by_cases er : r = s.n
        · subst er; exact ⟨t, by simp⟩
        · by_cases e : x = fd
          · subst e; simp at hx; omega
          · simp only [Function.update_of_ne e] at hx
            obtain ⟨t', ht⟩ := i.live x r hx
            exact ⟨t', by simp only [Function.update_of_ne er]; exact ht⟩
      · intro r t' hr
        by_cases er : r = s.n
        · subst er; simp at hr; subst hr; exact ⟨fd, by simp⟩
        · simp only [Function.update_of_ne er] at hr
          exact weak.made r t' hr
      · push Not at hc
        simp only [Function.update_of_ne (Ne.symm hc.1)]; exact i.zero
  | net fd =>
    by_cases hc : fd = 0 ∨ s.kind fd ≠ none
    · exact ⟨s, if_pos hc, weak⟩
    · refine ⟨_, if_neg hc, ?_, ?_, ?_, ?_, ?_⟩
      · intro x hx
        by_cases e : x = fd
        · subst e; simp
        · simp only [Function.update_of_ne e] at hx ⊢; exact i.right x hx
      · intro x hx
        by_cases e : x = fd
        · subst e; simp at hx
        · simp only [Function.update_of_ne e] at hx; exact weak.been x hx
      · intro x r hx
        by_cases e : x = fd
        · subst e; simp at hx
        · simp only [Function.update_of_ne e] at hx; exact i.live x r hx
      · exact weak.made
      · push Not at hc
        simp only [Function.update_of_ne (Ne.symm hc.1)]; exact i.zero
  | acceptUnix server fd =>
    by_cases hc : s.kind server ≠ some true ∨ fd = 0 ∨ s.kind fd ≠ none
    · exact ⟨s, if_pos hc, weak⟩
    · have hc' := hc
      push Not at hc'
      have hs0 : server ≠ 0 := by intro e; have := hc'.1; rw [e, i.zero] at this; cases this
      have hsu : s.uds server ≠ none := (i.right server (by rw [hc'.1]; simp)).mp hc'.1
      refine ⟨{ s with kind := Function.update s.kind fd (some true), uds := Function.update s.uds fd (s.uds server) }, ?_, ?_, ?_, ?_, ?_, ?_⟩
      · simp only [step, if_neg hc, isUds_ok i server hs0, Res.ok_bind]
      · intro x hx
        by_cases e : x = fd
        · subst e; simpa using hsu
        · simp only [Function.update_of_ne e] at hx ⊢; exact i.right x hx
      · intro x hx
        by_cases e : x = fd
        · subst e; exact ⟨.acceptUnix server x, by simp, rfl⟩
        · simp only [Function.update_of_ne e] at hx; exact weak.been x hx
      · intro x r hx
        by_cases e : x = fd
        · subst e; simp only [Function.update_self] at hx; exact i.live server r hx
        · simp only [Function.update_of_ne e] at hx; exact i.live x r hx
      · exact weak.made
      · simp only [Function.update_of_ne (Ne.symm hc'.2.1)]; exact i.zero
  | accept server fd =>
    by_cases hc : s.kind server ≠ some false ∨ fd = 0 ∨ s.kind fd ≠ none
    · exact ⟨s, if_pos hc, weak⟩
    · have hc' := hc
      push Not at hc'
      have hs0 : server ≠ 0 := by intro e; have := hc'.1; rw [e, i.zero] at this; cases this
      have hfu : s.uds fd = none := by
        by_contra hne
        obtain ⟨x, hx, e⟩ := i.been fd hne
        exact h1 fd rfl x hx e
      refine ⟨{ s with kind := Function.update s.kind fd (some false) }, ?_, ?_, weak.been, i.live, weak.made, ?_⟩
      · simp only [step, if_neg hc, isUds_ok i server hs0, Res.ok_bind]
      · intro x hx
        by_cases e : x = fd
        · subst e; simp [hfu]
        · simp only [Function.update_of_ne e] at hx ⊢; exact i.right x hx
      · simp only [Function.update_of_ne (Ne.symm hc'.2.1)]; exact i.zero
  | file fd =>
    by_cases hc : fd = 0 ∨ s.kind fd ≠ none
    · exact ⟨s, if_pos hc, weak⟩
    · have hfu : s.uds fd = none := by
        by_contra hne
        obtain ⟨x, hx, e⟩ := i.been fd hne
        exact h1 fd rfl x hx e
      refine ⟨_, if_neg hc, ?_, weak.been, i.live, weak.made, ?_⟩
      · intro x hx
        by_cases e : x = fd
        · subst e; simp [hfu]
        · simp only [Function.update_of_ne e] at hx ⊢; exact i.right x hx
      · push Not at hc
        simp only [Function.update_of_ne (Ne.symm hc.1)]; exact i.zero
  | close fd =>
    refine ⟨_, rfl, ?_, weak.been, i.live, weak.made, ?_⟩
    · intro x hx
      by_cases e : x = fd
      · subst e; simp at hx
      · simp only [Function.update_of_ne e] at hx ⊢; exact i.right x hx
    · by_cases e : (0 : Nat) = fd
      · subst e; simp
      · simp only [Function.update_of_ne e]; exact i.zero
  | finish t =>
    refine ⟨_, rfl, i.right, weak.been, ?_, ?_, i.zero⟩
    · intro x r hx
      obtain ⟨t', ht⟩ := i.live x r hx
      refine ⟨t', ?_⟩
      have : s.owner r ≠ some t := by
        rw [ht]; intro e; cases e
        obtain ⟨fd, hf⟩ := i.made r t ht
        exact h2 t rfl fd hf
      simp only [if_neg this]; exact ht
    · intro r t' hr
      dsimp only at hr
      split at hr
      · cases hr
      · exact weak.made r t' hr

theorem run_inv : ∀ (os h : List Op) (s : St), Inv h s → Tidy (h ++ os) → ∃ s', run s os = .ok s' ∧ Inv (h ++ os) s'
  | [], h, s, i, _ => ⟨s, rfl, by simpa using i⟩
  | o :: os, h, s, i, ht => by
    obtain ⟨s1, e1, i1⟩ := step_inv i o (ht h o os rfl).1 (ht h o os rfl).2
    obtain ⟨s2, e2, i2⟩ := run_inv os (h ++ [o]) s1 i1 (by simpa using ht)
    exact ⟨s2, by simp only [run, e1, Res.ok_bind, e2], by simpa using i2⟩

/-- Claim C112, the part that holds: if no number of a UNIX socket is given again to a file or to an accepted connection, and the tasks that made UNIX sockets have
not ended, then no call is undefined and `socket_is_uds` says of every open descriptor whether it is a UNIX socket. -/
theorem uds_known_partial (os : List Op) (h : Tidy os) :
    ∃ s, run St.init os = .ok s ∧ ∀ fd b, s.kind fd = some b → isUds s fd = .ok b := by
  obtain ⟨s, e, i⟩ := run_inv os [] St.init ⟨fun _ h => absurd rfl h, fun _ h => absurd rfl h, (fun _ _ h => by cases h), (fun _ _ h => by cases h), rfl⟩
    (by simpa using h)
  refine ⟨s, e, fun fd b hk => ?_⟩
  have h0 : fd ≠ 0 := by rintro rfl; rw [i.zero] at hk; cases hk
  rw [isUds_ok i fd h0]
  have := i.right fd (by rw [hk]; simp)
  cases b with
  | true => simpa using this.mp hk
  | false =>
    have hn : s.uds fd = none := by
      by_contra hne
      have := this.mpr hne
      rw [hk] at this; cases this
    simp [hn]

/-- Claim C112 (failure): whenever a TCP server accepts a connection under the number of a closed UNIX socket, `socket_is_uds` takes the connection for a UNIX
socket. -/
theorem uds_stale (s : St) (t server fd : Nat) (hfd : fd ≠ 0) (hne : server ≠ fd) (hs0 : server ≠ 0) (hs : s.kind server = some false)
    (hu : s.uds server = none) (hf : s.kind fd = none) :
    ∃ s', run s [.unix t fd, .close fd, .accept server fd] = .ok s' ∧ s'.kind fd = some false ∧ isUds s' fd = .ok true := by
  refine ⟨{ kind := Function.update (Function.update (Function.update s.kind fd (some true)) fd none) fd (some false)
            uds := Function.update s.uds fd (some s.n), owner := Function.update s.owner s.n (some t), n := s.n + 1 }, ?_, by simp, ?_⟩
  · simp [run, step, hfd, hf, hs, hne, isUds, hs0, hu]
  · simp [isUds, hfd]

/-- Claim C112 (failure): after the end of the task that called `uds_bind`, accepting on the server that is still open reads freed memory, and so does
`socket_is_uds`. -/
theorem uds_freed_ub (s : St) (t fd client : Nat) (hfd : fd ≠ 0) (hf : s.kind fd = none) (hc : client ≠ 0) (hcf : client ≠ fd) (hck : s.kind client = none) :
    run s [.unix t fd, .finish t, .acceptUnix fd client] = .ub ∧
      ∃ s', run s [.unix t fd, .finish t] = .ok s' ∧ s'.kind fd = some true ∧ isUds s' fd = .ub := by
  constructor
  · simp [run, step, hfd, hf, isUds, hc, hck, hcf]
  · refine ⟨_, by simp [run, step, hfd, hf]; rfl, ?_⟩
    simp [isUds, hfd]

/-- A UNIX server with a client, a TCP server with a client, a file; a closed number is used again for a UNIX socket. -/
example : Tidy [.unix 1 3, .net 4, .acceptUnix 3 5, .accept 4 6, .file 7, .close 7, .unix 1 7, .finish 2] := by
  intro a o b h
  rcases a with _ | ⟨a1, _ | ⟨a2, _ | ⟨a3, _ | ⟨a4, _ | ⟨a5, _ | ⟨a6, _ | ⟨a7, _ | ⟨a8, a⟩⟩⟩⟩⟩⟩⟩⟩ <;> simp at h <;> obtain ⟨rfl, h⟩ := h <;>
    (try obtain ⟨rfl, h⟩ := h) <;> (try obtain ⟨rfl, h⟩ := h) <;> (try obtain ⟨rfl, h⟩ := h) <;> (try obtain ⟨rfl, h⟩ := h) <;>
    (try obtain ⟨rfl, h⟩ := h) <;> (try obtain ⟨rfl, h⟩ := h) <;> (try obtain ⟨rfl, h⟩ := h) <;> simp [Op.reused, Op.unixFd]
example : (do let s ← run St.init [.unix 1 3, .net 4, .acceptUnix 3 5, .accept 4 6]
              let a ← isUds s 5
              let b ← isUds s 6
              .ok (a, b)) = .ok (true, false) := by decide +kernel
example : run St.init [.unix 1 3, .finish 1, .acceptUnix 3 5] = .ub := rfl

end Verif.Sock.Kind
