import Verif.Mem

/-!
# Asking whether a connection has ended (`src/async_tls.c` 870-888), C265

`socket_is_eof` looks one byte ahead on a plain socket, and reads no bytes on a secure one, looking at OpenSSL's queue of errors.
The queue belongs to the thread, not to the connection.
-/

namespace Verif.Tls.Eof
open Verif

/-- What has arrived on a plain socket. -/
structure Plain where
  /-- A stream, or single messages (UDP, or a Unix datagram socket). -/
  stream : Bool
  /-- The messages (for a stream: pieces, none empty) that have arrived and were not read. -/
  arrived : List Bytes
  /-- The other side has ended (streams only). -/
  ended : Bool
  /-- Calls do not wait. -/
  nonblocking : Bool

inductive Peek where
  /-- A number of bytes. -/
  | got (n : Nat)
  /-- -1 with `EAGAIN`. -/
  | again
  /-- The call waits. -/
  | waits
  deriving DecidableEq

/-- `recv(socket, buf, 1, MSG_PEEK)`. -/
def peek (p : Plain) : Peek :=
  match p.arrived with
  | m :: _ => .got (min 1 m.length)
  | [] =>
    if p.stream ∧ p.ended then .got 0
    else if p.nonblocking then .again
    else .waits

/-- What `tls_read` of no bytes says (the code is libtls', not modelled): a result and the errors it adds to the queue. -/
structure TlsRead where
  result : Int
  adds : List Nat

/-- `TLS_EOF`, include/async_tls.h:74. -/
def tlsEof : Nat := 0xa000126

/-- A socket as `events_target` has it. -/
inductive Target where
  | plain (p : Plain)
  | secure (r : TlsRead)

/-- The answer, and the thread's queue of errors afterwards; `none`: the thread waits. -/
abbrev Answer := Option (Bool × List Nat)

/-- `socket_is_eof`, src/async_tls.c:875-888.  `ERR_get_error` takes the oldest error from the queue, 0 if there is none. -/
def isEof (q : List Nat) : Target → Answer
  | .secure r =>
    let q := q ++ r.adds
    if r.result = -1 then some (q.headD 0 = tlsEof, q.tail) else some (false, q)
  | .plain p =>
    match peek p with
    | .got 0 => some (true, q)
    | .got _ => some (false, q)
    | .again => some (false, q)
    | .waits => none

/-! ## Specification -/

/-- The other side has ended and everything was read. -/
def Ended : Target → Prop
  | .plain p => p.stream = true ∧ p.ended = true ∧ p.arrived = []
  | .secure r => r.result = -1 ∧ r.adds.head? = some tlsEof

/-- Pieces of a stream are not empty. -/
def Proper : Target → Prop
  | .plain p => p.stream = true → ∀ m ∈ p.arrived, m ≠ []
  | .secure _ => True

/-- An empty message is next. -/
def EmptyNext : Target → Prop
  | .plain p => p.stream = false ∧ p.arrived.head? = some []
  | .secure _ => False

/-! ## Proofs -/

theorem headD_head? (l : List Nat) : l.headD 0 = tlsEof ↔ l.head? = some tlsEof := by
  cases l with
  | nil => simp [tlsEof]
  | cons a l => simp

/-- **C265** (full statement: the answer tells whether the connection has ended, at once; false).  What holds: it does, if there is
no error left in the thread's queue and the next message is not empty, if it is given at all.
Missing: `empty_message`, `old_error_hides`, `old_error_tells`, `waits_iff`. -/
theorem answer_partial (t : Target) (hp : Proper t) (he : ¬ EmptyNext t) (b : Bool) (q' : List Nat)
    (h : isEof [] t = some (b, q')) : b = true ↔ Ended t := by
  cases t with
  | secure r =>
    simp only [isEof, List.nil_append] at h
    by_cases hr : r.result = -1
    · simp only [hr, if_true, Option.some.injEq, Prod.mk.injEq] at h
      rw [← h.1, decide_eq_true_eq, headD_head?]
      simp [Ended, hr]
    · simp only [hr, if_false, Option.some.injEq, Prod.mk.injEq] at h
      simp [← h.1, Ended, hr]
  | plain p =>
    obtain ⟨stream, arrived, ended, nb⟩ := p
    cases arrived with
    | cons m l =>
      have hm : m ≠ [] := by
        rintro rfl
        cases stream with
        | true => exact hp rfl [] (by simp) rfl
        | false => exact he ⟨rfl, rfl⟩
      have : min 1 m.length = 1 := by
        have := List.length_pos_of_ne_nil hm
        omega
      simp only [isEof, peek, this, Option.some.injEq, Prod.mk.injEq] at h
      simp [← h.1, Ended]
    | nil =>
      cases stream <;> cases ended <;> cases nb <;> simp [isEof, peek] at h <;> simp [← h.1, Ended]

/-- **C265**: asking a plain socket leaves the queue of errors as it is, whatever the answer. -/
theorem plain_keeps (q : List Nat) (p : Plain) (b : Bool) (q' : List Nat) (h : isEof q (.plain p) = some (b, q')) : q' = q := by
  simp only [isEof] at h
  split at h <;> simp_all

/-- **C265**, false of the code: the thread, with all tasks on it, waits exactly if the socket does not refuse to, nothing has
arrived and the other side has not ended. -/
theorem waits_iff (q : List Nat) (t : Target) :
    isEof q t = none ↔ ∃ p, t = .plain p ∧ p.nonblocking = false ∧ p.arrived = [] ∧ ¬ (p.stream = true ∧ p.ended = true) := by
  cases t with
  | secure r =>
    simp only [isEof, reduceCtorEq, false_and, exists_false, iff_false]
    split <;> simp
  | plain p =>
    obtain ⟨stream, arrived, ended, nb⟩ := p
    simp only [Target.plain.injEq, exists_eq_left']
    cases arrived with
    | cons m l =>
      simp only [isEof, peek, reduceCtorEq, false_and, and_false, iff_false]
      split <;> simp_all
    | nil => cases stream <;> cases ended <;> cases nb <;> simp [isEof, peek]

/-- **C265**, false of the code: an empty message counts as the end, whatever follows. -/
theorem empty_message (q : List Nat) (l : List Bytes) (nb : Bool) :
    isEof q (.plain ⟨false, [] :: l, false, nb⟩) = some (true, q) ∧ ¬ Ended (.plain ⟨false, [] :: l, false, nb⟩) := by
  simp [isEof, peek, Ended]

/-- **C265**, false of the code: an older error in the queue, of any connection of the thread, hides the end of this one. -/
theorem old_error_hides (e : Nat) (q : List Nat) (r : TlsRead) (he : e ≠ tlsEof) (hr : r.result = -1) :
    isEof (e :: q) (.secure r) = some (false, q ++ r.adds) := by
  simp [isEof, hr, he]

/-- **C265**, false of the code: the end of another connection left in the queue counts as the end of this one, if reading it
failed. -/
theorem old_error_tells (q : List Nat) (r : TlsRead) (hr : r.result = -1) :
    isEof (tlsEof :: q) (.secure r) = some (true, q ++ r.adds) := by
  simp [isEof, hr]

/-- The answers of a number of calls. -/
def asks (r : TlsRead) : Nat → List Nat → List Bool
  | 0, _ => []
  | k + 1, q =>
    match isEof q (.secure r) with
    | some (b, q') => b :: asks r k q'
    | none => []

/-- **C265**: so long as reading a connection that has ended adds one error each time, each hidden answer uses up one older error:
with `n` of them in the queue the end is told by call `n + 1` and all later ones, and by none before. -/
theorem told_after (n : Nat) : ∀ (q l : List Nat), q.length = n → (∀ e ∈ q, e ≠ tlsEof) → (∀ e ∈ l, e = tlsEof) → ∀ k,
    asks ⟨-1, [tlsEof]⟩ (n + k) (q ++ l) = List.replicate n false ++ List.replicate k true := by
  induction n with
  | zero =>
    intro q l hq _ hl k
    obtain rfl := List.length_eq_zero_iff.1 hq
    simp only [List.nil_append, Nat.zero_add, List.replicate_zero]
    induction k generalizing l with
    | zero => rfl
    | succ k ih =>
      have hh : (l ++ [tlsEof]).headD 0 = tlsEof := by
        cases l with
        | nil => rfl
        | cons a l => exact hl a (by simp)
      have ht : ∀ e ∈ (l ++ [tlsEof]).tail, e = tlsEof := by
        intro e he
        have := List.mem_of_mem_tail he
        simp only [List.mem_append, List.mem_singleton] at this
        exact this.elim (hl e) id
      have e : asks ⟨-1, [tlsEof]⟩ (k + 1) l = true :: asks ⟨-1, [tlsEof]⟩ k (l ++ [tlsEof]).tail := by
        simp only [asks, isEof, if_true, hh, decide_true]
      rw [e, ih _ ht]
      rfl
  | succ n ih =>
    intro q l hq hn hl k
    cases q with
    | nil => simp at hq
    | cons a q =>
      have ha : a ≠ tlsEof := hn a (by simp)
      have hl' : ∀ e ∈ l ++ [tlsEof], e = tlsEof := by
        intro e he
        simp only [List.mem_append, List.mem_singleton] at he
        exact he.elim (hl e) id
      have e : asks ⟨-1, [tlsEof]⟩ (n + k + 1) (a :: q ++ l) = false :: asks ⟨-1, [tlsEof]⟩ (n + k) (q ++ (l ++ [tlsEof])) := by
        simp [asks, isEof, ha]
      rw [show n + 1 + k = n + k + 1 by omega, e,
        ih q (l ++ [tlsEof]) (by simpa using hq) (fun e he => hn e (by simp [he])) hl' k]
      rfl

example : isEof [] (.plain ⟨true, [], true, true⟩) = some (true, []) := by decide
example : isEof [] (.plain ⟨true, [[1]], true, true⟩) = some (false, []) := by decide
example : isEof [5] (.secure ⟨-1, [tlsEof]⟩) = some (false, [tlsEof]) := by decide
example : asks ⟨-1, [tlsEof]⟩ 4 [5, 6] = [false, false, true, true] := by decide
example : Proper (.plain ⟨true, [[1]], true, true⟩) ∧ ¬ EmptyNext (.plain ⟨true, [[1]], true, true⟩) := by
  simp [Proper, EmptyNext]

end Verif.Tls.Eof
