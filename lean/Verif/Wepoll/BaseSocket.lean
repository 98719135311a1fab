import Mathlib.Tactic.ByContra

/-!
# Finding the socket under layered providers (`src/wepoll.c` 2192-2239), C264

A socket added to an epoll port on Windows is polled through the socket of the base provider.  Providers stacked on it may refuse
to tell it (`SIO_BASE_HANDLE`) but tell the socket of the next layer (`SIO_BSP_HANDLE_POLL`).
-/

namespace Verif.Wepoll.BaseSocket

/-- What the two questions answer for every socket: the base socket or an error, and the next layer's socket (`none`: an error).
`INVALID_SOCKET` is not among the sockets. -/
structure World where
  base : Nat → Except Nat Nat
  next : Nat → Option Nat

/-- `WSAENOTSOCK`. -/
def notSock : Nat := 10038

/-- One turn of the loop of `ws_get_base_socket`, src/wepoll.c:2213-2238: the result or the socket of the next turn. -/
def turn (w : World) (s : Nat) : Except Nat Nat ⊕ Nat :=
  match w.base s with
  | .ok b => .inl (.ok b)
  | .error e =>
    if e = notSock then .inl (.error e)
    else match w.next s with
      | some n => if n ≠ s then .inr n else .inl (.error e)
      | none => .inl (.error e)

/-- `ws_get_base_socket`, src/wepoll.c:2209-2239, for a number of turns; `none`: it is still running. -/
def getBase (w : World) : Nat → Nat → Option (Except Nat Nat)
  | 0, _ => none
  | k + 1, s =>
    match turn w s with
    | .inl r => some r
    | .inr n => getBase w k n

/-- It returns `r`. -/
def Returns (w : World) (s : Nat) (r : Except Nat Nat) : Prop := ∃ k, getBase w k s = some r

/-! ## Specification -/

/-- The layer `s` does not tell the base socket, but is a socket and lies on `n`. -/
def On (w : World) (s n : Nat) : Prop := n ≠ s ∧ w.next s = some n ∧ ∃ e, w.base s = .error e ∧ e ≠ notSock

/-- `z` lies below `s`, any number of layers down. -/
inductive Below (w : World) : Nat → Nat → Prop where
  | same (s : Nat) : Below w s s
  | down (s n z : Nat) : On w s n → Below w n z → Below w s z

/-! ## Proofs -/

theorem turn_on {w : World} {s n : Nat} : turn w s = .inr n ↔ On w s n := by
  unfold turn On
  cases hb : w.base s with
  | ok b => simp
  | error e =>
    by_cases he : e = notSock
    · simp [he]
    · cases hn : w.next s with
      | none => simp [he]
      | some m =>
        by_cases hm : m = s
        · subst hm
          simp only [he, if_false, ne_eq, not_true_eq_false, reduceCtorEq, Option.some.injEq, false_iff]
          rintro ⟨h1, h2, _⟩
          exact h1 h2.symm
        · simp only [he, if_false, ne_eq, hm, not_false_eq_true, if_true, Sum.inr.injEq, Option.some.injEq]
          constructor
          · rintro rfl
            exact ⟨hm, rfl, e, rfl, he⟩
          · exact fun h => h.2.1

theorem returns_below {w : World} {r : Except Nat Nat} : ∀ (k s : Nat), getBase w k s = some r →
    ∃ z, Below w s z ∧ turn w z = .inl r
  | 0, _, h => by simp [getBase] at h
  | k + 1, s, h => by
    cases ht : turn w s with
    | inl q =>
      simp only [getBase, ht, Option.some.injEq] at h
      exact ⟨s, .same s, by rw [ht, h]⟩
    | inr n =>
      simp only [getBase, ht] at h
      obtain ⟨z, h1, h2⟩ := returns_below k n h
      exact ⟨z, .down s n z (turn_on.1 ht) h1, h2⟩

theorem below_returns {w : World} {r : Except Nat Nat} {s z : Nat} (h : Below w s z) (hz : turn w z = .inl r) :
    Returns w s r := by
  induction h with
  | same s => exact ⟨1, by simp [getBase, hz]⟩
  | down s n z h1 _ ih =>
    obtain ⟨k, hk⟩ := ih hz
    exact ⟨k + 1, by simp only [getBase, turn_on.2 h1]; exact hk⟩

/-- **C264**: the socket returned is the one that a layer below tells, through any number of layers that do not tell. -/
theorem found_iff (w : World) (s b : Nat) : Returns w s (.ok b) ↔ ∃ z, Below w s z ∧ w.base z = .ok b := by
  have key : ∀ z, turn w z = .inl (.ok b) ↔ w.base z = .ok b := by
    intro z
    unfold turn
    cases w.base z with
    | ok c => simp
    | error e =>
      by_cases he : e = notSock
      · simp [he]
      · simp only [he, if_false, reduceCtorEq, iff_false]
        cases w.next z with
        | none => simp
        | some m => by_cases hm : m = z <;> simp [hm]
  constructor
  · rintro ⟨k, hk⟩
    obtain ⟨z, h1, h2⟩ := returns_below k s hk
    exact ⟨z, h1, (key z).1 h2⟩
  · rintro ⟨z, h1, h2⟩
    exact below_returns h1 ((key z).2 h2)

/-- **C264**: the error is the one of the lowest layer, which is no socket, or names no layer below it, or names itself. -/
theorem error_iff (w : World) (s e : Nat) :
    Returns w s (.error e) ↔
      ∃ z, Below w s z ∧ w.base z = .error e ∧ (e = notSock ∨ w.next z = none ∨ w.next z = some z) := by
  have key : ∀ z, turn w z = .inl (.error e) ↔
      w.base z = .error e ∧ (e = notSock ∨ w.next z = none ∨ w.next z = some z) := by
    intro z
    unfold turn
    cases w.base z with
    | ok c => simp
    | error f =>
      by_cases he : f = notSock
      · subst he
        simp only [if_true, Sum.inl.injEq, Except.error.injEq]
        constructor
        · intro h
          exact ⟨h, Or.inl h.symm⟩
        · exact fun h => h.1
      · cases hn : w.next z with
        | none => simp [he]
        | some m =>
          by_cases hm : m = z
          · simp [he, hm]
          · simp only [he, if_false, ne_eq, hm, not_false_eq_true, if_true, reduceCtorEq, Except.error.injEq,
              Option.some.injEq, or_false, false_iff, not_and]
            exact fun h h' => he (h.trans h')
  constructor
  · rintro ⟨k, hk⟩
    obtain ⟨z, h1, h2⟩ := returns_below k s hk
    exact ⟨z, h1, (key z).1 h2⟩
  · rintro ⟨z, h1, h2⟩
    exact below_returns h1 ((key z).2 h2)

/-- **C264** (full statement: it always returns; false, see `never`).  What holds: if every layer lies on a lower one, it returns. -/
theorem returns_partial (w : World) (rank : Nat → Nat) (h : ∀ s n, On w s n → rank n < rank s) (s : Nat) :
    ∃ r, Returns w s r := by
  have key : ∀ m s, rank s < m → ∃ r, Returns w s r := by
    intro m
    induction m with
    | zero => intro s hs; omega
    | succ m ih =>
      intro s hs
      cases ht : turn w s with
      | inl r => exact ⟨r, 1, by simp [getBase, ht]⟩
      | inr n =>
        have := h s n (turn_on.1 ht)
        obtain ⟨r, k, hk⟩ := ih n (by omega)
        exact ⟨r, k + 1, by simp only [getBase, ht]; exact hk⟩
  exact key _ s (Nat.lt_succ_self _)

/-- **C264**, false of the code: where a layer lies on layers that come back to it, the call runs for ever; only a layer naming
itself is noticed. -/
theorem never (w : World) (s n : Nat) (h1 : On w s n) (h2 : Below w n s) : ∀ r, ¬ Returns w s r := by
  have det : ∀ a m m', On w a m → On w a m' → m = m' := by
    intro a m m' h h'
    have := h.2.1.symm.trans h'.2.1
    simpa using this
  -- every layer below `s` comes back to `s`
  have back : ∀ a z, Below w a z → Below w a s → Below w z s := by
    intro a z h
    induction h with
    | same => exact id
    | down a m z h _ ih =>
      intro ha
      apply ih
      cases ha with
      | same =>
        have := det _ _ _ h h1
        subst this
        exact h2
      | down _ m' _ h' h'' =>
        have := det _ _ _ h h'
        subst this
        exact h''
  rintro r ⟨k, hk⟩
  obtain ⟨z, hz, ht⟩ := returns_below k s hk
  have hb := back s z hz (.same s)
  have hon : ∃ m, On w z m := by
    cases hb with
    | same => exact ⟨n, h1⟩
    | down _ m _ h _ => exact ⟨m, h⟩
  obtain ⟨m, hm⟩ := hon
  rw [turn_on.2 hm] at ht
  cases ht

/-- Socket 1 lies on 2, 2 on 3; only 3 tells the base socket, 7. -/
def stack : World := ⟨fun s => if s = 3 then .ok 7 else .error 10045, fun s => if s < 3 then some (s + 1) else none⟩

example : getBase stack 3 1 = some (.ok 7) := by rfl
example : Below stack 1 3 :=
  .down 1 2 3 ⟨by decide, rfl, 10045, rfl, by decide⟩ (.down 2 3 3 ⟨by decide, rfl, 10045, rfl, by decide⟩ (.same 3))
example : ∃ r, Returns stack 0 r := returns_partial stack (fun s => 3 - s) (by
  rintro s n ⟨_, h, _⟩
  by_cases hs : s < 3 <;> simp [stack, hs] at h
  omega) 0
/-- Sockets 0 and 1 lie on each other. -/
def ring : World := ⟨fun _ => .error 10045, fun s => some (1 - s)⟩
example : ∀ r, ¬ Returns ring 0 r :=
  never ring 0 1 ⟨by decide, rfl, 10045, rfl, by decide⟩ (.down 1 0 0 ⟨by decide, rfl, 10045, rfl, by decide⟩ (.same 0))
example : Returns ⟨fun _ => .error 10038, fun _ => none⟩ 5 (.error 10038) := ⟨1, rfl⟩

end Verif.Wepoll.BaseSocket
