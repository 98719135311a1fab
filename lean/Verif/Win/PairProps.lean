import Verif.Win.Pair

/-!
# Properties of `socketpair`, `os_pipe` and `pipe2` for Windows
-/

namespace Verif.Win

/-- C175: when `socketpair` succeeds, both sockets exist and the connection accepted is the one made by the other
socket, whoever else connected to the listener: its peer has the address of that socket.  (A connected socket has a
port.) -/
theorem socketpair_connected (y : PairSys) (hport : ∀ own, y.name2 = some own → own.port ≠ 0)
    (c a : Option Nat) (h : (socketpair y).sockets = some (c, a)) :
    ∃ d s own, c = some d ∧ a = some s ∧ y.connector = some d ∧ y.accept = some (s, own) ∧ y.name2 = some own := by
  unfold socketpair at h
  split at h
  · simp [pairFail] at h
  · split at h
    · simp [pairFail] at h
    · split at h
      · simp [pairFail] at h
      · rename_i hc
        split at h
        · simp [pairFail] at h
        · split at h
          · simp [pairFail] at h
          · dsimp only at h
            cases hn : y.name2 with
            | none => rw [hn] at h; simp [pairFail] at h
            | some own =>
              rw [hn] at h
              dsimp only at h
              split at h
              · simp [pairFail] at h
              · rename_i hcmp
                simp only [Option.some.injEq, Prod.mk.injEq] at h
                obtain ⟨d, hd⟩ := Option.ne_none_iff_exists'.1 hc
                cases ha : y.accept with
                | none =>
                  rw [ha] at hcmp
                  simp only [Option.map_none, Option.getD_none, not_or, Decidable.not_not] at hcmp
                  exact absurd hcmp.2.2.symm (hport own hn)
                | some p =>
                  obtain ⟨s, peer⟩ := p
                  rw [ha] at h hcmp
                  simp only [Option.map_some, Option.getD_some, not_or, Decidable.not_not] at h hcmp
                  obtain ⟨h1, h2, h3⟩ := hcmp
                  refine ⟨d, s, own, h.1.symm.trans hd, h.2.symm, hd, ?_, rfl⟩
                  obtain ⟨pf, pi, pp⟩ := peer
                  obtain ⟨f, i, q⟩ := own
                  dsimp only at h1 h2 h3
                  rw [h1, h2, h3]

/-- A connection by a stranger that waits first makes it fail. -/
theorem socketpair_stranger (y : PairSys) (a : Nat) (peer own : Addr) (ha : y.accept = some (a, peer))
    (hn : y.name2 = some own) (hne : peer ≠ own) : (socketpair y).sockets = none := by
  cases hs : (socketpair y).sockets with
  | none => rfl
  | some p =>
    exfalso
    unfold socketpair at hs
    rw [ha, hn] at hs
    simp only [Option.map_some, Option.getD_some] at hs
    have hd : peer.family ≠ own.family ∨ peer.ip ≠ own.ip ∨ peer.port ≠ own.port := by
      by_cases h1 : peer.family = own.family
      · by_cases h2 : peer.ip = own.ip
        · by_cases h3 : peer.port = own.port
          · refine absurd ?_ hne
            cases peer; cases own; simp_all
          · exact Or.inr (Or.inr h3)
        · exact Or.inr (Or.inl h2)
      · exact Or.inl h1
    rw [if_pos hd] at hs
    repeat' split at hs
    all_goals simp [pairFail] at hs

/-- The sockets opened during a call that got as far as it did. -/
def opened (y : PairSys) : List Nat :=
  if y.listener = none ∨ y.bind = false ∨ y.listen = false then y.listener.toList
  else if y.connector = none ∨ y.name1 = false ∨ y.connect = false then y.listener.toList ++ y.connector.toList
  else y.listener.toList ++ y.connector.toList ++ (y.accept.map Prod.fst).toList

/-- C176 (the part that holds): a call that fails before a connection is accepted closes all sockets that it opened,
each once, and no other; a call that succeeds closes the listener, once, and nothing else.  Missing: a failure behind
that (`socketpair_closes_twice`). -/
theorem socketpair_closes_partial (y : PairSys) :
    (y.listener = none ∨ y.bind = false ∨ y.listen = false ∨ y.connector = none ∨ y.name1 = false ∨ y.connect = false →
      (socketpair y).sockets = none ∧ (socketpair y).closed = opened y) ∧
    (∀ p, (socketpair y).sockets = some p → (socketpair y).closed = y.listener.toList) := by
  constructor
  · intro h
    unfold socketpair opened
    by_cases h1 : y.listener = none ∨ y.bind = false
    · rw [if_pos h1, if_pos (by tauto)]
      simp [pairFail, closes]
    · rw [if_neg h1]
      by_cases h2 : y.listen = false
      · rw [if_pos h2, if_pos (by tauto)]
        simp [pairFail, closes]
      · rw [if_neg h2, if_neg (by tauto : ¬(y.listener = none ∨ y.bind = false ∨ y.listen = false))]
        by_cases h3 : y.connector = none
        · rw [if_pos h3, if_pos (by tauto)]
          simp [pairFail, closes, h3]
        · rw [if_neg h3]
          by_cases h4 : y.name1 = false
          · rw [if_pos h4, if_pos (by tauto)]
            simp [pairFail, closes]
          · rw [if_neg h4]
            have h5 : y.connect = false := by tauto
            rw [if_pos h5, if_pos (by tauto)]
            simp [pairFail, closes]
  · intro p h
    unfold socketpair at h ⊢
    split at h
    · simp [pairFail] at h
    · rename_i h1
      rw [if_neg h1]
      split at h
      · simp [pairFail] at h
      · rename_i h2
        rw [if_neg h2]
        split at h
        · simp [pairFail] at h
        · rename_i h3
          rw [if_neg h3]
          split at h
          · simp [pairFail] at h
          · rename_i h4
            rw [if_neg h4]
            split at h
            · simp [pairFail] at h
            · rename_i h5
              rw [if_neg h5]
              dsimp only at h ⊢
              cases hn : y.name2 with
              | none => rw [hn] at h; simp [pairFail] at h
              | some own =>
                rw [hn] at h
                dsimp only at h ⊢
                split at h
                · simp [pairFail] at h
                · rename_i h6
                  rw [if_neg h6]
                  rfl

/-- C176, negated: whenever a stranger's connection is accepted first, the listener is closed twice; in between, its
number may have been given to a socket or file of another thread. -/
theorem socketpair_closes_twice (l c a : Nat) (peer own : Addr) (h : peer ≠ own) :
    (socketpair ⟨some l, true, true, some c, true, true, some (a, peer), some own⟩).closed = [l, l, c, a] := by
  have hd : peer.family ≠ own.family ∨ peer.ip ≠ own.ip ∨ peer.port ≠ own.port := by
    by_cases h1 : peer.family = own.family
    · by_cases h2 : peer.ip = own.ip
      · by_cases h3 : peer.port = own.port
        · refine absurd ?_ h
          cases peer; cases own; simp_all
        · exact Or.inr (Or.inr h3)
      · exact Or.inr (Or.inl h2)
    · exact Or.inl h1
  unfold socketpair
  simp only [Option.map_some, Option.getD_some, if_pos hd]
  simp [pairFail, closes]

example : socketpair ⟨some 5, true, true, some 6, true, true, some (7, ⟨2, 0x7f000001, 9⟩), some ⟨2, 0x7f000001, 9⟩⟩ =
      { sockets := some (some 6, some 7), closed := [5] } := by decide

/-! ### `os_pipe` and `pipe2` -/

theorem leBytes_length (w v : Nat) : (leBytes w v).length = w := by
  induction w generalizing v with
  | zero => rfl
  | succ w ih => simp [leBytes, ih]

theorem leVal_leBytes (w v : Nat) : leVal (leBytes w v) = v % 256 ^ w := by
  induction w generalizing v with
  | zero => simp [leBytes, leVal, Nat.mod_one]
  | succ w ih =>
    simp only [leBytes, leVal, ih]
    have : (UInt8.ofNat (v % 256)).toNat = v % 256 := by simp
    rw [this, Nat.pow_succ, Nat.mul_comm (256 ^ w) 256, Nat.mod_mul]

theorem osPipe_ok (w : Nat) (buf : Bytes) (pair : Nat × Nat) (h : 2 * w ≤ buf.length) :
    osPipe w buf pair = .ok (leBytes w pair.1 ++ leBytes w pair.2 ++ buf.drop (2 * w)) := by
  unfold osPipe store
  rw [leBytes_length, if_pos (by omega)]
  simp only [Res.ok_bind, leBytes_length]
  have hl : (buf.take 0 ++ leBytes w pair.1 ++ buf.drop (0 + w)).length = buf.length := by
    simp [leBytes_length]; omega
  rw [if_pos (by rw [hl]; omega)]
  congr 1
  have e1 : (buf.take 0 ++ leBytes w pair.1 ++ buf.drop (0 + w)).take w = leBytes w pair.1 := by
    rw [List.take_zero, List.nil_append]
    conv_lhs => rw [← leBytes_length w pair.1]
    rw [leBytes_length, List.take_append_of_le_length (by simp [leBytes_length]),
      List.take_of_length_le (by simp [leBytes_length])]
  have e2 : (buf.take 0 ++ leBytes w pair.1 ++ buf.drop (0 + w)).drop (w + w) = buf.drop (2 * w) := by
    rw [List.take_zero, List.nil_append, List.drop_append, leBytes_length,
      List.drop_eq_nil_of_le (by simp [leBytes_length]), List.nil_append, List.drop_drop]
    congr 1
    omega
  rw [e1, e2]

/-- C177 (the part that holds): where a `SOCKET` has 4 bytes, `os_pipe` stores both sockets into the array of two
`int` and `pipe2` applies its flags to them; where it has 8 bytes, an array of 16 bytes holds the two sockets.
Missing: with 8 bytes the array of `int` is overrun (`os_pipe_overruns`), and `pipe2` works on wrong numbers
(`pipe2_wrong_second`). -/
theorem os_pipe_partial (buf : Bytes) (r w : Nat) :
    (buf.length = 8 → r < 2 ^ 32 → w < 2 ^ 32 → ∃ b, osPipe 4 buf (r, w) = .ok b ∧ b.length = 8 ∧ intAt b 0 = r ∧
      intAt b 1 = w ∧ pipe2Targets 4 buf (r, w) = .ok (r, w)) ∧
    (buf.length = 16 → r < 2 ^ 64 → w < 2 ^ 64 → ∃ b, osPipe 8 buf (r, w) = .ok b ∧ b.length = 16 ∧
      leVal (b.take 8) = r ∧ leVal (b.drop 8) = w) := by
  constructor
  · intro hb hr hw
    have e := osPipe_ok 4 buf (r, w) (by omega)
    have hd : buf.drop (2 * 4) = [] := List.drop_eq_nil_of_le (by omega)
    rw [hd, List.append_nil] at e
    have i0 : intAt (leBytes 4 r ++ leBytes 4 w) 0 = r := by
      unfold intAt
      rw [Nat.mul_zero, List.drop_zero, List.take_append_of_le_length (by simp [leBytes_length]),
        List.take_of_length_le (by simp [leBytes_length]), leVal_leBytes]
      exact Nat.mod_eq_of_lt (by omega)
    have i1 : intAt (leBytes 4 r ++ leBytes 4 w) 1 = w := by
      unfold intAt
      rw [Nat.mul_one, List.drop_append, leBytes_length, List.drop_eq_nil_of_le (by simp [leBytes_length]),
        List.nil_append, Nat.sub_self, List.drop_zero, List.take_of_length_le (by simp [leBytes_length]),
        leVal_leBytes]
      exact Nat.mod_eq_of_lt (by omega)
    refine ⟨_, e, by simp [leBytes_length], i0, i1, ?_⟩
    unfold pipe2Targets
    rw [e]
    simp only [Res.ok_bind]
    rw [i0, i1]
  · intro hb hr hw
    have e := osPipe_ok 8 buf (r, w) (by omega)
    have hd : buf.drop (2 * 8) = [] := List.drop_eq_nil_of_le (by omega)
    rw [hd, List.append_nil] at e
    refine ⟨_, e, by simp [leBytes_length], ?_, ?_⟩
    · rw [List.take_append_of_le_length (by simp [leBytes_length]),
        List.take_of_length_le (by simp [leBytes_length]), leVal_leBytes]
      exact Nat.mod_eq_of_lt (by omega)
    · rw [List.drop_append, leBytes_length, List.drop_eq_nil_of_le (by simp [leBytes_length]),
        List.nil_append, Nat.sub_self, List.drop_zero, leVal_leBytes]
      exact Nat.mod_eq_of_lt (by omega)

/-- C177, negated: on 64-bit Windows `os_pipe` always writes behind the end of the two `int` its caller passes. -/
theorem os_pipe_overruns (buf : Bytes) (hb : buf.length = 8) (pair : Nat × Nat) :
    osPipe 8 buf pair = .ub ∧ pipe2Targets 8 buf pair = .ub := by
  have h : osPipe 8 buf pair = .ub := by
    unfold osPipe store
    rw [leBytes_length, if_pos (by omega)]
    simp only [Res.ok_bind, leBytes_length]
    rw [if_neg (by simp [leBytes_length, hb])]
  exact ⟨h, by unfold pipe2Targets; rw [h]; rfl⟩

/-- C177, negated: even with enough room, `pipe2` takes the upper half of the first socket for the second: descriptor
0 for every socket below 2³². -/
theorem pipe2_wrong_second (buf : Bytes) (hb : 16 ≤ buf.length) (r w : Nat) (hr : r < 2 ^ 32) :
    pipe2Targets 8 buf (r, w) = .ok (r, 0) := by
  have e := osPipe_ok 8 buf (r, w) (by omega)
  unfold pipe2Targets
  rw [e]
  simp only [Res.ok_bind]
  have hsplit : leBytes 8 r = leBytes 4 r ++ leBytes 4 (r / 2 ^ 32) := by
    simp only [leBytes, List.cons_append, List.nil_append, Nat.div_div_eq_div_mul]
    norm_num
  have hz : r / 2 ^ 32 = 0 := Nat.div_eq_of_lt hr
  rw [hz] at hsplit
  have i0 : intAt (leBytes 8 r ++ leBytes 8 w ++ buf.drop (2 * 8)) 0 = r := by
    unfold intAt
    rw [hsplit, Nat.mul_zero, List.drop_zero, List.append_assoc, List.append_assoc,
      List.take_append_of_le_length (by simp [leBytes_length]),
      List.take_of_length_le (by simp [leBytes_length]), leVal_leBytes]
    exact Nat.mod_eq_of_lt (by omega)
  have i1 : intAt (leBytes 8 r ++ leBytes 8 w ++ buf.drop (2 * 8)) 1 = 0 := by
    unfold intAt
    rw [hsplit, Nat.mul_one, List.append_assoc, List.append_assoc, List.drop_append, leBytes_length,
      List.drop_eq_nil_of_le (by simp [leBytes_length]), List.nil_append, Nat.sub_self, List.drop_zero,
      List.take_append_of_le_length (by simp [leBytes_length]),
      List.take_of_length_le (by simp [leBytes_length]), leVal_leBytes]
    rfl
  rw [i0, i1]

example : osPipe 4 [0, 0, 0, 0, 0, 0, 0, 0] (300, 304) = .ok [44, 1, 0, 0, 48, 1, 0, 0] := by decide

end Verif.Win
