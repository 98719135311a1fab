import Verif.Tls.Model
import Mathlib.Tactic

/-!
# Properties of TLS connections (C102, C103, C104)
-/

namespace Verif.Tls

open Verif.Fd (revents READ WRITE EPOLLHUP EPOLLIN EPOLLOUT EPOLLERR)

/-- The library asked to wait, and the wait ended because the descriptor became readable or writable (and nothing else). -/
def Call.Waited (c : Call) : Prop := (c.x = WANT_IN ∨ c.x = WANT_OUT) ∧ (revents c.mask = READ ∨ revents c.mask = WRITE)

/-- The library failed: it gave neither data nor an end of the stream, nor did it ask to wait. -/
def Call.Failed (c : Call) : Prop := c.x = -1 ∧ c.eof = false

/-- The error that is returned. -/
def Call.error (c : Call) : Int := if c.code then -EPROTO else -ECONNREFUSED

theorem poll_waited {ev : BitVec 8} {c : Call} (h : c.Waited) : tlsPoll ev c.x c.mask = 0 := by
  unfold tlsPoll
  rw [if_pos h.1]
  rcases h.2 with e | e <;> rw [e] <;> decide

theorem retry_waited {ev : BitVec 8} {c : Call} (h : c.Waited) (o : Out) : retry ev c o = o := by
  unfold retry
  rw [poll_waited h]
  rfl

theorem retry_fail {ev : BitVec 8} {c : Call} (h : tlsPoll ev c.x c.mask = -1) (o : Out) : retry ev c o = .ret c.error := by
  unfold retry
  rw [h]
  unfold Call.error tlserr
  cases c.code <;> rfl

theorem poll_cases (ev : BitVec 8) (x : Int) (m : BitVec 32) : tlsPoll ev x m = 0 ∨ tlsPoll ev x m = -1 := by
  unfold tlsPoll
  simp only
  split <;> split <;> simp

theorem retry_zero {ev : BitVec 8} {c : Call} (h : tlsPoll ev c.x c.mask = 0) (o : Out) : retry ev c o = o := by
  unfold retry
  rw [h]
  rfl

theorem error_neg (c : Call) : c.error = -EPROTO ∨ c.error = -ECONNREFUSED := by
  unfold Call.error; cases c.code <;> simp

theorem error_lt (c : Call) : c.error < 0 := by rcases error_neg c with h | h <;> rw [h] <;> decide

theorem poll_nowait (ev : BitVec 8) (m : BitVec 32) : tlsPoll ev (-1) m = if ev = 1 ∨ ev = 2 then 0 else -1 := rfl

theorem poll_failed {c : Call} (h : c.x = -1) : tlsPoll 0 c.x c.mask = -1 := by
  rw [h, poll_nowait]
  rfl

theorem reader_waited {pre : List Call} (h : ∀ c ∈ pre, c.Waited) : ∀ (ev : BitVec 8) (c : Call) (cs : List Call),
    pre ≠ [] → reader ev (pre ++ c :: cs) = reader 0 (c :: cs) := by
  induction pre with
  | nil => intro _ _ _ h; exact absurd rfl h
  | cons a pre ih =>
    intro ev c cs _
    have ha := h a (by simp)
    have hx : ¬ 0 ≤ a.x ∧ ¬ a.x = -1 := by rcases ha.1 with e | e <;> rw [e] <;> decide
    rw [List.cons_append, reader, if_neg hx.1, if_neg (fun h => hx.2 h.1), retry_waited ha]
    by_cases hp : pre = []
    · subst hp; rfl
    · exact ih (fun c hc => h c (by simp [hc])) 0 c cs hp

/-- Claim C102, the part that holds: on a socket whose last wait has been consumed (`events` is 0), after any number of waits that end because the
socket became readable or writable, `tls_reader` returns the number of bytes that the library delivered, 0 at the end of the stream, and a negative
error when the library fails. -/
theorem tls_reader_outcome_partial (pre : List Call) (h : ∀ c ∈ pre, c.Waited) (c : Call) (cs : List Call) :
    (0 ≤ c.x → reader 0 (pre ++ c :: cs) = .ret c.x) ∧
    (c.x = -1 → c.eof = true → reader 0 (pre ++ c :: cs) = .ret 0) ∧
    (c.Failed → reader 0 (pre ++ c :: cs) = .ret c.error) := by
  have e : reader 0 (pre ++ c :: cs) = reader 0 (c :: cs) := by
    by_cases hp : pre = []
    · subst hp; rfl
    · exact reader_waited h 0 c cs hp
  rw [e, reader]
  refine ⟨fun h => by rw [if_pos h], fun h1 h2 => ?_, fun h => ?_⟩
  · rw [if_neg (by rw [h1]; decide), if_pos ⟨h1, h2⟩]
  · rw [if_neg (by rw [h.1]; decide), if_neg (by rw [h.2]; simp), retry_fail (poll_failed h.1)]

/-- Claim C102: whatever the library and the kernel do, a result of `tls_reader` that is not negative is what the library's last call delivered, or
0 at the end of the stream, and all calls before had asked to wait or failed; a negative result is one of the two errors. -/
theorem tls_reader_sound : ∀ (ev : BitVec 8) (cs : List Call) (n : Int), reader ev cs = .ret n →
    (n = -EPROTO ∨ n = -ECONNREFUSED) ∨
      ∃ pre c post, cs = pre ++ c :: post ∧ (∀ a ∈ pre, a.x < 0) ∧ (0 ≤ c.x ∧ c.x = n ∨ c.x = -1 ∧ c.eof = true ∧ n = 0)
  | _, [], n, h => by simp [reader] at h
  | ev, c :: cs, n, h => by
    rw [reader] at h
    split at h
    · rename_i hx
      injection h with h
      exact .inr ⟨[], c, cs, rfl, by simp, .inl ⟨hx, h⟩⟩
    · rename_i hx
      split at h
      · rename_i he
        injection h with h
        exact .inr ⟨[], c, cs, rfl, by simp, .inr ⟨he.1, he.2, h.symm⟩⟩
      · rcases poll_cases ev c.x c.mask with hp | hp
        · rw [retry_zero hp] at h
          rcases tls_reader_sound 0 cs n h with k | ⟨pre, d, post, k1, k2, k3⟩
          · exact .inl k
          · refine .inr ⟨c :: pre, d, post, by rw [k1]; rfl, fun a ha => ?_, k3⟩
            rcases List.mem_cons.1 ha with rfl | ha
            · omega
            · exact k2 a ha
        · rw [retry_fail hp] at h
          injection h with h
          left
          rw [← h]
          exact error_neg c

/-- Claim C102: no assertion fails. -/
theorem tls_reader_no_abort : ∀ (ev : BitVec 8) (cs : List Call), reader ev cs ≠ .abort
  | _, [] => by simp [reader]
  | ev, c :: cs => by
    rw [reader]
    split
    · simp
    · split
      · simp
      · rcases poll_cases ev c.x c.mask with hp | hp
        · rw [retry_zero hp]; exact tls_reader_no_abort 0 cs
        · rw [retry_fail hp]; simp

/-- Against C102: if the wait for data ends with a hang-up reported too (as when the peer sent its last data and the connection was reset), the reader
returns an error, whatever the library would deliver. -/
theorem tls_reader_hangup_fails (ev : BitVec 8) (c : Call) (cs : List Call) (hx : c.x = WANT_IN ∨ c.x = WANT_OUT)
    (hm : c.mask &&& EPOLLHUP ≠ 0) : reader ev (c :: cs) = .ret c.error := by
  have hp : tlsPoll ev c.x c.mask = -1 := by
    unfold tlsPoll
    rw [if_pos hx]
    unfold revents
    by_cases h1 : c.mask &&& EPOLLIN = 0 <;> by_cases h2 : c.mask &&& EPOLLOUT = 0 <;> simp only [hm, h1, h2, ne_eq,
      not_true_eq_false, not_false_eq_true, if_true, if_false] <;> decide
  have hn : ¬ 0 ≤ c.x ∧ ¬ c.x = -1 := by rcases hx with e | e <;> rw [e] <;> decide
  rw [reader, if_neg hn.1, if_neg (fun h => hn.2 h.1), retry_fail hp]

/-- Claim C102: after a failure of the library the reader calls it at most once more (this happens if an earlier wait on the descriptor, such as
the one in connecting, was not consumed), and then reports the error. -/
theorem tls_reader_failure_reported (ev : BitVec 8) (c d : Call) (cs : List Call) (hc : c.Failed) (hd : d.Failed) :
    ((ev ≠ 1 ∧ ev ≠ 2) → reader ev (c :: cs) = .ret c.error) ∧
    ((ev = 1 ∨ ev = 2) → reader ev (c :: d :: cs) = .ret d.error) := by
  have hn : ∀ {c : Call}, c.Failed → ¬ 0 ≤ c.x ∧ ¬ (c.x = -1 ∧ c.eof = true) := by
    intro c h; rw [h.1, h.2]; decide
  constructor
  · intro h
    have hp : tlsPoll ev c.x c.mask = -1 := by
      rw [hc.1, poll_nowait, if_neg (by tauto)]
    rw [reader, if_neg (hn hc).1, if_neg (hn hc).2, retry_fail hp]
  · intro h
    have hp : tlsPoll ev c.x c.mask = 0 := by
      rw [hc.1, poll_nowait, if_pos h]
    rw [reader, if_neg (hn hc).1, if_neg (hn hc).2, retry_zero hp, reader, if_neg (hn hd).1, if_neg (hn hd).2,
      retry_fail (poll_failed hd.1)]

/-! A read that waits twice and then gets 5 bytes; one that waits and finds the end; one that is hung up. -/
example : reader 0 [⟨-2, false, false, 1⟩, ⟨-3, false, false, 4⟩, ⟨5, false, false, 0⟩] = .ret 5 ∧
    reader 0 [⟨-2, false, false, 1⟩, ⟨-1, true, true, 0⟩] = .ret 0 ∧
    reader 0 [⟨-2, false, false, 17⟩, ⟨5, false, false, 0⟩] = .ret (-111) := by decide +kernel
example : Call.Waited ⟨-2, false, false, 1⟩ ∧ Call.Failed ⟨-1, true, false, 0⟩ := by
  refine ⟨⟨.inl rfl, .inl (by decide)⟩, rfl, rfl⟩

/-! ## Writing -/

/-- Claim C103, the part that holds: whatever the library and the kernel do, if `tls_writer` returns `n`, not negative, then exactly the first `n`
bytes of the buffer have been accepted, once (`n` is at most the length, which the library guarantees); if it returns an error, none. -/
theorem tls_writer_exact_partial (mem : List UInt8) (len : Nat) (h0 : len ≠ 0) (hm : len ≤ mem.length) :
    ∃ req, request mem len = some req ∧ req = mem.take len ∧ ∀ (cs : List Call) (ev : BitVec 8) (n : Int), (∀ c ∈ cs, c.x ≤ len) →
      writer ev cs = .ret n →
      (0 ≤ n → n ≤ len ∧ accepted req ev cs = mem.take n.toNat) ∧ (n < 0 → accepted req ev cs = [] ∧ (n = -EPROTO ∨ n = -ECONNREFUSED)) := by
  refine ⟨mem.take len, by unfold request; rw [if_neg h0, if_pos hm], rfl, fun cs => ?_⟩
  induction cs with
  | nil => intro ev n _ h; simp [writer] at h
  | cons c cs ih =>
    intro ev n hle h
    rw [writer] at h
    rw [accepted]
    split at h
    · rename_i hx
      injection h with h
      have := hle c (by simp)
      rw [if_pos hx, List.take_take, Nat.min_eq_left (by omega), ← h]
      exact ⟨fun _ => ⟨this, rfl⟩, fun k => absurd hx (by omega)⟩
    · rename_i hx
      rw [if_neg hx]
      rcases poll_cases ev c.x c.mask with hp | hp
      · rw [retry_zero hp] at h
        rw [retry_zero hp]
        exact ih 0 n (fun c hc => hle c (by simp [hc])) h
      · rw [retry_fail hp] at h
        rw [retry_fail hp]
        injection h with h
        have := error_lt c
        refine ⟨fun k => absurd k (by omega), fun _ => ⟨rfl, ?_⟩⟩
        rw [← h]
        exact error_neg c

/-- Against C103: a write of 0 bytes sends all bytes up to the first NUL. -/
theorem tls_writer_zero_sends_string (s rest : List UInt8) (h : (0 : UInt8) ∉ s) (c : Call) (hx : c.x = s.length) :
    request (s ++ 0 :: rest) 0 = some s ∧ accepted s 0 [c] = s ∧ writer 0 [c] = .ret s.length := by
  refine ⟨?_, ?_, ?_⟩
  · unfold request
    rw [if_pos rfl, if_pos (by simp)]
    congr 1
    rw [List.takeWhile_append_of_pos (by intro a ha; simp only [decide_eq_true_eq]; rintro rfl; exact h ha)]
    simp
  · rw [accepted, if_pos (by omega), hx]
    simp
  · rw [writer, if_pos (by omega), hx]

/-- Against C103: and if there is none, memory after the buffer is read. -/
theorem tls_writer_zero_reads_beyond (s : List UInt8) (h : (0 : UInt8) ∉ s) : request s 0 = none := by
  unfold request
  rw [if_pos rfl, if_neg h]

/-- Against C103: what the library accepts of the buffer is not completed, unlike in `async_write` on a socket without TLS: for every short result
the rest is not sent. -/
theorem tls_writer_short (mem : List UInt8) (len : Nat) (c d : Call) (cs : List Call) (ev : BitVec 8) (hm : len ≤ mem.length) (hx : 0 ≤ c.x)
    (hl : c.x < len) : writer ev (c :: d :: cs) = .ret c.x ∧ (accepted (mem.take len) ev (c :: d :: cs)).length < len := by
  refine ⟨by rw [writer, if_pos hx], ?_⟩
  rw [accepted, if_pos hx, List.length_take, List.length_take]
  omega

example : writer 0 [⟨-3, false, false, 4⟩, ⟨3, false, false, 0⟩] = .ret 3 ∧
    accepted [1, 2, 3] 0 [⟨-3, false, false, 4⟩, ⟨3, false, false, 0⟩] = [1, 2, 3] := by decide +kernel

/-! ## Accepting and dialling -/

theorem handshake_cases : ∀ (ev : BitVec 8) (cs : List Call), handshake ev cs = .pending ∨ handshake ev cs = .ret 0 ∨
    handshake ev cs = .ret (-EPROTO) ∨ handshake ev cs = .ret (-ECONNREFUSED)
  | _, [] => .inl rfl
  | ev, c :: cs => by
    rw [handshake]
    split
    · exact .inr (.inl rfl)
    · rcases poll_cases ev c.x c.mask with hp | hp
      · rw [retry_zero hp]; exact handshake_cases 0 cs
      · rw [retry_fail hp]
        rcases error_neg c with h | h <;> rw [h] <;> simp

/-- A handshake succeeds only if the library said so. -/
theorem handshake_zero : ∀ (ev : BitVec 8) (cs : List Call), handshake ev cs = .ret 0 →
    ∃ pre c post, cs = pre ++ c :: post ∧ c.x = 0 ∧ ∀ a ∈ pre, a.x ≠ 0
  | _, [], h => by simp [handshake] at h
  | ev, c :: cs, h => by
    rw [handshake] at h
    split at h
    · rename_i hx; exact ⟨[], c, cs, rfl, hx, by simp⟩
    · rename_i hx
      rcases poll_cases ev c.x c.mask with hp | hp
      · rw [retry_zero hp] at h
        obtain ⟨pre, d, post, k1, k2, k3⟩ := handshake_zero 0 cs h
        refine ⟨c :: pre, d, post, by rw [k1]; rfl, k2, fun a ha => ?_⟩
        rcases List.mem_cons.1 ha with rfl | ha
        · exact hx
        · exact k3 a ha
      · rw [retry_fail hp] at h
        injection h with h
        exact absurd h (by have := error_lt c; omega)

/-- Claim C104, the part that holds: if a connection came in, `tls_accept` returns its descriptor only if the library completed the handshake; then
the descriptor is open and has its TLS object. In all other cases it returns 0 or -1, the descriptor has been closed once and has no TLS object, and
every object made was freed once. -/
theorem tls_accept_outcome_partial (client : Int) (hc : 0 < client) (made : Int) (hm : made = 0 ∨ made = -1) (code : Bool) (ev : BitVec 8)
    (cs : List Call) :
    accept client made code ev cs = none ∨
    ∃ e, accept client made code ev cs = some (.ok e) ∧
      ((e.ret = client ∧ made = 0 ∧ e.acts = [.new] ∧ e.tls = true ∧ ∃ pre c post, cs = pre ++ c :: post ∧ c.x = 0 ∧ ∀ a ∈ pre, a.x ≠ 0) ∨
        ((e.ret = 0 ∨ e.ret = -1) ∧ e.tls = false ∧ e.acts.count .closeFd = 1 ∧ e.acts.count .free = e.acts.count .new)) := by
  unfold accept
  rw [if_neg (by omega)]
  rcases hm with rfl | rfl
  · unfold asyncAccept
    have : tlserr 0 code = some 0 := rfl
    rw [this]
    simp only
    rw [if_neg (by decide)]
    rcases handshake_cases ev cs with h | h | h | h
    · left; rw [h]
    · right
      rw [h]
      refine ⟨⟨client, [.new], true⟩, rfl, .inl ⟨rfl, trivial, rfl, rfl, handshake_zero ev cs h⟩⟩
    · right
      rw [h]
      exact ⟨⟨-1, [.new, .closeNotify, .free, .closeFd], false⟩, rfl, .inr ⟨.inr rfl, rfl, by decide, by decide⟩⟩
    · right
      rw [h]
      exact ⟨⟨0, [.new, .closeNotify, .free, .closeFd], false⟩, rfl, .inr ⟨.inl rfl, rfl, by decide, by decide⟩⟩
  · right
    unfold asyncAccept
    cases code
    · exact ⟨⟨0, [.closeFd], false⟩, rfl, .inr ⟨.inl rfl, rfl, by decide, by decide⟩⟩
    · exact ⟨⟨-1, [.closeFd], false⟩, rfl, .inr ⟨.inr rfl, rfl, by decide, by decide⟩⟩

/-- Against C104: if accepting the connection failed (the peer gave up, or there are no descriptors left), memory before the table of descriptors is
used. -/
theorem tls_accept_failed_ub (client : Int) (hc : client < 0) (made : Int) (code : Bool) (ev : BitVec 8) (cs : List Call) :
    accept client made code ev cs = some .ub := by
  unfold accept
  rw [if_pos hc]

/-- Claim C104 for `tls_dial`, the part that holds: it returns a descriptor only if the library completed the handshake, and after a refused connection
it returns an error, with the descriptor closed once and the TLS object freed. -/
theorem tls_dial_outcome_partial (fd : Int) (hfd : 0 < fd) (code : Bool) (ev : BitVec 8) (cs : List Call) :
    (handshake ev cs = .ret 0 →
      dial fd 0 0 code ev cs = some (.ok ⟨fd, [.new], true⟩) ∧ ∃ pre c post, cs = pre ++ c :: post ∧ c.x = 0 ∧ ∀ a ∈ pre, a.x ≠ 0) ∧
    (handshake ev cs = .ret (-ECONNREFUSED) → dial fd 0 0 code ev cs = some (.ok ⟨-EINVAL, [.new, .free, .closeFd], false⟩)) ∧
    (∀ e, dial fd 0 0 code ev cs = some (.ok e) → e.ret = fd → handshake ev cs = .ret 0) := by
  have h0 : tlserr 0 code = some 0 := rfl
  refine ⟨fun h => ⟨?_, handshake_zero ev cs h⟩, fun h => ?_, fun e he hr => ?_⟩
  · unfold dial asyncConnect
    simp only [ne_eq, not_true_eq_false, if_false, h0]
    rw [h]
    rfl
  · unfold dial asyncConnect
    simp only [ne_eq, not_true_eq_false, if_false, h0]
    rw [h]
    rfl
  · rcases handshake_cases ev cs with h | h | h | h
    · unfold dial asyncConnect at he
      simp only [ne_eq, not_true_eq_false, if_false, h0] at he
      rw [h] at he
      simp at he
    · exact h
    · unfold dial asyncConnect at he
      simp only [ne_eq, not_true_eq_false, if_false, h0] at he
      rw [h] at he
      simp [closer] at he
    · unfold dial asyncConnect at he
      simp only [ne_eq, not_true_eq_false, if_false, h0] at he
      rw [h] at he
      simp at he
      subst he
      simp only [EINVAL] at hr
      omega

/-- Against C104: whenever the handshake of `tls_dial` fails with an error of the library (a wrong certificate, say), the error text is asked of a null
pointer. -/
theorem tls_dial_failure_ub (fd : Int) (code : Bool) (ev : BitVec 8) (cs : List Call) (h : handshake ev cs = .ret (-EPROTO)) :
    dial fd 0 0 code ev cs = some .ub := by
  have h0 : tlserr 0 code = some 0 := rfl
  unfold dial asyncConnect
  simp only [ne_eq, not_true_eq_false, if_false, h0]
  rw [h]
  simp [closer]

/-- Every failure of the library in the handshake with an error code, on a descriptor without an unconsumed wait, gives that outcome. -/
theorem handshake_failure (pre : List Call) (h : ∀ c ∈ pre, c.Waited) (c : Call) (hx : c.x = -1) (hcode : c.code = true) (cs : List Call) :
    handshake 0 (pre ++ c :: cs) = .ret (-EPROTO) := by
  induction pre with
  | nil =>
    rw [List.nil_append, handshake, if_neg (by rw [hx]; decide), retry_fail (poll_failed hx)]
    unfold Call.error
    rw [hcode]
    rfl
  | cons a pre ih =>
    have ha := h a (by simp)
    rw [List.cons_append, handshake, if_neg (by rcases ha.1 with e | e <;> rw [e] <;> decide), retry_waited ha]
    exact ih (fun c hc => h c (by simp [hc]))

/-! An accepted connection; one that the peer gives up in the handshake; a dial to a server with a wrong certificate. -/
example : accept 7 0 false 0 [⟨-2, false, false, 1⟩, ⟨0, false, false, 0⟩] = some (.ok ⟨7, [.new], true⟩) ∧
    accept 7 0 false 0 [⟨-2, false, false, 1⟩, ⟨-1, false, false, 0⟩] = some (.ok ⟨0, [.new, .closeNotify, .free, .closeFd], false⟩) ∧
    dial 7 0 0 false 0 [⟨-2, false, false, 1⟩, ⟨-1, true, false, 0⟩] = some .ub ∧
    dial 7 0 0 false 0 [⟨-2, false, false, 1⟩, ⟨0, false, false, 0⟩] = some (.ok ⟨7, [.new], true⟩) := by decide +kernel

end Verif.Tls
