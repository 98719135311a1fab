import Mathlib.Data.List.Basic
import Mathlib.Tactic.Tauto

/-!
# Errors of sockets on Windows (`src/os_windows.c` 937-1057, 1324-1326; `src/async_io.c` 299-328), C241

`os_geterror` turns the last error of Winsock into an `errno`; the loops of `async_read` and `async_write` wait and try again as long as
that is `EAGAIN`.

Simplified: the error codes are names, all the other numbers are `other`.
-/

namespace Verif.Win.WsaErr

/-- Error codes of Winsock. -/
inductive Wsa where
  | intr | badf | acces | fault | inval | mfile | wouldblock | inprogress | already | notsock | destaddrreq | msgsize | prototype
  | noprotoopt | protonosupport | opnotsupp | afnosupport | addrinuse | addrnotavail | netdown | netunreach | netreset | connaborted
  | connreset | nobufs | isconn | notconn | shutdown | timedout | connrefused | loop | nametoolong | hostdown | hostunreach | notempty
  | proclim | users | dquot | notinitialised | cancelled
  | other (n : Int)
  deriving DecidableEq, Repr

inductive Errno where
  | intr | badf | acces | fault | inval | mfile | again | inprogress | already | notsock | destaddrreq | msgsize | prototype
  | noprotoopt | protonosupport | notsup | afnosupport | addrinuse | addrnotavail | netdown | netunreach | netreset | connaborted
  | connreset | nomem | isconn | notconn | timedout | connrefused | loop | nametoolong | hostunreach | notempty | perm | canceled
  | nobufs | pipe | dquot | users | hostdown
  deriving DecidableEq, Repr

/-- `convert_wsa_error`, os_windows.c:937-1057. -/
def convert : Wsa → Errno
  | .intr => .intr
  | .badf => .badf
  | .acces => .acces
  | .fault => .fault
  | .notinitialised => .perm
  | .mfile => .mfile
  | .inprogress => .inprogress
  | .already => .already
  | .notsock => .notsock
  | .destaddrreq => .destaddrreq
  | .msgsize => .msgsize
  | .prototype => .prototype
  | .noprotoopt => .noprotoopt
  | .protonosupport => .protonosupport
  | .opnotsupp => .notsup
  | .afnosupport => .afnosupport
  | .addrinuse => .addrinuse
  | .addrnotavail => .addrnotavail
  | .netdown => .netdown
  | .netunreach => .netunreach
  | .netreset => .netreset
  | .connaborted => .connaborted
  | .connreset => .connreset
  | .nobufs => .nomem
  | .isconn => .isconn
  | .notconn => .notconn
  | .shutdown => .connreset
  | .timedout => .timedout
  | .connrefused => .connrefused
  | .loop => .loop
  | .nametoolong => .nametoolong
  | .hostdown => .netdown
  | .hostunreach => .hostunreach
  | .notempty => .notempty
  | .proclim => .again
  | .users => .again
  | .dquot => .again
  | .wouldblock => .again
  | .cancelled => .canceled
  | .inval => .inval
  | .other _ => .inval

/-- What one `read` or `write` on a socket gives: a count, or an error of Winsock. -/
inductive Try where
  | done (n : Nat)
  | err (e : Wsa)
  deriving DecidableEq, Repr

/-- `async_read`, async_io.c:308-314, and each part of `async_write`, 320-321: the results of the tries one after the other, with a wait
in between.  The outcome is the count or the `errno`, and how many tries there were; `none`: the call goes on. -/
def attempt : List Try → Nat → Option (Except Errno Nat × Nat)
  | [], _ => none
  | .done n :: _, k => some (.ok n, k + 1)
  | .err e :: l, k => if convert e = .again then attempt l (k + 1) else some (.error (convert e), k + 1)

/-! ## Specification -/

/-- The `errno` that the same failure has on POSIX systems, for failures that have one. -/
def posix : Wsa → Option Errno
  | .intr => some .intr
  | .badf => some .badf
  | .acces => some .acces
  | .fault => some .fault
  | .inval => some .inval
  | .mfile => some .mfile
  | .wouldblock => some .again
  | .inprogress => some .inprogress
  | .already => some .already
  | .notsock => some .notsock
  | .destaddrreq => some .destaddrreq
  | .msgsize => some .msgsize
  | .prototype => some .prototype
  | .noprotoopt => some .noprotoopt
  | .protonosupport => some .protonosupport
  | .opnotsupp => some .notsup
  | .afnosupport => some .afnosupport
  | .addrinuse => some .addrinuse
  | .addrnotavail => some .addrnotavail
  | .netdown => some .netdown
  | .netunreach => some .netunreach
  | .netreset => some .netreset
  | .connaborted => some .connaborted
  | .connreset => some .connreset
  | .nobufs => some .nobufs
  | .isconn => some .isconn
  | .notconn => some .notconn
  | .shutdown => some .pipe
  | .timedout => some .timedout
  | .connrefused => some .connrefused
  | .loop => some .loop
  | .nametoolong => some .nametoolong
  | .hostdown => some .hostdown
  | .hostunreach => some .hostunreach
  | .notempty => some .notempty
  | .users => some .users
  | .dquot => some .dquot
  | .cancelled => some .canceled
  | .proclim | .notinitialised | .other _ => none

/-- What the caller shall see of a try: the count, or the error as `errno` (see `same_errno_partial` for which). -/
def Try.seen : Try → Except Errno Nat
  | .done n => .ok n
  | .err e => .error (convert e)

/-- The limits: too many processes, too many users, no quota left. -/
def Limit (e : Wsa) : Prop := e = .proclim ∨ e = .users ∨ e = .dquot

/-! ## C241 -/

/-- A failure has the `errno` it has elsewhere.  Missing: `WSAENOBUFS`, `WSAESHUTDOWN`, `WSAEHOSTDOWN` and the limits have another. -/
theorem same_errno_partial (e : Wsa) (c : Errno) (hp : posix e = some c) (h1 : e ≠ .nobufs) (h2 : e ≠ .shutdown) (h3 : e ≠ .hostdown)
    (h4 : ¬Limit e) : convert e = c := by
  cases e <;> simp_all [posix, convert, Limit]

example : posix .connrefused = some .connrefused ∧ ¬Limit .connrefused := by simp [posix, Limit]

/-- These have another, and one that stands for something else: the end of what the program itself has shut down looks like a
connection reset by the other side, a host that is down like a network that is down, no buffers like no memory. -/
theorem other_errno : convert .shutdown = convert .connreset ∧ convert .hostdown = convert .netdown ∧
    posix .shutdown ≠ some (convert .shutdown) ∧ posix .hostdown ≠ some (convert .hostdown) ∧
    posix .nobufs ≠ some (convert .nobufs) := by
  decide

/-- A call waits and tries again only if it would block, or if a limit was hit. -/
theorem again_iff (e : Wsa) : convert e = .again ↔ e = .wouldblock ∨ Limit e := by
  cases e <;> simp [convert, Limit]

/-- Let the socket be busy any number of times and then give a result: the caller gets that result after just as many tries.  Missing:
the result must not be one of the limits. -/
theorem busy_then_result_partial (k : Nat) (t : Try) (l : List Try) (ht : t ≠ .err .wouldblock) (hl : ∀ e, t = .err e → ¬Limit e) :
    attempt (List.replicate k (.err .wouldblock) ++ t :: l) 0 =
      some (t.seen, k + 1) := by
  have gen : ∀ i, attempt (List.replicate k (.err .wouldblock) ++ t :: l) i =
      some (t.seen, i + k + 1) := by
    induction k with
    | zero =>
      intro i
      cases t with
      | done n => simp [attempt, Try.seen]
      | err e =>
        have : convert e ≠ .again := by
          rw [Ne, again_iff]
          rintro (h | h)
          · exact ht (by rw [h])
          · exact hl e rfl h
        simp [attempt, this, Try.seen]
    | succ k ih =>
      intro i
      rw [List.replicate_succ, List.cons_append]
      show (if convert .wouldblock = .again then _ else _) = _
      rw [if_pos (by rfl), ih (i + 1), show i + 1 + k + 1 = i + (k + 1) + 1 by omega]
  simpa using gen 0

example : attempt [.err .wouldblock, .err .wouldblock, .err .connreset, .done 4] 0 = some (.error .connreset, 3) := by decide

/-- The result does not depend on what would have come after. -/
theorem first_result (l m : List Try) (k : Nat) (r : Except Errno Nat × Nat) (h : attempt l k = some r) : attempt (l ++ m) k = some r := by
  induction l generalizing k with
  | nil => simp [attempt] at h
  | cons t l ih =>
    cases t with
    | done n => simpa [attempt] using h
    | err e =>
      simp only [attempt, List.cons_append] at h ⊢
      split at h
      · rename_i he
        rw [if_pos he]; exact ih _ h
      · rename_i he
        rw [if_neg he]; exact h

example : attempt [.done 4] 0 = some (.ok 4, 1) := by decide

/-- A limit that lasts is never reported: the call waits and tries for ever. -/
theorem limit_never_reported (e : Wsa) (he : Limit e) (n : Nat) : attempt (List.replicate n (.err e)) 0 = none := by
  have gen : ∀ k, attempt (List.replicate n (.err e)) k = none := by
    induction n with
    | zero => intro k; rfl
    | succ n ih =>
      intro k
      rw [List.replicate_succ]
      show (if convert e = .again then _ else _) = _
      rw [if_pos ((again_iff e).2 (Or.inr he)), ih]
  exact gen 0

example : Limit .dquot := by simp [Limit]

/-- Every other failure is reported at the first try. -/
theorem reported_at_once (e : Wsa) (l : List Try) (h1 : e ≠ .wouldblock) (h2 : ¬Limit e) :
    attempt (.err e :: l) 0 = some (.error (convert e), 1) := by
  have : convert e ≠ .again := by rw [Ne, again_iff]; tauto
  simp [attempt, this]

example : Wsa.notsock ≠ .wouldblock ∧ ¬Limit .notsock := by simp [Limit]

end Verif.Win.WsaErr
