import Mathlib.Data.List.Basic

/-!
# Error codes of the epoll functions on Windows (`src/wepoll.c` 516-640, 675-775, 777-809), C270

Error codes are their names.  `errno` is what a failing call leaves; the codes of Windows are turned into it by a table.
-/

namespace Verif.Wepoll.Errors

/-- `ERR__ERRNO_MAPPINGS`, src/wepoll.c:675-775. -/
def table : List (String × String) :=
  [("ERROR_ACCESS_DENIED", "EACCES"), ("ERROR_ALREADY_EXISTS", "EEXIST"), ("ERROR_BAD_COMMAND", "EACCES"),
   ("ERROR_BAD_EXE_FORMAT", "ENOEXEC"), ("ERROR_BAD_LENGTH", "EACCES"), ("ERROR_BAD_NETPATH", "ENOENT"),
   ("ERROR_BAD_NET_NAME", "ENOENT"), ("ERROR_BAD_NET_RESP", "ENETDOWN"), ("ERROR_BAD_PATHNAME", "ENOENT"),
   ("ERROR_BROKEN_PIPE", "EPIPE"), ("ERROR_CANNOT_MAKE", "EACCES"), ("ERROR_COMMITMENT_LIMIT", "ENOMEM"),
   ("ERROR_CONNECTION_ABORTED", "ECONNABORTED"), ("ERROR_CONNECTION_ACTIVE", "EISCONN"),
   ("ERROR_CONNECTION_REFUSED", "ECONNREFUSED"), ("ERROR_CRC", "EACCES"), ("ERROR_DIR_NOT_EMPTY", "ENOTEMPTY"),
   ("ERROR_DISK_FULL", "ENOSPC"), ("ERROR_DUP_NAME", "EADDRINUSE"), ("ERROR_FILENAME_EXCED_RANGE", "ENOENT"),
   ("ERROR_FILE_NOT_FOUND", "ENOENT"), ("ERROR_GEN_FAILURE", "EACCES"), ("ERROR_GRACEFUL_DISCONNECT", "EPIPE"),
   ("ERROR_HOST_DOWN", "EHOSTUNREACH"), ("ERROR_HOST_UNREACHABLE", "EHOSTUNREACH"), ("ERROR_INSUFFICIENT_BUFFER", "EFAULT"),
   ("ERROR_INVALID_ADDRESS", "EADDRNOTAVAIL"), ("ERROR_INVALID_FUNCTION", "EINVAL"), ("ERROR_INVALID_HANDLE", "EBADF"),
   ("ERROR_INVALID_NETNAME", "EADDRNOTAVAIL"), ("ERROR_INVALID_PARAMETER", "EINVAL"),
   ("ERROR_INVALID_USER_BUFFER", "EMSGSIZE"), ("ERROR_IO_PENDING", "EINPROGRESS"), ("ERROR_LOCK_VIOLATION", "EACCES"),
   ("ERROR_MORE_DATA", "EMSGSIZE"), ("ERROR_NETNAME_DELETED", "ECONNABORTED"), ("ERROR_NETWORK_ACCESS_DENIED", "EACCES"),
   ("ERROR_NETWORK_BUSY", "ENETDOWN"), ("ERROR_NETWORK_UNREACHABLE", "ENETUNREACH"), ("ERROR_NOACCESS", "EFAULT"),
   ("ERROR_NONPAGED_SYSTEM_RESOURCES", "ENOMEM"), ("ERROR_NOT_ENOUGH_MEMORY", "ENOMEM"),
   ("ERROR_NOT_ENOUGH_QUOTA", "ENOMEM"), ("ERROR_NOT_FOUND", "ENOENT"), ("ERROR_NOT_LOCKED", "EACCES"),
   ("ERROR_NOT_READY", "EACCES"), ("ERROR_NOT_SAME_DEVICE", "EXDEV"), ("ERROR_NOT_SUPPORTED", "ENOTSUP"),
   ("ERROR_NO_MORE_FILES", "ENOENT"), ("ERROR_NO_SYSTEM_RESOURCES", "ENOMEM"), ("ERROR_OPERATION_ABORTED", "EINTR"),
   ("ERROR_OUT_OF_PAPER", "EACCES"), ("ERROR_PAGED_SYSTEM_RESOURCES", "ENOMEM"), ("ERROR_PAGEFILE_QUOTA", "ENOMEM"),
   ("ERROR_PATH_NOT_FOUND", "ENOENT"), ("ERROR_PIPE_NOT_CONNECTED", "EPIPE"), ("ERROR_PORT_UNREACHABLE", "ECONNRESET"),
   ("ERROR_PROTOCOL_UNREACHABLE", "ENETUNREACH"), ("ERROR_REM_NOT_LIST", "ECONNREFUSED"),
   ("ERROR_REQUEST_ABORTED", "EINTR"), ("ERROR_REQ_NOT_ACCEP", "EWOULDBLOCK"), ("ERROR_SECTOR_NOT_FOUND", "EACCES"),
   ("ERROR_SEM_TIMEOUT", "ETIMEDOUT"), ("ERROR_SHARING_VIOLATION", "EACCES"), ("ERROR_TOO_MANY_NAMES", "ENOMEM"),
   ("ERROR_TOO_MANY_OPEN_FILES", "EMFILE"), ("ERROR_UNEXP_NET_ERR", "ECONNABORTED"), ("ERROR_WAIT_NO_CHILDREN", "ECHILD"),
   ("ERROR_WORKING_SET_QUOTA", "ENOMEM"), ("ERROR_WRITE_PROTECT", "EACCES"), ("ERROR_WRONG_DISK", "EACCES"),
   ("WSAEACCES", "EACCES"), ("WSAEADDRINUSE", "EADDRINUSE"), ("WSAEADDRNOTAVAIL", "EADDRNOTAVAIL"),
   ("WSAEAFNOSUPPORT", "EAFNOSUPPORT"), ("WSAECONNABORTED", "ECONNABORTED"), ("WSAECONNREFUSED", "ECONNREFUSED"),
   ("WSAECONNRESET", "ECONNRESET"), ("WSAEDISCON", "EPIPE"), ("WSAEFAULT", "EFAULT"), ("WSAEHOSTDOWN", "EHOSTUNREACH"),
   ("WSAEHOSTUNREACH", "EHOSTUNREACH"), ("WSAEINPROGRESS", "EBUSY"), ("WSAEINTR", "EINTR"), ("WSAEINVAL", "EINVAL"),
   ("WSAEISCONN", "EISCONN"), ("WSAEMSGSIZE", "EMSGSIZE"), ("WSAENETDOWN", "ENETDOWN"), ("WSAENETRESET", "EHOSTUNREACH"),
   ("WSAENETUNREACH", "ENETUNREACH"), ("WSAENOBUFS", "ENOMEM"), ("WSAENOTCONN", "ENOTCONN"), ("WSAENOTSOCK", "ENOTSOCK"),
   ("WSAEOPNOTSUPP", "EOPNOTSUPP"), ("WSAEPROCLIM", "ENOMEM"), ("WSAESHUTDOWN", "EPIPE"), ("WSAETIMEDOUT", "ETIMEDOUT"),
   ("WSAEWOULDBLOCK", "EWOULDBLOCK"), ("WSANOTINITIALISED", "ENETDOWN"), ("WSASYSNOTREADY", "ENETDOWN"),
   ("WSAVERNOTSUPPORTED", "ENOSYS")]

/-- `err__map_win_error_to_errno`, src/wepoll.c:777-786. -/
def errnoOf (e : String) : String := (table.lookup e).getD "EINVAL"

/-- A handle given to a function. -/
inductive H where
  /-- `INVALID_HANDLE_VALUE`. -/
  | invalid
  /-- `GetHandleInformation` fails with this code. -/
  | bad (e : String)
  | good
  deriving DecidableEq

/-- `err_check_handle`, src/wepoll.c:797-809, when the code set last is `e`. -/
def checkHandle (h : H) (e : String) : String :=
  match h with
  | .invalid => "ERROR_INVALID_HANDLE"
  | .bad c => c
  | .good => e

inductive CtlOp where
  | add
  | mod
  | del
  | other
  deriving DecidableEq

/-- What a port knows about the socket of a call. -/
structure Sock where
  /-- The value is 0 or `INVALID_SOCKET`. -/
  nothing : Bool
  /-- Why the base socket is not found (`Verif.Wepoll.BaseSocket`), if it is not. -/
  baseErr : Option String
  /-- There is no memory or no place in a poll group, with this code. -/
  noRoom : Option String
  registered : Bool

/-- `port__ctl_op`, src/wepoll.c:1347-1361, with `sock_new`, 1621-1657, `port_register_socket` and `port_find_socket`, 1376-1396:
the code of a failure. -/
def portCtl (op : CtlOp) (k : Sock) : Option String :=
  match op with
  | .add =>
    if k.nothing then some "ERROR_INVALID_HANDLE"
    else match k.baseErr with
      | some e => some e
      | none =>
        match k.noRoom with
        | some e => some e
        | none => if k.registered then some "ERROR_ALREADY_EXISTS" else none
  | .mod => if k.registered then none else some "ERROR_NOT_FOUND"
  | .del => if k.registered then none else some "ERROR_NOT_FOUND"
  | .other => some "ERROR_INVALID_PARAMETER"

/-- `epoll_ctl`, src/wepoll.c:582-612, after `init` succeeded (`Verif.Wepoll.Init`): `none` for 0, or `errno`.  `known`: the handle is
in the table of epoll handles. -/
def epollCtl (known : Bool) (ep sock : H) (op : CtlOp) (k : Sock) : Option String :=
  let fails (e : String) := some (errnoOf (checkHandle sock (checkHandle ep e)))
  if known then
    match portCtl op k with
    | none => none
    | some e => fails e
  else fails "ERROR_INVALID_PARAMETER"

/-- `epoll_wait`, src/wepoll.c:614-645; `waited`: what `port_wait` says, a number of events or a code. -/
def epollWait (maxEvents : Int) (known : Bool) (ep : H) (waited : Except String Nat) : Except String Nat :=
  if maxEvents ≤ 0 then .error (errnoOf "ERROR_INVALID_PARAMETER")
  else if known then
    match waited with
    | .ok n => .ok n
    | .error e => .error (errnoOf (checkHandle ep e))
  else .error (errnoOf (checkHandle ep "ERROR_INVALID_PARAMETER"))

/-- `epoll_create`, src/wepoll.c:543-548, and `epoll_create1`, 550-555: the `errno` of a refusal. -/
def createRefused (size : Int) : Option String := if size ≤ 0 then some (errnoOf "ERROR_INVALID_PARAMETER") else none
@[inherit_doc createRefused]
def create1Refused (flags : Int) : Option String := if flags ≠ 0 then some (errnoOf "ERROR_INVALID_PARAMETER") else none

/-! ## Specification: the manual of Linux -/

/-- A handle that is not open. -/
def Bad : H → Prop
  | .invalid => True
  | .bad e => e = "ERROR_INVALID_HANDLE"
  | .good => False

instance (h : H) : Decidable (Bad h) := by
  cases h <;> simp only [Bad] <;> infer_instance

/-- Windows refuses information about a handle only because it is not open. -/
def Usual : H → Prop
  | .bad e => e = "ERROR_INVALID_HANDLE"
  | _ => True

/-- `epoll_ctl(2)`: EBADF if one of the two is not open, then EINVAL if the first is no epoll descriptor or the operation is unknown,
then EEXIST or ENOENT. -/
def manual (known : Bool) (ep sock : H) (op : CtlOp) (registered : Bool) : Option String :=
  if Bad ep ∨ Bad sock then some "EBADF"
  else if known = false then some "EINVAL"
  else match op with
    | .other => some "EINVAL"
    | .add => if registered then some "EEXIST" else none
    | .mod => if registered then none else some "ENOENT"
    | .del => if registered then none else some "ENOENT"

/-! ## Proofs -/

theorem names_nodup : (table.map (·.1)).Nodup := by decide +kernel

/-- **C270**: every code of the table gives the `errno` beside it, every other code EINVAL. -/
theorem errno_iff (e x : String) : errnoOf e = x ↔ (e, x) ∈ table ∨ (x = "EINVAL" ∧ ∀ y, (e, y) ∉ table) := by
  have gen : ∀ t : List (String × String), (t.map (·.1)).Nodup → ∀ y, t.lookup e = some y ↔ (e, y) ∈ t := by
    intro t
    induction t with
    | nil => simp
    | cons a t ih =>
      obtain ⟨n, v⟩ := a
      intro hn y
      rw [List.map_cons, List.nodup_cons] at hn
      by_cases he : e = n
      · subst he
        simp only [List.lookup_cons, BEq.rfl, Option.some.injEq, List.mem_cons, Prod.mk.injEq, true_and]
        constructor
        · exact fun h => Or.inl h.symm
        · rintro (h | h)
          · exact h.symm
          · exact absurd (List.mem_map_of_mem (f := (·.1)) h) hn.1
      · have hb : (e == n) = false := by simpa using he
        simp only [List.lookup_cons, hb, List.mem_cons, Prod.mk.injEq, he, false_and, false_or]
        exact ih hn.2 y
  have g := gen table names_nodup
  unfold errnoOf
  cases hl : table.lookup e with
  | none =>
    have hno : ∀ y, (e, y) ∉ table := fun y hy => by
      rw [(g y).2 hy] at hl
      cases hl
    simp only [Option.getD_none]
    constructor
    · exact fun h => Or.inr ⟨h.symm, hno⟩
    · rintro (h | h)
      · exact absurd h (hno x)
      · exact h.1.symm
  | some y =>
    have hy := (g y).1 hl
    simp only [Option.getD_some]
    constructor
    · rintro rfl
      exact Or.inl hy
    · rintro (h | h)
      · have := (g x).2 h
        rw [hl] at this
        exact Option.some.inj this
      · exact absurd hy (h.2 y)

theorem e_handle : errnoOf "ERROR_INVALID_HANDLE" = "EBADF" := by decide +kernel
theorem e_param : errnoOf "ERROR_INVALID_PARAMETER" = "EINVAL" := by decide +kernel
theorem e_exists : errnoOf "ERROR_ALREADY_EXISTS" = "EEXIST" := by decide +kernel
theorem e_found : errnoOf "ERROR_NOT_FOUND" = "ENOENT" := by decide +kernel

theorem check_bad {h : H} (hb : Bad h) (e : String) : checkHandle h e = "ERROR_INVALID_HANDLE" := by
  cases h with
  | invalid => rfl
  | bad c => exact hb
  | good => exact hb.elim

theorem check_good {h : H} (hu : Usual h) (hb : ¬ Bad h) (e : String) : checkHandle h e = e := by
  cases h with
  | invalid => exact absurd trivial hb
  | bad c => exact absurd hu hb
  | good => rfl

/-- **C270** (full statement: `epoll_ctl` leaves what the manual of Linux says; false, see `closed_succeeds`).  What holds: if it
fails, and a socket being added has its base and its room, it leaves just that. -/
theorem ctl_partial (known : Bool) (ep sock : H) (op : CtlOp) (k : Sock) (h1 : Usual ep) (h2 : Usual sock)
    (hb : k.baseErr = none) (hr : k.noRoom = none) (hn : k.nothing = true → Bad sock) (x : String)
    (h : epollCtl known ep sock op k = some x) : manual known ep sock op k.registered = some x := by
  have fails : ∀ e, errnoOf (checkHandle sock (checkHandle ep e)) = x →
      if Bad ep ∨ Bad sock then x = "EBADF" else errnoOf e = x := by
    intro e he
    by_cases hs : Bad sock
    · rw [check_bad hs, e_handle] at he
      rw [if_pos (Or.inr hs)]
      exact he.symm
    · rw [check_good h2 hs] at he
      by_cases hp : Bad ep
      · rw [check_bad hp, e_handle] at he
        rw [if_pos (Or.inl hp)]
        exact he.symm
      · rw [check_good h1 hp] at he
        rw [if_neg (by simp [hs, hp])]
        exact he
  unfold manual
  cases known with
  | false =>
    simp only [epollCtl, Bool.false_eq_true, if_false, Option.some.injEq] at h
    have := fails _ h
    split
    · rename_i hc
      rw [if_pos hc] at this
      rw [this]
    · rename_i hc
      rw [if_neg hc, e_param] at this
      simp [this]
  | true =>
    simp only [epollCtl, if_true] at h
    cases hp : portCtl op k with
    | none => rw [hp] at h; cases h
    | some e =>
      rw [hp] at h
      simp only [Option.some.injEq] at h
      have hf := fails _ h
      split
      · rename_i hc
        rw [if_pos hc] at hf
        rw [hf]
      · rename_i hc
        rw [if_neg hc] at hf
        have hno : k.nothing = false := by
          cases hk : k.nothing with
          | false => rfl
          | true => exact absurd (Or.inr (hn hk)) hc
        cases op with
        | other =>
          simp only [portCtl, Option.some.injEq] at hp
          rw [← hp, e_param] at hf
          simp [hf]
        | add =>
          simp only [portCtl, hno, hb, hr, Bool.false_eq_true, if_false] at hp
          cases hg : k.registered with
          | false => simp [hg] at hp
          | true =>
            simp only [hg, if_true, Option.some.injEq] at hp
            rw [← hp, e_exists] at hf
            simp [hf]
        | mod =>
          simp only [portCtl] at hp
          cases hg : k.registered with
          | true => simp [hg] at hp
          | false =>
            simp only [hg, Bool.false_eq_true, if_false, Option.some.injEq] at hp
            rw [← hp, e_found] at hf
            simp [hf]
        | del =>
          simp only [portCtl] at hp
          cases hg : k.registered with
          | true => simp [hg] at hp
          | false =>
            simp only [hg, Bool.false_eq_true, if_false, Option.some.injEq] at hp
            rw [← hp, e_found] at hf
            simp [hf]

/-- **C270**: with open handles the call succeeds exactly if the manual says so (under the same conditions). -/
theorem succeeds_iff (known : Bool) (op : CtlOp) (k : Sock) (hb : k.baseErr = none) (hr : k.noRoom = none)
    (hn : k.nothing = false) :
    epollCtl known .good .good op k = none ↔ manual known .good .good op k.registered = none := by
  have hbad : ¬ (Bad .good ∨ Bad .good) := by simp [Bad]
  unfold manual
  rw [if_neg hbad]
  cases known <;> cases op <;> cases hg : k.registered <;> simp [epollCtl, portCtl, hb, hr, hn, hg]

/-- **C270**, false of the code: a socket that was closed while registered can still be changed and removed, where Linux says
EBADF; it stays registered until then or until the next poll of it ends. -/
theorem closed_succeeds (ep : H) (op : CtlOp) (k : Sock) (h : op = .mod ∨ op = .del) (hk : k.registered = true) (sock : H)
    (hs : Bad sock) : epollCtl true ep sock op k = none ∧ manual true ep sock op k.registered = some "EBADF" := by
  constructor
  · rcases h with rfl | rfl <;> simp [epollCtl, portCtl, hk]
  · simp [manual, hs]

/-- **C270**, false of the code: adding something open that is no socket leaves ENOTSOCK, where Linux has EPERM for what cannot be
polled; EPERM is left by no call at all. -/
theorem not_socket (k : Sock) (hn : k.nothing = false) (hb : k.baseErr = some "WSAENOTSOCK") :
    epollCtl true .good .good .add k = some "ENOTSOCK" ∧ ∀ e, errnoOf e ≠ "EPERM" := by
  constructor
  · have : errnoOf "WSAENOTSOCK" = "ENOTSOCK" := by decide +kernel
    simp [epollCtl, portCtl, hn, hb, checkHandle, this]
  · intro e h
    have hno : ∀ p ∈ table, p.2 ≠ "EPERM" := by decide +kernel
    rcases (errno_iff e "EPERM").1 h with h | h
    · exact hno _ h rfl
    · exact absurd h.1 (by decide)

/-- **C270**: `epoll_wait` leaves EINVAL for a number of events that is not positive, before anything else; otherwise EBADF for a
handle that is not open, and EINVAL for one that is no epoll handle; a failure while waiting is told too. -/
theorem wait_errors (m : Int) (ep : H) (hu : Usual ep) (w : Except String Nat) :
    (m ≤ 0 → ∀ known, epollWait m known ep w = .error "EINVAL") ∧
    (0 < m → Bad ep → epollWait m false ep w = .error "EBADF") ∧
    (0 < m → ¬ Bad ep → epollWait m false ep w = .error "EINVAL") ∧
    (0 < m → ∀ n, epollWait m true ep (.ok n) = .ok n) ∧
    (0 < m → ∀ e, epollWait m true ep (.error e) = .error (if Bad ep then "EBADF" else errnoOf e)) := by
  refine ⟨fun h known => ?_, fun h hb => ?_, fun h hb => ?_, fun h n => ?_, fun h e => ?_⟩
  · simp [epollWait, h, e_param]
  · simp [epollWait, Int.not_le.2 h, check_bad hb, e_handle]
  · simp [epollWait, Int.not_le.2 h, check_good hu hb, e_param]
  · simp [epollWait, Int.not_le.2 h]
  · by_cases hb : Bad ep
    · simp [epollWait, Int.not_le.2 h, check_bad hb, e_handle, hb]
    · simp [epollWait, Int.not_le.2 h, check_good hu hb, hb]

/-- **C270**: `epoll_create` refuses just the sizes Linux refuses, with EINVAL; `epoll_create1` refuses every flag, also
`EPOLL_CLOEXEC` (0x80000), which Linux accepts. -/
theorem create_refused (n : Int) :
    (createRefused n = if 0 < n then none else some "EINVAL") ∧ (create1Refused n = if n = 0 then none else some "EINVAL") := by
  constructor
  · unfold createRefused
    rw [e_param]
    by_cases h : 0 < n
    · simp [h, Int.not_le.2 h]
    · simp [h, Int.not_lt.1 h]
  · unfold create1Refused
    rw [e_param]
    by_cases h : n = 0 <;> simp [h]

/-- A socket added twice; one removed that is not there; a closed one not registered. -/
example : epollCtl true .good .good .add ⟨false, none, none, true⟩ = some "EEXIST" := by decide +kernel
example : epollCtl true .good .good .del ⟨false, none, none, false⟩ = some "ENOENT" := by decide +kernel
example : epollCtl true .good (.bad "ERROR_INVALID_HANDLE") .del ⟨false, none, none, false⟩ = some "EBADF" := by decide +kernel
example : create1Refused 0x80000 = some "EINVAL" := by decide +kernel

end Verif.Wepoll.Errors
