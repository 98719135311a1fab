import Verif.Basic
import Verif.Fd.Model

/-!
# Model of reading, writing, accepting and dialling with TLS (`src/async_tls.c`)

The TLS library is an oracle: a script says what each of its calls returns.  Certificates and configuration are not modelled.
-/

namespace Verif.Tls

open Verif.Fd (revents)

abbrev ECONNREFUSED : Int := 111
abbrev EPROTO : Int := 71
abbrev EINVAL : Int := 22

/-- `TLS_WANT_POLLIN` and `TLS_WANT_POLLOUT` of libtls. -/
abbrev WANT_IN : Int := -2
abbrev WANT_OUT : Int := -3

/-- One call of `tls_read`, `tls_write` or `tls_handshake`: the result, whether `tls_error_code` is not 0 afterwards, whether `ERR_get_error`
is `TLS_EOF`, and, if the library asks to wait, the epoll mask that ends the wait. -/
structure Call where
  x : Int
  code : Bool
  eof : Bool
  mask : BitVec 32
  deriving DecidableEq

/-- A function returns, or the script ends while it waits or before its next call. -/
inductive Out where
  | ret (n : Int)
  | pending
  | abort
  deriving DecidableEq

/-- `tlserr`, src/async_tls.c:845-858; `none` is the failed assertion. -/
def tlserr (rc : Int) (code : Bool) : Option Int :=
  if rc = 0 then some 0
  else if rc ≠ -1 then none
  else if !code then some (-ECONNREFUSED)
  else some (-EPROTO)

/-- `tls_poll`, src/async_tls.c:860-868: `events` is the field of the descriptor, which the wait sets (`wait_cb`, src/events.c:1403).  `READ` is 1
and `WRITE` is 2. -/
def tlsPoll (events : BitVec 8) (event : Int) (mask : BitVec 32) : Int :=
  let events := if event = WANT_IN ∨ event = WANT_OUT then (revents mask).setWidth 8 else events
  if events = 1 ∨ events = 2 then 0 else -1

/-- After a result that is not the last word: src/async_tls.c:982-985, 1022-1025, 1141-1144 and 1160-1163 are alike.  The caller sets `events`
to 0. -/
def retry (events : BitVec 8) (c : Call) (again : Out) : Out :=
  match tlserr (tlsPoll events c.x c.mask) c.code with
  | none => .abort
  | some rc => if rc < 0 then .ret rc else again

/-- `tls_reader` on a socket with TLS, src/async_tls.c:1133-1145. -/
def reader : BitVec 8 → List Call → Out
  | _, [] => .pending
  | ev, c :: cs =>
    if 0 ≤ c.x then .ret c.x
    else if c.x = -1 ∧ c.eof then .ret 0
    else retry ev c (reader 0 cs)

/-- `tls_writer` on a socket with TLS, src/async_tls.c:1157-1164. -/
def writer : BitVec 8 → List Call → Out
  | _, [] => .pending
  | ev, c :: cs => if 0 ≤ c.x then .ret c.x else retry ev c (writer 0 cs)

/-- The bytes that `tls_writer(fd, buf, len)` hands to the library in each call, src/async_tls.c:1153: `len` bytes, or all up to the NUL if
`len` is 0; `none` if there is no NUL. -/
def request (mem : List UInt8) (len : Nat) : Option (List UInt8) :=
  if len = 0 then (if (0 : UInt8) ∈ mem then some (mem.takeWhile (· ≠ 0)) else none)
  else if len ≤ mem.length then some (mem.take len) else none

/-- What the library accepts in the calls that `writer` makes: a call with a result `x ≥ 0` takes the first `x` bytes. -/
def accepted (req : List UInt8) : BitVec 8 → List Call → List UInt8
  | _, [] => []
  | ev, c :: cs =>
    if 0 ≤ c.x then req.take c.x.toNat
    else match retry ev c .pending with
      | .pending => accepted req 0 cs
      | _ => []

/-- The loop around `tls_handshake`, src/async_tls.c:978-986 and 1018-1026. -/
def handshake : BitVec 8 → List Call → Out
  | _, [] => .pending
  | ev, c :: cs => if c.x = 0 then .ret 0 else retry ev c (handshake 0 cs)

/-- What happens to a connection's TLS object and to its descriptor. -/
inductive Act where
  | new | closeNotify | free | closeFd
  deriving DecidableEq

/-- The end of a call that concerns a connection: the result, what was done and whether the descriptor still has a TLS object. -/
structure End where
  ret : Int
  acts : List Act
  tls : Bool
  deriving DecidableEq

/-- `tls_closer` of a descriptor that is not 0, src/async_tls.c:1106-1119. -/
def closer (tls : Bool) : List Act := if tls then [.closeNotify, .free, .closeFd] else [.closeFd]

/-- `async_tls_accept`, src/async_tls.c:969-994, for descriptors other than 0 and a server with TLS.  `made` is the result of
`tls_accept_socket`, 0 or -1; `events` the field of the client's descriptor; a failed one makes no object.  `none`: it waits. -/
def asyncAccept (made : Int) (code : Bool) (events : BitVec 8) (cs : List Call) : Option (Res End) :=
  match tlserr made code with
  | none => some .ub
  | some rc =>
    if rc < 0 then some (.ok ⟨rc, closer false, false⟩)
    else match handshake events cs with
      | .pending => none
      | .abort => some .ub
      | .ret rc => some (.ok (if rc < 0 then ⟨rc, .new :: closer true, false⟩ else ⟨rc, [.new], true⟩))

/-- `tls_accept`, src/async_tls.c:996-1002; `client` is what `async_accept` returned.  A negative one is used as an index into the table of
descriptors. -/
def accept (client : Int) (made : Int) (code : Bool) (events : BitVec 8) (cs : List Call) : Option (Res End) :=
  if client < 0 then some .ub
  else match asyncAccept made code events cs with
    | none => none
    | some .ub => some .ub
    | some (.ok e) => some (.ok { e with ret := if e.ret = 0 then client else if e.ret = -ECONNREFUSED then 0 else -1 })

/-- `async_tls_connect`, src/async_tls.c:1004-1043, for a descriptor other than 0: `conf` is the result of `tls_configure`, `conn` that of
`tls_connect_socket` (0 or -1).  `tls_client` succeeds. -/
def asyncConnect (conf conn : Int) (code : Bool) (events : BitVec 8) (cs : List Call) : Option (Res End) :=
  let fail (rc : Int) : End :=
    if rc < 0 then (if rc = -ECONNREFUSED then ⟨rc, [.new, .free, .closeFd], false⟩ else ⟨rc, .new :: closer true, false⟩)
    else ⟨rc, [.new], true⟩
  if conf ≠ 0 then some (.ok (fail conf))
  else match tlserr conn code with
    | none => some .ub
    | some rc =>
      if rc < 0 then some (.ok (fail rc))
      else match handshake events cs with
        | .pending => none
        | .abort => some .ub
        | .ret rc => some (.ok (fail rc))

/-- `tls_dial` from line 1059 on, src/async_tls.c:1059-1073, with the descriptor `fd` of a connected socket: after a failure other than a
refusal the error text of the TLS object is printed, but there is none any more (`target->tls` is null); `tls_error` of libtls reads
through its argument. -/
def dial (fd : Int) (conf conn : Int) (code : Bool) (events : BitVec 8) (cs : List Call) : Option (Res End) :=
  match asyncConnect conf conn code events cs with
  | none => none
  | some .ub => some .ub
  | some (.ok e) =>
    if e.ret = 0 then some (.ok { e with ret := fd })
    else if e.ret ≠ -ECONNREFUSED ∧ !e.tls then some .ub
    else some (.ok { e with ret := -EINVAL })

end Verif.Tls
