import Mathlib.Tactic
import Verif.Mem

/-!
# Making sockets (`async_bind`, `async_socket`, `async_connect`, src/async_io.c), C110, C111

The kernel is an oracle that says what each call returns; `bind` and `connect` also need an address of the socket's family.  Simplified: the
record of a UNIX socket (`struct af_unix_s`) can always be allocated, and addresses are what `async_parse_addr` made of the text
(`Verif.Io.Addr`).
-/

namespace Verif.Sock

/-- `AF_INET`, `AF_INET6`, `AF_UNIX`. -/
inductive Fam where
  | inet | inet6 | unix
  deriving DecidableEq, Repr

/-- A socket address: the family and the bytes of the structure. -/
structure Addr where
  fam : Fam
  data : Bytes
  deriving DecidableEq, Repr

/-- An open socket. -/
structure Sk where
  fam : Fam
  stream : Bool
  reuse : Bool
  bound : Option Addr
  peer : Option Addr
  listening : Bool
  nonblock : Bool
  deriving DecidableEq, Repr

def Sk.new (f : Fam) (stream : Bool) : Sk := ⟨f, stream, false, none, none, false, false⟩

/-- What a call leaves: the socket if its descriptor is open, whether the record of a UNIX socket is allocated, what was written to the `uds` field of the
table's entry (`some true`: the record, `some false`: null), and the address stored there. -/
structure S where
  sk : Option Sk
  record : Bool
  entry : Option Bool
  addr : Option Addr
  deriving DecidableEq, Repr

/-- Nothing is left of the call. -/
def S.nothing : S := ⟨none, false, none, none⟩

/-- The kernel's answers: the descriptor from `socket`; what the variable `sn` holds before it is set; whether `setsockopt`, `bind` and `listen` succeed. -/
structure Os where
  sock : Option Nat
  sn : Int
  opt : Bool
  bind : Bool
  listen : Bool

/-- `bind(fd, addr)`. -/
def kbind (os : Os) (sk : Sk) (a : Addr) : Option Sk :=
  if os.bind ∧ a.fam = sk.fam then some { sk with bound := some a } else none

/-- The failure paths: `close(fd)` if there is one, `events_free(uds)` if there is one. -/
def fail (unix : Bool) (s : S) : Int × S := (-1, { s with sk := none, record := if unix then false else s.record })

/-- `async_bind(address, port, backlog, protocol)`, src/async_io.c:105-171; `path` is the address made of the text for a UNIX socket, `parsed` the one
from `async_parse_addr`.  `getsockopt` fails on a negative `sn` only. -/
def asyncBind (os : Os) (protocol : Int) (path : Addr) (parsed : Option Addr) : Int × S :=
  let unix := decide (protocol = -1)
  let s : S := { S.nothing with record := unix }
  match (if unix then some path else parsed) with
  | none => (-1, s)
  | some a =>
    match os.sock with
    | none => fail unix s
    | some fd =>
      let sk := Sk.new (if unix then .unix else .inet) (protocol ≠ 0)
      let sk := { sk with reuse := !unix && decide (protocol ≠ 0) && decide (0 ≤ os.sn) && os.opt }
      match kbind os sk a with
      | none => fail unix { s with sk := some sk }
      | some sk =>
        let sk := { sk with listening := sk.stream && os.listen }
        ((fd : Int), ⟨some { sk with nonblock := true }, s.record, some unix, some a⟩)

/-- The first 16 bytes of an address (`struct sockaddr`), the rest as it was. -/
def short (a : Addr) (old : Bytes) : Addr := ⟨a.fam, a.data.take 16 ++ old.drop 16⟩

/-- `async_socket(sa, address, backlog, protocol)`, src/async_io.c:34-103; `a` is `*sa`, `old` what is in the entry's address.  `sn` is 0 before
`getsockopt`. -/
def asyncSocket (os : Os) (a : Addr) (protocol : Int) (path : Addr) (old : Bytes) : Int × S :=
  let unix := decide (protocol = -1) || decide (a.fam = .unix)
  let s : S := { S.nothing with record := unix }
  match os.sock with
  | none => fail unix s
  | some fd =>
    let sk := Sk.new a.fam (protocol ≠ 0)
    let sk := { sk with reuse := !unix && decide (protocol ≠ 0) && os.opt }
    let s := { s with addr := if unix then none else some (short a old) }
    match kbind os sk (if unix then path else a) with
    | none => fail unix { s with sk := some sk }
    | some sk =>
      if sk.stream && !os.listen then (-1, { s with sk := none })
      else ((fd : Int), { s with sk := some { sk with listening := sk.stream, nonblock := true }, entry := some unix })

/-- The kernel's answers to a connection: the descriptor; the error of `connect` (`none`: it succeeds or is in progress); the error with which the connection
ends after the wait (`none`: connected). -/
structure OsC where
  sock : Option Nat
  now : Option Int
  later : Option Int

/-- `ENOTCONN` on Linux. -/
abbrev ENOTCONN : Int := 107

/-- `async_connect(hostname, port, protocol)`, src/async_io.c:209-297: the result, what is left, and the value that `errno` gets.  `connect` with an address of
another family fails with `EAFNOSUPPORT` (97); `getpeername` of a socket that is not connected sets `ENOTCONN`, `getsockopt` leaves `errno` alone.  The
network path takes the family from the parsed address. -/
def asyncConnect (os : OsC) (protocol : Int) (path : Addr) (parsed : Option Addr) : Int × S × Option Int :=
  let unix := decide (protocol = -1)
  let s : S := { S.nothing with record := unix }
  match (if unix then some path else parsed) with
  | none => (-1, s, some 89)
  | some a =>
    match os.sock with
    | none => ((fail unix s).1, (fail unix s).2, none)
    | some fd =>
      let sk := { Sk.new (if unix then .unix else a.fam) (protocol ≠ 0) with nonblock := true }
      let s := { s with sk := some sk, addr := some a }
      match (if a.fam = sk.fam then os.now else some 97) with
      | some e => ((fail unix s).1, (fail unix s).2, some e)
      | none =>
        match os.later with
        | none => ((fd : Int), { s with sk := some { sk with peer := some a }, entry := some unix }, none)
        | some _ => ((fail unix s).1, (fail unix s).2, some ENOTCONN)

/-! ## Claims -/

/-- Claim C110 for `async_bind`: after a failure there is no descriptor and no record left and the table was not written; after a success the descriptor is open,
non-blocking, bound to the address asked for, and marked as a UNIX socket or not; it listens if it is a stream socket and `listen` did not fail. -/
theorem bind_all_or_nothing_partial (os : Os) (protocol : Int) (path : Addr) (parsed : Option Addr) :
    ((asyncBind os protocol path parsed).1 = -1 ∧ (asyncBind os protocol path parsed).2 = S.nothing) ∨
    ∃ (fd : Nat) (sk : Sk) (a : Addr), asyncBind os protocol path parsed = ((fd : Int), ⟨some sk, decide (protocol = -1), some (decide (protocol = -1)), some a⟩) ∧
      os.sock = some fd ∧ sk.nonblock = true ∧ sk.bound = some a ∧ sk.fam = a.fam ∧ (sk.stream = true ↔ protocol ≠ 0) ∧
      (if protocol = -1 then a = path else parsed = some a) ∧
      (os.listen = true → sk.listening = sk.stream) := by
  unfold asyncBind
  by_cases hu : protocol = -1
  · subst hu
    cases hs : os.sock with
    | none => left; simp [fail, S.nothing]
    | some fd =>
      by_cases hb : os.bind = true ∧ path.fam = Fam.unix
      · right
        refine ⟨fd, _, path, by simp [kbind, Sk.new, hb]; rfl, ?_⟩
        simp +contextual [hb]
      · left
        simp [kbind, Sk.new, fail, S.nothing, hb]
  · cases parsed with
    | none => left; simp [hu, S.nothing]
    | some a =>
      cases hs : os.sock with
      | none => left; simp [hu, fail, S.nothing]
      | some fd =>
        by_cases hb : os.bind = true ∧ a.fam = Fam.inet
        · right
          refine ⟨fd, _, a, by simp [kbind, Sk.new, hb, hu]; rfl, ?_⟩
          simp +contextual [hb, hu]
        · left
          simp [kbind, Sk.new, fail, S.nothing, hb, hu]

/-- Claim C110 (failure): if `listen` fails, `async_bind` returns the descriptor of a socket that does not listen: every stream socket whose address can be
bound. -/
theorem bind_listen_failure_hidden (os : Os) (fd : Nat) (a : Addr) (protocol : Int) (h0 : protocol ≠ 0) (hs : os.sock = some fd)
    (hb : os.bind = true) (hl : os.listen = false) (hf : a.fam = if protocol = -1 then .unix else .inet) :
    ∃ sk, asyncBind os protocol a (some a) = ((fd : Int), ⟨some sk, decide (protocol = -1), some (decide (protocol = -1)), some a⟩) ∧
      sk.stream = true ∧ sk.listening = false := by
  unfold asyncBind
  by_cases hu : protocol = -1
  · subst hu
    exact ⟨_, by simp [hs, kbind, Sk.new, hb, hf]; rfl, by simp [hl]⟩
  · rw [if_neg hu] at hf
    exact ⟨_, by simp [hs, kbind, Sk.new, hb, hf, hu]; rfl, by simp [hl, h0]⟩

/-- Claim C110 (failure): an IPv6 address can never be bound with `async_bind`. -/
theorem bind_v6_never (os : Os) (protocol : Int) (path a : Addr) (hu : protocol ≠ -1) (ha : a.fam = .inet6) :
    asyncBind os protocol path (some a) = (-1, S.nothing) := by
  unfold asyncBind
  cases hs : os.sock with
  | none => simp [hu, fail, S.nothing]
  | some fd => simp [kbind, Sk.new, fail, S.nothing, ha, hu]

/-- Claim C110 (failure): whether a TCP server's address can be used again soon (`SO_REUSEADDR`) depends on a variable that was never set. -/
theorem bind_reuse_garbage (os : Os) (fd : Nat) (a : Addr) (protocol : Int) (hu : protocol ≠ -1) (h0 : protocol ≠ 0) (hs : os.sock = some fd)
    (hb : os.bind = true) (ho : os.opt = true) (ha : a.fam = .inet) :
    ((asyncBind os protocol a (some a)).2.sk.map Sk.reuse = some true ↔ 0 ≤ os.sn) := by
  unfold asyncBind
  simp [hs, kbind, Sk.new, hb, ha, hu, h0, ho]

/-- Claim C110 for `async_socket`: as for `async_bind`, and a stream socket that is returned does listen; the exception is a UNIX socket on which `listen` fails. -/
theorem socket_all_or_nothing_partial (os : Os) (a : Addr) (protocol : Int) (path : Addr) (old : Bytes)
    (h : ¬ ((protocol = -1 ∨ a.fam = .unix) ∧ protocol ≠ 0 ∧ os.listen = false)) :
    ((asyncSocket os a protocol path old).1 = -1 ∧ (asyncSocket os a protocol path old).2.sk = none ∧
        (asyncSocket os a protocol path old).2.record = false ∧ (asyncSocket os a protocol path old).2.entry = none) ∨
    ∃ (fd : Nat) (sk : Sk), (asyncSocket os a protocol path old).1 = fd ∧ os.sock = some fd ∧ (asyncSocket os a protocol path old).2.sk = some sk ∧
      sk.nonblock = true ∧ sk.fam = a.fam ∧ (sk.stream = true ↔ protocol ≠ 0) ∧ sk.listening = sk.stream ∧
      sk.bound = some (if protocol = -1 ∨ a.fam = .unix then path else a) ∧
      (asyncSocket os a protocol path old).2.record = decide (protocol = -1 ∨ a.fam = .unix) ∧
      (asyncSocket os a protocol path old).2.entry = some (decide (protocol = -1 ∨ a.fam = .unix)) := by
  unfold asyncSocket
  cases hs : os.sock with
  | none =>
    left
    by_cases hu : protocol = -1 ∨ a.fam = .unix
    · simp [hu, fail, S.nothing]
    · push Not at hu
      simp [hu, fail, S.nothing]
  | some fd =>
    have huq : (decide (protocol = -1) || decide (a.fam = Fam.unix)) = decide (protocol = -1 ∨ a.fam = .unix) := by simp [Bool.decide_or]
    simp only [huq]
    by_cases hu : protocol = -1 ∨ a.fam = .unix
    · by_cases hb : os.bind = true ∧ path.fam = a.fam
      · by_cases hl : protocol ≠ 0 ∧ os.listen = false
        · exact absurd ⟨hu, hl⟩ h
        · right
          have hc : (decide (protocol ≠ 0) && !os.listen) = false := by
            by_cases h0 : protocol = 0
            · simp [h0]
            · have : os.listen = true := by cases hq : os.listen <;> simp_all
              simp [this]
          refine ⟨fd, { Sk.new a.fam (protocol ≠ 0) with bound := some path, listening := decide (protocol ≠ 0), nonblock := true }, ?_⟩
          simp only [kbind, Sk.new, hb, hu, decide_true, if_true, and_self, hc]
          simp
      · left
        simp [kbind, Sk.new, hu, hb, fail, S.nothing]
    · by_cases hb : os.bind = true
      · cases hc : (decide (protocol ≠ 0) && !os.listen) with
        | true =>
          left
          simp only [kbind, Sk.new, hu, hb, if_false, and_self, if_true, hc, decide_false, Bool.false_eq_true, S.nothing]
        | false =>
          right
          refine ⟨fd, { Sk.new a.fam (protocol ≠ 0) with reuse := decide (protocol ≠ 0) && os.opt, bound := some a, listening := decide (protocol ≠ 0), nonblock := true }, ?_⟩
          simp only [kbind, Sk.new, hu, hb, if_false, and_self, if_true, hc, decide_false, Bool.false_eq_true]
          simp
      · left
        simp [kbind, Sk.new, hu, hb, fail, S.nothing]

/-- Claim C110 (failure): if `listen` fails on a UNIX socket, `async_socket` loses its record. -/
theorem socket_listen_leak (os : Os) (fd : Nat) (a path : Addr) (protocol : Int) (old : Bytes) (ha : a.fam = .unix) (hp : path.fam = .unix)
    (h0 : protocol ≠ 0) (hs : os.sock = some fd) (hb : os.bind = true) (hl : os.listen = false) :
    (asyncSocket os a protocol path old).1 = -1 ∧ (asyncSocket os a protocol path old).2.sk = none ∧
      (asyncSocket os a protocol path old).2.record = true := by
  unfold asyncSocket
  simp [hs, kbind, Sk.new, hb, hl, ha, hp, h0]

/-- Claim C110 (failure): of an IPv6 address only 16 of the 28 bytes are remembered: whatever differs behind them in the table's entry makes
`events_get_sockaddr` tell another address than the one bound. -/
theorem socket_v6_address_cut (os : Os) (fd : Nat) (a path : Addr) (protocol : Int) (old : Bytes) (ha : a.fam = .inet6) (hp : protocol ≠ -1)
    (hs : os.sock = some fd) (hb : os.bind = true) (hl : os.listen = true) (hd : a.data.length = 28) (ho : a.data.drop 16 ≠ old.drop 16) :
    ∃ sk b, (asyncSocket os a protocol path old).1 = fd ∧ (asyncSocket os a protocol path old).2.sk = some sk ∧ sk.bound = some a ∧
      (asyncSocket os a protocol path old).2.addr = some b ∧ b ≠ a := by
  refine ⟨{ Sk.new .inet6 (protocol ≠ 0) with reuse := decide (protocol ≠ 0) && os.opt, bound := some a, listening := decide (protocol ≠ 0), nonblock := true },
    short a old, ?_, ?_, rfl, ?_, ?_⟩
  · simp [asyncSocket, hs, kbind, Sk.new, hb, hl, ha, hp]
  · simp [asyncSocket, hs, kbind, Sk.new, hb, hl, ha, hp]
  · simp [asyncSocket, hs, kbind, Sk.new, hb, hl, ha, hp]
  · intro e
    have e2 := congrArg Addr.data e
    simp only [short] at e2
    apply ho
    conv_lhs => rw [← e2]
    rw [List.drop_append_of_le_length (by simp; omega)]
    rw [show (a.data.take 16).drop 16 = [] from List.drop_eq_nil_of_le (by simp)]
    rfl

/-- Claim C111: `async_connect` leaves nothing behind when it fails, and when it succeeds the socket is connected to the address asked for. -/
theorem connect_all_or_nothing (os : OsC) (protocol : Int) (path : Addr) (parsed : Option Addr) :
    ((asyncConnect os protocol path parsed).1 = -1 ∧ (asyncConnect os protocol path parsed).2.1.sk = none ∧
        (asyncConnect os protocol path parsed).2.1.record = false ∧ (asyncConnect os protocol path parsed).2.1.entry = none) ∨
    ∃ (fd : Nat) (sk : Sk) (a : Addr), (asyncConnect os protocol path parsed).1 = fd ∧ os.sock = some fd ∧ os.now = none ∧ os.later = none ∧
      (asyncConnect os protocol path parsed).2.1 = ⟨some sk, decide (protocol = -1), some (decide (protocol = -1)), some a⟩ ∧
      sk.nonblock = true ∧ sk.peer = some a ∧ (sk.stream = true ↔ protocol ≠ 0) ∧ (if protocol = -1 then a = path else parsed = some a) := by
  unfold asyncConnect
  by_cases hu : protocol = -1
  · subst hu
    cases hs : os.sock with
    | none => left; simp [fail, S.nothing]
    | some fd =>
      by_cases hf : path.fam = .unix
      · cases hn : os.now with
        | some e => left; simp [fail, S.nothing, Sk.new, hf]
        | none =>
          cases hl : os.later with
          | some e => left; simp [fail, S.nothing, Sk.new, hf]
          | none =>
            right
            refine ⟨fd, { Sk.new .unix true with nonblock := true, peer := some path }, path, ?_⟩
            simp [Sk.new, hf]
      · left; simp [fail, S.nothing, Sk.new, hf]
  · cases parsed with
    | none => left; simp [hu, S.nothing]
    | some a =>
      cases hs : os.sock with
      | none => left; simp [hu, fail, S.nothing]
      | some fd =>
        cases hn : os.now with
        | some e => left; simp [fail, S.nothing, Sk.new, hu]
        | none =>
          cases hl : os.later with
          | some e => left; simp [fail, S.nothing, Sk.new, hu]
          | none =>
            right
            refine ⟨fd, { Sk.new a.fam (protocol ≠ 0) with nonblock := true, peer := some a }, a, ?_⟩
            simp [Sk.new, hu]

/-- Claim C111 (failure): why a connection was not made is not told: after every error that comes while it waits (a refused TCP connection, a timeout) `errno` is
`ENOTCONN`. -/
theorem connect_errno_lost (os : OsC) (fd : Nat) (e protocol : Int) (a : Addr) (hf : protocol = -1 → a.fam = .unix) (hs : os.sock = some fd)
    (hn : os.now = none) (hl : os.later = some e) (he : e ≠ ENOTCONN) :
    ∃ e', (asyncConnect os protocol a (some a)).2.2 = some e' ∧ e' ≠ e := by
  refine ⟨ENOTCONN, ?_, fun q => he q.symm⟩
  unfold asyncConnect
  by_cases hu : protocol = -1
  · subst hu
    simp [hs, hn, hl, Sk.new, hf rfl]
  · simp [hs, hn, hl, Sk.new, hu]

/-- A TCP server on an IPv4 address; the same with `listen` failing (`EADDRINUSE`); on an IPv6 address. -/
example : asyncBind ⟨some 5, 16, true, true, true⟩ 1 ⟨.unix, []⟩ (some ⟨.inet, [1]⟩) =
    (5, ⟨some ⟨.inet, true, true, some ⟨.inet, [1]⟩, none, true, true⟩, false, some false, some ⟨.inet, [1]⟩⟩) := by decide
example : ((asyncBind ⟨some 5, 16, true, true, false⟩ 1 ⟨.unix, []⟩ (some ⟨.inet, [1]⟩)).2.sk.map Sk.listening) = some false := by decide
example : asyncBind ⟨some 5, 16, true, true, true⟩ 1 ⟨.unix, []⟩ (some ⟨.inet6, [1]⟩) = (-1, S.nothing) := by decide
example : (asyncSocket ⟨some 5, 0, true, true, false⟩ ⟨.unix, [1]⟩ (-1) ⟨.unix, [1]⟩ []).2 = { S.nothing with record := true } := by decide
/-- A refused connection (`ECONNREFUSED` is 111). -/
example : asyncConnect ⟨some 5, none, some 111⟩ 1 ⟨.unix, []⟩ (some ⟨.inet, [1]⟩) = (-1, ⟨none, false, none, some ⟨.inet, [1]⟩⟩, some 107) := by decide

end Verif.Sock
