import Verif.Mem

/-!
# Model of `socketpair`, `os_pipe` and `pipe2` for Windows

`src/os_windows.c`.
-/

namespace Verif.Win

/-- A `struct sockaddr_in`: family, address, port. -/
structure Addr where
  family : Nat
  ip : Nat
  port : Nat
  deriving Repr, DecidableEq

/-- The address to which `socketpair` binds its listener, src/os_windows.c:1084-1087. -/
def loopback : Addr := { family := 2, ip := 0x7f000001, port := 0 }

/-- What the system answers during one `socketpair`: the sockets (`none` is `INVALID_SOCKET`), whether the calls
succeed, and the addresses.  `accept` gives the first connection that waits at the listener, and who made it. -/
structure PairSys where
  listener : Option Nat
  bind : Bool
  listen : Bool
  connector : Option Nat
  name1 : Bool
  connect : Bool
  accept : Option (Nat × Addr)
  name2 : Option Addr

/-- Outcome of `socketpair`: the two sockets stored (`none` is `INVALID_SOCKET`), or an error; and the sockets closed. -/
structure PairOut where
  sockets : Option (Option Nat × Option Nat)
  closed : List Nat
  deriving Repr, DecidableEq

/-- `closesocket(s)`; for `INVALID_SOCKET` it does nothing. -/
def closes (s : Option Nat) : List Nat := s.toList

/-- The code at `fail_win32_socketpair`, src/os_windows.c:1147-1165: `SOCKET` is unsigned, so the three tests `>= 0`
are true; `before` are the sockets closed already. -/
def pairFail (before : List Nat) (listener connector acceptor : Option Nat) : PairOut :=
  { sockets := none, closed := before ++ closes listener ++ closes connector ++ closes acceptor }

/-- `socketpair(domain, type, protocol, sockets)`, src/os_windows.c:1059-1168, with `sockets` not NULL.  `SOCKET` is
unsigned, so `listener < 0` (1078) and `acceptor < 0` (1120) are false; a call on `INVALID_SOCKET` fails.  Simplified:
the sizes of the addresses are right (1110, 1123, 1135); `connect` stands for "did not fail, or is under way". -/
def socketpair (y : PairSys) : PairOut :=
  if y.listener = none ∨ y.bind = false then pairFail [] y.listener none none
  else if y.listen = false then pairFail [] y.listener none none
  else if y.connector = none then pairFail [] y.listener none none
  else if y.name1 = false then pairFail [] y.listener y.connector none
  else if y.connect = false then pairFail [] y.listener y.connector none
  else
    let acceptor := y.accept.map Prod.fst
    let peer := (y.accept.map Prod.snd).getD loopback
    let before := closes y.listener
    match y.name2 with
    | none => pairFail before y.listener y.connector acceptor
    | some own =>
      if peer.family ≠ own.family ∨ peer.ip ≠ own.ip ∨ peer.port ≠ own.port then
        pairFail before y.listener y.connector acceptor
      else
        { sockets := some (y.connector, acceptor), closed := before }

/-- The `w` bytes of a number, lowest first. -/
def leBytes : Nat → Nat → Bytes
  | 0, _ => []
  | w + 1, v => UInt8.ofNat (v % 256) :: leBytes w (v / 256)

/-- The number that bytes stand for, lowest first. -/
def leVal : Bytes → Nat
  | [] => 0
  | b :: bs => b.toNat + 256 * leVal bs

/-- Store at the offset `p`. -/
def store (buf : Bytes) (p : Nat) (w : Bytes) : Res Bytes :=
  if p + w.length ≤ buf.length then .ok (buf.take p ++ w ++ buf.drop (p + w.length)) else .ub

/-- `os_pipe(fildes)`, src/os_windows.c:1423-1425, when `socketpair` succeeds: the array is taken for one of two
`SOCKET`, of `w` bytes each (8 on 64-bit Windows; `_2socket`, include/async_io.h:38), which are stored (1138-1139). -/
def osPipe (w : Nat) (buf : Bytes) (pair : Nat × Nat) : Res Bytes := do
  let buf ← store buf 0 (leBytes w pair.1)
  store buf w (leBytes w pair.2)

/-- `fildes[i]`, an `int`. -/
def intAt (buf : Bytes) (i : Nat) : Nat := leVal ((buf.drop (4 * i)).take 4)

/-- The two numbers to which `pipe2` applies its flags (and closes after an error), src/os_windows.c:1427-1447. -/
def pipe2Targets (w : Nat) (buf : Bytes) (pair : Nat × Nat) : Res (Nat × Nat) := do
  let buf ← osPipe w buf pair
  .ok (intAt buf 0, intAt buf 1)

end Verif.Win
