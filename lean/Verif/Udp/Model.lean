import Verif.Udp.Unwind

/-!
# Model of UDP sockets (`src/async_udp.c`)

One socket, made by `udp_bind` or `udp_connect`.  An operation is a call by some task, the end of a task, or the arrival of
a datagram; tasks interleave freely, so an execution is any list of operations.  Simplified: allocations succeed, the flags
are ordinary ones (no peeking), one task receives at a time (no `udp_recv` is called while another waits), `sendto` is accepted at once (its retry after EAGAIN runs the
same code again), and addresses are not looked up by name.  `udp_message` is called by the packet's handler.
-/

namespace Verif.Udp

/-- A socket address. -/
structure Addr where
  v6 : Bool
  host : Nat
  port : Nat
  deriving DecidableEq, Repr

/-- What `packet->addr` points to: nothing, the socket's entry in the table of descriptors
(`events_get_sockaddr(fd)`, src/events.c:369-371), or the packet's own copy. -/
inductive AddrPtr where
  | null
  | sock
  | own (a : Addr)
  deriving DecidableEq, Repr

/-- What a task has put into its `garbage` for a packet: the packet, its message, its address. -/
inductive Garb where
  | packet
  | message
  | addr (p : AddrPtr)
  deriving DecidableEq, Repr

/-- `struct udp_packet_s`, src/events_internal.h:531-539.  `live`: not freed.  `message` is the whole block (`[]`: NULL).
`msgLive`: the
blocks of the message and of the packet's own address are not freed.  `ip` is `ipaddr`, the address last formatted.  `garbage` belongs to the task that handles the packet (for the socket's first
packet: the task that opened the socket). -/
structure Packet where
  live : Bool
  msgLive : Bool
  addr : AddrPtr
  message : Bytes
  nread : Nat
  isSet : Bool
  flags : Nat
  ip : Option Addr
  garbage : List Garb
  deriving DecidableEq, Repr

/-- What is done with a packet's memory when its handler's task ends. -/
inductive Done where
  | freePacket (p : Nat)
  | freeMessage (p : Nat)
  | freeAddr (p : Nat)
  | act (a : Act)
  deriving DecidableEq, Repr

/-- The socket.  `sockaddr` is its address in the table of descriptors; `target` is `events_target(fd)->udp`; `pk` the packets
by number, `n` of them; `inq` the datagrams that the kernel holds; `out` what was sent; `wait` the packet that a waiting
`udp_recv` holds; `done` what was done with memory; `peer` the connected address. -/
structure St where
  sockaddr : Addr
  peer : Option Addr
  target : Nat
  n : Nat
  pk : Nat → Packet
  inq : List (Addr × Bytes)
  out : List (Addr × Bytes)
  wait : Option Nat
  done : List Done

def St.setPk (s : St) (i : Nat) (p : Packet) : St := { s with pk := fun j => if j = i then p else s.pk j }

/-- The packet that `udp_bind` and `udp_connect` make, src/async_udp.c:9-15 and 25-32: deferred for freeing by the task. -/
def packet0 (flags : Nat) : Packet := ⟨true, true, .null, [], 0, false, flags, none, [.packet]⟩

/-- After `udp_bind(own, flags)`, src/async_udp.c:19-35 with src/async_io.c:164. -/
def bound (own : Addr) (flags : Nat) : St := ⟨own, none, 0, 1, fun _ => packet0 flags, [], [], none, []⟩

/-- After `udp_connect(peer)`, src/async_udp.c:4-17 with src/async_io.c:260-270. -/
def connected (peer : Addr) : St := ⟨peer, some peer, 0, 1, fun _ => packet0 0, [], [], none, []⟩

inductive Op where
  /-- A datagram arrives. -/
  | arrive (a : Addr) (d : Bytes)
  /-- `udp_recv(fd)` is called. -/
  | recv
  /-- The waiting `udp_recv` is resumed and tries again. -/
  | wake
  /-- The waiting `udp_recv` is resumed and `recvfrom` fails with an error other than EAGAIN. -/
  | fail
  /-- `udp_handler(cb, packet)`: the handler's task begins. -/
  | handle (p : Nat)
  /-- `udp_message(packet)`, `udp_ip(packet)`, `udp_length(packet)`. -/
  | message (p : Nat)
  | ip (p : Nat)
  | length (p : Nat)
  /-- `udp_send(packet, buf, n)`. -/
  | send (p : Nat) (d : Bytes)
  /-- The task that handles the packet ends; `pre`: what is in front of the message's block. -/
  | finish (p : Nat) (ptr pre : Nat)
  /-- `udp_to(fd, addr, flags)` and `async_sendto(fd, buf, n)`. -/
  | dest (a : Addr) (flags : Nat)
  | sendto (d : Bytes)
  deriving DecidableEq, Repr

inductive Ret where
  | unit
  | waits
  | null
  | packet (p : Nat)
  | bytes (b : Bytes)
  | addr (a : Option Addr)
  | num (n : Int)
  deriving DecidableEq, Repr

/-- `sizeof(buf)` in `udp_recv`, src/async_udp.c:103. -/
def recvMax : Nat := 48 * 1024

/-- The kernel's reading of a destination: an IPv6 address needs 24 of its 28 bytes, an IPv4 address 16. -/
def sendtoKernel (s : St) (a : Addr) (len : Nat) (d : Bytes) : St × Ret :=
  if len < (if a.v6 then 24 else 16) then (s, .num (-1)) else ({ s with out := s.out ++ [(a, d)] }, .num d.length)

/-- The packet made by `udp_recv` from the `m` received bytes `d`, src/async_udp.c:116-128. -/
def newPacket (a : Addr) (flags : Nat) (d : Bytes) : Res Packet := do
  let block ← memcpy (calloc (alignUp2 (d.length + 1))) 0 d 0 d.length
  .ok ⟨true, true, .own a, block, d.length, true, flags, none, []⟩

/-- `recvfrom` and what follows, src/async_udp.c:109-140; `p` is `packet`.  The kernel drops what does not fit. -/
def attempt (s : St) (p : Nat) : Res (St × Ret) :=
  if (s.pk p).live then
    match s.inq with
    | [] => .ok ({ s with wait := some p }, .waits)
    | (a, d) :: rest =>
      let s := { s with sockaddr := a, inq := rest, wait := none }
      if (d.take recvMax).length > 0 then do
        let c ← newPacket a (s.pk p).flags (d.take recvMax)
        .ok ({ s.setPk s.n c with n := s.n + 1, target := s.n }, .packet s.n)
      else .ok (s, .null)
  else .ub

/-- The address behind `packet->addr`; the packet's own copy must not be freed. -/
def deref (s : St) (p : Nat) : Res (Option Addr) :=
  match (s.pk p).addr with
  | .null => .ok none
  | .sock => .ok (some s.sockaddr)
  | .own a => if (s.pk p).msgLive then .ok (some a) else .ub

/-- The end of the task: `deferred_unwind` from the last entry to the first.  The packet and the address do not look like
anything else (`data_type`: DATA_UDP, an address family); the message may.  `free` of the table's entry is undefined, and so
is freeing a packet twice (see `step`). -/
def release (p ptr pre : Nat) (msg : Bytes) : List Garb → Res (List Done)
  | [] => .ok []
  | .packet :: l => do
    let r ← release p ptr pre msg l
    .ok (.freePacket p :: r)
  | .message :: l => do
    let a ← unwind1 ⟨ptr, pre, msg⟩
    let r ← release p ptr pre msg l
    .ok ((a.map fun x => if x = .free ptr then .freeMessage p else .act x) ++ r)
  | .addr (.own _) :: l => do
    let r ← release p ptr pre msg l
    .ok (.freeAddr p :: r)
  | .addr _ :: _ => .ub

/-- More entries for the packet than there are packets to free. -/
def freesTwice (p : Packet) : Bool :=
  if p.live then decide (p.garbage.count .packet > 1) else decide (p.garbage.count .packet > 0)

def step (s : St) : Op → Res (St × Ret)
  | .arrive a d => .ok ({ s with inq := s.inq ++ [(a, d)] }, .unit)
  -- udp_recv, src/async_udp.c:100-108
  | .recv =>
    if s.wait ≠ none then .ok (s, .unit)
    else if (s.pk s.target).live then
      attempt (s.setPk s.target { s.pk s.target with addr := .sock }) s.target
    else .ub
  | .wake =>
    match s.wait with
    | some p => attempt s p
    | none => .ok (s, .unit)
  | .fail =>
    match s.wait with
    | some _ => .ok ({ s with wait := none }, .null)
    | none => .ok (s, .unit)
  -- udp_handler and udp_client, src/async_udp.c:176-188
  | .handle p => .ok (s.setPk p { s.pk p with garbage := (s.pk p).garbage ++ [.packet] }, .unit)
  -- udp_message, src/async_udp.c:142-149; the caller reads the text
  | .message p =>
    if (s.pk p).live && (s.pk p).msgLive then
      if (s.pk p).message ≠ [] ∧ (s.pk p).isSet then
        .ok (s.setPk p { s.pk p with
          isSet := false
          garbage := (s.pk p).garbage ++ [Garb.message] ++
            (if (s.pk p).addr = .null then [] else [Garb.addr (s.pk p).addr]) }, .bytes (s.pk p).message)
      else .ok (s, .bytes (s.pk p).message)
    else .ub
  -- udp_ip, src/async_udp.c:155-160
  | .ip p =>
    if (s.pk p).live then
      match (s.pk p).ip with
      | some a => .ok (s, .addr (some a))
      | none => do
        let a ← deref s p
        .ok (s.setPk p { s.pk p with ip := a }, .addr a)
    else .ub
  -- udp_length, src/async_udp.c:167-169
  | .length p => if (s.pk p).live then .ok (s, .num (s.pk p).nread) else .ub
  -- udp_send, src/async_udp.c:74-87
  | .send p d =>
    if (s.pk p).live then .ok (sendtoKernel s s.sockaddr (if s.sockaddr.v6 then 28 else 16) d) else .ub
  | .finish p ptr pre =>
    if freesTwice (s.pk p) then .ub else do
    let r ← release p ptr pre (s.pk p).message (s.pk p).garbage.reverse
    .ok ({ s.setPk p { s.pk p with
        live := (s.pk p).live && !((s.pk p).garbage.contains .packet)
        msgLive := (s.pk p).msgLive && !((s.pk p).garbage.contains .message)
        garbage := [] } with done := s.done ++ r }, .unit)
  -- udp_to, src/async_udp.c:37-59
  | .dest a flags =>
    if (s.pk s.target).live then
      .ok ({ s.setPk s.target { s.pk s.target with addr := .sock, flags := flags } with sockaddr := a }, .unit)
    else .ub
  -- async_sendto, src/async_udp.c:61-72: the length is that of `struct sockaddr`; without an address the connected one is used
  | .sendto d =>
    if (s.pk s.target).live then do
      let dst ← deref s s.target
      match dst with
      | some a => .ok (sendtoKernel s a 16 d)
      | none =>
        match s.peer with
        | some a => .ok ({ s with out := s.out ++ [(a, d)] }, .num d.length)
        | none => .ok (s, .num (-1))
    else .ub

/-- A whole execution, with all results. -/
def run (s : St) : List Op → Res (St × List Ret)
  | [] => .ok (s, [])
  | o :: l => do
    let (s', r) ← step s o
    let (s'', rs) ← run s' l
    .ok (s'', r :: rs)

end Verif.Udp
