import Mathlib.Data.List.Basic
import Mathlib.Data.List.Nodup
import Mathlib.Data.List.Perm.Basic

/-!
# Sockets of an epoll set and their poll requests, src/wepoll.c (937-1430, 1572-1890): model

An epoll set (`port_state_t`) keeps a block (`sock_state_t`) for every socket.  For each block at most one poll request is given to the
system, which later writes its result into the block and delivers a packet.  The search tree is a table and the queues are lists
here, as shown in `TreeProps.lean` and `Queue.lean`.  Blocks are numbered; the contents of a block stay when it is freed, but any use of
a block that is not allocated, and any failing `assert`, gives `none`.

What the system does is given by an oracle: whether allocations succeed and which number a new block has, whether a poll request is
accepted, whether a cancellation succeeds, and which packets come with which contents.
-/

namespace Verif.Wepoll.Ep

/-- `uint32_t` sets of events. -/
abbrev Mask := BitVec 32

/-- include/compat/epoll.h:43-56. -/
def epollIn : Mask := 0x1
def epollPri : Mask := 0x2
def epollOut : Mask := 0x4
def epollErr : Mask := 0x8
def epollHup : Mask := 0x10
def epollRdnorm : Mask := 0x40
def epollRdband : Mask := 0x80
def epollWrnorm : Mask := 0x100
def epollWrband : Mask := 0x200
def epollMsg : Mask := 0x400
def epollRdhup : Mask := 0x2000
def epollOneshot : Mask := 0x80000000

/-- `SOCK__KNOWN_EPOLL_EVENTS`, src/wepoll.c:1573-1575. -/
def known : Mask :=
  epollIn ||| epollPri ||| epollOut ||| epollErr ||| epollHup ||| epollRdnorm ||| epollRdband ||| epollWrnorm ||| epollWrband ||| epollMsg |||
    epollRdhup

/-- src/wepoll.c:239-246. -/
def afdReceive : Mask := 0x1
def afdExpedited : Mask := 0x2
def afdSend : Mask := 0x4
def afdDisconnect : Mask := 0x8
def afdAbort : Mask := 0x10
def afdLocalClose : Mask := 0x20
def afdAccept : Mask := 0x80
def afdConnectFail : Mask := 0x100

/-- `x & m` as a condition. -/
def has (x m : Mask) : Bool := x &&& m != 0

/-- `if (c) r |= m`. -/
def orIf (c : Bool) (r m : Mask) : Mask := if c then r ||| m else r

/-- `sock__epoll_events_to_afd_events`, src/wepoll.c:1716-1735. -/
def toAfd (e : Mask) : Mask :=
  let a := afdLocalClose
  let a := orIf (has e (epollIn ||| epollRdnorm)) a (afdReceive ||| afdAccept)
  let a := orIf (has e (epollPri ||| epollRdband)) a afdExpedited
  let a := orIf (has e (epollOut ||| epollWrnorm ||| epollWrband)) a afdSend
  let a := orIf (has e (epollIn ||| epollRdnorm ||| epollRdhup)) a afdDisconnect
  let a := orIf (has e epollHup) a afdAbort
  orIf (has e epollErr) a afdConnectFail

/-- `sock__afd_events_to_epoll_events`, src/wepoll.c:1737-1756. -/
def toEpoll (a : Mask) : Mask :=
  let e := 0
  let e := orIf (has a (afdReceive ||| afdAccept)) e (epollIn ||| epollRdnorm)
  let e := orIf (has a afdExpedited) e (epollPri ||| epollRdband)
  let e := orIf (has a afdSend) e (epollOut ||| epollWrnorm ||| epollWrband)
  let e := orIf (has a afdDisconnect) e (epollIn ||| epollRdnorm ||| epollRdhup)
  let e := orIf (has a afdAbort) e epollHup
  orIf (has a afdConnectFail) e (epollIn ||| epollOut ||| epollErr ||| epollRdnorm ||| epollWrnorm ||| epollRdhup)

/-! ## Poll groups -/

/-- The queue of groups and their `group_size`.  A group stands for a handle of the driver. -/
structure G where
  q : List Nat
  size : Nat → Nat

/-- `POLL_GROUP__MAX_GROUP_SIZE`, src/wepoll.c:932. -/
def maxGroup : Nat := 32

def setN (f : Nat → Nat) (x v : Nat) : Nat → Nat := fun z => if z = x then v else f z

/-- `poll_group__new`, src/wepoll.c:941-963: `new` is the new group if memory and handle could be had. -/
def gNew (g : G) (new : Option Nat) : Option (Nat × G) :=
  match new with
  | none => none
  | some n => some (n, ⟨g.q ++ [n], setN g.size n 0⟩)

/-- The choice of a group, src/wepoll.c:981-991. -/
def gPick (g : G) (new : Option Nat) : Option (Nat × G) :=
  match g.q.getLast? with
  | none => gNew g new
  | some l => if maxGroup ≤ g.size l then gNew g new else some (l, g)

/-- `poll_group_acquire`, src/wepoll.c:980-998. -/
def gAcquire (g : G) (new : Option Nat) : Option (Nat × G) :=
  match gPick g new with
  | none => none
  | some (n, g) =>
    let size := setN g.size n (g.size n + 1)
    if size n = maxGroup then some (n, ⟨n :: g.q.filter (fun y => y ≠ n), size⟩) else some (n, ⟨g.q, size⟩)

/-- `poll_group_release`, src/wepoll.c:1000-1010; `none` if the group is not there or the assertion fails. -/
def gRelease (g : G) (n : Nat) : Option G :=
  if n ∈ g.q ∧ 0 < g.size n ∧ g.size n - 1 < maxGroup then
    some ⟨g.q.filter (fun y => y ≠ n) ++ [n], setN g.size n (g.size n - 1)⟩
  else none

/-! ## Blocks -/

/-- `sock__poll_status_t`, src/wepoll.c:1577-1581. -/
inductive Status where
  | idle | pending | cancelled
  deriving DecidableEq

/-- `sock_state_t`, src/wepoll.c:1583-1595, without the links; `key` is `tree_node.key`, the number of the socket. -/
structure Sock where
  key : Nat
  user : Mask
  pend : Mask
  data : Nat
  status : Status
  del : Bool
  group : Nat

/-- `port_state_t`, src/wepoll.c:1039-1048.  `alive` are the allocated blocks, `io` the blocks with a request whose packet was not
processed yet (it is with the system, or in the list of packets that a waiting thread got). -/
structure Port where
  alive : List Nat
  sock : Nat → Sock
  tree : List (Nat × Nat)
  upd : List Nat
  dels : List Nat
  io : List Nat
  g : G
  waiting : Nat

/-- `port_new`, src/wepoll.c:1072-1101. -/
def port0 (sock : Nat → Sock) (size : Nat → Nat) : Port := ⟨[], sock, [], [], [], [], ⟨[], size⟩, 0⟩

def Port.set (p : Port) (x : Nat) (s : Sock) : Port := { p with sock := fun z => if z = x then s else p.sock z }

/-- `queue_is_enqueued` for a block. -/
def Port.enq (p : Port) (x : Nat) : Bool := decide (x ∈ p.upd ∨ x ∈ p.dels)

/-- `queue_remove` of a block. -/
def Port.unq (p : Port) (x : Nat) : Port :=
  { p with upd := p.upd.filter (fun y => y ≠ x), dels := p.dels.filter (fun y => y ≠ x) }

/-- `port_request_socket_update`, src/wepoll.c:1398-1404. -/
def Port.request (p : Port) (x : Nat) : Port := if p.enq x then p else { p with upd := p.upd ++ [x] }

/-- `port_cancel_socket_update`, src/wepoll.c:1406-1412, and `port_remove_deleted_socket`, 1422-1428. -/
def Port.dequeue (p : Port) (x : Nat) : Port := if !p.enq x then p else p.unq x

/-- `port_add_deleted_socket`, src/wepoll.c:1414-1420. -/
def Port.addDeleted (p : Port) (x : Nat) : Port := if p.enq x then p else { p with dels := p.dels ++ [x] }

/-- `sock__cancel_poll`, src/wepoll.c:1609-1619, when the status is pending; the system may refuse. -/
def cancelled (s : Sock) (ok : Bool) : Sock := if ok then { s with status := .cancelled, pend := 0 } else s

/-- `port_unregister_socket`, src/wepoll.c:1386-1389: the block must be in the tree. -/
def Port.unregister (p : Port) (x : Nat) : Option Port :=
  if ((p.sock x).key, x) ∈ p.tree then some { p with tree := p.tree.filter (fun e => e.2 ≠ x) } else none

/-- The first part of `sock__delete`, src/wepoll.c:1665-1673. -/
def delFirst (p : Port) (x : Nat) (cancel : Nat → Bool) : Option Port :=
  let s := p.sock x
  let p := if s.status = .pending then p.set x (cancelled s (cancel s.key)) else p
  match (p.dequeue x).unregister x with
  | none => none
  | some p => some (p.set x { p.sock x with del := true })

/-- Freeing a block, src/wepoll.c:1680-1682. -/
def delFree (p : Port) (x : Nat) : Option Port :=
  let p := p.dequeue x
  match gRelease p.g (p.sock x).group with
  | none => none
  | some g => some { p with g := g, alive := p.alive.filter (fun y => y ≠ x) }

/-- The second part of `sock__delete`, src/wepoll.c:1675-1686. -/
def delLast (p : Port) (x : Nat) (force : Bool) : Option Port :=
  if force || (p.sock x).status = .idle then delFree p x else some (p.addDeleted x)

/-- `sock__delete`, src/wepoll.c:1662-1689. -/
def sockDelete (p : Port) (x : Nat) (force : Bool) (cancel : Nat → Bool) : Option Port :=
  if x ∈ p.alive then
    if (p.sock x).del then delLast p x force
    else
      match delFirst p x cancel with
      | none => none
      | some p => delLast p x force
  else none

/-- What the system answers to a poll request, src/wepoll.c:1791-1806: accepted (at once or as pending), the socket is closed, or
another error. -/
inductive PollRes where
  | started | closed | failed
  deriving DecidableEq

/-- The system during one call. -/
structure Orc where
  base : Bool
  group : Option Nat
  mem : Option Nat
  poll : Nat → PollRes
  cancel : Nat → Bool

/-- `(user_events & SOCK__KNOWN_EPOLL_EVENTS & ~pending_events) == 0`. -/
def covered (s : Sock) : Bool := s.user &&& known &&& ~~~ s.pend == 0

/-- `sock_update`, src/wepoll.c:1758-1818: the new state and whether it failed. -/
def sockUpdate (p : Port) (x : Nat) (o : Orc) : Option (Port × Bool) :=
  if x ∈ p.alive then
    let s := p.sock x
    if s.del then none
    else
      match s.status with
      | .pending =>
        if covered s then some (p.dequeue x, true)
        else if o.cancel s.key then some ((p.set x (cancelled s true)).dequeue x, true)
        else some (p, false)
      | .cancelled => some (p.dequeue x, true)
      | .idle =>
        match o.poll s.key with
        | .started => some (({ p with io := x :: p.io }.set x { s with status := .pending, pend := s.user }).dequeue x, true)
        | .closed =>
          match sockDelete p x false o.cancel with
          | none => none
          | some p => some (p, true)
        | .failed => some (p, false)
  else none

/-- `port__update_events`, src/wepoll.c:1154-1170.  The fuel is never exhausted. -/
def updateEvents : Nat → Port → Orc → Option (Port × Bool)
  | 0, _, _ => none
  | n + 1, p, o =>
    match p.upd with
    | [] => some (p, true)
    | x :: _ =>
      match sockUpdate p x o with
      | none => none
      | some (p, false) => some (p, false)
      | some (p, true) => updateEvents n p o

/-- `port__update_events_if_polling`, src/wepoll.c:1172-1175: its result is ignored. -/
def updateIfPolling (p : Port) (o : Orc) : Option Port :=
  if 0 < p.waiting then
    match updateEvents (p.upd.length + 1) p o with
    | none => none
    | some (p, _) => some p
  else some p

/-- `sock_new`, src/wepoll.c:1621-1660: `some (p, none)` is a failure. -/
def sockNew (p : Port) (key : Nat) (o : Orc) : Option (Port × Option Nat) :=
  if !o.base then some (p, none)
  else
    match gAcquire p.g o.group with
    | none => some (p, none)
    | some (n, g) =>
      let p := { p with g := g }
      match o.mem with
      | none =>
        match gRelease p.g n with
        | none => none
        | some g => some ({ p with g := g }, none)
      | some x =>
        let p := { p with alive := x :: p.alive }.set x ⟨key, 0, 0, 0, .idle, false, n⟩
        if key ∈ p.tree.map (·.1) then
          match gRelease p.g n with
          | none => none
          | some g => some ({ p with g := g, alive := p.alive.filter (fun y => y ≠ x) }, none)
        else some ({ p with tree := (key, x) :: p.tree }, some x)

/-- `sock_set_event`, src/wepoll.c:1699-1714. -/
def setEvent (p : Port) (x : Nat) (ev : Mask) (data : Nat) : Option Port :=
  if x ∈ p.alive then
    let events := ev ||| epollErr ||| epollHup
    let s := { p.sock x with user := events, data := data }
    let p := p.set x s
    some (if events &&& known &&& ~~~ s.pend != 0 then p.request x else p)
  else none

/-- `port_find_socket`, src/wepoll.c:1391-1396. -/
def Port.find (p : Port) (key : Nat) : Option Nat := (p.tree.find? (fun e => e.1 = key)).map (·.2)

/-- `port__ctl_add`, src/wepoll.c:1305-1320; the answer tells success. -/
def ctlAdd (p : Port) (key : Nat) (ev : Mask) (data : Nat) (o : Orc) : Option (Port × Bool) :=
  match sockNew p key o with
  | none => none
  | some (p, none) => some (p, false)
  | some (p, some x) =>
    match setEvent p x ev data with
    | none => none
    | some p =>
      match updateIfPolling p o with
      | none => none
      | some p => some (p, true)

/-- `port__ctl_mod`, src/wepoll.c:1322-1335. -/
def ctlMod (p : Port) (key : Nat) (ev : Mask) (data : Nat) (o : Orc) : Option (Port × Bool) :=
  match p.find key with
  | none => some (p, false)
  | some x =>
    match setEvent p x ev data with
    | none => none
    | some p =>
      match updateIfPolling p o with
      | none => none
      | some p => some (p, true)

/-- `port__ctl_del`, src/wepoll.c:1337-1345. -/
def ctlDel (p : Port) (key : Nat) (o : Orc) : Option (Port × Bool) :=
  match p.find key with
  | none => some (p, false)
  | some x =>
    match sockDelete p x false o.cancel with
    | none => none
    | some p => some (p, true)

/-- What a packet says: cancelled, failed, no handle, or the events of the driver. -/
inductive Packet where
  | cancelled | failed | nothing
  | events (a : Mask)

/-- The events of a packet, src/wepoll.c:1836-1853; `none`: the socket was closed. -/
def packetEvents : Packet → Option Mask
  | .cancelled => some 0
  | .failed => some epollErr
  | .nothing => some 0
  | .events a => if has a afdLocalClose then none else some (toEpoll a)

/-- An event given to the user: the data of the socket and the events. -/
abbrev Event := Nat × Mask

/-- The end of `sock_feed_event`, src/wepoll.c:1855-1874. -/
def feedEnd (p : Port) (x : Nat) (ev : Mask) : Port × Option Event :=
  let p := p.request x
  let s := p.sock x
  let ev := ev &&& s.user
  if ev = 0 then (p, none)
  else
    let p := if has s.user epollOneshot then p.set x { s with user := 0 } else p
    (p, some (s.data, ev))

/-- `sock_feed_event`, src/wepoll.c:1820-1875. -/
def feed (p : Port) (x : Nat) (k : Packet) (o : Orc) : Option (Port × Option Event) :=
  if x ∈ p.alive then
    let p := { p with io := p.io.filter (fun y => y ≠ x) }.set x { p.sock x with status := .idle, pend := 0 }
    if (p.sock x).del then
      match sockDelete p x false o.cancel with
      | none => none
      | some p => some (p, none)
    else
      match packetEvents k with
      | none =>
        match sockDelete p x false o.cancel with
        | none => none
        | some p => some (p, none)
      | some ev => some (feedEnd p x ev)
  else none

/-- `port__feed_events`, src/wepoll.c:1177-1193. -/
def feedAll (p : Port) (o : Orc) : List (Nat × Packet) → Option (Port × List Event)
  | [] => some (p, [])
  | (x, k) :: l =>
    match feed p x k o with
    | none => none
    | some (p, e) =>
      match feedAll p o l with
      | none => none
      | some (p, es) => some (p, e.toList ++ es)

/-- The first part of `port__poll`, src/wepoll.c:1202-1207: afterwards the lock is free and the thread waits. -/
def pollBegin (p : Port) (o : Orc) : Option (Port × Bool) :=
  match updateEvents (p.upd.length + 1) p o with
  | none => none
  | some (p, false) => some (p, false)
  | some (p, true) => some ({ p with waiting := p.waiting + 1 }, true)

/-- The thread has the lock again, src/wepoll.c:1216-1224. -/
def pollEnd (p : Port) (l : List (Nat × Packet)) (o : Orc) : Option (Port × List Event) :=
  if 0 < p.waiting then feedAll { p with waiting := p.waiting - 1 } o l else none

/-- The loop of `port_delete` over the tree, src/wepoll.c:1130-1133; `root` tells which node is the root of the tree. -/
def closeTree (root : List (Nat × Nat) → Nat) (cancel : Nat → Bool) : Nat → Port → Option Port
  | 0, _ => none
  | n + 1, p =>
    if p.tree = [] then some p
    else
      match sockDelete p (root p.tree) true cancel with
      | none => none
      | some p => closeTree root cancel n p

/-- The loop over the deleted sockets, src/wepoll.c:1135-1138. -/
def closeDels (cancel : Nat → Bool) : Nat → Port → Option Port
  | 0, _ => none
  | n + 1, p =>
    match p.dels with
    | [] => some p
    | x :: _ =>
      match sockDelete p x true cancel with
      | none => none
      | some p => closeDels cancel n p

/-- The loop over the groups, src/wepoll.c:1140-1143, with the assertion of `poll_group_delete` (965-970). -/
def closeGroups (size : Nat → Nat) : List Nat → Option (List Nat)
  | [] => some []
  | n :: q => if size n = 0 then closeGroups size q else none

/-- `port_delete`, src/wepoll.c:1123-1152. -/
def portDelete (p : Port) (root : List (Nat × Nat) → Nat) (cancel : Nat → Bool) : Option Port :=
  match closeTree root cancel (p.tree.length + 1) p with
  | none => none
  | some p =>
    match closeDels cancel (p.dels.length + 1) p with
    | none => none
    | some p =>
      match closeGroups p.g.size p.g.q with
      | none => none
      | some q => if p.upd = [] then some { p with g := ⟨q, p.g.size⟩ } else none

/-! ## The system as a whole -/

/-- What threads do with the epoll set, each under its lock: the three operations of `epoll_ctl`; a thread begins to wait; a waiting
thread got packets (none if the waiting time is over), and `stop` tells whether its time is over.  `o'` is the system during the
second updating. -/
inductive Op where
  | add (key : Nat) (ev : Mask) (data : Nat) (o : Orc)
  | mod (key : Nat) (ev : Mask) (data : Nat) (o : Orc)
  | del (key : Nat) (o : Orc)
  | wait (o o' : Orc)
  | packets (l : List (Nat × Packet)) (stop : Bool) (o o' : Orc)

/-- The answer: success or not, and the events. -/
structure Ans where
  ok : Bool
  events : List Event

/-- A turn of the loop of `port_wait`, src/wepoll.c:1266-1290: a failing `port__poll` ends it. -/
def waitTurn (p : Port) (o o' : Orc) : Option (Port × Ans) :=
  match pollBegin p o with
  | none => none
  | some (p, true) => some (p, ⟨true, []⟩)
  | some (p, false) => (updateIfPolling p o').map fun p => (p, ⟨false, []⟩)

def exec (p : Port) : Op → Option (Port × Ans)
  | .add key ev data o => (ctlAdd p key ev data o).map fun (p, b) => (p, ⟨b, []⟩)
  | .mod key ev data o => (ctlMod p key ev data o).map fun (p, b) => (p, ⟨b, []⟩)
  | .del key o => (ctlDel p key o).map fun (p, b) => (p, ⟨b, []⟩)
  | .wait o o' => waitTurn p o o'
  | .packets l stop o o' =>
    match pollEnd p l o with
    | none => none
    | some (p, []) => if stop then (updateIfPolling p o').map fun p => (p, ⟨true, []⟩) else waitTurn p o o'
    | some (p, es) => (updateIfPolling p o').map fun p => (p, ⟨true, es⟩)

/-- What the system guarantees: a new block or group is not one in use; packets come only for requests that were made, each once; and
only a waiting thread gets packets. -/
def Env (p : Port) : Op → Prop
  | .add _ _ _ o => (∀ x, o.mem = some x → x ∉ p.alive) ∧ (∀ n, o.group = some n → n ∉ p.g.q)
  | .mod _ _ _ _ => True
  | .del _ _ => True
  | .wait _ _ => True
  | .packets l _ _ _ => (l.map (·.1)).Nodup ∧ (∀ x ∈ l.map (·.1), x ∈ p.io) ∧ 0 < p.waiting

end Verif.Wepoll.Ep
