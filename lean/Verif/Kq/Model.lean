import Verif.Fd.Model

/-!
# Model of the kqueue backend (`src/kqueue.c`, BSD and macOS)

One loop and its kqueue.  Interest changes are queued on a linked list threaded through `_backend` and told to the kernel in
batches.  The kernel's filters are part of the state; which events it reports is arbitrary.  Callbacks are numbers and may
run any of the operations.  `none` is a failed assertion, an access outside an array or a null pointer access.  Left out:
path watching, signals, timeouts (`Verif.Wheel`), other loops, and builds without assertions.
-/

namespace Verif.Kq

open Verif.Fd (READ WRITE CLOSED RW ADD DEL)

/-- The part of `events_fd_s` (src/events_internal.h:226-249) used here.  `reg` is `loop_id == loop->loop_id`, `loop != NULL`.
`events` is a `char`, `_backend` an `intptr_t`. -/
structure Tgt where
  reg : Bool
  events : BitVec 8
  backend : BitVec 64
  cb : Nat

inductive Filt where
  | read
  | write
  deriving DecidableEq

/-- An entry of the change list: descriptor, the 16-bit filter number, and `EV_ADD | EV_ENABLE` or else `EV_DISABLE`. -/
structure Change where
  fd : Nat
  filter : BitVec 16
  add : Bool
  deriving DecidableEq

/-- A callback that was made. -/
structure Call where
  fd : Nat
  revents : BitVec 32
  cb : Nat
  deriving DecidableEq

/-- The filters of the kqueue: absent, disabled or enabled. -/
abbrev Kern := Nat → Filt → Option Bool

structure St where
  tgt : Nat → Tgt
  changed : BitVec 32        -- `changed_fds`, an `int`
  k : Kern
  opn : Nat → Bool
  log : List Call

/-- After `events_init` and `events_create`, src/kqueue.c:92-116. -/
def St.init : St := ⟨fun _ => ⟨false, 0, 0, 0⟩, -1, fun _ _ => none, fun _ => false, []⟩

/-- `BACKEND_BUILD`, src/kqueue.c:34-35: `unsigned`, stored in an `intptr_t`.  (`next_fd << 8` is taken as a shift of the bits,
also for -1.) -/
def build (next : BitVec 32) (events : BitVec 8) : BitVec 64 :=
  ((next <<< 8) ||| (events.signExtend 32 &&& 0xff)).setWidth 64

/-- `BACKEND_GET_NEXT_FD`, src/kqueue.c:36. -/
def getNext (b : BitVec 64) : BitVec 32 := (b.setWidth 32).sshiftRight 8

/-- `BACKEND_GET_OLD_EVENTS`, src/kqueue.c:37. -/
def getOld (b : BitVec 64) : BitVec 32 := b.setWidth 32 &&& 0xff

/-- `EVFILT_READ` is -1 and `EVFILT_WRITE` is -2 on every BSD; the filter of `SET`, src/kqueue.c:48-53, without path
watching.  It is stored in a `short`. -/
def filterOf (events : BitVec 32) : BitVec 16 :=
  (if events &&& READ ≠ 0 ∨ events &&& CLOSED ≠ 0 then 0xffff else 0) ||| (if events &&& WRITE ≠ 0 then 0xfffe else 0)

/-- The kernel's filter with a number. -/
def filt (n : BitVec 16) : Option Filt :=
  if n = 0xffff then some .read else if n = 0xfffe then some .write else none

/-- One change, as kevent(2) describes it: unknown filters (EINVAL), closed descriptors (EBADF) and disabling an absent filter
(ENOENT) are errors. -/
def kevent1 (opn : Nat → Bool) (k : Kern) (c : Change) : Option Kern :=
  match filt c.filter with
  | none => none
  | some f =>
    if opn c.fd then
      if c.add then some (Function.update k c.fd (Function.update (k c.fd) f (some true)))
      else if (k c.fd f).isSome then some (Function.update k c.fd (Function.update (k c.fd) f (some false)))
      else none
    else none

/-- `kevent` with no room for events: it stops at the first error and the assertion after it fails. -/
def keventAll (opn : Nat → Bool) (k : Kern) : List Change → Option Kern
  | [] => some k
  | c :: cs => (kevent1 opn k c).bind fun k => keventAll opn k cs

/-- `kevent` with room for events: a change in error is reported as an event and the next ones are processed; the report is
printed (src/kqueue.c:185-188). -/
def keventSome (opn : Nat → Bool) (k : Kern) : List Change → Kern
  | [] => k
  | c :: cs => keventSome opn ((kevent1 opn k c).getD k) cs

/-- `SET`: the change list has 256 entries (src/kqueue.c:44). -/
def put (cl : List Change) (c : Change) : Option (List Change) := if cl.length < 256 then some (cl ++ [c]) else none

/-- The changes for one descriptor, src/kqueue.c:63-69. -/
def putBoth (cl : List Change) (fd : Nat) (events old : BitVec 32) : Option (List Change) :=
  (if old ≠ 0 then put cl ⟨fd, filterOf old, false⟩ else some cl).bind fun cl =>
    if events ≠ 0 then put cl ⟨fd, filterOf events, true⟩ else some cl

def setTgt (s : St) (fd : Nat) (t : Tgt) : St := { s with tgt := Function.update s.tgt fd t }

/-- The full list is told to the kernel, src/kqueue.c:70-75. -/
def flushFull (s : St) (cl : List Change) : Option (St × List Change) :=
  if 256 ≤ cl.length + 1 then (keventAll s.opn s.k cl).map fun k => ({ s with k := k }, []) else some (s, cl)

/-- The comparison and what follows, src/kqueue.c:62-76. -/
def tell (s : St) (cl : List Change) (fd : Nat) (events old : BitVec 32) : Option (St × List Change) :=
  if events ≠ old then (putBoth cl fd events old).bind fun cl => flushFull s cl else some (s, cl)

/-- The loop of `apply_pending_changes`, src/kqueue.c:55-79. -/
def applyLoop (maxFd : Nat) : Nat → St → List Change → Option (St × List Change)
  | 0, _, _ => none
  | n + 1, s, cl =>
    if s.changed = -1 then some (s, cl)
    else
      let fd := s.changed.toNat
      if fd < maxFd then
        (tell s cl fd ((s.tgt fd).events.signExtend 32) (getOld (s.tgt fd).backend)).bind fun p =>
          applyLoop maxFd n
            (setTgt { p.1 with changed := getNext (p.1.tgt fd).backend } fd { p.1.tgt fd with backend := -1 }) p.2
      else none

/-- `apply_pending_changes(loop, 1)`, src/kqueue.c:47-90. -/
def applyAll (maxFd : Nat) (s : St) : Option St :=
  (applyLoop maxFd (maxFd + 2) s []).bind fun p => (keventAll p.1.opn p.1.k p.2).map fun k => { p.1 with k := k }

/-- The middle of `events_update_internal`, src/kqueue.c:145-151: put the descriptor on the list and set the events. -/
def enqueue (s : St) (fd : Nat) (events : BitVec 32) : St :=
  let s := if (s.tgt fd).backend = -1 then
      { setTgt s fd { s.tgt fd with backend := build s.changed (s.tgt fd).events } with changed := BitVec.ofNat 32 fd }
    else s
  setTgt s fd { s.tgt fd with events := (events &&& RW).setWidth 8 }

/-- Lines 139-157 of `events_update_internal`, src/kqueue.c. -/
def updateRest (maxFd : Nat) (s : St) (fd : Nat) (events : BitVec 32) : Option St :=
  if (if events = DEL then (s.tgt fd).backend = -1 else events &&& RW = (s.tgt fd).events.signExtend 32) then some s
  else if events &&& DEL ≠ 0 then applyAll maxFd (enqueue s fd events)
  else some (enqueue s fd events)

/-- `events_update_internal`, src/kqueue.c:129-157. -/
def updateInternal (maxFd : Nat) (s : St) (fd : Nat) (events : BitVec 32) : Option St :=
  if (s.tgt fd).reg then
    updateRest maxFd (if events &&& ADD ≠ 0 then setTgt s fd { s.tgt fd with backend := -1 } else s) fd events
  else none

/-- What a program or a callback does.  `open_` makes a fresh descriptor; closing one removes its filters. -/
inductive Op where
  | add (fd : Nat) (event : BitVec 32) (cb : Nat)
  | del (fd : Nat)
  | setEvent (fd : Nat) (event : BitVec 32)
  | open_ (fd : Nat)
  | close (fd : Nat)
  deriving DecidableEq

/-- `events_add`, `events_del` and `events_set_event` (src/events.c:539-639 and 662-681) on a descriptor of this loop. -/
def runOp (maxFd : Nat) (s : St) : Op → Option St
  | .add fd event cb =>
    if fd < maxFd then updateInternal maxFd (setTgt s fd ⟨true, 0, (s.tgt fd).backend, cb⟩) fd (event ||| ADD) else some s
  | .del fd =>
    if fd < maxFd then
      if (s.tgt fd).reg then
        (updateInternal maxFd s fd DEL).map fun s => setTgt s fd { s.tgt fd with reg := false }
      else some s
    else none
  | .setEvent fd event =>
    if fd < maxFd then
      if (s.tgt fd).events.signExtend 32 ≠ event then updateInternal maxFd s fd event else some s
    else none
  | .open_ fd => some { s with opn := Function.update s.opn fd true }
  | .close fd =>
    some { s with opn := Function.update s.opn fd false, k := Function.update s.k fd fun _ => none }

def runOps (maxFd : Nat) (s : St) : List Op → Option St
  | [] => some s
  | o :: os => (runOp maxFd s o).bind fun s => runOps maxFd s os

/-- What callbacks do: it may depend on the call and on how many calls were made before. -/
abbrev Cbs := Nat → Call → List Op

/-- src/kqueue.c:200-216: the events of a report, `eof` is `EV_EOF`. -/
def revents (f : Filt) (eof : Bool) : BitVec 32 :=
  let r := match f with
    | .read => READ
    | .write => WRITE
  if eof then r &&& CLOSED else r

/-- A report of the kernel: descriptor, filter, `EV_EOF`. -/
structure Event where
  fd : Nat
  f : Filt
  eof : Bool
  deriving DecidableEq

/-- One reported event, src/kqueue.c:181-219 (the test of line 198 holds for both filters). -/
def dispatch (maxFd : Nat) (cbs : Cbs) (s : St) (e : Event) : Option St :=
  if (s.tgt e.fd).reg then
    let c : Call := ⟨e.fd, revents e.f e.eof, (s.tgt e.fd).cb⟩
    runOps maxFd { s with log := s.log ++ [c] } (cbs s.log.length c)
  else some s

def dispatchAll (maxFd : Nat) (cbs : Cbs) : St → List Event → Option St
  | s, [] => some s
  | s, e :: es => (dispatch maxFd cbs s e).bind fun s => dispatchAll maxFd cbs s es

/-- Up to the return of `kevent`, src/kqueue.c:163-173. -/
def pollBegin (maxFd : Nat) (s : St) : Option St :=
  (applyLoop maxFd (maxFd + 2) s []).map fun p => { p.1 with k := keventSome p.1.opn p.1.k p.2 }

/-- `events_poll_once_internal`, src/kqueue.c:163-223, with the events that `kevent` returned. -/
def poll (maxFd : Nat) (cbs : Cbs) (s : St) (batch : List Event) : Option St :=
  (pollBegin maxFd s).bind fun s => dispatchAll maxFd cbs s batch

/-- A step of a history. -/
inductive H where
  | op (o : Op)
  | poll (batch : List Event)
  deriving DecidableEq

def step (maxFd : Nat) (cbs : Cbs) (s : St) : H → Option St
  | .op o => runOp maxFd s o
  | .poll batch => poll maxFd cbs s batch

def run (maxFd : Nat) (cbs : Cbs) (s : St) : List H → Option St
  | [] => some s
  | h :: hs => (step maxFd cbs s h).bind fun s => run maxFd cbs s hs

end Verif.Kq
