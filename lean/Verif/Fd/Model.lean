import Mathlib.Logic.Function.Basic
import Mathlib.Tactic

/-!
# Model of descriptor and signal registration and of event dispatch (`src/events.c`, `src/epoll.c`, Linux)

Loops are named by their `loop_id`, which is not 0 (src/events.c:740; the wrap-around of the 16-bit id after 65535 loops is
not modelled).  The kernel's epoll sets are part of the state; which events a poll returns is arbitrary.  Timeouts are in
`Verif.Wheel`; path watching and the Windows branches are not modelled.  `none` is a failed assertion or a null pointer
access.
-/

namespace Verif.Fd

/-- include/events.h:145-153. -/
def READ : BitVec 32 := 1
def WRITE : BitVec 32 := 2
def TIMEOUT : BitVec 32 := 4
def CLOSED : BitVec 32 := 5
def RW : BitVec 32 := 3
def ADD : BitVec 32 := 0x40000000
def DEL : BitVec 32 := 0x20000000

/-- Linux `<sys/epoll.h>`. -/
def EPOLLIN : BitVec 32 := 1
def EPOLLOUT : BitVec 32 := 4
def EPOLLERR : BitVec 32 := 8
def EPOLLHUP : BitVec 32 := 16

/-- The part of `events_fd_s` (src/events_internal.h:226-249) used here.  Callbacks are named by numbers. -/
structure Tgt where
  loopId : Nat
  loop : Option Nat
  events : BitVec 8
  cb : Nat
  sigIdx : Nat
  sigSet : Bool

/-- `sys_signal_t`, one slot of the table `events_sig` (src/os_unix.c).  `sig = none` is -1. -/
structure Sig where
  sig : Option Nat
  proc : Option Nat
  running : Bool
  loop : Option Nat

/-- A callback that was made. -/
inductive Call where
  | io (loop fd : Nat) (revents : BitVec 32) (cb : Nat)
  | sig (n : Nat) (cb : Nat)
  deriving DecidableEq

structure St where
  tgt : Nat → Tgt
  kset : Nat → Nat → Option (BitVec 32)   -- epoll interest: loop, descriptor
  opn : Nat → Bool                        -- open and pollable
  active : Nat → BitVec 64                -- active_descriptors
  sigAct : Nat → BitVec 64                -- active_signals
  sigs : Nat → Sig
  disp : Nat → Bool                       -- the kernel calls `events_sig_handler` for this signal
  log : List Call

/-- After `events_init`: the descriptor table and the signal table are zeroed. -/
def St.init : St :=
  { tgt := fun _ => ⟨0, none, 0, 0, 0, false⟩, kset := fun _ _ => none, opn := fun _ => false, active := fun _ => 0,
    sigAct := fun _ => 0, sigs := fun _ => ⟨some 0, none, false, none⟩, disp := fun _ => false,
    log := [] }

/-- The epoll mask for an event set, src/epoll.c:104-107. -/
def epollMask (event : BitVec 32) : BitVec 32 :=
  (if event &&& READ ≠ 0 then EPOLLIN else 0) ||| (if event &&& WRITE ≠ 0 then EPOLLOUT else 0)

def setTgt (s : St) (fd : Nat) (t : Tgt) : St := { s with tgt := Function.update s.tgt fd t }

def setK (s : St) (l fd : Nat) (m : Option (BitVec 32)) : St :=
  { s with kset := Function.update s.kset l (Function.update (s.kset l) fd m) }

/-- The kernel calls of `events_update_internal`, src/epoll.c:115-129: `EPOLL_CTL_DEL` of an absent descriptor and any
`epoll_ctl` on a closed or unpollable one fail an assertion. -/
def kernelUpdate (s : St) (l fd : Nat) (event : BitVec 32) : Option St :=
  if event &&& DEL ≠ 0 then some s
  else if event &&& RW = 0 then
    if s.opn fd ∧ (s.kset l fd).isSome then some (setK s l fd none) else none
  else if s.opn fd then some (setK s l fd (some (epollMask event))) else none

/-- `events_update_internal`, src/epoll.c:91-143.  (It always returns 0.)  `target->events` is a `char`. -/
def updateInternal (s : St) (l fd : Nat) (event : BitVec 32) : Option St :=
  if (s.tgt fd).loopId ≠ l then none
  else if event &&& RW = (s.tgt fd).events.signExtend 32 then some s
  else (kernelUpdate s l fd event).map fun s => setTgt s fd { s.tgt fd with events := event.setWidth 8 }

/-- `events_add(loop, fd, event, 0, cb, …)`, src/events.c:539-605, for other events than `EVENTS_SIGNAL` and
`EVENTS_PATHWATCH`.  The failure branch of lines 596-598 is not reachable with epoll. -/
def addFd (maxFd : Nat) (s : St) (l fd : Nat) (event : BitVec 32) (cb : Nat) : Option (Int × St) :=
  if fd < maxFd then
    let t := { s.tgt fd with cb := cb, loop := some l, loopId := l, events := 0 }
    (updateInternal (setTgt s fd t) l fd (event ||| ADD)).map fun s =>
      (0, { s with active := Function.update s.active l (s.active l + 1) })
  else some (-1, s)

/-- The first slot that is free or has this signal; src/os_unix.c:691-694.  `n` slots are left, from `i`. -/
def findSlot (s : St) (sig : Nat) : Nat → Nat → Option Nat
  | 0, _ => none
  | n + 1, i => if (s.sigs i).proc = none ∨ (s.sigs i).sig = some sig then some i else findSlot s sig n (i + 1)

/-- `events_add(loop, sig, EVENTS_SIGNAL, …)`, src/events.c:554-566 and src/os_unix.c:689-726 (`sigaction` succeeds).
`maxSig` is `max_event_sig`. -/
def addSig (maxFd maxSig : Nat) (s : St) (l sig cb : Nat) : Option (Int × St) :=
  if sig < maxFd then
    match findSlot s sig maxSig 0 with
    | none => some (-1, s)
    | some i =>
      let s := { s with sigs := Function.update s.sigs i ⟨some sig, some cb, false, some l⟩,
                        sigAct := Function.update s.sigAct l (s.sigAct l + 1), disp := Function.update s.disp sig true }
      some (0, setTgt s sig { s.tgt sig with loop := some l, sigIdx := i, sigSet := true })
  else some (-1, s)

/-- The branch of `events_del` for signals, src/events.c:615-625 with src/os_unix.c:671-683: only while its handler runs.
The default action of the signal is restored. -/
def delSig (s : St) (fd : Nat) : Option (Int × St) :=
  let i := (s.tgt fd).sigIdx
  match (s.tgt fd).loop with
  | none => none
  | some l =>
    let s := { s with sigs := Function.update s.sigs i ⟨none, none, false, (s.sigs i).loop⟩,
                      sigAct := Function.update s.sigAct l (s.sigAct l - 1), disp := Function.update s.disp fd false }
    some (0, setTgt s fd { s.tgt fd with sigSet := false })

/-- The rest of `events_del`, src/events.c:627-638. -/
def delIo (s : St) (fd : Nat) : Option (Int × St) :=
  match (s.tgt fd).loop with
  | none => some (-1, s)
  | some l =>
    (updateInternal s l fd DEL).map fun s =>
      (0, setTgt { s with active := Function.update s.active l (s.active l - 1) } fd
        { s.tgt fd with loopId := 0, loop := none })

/-- `events_del`, src/events.c:607-639. -/
def delFd (maxFd : Nat) (s : St) (fd : Nat) : Option (Int × St) :=
  if fd < maxFd then
    if (s.tgt fd).sigSet ∧ (s.sigs (s.tgt fd).sigIdx).sig = some fd ∧ (s.sigs (s.tgt fd).sigIdx).running then delSig s fd
    else delIo s fd
  else none

/-- `events_loop`, src/events.c:939-944. -/
def loopOf (s : St) (fd : Nat) : Option Nat :=
  if (s.tgt fd).sigSet then (s.sigs (s.tgt fd).sigIdx).loop else (s.tgt fd).loop

/-- The body of `events_set_event`, src/events.c:675-680; with a null loop the code follows a null pointer. -/
def setEventAt (s : St) (fd : Nat) (event : BitVec 32) : Option (Int × St) :=
  if (s.tgt fd).events.signExtend 32 ≠ event then
    match loopOf s fd with
    | none => none
    | some l => (updateInternal s l fd event).map fun s => (0, s)
  else some (0, s)

/-- `events_set_event`, src/events.c:662-681. -/
def setEvent (maxFd : Nat) (s : St) (fd : Nat) (event : BitVec 32) : Option (Int × St) :=
  if fd < maxFd then setEventAt s fd event else none

/-- What a program or a callback does.  The kernel drops a closed descriptor from all epoll sets. -/
inductive Op where
  | add (l fd : Nat) (event : BitVec 32) (cb : Nat)
  | del (fd : Nat)
  | setEvent (fd : Nat) (event : BitVec 32)
  | open_ (fd : Nat)
  | close (fd : Nat)
  | addSig (l sig cb : Nat)
  deriving DecidableEq

def runOp (maxFd maxSig : Nat) (s : St) : Op → Option St
  | .add l fd event cb => (addFd maxFd s l fd event cb).map (·.2)
  | .del fd => (delFd maxFd s fd).map (·.2)
  | .setEvent fd event => (setEvent maxFd s fd event).map (·.2)
  | .open_ fd => some { s with opn := Function.update s.opn fd true }
  | .close fd => some { s with opn := Function.update s.opn fd false, kset := fun l => Function.update (s.kset l) fd none }
  | .addSig l sig cb => (addSig maxFd maxSig s l sig cb).map (·.2)

def runOps (maxFd maxSig : Nat) (s : St) : List Op → Option St
  | [] => some s
  | o :: os => (runOp maxFd maxSig s o).bind fun s => runOps maxFd maxSig s os

/-- What callbacks do: it may depend on the call and on how many calls were made before. -/
abbrev Cbs := Nat → Call → List Op

/-- src/epoll.c:163-165. -/
def revents (mask : BitVec 32) : BitVec 32 :=
  (if mask &&& EPOLLIN ≠ 0 then READ else 0) ||| (if mask &&& EPOLLOUT ≠ 0 then WRITE else 0) |||
    (if mask &&& EPOLLHUP ≠ 0 then CLOSED else 0)

/-- One callback. -/
def call (maxFd maxSig : Nat) (cbs : Cbs) (s : St) (c : Call) : Option St :=
  runOps maxFd maxSig { s with log := s.log ++ [c] } (cbs s.log.length c)

/-- One event of a batch, src/epoll.c:158-187. -/
def dispatch (maxFd maxSig : Nat) (cbs : Cbs) (s : St) (l fd : Nat) (mask : BitVec 32) : Option St :=
  if l = (s.tgt fd).loopId ∧ (s.tgt fd).events &&& 3 ≠ 0 then
    if revents mask ≠ 0 then call maxFd maxSig cbs s (.io l fd (revents mask) (s.tgt fd).cb) else some s
  else some (setK s l fd none)

/-- `events_poll_once_internal`, src/epoll.c:149-190, on the batch that `epoll_wait` returned. -/
def poll (maxFd maxSig : Nat) (cbs : Cbs) (l : Nat) : St → List (Nat × BitVec 32) → Option St
  | s, [] => some s
  | s, e :: es => (dispatch maxFd maxSig cbs s l e.1 e.2).bind fun s => poll maxFd maxSig cbs l s es

/-- The first slot with a callback for the signal, src/os_unix.c:658-659. -/
def findSig (s : St) (sig : Nat) : Nat → Nat → Option (Nat × Nat)
  | 0, _ => none
  | n + 1, i =>
    match (s.sigs i).proc with
    | some cb => if (s.sigs i).sig = some sig then some (i, cb) else findSig s sig n (i + 1)
    | none => findSig s sig n (i + 1)

/-- `events_sig_handler`, src/os_unix.c:649-669 (signals do not nest; the counter `events_got_signal` is left out).  A signal
without handler has its default action, which is not modelled. -/
def signal (maxFd maxSig : Nat) (cbs : Cbs) (s : St) (sig : Nat) : Option St :=
  match (if s.disp sig then findSig s sig maxSig 0 else none) with
  | none => some s
  | some (i, cb) =>
    (call maxFd maxSig cbs { s with sigs := Function.update s.sigs i { s.sigs i with running := true } } (.sig sig cb)).map
      fun s => { s with sigs := Function.update s.sigs i { s.sigs i with running := false } }

/-- A step of a history. -/
inductive H where
  | op (o : Op)
  | poll (l : Nat) (batch : List (Nat × BitVec 32))
  | signal (sig : Nat)
  deriving DecidableEq

def step (maxFd maxSig : Nat) (cbs : Cbs) (s : St) : H → Option St
  | .op o => runOp maxFd maxSig s o
  | .poll l batch => poll maxFd maxSig cbs l s batch
  | .signal n => signal maxFd maxSig cbs s n

def run (maxFd maxSig : Nat) (cbs : Cbs) (s : St) : List H → Option St
  | [] => some s
  | h :: hs => (step maxFd maxSig cbs s h).bind fun s => run maxFd maxSig cbs s hs

end Verif.Fd
