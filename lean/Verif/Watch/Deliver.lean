import Verif.Fd.Model

/-!
# From the kernel to the handler of a watched directory (`src/events.c` 470-605, `src/epoll.c` 91-190), C76

The registration of a monitor with the event loop and the branch of the poll loop for path watchers, on top of the model of
descriptor registration (`Verif.Fd`).
-/

namespace Verif.Watch.Deliver

open Verif.Fd (Op Cbs)

/-- include/events.h:149. -/
def PATHWATCH : BitVec 32 := 0x8000

/-- `pw fd`: `is_pathwatcher` of the descriptor; `queued`: the descriptors for which `inotify_task` was started, oldest first. -/
structure St where
  base : Fd.St
  pw : Nat → Bool
  queued : List Nat

def St.init : St := ⟨Fd.St.init, fun _ => false, []⟩

/-- A call of the library.  `events_watch` registers with `Op.add l fd PATHWATCH`, src/events.c:531-532, where `fd` is the
inotify descriptor itself (551); `is_pathwatcher` is set in 568. -/
def runOp (maxFd maxSig : Nat) (s : St) (o : Op) : Option St :=
  (Fd.runOp maxFd maxSig s.base o).map fun b =>
    { s with base := b, pw := match o with
      | .add _ fd ev _ => if fd < maxFd then Function.update s.pw fd (decide (ev = PATHWATCH)) else s.pw
      | _ => s.pw }

def runOps (maxFd maxSig : Nat) (s : St) : List Op → Option St
  | [] => some s
  | o :: os => (runOp maxFd maxSig s o).bind fun s => runOps maxFd maxSig s os

/-- A callback, which may itself call the library. -/
def call (maxFd maxSig : Nat) (cbs : Cbs) (s : St) (c : Fd.Call) : Option St :=
  runOps maxFd maxSig { s with base := { s.base with log := s.base.log ++ [c] } } (cbs s.base.log.length c)

/-- An event returned by `epoll_wait`: descriptor, mask, and whether `read` succeeds if the descriptor is a path watcher. -/
abbrev Ev := Nat × BitVec 32 × Bool

/-- The loop of `events_poll_once_internal`, src/epoll.c:158-189.  A path watcher ends the loop (169-178; memory is not
short). -/
def poll (maxFd maxSig : Nat) (cbs : Cbs) (l : Nat) : St → List Ev → Option St
  | s, [] => some s
  | s, (fd, mask, ok) :: es =>
    if l = (s.base.tgt fd).loopId ∧ (s.base.tgt fd).events &&& 3 ≠ 0 then
      if s.pw fd then some (if ok then { s with queued := s.queued ++ [fd] } else s)
      else if Fd.revents mask ≠ 0 then
        (call maxFd maxSig cbs s (.io l fd (Fd.revents mask) (s.base.tgt fd).cb)).bind fun s => poll maxFd maxSig cbs l s es
      else poll maxFd maxSig cbs l s es
    else poll maxFd maxSig cbs l { s with base := Fd.setK s.base l fd none } es

/-- Histories: calls and polls with any events.  Signals are left out. -/
inductive H where
  | op (o : Op)
  | poll (l : Nat) (batch : List Ev)

def step (maxFd maxSig : Nat) (cbs : Cbs) (s : St) : H → Option St
  | .op o => runOp maxFd maxSig s o
  | .poll l batch => poll maxFd maxSig cbs l s batch

def run (maxFd maxSig : Nat) (cbs : Cbs) (s : St) : List H → Option St
  | [] => some s
  | h :: hs => (step maxFd maxSig cbs s h).bind fun s => run maxFd maxSig cbs s hs

end Verif.Watch.Deliver
