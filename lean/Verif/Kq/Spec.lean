import Verif.Kq.Model
import Verif.Fd.Spec

/-!
# Specification of registration with the kqueue backend

A descriptor is registered or not; a registered one has a callback and a set of interesting events.  A step that is not
allowed (`none`) breaks a rule of the interface: registering a closed descriptor, one that is registered, or one that was
registered before and not closed since; changing the events of an unregistered one; closing a registered one.
-/

namespace Verif.Kq

structure Reg where
  cb : Nat
  rw : BitVec 2          -- bit 0: READ, bit 1: WRITE

structure AS where
  reg : Nat → Option Reg
  opn : Nat → Bool
  used : Nat → Bool      -- was registered since it was opened
  log : List Call

def AS.init : AS := ⟨fun _ => none, fun _ => false, fun _ => false, []⟩

def specOp (maxFd : Nat) (a : AS) : Op → Option AS
  | .add fd event cb =>
    if fd < maxFd then
      if Fd.PlainEvent event ∧ a.opn fd = true ∧ a.used fd = false then
        some { a with reg := Function.update a.reg fd (some ⟨cb, event.setWidth 2⟩), used := Function.update a.used fd true }
      else none
    else some a
  | .del fd => if fd < maxFd then some { a with reg := Function.update a.reg fd none } else none
  | .setEvent fd event =>
    if fd < maxFd ∧ event &&& 3 = event then
      (a.reg fd).map fun r => { a with reg := Function.update a.reg fd (some { r with rw := event.setWidth 2 }) }
    else none
  | .open_ fd => some { a with opn := Function.update a.opn fd true }
  | .close fd =>
    if (a.reg fd).isNone then
      some { a with opn := Function.update a.opn fd false, used := Function.update a.used fd false }
    else none

def specOps (maxFd : Nat) (a : AS) : List Op → Option AS
  | [] => some a
  | o :: os => (specOp maxFd a o).bind fun a => specOps maxFd a os

/-- What a report without end-of-file says. -/
def Filt.event : Filt → BitVec 32
  | .read => 1
  | .write => 2

/-- An event is handed to the callback of the descriptor's registration, if there is one.  End-of-file is not covered. -/
def specDispatch (maxFd : Nat) (cbs : Cbs) (a : AS) (e : Event) : Option AS :=
  if e.eof then none
  else match a.reg e.fd with
    | none => some a
    | some r => specOps maxFd { a with log := a.log ++ [⟨e.fd, e.f.event, r.cb⟩] } (cbs a.log.length ⟨e.fd, e.f.event, r.cb⟩)

def specPoll (maxFd : Nat) (cbs : Cbs) : AS → List Event → Option AS
  | a, [] => some a
  | a, e :: es => (specDispatch maxFd cbs a e).bind fun a => specPoll maxFd cbs a es

def specStep (maxFd : Nat) (cbs : Cbs) (a : AS) : H → Option AS
  | .op o => specOp maxFd a o
  | .poll batch => specPoll maxFd cbs a batch

def specRun (maxFd : Nat) (cbs : Cbs) (a : AS) : List H → Option AS
  | [] => some a
  | h :: hs => (specStep maxFd cbs a h).bind fun a => specRun maxFd cbs a hs

end Verif.Kq
