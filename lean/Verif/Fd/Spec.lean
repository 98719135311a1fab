import Verif.Fd.Model

/-!
# Specification of descriptor registration

A descriptor is registered with at most one loop, with a callback and a set of interesting events.  A step that is not
allowed (`none`) is one where the program breaks a rule of the interface: registering a closed descriptor, changing the
events of an unregistered one, closing one that is still registered.  Adding a registered descriptor is allowed.
-/

namespace Verif.Fd

structure Reg where
  loop : Nat
  cb : Nat
  rw : BitVec 2          -- READ and WRITE interest

structure AS where
  reg : Nat → Option Reg
  opn : Nat → Bool
  extra : Nat → Nat      -- how often a descriptor of the loop was added while registered
  log : List Call

def AS.init : AS := ⟨fun _ => none, fun _ => false, fun _ => 0, []⟩

/-- Events that `events_add` treats as descriptor events. -/
def PlainEvent (event : BitVec 32) : Prop := event &&& DEL = 0 ∧ event &&& 0x8000 = 0 ∧ event ≠ 255

instance (event : BitVec 32) : Decidable (PlainEvent event) := by unfold PlainEvent; infer_instance

def bump (f : Nat → Nat) : Option Reg → Nat → Nat
  | none => f
  | some r => Function.update f r.loop (f r.loop + 1)

def specOp (maxFd : Nat) (a : AS) : Op → Option AS
  | .add l fd event cb =>
    if fd < maxFd then
      if l ≠ 0 ∧ PlainEvent event ∧ a.opn fd then
        some { a with reg := Function.update a.reg fd (some ⟨l, cb, event.setWidth 2⟩), extra := bump a.extra (a.reg fd) }
      else none
    else some a
  | .del fd => if fd < maxFd then some { a with reg := Function.update a.reg fd none } else none
  | .setEvent fd event =>
    if fd < maxFd ∧ event &&& 3 = event then
      (a.reg fd).map fun r => { a with reg := Function.update a.reg fd (some { r with rw := event.setWidth 2 }) }
    else none
  | .open_ fd => some { a with opn := Function.update a.opn fd true }
  | .close fd => if (a.reg fd).isNone then some { a with opn := Function.update a.opn fd false } else none
  | .addSig _ _ _ => none

def specOps (maxFd : Nat) (a : AS) : List Op → Option AS
  | [] => some a
  | o :: os => (specOp maxFd a o).bind fun a => specOps maxFd a os

/-- An event is handed to the callback of the descriptor's registration if that is with this loop and is interested in
anything. -/
def specDispatch (maxFd : Nat) (cbs : Cbs) (a : AS) (l fd : Nat) (mask : BitVec 32) : Option AS :=
  match a.reg fd with
  | none => some a
  | some r =>
    if r.loop = l ∧ r.rw ≠ 0 ∧ revents mask ≠ 0 then
      specOps maxFd { a with log := a.log ++ [.io l fd (revents mask) r.cb] } (cbs a.log.length (.io l fd (revents mask) r.cb))
    else some a

def specPoll (maxFd : Nat) (cbs : Cbs) (l : Nat) : AS → List (Nat × BitVec 32) → Option AS
  | a, [] => some a
  | a, e :: es => (specDispatch maxFd cbs a l e.1 e.2).bind fun a => specPoll maxFd cbs l a es

def specStep (maxFd : Nat) (cbs : Cbs) (a : AS) : H → Option AS
  | .op o => specOp maxFd a o
  | .poll l batch => if l ≠ 0 then specPoll maxFd cbs l a batch else none
  | .signal _ => none

def specRun (maxFd : Nat) (cbs : Cbs) (a : AS) : List H → Option AS
  | [] => some a
  | h :: hs => (specStep maxFd cbs a h).bind fun a => specRun maxFd cbs a hs

/-- The number of descriptors registered with a loop. -/
def AS.num (maxFd : Nat) (a : AS) (l : Nat) : Nat :=
  ((List.range maxFd).filter fun fd => (a.reg fd).map (·.loop) == some l).length

end Verif.Fd
