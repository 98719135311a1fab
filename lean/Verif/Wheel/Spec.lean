import Verif.Wheel.Model

/-!
# Specification of descriptor timeouts

Time is cut into ticks of `res` seconds from `t0` on.  A descriptor has at most one armed timeout: the tick in which its
deadline lies, and the deadline.  A check passes over the ticks that have ended; each armed descriptor of such a tick is
called back, in ascending order.
-/

namespace Verif.Wheel

structure Cfg where
  maxFd : Nat
  t0 : Int
  res : Int

structure AW where
  arm : Nat → Option (Nat × Int)
  reg : Nat → Bool
  base : Nat                        -- ticks passed over
  now : Int
  log : List (Nat × Int × Int)      -- descriptor, deadline, time of the call

def Cfg.start (c : Cfg) (n : Nat) : Int := c.t0 + n * c.res

def AW.init (t : Int) : AW := ⟨fun _ => none, fun _ => false, 0, t, []⟩

/-- Arm (or disarm, if `secs = 0`) a registered descriptor.  Deadlines must lie within the 128 ticks of the wheel. -/
def AW.set (c : Cfg) (a : AW) (fd : Nat) (secs : Int) : Option AW :=
  if secs = 0 then some { a with arm := Function.update a.arm fd none }
  else if 0 ≤ secs ∧ c.start a.base ≤ a.now + secs ∧ a.now + secs < c.start a.base + 128 * c.res then
    some { a with arm := Function.update a.arm fd (some (((a.now + secs - c.t0) / c.res).toNat, a.now + secs)) }
  else none

/-- `who = some k`: during the callback of `k`, which may only touch `k` itself and add descriptors. -/
def specOp (c : Cfg) (who : Option Nat) (a : AW) : COp → Option AW
  | .set fd secs => if fd < c.maxFd ∧ a.reg fd ∧ (who = none ∨ who = some fd) then a.set c fd secs else none
  | .add fd secs =>
    if fd < c.maxFd ∧ ¬ a.reg fd then ({ a with reg := Function.update a.reg fd true } : AW).set c fd secs else none
  | .del fd =>
    if fd < c.maxFd ∧ a.reg fd ∧ (who = none ∨ who = some fd) then
      some { a with arm := Function.update a.arm fd none, reg := Function.update a.reg fd false }
    else none

def specOps (c : Cfg) (who : Option Nat) (a : AW) : List COp → Option AW
  | [] => some a
  | o :: os => (specOp c who a o).bind fun a => specOps c who a os

/-- The timeout of `k` happens. -/
def specFire (c : Cfg) (cb : Cb) (a : AW) (k : Nat) : Option AW :=
  (a.arm k).bind fun p =>
    specOps c (some k) { a with arm := Function.update a.arm k none, log := a.log ++ [(k, p.2, a.now)] } (cb a.log.length k)

/-- The descriptors armed for the current tick, ascending. -/
def AW.due (c : Cfg) (a : AW) : List Nat := (List.range c.maxFd).filter fun fd => (a.arm fd).map (·.1) == some a.base

def fireAll (c : Cfg) (cb : Cb) (a : AW) : List Nat → Option AW
  | [] => some a
  | k :: ks => (specFire c cb a k).bind fun a => fireAll c cb a ks

/-- Pass over `n` ticks. -/
def specTicks (c : Cfg) (cb : Cb) : Nat → AW → Option AW
  | 0, a => some a
  | n + 1, a => (fireAll c cb a (a.due c)).bind fun a => specTicks c cb n { a with base := a.base + 1 }

/-- How many ticks have ended. -/
def AW.ended (c : Cfg) (a : AW) : Nat := ((a.now - c.start a.base) / c.res).toNat

inductive HOp where
  | clock (t : Int)      -- the loop reads the time
  | op (o : COp)         -- the program sets, adds or deletes
  | check                -- the loop handles timeouts
  deriving DecidableEq

def specH (c : Cfg) (cb : Cb) (a : AW) : HOp → Option AW
  | .clock t => some { a with now := t }
  | .op o => specOp c none a o
  | .check => specTicks c cb (a.ended c) a

def specHs (c : Cfg) (cb : Cb) (a : AW) : List HOp → Option AW
  | [] => some a
  | o :: os => (specH c cb a o).bind fun a => specHs c cb a os

def implH (maxFd : Nat) (cb : Cb) (w : Wheel) : HOp → Option Wheel
  | .clock t => some { w with now := t }
  | .op o => runOp w o
  | .check => handleTimeouts cb (vecOfVecSize maxFd) w

def implHs (maxFd : Nat) (cb : Cb) (w : Wheel) : List HOp → Option Wheel
  | [] => some w
  | o :: os => (implH maxFd cb w o).bind fun w => implHs maxFd cb w os

end Verif.Wheel
