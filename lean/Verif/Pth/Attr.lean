/-!
# Attributes of the bundled POSIX threads for Windows (`include/compat/pthread.h` 579-629, 659-679, 780-844), C193, C194

Flags are kept in an `unsigned` of 32 bits.  `EINVAL` is told by the `Bool` (`true` = success, 0 is returned).
-/

namespace Verif.Pth.Attr

abbrev Word := BitVec 32

/-! ## Attributes of threads -/

/-- The three attributes that are flags (69-75). -/
inductive Flag where
  | detach | inherit | scope
  deriving DecidableEq

/-- `PTHREAD_CREATE_DETACHED`, `PTHREAD_INHERIT_SCHED`, `PTHREAD_SCOPE_SYSTEM` (69-75). -/
def Flag.bit : Flag → Word
  | .detach => 0x04#32
  | .inherit => 0x08#32
  | .scope => 0x10#32

/-- `pthread_attr_init` (591-596): `PTHREAD_DEFAULT_ATTR` (77). -/
def attrInit : Word := 0x01#32

/-- `_pthread_get_state` (579-581), called by the `pthread_attr_get…` of each flag (608-629). -/
def getState (p : Word) (f : Flag) : Word := p &&& f.bit

/-- `_pthread_set_state` (583-589), called by the `pthread_attr_set…` of each flag (604-624). -/
def setState (p : Word) (f : Flag) (val : Word) : Word × Bool :=
  if ~~~f.bit &&& val ≠ 0#32 then (p, false) else ((p &&& ~~~f.bit) ||| val, true)

/-- A program sets attributes one after the other. -/
def setAll (p : Word) (ops : List (Flag × Word)) : Word := ops.foldl (fun p o => (setState p o.1 o.2).1) p

/-- `pthread_setcancelstate` (659-668), the value returned through the second argument last. -/
def setCancelState (p : Word) (state : Word) : Word × Bool × Word :=
  if state &&& 0x01#32 ≠ state then (p, false, 0#32) else ((p &&& ~~~0x01#32) ||| state, true, p &&& 0x01#32)

/-- `pthread_setcanceltype` (670-679). -/
def setCancelType (p : Word) (type : Word) : Word × Bool × Word :=
  if type &&& 0x02#32 ≠ type then (p, false, 0#32) else ((p &&& ~~~0x02#32) ||| type, true, p &&& 0x02#32)

/-! ## Attributes of mutexes -/

/-- `pthread_mutexattr_settype` (796-802), the type cast to unsigned. -/
def setType (a type : Word) : Word × Bool :=
  if type.toNat > 3 then (a, false) else ((a &&& ~~~3#32) ||| type, true)

/-- `pthread_mutexattr_gettype` (790-794). -/
def getType (a : Word) : Word := a &&& 3#32

/-- `pthread_mutexattr_setpshared` (810-817). -/
def setShared (a type : Word) : Word × Bool :=
  if type &&& 4#32 ≠ type then (a, false) else ((a &&& ~~~4#32) ||| type, true)

/-- `pthread_mutexattr_getpshared` (804-808). -/
def getShared (a : Word) : Word := a &&& 4#32

/-- `pthread_mutexattr_setprotocol` (825-832). -/
def setProtocol (a type : Word) : Word × Bool :=
  if type &&& 24#32 ≠ 24#32 then (a, false) else ((a &&& ~~~24#32) ||| type, true)

/-- `pthread_mutexattr_getprotocol` (819-823). -/
def getProtocol (a : Word) : Word := a &&& 24#32

/-- `pthread_mutexattr_setprioceiling` (839-844): `PTHREAD_PRIO_MULT` is 32. -/
def setCeiling (a prio : Word) : Word := (a &&& 31#32) + prio * 32#32

/-- `pthread_mutexattr_getprioceiling` (834-837): division of unsigned numbers. -/
def getCeiling (a : Word) : Word := a / 32#32

end Verif.Pth.Attr
