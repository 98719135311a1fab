import Mathlib.Logic.Function.Basic
import Mathlib.Tactic

/-!
# Model of the descriptor timeouts (timing wheel), `src/events.c`

A loop has 128 slots; each slot has a bitmap of descriptors (`vec`, 16-bit words, most significant bit first) and a
summary bitmap of its non-zero words (`vec_of_vec`).  Words are indexed by slot and position; that the flat arrays of the
code are large enough and that slots do not overlap is `wheel_indices_in_bounds` in `Props.lean`.  A `short` is a 16-bit
word; `v < 0` is its top bit; `v <<= 1` is the two's complement shift that compilers implement.
-/

namespace Verif.Wheel

/-- `EVENTS_RND_UP`, include/async_io.h:21. -/
def rndUp (v d : Nat) : Nat := (v + d - 1) / d * d

/-- `timeout_vec_size`, src/events.c:268. -/
def vecSize (maxFd : Nat) : Nat := rndUp maxFd 128 / 16
/-- `timeout_vec_of_vec_size`, src/events.c:269-270. -/
def vecOfVecSize (maxFd : Nat) : Nat := rndUp (vecSize maxFd) 128 / 16

/-- The timeout part of a loop (src/events_internal.h:318-327), and of the descriptor table: `idx` is `timeout_idx` (255 =
unused), `reg fd` says that the descriptor's `loop_id` is that of this loop.  `log` records the timeout callbacks with the
loop's `now`. -/
structure Wheel where
  vec : Nat → Nat → BitVec 16
  vov : Nat → Nat → BitVec 16
  idx : Nat → Nat
  reg : Nat → Bool
  baseIdx : Nat
  baseTime : Int
  now : Int
  res : Int
  log : List (Nat × Int)

/-- `events_init_loop_internal`, src/events.c:750-760.  No descriptor is registered yet. -/
def Wheel.init (maxTimeout : Nat) (time : Int) : Wheel :=
  { vec := fun _ _ => 0, vov := fun _ _ => 0, idx := fun _ => 255, reg := fun _ => false, baseIdx := 0, baseTime := time,
    now := time, res := ((rndUp maxTimeout 128 / 128 : Nat) : Int), log := [] }

/-- `(unsigned short)SHRT_MIN >> i`. -/
def mask (i : Nat) : BitVec 16 := 0x8000#16 >>> i

/-- Change one word of a table. -/
def upd (f : Nat → Nat → BitVec 16) (s j : Nat) (v : BitVec 16) : Nat → Nat → BitVec 16 :=
  Function.update f s (Function.update (f s) j v)

/-- "clear timeout", src/events.c:421-430. -/
def clearBit (w : Wheel) (fd : Nat) : Wheel :=
  if w.idx fd ≠ 255 then
    let v := w.vec (w.idx fd) (fd / 16) &&& ~~~ mask (fd % 16)
    let vov :=
      if v = 0 then upd w.vov (w.idx fd) (fd / 16 / 16) (w.vov (w.idx fd) (fd / 16 / 16) &&& ~~~ mask (fd / 16 % 16))
      else w.vov
    { w with vec := upd w.vec (w.idx fd) (fd / 16) v, vov := vov, idx := Function.update w.idx fd 255 }
  else w

/-- The slot distance, src/events.c:432-436: signed division truncates; the result is converted to `size_t`, so a negative
one becomes huge and is cut to 127 like every value from 128. -/
def slotDelta (w : Wheel) (secs : Int) : Nat :=
  let d := (w.now + secs - w.baseTime).tdiv w.res
  if d < 0 ∨ 128 ≤ d then 127 else d.toNat

/-- The rest of `events_set_timeout`, src/events.c:437-442. -/
def setBit (w : Wheel) (fd : Nat) (delta : Nat) : Wheel :=
  let s := (w.baseIdx + delta) % 128
  { w with
    idx := Function.update w.idx fd s
    vec := upd w.vec s (fd / 16) (w.vec s (fd / 16) ||| mask (fd % 16))
    vov := upd w.vov s (fd / 16 / 16) (w.vov s (fd / 16 / 16) ||| mask (fd / 16 % 16)) }

/-- `events_set_timeout(fd, secs)`, src/events.c:408-444.  `none`: division by zero.  (A descriptor without a loop makes
the code follow a null pointer; callers of this function in the model have a registered descriptor.) -/
def setTimeout (w : Wheel) (fd : Nat) (secs : Int) : Option Wheel :=
  if w.reg fd then
    let w := clearBit w fd
    if secs ≠ 0 then
      if w.res = 0 then none else some (setBit w fd (slotDelta w secs))
    else some w
  else some w

/-- The timeout part of `events_add`, src/events.c:585-603: the old timeout index is overwritten. -/
def addFd (w : Wheel) (fd : Nat) (secs : Int) : Option Wheel :=
  setTimeout { w with reg := Function.update w.reg fd true, idx := Function.update w.idx fd 255 } fd secs

/-- The timeout part of `events_del`, src/events.c:634-637. -/
def delFd (w : Wheel) (fd : Nat) : Option Wheel :=
  (setTimeout w fd 0).map fun w => { w with reg := Function.update w.reg fd false }

/-- What a timeout callback may do to timeouts. -/
inductive COp where
  | set (fd : Nat) (secs : Int)
  | add (fd : Nat) (secs : Int)
  | del (fd : Nat)
  deriving DecidableEq

def runOp (w : Wheel) : COp → Option Wheel
  | .set fd secs => setTimeout w fd secs
  | .add fd secs => addFd w fd secs
  | .del fd => delFd w fd

def runOps (w : Wheel) : List COp → Option Wheel
  | [] => some w
  | o :: os => (runOp w o).bind fun w => runOps w os

/-- What the callbacks do: it may depend on the descriptor and on how many callbacks were made before. -/
abbrev Cb := Nat → Nat → List COp

/-- src/events.c:798-803: one callback.  A descriptor that is not registered fails the assertion (`none`). -/
def fire (cb : Cb) (w : Wheel) (k : Nat) : Option Wheel :=
  if w.reg k then
    runOps { w with idx := Function.update w.idx k 255, log := w.log ++ [(k, w.now)] } (cb w.log.length k)
  else none

/-- src/events.c:796-807: the bits of one word (a local copy). -/
def wordLoop (cb : Cb) : Nat → BitVec 16 → Nat → Wheel → Option Wheel
  | 0, _, _, _ => none
  | n + 1, v, k, w =>
    if v = 0 then some w
    else if v.msb then (fire cb w k).bind fun w => wordLoop cb n (v <<< 1) (k + 1) w
    else wordLoop cb n (v <<< 1) (k + 1) w

/-- src/events.c:792-810: the words of one summary word (a local copy).  An empty word fails the assertion. -/
def bitsLoop (cb : Cb) (slot : Nat) : Nat → BitVec 16 → Nat → Wheel → Option Wheel
  | 0, _, _, _ => none
  | n + 1, vv, j, w =>
    if vv = 0 then some w
    else if vv.msb then
      if w.vec slot j = 0 then none
      else
        (wordLoop cb 17 (w.vec slot j) (j * 16) w).bind fun w =>
          bitsLoop cb slot n (vv <<< 1) (j + 1) { w with vec := upd w.vec slot j 0 }
    else bitsLoop cb slot n (vv <<< 1) (j + 1) w

/-- src/events.c:784-813: all summary words, from `i` on; `n` are left. -/
def rowLoop (cb : Cb) (slot : Nat) : Nat → Nat → Wheel → Option Wheel
  | 0, _, w => some w
  | n + 1, i, w =>
    if w.vov slot i ≠ 0 then
      (bitsLoop cb slot 17 (w.vov slot i) (i * 16) w).bind fun w =>
        rowLoop cb slot n (i + 1) { w with vov := upd w.vov slot i 0 }
    else rowLoop cb slot n (i + 1) w

/-- `events_handle_timeout_internal`, src/events.c:775-816 (not during shutdown; the loop is not destroyed by a callback).
`fuel` bounds the number of slots passed. -/
def slotLoop (cb : Cb) (nV : Nat) : Nat → Wheel → Option Wheel
  | 0, _ => none
  | n + 1, w =>
    if w.baseTime ≤ w.now - w.res then
      (rowLoop cb w.baseIdx nV 0 w).bind fun w =>
        slotLoop cb nV n { w with baseIdx := (w.baseIdx + 1) % 128, baseTime := w.baseTime + w.res }
    else some w

def handleTimeouts (cb : Cb) (nV : Nat) (w : Wheel) : Option Wheel :=
  slotLoop cb nV ((w.now - w.baseTime).toNat + 1) w

end Verif.Wheel
