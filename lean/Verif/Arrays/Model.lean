import Verif.Basic

/-!
# Model of the dynamic array of `src/arrays.c`

Memory is a list of blocks addressed by their index; `none` is a freed block.  Each block is one
`array_metadata_t` header plus its slots.  A slot is `none` while uninitialised.

`realloc` either keeps the block in place or moves it; which one happens is decided by an oracle argument
(`mv : Bool`), because C leaves this to the allocator.
-/

namespace Verif.Arrays

/-- The 64-bit union `values_t` (include/arrays.h:101-129), seen as its raw bits. -/
abbrev Val := BitVec 64

/-- The kinds of array stored in the header, include/arrays.h:70-73 (`DATA_ARRAY`, `DATA_TUPLE`,
`DATA_RANGE`, `DATA_RANGE_CHAR`).  Other `data_types` values never label a live array. -/
inductive Kind where
  | array | tuple | range | rangeChar
  deriving Repr, DecidableEq

/-- `array_metadata_t` (src/arrays.c:21-27) together with the slots that follow it.
Simplified: padding and the lock word are not modelled. -/
structure Block where
  kind : Kind
  size : Nat
  cap : Nat
  slots : List (Option Val)
  deriving Repr, DecidableEq

/-- The heap: blocks by address, `none` once freed (events_malloc/realloc/free, src/arrays.c:41-55). -/
abbrev Heap := List (Option Block)

/-- A non-NULL `array_t` handle.  Simplified: NULL handles are not modelled. -/
abbrev Handle := Nat

/-- Dereference a handle: freed or unknown addresses are undefined behaviour
(`array_address`, src/arrays.c:32). -/
def Heap.load (m : Heap) (h : Handle) : Res Block :=
  match m[h]? with
  | some (some b) => .ok b
  | _ => .ub

/-- Overwrite a live block. -/
def Heap.store (m : Heap) (h : Handle) (b : Block) : Heap := m.set h (some b)

/-- Resize the slot area as `realloc` does: keep the common prefix, fresh slots are uninitialised. -/
def resize (slots : List (Option Val)) (n : Nat) : List (Option Val) :=
  slots.take n ++ List.replicate (n - slots.length) none

/-- `array_grow(vec, count)` on NULL, src/arrays.c:48-54: a fresh block of `count` slots.
Simplified: allocation never fails. -/
def growNew (m : Heap) (count : Nat) : Heap × Handle :=
  (m ++ [some { kind := .array, size := 0, cap := count, slots := List.replicate count none }], m.length)

/-- `array_grow(vec, count)` on a live array, src/arrays.c:44-47,54.  `mv` says whether this realloc moves
the block; the new handle is returned (the macro assigns it to the *local* variable `vec`).
Simplified: allocation never fails; `count * sizeof` does not wrap. -/
def grow (mv : Bool) (m : Heap) (h : Handle) (count : Nat) : Res (Heap × Handle) := do
  let b ← m.load h
  let b' := { b with cap := count, slots := resize b.slots count }
  if mv then
    .ok ((m.set h none) ++ [some b'], m.length)
  else
    .ok (m.store h b', h)

/-- Observable result of an array call. -/
inductive Out where
  | unit
  | value (v : Val)
  | nat (n : Nat)
  | threw            -- `throw(logic_error)`
  deriving Repr, DecidableEq

/-- Write slot `i` of a block; outside the block is undefined behaviour. -/
def Block.write (b : Block) (i : Nat) (v : Val) : Res Block :=
  if i < b.slots.length then .ok { b with slots := b.slots.set i (some v) } else .ub

/-- Read slot `i` of a block; outside the block or uninitialised is undefined behaviour. -/
def Block.read (b : Block) (i : Nat) : Res Val :=
  match b.slots[i]? with
  | some (some v) => .ok v
  | _ => .ub

/-- `data_append(arr, value)`, src/arrays.c:153-165.  The array is passed by value, so the handle obtained
from a moving `array_grow` is used inside the function and then lost: only the heap is returned.
`mv` is the realloc oracle. -/
def dataAppend (mv : Bool) (m : Heap) (h : Handle) (v : Val) : Res (Heap × Out) := do
  let b ← m.load h
  if b.kind = .tuple then
    return (m, .threw)
  let (m, h) ← if b.cap ≤ b.size then grow mv m h (b.cap * 2) else pure (m, h)
  let b ← m.load h
  let b ← b.write b.size v
  return (m.store h { b with size := b.size + 1 }, .unit)

/-- `memmove(arr+i, arr+i+1, n)` on the slots, src/arrays.c:140: `n` slots starting at `i+1` are copied to
`i`.  Undefined if the source range leaves the block. -/
def memmoveDown (slots : List (Option Val)) (i n : Nat) : Res (List (Option Val)) :=
  if i + 1 + n ≤ slots.length then
    .ok (slots.take i ++ (slots.drop (i+1)).take n ++ slots.drop (i + n))
  else .ub

/-- `data_remove(arr, i)`, src/arrays.c:132-143. -/
def dataRemove (m : Heap) (h : Handle) (i : Nat) : Res (Heap × Out) := do
  let b ← m.load h
  if b.kind = .tuple then
    return (m, .threw)
  if i < b.size then
    let s ← memmoveDown b.slots i (b.size - 1 - i)
    return (m.store h { b with size := b.size - 1, slots := s }, .unit)
  return (m, .unit)

/-- `data_pop(arr)`, src/arrays.c:167-180; an empty array gives the zero value. -/
def dataPop (m : Heap) (h : Handle) : Res (Heap × Out) := do
  let b ← m.load h
  if b.kind = .tuple then
    return (m, .threw)
  if b.size > 0 then
    let v ← b.read (b.size - 1)
    let (m, _) ← dataRemove m h (b.size - 1)
    return (m, .value v)
  return (m, .value 0)

/-- `data_shift(arr)`, src/arrays.c:182-195; an empty array gives the zero value. -/
def dataShift (m : Heap) (h : Handle) : Res (Heap × Out) := do
  let b ← m.load h
  if b.kind = .tuple then
    return (m, .threw)
  if b.size > 0 then
    let v ← b.read 0
    let (m, _) ← dataRemove m h 0
    return (m, .value v)
  return (m, .value 0)

/-- `data_reset(vec)`, src/arrays.c:254-263. -/
def dataReset (m : Heap) (h : Handle) : Res (Heap × Out) := do
  let b ← m.load h
  if b.kind = .tuple then
    return (m, .threw)
  return (m.store h { b with size := 0 }, .unit)

/-- `data_size(v)`, src/arrays.c:115-117. -/
def dataSize (m : Heap) (h : Handle) : Res (Heap × Out) := do
  let b ← m.load h
  return (m, .nat b.size)

/-- `data_capacity(v)`, src/arrays.c:119-121. -/
def dataCapacity (m : Heap) (h : Handle) : Res Nat := do
  let b ← m.load h
  return b.cap

/-- The C expression `arr[i]` in user code (include/arrays.h:194 "standard index array access"). -/
def index (m : Heap) (h : Handle) (i : Nat) : Res (Heap × Out) := do
  let b ← m.load h
  let v ← b.read i
  return (m, .value v)

/-- `data_tuple(vec)`, src/arrays.c:248-252. -/
def dataTuple (m : Heap) (h : Handle) : Res Heap := do
  let b ← m.load h
  return m.store h { b with kind := .tuple }

/-- `array_set_type(vec, t)`, src/arrays.c:36. -/
def setKind (m : Heap) (h : Handle) (k : Kind) : Res Heap := do
  let b ← m.load h
  return m.store h { b with kind := k }

/-- `data_delete(arr)`, src/arrays.c:145-151.  Simplified: the `is_ptr_usable` address test is taken as
true for every handle returned by the allocator. -/
def dataDelete (m : Heap) (h : Handle) : Res Heap := do
  let _ ← m.load h
  return m.set h none

/-- `data_queue_size()`, src/arrays.c:265-268, as a function of the CPU count. -/
def queueSize (cpus : Nat) : Nat := 1 <<< (if cpus > 5 then 6 else cpus * 2)

/-- `_mem_align_up(x, 2)`, include/arrays.h:381: `(x + 1) & ~1` on `Nat`. -/
def alignUp2 (x : Nat) : Nat := (x + 1) / 2 * 2

/-- Capacity chosen by `arrays(count, ...)`, src/arrays.c:289. -/
def initialCap (cpus count : Nat) : Nat :=
  if count = 0 then queueSize cpus else alignUp2 (count + 1)

/-- A sequence of `$append(h, v)` calls through the same handle; `mvs` supplies one realloc decision per
call (missing entries mean "in place").  Used for the loops at src/arrays.c:81, 95, 107, 239, 278, 294. -/
def appendAll (mvs : List Bool) (m : Heap) (h : Handle) : List Val → Res Heap
  | [] => .ok m
  | v :: vs => do
    let (m, _) ← dataAppend (mvs.headD false) m h v
    appendAll mvs.tail m h vs

/-- `arrays(count, ...)`, src/arrays.c:286-302 with the variadic arguments as the list `vs`. -/
def arrays (cpus : Nat) (mvs : List Bool) (m : Heap) (vs : List Val) : Res (Heap × Handle) := do
  let (m, h) := growNew m (initialCap cpus vs.length)
  let m ← appendAll mvs m h vs
  let m ← setKind m h .array
  return (m, h)

/-- The `foreach(x in src) $append(des, x.object)` loop of `data_copy`, src/arrays.c:238-239 with
include/arrays.h:416-418: `n` more iterations, index `i`; the bound is re-read at each iteration. -/
def copyLoop (mvs : List Bool) (m : Heap) (des src : Handle) (i : Nat) : Nat → Res Heap
  | 0 => .ok m
  | n + 1 => do
    let b ← m.load src
    if i < b.size then
      let v ← b.read i
      let (m, _) ← dataAppend (mvs.headD false) m des v
      copyLoop mvs.tail m des src (i + 1) n
    else
      return m

/-- `data_copy(des, src)` for `src` not NULL, src/arrays.c:234-246.  `mv` is the decision of the final
`array_grow`.  The number of loop iterations is the source size read at entry (the loop body never changes
the source). -/
def dataCopy (cpus : Nat) (mvs : List Bool) (mv : Bool) (m : Heap) (src : Handle) : Res (Heap × Handle) := do
  let (m, des) ← arrays cpus [] m []
  let b ← m.load src
  let m ← copyLoop mvs m des src 0 b.size
  let d ← m.load des
  let (m, des) ← grow mv m des d.size
  let s ← m.load src
  let m ← setKind m des s.kind
  return (m, des)

/-- User-level operations through one handle. -/
inductive Op where
  | append (v : Val)
  | pop
  | shift
  | remove (i : Nat)
  | reset
  | get (i : Nat)
  | size
  deriving Repr, DecidableEq

/-- One API call. -/
def step (mv : Bool) (m : Heap) (h : Handle) : Op → Res (Heap × Out)
  | .append v => dataAppend mv m h v
  | .pop => dataPop m h
  | .shift => dataShift m h
  | .remove i => dataRemove m h i
  | .reset => dataReset m h
  | .get i => index m h i
  | .size => dataSize m h

/-- A history of API calls through one handle, collecting what the caller sees. -/
def run (mvs : List Bool) (m : Heap) (h : Handle) : List Op → Res (Heap × List Out)
  | [] => .ok (m, [])
  | op :: ops => do
    let (m, o) ← step (mvs.headD false) m h op
    let (m, os) ← run mvs.tail m h ops
    return (m, o :: os)

/-! ## Ranges -/

/-- C `int` range check: a signed result outside it is undefined behaviour. -/
def inInt (x : Int) : Prop := -2147483648 ≤ x ∧ x ≤ 2147483647

instance (x : Int) : Decidable (inInt x) := by unfold inInt; infer_instance

/-- The loop of `rangeing`, src/arrays.c:81-82, with fuel; `none` means it has not finished.
`i = i + steps` is signed arithmetic, undefined when it leaves `int`. -/
def rangeLoop (mvs : List Bool) (stop steps : Int) (h : Handle) : Nat → Heap → Int → Option (Res Heap)
  | 0, _, _ => none
  | fuel + 1, m, i =>
    if i < stop then
      match dataAppend (mvs.headD false) m h (BitVec.ofInt 64 i) with
      | .ub => some .ub
      | .ok (m, _) =>
        if inInt (i + steps) then rangeLoop mvs.tail stop steps h fuel m (i + steps)
        else some .ub
    else some (.ok m)

/-- `rangeing(start, stop, steps)`, src/arrays.c:77-89 (`mv`: the final grow).  Simplified: the
registration of the deferred `data_delete` is not part of this model. -/
def rangeing (cpus : Nat) (mvs : List Bool) (mv : Bool) (fuel : Nat) (m : Heap) (start stop steps : Int) :
    Option (Res (Heap × Handle)) :=
  match arrays cpus [] m [] with
  | .ub => some .ub
  | .ok (m, h) =>
    if inInt (stop - start) then
      match rangeLoop mvs stop steps h fuel m start with
      | none => none
      | some r => some (do
          let m ← r
          let b ← m.load h
          let (m, h) ← grow mv m h b.size
          let m ← setKind m h .range
          return (m, h))
    else some .ub

/-- `range(start, stop)`, src/arrays.c:91-101; its loop `for (i = start; i < stop; i++)` is `rangeLoop`
with step 1.  `mv` is the decision of the initial grow.  A negative `n + 1` is converted to a gigantic
`size_t`: treated as undefined behaviour here. -/
def range (cpus : Nat) (mvs : List Bool) (mv : Bool) (fuel : Nat) (m : Heap) (start stop : Int) :
    Option (Res (Heap × Handle)) :=
  match arrays cpus [] m [] with
  | .ub => some .ub
  | .ok (m, h) =>
    if ¬ inInt (stop - start) ∨ ¬ inInt (stop - start + 1) ∨ stop - start + 1 < 0 then some .ub
    else
      match grow mv m h (stop - start + 1).toNat with
      | .ub => some .ub
      | .ok (m, h) =>
        match rangeLoop mvs stop 1 h fuel m start with
        | none => none
        | some r => some (do
            let m ← r
            let m ← setKind m h .range
            return (m, h))

/-- `range_char(text)`, src/arrays.c:103-113.  `char` is signed on x86-64, so `(uintptr_t)*text++`
sign-extends. -/
def rangeChar (cpus : Nat) (mvs : List Bool) (mv : Bool) (m : Heap) (text : List UInt8) :
    Res (Heap × Handle) := do
  let (m, h) ← arrays cpus [] m []
  let (m, h) ← grow mv m h (text.length + 1)
  let m ← appendAll mvs m h (text.map (fun c => (c.toBitVec).signExtend 64))
  let m ← setKind m h .rangeChar
  return (m, h)

end Verif.Arrays
