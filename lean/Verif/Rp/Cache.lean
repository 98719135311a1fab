import Verif.Rp.Classes
import Mathlib.Data.List.Perm.Basic
import Mathlib.Data.List.Nodup

/-!
# The caches of spans (`src/rpmalloc.c` 1258-1276, 1405-1536, 1554-1590, 1651-1834, 1953-2000), C138

Spans (pieces of successive spans, `span_count` of them) which are not in use are kept in one of several places: one per size
class of a heap, arrays per heap and number of spans, and arrays with overflow lists common to all heaps.  The page size is at
most the span size.  The part of an insertion which is done under the lock is one step; the spans which the inserting thread then
keeps are put into the common cache in another step, at any time later.  Mapping and reserves are the subject of
`Verif/Rp/Spans.lean`: new spans appear here as what an oracle provides.
-/

namespace Verif.Rp.Cache

/-- Where a span is: with the program or the thread that works on it; the cache of class `c` of heap `h`; the array of heap `h` for
`n` spans; the common array and overflow list for `n` spans; kept by the thread of heap `h`; freed by another thread than the owner
of heap `h`; unmapped. -/
inductive Place where
  | user
  | cls (h c : Nat)
  | tc (h n : Nat)
  | arr (n : Nat)
  | ovf (n : Nat)
  | kept (h n : Nat)
  | dfr (h : Nat)
  | unm
  deriving DecidableEq

/-- What is where. -/
abbrev St := Place → List Nat

/-- Replace the contents of one place. -/
def put (st : St) (a : Place) (l : List Nat) : St := fun x => if x = a then l else st x

/-- `MAX_THREAD_SPAN_CACHE` and `MAX_THREAD_SPAN_LARGE_CACHE - (span_count >> 1)`, src/rpmalloc.c:486, 490, 1687. -/
def tcLimit (n : Nat) : Nat := if n = 1 then 400 else 100 - n / 2

/-- The sizes of the arrays, src/rpmalloc.c:599-608. -/
def tcSize (n : Nat) : Nat := if n = 1 then 400 else 100

/-- The number of spans moved to the common cache, src/rpmalloc.c:488, 492, 1689-1690. -/
def transfer (n : Nat) : Nat := if n = 1 then 64 else if 6 ≤ 2 + tcLimit n / 4 then 6 else 2 + tcLimit n / 4

/-- `cache_limit` of `_rpmalloc_global_cache_insert_spans`, src/rpmalloc.c:1426-1428. -/
def glLimit (n : Nat) : Nat := 8 * tcLimit n

/-- The first part of `_rpmalloc_global_cache_insert_spans` (src/rpmalloc.c:1425-1473), for the spans of heap `h` from number
`remain` on.  `pin s`: the span is a master span of which subspans are still in use.  `none`: the difference of the limit and the
number of spans wraps around, or the array (683) is too small. -/
def globInsert (st : St) (h n remain : Nat) (pin : Nat → Bool) : Option St :=
  let spans := (st (.tc h n)).drop remain
  let arr := st (.arr n)
  if glLimit n < arr.length then none
  else
    let ins := if arr.length + spans.length > glLimit n then glLimit n - arr.length else spans.length
    if 3200 < arr.length + ins then none
    else
      let rest := spans.drop ins
      let st' := put (put st (.tc h n) ((st (.tc h n)).take remain)) (.arr n) (arr ++ spans.take ins)
      some (put (put st' (.kept h n) ((rest.filter pin).reverse ++ st (.kept h n)))
        .unm ((rest.filter fun s => !pin s).reverse ++ st .unm))

/-- The loop over the kept spans, src/rpmalloc.c:1480-1494: each replaces the next span of the array which need not be kept, and
which is unmapped.  `pin t` is what holds at the time `t` of the loop.  Returns the array, what is unmapped and what is left. -/
def placeLoop (pin : Nat → Nat → Bool) : List Nat → Nat → List Nat → List Nat → List Nat × List Nat × List Nat
  | [], _, arr, unm => (arr, unm, [])
  | x :: ks, i, arr, unm =>
    let j := i + (arr.drop i).findIdx fun s => !pin ks.length s
    match arr[j]? with
    | some y => placeLoop pin ks j (arr.set j x) (y :: unm)
    | none => (arr, unm, x :: ks)

/-- The second part of `_rpmalloc_global_cache_insert_spans`, src/rpmalloc.c:1475-1505. -/
def place (st : St) (h n : Nat) (pin : Nat → Nat → Bool) : St :=
  let r := placeLoop pin (st (.kept h n)) 0 (st (.arr n)) (st .unm)
  put (put (put (put st (.arr n) r.1) .unm r.2.1) (.ovf n) (r.2.2 ++ st (.ovf n))) (.kept h n) []

/-- `_rpmalloc_heap_cache_insert`, src/rpmalloc.c:1651-1704, with the thread cache and the global cache enabled, for a heap which is
not being finalised. `cnt s` is the `span_count` of `s`.  `none`: a write behind the array. -/
def heapInsert (cnt : Nat → Nat) (st : St) (h s : Nat) (pin : Nat → Bool) : Option St :=
  let n := cnt s
  let l := st (.tc h n)
  if tcSize n ≤ l.length then none
  else
    let st := put (put st .user ((st .user).erase s)) (.tc h n) (l ++ [s])
    if l.length + 1 = tcLimit n then globInsert st h n (tcLimit n - transfer n) pin else some st

/-- `_rpmalloc_heap_thread_cache_extract`, src/rpmalloc.c:1707-1721. -/
def pop (st : St) (h n : Nat) : Option (Nat × St) :=
  match (st (.tc h n)).getLast? with
  | none => none
  | some s => some (s, put (put st (.tc h n) (st (.tc h n)).dropLast) .user (s :: st .user))

/-- `_rpmalloc_heap_global_cache_extract` (src/rpmalloc.c:1741-1760) with `_rpmalloc_global_cache_extract_spans` (1507-1535).  The array of
the heap is overwritten. -/
def globExtract (st : St) (h n : Nat) : St × Option Nat :=
  let want := if n = 1 then 64 else 6
  let arr := st (.arr n)
  let w := if want > arr.length then arr.length else want
  let out := arr.drop (arr.length - w) ++ (st (.ovf n)).take (want - w)
  let st := put (put (put st (.arr n) (arr.take (arr.length - w))) (.ovf n) ((st (.ovf n)).drop (want - w))) (.tc h n) out
  match pop st h n with
  | none => (st, none)
  | some (s, st) => (st, some s)

/-- The loop of `_rpmalloc_heap_cache_adopt_deferred`, src/rpmalloc.c:1557-1587, without huge blocks; `single` says whether a single
span is wanted. -/
def adoptLoop (cnt : Nat → Nat) (h : Nat) (single : Bool) (pin : Nat → Nat → Bool) :
    List Nat → Option Nat → St → Option (St × Option Nat)
  | [], got, st => some (st, got)
  | s :: rest, got, st =>
    if single = true ∧ cnt s = 1 ∧ got = none then adoptLoop cnt h single pin rest (some s) st
    else
      match heapInsert cnt st h s (pin rest.length) with
      | none => none
      | some st => adoptLoop cnt h single pin rest got st

/-- `_rpmalloc_heap_cache_adopt_deferred`, src/rpmalloc.c:1555-1588. -/
def adopt (cnt : Nat → Nat) (st : St) (h : Nat) (single : Bool) (pin : Nat → Nat → Bool) : Option (St × Option Nat) :=
  adoptLoop cnt h single pin (st (.dfr h)) none (put (put st (.dfr h) []) .user (st (.dfr h) ++ st .user))

/-- `_rpmalloc_heap_thread_cache_deferred_extract`, src/rpmalloc.c:1723-1732. -/
def deferredExtract (cnt : Nat → Nat) (st : St) (h n : Nat) (pin : Nat → Nat → Bool) : Option (St × Option Nat) :=
  if n = 1 then adopt cnt st h true pin
  else
    match adopt cnt st h false pin with
    | none => none
    | some (st, _) =>
      match pop st h n with
      | some (s, st) => some (st, some s)
      | none => some (st, none)

/-- What the environment provides during a request: which spans are pinned at which time, which spans are carved from the reserve
of the heap for a number of spans, and what is mapped. -/
structure Env where
  pin : Nat → Nat → Nat → Bool
  reserve : Nat → Option Nat
  fresh : Option Nat

/-- The loop of `_rpmalloc_heap_extract_new_span`, src/rpmalloc.c:1803-1828. -/
def extractLoop (cnt : Nat → Nat) (h : Nat) (e : Env) : Nat → Nat → St → Option (St × Option Nat)
  | 0, _, st => some (st, none)
  | fuel + 1, n, st =>
    match pop st h n with
    | some (s, st) => some (st, some s)
    | none =>
      match deferredExtract cnt st h n (e.pin n) with
      | none => none
      | some (st, some s) => some (st, some s)
      | some (st, none) =>
        match globExtract st h n with
        | (st, some s) => some (st, some s)
        | (st, none) =>
          match e.reserve n with
          | some s => some (put st .user (s :: st .user), some s)
          | none => extractLoop cnt h e fuel (n + 1) st

/-- `limit_span_count`, src/rpmalloc.c:1800-1802. -/
def limit (n : Nat) : Nat :=
  let l := if n > 2 then n + n / 2 else n
  if l > 63 then 63 else l

/-- `_rpmalloc_heap_extract_new_span`, src/rpmalloc.c:1785-1834; `c`: the size class, for single spans. -/
def extract (cnt : Nat → Nat) (st : St) (h : Nat) (c : Option Nat) (n : Nat) (e : Env) : Option (St × Option Nat) :=
  match c.bind fun c => (st (.cls h c)).head?.map fun s => (c, s) with
  | some (c, s) =>
    match (st (.tc h 1)).getLast? with
    | some t => some (put (put (put st (.cls h c) [t]) (.tc h 1) (st (.tc h 1)).dropLast) .user (s :: st .user), some s)
    | none => some (put (put st (.cls h c) []) .user (s :: st .user), some s)
  | none =>
    match extractLoop cnt h e (limit n + 1 - n) n st with
    | none => none
    | some (st, some s) => some (st, some s)
    | some (st, none) =>
      match e.fresh with
      | some s => some (put st .user (s :: st .user), some s)
      | none => some (st, none)

/-- `_rpmalloc_span_release_to_cache`, src/rpmalloc.c:1259-1276, for a heap which is not being finalised. -/
def release (cnt : Nat → Nat) (st : St) (h c s : Nat) (pin : Nat → Bool) : Option St :=
  match st (.cls h c) with
  | [] => some (put (put st .user ((st .user).erase s)) (.cls h c) [s])
  | t :: _ =>
    match heapInsert cnt (put (put st (.cls h c) []) .user (t :: st .user)) h t pin with
    | none => none
    | some st => some (put (put st .user ((st .user).erase s)) (.cls h c) [s])

/-- The loop of `_rpmalloc_heap_release`, src/rpmalloc.c:1961-1984, over the numbers of spans `n`, `n + 1`, ... -/
def flush (h : Nat) (pin : Nat → Nat → Bool) : Nat → Nat → St → Option St
  | 0, _, st => some st
  | fuel + 1, n, st =>
    if st (.tc h n) = [] then flush h pin fuel (n + 1) st
    else
      match globInsert st h n 0 (pin n) with
      | none => none
      | some st => flush h pin fuel (n + 1) st

/-- The operations: a request for spans; a span all of whose blocks were freed by the owner (1259); the spans of a large block freed
by the owner (2437), kept as reserve (2424-2436), or freed by another thread (2357-2363); putting kept spans into the common
cache; the end of a thread (1953-2000); emptying the common cache (1405-1423). -/
inductive Op where
  | extract (h : Nat) (c : Option Nat) (n : Nat) (e : Env)
  | release (h c s : Nat) (pin : Nat → Bool)
  | insert (h s : Nat) (pin : Nat → Bool)
  | reserve (s : Nat)
  | defer (h s : Nat)
  | place (h n : Nat) (pin : Nat → Nat → Bool)
  | finish (h : Nat) (pin pin' : Nat → Nat → Bool)
  | empty (n : Nat)

/-- One operation, and the span which it hands out. -/
def step (cnt : Nat → Nat) (st : St) : Op → Option (St × Option Nat)
  | .extract h c n e => extract cnt st h c n e
  | .release h c s pin => (release cnt st h c s pin).map fun st => (st, none)
  | .insert h s pin => (heapInsert cnt st h s pin).map fun st => (st, none)
  | .reserve s => some (put st .user ((st .user).erase s), none)
  | .defer h s => some (put (put st .user ((st .user).erase s)) (.dfr h) (s :: st (.dfr h)), none)
  | .place h n pin => some (place st h n pin, none)
  | .finish h pin pin' =>
    match adopt cnt st h false pin with
    | none => none
    | some (st, _) => (flush h pin' 63 1 st).map fun st => (st, none)
  | .empty n => some (put (put (put st (.arr n) []) (.ovf n) []) .unm (st (.arr n) ++ st (.ovf n) ++ st .unm), none)

/-- Nothing is mapped. -/
def init : St := fun _ => []

/-! ## What is expected -/

/-- The spans which the program has after an operation. -/
def usedAfter (used : List Nat) : Op → Option Nat → List Nat
  | .extract .., some s => s :: used
  | .release _ _ s _, _ | .insert _ s _, _ | .reserve s, _ | .defer _ s, _ => used.erase s
  | _, _ => used

/-- What callers do: requests for 1 to 63 spans, for single spans if a class is given; the environment provides new spans of the
number asked for; only spans which are in use are freed, single ones by the owner of a class, and there are as many in them as when
they were mapped. -/
def Legal (cnt : Nat → Nat) (made used : List Nat) : Op → Prop
  | .extract _ c n e => 1 ≤ n ∧ n ≤ 63 ∧ (c ≠ none → n = 1) ∧
      (∀ n' s, e.reserve n' = some s → s ∉ made ∧ cnt s = n') ∧ (∀ s, e.fresh = some s → s ∉ made ∧ cnt s = n)
  | .release _ _ s _ => s ∈ used ∧ cnt s = 1
  | .insert _ s _ | .defer _ s => s ∈ used
  | .reserve s => s ∈ used ∧ 1 < cnt s
  | .place .. | .finish .. => True
  | .empty n => 1 ≤ n ∧ n ≤ 63

/-- The spans which were made and not turned into a reserve. -/
def madeAfter (made : List Nat) : Op → Option Nat → List Nat
  | .extract .., some s => if s ∈ made then made else s :: made
  | .reserve s, _ => made.erase s
  | _, _ => made

/-- The states which are reached, with the spans made and the spans in use. -/
inductive Reach (cnt : Nat → Nat) : St → List Nat → List Nat → Prop where
  | init : Reach cnt init [] []
  | step {st st' made used op r} : Reach cnt st made used → Legal cnt made used op → step cnt st op = some (st', r) →
      Reach cnt st' (madeAfter made op r) (usedAfter used op r)

end Verif.Rp.Cache
