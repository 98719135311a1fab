import Mathlib.Logic.Function.Basic
import Mathlib.Tactic.ByContra

/-!
# Thread-specific values of the bundled POSIX threads for Windows (`include/compat/pthread.h` 324-349, 969-1088)

Simplified: each call is one step (`pthread_key_create` and `pthread_key_delete` hold `_pthread_key_lock`; the values of a thread are
used by that thread only).  Destructors and values are numbers; 0 is NULL.  Memory that `realloc` leaves unset is a number given with
the call.  `none` is an access outside of memory.
-/

namespace Verif.Pth.Keys

/-- `PTHREAD_KEYS_MAX` (90). -/
def KEYS_MAX : Nat := 2 ^ 20

/-- `_pthread_key_max`, `_pthread_key_sch`, `_pthread_key_dest` (175-177); no table is NULL. -/
structure G where
  max : Nat
  sch : Nat
  tab : Option (List Nat)
  deriving DecidableEq

/-- The globals and, for each thread, `keyval` (130); its length is `keymax` (129). -/
structure St where
  g : G
  vals : Nat → List Nat

def init : St := ⟨⟨0, 0, none⟩, fun _ => []⟩

inductive Op where
  /-- `dest`: the destructor; `mem`: there is memory; `junk`: what the first block from `realloc` holds at its start -/
  | create (dest : Nat) (mem : Bool) (junk : Nat)
  | delete (k : Nat)
  | set (t k v : Nat) (mem : Bool)
  | get (t k : Nat)
  deriving DecidableEq

inductive Out where
  | ok
  | key (k : Nat)
  | val (v : Nat)
  | enomem
  | einval
  deriving DecidableEq

/-- The search loops of `pthread_key_create` (978-989, 992-1003): the first free entry of `n` from `lo`. -/
def findFree (tab : Option (List Nat)) : Nat → Nat → Option (Option Nat)
  | _, 0 => some none
  | lo, n + 1 =>
    match tab.bind (·[lo]?) with
    | none => none
    | some 0 => some (some lo)
    | some _ => findFree tab (lo + 1) n

/-- What is stored for a destructor (981-985): 1 stands for "used, no destructor". -/
def stored (dest : Nat) : Nat := if dest ≠ 0 then dest else 1

/-- The search of both parts of the table (978-1003). -/
def find (g : G) : Option (Option Nat) :=
  match findFree g.tab g.sch (g.max - g.sch) with
  | none => none
  | some (some i) => some (some i)
  | some none => findFree g.tab 0 g.sch

/-- The rest of `pthread_key_create`, when no entry is free (1005-1041). -/
def grow (g : G) (dest : Nat) (mem : Bool) (junk : Nat) : G × Out :=
  let m := if g.max = 0 then 1 else g.max
  if m = KEYS_MAX then ({ g with max := m }, .enomem)
  else
    let nmax := min (m * 2) KEYS_MAX
    if !mem then ({ g with max := m }, .enomem)
    else (⟨nmax, m + 1, some (((g.tab.getD [junk]) ++ List.replicate (nmax - m) 0).set m (stored dest))⟩, .key m)

/-- `pthread_key_create` (969-1042). -/
def create (g : G) (dest : Nat) (mem : Bool) (junk : Nat) : Option (G × Out) :=
  match find g with
  | none => none
  | some (some i) => some ({ g with tab := g.tab.map (·.set i (stored dest)) }, .key i)
  | some none => some (grow g dest mem junk)

/-- `pthread_key_delete` (1044-1057). -/
def delete (g : G) (k : Nat) : Option (G × Out) :=
  if k > g.max then some (g, .einval)
  else match g.tab with
    | none => some (g, .einval)
    | some l =>
      if l.length ≤ k then none
      else some (⟨g.max, if g.sch > k then k else g.sch, some (l.set k 0)⟩, .ok)

/-- `pthread_setspecific` (1068-1088) with memory at hand, on the values of the thread. -/
def setVal (vals : List Nat) (k v : Nat) : List Nat :=
  (if vals.length ≤ k then vals ++ List.replicate ((k + 1) * 2 - vals.length) 0 else vals).set k v

/-- `pthread_getspecific` (1059-1066). -/
def getVal (vals : List Nat) (k : Nat) : Nat := vals.getD k 0

def step (s : St) : Op → Option (St × Out)
  | .create d mem junk => (create s.g d mem junk).map fun r => ({ s with g := r.1 }, r.2)
  | .delete k => (delete s.g k).map fun r => ({ s with g := r.1 }, r.2)
  | .set t k v mem =>
    if (s.vals t).length ≤ k ∧ mem = false then some (s, .enomem)
    else some ({ s with vals := Function.update s.vals t (setVal (s.vals t) k v) }, .ok)
  | .get t k => some (s, .val (getVal (s.vals t) k))

/-! ## What a user knows -/

/-- The keys that have been made and not deleted, each with its destructor; and the value each thread last set for each key. -/
structure Spec where
  live : Nat → Option Nat
  last : Nat → Nat → Nat

def Spec.init : Spec := ⟨fun _ => none, fun _ _ => 0⟩

def Spec.next (p : Spec) : Op → Out → Spec
  | .create d _ _, .key k => { p with live := Function.update p.live k (some d) }
  | .delete k, .ok => { p with live := Function.update p.live k none }
  | .set t k v _, .ok => { p with last := fun t' k' => if t' = t ∧ k' = k then v else p.last t' k' }
  | _, _ => p

/-- A program may use the keys that it has made and not deleted. -/
def Allowed (p : Spec) : Op → Prop
  | .create .. => True
  | .delete k => p.live k ≠ none
  | .set _ k _ _ => p.live k ≠ none
  | .get _ k => p.live k ≠ none

/-- Everything that programs can reach. -/
inductive Reach : St → Spec → Prop
  | init : Reach init Spec.init
  | step {s : St} {p : Spec} {op : Op} {s' : St} {o : Out} (h : Reach s p) (ha : Allowed p op) (hs : step s op = some (s', o)) :
      Reach s' (p.next op o)

/-! ## The end of a thread -/

/-- What a destructor may do with keys. -/
inductive DAct where
  | set (k v : Nat)
  | create
  | delete (k : Nat)
  deriving DecidableEq

inductive Bad where
  /-- access outside of memory -/
  | fault
  /-- waits for ever -/
  | hang
  deriving DecidableEq

/-- The body of a destructor: `_pthread_key_lock` is held for reading (334), so `pthread_key_create` and `pthread_key_delete`, which take
it for writing (976, 1048), never get it: an SRW lock cannot be taken again by its holder. -/
def acts : List Nat → List DAct → Except Bad (List Nat)
  | vals, [] => .ok vals
  | vals, .set k v :: t => acts (setVal vals k v) t
  | _, .create :: _ => .error .hang
  | _, .delete _ :: _ => .error .hang

/-- One call of a destructor: the key, the destructor, the value. -/
structure Call where
  key : Nat
  dest : Nat
  val : Nat
  deriving DecidableEq

/-- The inner loop of `_pthread_cleanup_dest` (330-344) from index `i`; `n` bounds the number of turns (running out of turns is a
fault, and shown not to happen).  The values may get more during the loop.  Gives the values and the calls made. -/
def pass (tab : List Nat) (D : Nat → Nat → List DAct) : Nat → Nat → List Nat → Except Bad (List Nat × List Call)
  | 0, i, vals => if vals.length ≤ i then .ok (vals, []) else .error .fault
  | n + 1, i, vals =>
    if vals.length ≤ i then .ok (vals, [])
    else if vals.getD i 0 = 0 then pass tab D n (i + 1) vals
    else match tab[i]? with
      | none => .error .fault
      | some d =>
        if d > 1 then
          match acts (vals.set i 0) (D d (vals.getD i 0)) with
          | .error e => .error e
          | .ok vals' =>
            match pass tab D n (i + 1) vals' with
            | .error e => .error e
            | .ok (w, cs) => .ok (w, ⟨i, d, vals.getD i 0⟩ :: cs)
        else pass tab D n (i + 1) vals

/-- The outer loop of `_pthread_cleanup_dest` (327-348): gives the values, the calls of each round, and whether it ended for want of work
(347) and not because of the limit on rounds. -/
def rounds (tab : List Nat) (D : Nat → Nat → List DAct) : Nat → List Nat → Except Bad (List Nat × List (List Call) × Bool)
  | 0, vals => .ok (vals, [], false)
  | r + 1, vals =>
    match pass tab D (vals.length + 2 * tab.length) 0 vals with
    | .error e => .error e
    | .ok (w, cs) =>
      if cs = [] then .ok (w, [], true)
      else match rounds tab D r w with
        | .error e => .error e
        | .ok (w', rs, q) => .ok (w', cs :: rs, q)

/-- `PTHREAD_DESTRUCTOR_ITERATIONS` (89). -/
def ITERATIONS : Nat := 256

/-- `_pthread_cleanup_dest` (324-349).  Without a table there are no values. -/
def cleanup (s : St) (t : Nat) (D : Nat → Nat → List DAct) : Except Bad (List Nat × List (List Call) × Bool) :=
  rounds (s.g.tab.getD []) D ITERATIONS (s.vals t)

end Verif.Pth.Keys
