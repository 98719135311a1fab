import Verif.Basic
import Mathlib.Logic.Function.Basic

/-!
Model of task ids and the global results table: `tasks_create_result`, `task_push` (the id part),
`tasks_result_set`, `task_result_get`, `task_set_canceled`, `task_is_canceled`, `task_is_ready`, `results_for`,
`await_for`, `task_id`, src/events.c:1138-1155, 1651-1668, 1753-1791, 1818-1866.

Memory: the table is a heap block of slots, each holding the address of an entry.  `events_realloc` either
keeps the block or moves it and frees the old one (`mv`).  Reading a freed block, outside a block, or
an uninitialised slot is undefined behaviour.  Each function is split into the steps another thread can
come between (load of the table pointer, access, store of the table pointer); run without interruption they
are the sequential functions.

Simplified: entry fields written by one call are written in one step; memory order is sequentially
consistent; allocation does not fail; `result_id_generate` does not wrap (2^64 calls).
-/
namespace Verif.Tasks

abbrev Val := Nat

/-- `_results_data_t`, src/events_internal.h:211-219 (`type`, `id` and `tid` left out). -/
structure Entry where
  canceled : Bool := false
  ready : Bool := false
  terminated : Bool := false
  val : Option Val := none
  deriving DecidableEq

/-- A heap block holding table slots; `slot i` is the entry address stored, `none` while uninitialised. -/
structure Block where
  len : Nat
  slot : Nat → Option Nat

/-- `tasks_t` fields used here: `cid` and `rid`, both `uint32_t`. -/
structure Task where
  cid : Nat
  rid : Nat
  deriving DecidableEq

/-- `(uint32_t)NO_RESULT`, include/arrays.h:37. -/
def noResult : Nat := 2 ^ 32 - 2

structure RS where
  gen : Nat                          -- `sys_event.result_id_generate`
  cidGen : Nat                       -- `sys_event.id_generate`
  cur : Option Nat                   -- `sys_event.results`, the block it points to
  blocks : List (Option Block)       -- `none` once freed
  ents : List Entry                  -- entries by address; never freed before shutdown
  tasks : List Task

/-- `events_init`, src/events.c:246-249. -/
def RS.init : RS := { gen := 0, cidGen := 0, cur := none, blocks := [], ents := [], tasks := [] }

/-- Dereference a table pointer. -/
def loadBlock (s : RS) (p : Option Nat) : Res Block :=
  match p with
  | none => .ub
  | some b => match s.blocks[b]? with
    | some (some blk) => .ok blk
    | _ => .ub

/-- `results[i]` read through table pointer `p`. -/
def slotAt (s : RS) (p : Option Nat) (i : Nat) : Res Nat := do
  let b ← loadBlock s p
  if i < b.len then Res.ofOption (b.slot i) else .ub

/-- `events_realloc(results, n * sizeof(results[0]))`, src/events.c:1657. -/
def reallocTable (mv : Bool) (s : RS) (p : Option Nat) (n : Nat) : Res (RS × Option Nat) :=
  match p with
  | none => .ok ({ s with blocks := s.blocks ++ [some { len := n, slot := fun _ => none }] }, some s.blocks.length)
  | some b => do
    let blk ← loadBlock s (some b)
    let blk' : Block := { len := n, slot := fun i => if i < blk.len then blk.slot i else none }
    if mv then
      .ok ({ s with blocks := s.blocks.set b none ++ [some blk'] }, some s.blocks.length)
    else
      .ok ({ s with blocks := s.blocks.set b (some blk') }, some b)

/-- `results[i] = e` through table pointer `p`. -/
def writeSlot (s : RS) (p : Option Nat) (i e : Nat) : Res RS :=
  match p with
  | none => .ub
  | some b => do
    let blk ← loadBlock s (some b)
    if i < blk.len then
      .ok { s with blocks := s.blocks.set b (some { blk with slot := Function.update blk.slot i (some e) }) }
    else .ub

/-! #### `tasks_create_result`, src/events.c:1651-1668 -/

/-- Line 1653: `id = atomic_fetch_add(&result_id_generate, 1)`. -/
def createFetch (s : RS) : RS × Nat := ({ s with gen := s.gen + 1 }, s.gen)

/-- Lines 1656-1657, with the pointer loaded at line 1655; `q` is `sys_event.queue_size`. -/
def createGrow (q : Nat) (mv : Bool) (s : RS) (id : Nat) (p : Option Nat) : Res (RS × Option Nat) :=
  if id % q = 0 ∨ p = none then reallocTable mv s p (id + q) else .ok (s, p)

/-- Lines 1654 and 1659-1665: a fresh entry is stored in slot `id`. -/
def createWrite (s : RS) (id : Nat) (p : Option Nat) : Res RS :=
  writeSlot { s with ents := s.ents ++ [{}] } p id s.ents.length

/-- Line 1666: `atomic_store(&sys_event.results, results)`. -/
def storeTable (s : RS) (p : Option Nat) : RS := { s with cur := p }

/-- `tasks_create_result()` uninterrupted; returns the id. -/
def createResult (q : Nat) (mv : Bool) (s : RS) : Res (RS × Nat) := do
  let (s, id) := createFetch s
  let p := s.cur
  let (s, p) ← createGrow q mv s id p
  let s ← createWrite s id p
  .ok (storeTable s p, id)

/-- The id part of `task_push`, src/events.c:1757-1758 and 1790: the task gets a `cid`, and a `rid` if it has a
result; the id returned is the `rid` if there is one, else the `cid`.  Ids are `uint32_t`. -/
def taskPush (q : Nat) (mv : Bool) (hasResult : Bool) (s : RS) : Res (RS × Nat) := do
  let cid := (s.cidGen % 2 ^ 32 + 1) % 2 ^ 32
  let s := { s with cidGen := s.cidGen + 1 }
  if hasResult then do
    let (s, id) ← createResult q mv s
    let rid := id % 2 ^ 32
    .ok ({ s with tasks := s.tasks ++ [⟨cid, rid⟩] }, rid)
  else
    .ok ({ s with tasks := s.tasks ++ [⟨cid, noResult⟩] }, cid)

/-- Modify the entry at address `e`. -/
def updEntry (s : RS) (e : Nat) (f : Entry → Entry) : Res RS :=
  match s.ents[e]? with
  | some x => .ok { s with ents := s.ents.set e (f x) }
  | none => .ub

/-- Lines 1142-1150: what `tasks_result_set` writes for a task that returned `v` (`none` is NULL). -/
def finishEntry (v : Option Val) (x : Entry) : Entry :=
  match v with
  | some a => { x with val := some a, ready := true, terminated := true }
  | none => { x with terminated := true }

/-- The accesses of `tasks_result_set` through the table pointer loaded at line 1140. -/
def finishWrite (s : RS) (rid : Nat) (v : Option Val) (p : Option Nat) : Res RS :=
  if rid = noResult then .ok s
  else do
    let e ← slotAt s p rid
    updEntry s e (finishEntry v)

/-- `tasks_result_set(co, v)`, src/events.c:1138-1155, uninterrupted, for task number `k`. -/
def resultSet (s : RS) (k : Nat) (v : Option Val) : Res RS :=
  match s.tasks[k]? with
  | none => .ok s
  | some t => do
    let p := s.cur
    let s ← finishWrite s t.rid v p
    .ok (storeTable s p)

/-- `task_set_canceled(id)`, src/events.c:1831-1837; `(int)id > 0` excludes 0 and ids from 2^31 up. -/
def setCanceled (s : RS) (id : Nat) : Res RS :=
  if 0 < id ∧ id < 2 ^ 31 ∧ id < s.gen % 2 ^ 32 then do
    let p := s.cur
    let e ← slotAt s p id
    let s ← updEntry s e (fun x => { x with canceled := true })
    .ok (storeTable s p)
  else .ok s

/-- `task_result_get(id)`, src/events.c:1818-1820. -/
def resultGet (s : RS) (id : Nat) : Res Entry := do
  let e ← slotAt s s.cur id
  Res.ofOption s.ents[e]?

/-- `results_for(id)`, src/events.c:1860-1866; `none` is the empty value. -/
def resultsFor (s : RS) (id : Nat) : Res (Option Val) := do
  let x ← resultGet s id
  .ok (if x.ready then x.val else none)

/-- `task_is_ready(id)`, src/events.c:1846-1849. -/
def isReady (s : RS) (id : Nat) : Res Bool := do
  let x ← resultGet s id
  .ok (x.ready || x.terminated)

/-- One turn of the loop of `await_for(id)`, src/events.c:1839-1844: `none` while it has to wait. -/
def awaitFor (s : RS) (id : Nat) : Res (Option (Option Val)) := do
  let x ← resultGet s id
  if x.terminated then do
    let v ← resultsFor s id
    .ok (some v)
  else .ok none

/-- `task_id()` of a running task, src/events.c:1851-1854. -/
def taskId (t : Task) : Nat := if t.rid = noResult then t.cid else t.rid

/-- `task_is_canceled()` called by task `t`, src/events.c:1827-1829. -/
def isCanceled (s : RS) (t : Task) : Res Bool := do
  let x ← resultGet s (taskId t)
  .ok x.canceled

/-! #### Histories -/

inductive Op where
  | push (hasResult mv : Bool)       -- create a task
  | finish (k : Nat) (v : Option Val) -- task number `k` (in creation order) returns
  | cancel (id : Nat)
  deriving DecidableEq

/-- Run a history without interleaving; the ids returned by `task_push` are collected. -/
def run (q : Nat) : RS → List (Bool × Nat) → List Op → Res (RS × List (Bool × Nat))
  | s, out, [] => .ok (s, out)
  | s, out, .push h mv :: ops => do
    let (s, id) ← taskPush q mv h s
    run q s (out ++ [(h, id)]) ops
  | s, out, .finish k v :: ops => do
    let s ← resultSet s k v
    run q s out ops
  | s, out, .cancel id :: ops => do
    let s ← setCanceled s id
    run q s out ops

/-! #### Threads -/

/-- What a thread is doing and how far it got. -/
inductive Pc where
  | idle
  | created (id : Nat)                        -- after line 1653
  | loaded (id : Nat) (p : Option Nat)        -- after line 1655
  | grown (id : Nat) (p : Option Nat)         -- after line 1657
  | written (id : Nat) (p : Option Nat)       -- before line 1666
  | setting (rid : Nat) (v : Option Val) (p : Option Nat)  -- `tasks_result_set` after line 1140
  | set (p : Option Nat)                      -- before line 1153
  deriving DecidableEq

/-- A thread's next step: begin a call, or go on with the one it is in. -/
inductive Act where
  | create (t : Nat)
  | finish (t : Nat) (rid : Nat) (v : Option Val)
  | go (t : Nat)

/-- One step of one thread; every `realloc` moves. -/
def tstep (q : Nat) (c : RS × (Nat → Pc)) : Act → Res (RS × (Nat → Pc))
  | .create t => match c.2 t with
    | .idle =>
      let (s, id) := createFetch c.1
      .ok (s, Function.update c.2 t (.created id))
    | _ => .ok c
  | .finish t rid v => match c.2 t with
    | .idle => .ok (c.1, Function.update c.2 t (.setting rid v c.1.cur))
    | _ => .ok c
  | .go t => match c.2 t with
    | .idle => .ok c
    | .created id => .ok (c.1, Function.update c.2 t (.loaded id c.1.cur))
    | .loaded id p => do
      let (s, p) ← createGrow q true c.1 id p
      .ok (s, Function.update c.2 t (.grown id p))
    | .grown id p => do
      let s ← createWrite c.1 id p
      .ok (s, Function.update c.2 t (.written id p))
    | .written _ p => .ok (storeTable c.1 p, Function.update c.2 t .idle)
    | .setting rid v p => do
      let s ← finishWrite c.1 rid v p
      .ok (s, Function.update c.2 t (.set p))
    | .set p => .ok (storeTable c.1 p, Function.update c.2 t .idle)

def trun (q : Nat) : RS × (Nat → Pc) → List Act → Res (RS × (Nat → Pc))
  | c, [] => .ok c
  | c, a :: as => do
    let c ← tstep q c a
    trun q c as

end Verif.Tasks
