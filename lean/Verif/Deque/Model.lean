import Mathlib.Logic.Function.Basic
import Mathlib.Tactic

/-!
# Model of the work-stealing queue, `src/deque.c`

Threads interleave at the granularity of single atomic accesses; every thread sees the same memory (sequential
consistency: the `memory_order_*` arguments are not modelled).  Reading or writing an array after `events_free` sets
the flag `ub`, after which nothing is claimed.

Simplified: `top` and `bottom` are naturals, i.e. fewer than 2^64 tasks are ever pushed (the one wrap-around the
code can reach, `bottom - 1` at 0, is modelled as 2^64 - 1); allocation succeeds.
-/

namespace Verif.Deque

abbrev Tid := Nat
abbrev Task := Nat

/-- `deque_array_t`: `size`, `buffer` (`none` is the NULL of `calloc`), and whether the block is still allocated. -/
structure Arr where
  size : Nat
  buf : Nat → Option Task
  live : Bool

/-- What `deque_steal` / `deque_take` return: a slot's content (`none` = NULL), `TASK_EMPTY_T`, or `TASK_ABORT_T`. -/
inductive Ret where
  | got (x : Option Task)
  | empty
  | abort
  deriving DecidableEq, Repr

/-- Where a thread is; the arguments are the local variables it still needs. -/
inductive Pc where
  | idle
  -- deque_push, src/deque.c:102-114
  | push0 (w : Task)                          -- about to load bottom (:103)
  | push1 (w : Task) (b : Nat)                -- about to load top (:104)
  | push2 (w : Task) (b t : Nat)              -- about to load array (:105)
  | push3 (w : Task) (b t a : Nat)            -- about to compare with a->size (:106)
  | pushRe (w : Task) (b : Nat)               -- about to reload array after growing (:108)
  | push4 (w : Task) (b a : Nat)              -- about to store the slot (:111)
  | push5 (w : Task) (b : Nat)                -- about to store bottom (:113)
  -- deque_resize, src/deque.c:44-74, called from push
  | grow0 (w : Task) (b : Nat)                -- about to load array (:45)
  | grow1 (w : Task) (b a : Nat)              -- about to load top (:53)
  | grow2 (w : Task) (b a t : Nat)            -- about to load bottom and copy (:54-56)
  | grow3 (w : Task) (b a n : Nat)            -- about to store array (:58)
  | grow4 (w : Task) (b a : Nat)              -- about to free the old array (:73)
  -- deque_steal, src/deque.c:116-132
  | steal0                                    -- about to load top (:117)
  | steal1 (t : Nat)                          -- about to load bottom (:119)
  | steal2 (t : Nat)                          -- about to load array (:123)
  | steal3 (t a : Nat)                        -- about to load the slot (:124)
  | steal4 (t : Nat) (x : Option Task)        -- about to compare-and-swap top (:125)
  -- deque_take, src/deque.c:76-100
  | take0                                     -- about to load bottom (:77)
  | take1 (b : Nat)                           -- about to load top (:78)
  | take2 (b t : Nat)                         -- about to load array (:79)
  | take3 (b t a : Nat)                       -- about to store bottom (:80)
  | take4 (b t a : Nat)                       -- about to compare and load the slot (:83-85)
  | take5 (b t : Nat) (x : Option Task)       -- about to compare-and-swap top (:88)
  | take6 (b : Nat) (r : Ret)                 -- about to restore bottom (:92, :96)
  deriving DecidableEq

/-- Shared memory, the threads, and three history variables: `begun` (arguments of the pushes begun, in order),
`pushed` (tasks whose push has completed, in order) and `rets` (what steals and takes returned, in order). -/
structure St where
  top : Nat
  bottom : Nat
  cur : Nat
  heap : Nat → Arr
  next : Nat
  pcs : Tid → Pc
  begun : List Task
  pushed : List Task
  rets : List (Tid × Ret)
  ub : Bool

/-- `deque_init(q, size_hint)`, src/deque.c:23-42. -/
def init (size : Nat) : St where
  top := 0
  bottom := 0
  cur := 0
  heap := fun _ => { size := size, buf := fun _ => none, live := true }
  next := 1
  pcs := fun _ => .idle
  begun := []
  pushed := []
  rets := []
  ub := false

/-- Operations a thread may begin. -/
inductive Op where
  | push (w : Task)
  | steal
  | take
  deriving DecidableEq

def setPc (s : St) (i : Tid) (p : Pc) : St := { s with pcs := Function.update s.pcs i p }

def done (s : St) (i : Tid) (r : Ret) : St :=
  { s with pcs := Function.update s.pcs i .idle, rets := s.rets ++ [(i, r)] }

def fail (s : St) : St := { s with ub := true }

/-- The array of `deque_resize` after the copy loop, src/deque.c:47-56: twice the size, slots `t .. b-1` copied.
The loop is one step of the model: the new array is not yet shared and the old one is written by pushes only. -/
def grown (old : Arr) (t b : Nat) : Arr where
  size := old.size * 2
  buf := (List.range' t (b - t)).foldl
    (fun f i => Function.update f (i % (old.size * 2)) (old.buf (i % old.size))) (fun _ => none)
  live := true

/-- One atomic step of thread `i`. -/
def go (s : St) (i : Tid) : St :=
  match s.pcs i with
  | .idle => s
  -- push
  | .push0 w => setPc s i (.push1 w s.bottom)
  | .push1 w b => setPc s i (.push2 w b s.top)
  | .push2 w b t => setPc s i (.push3 w b t s.cur)
  | .push3 w b t a =>
    if (s.heap a).live then
      if b - t > (s.heap a).size - 1 then setPc s i (.grow0 w b) else setPc s i (.push4 w b a)
    else fail s
  | .pushRe w b => setPc s i (.push4 w b s.cur)
  | .push4 w b a =>
    if (s.heap a).live then
      let arr := { s.heap a with buf := Function.update (s.heap a).buf (b % (s.heap a).size) (some w) }
      setPc { s with heap := Function.update s.heap a arr } i (.push5 w b)
    else fail s
  | .push5 w b => setPc { s with bottom := b + 1, pushed := s.pushed ++ [w] } i .idle
  -- resize
  | .grow0 w b => setPc s i (.grow1 w b s.cur)
  | .grow1 w b a => setPc s i (.grow2 w b a s.top)
  | .grow2 w b a t =>
    if (s.heap a).live then
      setPc { s with heap := Function.update s.heap s.next (grown (s.heap a) t s.bottom), next := s.next + 1 } i
        (.grow3 w b a s.next)
    else fail s
  | .grow3 w b a n => setPc { s with cur := n } i (.grow4 w b a)
  | .grow4 w b a =>
    if (s.heap a).live then
      setPc { s with heap := Function.update s.heap a { s.heap a with live := false } } i (.pushRe w b)
    else fail s
  -- steal
  | .steal0 => setPc s i (.steal1 s.top)
  | .steal1 t => if t < s.bottom then setPc s i (.steal2 t) else done s i .empty
  | .steal2 t => setPc s i (.steal3 t s.cur)
  | .steal3 t a =>
    if (s.heap a).live then setPc s i (.steal4 t ((s.heap a).buf (t % (s.heap a).size))) else fail s
  | .steal4 t x => if s.top = t then done { s with top := t + 1 } i (.got x) else done s i .abort
  -- take
  | .take0 => setPc s i (.take1 (if s.bottom = 0 then 2 ^ 64 - 1 else s.bottom - 1))
  | .take1 b => setPc s i (.take2 b s.top)
  | .take2 b t => setPc s i (.take3 b t s.cur)
  | .take3 b t a => setPc { s with bottom := b } i (.take4 b t a)
  | .take4 b t a =>
    if t ≤ b then
      if (s.heap a).live then
        let x := (s.heap a).buf (b % (s.heap a).size)
        if t = b then setPc s i (.take5 b t x) else done s i (.got x)
      else fail s
    else setPc s i (.take6 b .empty)
  | .take5 b t x =>
    if s.top = t then setPc { s with top := t + 1 } i (.take6 b (.got x)) else setPc s i (.take6 b .empty)
  | .take6 b r => done { s with bottom := b + 1 } i r

/-- A scheduling decision: let an idle thread begin an operation, or let a thread do its next atomic step. -/
inductive Act where
  | start (i : Tid) (op : Op)
  | go (i : Tid)
  deriving DecidableEq

/-- One step of the whole system; nothing happens after undefined behaviour. -/
def step (s : St) : Act → St
  | .start i op =>
    if s.ub then s
    else if s.pcs i = .idle then
      match op with
      | .push w => setPc { s with begun := s.begun ++ [w] } i (.push0 w)
      | .steal => setPc s i .steal0
      | .take => setPc s i .take0
    else s
  | .go i => if s.ub then s else go s i

/-- A whole execution. -/
def exec (s : St) (acts : List Act) : St := acts.foldl step s

end Verif.Deque
