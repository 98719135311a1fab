import Mathlib.Tactic
import Verif.Basic

/-!
# Starting the threads of the pool (src/events.c, src/epoll.c, src/future.c), C106, C107

`events_create`, `events_create_future`, `events_create_pool`, `events_init_pool`, the way `accept_handler` makes a pool thread if there is none, and
`thrd_pool_shutdown`, all called by the main thread after `events_init`.  What the system grants (memory, descriptors, threads) is given per loop.
-/

namespace Verif.Tasks.Start

/-- What an entry of `sys_event.local` is: the queue of the main thread, of a futures thread, of a pool thread; `thread`: the thread exists. -/
inductive Slot where
  | main
  | future (thread : Bool)
  | pool (thread : Bool)
  deriving DecidableEq, Repr

/-- What the system grants for one loop: the memory of the loop, of its timeout vectors, its epoll descriptor; the memory of the queue, of the work record, and
the thread. -/
structure Env where
  obj : Bool
  vec : Bool
  epoll : Bool
  queue : Bool
  work : Bool
  thread : Bool

def Env.all : Env := ⟨true, true, true, true, true, true⟩

/-- `cpus`: `sys_event.cpu_count`; `loops`: `sys_event.num_loops`; `slots`: `sys_event.local`; `futures`, `pools`: `sys_event.future_cpu_idx`,
`tasks_cpu_idx`; `loop`: `__thrd()->loop`; `cur`: `__thrd()->pool`; `freed`: the loops whose memory was released. -/
structure Sys where
  cpus : Nat
  loops : Nat
  slots : List (Option Slot)
  futures : List Nat
  pools : List Nat
  loop : Option Nat
  cur : Option Nat
  freed : List Nat
  deriving DecidableEq

/-- After `events_init`, src/events.c:250, 261-294. -/
def Sys.init (n : Nat) : Sys := ⟨n, 0, some .main :: List.replicate n none, [], [], none, none, []⟩

/-- `events_create_future(loop)`, src/events.c:2671-2709; the result is the future returned. -/
def createFuture (e : Env) (s : Sys) (id : Nat) : Sys × Option Nat :=
  let r : Sys × Option Nat :=
    if id ≤ s.cpus ∧ s.slots[id]? = some none then
      if e.queue then
        if e.work ∧ e.thread then
          ({ s with slots := s.slots.set id (some (.future true)), futures := s.futures ++ [id] }, some id)
        else ({ s with slots := s.slots.set id (some (.future false)) }, none)
      else (s, none)
    else (s, none)
  match r.2 with
  | some f => (r.1, some f)
  | none => (r.1, r.1.cur)

/-- `events_create(timeout)`, src/epoll.c:49-77 with `events_init_loop_internal`, src/events.c:740-769; the result is the identifier of the loop (an
`unsigned short`), `none` for NULL. -/
def createLoop (e : Env) (s : Sys) : Sys × Option Nat :=
  if ¬ e.obj then (s, none)
  else if ¬ e.vec then (s, none)
  else
    let id := (s.loops + 1) % 2 ^ 16
    let s1 := { s with loops := s.loops + 1, loop := s.loop.or (some id) }
    let s2 : Sys :=
      if s1.cur = none then
        let r := createFuture e s1 id
        { r.1 with cur := r.2 }
      else s1
    if e.epoll then (s2, some id) else ({ s2 with freed := s2.freed ++ [id] }, none)

/-- `events_create_pool(loop)`, src/events.c:2589-2625: whether it returns 0.  `local[index]` is read also if the index is beyond the table (line 2619). -/
def createPool (e : Env) (s : Sys) (id : Nat) : Res (Sys × Bool) :=
  if s.cpus < id then .ub
  else match s.slots[id]? with
  | none => .ub
  | some (some _) => .ok (s, true)
  | some none =>
    if e.queue then
      if e.work ∧ e.thread then
        .ok ({ s with slots := s.slots.set id (some (.pool true)), pools := s.pools ++ [id] }, true)
      else .ok ({ s with slots := s.slots.set id (some (.pool false)) }, false)
    else .ok (s, false)

/-- `events_create_future(events_create(timeout))`; without a loop its identifier is read through NULL. -/
def newFuture (e : Env) (s : Sys) : Res Sys :=
  match createLoop e s with
  | (s', some id) => .ok (createFuture e s' id).1
  | (_, none) => .ub

/-- `events_create_pool(events_create(timeout))`. -/
def newPool (e : Env) (s : Sys) : Res (Sys × Bool) :=
  match createLoop e s with
  | (s', some id) => createPool e s' id
  | (_, none) => .ub

def repeatRes (f : Sys → Res Sys) : Nat → Sys → Res Sys
  | 0, s => .ok s
  | k + 1, s => f s >>= repeatRes f k

/-- Lines 2570-2571 of `events_init_pool`, src/events.c: the first loop; `e` says what is granted to the loop made when there are `k` loops. -/
def initFirst (e : Nat → Env) (s : Sys) : Res Sys := if s.loop = none then newFuture (e s.loops) s else .ok s

/-- Lines 2573-2580: further futures. -/
def initFutures (e : Nat → Env) (count : Nat) (s : Sys) : Res Sys :=
  if 0 < count then
    repeatRes (fun t => newFuture (e t.loops) t) ((if s.cpus ≤ count then (s.cpus : Int) else count) - s.futures.length).toNat s
  else .ok s

/-- Lines 2582-2584: the other processors. -/
def initPools (e : Nat → Env) (s : Sys) : Res Sys :=
  repeatRes (fun t => newPool (e t.loops) t >>= fun r => .ok r.1) (s.cpus - s.futures.length) s

/-- `events_init_pool(count)`, src/events.c:2567-2587. -/
def initPool (e : Nat → Env) (count : Nat) (s : Sys) : Res Sys :=
  initFirst e s >>= initFutures e count >>= initPools e

/-- The start of `accept_handler`, src/events.c:1801-1803 (and of `uds_handler`, `tls_handler`, `fs_events`...: src/async_uds.c:76, src/async_tls.c:1085,
src/async_io.c:725): whether there is a pool now. -/
def needPool (e : Nat → Env) (s : Sys) : Res (Sys × Bool) :=
  if s.pools = [] then newPool (e s.loops) s else .ok (s, true)

/-- `thrd_pool_shutdown()`, src/future.c:228-239: the queues told to stop. -/
def shutdown (s : Sys) : Res (List Nat) :=
  if s.loops + 1 ≤ s.slots.length then .ok ((List.range (s.loops + 1)).filter fun i => (s.slots[i]?).join.isSome) else .ub

/-! ## Lemmas -/

/-- `f` futures threads and `p` pool threads on `f + p + r` processors. -/
def table (f p r : Nat) : List (Option Slot) :=
  some .main :: (List.replicate f (some (.future true)) ++ (List.replicate p (some (.pool true)) ++ List.replicate r none))

def made (f p r : Nat) : Sys :=
  ⟨f + p + r, f + p, table f p r, List.range' 1 f, List.range' (f + 1) p, some 1, some 1, []⟩

theorem table_length (f p r : Nat) : (table f p r).length = f + p + r + 1 := by simp [table]; omega

theorem table_free (f p r : Nat) : (table f p (r + 1))[f + p + 1]? = some none := by
  unfold table
  rw [List.getElem?_cons_succ, List.getElem?_append_right (by simp), List.getElem?_append_right (by simp)]
  simp

theorem set_pool (f p r : Nat) : (table f p (r + 1)).set (f + p + 1) (some (.pool true)) = table f (p + 1) r := by
  unfold table
  rw [List.set_cons_succ, List.set_append_right _ _ (by simp), List.set_append_right _ _ (by simp)]
  simp only [List.length_replicate]
  rw [show f + p - f - p = 0 by omega, List.replicate_succ, List.set_cons_zero, List.replicate_succ' (n := p)]
  simp

theorem set_future (f r : Nat) : (table f 0 (r + 1)).set (f + 1) (some (.future true)) = table (f + 1) 0 r := by
  unfold table
  rw [List.set_cons_succ, List.set_append_right _ _ (by simp)]
  simp only [List.length_replicate, List.replicate_zero, List.nil_append]
  rw [show f - f = 0 by omega, List.replicate_succ, List.set_cons_zero, List.replicate_succ' (n := f)]
  simp

theorem made_future {f r : Nat} (h : f + (r + 1) < 2 ^ 16) : newFuture .all (made f 0 (r + 1)) = .ok (made (f + 1) 0 r) := by
  have hm : (f + 0 + 1) % 2 ^ 16 = f + 1 := Nat.mod_eq_of_lt (by omega)
  have hl : createLoop .all (made f 0 (r + 1)) = ({ made f 0 (r + 1) with loops := f + 1 }, some (f + 1)) := by
    simp only [createLoop, made, Env.all, not_true_eq_false, if_false, hm, if_true, Option.or]
    rfl
  have hs := table_free f 0 r
  simp only [Nat.add_zero] at hs
  unfold newFuture
  rw [hl]
  simp only [createFuture, made, Env.all]
  rw [if_pos ⟨by omega, hs⟩]
  simp only [if_true, and_self, set_future]
  rw [show f + 0 + (r + 1) = f + 1 + 0 + r by omega, List.range'_concat]
  simp [Nat.add_comm]

theorem made_pool {f p r : Nat} (h : f + p + (r + 1) < 2 ^ 16) :
    newPool .all (made f p (r + 1)) = .ok (made f (p + 1) r, true) := by
  have hm : (f + p + 1) % 2 ^ 16 = f + p + 1 := Nat.mod_eq_of_lt (by omega)
  have hl : createLoop .all (made f p (r + 1)) = ({ made f p (r + 1) with loops := f + p + 1 }, some (f + p + 1)) := by
    simp only [createLoop, made, Env.all, not_true_eq_false, if_false, hm, if_true, Option.or]
    rfl
  unfold newPool
  rw [hl]
  simp only [createPool, made, Env.all]
  rw [if_neg (by omega), table_free]
  simp only [if_true, and_self, set_pool]
  rw [show f + p + (r + 1) = f + (p + 1) + r by omega, show f + p + 1 = f + (p + 1) by omega, List.range'_concat]
  simp only [Nat.one_mul, show f + 1 + p = f + (p + 1) by omega]

theorem futures_loop : ∀ (k f r : Nat), f + (r + k) < 2 ^ 16 →
    repeatRes (fun t => newFuture .all t) k (made f 0 (r + k)) = .ok (made (f + k) 0 r)
  | 0, f, r, _ => rfl
  | k + 1, f, r, h => by
    show (newFuture .all (made f 0 (r + k + 1)) >>= repeatRes _ k) = _
    rw [made_future (by omega), Res.ok_bind, futures_loop k (f + 1) r (by omega)]
    rw [show f + 1 + k = f + (k + 1) by omega]

theorem pools_loop : ∀ (k f p r : Nat), f + p + (r + k) < 2 ^ 16 →
    repeatRes (fun t => newPool .all t >>= fun r => .ok r.1) k (made f p (r + k)) = .ok (made f (p + k) r)
  | 0, f, p, r, _ => rfl
  | k + 1, f, p, r, h => by
    show ((newPool .all (made f p (r + k + 1)) >>= fun r => .ok r.1) >>= repeatRes _ k) = _
    rw [made_pool (by omega), Res.ok_bind, Res.ok_bind, pools_loop k f (p + 1) r (by omega)]
    rw [show p + 1 + k = p + (k + 1) by omega]

theorem createPool_beyond {e : Env} {s : Sys} {id : Nat} (h : s.cpus < id) : createPool e s id = .ub := by
  unfold createPool
  rw [if_pos h]

theorem first_create (r : Nat) : createLoop .all (Sys.init (r + 1)) = (made 1 0 r, some 1) := by
  have hs : (some Slot.main :: List.replicate (r + 1) (none : Option Slot))[1]? = some none := by simp [List.replicate_succ]
  simp only [createLoop, Sys.init, Env.all, not_true_eq_false, if_false, if_true, Option.or, createFuture]
  rw [if_pos ⟨by omega, hs⟩]
  simp only [made, table, List.replicate_succ, List.replicate_zero]
  rw [show 1 + 0 + r = r + 1 by omega]
  rfl

theorem first_loop (r : Nat) : newFuture .all (Sys.init (r + 1)) = .ok (made 1 0 r) := by
  unfold newFuture
  rw [first_create]
  have : (createFuture .all (made 1 0 r) 1).1 = made 1 0 r := by
    unfold createFuture
    rw [if_neg (by simp [made, table])]
  simp only [this]

/-- The number of futures threads. -/
def nfut (n count : Nat) : Nat := max 1 (min count n)

theorem initPool_made (n count : Nat) (hn : 0 < n) (h : n < 2 ^ 16) :
    initPool (fun _ => .all) count (Sys.init n) = .ok (made (nfut n count) (n - nfut n count) 0) := by
  obtain ⟨m, rfl⟩ : ∃ m, n = m + 1 := ⟨n - 1, by omega⟩
  have h1 : initFirst (fun _ => .all) (Sys.init (m + 1)) = .ok (made 1 0 m) := by
    unfold initFirst
    rw [if_pos (by rfl), first_loop]
  have hx : ((if (made 1 0 m).cpus ≤ count then ((made 1 0 m).cpus : Int) else count) - (made 1 0 m).futures.length).toNat =
      min count (m + 1) - 1 := by
    have h1 : (made 1 0 m).cpus = m + 1 := by simp only [made]; omega
    have h2 : (made 1 0 m).futures.length = 1 := by simp [made]
    rw [h1, h2]
    split <;> omega
  have h2 : initFutures (fun _ => .all) count (made 1 0 m) = .ok (made (nfut (m + 1) count) 0 (m + 1 - nfut (m + 1) count)) := by
    unfold initFutures
    rw [hx]
    split
    · have e := futures_loop (min count (m + 1) - 1) 1 (m + 1 - nfut (m + 1) count) (by unfold nfut; omega)
      rw [show m + 1 - nfut (m + 1) count + (min count (m + 1) - 1) = m by unfold nfut; omega] at e
      rw [e, show 1 + (min count (m + 1) - 1) = nfut (m + 1) count by unfold nfut; omega]
    · rw [show nfut (m + 1) count = 1 by unfold nfut; omega]
      rfl
  have h3 := pools_loop (m + 1 - nfut (m + 1) count) (nfut (m + 1) count) 0 0 (by unfold nfut; omega)
  simp only [Nat.zero_add] at h3
  have h4 : (made (nfut (m + 1) count) 0 (m + 1 - nfut (m + 1) count)).cpus -
      (made (nfut (m + 1) count) 0 (m + 1 - nfut (m + 1) count)).futures.length = m + 1 - nfut (m + 1) count := by
    simp only [made, List.length_range']
    omega
  unfold initPool
  rw [h1, Res.ok_bind, h2, Res.ok_bind]
  unfold initPools
  rw [h4, h3]

/-! ## Claims -/

/-- Claim C106: if the system grants everything, `events_init_pool(count)` on `n` processors gives every index from 1 to `n` one thread: the first ones,
`count` but at least one, are for futures, the others for tasks, and exactly those are in the two lists; the main thread has the first loop. -/
theorem init_pool_roles_partial (n count : Nat) (hn : 0 < n) (h : n < 2 ^ 16) :
    ∃ s f, initPool (fun _ => .all) count (Sys.init n) = .ok s ∧ f = max 1 (min count n) ∧
      s.futures = List.range' 1 f ∧ s.pools = List.range' (f + 1) (n - f) ∧ s.loop = some 1 ∧ s.loops = n ∧
      (∀ i, 1 ≤ i → i ≤ f → s.slots[i]? = some (some (.future true))) ∧
      (∀ i, f < i → i ≤ n → s.slots[i]? = some (some (.pool true))) := by
  refine ⟨_, nfut n count, initPool_made n count hn h, rfl, rfl, rfl, rfl, ?_, ?_, ?_⟩
  · simp only [made, nfut]; omega
  · intro i h1 h2
    obtain ⟨j, rfl⟩ : ∃ j, i = j + 1 := ⟨i - 1, by omega⟩
    simp only [made, table]
    rw [List.getElem?_cons_succ, List.getElem?_append_left (by simp; omega), List.getElem?_replicate, if_pos (by omega)]
  · intro i h1 h2
    obtain ⟨j, rfl⟩ : ∃ j, i = j + 1 := ⟨i - 1, by omega⟩
    simp only [made, table]
    rw [List.getElem?_cons_succ, List.getElem?_append_right (by simp; omega), List.getElem?_append_left (by simp; omega),
      List.getElem?_replicate, if_pos (by simp; omega)]

/-- Claim C106 (failure): a second `events_init_pool` with the same count reads beyond the table, whenever there are pool threads. -/
theorem init_pool_twice_ub (n count : Nat) (hn : 0 < n) (h : n < 2 ^ 16 - 1) (hp : max 1 (min count n) < n) :
    (initPool (fun _ => .all) count (Sys.init n) >>= initPool (fun _ => .all) count) = .ub := by
  rw [initPool_made n count hn (by omega), Res.ok_bind]
  have hf : nfut n count < n := hp
  have hpos : 0 < nfut n count := by unfold nfut; omega
  obtain ⟨f, hfe⟩ : ∃ f, nfut n count = f := ⟨_, rfl⟩
  have hc : count ≤ f := by unfold nfut at hfe; omega
  have hc' : count < n := by omega
  rw [hfe] at hf hpos ⊢
  have hs : (made f (n - f) 0).cpus = n := by simp [made]; omega
  have hl : (made f (n - f) 0).futures.length = f := by simp [made]
  have e1 : initFirst (fun _ => .all) (made f (n - f) 0) = .ok (made f (n - f) 0) := rfl
  have e2 : initFutures (fun _ => .all) count (made f (n - f) 0) = .ok (made f (n - f) 0) := by
    unfold initFutures
    rw [hs, hl, if_neg (show ¬ n ≤ count by omega), show ((count : Int) - f).toNat = 0 by omega]
    split <;> rfl
  unfold initPool
  rw [e1, Res.ok_bind, e2, Res.ok_bind]
  unfold initPools
  rw [hs, hl]
  obtain ⟨k, hk⟩ : ∃ k, n - f = k + 1 := ⟨n - f - 1, by omega⟩
  have hm : (f + (n - f) + 1) % 2 ^ 16 = n + 1 := by rw [show f + (n - f) + 1 = n + 1 by omega]; exact Nat.mod_eq_of_lt (by omega)
  have hu : newPool .all (made f (n - f) 0) = .ub := by
    have hl : createLoop .all (made f (n - f) 0) = ({ made f (n - f) 0 with loops := f + (n - f) + 1 }, some (n + 1)) := by
      simp only [createLoop, made, Env.all, not_true_eq_false, if_false, hm, if_true, Option.or]
      rfl
    unfold newPool
    rw [hl]
    exact createPool_beyond (show f + (n - f) + 0 < n + 1 by omega)
  rw [hk]
  show ((newPool .all (made f (k + 1) 0) >>= _) >>= _) = _
  rw [← hk, hu]
  rfl

/-- Claim C106 (failure): where no processor is left for a pool thread (one processor, or as many futures as processors), the first accepted connection
makes `accept_handler` read beyond the table. -/
theorem need_pool_no_processor_ub (n count : Nat) (hn : 0 < n) (h : n < 2 ^ 16 - 1) (hp : n ≤ max 1 count) :
    (initPool (fun _ => .all) count (Sys.init n) >>= needPool (fun _ => .all)) = .ub := by
  rw [initPool_made n count hn (by omega), Res.ok_bind]
  have hf : nfut n count = n := by unfold nfut; omega
  rw [hf, Nat.sub_self]
  have hm : (n + 0 + 1) % 2 ^ 16 = n + 1 := Nat.mod_eq_of_lt (by omega)
  have hl : createLoop .all (made n 0 0) = ({ made n 0 0 with loops := n + 1 }, some (n + 1)) := by
    simp only [createLoop, made, Env.all, not_true_eq_false, if_false, hm, if_true, Option.or]
    rfl
  unfold needPool
  rw [if_pos (by rfl)]
  unfold newPool
  rw [hl]
  exact createPool_beyond (show n + 0 + 0 < n + 1 by omega)

/-- Claim C107: `events_create_pool` for an index that is free and in the table reports success exactly if a thread was made, and the index then gets tasks. -/
theorem create_pool_reports_partial (e : Env) (s : Sys) (id : Nat) (hid : id ≤ s.cpus) (hfree : s.slots[id]? = some none) :
    ∃ s' ok, createPool e s id = .ok (s', ok) ∧ (ok = true ↔ s'.slots[id]? = some (some (.pool true))) ∧
      (ok = true → s'.pools = s.pools ++ [id]) ∧ (ok = false → s'.pools = s.pools) ∧
      (ok = true ↔ e.queue = true ∧ e.work = true ∧ e.thread = true) := by
  have hlt : id < s.slots.length := by
    rcases Nat.lt_or_ge id s.slots.length with h | h
    · exact h
    · rw [List.getElem?_eq_none h] at hfree; cases hfree
  unfold createPool
  rw [if_neg (by omega), hfree]
  dsimp only
  by_cases h1 : e.queue = true
  · rw [if_pos h1]
    by_cases h2 : e.work = true ∧ e.thread = true
    · rw [if_pos h2]
      refine ⟨_, _, rfl, ?_, fun _ => rfl, ?_, ?_⟩
      · simp [List.getElem?_set_self hlt]
      · simp
      · simp [h1, h2]
    · rw [if_neg h2]
      refine ⟨_, _, rfl, ?_, ?_, fun _ => rfl, ?_⟩
      · simp [List.getElem?_set_self hlt]
      · simp
      · simp only [Bool.false_eq_true, false_iff]
        exact fun h => h2 h.2
  · rw [if_neg h1]
    refine ⟨_, _, rfl, ?_, ?_, fun _ => rfl, ?_⟩
    · simp [hfree]
    · simp
    · simp [h1]

/-- Claim C107: `events_create_future` returns a future with a thread of its own for the loop's index if the index is free and everything is granted, and otherwise
the calling thread's future, if it has one; only in the first case futures are given to the index. -/
theorem create_future_result (e : Env) (s : Sys) (id : Nat) :
    if id ≤ s.cpus ∧ s.slots[id]? = some none ∧ e.queue ∧ e.work ∧ e.thread then
      (createFuture e s id).2 = some id ∧ (createFuture e s id).1.futures = s.futures ++ [id] ∧
        (createFuture e s id).1.slots[id]? = some (some (.future true))
    else (createFuture e s id).2 = s.cur ∧ (createFuture e s id).1.futures = s.futures := by
  unfold createFuture
  by_cases h : id ≤ s.cpus ∧ s.slots[id]? = some none
  · have hlt : id < s.slots.length := by
      rcases Nat.lt_or_ge id s.slots.length with h' | h'
      · exact h'
      · rw [List.getElem?_eq_none h'] at h; cases h.2
    cases hq : e.queue <;> cases hw : e.work <;> cases ht : e.thread <;>
      simp only [h.1, h.2, Bool.false_eq_true, and_false, and_true, if_false, if_true, List.getElem?_set_self hlt]
  · have h' : ¬ (id ≤ s.cpus ∧ s.slots[id]? = some none ∧ e.queue ∧ e.work ∧ e.thread) := fun q => h ⟨q.1, q.2.1⟩
    rw [if_neg h', if_neg h]
    exact ⟨rfl, rfl⟩

/-- Claim C107 (failure): if the thread cannot be made, the first call reports the failure, but every later call for the same loop reports success although
there is no thread and no task will ever be given to it. -/
theorem create_pool_retry_false_success (e e' : Env) (s : Sys) (id : Nat) (hid : id ≤ s.cpus) (hfree : s.slots[id]? = some none)
    (hq : e.queue = true) (ht : ¬ (e.work = true ∧ e.thread = true)) :
    ∃ s', createPool e s id = .ok (s', false) ∧ createPool e' s' id = .ok (s', true) ∧ s'.pools = s.pools ∧
      s'.slots[id]? = some (some (.pool false)) := by
  have hlt : id < s.slots.length := by
    rcases Nat.lt_or_ge id s.slots.length with h | h
    · exact h
    · rw [List.getElem?_eq_none h] at hfree; cases hfree
  have hs : (s.slots.set id (some (.pool false)))[id]? = some (some (.pool false)) := List.getElem?_set_self hlt
  refine ⟨{ s with slots := s.slots.set id (some (.pool false)) }, ?_, ?_, rfl, hs⟩
  · unfold createPool
    rw [if_neg (by omega), hfree]
    simp only [hq, if_true]
    rw [if_neg ht]
  · unfold createPool
    simp only [hs]
    rw [if_neg (by omega)]

/-- Claim C107 (failure): if the first loop gets no epoll descriptor, `events_create` returns NULL but leaves the released loop as the loop of the thread, and
a futures thread that holds it. -/
theorem create_loop_failure_dangling (e : Env) (n : Nat) (h1 : e.obj = true) (h2 : e.vec = true) (h3 : e.epoll = false)
    (h4 : e.queue = true) (h5 : e.work = true) (h6 : e.thread = true) :
    ∃ s, createLoop e (Sys.init (n + 1)) = (s, none) ∧ s.loop = some 1 ∧ 1 ∈ s.freed ∧ s.slots[1]? = some (some (.future true)) := by
  obtain ⟨a, b, c, d, e1, f⟩ := e
  simp only at h1 h2 h3 h4 h5 h6
  subst h1 h2 h3 h4 h5 h6
  have e : createLoop ⟨true, true, false, true, true, true⟩ (Sys.init (n + 1)) =
      ({ (createLoop .all (Sys.init (n + 1))).1 with freed := (createLoop .all (Sys.init (n + 1))).1.freed ++ [1] }, none) := rfl
  rw [first_create] at e
  exact ⟨_, e, rfl, by simp [made], rfl⟩

/-- Claim C107: `thrd_pool_shutdown` after `events_init_pool` tells every thread, and the main one, to stop. -/
theorem shutdown_all_partial (n count : Nat) (hn : 0 < n) (h : n < 2 ^ 16) :
    ∃ s, initPool (fun _ => .all) count (Sys.init n) = .ok s ∧ shutdown s = .ok (List.range (n + 1)) := by
  obtain ⟨s, f, e, hf, h1, h2, h3, h4, h5, h6⟩ := init_pool_roles_partial n count hn h
  refine ⟨s, e, ?_⟩
  rw [initPool_made n count hn h] at e
  have hs : s = made (nfut n count) (n - nfut n count) 0 := by injection e with e; exact e.symm
  have hlen : s.slots.length = n + 1 := by
    rw [hs]; simp only [made, table_length, nfut]; omega
  have h0 : s.slots[0]? = some (some .main) := by rw [hs]; rfl
  unfold shutdown
  rw [if_pos (by omega), h4]
  congr 1
  rw [List.filter_eq_self]
  intro i hi
  have hi : i ≤ n := by have := List.mem_range.1 hi; omega
  rcases Nat.eq_zero_or_pos i with rfl | hp
  · rw [h0]; rfl
  · rcases Nat.lt_or_ge f i with hfi | hfi
    · rw [h6 i hfi hi]; rfl
    · rw [h5 i hp hfi]; rfl

/-- Claim C107 (failure): with one more loop than processors, `thrd_pool_shutdown` reads beyond the table. -/
theorem shutdown_extra_loop_ub (n count : Nat) (hn : 0 < n) (h : n < 2 ^ 16) :
    ∃ s, initPool (fun _ => .all) count (Sys.init n) = .ok s ∧ shutdown (createLoop .all s).1 = .ub := by
  refine ⟨_, initPool_made n count hn h, ?_⟩
  have hl : (createLoop .all (made (nfut n count) (n - nfut n count) 0)).1 =
      { made (nfut n count) (n - nfut n count) 0 with loops := nfut n count + (n - nfut n count) + 1 } := by
    simp only [createLoop, made, Env.all, not_true_eq_false, if_false, if_true, Option.or]
    rfl
  rw [hl]
  unfold shutdown
  rw [if_neg]
  simp only [made, table_length]
  omega

/-! Four processors, two futures. -/
example : initPool (fun _ => .all) 2 (Sys.init 4) = .ok ⟨4, 4, [some .main, some (.future true), some (.future true), some (.pool true),
    some (.pool true)], [1, 2], [3, 4], some 1, some 1, []⟩ := by decide +kernel
example : (initPool (fun _ => .all) 2 (Sys.init 4) >>= initPool (fun _ => .all) 2) = .ub := by decide +kernel
/-- `events_start` on one processor. -/
example : (initPool (fun _ => .all) (1 / 2) (Sys.init 1) >>= needPool (fun _ => .all)) = .ub := by decide +kernel
/-- No thread for the third loop. -/
example : (createPool { Env.all with thread := false } (made 2 0 2) 3) = .ok ({ made 2 0 2 with slots := [some .main, some (.future true),
    some (.future true), some (.pool false), none] }, false) := by decide +kernel
example : shutdown (made 2 2 0) = .ok [0, 1, 2, 3, 4] := by decide +kernel

end Verif.Tasks.Start
