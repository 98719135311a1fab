/-!
# The handles of epoll for Windows, shared by threads (src/wepoll.c)

An epoll handle may be used by several threads at once, and closed by one of
them while others wait on it.  A process wide tree finds the port of a
handle; a counter in the port, the `reflock`, keeps it from being freed.

Each access to shared memory is one atomic step: the steps under the lock of
the tree (`src/wepoll.c` lines 1900-1948), and every `Interlocked…` call.  A
schedule is a list of such steps by any threads, in any order; a step which
its thread is not about to take has no effect.
-/

namespace Verif.Wepoll.Handles

/-- What a thread is about to do (`epoll_close`, `epoll_ctl`, `epoll_wait`,
`src/wepoll.c` lines 557-648).  Ports are numbered in order of creation. -/
inductive Pc where
  /-- outside the library -/
  | idle
  /-- in `port_ctl`/`port_wait` of the port, lines 599 and 634 -/
  | user (p : Nat)
  /-- has to wake the closing thread, lines 1554-1555 -/
  | signal (p : Nat)
  /-- is about to `port_close`, line 571 -/
  | closing (p : Nat)
  /-- is about to call `ts_tree_node_unref_and_destroy`, line 573 -/
  | closed (p : Nat)
  /-- sleeps until the last user leaves, lines 1566-1567 -/
  | await (p : Nat)
  /-- is about to poison the counter, line 1569 -/
  | poison (p : Nat)
  /-- is about to `port_delete`, line 575 -/
  | delete (p : Nat)
deriving DecidableEq, Repr

/-- The shared state. -/
structure St where
  /-- `epoll__handle_tree` (line 514): from handles to ports.  The tree
  itself is modelled and shown to be such a map in `Verif.Wepoll.Tree`. -/
  tree : Nat → Option Nat
  /-- `reflock.state` of a port, the 32 bits of the `long` -/
  lock : Nat → Nat
  /-- the port has been allocated and not freed -/
  live : Nat → Bool
  /-- `iocp_handle != NULL` -/
  opened : Nat → Bool
  /-- the value of the handle made for the port -/
  hnd : Nat → Nat
  /-- how many ports were made -/
  next : Nat
  /-- the threads -/
  ts : List Pc

/-- What can go wrong. -/
inductive Fault where
  /-- a freed port was touched -/
  | freed
  /-- an assertion on the counter failed (lines 1544, 1552, 1564, 1570) -/
  | lock
  /-- the new handle was already in the tree (lines 534-538), upon which
  `port_delete` asserts (line 1128) that the port was closed -/
  | dup
  /-- `assert(port_state->iocp_handle != NULL)` (line 1430) -/
  | iocp
deriving DecidableEq, Repr

/-- The steps. -/
inductive Act where
  /-- `epoll__create`, the kernel giving out the handle `h` -/
  | create (h : Nat)
  /-- thread `i` enters `epoll_ctl`/`epoll_wait` with the handle `h` -/
  | enter (i h : Nat)
  /-- thread `i` touches the port it is using -/
  | use (i : Nat)
  /-- thread `i` adds a socket which needs a new driver handle -/
  | add (i : Nat)
  /-- thread `i` gives back its reference -/
  | leave (i : Nat)
  /-- thread `i` wakes thread `j` -/
  | meet (i j : Nat)
  /-- thread `i` enters `epoll_close` with the handle `h` -/
  | close (i h : Nat)
  | closeIocp (i : Nat)
  | destroy (i : Nat)
  | poison (i : Nat)
  | delete (i : Nat)
deriving DecidableEq, Repr

/-- The result of a step. -/
inductive Out where
  | ok (s : St)
  | fault (f : Fault)

/-- The value `2^28` of `REFLOCK__DESTROY` (line 1508). -/
def DESTROY : Nat := 0x10000000

/-- Change of one entry. -/
def upd {β : Type} (f : Nat → β) (a : Nat) (b : β) : Nat → β :=
  fun x => if x = a then b else f x

/-- `reflock_ref` (`src/wepoll.c` lines 1540-1546): the new value of the
counter, `none` if the assertion fails.  `InterlockedAdd` wraps at 32 bits. -/
def ref (v : Nat) : Option Nat :=
  let w := (v + 1) % 0x100000000
  if w / 0x10000000 = 0 then some w else none

/-- `reflock_unref` (`src/wepoll.c` lines 1548-1556): the new value and
whether the closing thread must be woken. -/
def unref (v : Nat) : Option (Nat × Bool) :=
  let w := (v + 0xffffffff) % 0x100000000
  if w / 0x20000000 = 0 then some (w, decide (w = DESTROY)) else none

/-- The first half of `reflock_unref_and_destroy` (`src/wepoll.c` lines
1559-1567): the new value and whether the thread has to sleep. -/
def unrefDestroy (v : Nat) : Option (Nat × Bool) :=
  let w := (v + (DESTROY - 1)) % 0x100000000
  if w / 0x10000000 = 1 then some (w, decide (w % 0x10000000 ≠ 0)) else none

/-- `REFLOCK__POISON` (line 1510). -/
def POISON : Nat := 0x300dead0

/-- The kernel does not give out a handle which is still open. -/
def freshHandle (s : St) (h : Nat) : Bool :=
  (List.range s.next).all fun p => !(s.opened p && s.hnd p == h)

/-- One step of a schedule. -/
def step (s : St) : Act → Out
  /- `epoll__create` (`src/wepoll.c` lines 521-542): the new port is known to
  no other thread before `ts_tree_add` (1900-1908), so one step. -/
  | .create h =>
    if freshHandle s h then
      if s.tree h = none then
        .ok { s with tree := upd s.tree h (some s.next), lock := upd s.lock s.next 0,
                     live := upd s.live s.next true, opened := upd s.opened s.next true,
                     hnd := upd s.hnd s.next h, next := s.next + 1 }
      else .fault .dup
    else .ok s
  /- `ts_tree_find_and_ref` (`src/wepoll.c` lines 1935-1948).  A handle not in
  the tree is refused. -/
  | .enter i h =>
    match s.ts[i]?, s.tree h with
    | some .idle, some p =>
      if s.live p then
        match ref (s.lock p) with
        | some w => .ok { s with lock := upd s.lock p w, ts := s.ts.set i (.user p) }
        | none => .fault .lock
      else .fault .freed
    | _, _ => .ok s
  | .use i =>
    match s.ts[i]? with
    | some (.user p) => if s.live p then .ok s else .fault .freed
    | _ => .ok s
  /- `poll_group__new` (`src/wepoll.c` lines 941-959) by way of
  `port_get_iocp_handle` (1429-1432). -/
  | .add i =>
    match s.ts[i]? with
    | some (.user p) =>
      if s.live p then (if s.opened p then .ok s else .fault .iocp) else .fault .freed
    | _ => .ok s
  /- `ts_tree_node_unref` (`src/wepoll.c` lines 1950-1952). -/
  | .leave i =>
    match s.ts[i]? with
    | some (.user p) =>
      if s.live p then
        match unref (s.lock p) with
        | some (w, wake) =>
          .ok { s with lock := upd s.lock p w,
                       ts := s.ts.set i (if wake then .signal p else .idle) }
        | none => .fault .lock
      else .fault .freed
    | _ => .ok s
  /- `NtReleaseKeyedEvent` and `NtWaitForKeyedEvent` (`src/wepoll.c` lines
  1526-1538) return together, for one waker and one sleeper at the same
  address; either waits for the other.  The address is that of the port, here
  its number: `signal_has_sleeper` shows that the sleeper of a waker has not
  freed the port, so the address means this port only. -/
  | .meet i j =>
    match s.ts[i]?, s.ts[j]? with
    | some (.signal p), some (.await q) =>
      if p = q then .ok { s with ts := (s.ts.set i .idle).set j (.poison p) } else .ok s
    | _, _ => .ok s
  /- `ts_tree_del_and_ref` (`src/wepoll.c` lines 1919-1933). -/
  | .close i h =>
    match s.ts[i]?, s.tree h with
    | some .idle, some p =>
      if s.live p then
        match ref (s.lock p) with
        | some w => .ok { s with tree := upd s.tree h none, lock := upd s.lock p w,
                                 ts := s.ts.set i (.closing p) }
        | none => .fault .lock
      else .fault .freed
    | _, _ => .ok s
  /- `port_close` (`src/wepoll.c` lines 1103-1121). -/
  | .closeIocp i =>
    match s.ts[i]? with
    | some (.closing p) =>
      if s.live p then
        .ok { s with opened := upd s.opened p false, ts := s.ts.set i (.closed p) }
      else .fault .freed
    | _ => .ok s
  /- `reflock_unref_and_destroy` up to line 1567. -/
  | .destroy i =>
    match s.ts[i]? with
    | some (.closed p) =>
      if s.live p then
        match unrefDestroy (s.lock p) with
        | some (w, sleep) =>
          .ok { s with lock := upd s.lock p w,
                       ts := s.ts.set i (if sleep then .await p else .poison p) }
        | none => .fault .lock
      else .fault .freed
    | _ => .ok s
  /- `src/wepoll.c` lines 1569-1570. -/
  | .poison i =>
    match s.ts[i]? with
    | some (.poison p) =>
      if s.live p then
        if s.lock p = DESTROY then
          .ok { s with lock := upd s.lock p POISON, ts := s.ts.set i (.delete p) }
        else .fault .lock
      else .fault .freed
    | _ => .ok s
  /- `port_delete` (`src/wepoll.c` lines 1123-1152); what it frees is the
  subject of `Verif.Wepoll.Port`. -/
  | .delete i =>
    match s.ts[i]? with
    | some (.delete p) =>
      if s.live p then
        .ok { s with live := upd s.live p false, ts := s.ts.set i .idle }
      else .fault .freed
    | _ => .ok s

/-- The start: no port, `n` threads. -/
def init (n : Nat) : St :=
  { tree := fun _ => none, lock := fun _ => 0, live := fun _ => false,
    opened := fun _ => false, hnd := fun _ => 0, next := 0, ts := List.replicate n .idle }

/-- A schedule. -/
def run (s : St) : List Act → Out
  | [] => .ok s
  | a :: as => match step s a with
    | .ok s' => run s' as
    | .fault f => .fault f

/-! ## The invariant -/

/-- The life of a port, by the numbers of threads at each place. -/
def Phase (inTree live opened : Bool) (lock u g ci cd aw po de : Nat) : Prop :=
  (live = false ∧ inTree = false ∧ opened = false ∧
    u = 0 ∧ g = 0 ∧ ci = 0 ∧ cd = 0 ∧ aw = 0 ∧ po = 0 ∧ de = 0) ∨
  (live = true ∧ inTree = true ∧ opened = true ∧ lock = u ∧
    g = 0 ∧ ci = 0 ∧ cd = 0 ∧ aw = 0 ∧ po = 0 ∧ de = 0) ∨
  (live = true ∧ inTree = false ∧ opened = true ∧ lock = u + 1 ∧
    g = 0 ∧ ci = 1 ∧ cd = 0 ∧ aw = 0 ∧ po = 0 ∧ de = 0) ∨
  (live = true ∧ inTree = false ∧ opened = false ∧ lock = u + 1 ∧
    g = 0 ∧ ci = 0 ∧ cd = 1 ∧ aw = 0 ∧ po = 0 ∧ de = 0) ∨
  (live = true ∧ inTree = false ∧ opened = false ∧ lock = 0x10000000 + u ∧
    ((0 < u ∧ g = 0) ∨ (u = 0 ∧ g = 1)) ∧ ci = 0 ∧ cd = 0 ∧ aw = 1 ∧ po = 0 ∧ de = 0) ∨
  (live = true ∧ inTree = false ∧ opened = false ∧ lock = 0x10000000 ∧
    u = 0 ∧ g = 0 ∧ ci = 0 ∧ cd = 0 ∧ aw = 0 ∧ po = 1 ∧ de = 0) ∨
  (live = true ∧ inTree = false ∧ opened = false ∧
    u = 0 ∧ g = 0 ∧ ci = 0 ∧ cd = 0 ∧ aw = 0 ∧ po = 0 ∧ de = 1)

/-- The port is found by its handle. -/
def inTree (s : St) (p : Nat) : Bool := decide (s.tree (s.hnd p) = some p)

structure Inv (s : St) : Prop where
  tree : ∀ h p, s.tree h = some p → s.hnd p = h ∧ p < s.next
  old : ∀ p, s.next ≤ p → s.live p = false
  phase : ∀ p, Phase (inTree s p) (s.live p) (s.opened p) (s.lock p)
    (s.ts.count (.user p)) (s.ts.count (.signal p)) (s.ts.count (.closing p))
    (s.ts.count (.closed p)) (s.ts.count (.await p)) (s.ts.count (.poison p))
    (s.ts.count (.delete p))
  few : s.ts.length < 0x10000000

theorem init_inv {n : Nat} (h : n < 0x10000000) : Inv (init n) where
  tree := by intro h p e; simp [init] at e
  old := by intro p _; rfl
  phase := by
    intro p
    left
    simp [init, inTree, List.count_replicate]
  few := by simpa [init] using h

theorem count_set {ts : List Pc} {i : Nat} {o : Pc} (n x : Pc) (h : ts[i]? = some o) :
    (ts.set i n).count x + (if o = x then 1 else 0) =
      ts.count x + (if n = x then 1 else 0) := by
  induction ts generalizing i with
  | nil => simp at h
  | cons a l ih =>
    cases i with
    | zero =>
      simp only [List.getElem?_cons_zero, Option.some.injEq] at h
      subst h
      simp only [List.set_cons_zero, List.count_cons, beq_iff_eq]
      omega
    | succ i =>
      simp only [List.getElem?_cons_succ] at h
      have := ih h
      simp only [List.set_cons_succ, List.count_cons, beq_iff_eq]
      omega

theorem count_pos {ts : List Pc} {i : Nat} {o : Pc} (h : ts[i]? = some o) :
    0 < ts.count o :=
  List.count_pos_iff.mpr (List.mem_of_getElem? h)

theorem upd_same {β : Type} (f : Nat → β) (a : Nat) (b : β) : upd f a b a = b := by simp [upd]
theorem upd_ne {β : Type} (f : Nat → β) {a x : Nat} (b : β) (h : x ≠ a) :
    upd f a b x = f x := by simp [upd, h]

/-- What a step which only moves thread `i` at port `p` has to show. -/
theorem move_inv {s : St} (hi : Inv s) {i p : Nat} {o n : Pc} (ho : s.ts[i]? = some o)
    (s' : St)
    (hs : s'.ts = s.ts.set i n) (hn : s'.next = s.next) (hh : s'.hnd = s.hnd)
    (ht : ∀ q, q ≠ p → inTree s' q = inTree s q)
    (htt : ∀ h q, s'.tree h = some q → s.tree h = some q)
    (hl : ∀ q, q ≠ p → s'.live q = s.live q) (hold : s.live p = true → p < s.next)
    (hlv : s.live p = true)
    (hop : ∀ q, q ≠ p → s'.opened q = s.opened q)
    (hk : ∀ q, q ≠ p → s'.lock q = s.lock q)
    (hoc : ∀ q, q ≠ p → o ≠ .user q ∧ o ≠ .signal q ∧ o ≠ .closing q ∧ o ≠ .closed q ∧
      o ≠ .await q ∧ o ≠ .poison q ∧ o ≠ .delete q)
    (hnc : ∀ q, q ≠ p → n ≠ .user q ∧ n ≠ .signal q ∧ n ≠ .closing q ∧ n ≠ .closed q ∧
      n ≠ .await q ∧ n ≠ .poison q ∧ n ≠ .delete q)
    (hp : Phase (inTree s' p) (s'.live p) (s'.opened p) (s'.lock p)
      (s'.ts.count (.user p)) (s'.ts.count (.signal p)) (s'.ts.count (.closing p))
      (s'.ts.count (.closed p)) (s'.ts.count (.await p)) (s'.ts.count (.poison p))
      (s'.ts.count (.delete p))) : Inv s' where
  tree := by
    intro h q e
    rw [hn, hh]
    exact hi.tree h q (htt h q e)
  old := by
    intro q hq
    rw [hn] at hq
    have : q ≠ p := by
      rintro rfl
      exact absurd (hold hlv) (by omega)
    rw [hl q this]
    exact hi.old q hq
  few := by rw [hs, List.length_set]; exact hi.few
  phase := by
    intro q
    by_cases e : q = p
    · subst e; exact hp
    · have h0 := hi.phase q
      have key : ∀ x : Pc, o ≠ x → n ≠ x → s'.ts.count x = s.ts.count x := by
        intro x h1 h2
        have := count_set n x ho
        rw [if_neg h1, if_neg h2] at this
        rw [hs]; omega
      obtain ⟨a1, a2, a3, a4, a5, a6, a7⟩ := hoc q e
      obtain ⟨b1, b2, b3, b4, b5, b6, b7⟩ := hnc q e
      rw [ht q e, hl q e, hop q e, hk q e, key _ a1 b1, key _ a2 b2, key _ a3 b3, key _ a4 b4,
        key _ a5 b5, key _ a6 b6, key _ a7 b7]
      exact h0

theorem live_lt {s : St} (hi : Inv s) {p : Nat} (h : s.live p = true) : p < s.next := by
  rcases Nat.lt_or_ge p s.next with hp | hp
  · exact hp
  · rw [hi.old p hp] at h; exact absurd h (by simp)

/-- A thread at `o` means that the port of `o` is alive, and gives its phase. -/
theorem count_le {s : St} (hi : Inv s) (x : Pc) : s.ts.count x < 0x10000000 :=
  Nat.lt_of_le_of_lt List.count_le_length hi.few

/-- What a step may lead to. -/
def Fine (a : Act) : Out → Prop
  | .ok s' => Inv s'
  | .fault f => f = .iocp ∧ ∃ i, a = .add i

theorem inTree_iff {s : St} (hi : Inv s) {p : Nat} :
    inTree s p = true ↔ ∃ h, s.tree h = some p := by
  constructor
  · intro h; exact ⟨_, by simpa [inTree] using h⟩
  · rintro ⟨h, e⟩
    have := (hi.tree h p e).1
    simp [inTree, this, e]

/-- The counts of the moved thread's port. -/
theorem counts {s : St} {i : Nat} {o n : Pc} (ho : s.ts[i]? = some o) (p : Nat) :
    let c := fun x => (s.ts.set i n).count x + (if o = x then 1 else 0) =
      s.ts.count x + (if n = x then 1 else 0)
    c (.user p) ∧ c (.signal p) ∧ c (.closing p) ∧ c (.closed p) ∧ c (.await p) ∧
      c (.poison p) ∧ c (.delete p) :=
  ⟨count_set n _ ho, count_set n _ ho, count_set n _ ho, count_set n _ ho, count_set n _ ho,
    count_set n _ ho, count_set n _ ho⟩

theorem create_fine {s : St} (hi : Inv s) (h : Nat) : Fine (.create h) (step s (.create h)) := by
  simp only [step]
  by_cases hf : freshHandle s h = true
  · rw [if_pos hf]
    have hno : s.tree h = none := by
      cases e : s.tree h with
      | none => rfl
      | some p =>
        exfalso
        obtain ⟨h1, h2⟩ := hi.tree h p e
        have h3 := (inTree_iff hi).mpr ⟨h, e⟩
        have h4 : s.opened p = true := by
          have := hi.phase p
          unfold Phase at this
          rw [h3] at this
          simp at this
          exact this.2.1
        simp only [freshHandle, List.all_eq_true, List.mem_range] at hf
        have := hf p h2
        simp [h4, h1] at this
    rw [if_pos hno]
    have hd := hi.phase s.next
    have hl := hi.old s.next (Nat.le_refl _)
    unfold Phase at hd
    rw [hl] at hd
    simp only [Bool.false_eq_true, false_and, or_false, true_and] at hd
    obtain ⟨-, -, c1, c2, c3, c4, c5, c6, c7⟩ := hd
    refine ⟨?_, ?_, ?_, hi.few⟩
    · intro h' q e
      simp only [upd] at e ⊢
      by_cases e1 : h' = h
      · rw [if_pos e1] at e
        injection e with e
        subst e
        rw [if_pos rfl]
        exact ⟨e1.symm, Nat.lt_succ_self _⟩
      · rw [if_neg e1] at e
        obtain ⟨h1, h2⟩ := hi.tree h' q e
        rw [if_neg (by omega)]
        exact ⟨h1, by omega⟩
    · intro q hq
      have hq : s.next + 1 ≤ q := hq
      simp only [upd]
      rw [if_neg (by omega)]
      exact hi.old q (by omega)
    · intro q
      by_cases e : q = s.next
      · subst e
        right; left
        dsimp only
        simp only [upd_same, c1, c2, c3, c4, c5, c6, c7, inTree]
        simp
      · have h0 := hi.phase q
        have ht : ∀ s' : St, s'.tree = upd s.tree h (some s.next) → s'.hnd = upd s.hnd s.next h →
            inTree s' q = inTree s q := by
          intro s' e1 e3
          simp only [inTree, e1, e3, upd_ne _ _ e, decide_eq_decide]
          by_cases e2 : s.hnd q = h
          · rw [e2, upd_same, hno]
            simp [Ne.symm e]
          · rw [upd_ne _ _ e2]
        rw [ht _ rfl rfl]
        dsimp only
        rw [upd_ne _ _ e, upd_ne _ _ e, upd_ne _ _ e]
        exact h0
  · rw [if_neg hf]; exact hi

theorem enter_fine {s : St} (hi : Inv s) (i h : Nat) : Fine (.enter i h) (step s (.enter i h)) := by
  simp only [step]
  split
  · rename_i p ho ht
    have h3 := (inTree_iff hi).mpr ⟨h, ht⟩
    have hp := hi.phase p
    unfold Phase at hp
    rw [h3] at hp
    simp only [Bool.true_eq_false, false_and, and_false, or_false, false_or, true_and] at hp
    obtain ⟨hl, hop, hk, c⟩ := hp
    have hc := counts (n := .user p) ho p
    simp only [reduceCtorEq, if_false, if_true, Nat.add_zero] at hc
    have hlen := count_le hi (.user p)
    rw [if_pos hl]
    have hw : s.ts.count (.user p) + 1 < 0x10000000 := by
      have : (s.ts.set i (.user p)).count (.user p) ≤ s.ts.length := by
        have := List.count_le_length (a := Pc.user p) (l := s.ts.set i (.user p))
        simpa using this
      have := hi.few
      omega
    have hr : ref (s.lock p) = some (s.ts.count (.user p) + 1) := by
      simp only [ref]
      rw [hk, Nat.mod_eq_of_lt (by omega), if_pos (by omega)]
    rw [hr]
    refine move_inv hi (p := p) ho _ rfl rfl rfl (fun _ _ => rfl) (fun _ _ e => e)
      (fun _ _ => rfl) (live_lt hi) hl (fun _ _ => rfl)
      (fun q hq => upd_ne _ _ hq) (by simp) (by intro q hq; simp [Ne.symm hq]) ?_
    right; left
    simp only [upd_same]
    refine ⟨hl, ?_, hop, ?_⟩
    · exact h3
    · omega
  · exact hi

theorem leave_fine {s : St} (hi : Inv s) (i : Nat) : Fine (.leave i) (step s (.leave i)) := by
  simp only [step]
  split
  · rename_i p ho
    have hpos := count_pos ho
    have hlen := count_le hi (.user p)
    have hp := hi.phase p
    unfold Phase at hp
    have hl : s.live p = true := by
      rcases hp with hp | hp | hp | hp | hp | hp | hp
      · omega
      all_goals exact hp.1
    rw [if_pos hl]
    obtain ⟨k, hk⟩ : ∃ k, s.lock p = k := ⟨_, rfl⟩
    obtain ⟨u, hu⟩ : ∃ u, s.ts.count (.user p) = u := ⟨_, rfl⟩
    have hkb : k = u ∨ k = u + 1 ∨ k = 0x10000000 + u := by
      rw [hk, hu] at hp; omega
    have hr : unref (s.lock p) = some (k - 1, decide (k - 1 = 0x10000000)) := by
      simp only [unref, hk]
      have : (k + 0xffffffff) % 0x100000000 = k - 1 := by omega
      rw [this, if_pos (by omega)]
      rfl
    rw [hr]
    by_cases hw : k - 1 = 0x10000000
    · simp only [hw, decide_true, if_true]
      have hc := counts (n := .signal p) ho p
      simp only [reduceCtorEq, if_false, if_true, Nat.add_zero] at hc
      refine move_inv hi (p := p) ho _ rfl rfl rfl (fun _ _ => rfl) (fun _ _ e => e)
        (fun _ _ => rfl) (live_lt hi) hl (fun _ _ => rfl)
        (fun q hq => upd_ne _ _ hq) (by intro q hq; simp [Ne.symm hq])
        (by intro q hq; simp [Ne.symm hq]) ?_
      have hp' : s.live p = true ∧ inTree s p = false ∧ s.opened p = false ∧ u = 1 ∧
          s.ts.count (.signal p) = 0 ∧ s.ts.count (.closing p) = 0 ∧
          s.ts.count (.closed p) = 0 ∧ s.ts.count (.await p) = 1 ∧ s.ts.count (.poison p) = 0 ∧
          s.ts.count (.delete p) = 0 := by
        rw [hk, hu] at hp
        rcases hp with hp | hp | hp | hp | hp | hp | hp
        · omega
        · omega
        · omega
        · omega
        · exact ⟨hp.1, hp.2.1, hp.2.2.1, by omega, by omega, by omega, by omega, by omega,
            by omega, by omega⟩
        · omega
        · omega
      right; right; right; right; left
      refine ⟨hl, hp'.2.1, hp'.2.2.1, ?_⟩
      simp only [upd_same]
      omega
    · simp only [hw, decide_false, Bool.false_eq_true, if_false]
      have hc := counts (n := .idle) ho p
      simp only [reduceCtorEq, if_false, if_true, Nat.add_zero] at hc
      refine move_inv hi (p := p) ho _ rfl rfl rfl (fun _ _ => rfl) (fun _ _ e => e)
        (fun _ _ => rfl) (live_lt hi) hl (fun _ _ => rfl)
        (fun q hq => upd_ne _ _ hq) (by intro q hq; simp [Ne.symm hq])
        (by intro q hq; simp) ?_
      dsimp only
      rw [upd_same]
      rw [hk, hu] at hp
      unfold Phase
      have hti : ∀ b, inTree { s with lock := upd s.lock p (k - 1), ts := s.ts.set i .idle } p = b ↔
        inTree s p = b := fun _ => Iff.rfl
      rcases hp with hp | hp | hp | hp | hp | hp | hp
      · omega
      · refine .inr (.inl ⟨hp.1, (hti _).mpr hp.2.1, hp.2.2.1, ?_⟩); omega
      · refine .inr (.inr (.inl ⟨hp.1, (hti _).mpr hp.2.1, hp.2.2.1, ?_⟩)); omega
      · refine .inr (.inr (.inr (.inl ⟨hp.1, (hti _).mpr hp.2.1, hp.2.2.1, ?_⟩))); omega
      · refine .inr (.inr (.inr (.inr (.inl ⟨hp.1, (hti _).mpr hp.2.1, hp.2.2.1, ?_⟩)))); omega
      · omega
      · omega
  · exact hi

theorem meet_fine {s : St} (hi : Inv s) (i j : Nat) : Fine (.meet i j) (step s (.meet i j)) := by
  simp only [step]
  split
  · rename_i p q hoi hoj
    split
    · rename_i e
      subst e
      have hij : i ≠ j := by
        rintro rfl; rw [hoi] at hoj; simp at hoj
      have hoj' : (s.ts.set i .idle)[j]? = some (.await p) := by
        rw [List.getElem?_set_ne hij]; exact hoj
      have h1 := count_pos hoi
      have h2 := count_pos hoj
      have hp := hi.phase p
      unfold Phase at hp
      refine ⟨hi.tree, hi.old, ?_, by simpa using hi.few⟩
      intro q
      have c1 := counts (n := .idle) hoi q
      have c2 := counts (s := { s with ts := s.ts.set i .idle }) (n := .poison p) hoj' q
      by_cases e : q = p
      · subst e
        simp only [reduceCtorEq, if_false, if_true, Nat.add_zero] at c1 c2
        right; right; right; right; right; left
        show s.live q = true ∧ inTree s q = false ∧ s.opened q = false ∧ s.lock q = _ ∧ _
        refine ⟨?_, ?_, ?_, ?_⟩
        · rcases hp with hp | hp | hp | hp | hp | hp | hp
          · omega
          all_goals exact hp.1
        · rcases hp with hp | hp | hp | hp | hp | hp | hp
          · omega
          · omega
          all_goals exact hp.2.1
        · rcases hp with hp | hp | hp | hp | hp | hp | hp
          · omega
          · omega
          · omega
          all_goals exact hp.2.2.1
        · dsimp only
          omega
      · have h0 := hi.phase q
        simp only [reduceCtorEq, if_false, Nat.add_zero, Pc.signal.injEq, Pc.await.injEq,
          Pc.poison.injEq, Ne.symm e] at c1 c2
        obtain ⟨a1, a2, a3, a4, a5, a6, a7⟩ := c1
        obtain ⟨b1, b2, b3, b4, b5, b6, b7⟩ := c2
        dsimp only
        rw [b1, b2, b3, b4, b5, b6, b7, a1, a2, a3, a4, a5, a6, a7]
        exact h0
    · exact hi
  · exact hi

theorem close_fine {s : St} (hi : Inv s) (i h : Nat) : Fine (.close i h) (step s (.close i h)) := by
  simp only [step]
  split
  · rename_i p ho ht
    have h3 := (inTree_iff hi).mpr ⟨h, ht⟩
    have hh := (hi.tree h p ht).1
    have hp := hi.phase p
    unfold Phase at hp
    rw [h3] at hp
    simp only [Bool.true_eq_false, false_and, and_false, or_false, false_or, true_and] at hp
    obtain ⟨hl, hop, hk, c⟩ := hp
    have hc := counts (n := .closing p) ho p
    simp only [reduceCtorEq, if_false, if_true, Nat.add_zero] at hc
    rw [if_pos hl]
    have hw : s.ts.count (.user p) + 1 < 0x10000000 := by
      have h5 := count_set (.user p) (.user p) ho
      simp only [reduceCtorEq, if_false, if_true, Nat.add_zero] at h5
      have h6 := List.count_le_length (a := Pc.user p) (l := s.ts.set i (.user p))
      rw [List.length_set] at h6
      have := hi.few
      omega
    have hr : ref (s.lock p) = some (s.ts.count (.user p) + 1) := by
      simp only [ref]
      rw [hk, Nat.mod_eq_of_lt (by omega), if_pos (by omega)]
    rw [hr]
    refine move_inv hi (p := p) ho _ rfl rfl rfl ?_ ?_
      (fun _ _ => rfl) (live_lt hi) hl (fun _ _ => rfl)
      (fun q hq => upd_ne _ _ hq) (by simp) (by intro q hq; simp [Ne.symm hq]) ?_
    · intro q hq
      simp only [inTree, decide_eq_decide]
      by_cases e : s.hnd q = h
      · rw [e, upd_same, ht]; simp [Ne.symm hq]
      · rw [upd_ne _ _ e]
    · intro h' q e
      dsimp only at e
      by_cases e1 : h' = h
      · rw [e1, upd_same] at e; simp at e
      · rwa [upd_ne _ _ e1] at e
    · right; right; left
      simp only [upd_same]
      refine ⟨hl, ?_, hop, ?_⟩
      · simp only [inTree, hh, upd_same]; rfl
      · omega
  · exact hi

theorem closeIocp_fine {s : St} (hi : Inv s) (i : Nat) :
    Fine (.closeIocp i) (step s (.closeIocp i)) := by
  simp only [step]
  split
  · rename_i p ho
    have hpos := count_pos ho
    have hp := hi.phase p
    unfold Phase at hp
    have hp' : s.live p = true ∧ inTree s p = false ∧ s.opened p = true ∧
        s.lock p = s.ts.count (.user p) + 1 ∧
        s.ts.count (.signal p) = 0 ∧ s.ts.count (.closing p) = 1 ∧
        s.ts.count (.closed p) = 0 ∧ s.ts.count (.await p) = 0 ∧ s.ts.count (.poison p) = 0 ∧
        s.ts.count (.delete p) = 0 := by
      rcases hp with hp | hp | hp | hp | hp | hp | hp
      · omega
      · omega
      · exact hp
      all_goals omega
    obtain ⟨hl, htf, -, c⟩ := hp'
    rw [if_pos hl]
    have hc := counts (n := .closed p) ho p
    simp only [reduceCtorEq, if_false, if_true, Nat.add_zero] at hc
    refine move_inv hi (p := p) ho _ rfl rfl rfl (fun _ _ => rfl) (fun _ _ e => e)
      (fun _ _ => rfl) (live_lt hi) hl (fun q hq => upd_ne _ _ hq) (fun _ _ => rfl)
      (by intro q hq; simp [Ne.symm hq]) (by intro q hq; simp [Ne.symm hq]) ?_
    right; right; right; left
    simp only [upd_same]
    exact ⟨hl, htf, trivial, by omega⟩
  · exact hi

theorem destroy_fine {s : St} (hi : Inv s) (i : Nat) :
    Fine (.destroy i) (step s (.destroy i)) := by
  simp only [step]
  split
  · rename_i p ho
    have hpos := count_pos ho
    have hp := hi.phase p
    unfold Phase at hp
    have hp' : s.live p = true ∧ inTree s p = false ∧ s.opened p = false ∧
        s.lock p = s.ts.count (.user p) + 1 ∧
        s.ts.count (.signal p) = 0 ∧ s.ts.count (.closing p) = 0 ∧
        s.ts.count (.closed p) = 1 ∧ s.ts.count (.await p) = 0 ∧ s.ts.count (.poison p) = 0 ∧
        s.ts.count (.delete p) = 0 := by
      rcases hp with hp | hp | hp | hp | hp | hp | hp
      · omega
      · omega
      · omega
      · exact hp
      all_goals omega
    obtain ⟨hl, htf, hop, hk, c⟩ := hp'
    have hlen := count_le hi (.user p)
    rw [if_pos hl]
    obtain ⟨u, hu⟩ : ∃ u, s.ts.count (.user p) = u := ⟨_, rfl⟩
    rw [hu] at hk hlen
    have hr : unrefDestroy (s.lock p) = some (0x10000000 + u, decide (u ≠ 0)) := by
      simp only [unrefDestroy, hk, DESTROY]
      have : (u + 1 + (0x10000000 - 1)) % 0x100000000 = 0x10000000 + u := by omega
      rw [this, if_pos (by omega)]
      have : (0x10000000 + u) % 0x10000000 = u := by omega
      rw [this]
    rw [hr]
    by_cases hz : u = 0
    · have hd : decide (u ≠ 0) = false := by simp [hz]
      simp only [hd, Bool.false_eq_true, if_false]
      have hc := counts (n := .poison p) ho p
      simp only [reduceCtorEq, if_false, if_true, Nat.add_zero] at hc
      refine move_inv hi (p := p) ho _ rfl rfl rfl (fun _ _ => rfl) (fun _ _ e => e)
        (fun _ _ => rfl) (live_lt hi) hl (fun _ _ => rfl) (fun q hq => upd_ne _ _ hq)
        (by intro q hq; simp [Ne.symm hq]) (by intro q hq; simp [Ne.symm hq]) ?_
      right; right; right; right; right; left
      simp only [upd_same]
      exact ⟨hl, htf, hop, by omega⟩
    · have hd : decide (u ≠ 0) = true := by simp [hz]
      simp only [hd, if_true]
      have hc := counts (n := .await p) ho p
      simp only [reduceCtorEq, if_false, if_true, Nat.add_zero] at hc
      refine move_inv hi (p := p) ho _ rfl rfl rfl (fun _ _ => rfl) (fun _ _ e => e)
        (fun _ _ => rfl) (live_lt hi) hl (fun _ _ => rfl) (fun q hq => upd_ne _ _ hq)
        (by intro q hq; simp [Ne.symm hq]) (by intro q hq; simp [Ne.symm hq]) ?_
      right; right; right; right; left
      simp only [upd_same]
      exact ⟨hl, htf, hop, by omega⟩
  · exact hi

theorem poison_fine {s : St} (hi : Inv s) (i : Nat) :
    Fine (.poison i) (step s (.poison i)) := by
  simp only [step]
  split
  · rename_i p ho
    have hpos := count_pos ho
    have hp := hi.phase p
    unfold Phase at hp
    have hp' : s.live p = true ∧ inTree s p = false ∧ s.opened p = false ∧
        s.lock p = 0x10000000 ∧ s.ts.count (.user p) = 0 ∧
        s.ts.count (.signal p) = 0 ∧ s.ts.count (.closing p) = 0 ∧
        s.ts.count (.closed p) = 0 ∧ s.ts.count (.await p) = 0 ∧ s.ts.count (.poison p) = 1 ∧
        s.ts.count (.delete p) = 0 := by
      rcases hp with hp | hp | hp | hp | hp | hp | hp
      · omega
      · omega
      · omega
      · omega
      · omega
      · exact hp
      · omega
    obtain ⟨hl, htf, hop, hk, c⟩ := hp'
    rw [if_pos hl, if_pos (show s.lock p = DESTROY from hk)]
    have hc := counts (n := .delete p) ho p
    simp only [reduceCtorEq, if_false, if_true, Nat.add_zero] at hc
    refine move_inv hi (p := p) ho _ rfl rfl rfl (fun _ _ => rfl) (fun _ _ e => e)
      (fun _ _ => rfl) (live_lt hi) hl (fun _ _ => rfl) (fun q hq => upd_ne _ _ hq)
      (by intro q hq; simp [Ne.symm hq]) (by intro q hq; simp [Ne.symm hq]) ?_
    right; right; right; right; right; right
    dsimp only
    exact ⟨hl, htf, hop, by omega⟩
  · exact hi

theorem delete_fine {s : St} (hi : Inv s) (i : Nat) :
    Fine (.delete i) (step s (.delete i)) := by
  simp only [step]
  split
  · rename_i p ho
    have hpos := count_pos ho
    have hp := hi.phase p
    unfold Phase at hp
    have hp' : s.live p = true ∧ inTree s p = false ∧ s.opened p = false ∧
        s.ts.count (.user p) = 0 ∧
        s.ts.count (.signal p) = 0 ∧ s.ts.count (.closing p) = 0 ∧
        s.ts.count (.closed p) = 0 ∧ s.ts.count (.await p) = 0 ∧ s.ts.count (.poison p) = 0 ∧
        s.ts.count (.delete p) = 1 := by
      rcases hp with hp | hp | hp | hp | hp | hp | hp
      · omega
      · omega
      · omega
      · omega
      · omega
      · omega
      · exact hp
    obtain ⟨hl, htf, hop, c⟩ := hp'
    rw [if_pos hl]
    have hc := counts (n := .idle) ho p
    simp only [reduceCtorEq, if_false, if_true, Nat.add_zero] at hc
    refine move_inv hi (p := p) ho _ rfl rfl rfl (fun _ _ => rfl) (fun _ _ e => e)
      (fun q hq => upd_ne _ _ hq) (live_lt hi) hl (fun _ _ => rfl) (fun _ _ => rfl)
      (by intro q hq; simp [Ne.symm hq]) (by simp) ?_
    left
    simp only [upd_same]
    exact ⟨trivial, htf, hop, by omega⟩
  · exact hi

theorem user_live {s : St} (hi : Inv s) {i p : Nat} (ho : s.ts[i]? = some (.user p)) :
    s.live p = true := by
  have hpos := count_pos ho
  have hp := hi.phase p
  unfold Phase at hp
  rcases hp with hp | hp | hp | hp | hp | hp | hp
  · omega
  all_goals exact hp.1

theorem step_fine {s : St} (hi : Inv s) (a : Act) : Fine a (step s a) := by
  cases a with
  | create h => exact create_fine hi h
  | enter i h => exact enter_fine hi i h
  | use i =>
    simp only [step]
    split
    · rename_i p ho
      rw [if_pos (user_live hi ho)]; exact hi
    · exact hi
  | add i =>
    simp only [step]
    split
    · rename_i p ho
      rw [if_pos (user_live hi ho)]
      split
      · exact hi
      · exact ⟨rfl, i, rfl⟩
    · exact hi
  | leave i => exact leave_fine hi i
  | meet i j => exact meet_fine hi i j
  | close i h => exact close_fine hi i h
  | closeIocp i => exact closeIocp_fine hi i
  | destroy i => exact destroy_fine hi i
  | poison i => exact poison_fine hi i
  | delete i => exact delete_fine hi i

theorem run_fine {s : St} (hi : Inv s) (as : List Act) :
    (∃ s', run s as = .ok s' ∧ Inv s') ∨
      (run s as = .fault .iocp ∧ ∃ i, Act.add i ∈ as) := by
  induction as generalizing s with
  | nil => exact .inl ⟨s, rfl, hi⟩
  | cons a as ih =>
    have h := step_fine hi a
    simp only [run]
    cases e : step s a with
    | ok s' =>
      rw [e] at h
      rcases ih h with h1 | ⟨h1, i, h2⟩
      · exact .inl h1
      · exact .inr ⟨h1, i, List.mem_cons_of_mem _ h2⟩
    | fault f =>
      rw [e] at h
      obtain ⟨rfl, i, rfl⟩ := h
      exact .inr ⟨rfl, i, List.mem_cons_self⟩

end Verif.Wepoll.Handles
