import Mathlib.Data.List.Nodup

/-!
# Several threads free blocks of one span (`src/rpmalloc.c` 1310-1352, 2070-2104, 2326-2383), C140

One span from the time a heap starts using it until it is given back, at the granularity of the single accesses to what the
owner of the heap and other threads share: the list of blocks freed by others (with the value `INVALID_POINTER` as a lock), and its
length.  `Verif/Rp/Heap.lean` takes these operations as atomic; here they are interleaved arbitrarily (memory is sequentially
consistent).  Blocks are numbers below the number of blocks of the span; lists of blocks stand for their linked form, of which only
the holder writes the links.  The span is a partial one whenever it has free blocks (the lists of spans are in `Heap.lean`).
-/

namespace Verif.Rp.Deferred

/-- A thread that is not the owner and frees block `b`, `_rpmalloc_deallocate_defer_small_or_medium` (src/rpmalloc.c:2364-2383). -/
inductive Pc where
  /-- Exchanges the list for `INVALID_POINTER` until it gets it, 2370-2372. -/
  | d0 (b : Nat)
  /-- Has the list `l`, 2373. -/
  | d1 (b : Nat) (l : List Nat)
  /-- Has linked its block and incremented the length to `c`, 2374. -/
  | d2 (b : Nat) (l : List Nat) (c : Nat)
  /-- Has stored the list and found all blocks freed, 2375-2381. -/
  | d3
  /-- Is through. -/
  | fin
  deriving DecidableEq, Repr

/-- The owner. -/
inductive Own where
  /-- Is not occupied with the span. -/
  | idle
  /-- Is about to hand out block `x` and to look whether there is a deferred list, src/rpmalloc.c:2093. -/
  | chk (x : Nat)
  /-- Exchanges the list until it gets it, 1341-1343. -/
  | spin (x : Nat)
  /-- Has it, 1344. -/
  | e1 (x : Nat)
  /-- Has subtracted the length, 1345. -/
  | e2 (x : Nat)
  /-- Has cleared the length, 1346. -/
  | e3 (x : Nat)
  /-- Has put a block of its own back and compares the counters, 2338. -/
  | f0
  /-- Waits for the others to be through, 2344-2346. -/
  | f1
  /-- Has the list, 2347. -/
  | f2 (l : List Nat)
  /-- The span was given back: it may be used for other purposes or be unmapped. -/
  | gone
  deriving DecidableEq, Repr

/-- The span: the deferred list (`none`: `INVALID_POINTER`), `list_size`, `used_count`, `free_list_limit`, `free_list`, the blocks in
the list of the size class of the heap, the blocks which the program has, whether the span is in the deferred list of the heap,
the owner and the others. -/
structure St where
  word : Option (List Nat)
  size : Nat
  used : Nat
  limit : Nat
  fl : List Nat
  hl : List Nat
  live : List Nat
  pushed : Bool
  own : Own
  thr : List Pc
  deriving DecidableEq, Repr

/-- What happens: the owner hands out a block of the list of its heap; takes the blocks of the span (if there is none in its free list, `n`
further ones); goes on; frees block `b`; another thread begins to free block `b`; thread `i` goes on; the owner collects the span. -/
inductive Act where
  | pop
  | swap (n : Nat)
  | own
  | free (b : Nat)
  | defer (b : Nat)
  | thr (i : Nat)
  | collect
  deriving DecidableEq, Repr

/-- The outcome of an action: it cannot take place now, it accesses a span that was given back or makes a counter negative, or it leads
to a state. -/
inductive Out where
  | no
  | ub
  | ok (st : St)
  deriving DecidableEq, Repr

/-- The owner goes on, src/rpmalloc.c:1341-1346 and 2338-2351. -/
def ownStep (st : St) : Out :=
  match st.own with
  | .idle | .gone => .no
  | .chk x => if st.word = some [] then .ok { st with live := x :: st.live, own := .idle } else .ok { st with own := .spin x }
  | .spin x => match st.word with
    | none => .ok st
    | some l => .ok { st with fl := l, word := none, own := .e1 x }
  | .e1 x => if st.used < st.size then .ub else .ok { st with used := st.used - st.size, own := .e2 x }
  | .e2 x => .ok { st with size := 0, own := .e3 x }
  | .e3 x => .ok { st with word := some [], live := x :: st.live, own := .idle }
  | .f0 => if st.used = st.size then .ok { st with own := if st.used = 0 then .gone else .f1 } else .ok { st with own := .idle }
  | .f1 => match st.word with
    | none => .ok st
    | some l => .ok { st with word := none, own := .f2 l }
  | .f2 l => .ok { st with word := some l, own := .gone }

/-- Thread `i` goes on, src/rpmalloc.c:2370-2381; the push 2358-2360 is one step here and is taken apart in `Verif/Rp/Stack.lean`. -/
def thrStep (count : Nat) (st : St) (i : Nat) : Out :=
  match st.thr[i]? with
  | none | some .fin => .no
  | some p =>
    if st.own = .gone then .ub
    else
      match p with
      | .d0 b => match st.word with
        | none => .ok st
        | some l => .ok { st with word := none, thr := st.thr.set i (.d1 b l) }
      | .d1 b l => .ok { st with size := st.size + 1, thr := st.thr.set i (.d2 b l (st.size + 1)) }
      | .d2 b l c => .ok { st with word := some (b :: l), thr := st.thr.set i (if c = count then .d3 else .fin) }
      | .d3 => .ok { st with pushed := true, thr := st.thr.set i .fin }
      | .fin => .no

/-- One action on a span of `count` blocks. -/
def step (count : Nat) (st : St) : Act → Out
  | .pop =>
    -- `free_list_pop` of the class list, src/rpmalloc.c:2124, 2137
    if st.own = .idle then
      match st.hl with
      | [] => .no
      | x :: xs => .ok { st with hl := xs, live := x :: st.live }
    else .no
  | .swap n =>
    -- `_rpmalloc_allocate_from_heap_fallback`, src/rpmalloc.c:2077-2090
    if st.own = .idle ∧ st.hl = [] then
      match st.fl with
      | x :: xs => .ok { st with fl := [], hl := xs, used := st.limit, own := .chk x }
      | [] =>
        if 1 ≤ n ∧ st.limit + n ≤ count then
          .ok { st with hl := List.range' (st.limit + 1) (n - 1), limit := st.limit + n, used := st.limit + n, own := .chk st.limit }
        else .no
    else .no
  | .own => ownStep st
  | .free b =>
    -- `_rpmalloc_deallocate_direct_small_or_medium`, src/rpmalloc.c:2329-2337
    if st.own = .idle ∧ b ∈ st.live then
      let used := if st.fl = [] ∧ count ≤ st.limit then count else st.used
      if used = 0 then .ub
      else .ok { st with live := st.live.erase b, fl := b :: st.fl, used := used - 1, own := .f0 }
    else .no
  | .defer b => if b ∈ st.live then .ok { st with live := st.live.erase b, thr := st.thr ++ [.d0 b] } else .no
  | .thr i => thrStep count st i
  | .collect => if st.own = .idle ∧ st.pushed = true then .ok { st with own := .gone } else .no

/-- A new span with `n` blocks initialised, of which the first is handed out, src/rpmalloc.c:1310-1336. -/
def start (n : Nat) : St := ⟨some [], 0, n, n, [], List.range' 1 (n - 1), [0], false, .idle, []⟩

/-- All interleavings. -/
inductive Reach (count : Nat) : St → Prop where
  | start {n} : 1 ≤ n → n ≤ count → Reach count (start n)
  | step {st st' a} : Reach count st → step count st a = .ok st' → Reach count st'

/-! ## Numbers -/

/-- The sum of a number over the threads. -/
def tot (f : Pc → Nat) (l : List Pc) : Nat := (l.map f).sum

theorem tot_append (f : Pc → Nat) (l : List Pc) (p : Pc) : tot f (l ++ [p]) = tot f l + f p := by simp [tot]

theorem tot_set (f : Pc → Nat) : ∀ {l : List Pc} {i : Nat} {q : Pc} (p : Pc), l[i]? = some q →
    tot f (l.set i p) + f q = tot f l + f p
  | [], i, q, p, h => by simp at h
  | a :: l, 0, q, p, h => by
    simp only [List.getElem?_cons_zero, Option.some.injEq] at h
    subst h
    simp only [tot, List.set_cons_zero, List.map_cons, List.sum_cons]
    omega
  | a :: l, i + 1, q, p, h => by
    simp only [List.getElem?_cons_succ] at h
    have := tot_set f p h
    simp only [tot, List.set_cons_succ, List.map_cons, List.sum_cons] at this ⊢
    omega

theorem tot_ge {f : Pc → Nat} {l : List Pc} {p : Pc} (h : p ∈ l) : f p ≤ tot f l := by
  induction l with
  | nil => simp at h
  | cons a l ih =>
    simp only [tot, List.map_cons, List.sum_cons] at ih ⊢
    rcases List.mem_cons.1 h with rfl | h
    · omega
    · have := ih h
      omega

theorem tot_le {f g : Pc → Nat} (h : ∀ p, f p ≤ g p) (l : List Pc) : tot f l ≤ tot g l := by
  induction l with
  | nil => simp [tot]
  | cons a l ih =>
    simp only [tot, List.map_cons, List.sum_cons] at ih ⊢
    have := h a
    omega

def Pc.blk : Pc → List Nat
  | .d0 b | .d1 b _ | .d2 b _ _ => [b]
  | _ => []

def Pc.held : Pc → List Nat
  | .d1 _ l | .d2 _ l _ => l
  | _ => []

def Pc.blkN (p : Pc) : Nat := p.blk.length

def Pc.heldN (p : Pc) : Nat := p.held.length

def Pc.blkC (i : Nat) (p : Pc) : Nat := p.blk.count i

def Pc.heldC (i : Nat) (p : Pc) : Nat := p.held.count i

def Pc.isD2 : Pc → Nat
  | .d2 .. => 1
  | _ => 0

def Pc.isD3 : Pc → Nat
  | .d3 => 1
  | _ => 0

def Pc.holds : Pc → Nat
  | .d1 .. | .d2 .. => 1
  | _ => 0

def Own.hand : Own → List Nat
  | .chk x | .spin x | .e1 x | .e2 x | .e3 x => [x]
  | _ => []

def Own.held : Own → List Nat
  | .f2 l => l
  | _ => []

def Own.holds : Own → Nat
  | .e1 _ | .e2 _ | .e3 _ | .f2 _ => 1
  | _ => 0

/-- What `used_count` leaves out: the free list, but for the moment between taking the deferred list and subtracting its length. -/
def Own.usedOff : Own → Nat → Nat
  | .e1 _, _ => 0
  | _, n => n

/-- What `list_size` still includes after the owner has taken the list. -/
def Own.sizeOff : Own → Nat → Nat
  | .e1 _, n | .e2 _, n => n
  | _, _ => 0

def locked : Option (List Nat) → Nat
  | none => 1
  | some _ => 0

/-- The number of deferred blocks, counted for one block or all. -/
def St.wC (st : St) (i : Nat) : Nat :=
  (st.word.getD []).count i + st.own.held.count i + tot (Pc.heldC i) st.thr

def St.wN (st : St) : Nat := (st.word.getD []).length + st.own.held.length + tot Pc.heldN st.thr

def below (i n : Nat) : Nat := if i < n then 1 else 0

/-- What always holds. -/
structure Inv (count : Nat) (st : St) : Prop where
  cnt : ∀ i, st.hl.count i + st.fl.count i + st.live.count i + st.own.hand.count i + tot (Pc.blkC i) st.thr + st.wC i =
    below i st.limit
  len : st.hl.length + st.fl.length + st.live.length + st.own.hand.length + tot Pc.blkN st.thr + st.wN = st.limit
  lim : st.limit ≤ count
  pos : 1 ≤ st.limit
  used : st.used + st.own.usedOff st.fl.length = st.limit
  size : st.size = st.wN + tot Pc.isD2 st.thr + st.own.sizeOff st.fl.length
  hold : tot Pc.holds st.thr + st.own.holds = locked st.word
  d2c : ∀ b l c, Pc.d2 b l c ∈ st.thr → c = st.size
  own : match st.own with
    | .chk _ | .spin _ => st.fl = []
    | .f0 => st.fl ≠ []
    | .f1 | .f2 _ => st.fl ≠ [] ∧ st.hl = [] ∧ st.live = [] ∧ tot Pc.blkN st.thr = tot Pc.isD2 st.thr
    | .gone => tot Pc.blkN st.thr = 0 ∧ tot Pc.isD3 st.thr = 0 ∧ st.hl = [] ∧ st.live = []
    | _ => True
  d3 : (st.wN = count → tot Pc.isD3 st.thr + st.pushed.toNat = 1) ∧ (st.wN ≠ count → tot Pc.isD3 st.thr + st.pushed.toNat = 0)

theorem start_inv {count n : Nat} (h1 : 1 ≤ n) (h2 : n ≤ count) : Inv count (start n) := by
  refine ⟨fun i => ?_, ?_, h2, h1, ?_, ?_, ?_, ?_, ?_, ?_⟩
  · have : (List.range' 1 (n - 1)).count i = if 1 ≤ i ∧ i < n then 1 else 0 := by
      have hn : (List.range' 1 (n - 1)).Nodup := List.nodup_range' (step := 1)
      rw [hn.count]
      have hm : i ∈ List.range' 1 (n - 1) ↔ 1 ≤ i ∧ i < n := by
        rw [List.mem_range'_1]; omega
      simp only [hm]
    have hb : (start n).hl.count i + (start n).live.count i = below i (start n).limit := by
      show (List.range' 1 (n - 1)).count i + [0].count i = below i n
      rw [this, List.count_singleton]
      unfold below
      rcases Nat.lt_or_ge i n with a | a
      · rw [if_pos a]
        rcases Nat.eq_zero_or_pos i with rfl | b
        · rfl
        · rw [if_pos ⟨b, a⟩, if_neg (by simp; omega)]
      · rw [if_neg (by omega), if_neg (by simp; omega), if_neg (by omega)]
    rw [← hb]
    simp [start, Own.hand, tot, St.wC, Own.held]
  · simp only [start, List.length_range', List.length_nil, List.length_singleton, Own.hand, tot, St.wN, Own.held, List.map_nil,
      List.sum_nil, Option.getD_some]
    omega
  · simp [start, Own.usedOff]
  · simp [start, St.wN, tot, Own.held, Own.sizeOff]
  · simp [start, tot, Own.holds, locked]
  · simp [start]
  · simp [start]
  · have : (start n).wN = 0 := by simp [start, St.wN, tot, Own.held]
    rw [this]
    refine ⟨fun h => by omega, fun _ => ?_⟩
    simp [start, tot]

theorem blk_ge_d2 (p : Pc) : p.isD2 ≤ p.blkN := by cases p <;> simp [Pc.isD2, Pc.blkN, Pc.blk]

theorem holds_ge_d2 (p : Pc) : p.isD2 ≤ p.holds := by cases p <;> simp [Pc.isD2, Pc.holds]

theorem blk_ge_holds (p : Pc) : p.holds ≤ p.blkN := by cases p <;> simp [Pc.holds, Pc.blkN, Pc.blk]

theorem tot_zero {f : Pc → Nat} {l : List Pc} (h : tot f l = 0) : ∀ p ∈ l, f p = 0 := by
  intro p hp
  have := tot_ge (f := f) hp
  omega

/-- If nobody holds the list, nobody has a part of it. -/
theorem held_of_holds {l : List Pc} (h : tot Pc.holds l = 0) :
    tot Pc.heldN l = 0 ∧ ∀ i, tot (Pc.heldC i) l = 0 := by
  induction l with
  | nil => simp [tot]
  | cons a l ih =>
    simp only [tot, List.map_cons, List.sum_cons] at h ih ⊢
    obtain ⟨h1, h2⟩ := ih (by omega)
    have ha : a.held = [] := by
      cases a <;> simp [Pc.holds] at h <;> rfl
    refine ⟨by rw [h1, Pc.heldN, ha]; rfl, fun i => by rw [h2 i, Pc.heldC, ha]; rfl⟩

theorem count_erase_mem {l : List Nat} {b : Nat} (hb : b ∈ l) (i : Nat) :
    (l.erase b).count i + [b].count i = l.count i := by
  have := (List.perm_cons_erase hb).count_eq i
  rw [List.count_cons] at this
  rw [List.count_singleton]
  omega

theorem length_erase_mem {l : List Nat} {b : Nat} (hb : b ∈ l) : (l.erase b).length + 1 = l.length := by
  have := (List.perm_cons_erase hb).length_eq
  rw [List.length_cons] at this
  omega

theorem count_cons' (x : Nat) (l : List Nat) (i : Nat) : (x :: l).count i = l.count i + [x].count i := by
  rw [List.count_cons, List.count_singleton]

/-! ## Each action keeps the invariant -/

theorem ownStep_inv {count : Nat} {st : St} (I : Inv count st) : ownStep st ≠ .ub ∧ ∀ st', ownStep st = .ok st' → Inv count st' := by
  obtain ⟨word, size, used, limit, fl, hl, live, pushed, own, thr⟩ := st
  obtain ⟨hcnt, hlen, hlim, hpos, hused, hsize, hhold, hd2c, hown, hd3⟩ := I
  simp only [St.wC, St.wN] at *
  have hbd := tot_le blk_ge_d2 thr
  have hhd := tot_le holds_ge_d2 thr
  have hbh := tot_le blk_ge_holds thr
  cases own with
  | idle => exact ⟨by simp [ownStep], by simp [ownStep]⟩
  | gone => exact ⟨by simp [ownStep], by simp [ownStep]⟩
  | chk x =>
    simp only [Own.hand, Own.held, Own.holds, Own.usedOff, Own.sizeOff, List.length_singleton, List.length_nil, List.count_nil] at *
    subst hown
    simp only [ownStep]
    by_cases hw : word = some []
    · rw [if_pos hw]
      refine ⟨by simp, fun st' h => ?_⟩
      simp only [Out.ok.injEq] at h
      subst h
      refine ⟨fun i => ?_, ?_, hlim, hpos, hused, hsize, hhold, hd2c, ?_, hd3⟩
      · have := hcnt i
        simp only [St.wC, Own.hand, Own.held, count_cons' x live i, List.count_nil] at this ⊢
        omega
      · simp only [St.wN, Own.hand, Own.held, List.length_cons, List.length_nil] at hlen ⊢
        omega
      · trivial
    · rw [if_neg hw]
      refine ⟨by simp, fun st' h => ?_⟩
      simp only [Out.ok.injEq] at h
      subst h
      exact ⟨hcnt, hlen, hlim, hpos, hused, hsize, hhold, hd2c, rfl, hd3⟩
  | spin x =>
    simp only [Own.hand, Own.held, Own.holds, Own.usedOff, Own.sizeOff, List.length_singleton, List.length_nil, List.count_nil] at *
    subst hown
    simp only [ownStep]
    cases word with
    | none =>
      refine ⟨by simp, fun st' h => ?_⟩
      simp only [Out.ok.injEq] at h
      subst h
      exact ⟨hcnt, hlen, hlim, hpos, hused, hsize, hhold, hd2c, rfl, hd3⟩
    | some l =>
      simp only [Option.getD_some, locked] at *
      refine ⟨by simp, fun st' h => ?_⟩
      simp only [Out.ok.injEq] at h
      subst h
      have hh0 : tot Pc.holds thr = 0 := by omega
      obtain ⟨g1, g2⟩ := held_of_holds hh0
      refine ⟨fun i => ?_, ?_, hlim, hpos, ?_, ?_, ?_, hd2c, trivial, ?_⟩
      · have := hcnt i
        simp only [St.wC, Own.hand, Own.held, List.count_nil, g2 i, Option.getD_none] at this ⊢
        omega
      · simp only [St.wN, Own.hand, Own.held, List.length_nil, List.length_singleton, g1, Option.getD_none] at hlen ⊢
        omega
      · simpa [Own.usedOff] using hused
      · simp only [St.wN, Own.held, Own.sizeOff, List.length_nil, g1, Option.getD_none] at hsize ⊢
        omega
      · simp only [Own.holds, locked]
        omega
      · have hz : (St.wN ⟨none, size, used, limit, l, hl, live, pushed, .e1 x, thr⟩) = 0 := by
          simp [St.wN, Own.held, g1]
        rw [hz]
        exact ⟨fun h => by omega, fun _ => hd3.2 (by omega)⟩
  | e1 x =>
    simp only [Own.hand, Own.held, Own.holds, Own.usedOff, Own.sizeOff, List.length_singleton, List.length_nil, List.count_nil] at *
    simp only [ownStep]
    have hword : word = none := by
      cases word with
      | none => rfl
      | some l => simp only [locked] at hhold; omega
    subst hword
    have hh0 : tot Pc.holds thr = 0 := by simp only [locked] at hhold; omega
    rw [if_neg (by omega)]
    refine ⟨by simp, fun st' h => ?_⟩
    simp only [Out.ok.injEq] at h
    subst h
    obtain ⟨g1, g2⟩ := held_of_holds hh0
    simp only [g1, Option.getD_none, List.length_nil] at hsize hlen
    refine ⟨hcnt, by simpa [St.wN, Own.hand, Own.held, g1] using hlen, hlim, hpos, ?_, ?_, hhold, hd2c, trivial, hd3⟩
    · show used - size + fl.length = limit
      omega
    · simp only [St.wN, Own.held, Own.sizeOff, List.length_nil, g1, Option.getD_none]
      omega
  | e2 x =>
    simp only [Own.hand, Own.held, Own.holds, Own.usedOff, Own.sizeOff, List.length_singleton, List.length_nil, List.count_nil] at *
    simp only [ownStep]
    have hword : word = none := by
      cases word with
      | none => rfl
      | some l => simp only [locked] at hhold; omega
    subst hword
    have hh0 : tot Pc.holds thr = 0 := by simp only [locked] at hhold; omega
    obtain ⟨g1, g2⟩ := held_of_holds hh0
    refine ⟨by simp, fun st' h => ?_⟩
    simp only [Out.ok.injEq] at h
    subst h
    refine ⟨hcnt, hlen, hlim, hpos, hused, ?_, hhold, fun b l c hm => ?_, trivial, hd3⟩
    · simp only [St.wN, Own.held, Own.sizeOff, List.length_nil, g1, Option.getD_none]
      omega
    · have := tot_ge (f := Pc.isD2) hm
      simp only [Pc.isD2] at this
      omega
  | e3 x =>
    simp only [Own.hand, Own.held, Own.holds, Own.usedOff, Own.sizeOff, List.length_singleton, List.length_nil, List.count_nil] at *
    simp only [ownStep]
    have hword : word = none := by
      cases word with
      | none => rfl
      | some l => simp only [locked] at hhold; omega
    subst hword
    have hh0 : tot Pc.holds thr = 0 := by simp only [locked] at hhold; omega
    refine ⟨by simp, fun st' h => ?_⟩
    simp only [Out.ok.injEq] at h
    subst h
    refine ⟨fun i => ?_, ?_, hlim, hpos, hused, hsize, ?_, hd2c, trivial, hd3⟩
    · have := hcnt i
      simp only [St.wC, Own.hand, Own.held, count_cons' x live i, List.count_nil, Option.getD_none, Option.getD_some] at this ⊢
      omega
    · simp only [St.wN, Own.hand, Own.held, List.length_cons, List.length_nil, Option.getD_none, Option.getD_some] at hlen ⊢
      omega
    · simpa [Own.holds, locked] using hh0
  | f0 =>
    simp only [Own.hand, Own.held, Own.holds, Own.usedOff, Own.sizeOff, List.length_nil, List.count_nil] at *
    simp only [ownStep]
    have hfl : 1 ≤ fl.length := List.length_pos_iff.2 hown
    by_cases hus : used = size
    · rw [if_pos hus]
      refine ⟨by simp, fun st' h => ?_⟩
      simp only [Out.ok.injEq] at h
      subst h
      have hb : tot Pc.blkN thr = tot Pc.isD2 thr := by omega
      have hhl : hl = [] := List.length_eq_zero_iff.1 (by omega)
      have hlv : live = [] := List.length_eq_zero_iff.1 (by omega)
      by_cases h0 : used = 0
      · rw [if_pos h0]
        refine ⟨hcnt, hlen, hlim, hpos, hused, hsize, hhold, hd2c, ⟨?_, ?_, hhl, hlv⟩, hd3⟩
        · show tot Pc.blkN thr = 0
          omega
        · have := hd3.2 (by omega)
          show tot Pc.isD3 thr = 0
          omega
      · rw [if_neg h0]
        exact ⟨hcnt, hlen, hlim, hpos, hused, hsize, hhold, hd2c, ⟨hown, hhl, hlv, hb⟩, hd3⟩
    · rw [if_neg hus]
      refine ⟨by simp, fun st' h => ?_⟩
      simp only [Out.ok.injEq] at h
      subst h
      exact ⟨hcnt, hlen, hlim, hpos, hused, hsize, hhold, hd2c, trivial, hd3⟩
  | f1 =>
    simp only [Own.hand, Own.held, Own.holds, Own.usedOff, Own.sizeOff, List.length_nil, List.count_nil] at *
    simp only [ownStep]
    cases word with
    | none =>
      refine ⟨by simp, fun st' h => ?_⟩
      simp only [Out.ok.injEq] at h
      subst h
      exact ⟨hcnt, hlen, hlim, hpos, hused, hsize, hhold, hd2c, hown, hd3⟩
    | some l =>
      simp only [Option.getD_some, locked] at *
      refine ⟨by simp, fun st' h => ?_⟩
      simp only [Out.ok.injEq] at h
      subst h
      have hh0 : tot Pc.holds thr = 0 := by omega
      have hN : (St.wN ⟨none, size, used, limit, fl, hl, live, pushed, .f2 l, thr⟩) =
          l.length + 0 + tot Pc.heldN thr := by
        simp [St.wN, Own.held]
      refine ⟨fun i => ?_, ?_, hlim, hpos, hused, ?_, ?_, hd2c, hown, ?_⟩
      · have := hcnt i
        simp only [St.wC, Own.hand, Own.held, List.count_nil, Option.getD_none] at this ⊢
        omega
      · rw [hN]
        simp only [Own.hand, List.length_nil]
        omega
      · rw [hN]
        exact hsize
      · simp only [Own.holds, locked]
        omega
      · rw [hN]
        exact hd3
  | f2 l =>
    simp only [Own.hand, Own.held, Own.holds, Own.usedOff, Own.sizeOff, List.length_nil, List.count_nil] at *
    simp only [ownStep]
    have hword : word = none := by
      cases word with
      | none => rfl
      | some l => simp only [locked] at hhold; omega
    subst hword
    have hh0 : tot Pc.holds thr = 0 := by simp only [locked] at hhold; omega
    obtain ⟨o1, o2, o3, o4⟩ := hown
    have hfl : 1 ≤ fl.length := List.length_pos_iff.2 o1
    simp only [Option.getD_none, List.length_nil, List.count_nil] at *
    refine ⟨by simp, fun st' h => ?_⟩
    simp only [Out.ok.injEq] at h
    subst h
    have hN : (St.wN ⟨some l, size, used, limit, fl, hl, live, pushed, .gone, thr⟩) =
        0 + l.length + tot Pc.heldN thr := by
      simp [St.wN, Own.held]
    refine ⟨fun i => ?_, ?_, hlim, hpos, hused, ?_, ?_, hd2c, ⟨?_, ?_, o2, o3⟩, ?_⟩
    · have := hcnt i
      simp only [St.wC, Own.hand, Own.held, List.count_nil, Option.getD_some] at this ⊢
      omega
    · rw [hN]
      simp only [Own.hand, List.length_nil]
      omega
    · rw [hN]
      exact hsize
    · simp only [Own.holds, locked]
      omega
    · show tot Pc.blkN thr = 0
      omega
    · have := hd3.2 (by omega)
      show tot Pc.isD3 thr = 0
      omega
    · rw [hN]
      exact hd3

theorem thrStep_inv {count : Nat} {st : St} (I : Inv count st) (i : Nat) :
    thrStep count st i ≠ .ub ∧ ∀ st', thrStep count st i = .ok st' → Inv count st' := by
  obtain ⟨word, size, used, limit, fl, hl, live, pushed, own, thr⟩ := st
  obtain ⟨hcnt, hlen, hlim, hpos, hused, hsize, hhold, hd2c, hown, hd3⟩ := I
  have hbd := tot_le blk_ge_d2 thr
  have hhd := tot_le holds_ge_d2 thr
  have hbh := tot_le blk_ge_holds thr
  simp only [thrStep]
  cases hp : thr[i]? with
  | none => exact ⟨by simp, by simp⟩
  | some p =>
    have hmem : p ∈ thr := List.mem_of_getElem? hp
    have hngone : p ≠ .fin → own ≠ .gone := by
      rintro h1 rfl
      obtain ⟨o1, o2, _, _⟩ := hown
      have q1 := tot_zero o1 p hmem
      have q2 := tot_zero o2 p hmem
      cases p <;> simp [Pc.blkN, Pc.blk, Pc.isD3] at q1 q2 h1
    cases p with
    | fin => exact ⟨by simp, by simp⟩
    | d0 b =>
      have hg := hngone (by simp)
      simp only [if_neg hg]
      cases word with
      | none =>
        refine ⟨by simp, fun st' h => ?_⟩
        simp only [Out.ok.injEq] at h
        subst h
        exact ⟨hcnt, hlen, hlim, hpos, hused, hsize, hhold, hd2c, hown, hd3⟩
      | some l =>
        refine ⟨by simp, fun st' h => ?_⟩
        simp only [Out.ok.injEq] at h
        subst h
        have s1 := tot_set Pc.blkN (.d1 b l) hp
        have s2 := tot_set Pc.heldN (.d1 b l) hp
        have s3 := tot_set Pc.isD2 (.d1 b l) hp
        have s4 := tot_set Pc.isD3 (.d1 b l) hp
        have s5 := tot_set Pc.holds (.d1 b l) hp
        simp only [Pc.blkN, Pc.heldN, Pc.blk, Pc.held, Pc.isD2, Pc.isD3, Pc.holds, List.length_nil, List.length_singleton] at s1 s2 s3 s4 s5
        have hN : (St.wN ⟨none, size, used, limit, fl, hl, live, pushed, own, thr.set i (.d1 b l)⟩) =
            (St.wN ⟨some l, size, used, limit, fl, hl, live, pushed, own, thr⟩) := by
          simp only [St.wN, Option.getD_none, Option.getD_some, List.length_nil]
          omega
        have hD2 : tot Pc.isD2 (thr.set i (.d1 b l)) = tot Pc.isD2 thr := by omega
        have hB : tot Pc.blkN (thr.set i (.d1 b l)) = tot Pc.blkN thr := by omega
        have hD3 : tot Pc.isD3 (thr.set i (.d1 b l)) = tot Pc.isD3 thr := by omega
        refine ⟨fun j => ?_, ?_, hlim, hpos, hused, ?_, ?_, fun b' l' c' hm => ?_, ?_, ?_⟩
        · have t1 := tot_set (Pc.blkC j) (.d1 b l) hp
          have t2 := tot_set (Pc.heldC j) (.d1 b l) hp
          have := hcnt j
          simp only [Pc.blkC, Pc.heldC, Pc.blk, Pc.held, List.count_nil] at t1 t2
          simp only [St.wC, Option.getD_none, Option.getD_some, List.count_nil] at this ⊢
          omega
        · rw [hN, hB]
          exact hlen
        · rw [hN, hD2]
          exact hsize
        · simp only [locked] at hhold ⊢
          omega
        · rcases List.mem_or_eq_of_mem_set hm with q | q
          · exact hd2c b' l' c' q
          · simp at q
        · cases own <;> dsimp only at hown ⊢ <;> first | exact hown | (rw [hB, hD2]; exact hown) | (rw [hB, hD3]; exact hown)
        · rw [hN, hD3]
          exact hd3
    | d1 b l =>
      have hg := hngone (by simp)
      simp only [if_neg hg]
      refine ⟨by simp, fun st' h => ?_⟩
      simp only [Out.ok.injEq] at h
      subst h
      have s1 := tot_set Pc.blkN (.d2 b l (size + 1)) hp
      have s2 := tot_set Pc.heldN (.d2 b l (size + 1)) hp
      have s3 := tot_set Pc.isD2 (.d2 b l (size + 1)) hp
      have s4 := tot_set Pc.isD3 (.d2 b l (size + 1)) hp
      have s5 := tot_set Pc.holds (.d2 b l (size + 1)) hp
      simp only [Pc.blkN, Pc.heldN, Pc.blk, Pc.held, Pc.isD2, Pc.isD3, Pc.holds, List.length_singleton] at s1 s2 s3 s4 s5
      have h1 := tot_ge (f := Pc.holds) hmem
      simp only [Pc.holds] at h1
      have hoh : own.holds = 0 ∧ tot Pc.holds thr = 1 ∧ word = none := by
        cases word with
        | none => simp only [locked] at hhold; refine ⟨by omega, by omega, rfl⟩
        | some l => simp only [locked] at hhold; omega
      obtain ⟨hoh, hth, hw⟩ := hoh
      subst hw
      -- nobody else holds the list
      have hd2z : tot Pc.isD2 thr = 0 := by
        have hlt : tot Pc.isD2 (thr.set i .fin) ≤ tot Pc.holds (thr.set i .fin) := tot_le holds_ge_d2 _
        have u1 := tot_set Pc.isD2 .fin hp
        have u2 := tot_set Pc.holds .fin hp
        simp only [Pc.isD2, Pc.holds] at u1 u2
        omega
      have hB : tot Pc.blkN (thr.set i (.d2 b l (size + 1))) = tot Pc.blkN thr := by omega
      have hD3 : tot Pc.isD3 (thr.set i (.d2 b l (size + 1))) = tot Pc.isD3 thr := by omega
      have hN : (St.wN ⟨none, size + 1, used, limit, fl, hl, live, pushed, own, thr.set i (.d2 b l (size + 1))⟩) =
          (St.wN ⟨none, size, used, limit, fl, hl, live, pushed, own, thr⟩) := by
        simp only [St.wN]
        omega
      have hb1 := tot_ge (f := Pc.blkN) hmem
      simp only [Pc.blkN, Pc.blk, List.length_singleton] at hb1
      refine ⟨fun j => ?_, ?_, hlim, hpos, hused, ?_, ?_, fun b' l' c' hm => ?_, ?_, ?_⟩
      · have t1 := tot_set (Pc.blkC j) (.d2 b l (size + 1)) hp
        have t2 := tot_set (Pc.heldC j) (.d2 b l (size + 1)) hp
        have := hcnt j
        simp only [Pc.blkC, Pc.heldC, Pc.blk, Pc.held] at t1 t2
        simp only [St.wC] at this ⊢
        omega
      · rw [hN, hB]
        exact hlen
      · rw [hN]
        dsimp only at hsize ⊢
        omega
      · simp only [locked] at hhold ⊢
        omega
      · rcases List.mem_or_eq_of_mem_set hm with q | q
        · have := tot_zero hd2z _ q
          simp [Pc.isD2] at this
        · simp only [Pc.d2.injEq] at q
          exact q.2.2
      · cases own with
        | f1 =>
          dsimp only at hown ⊢
          obtain ⟨o1, o2, o3, o4⟩ := hown
          omega
        | f2 l' => simp [Own.holds] at hoh
        | gone => exact absurd rfl hg
        | chk x => exact hown
        | spin x => exact hown
        | f0 => exact hown
        | idle => trivial
        | e1 x => trivial
        | e2 x => trivial
        | e3 x => trivial
      · rw [hN, hD3]
        exact hd3
    | d2 b l c =>
      have hg := hngone (by simp)
      simp only [if_neg hg]
      refine ⟨by simp, fun st' h => ?_⟩
      simp only [Out.ok.injEq] at h
      subst h
      have hc : c = size := hd2c b l c hmem
      obtain ⟨q, hq⟩ : ∃ q, (if c = count then Pc.d3 else Pc.fin) = q := ⟨_, rfl⟩
      rw [hq]
      have hq0 : q.blk = [] ∧ q.held = [] ∧ q.isD2 = 0 ∧ q.holds = 0 ∧ q.isD3 = (if c = count then 1 else 0) ∧
          ∀ b' l' c', q ≠ .d2 b' l' c' := by
        rw [← hq]
        split <;> simp [Pc.blk, Pc.held, Pc.isD2, Pc.holds, Pc.isD3]
      obtain ⟨q1, q2, q3, q4, q5, q6⟩ := hq0
      have s1 := tot_set Pc.blkN q hp
      have s2 := tot_set Pc.heldN q hp
      have s3 := tot_set Pc.isD2 q hp
      have s4 := tot_set Pc.isD3 q hp
      have s5 := tot_set Pc.holds q hp
      simp only [Pc.blkN, Pc.heldN, q1, q2, q3, q4, q5, List.length_nil] at s1 s2 s3 s4 s5
      simp only [Pc.blk, Pc.held, Pc.isD2, Pc.isD3, Pc.holds, List.length_singleton] at s1 s2 s3 s4 s5
      have h1 := tot_ge (f := Pc.holds) hmem
      have h2 := tot_ge (f := Pc.isD2) hmem
      have h3 := tot_ge (f := Pc.blkN) hmem
      simp only [Pc.holds, Pc.isD2, Pc.blkN, Pc.blk, List.length_singleton] at h1 h2 h3
      have hoh : own.holds = 0 ∧ tot Pc.holds thr = 1 ∧ word = none := by
        cases word with
        | none => simp only [locked] at hhold; refine ⟨by omega, by omega, rfl⟩
        | some l => simp only [locked] at hhold; omega
      obtain ⟨hoh, hth, hw⟩ := hoh
      subst hw
      have hoheld : own.held = [] := by cases own <;> simp [Own.holds] at hoh <;> rfl
      have hheld : tot Pc.heldN (thr.set i q) = 0 :=
        (held_of_holds (l := thr.set i q) (by omega)).1
      have hE : own.sizeOff fl.length = 0 := by
        cases own <;> simp [Own.holds] at hoh <;> rfl
      have hN0 : (St.wN ⟨none, size, used, limit, fl, hl, live, pushed, own, thr⟩) = l.length := by
        simp only [St.wN, hoheld, Option.getD_none, List.length_nil]
        omega
      have hN : (St.wN ⟨some (b :: l), size, used, limit, fl, hl, live, pushed, own, thr.set i q⟩) = l.length + 1 := by
        simp only [St.wN, hoheld, Option.getD_some, List.length_nil, List.length_cons]
        omega
      rw [hN0] at hlen hsize hd3
      dsimp only at hlen hsize hd3
      rw [hE] at hsize
      have hsz : size = l.length + 1 := by omega
      refine ⟨fun j => ?_, ?_, hlim, hpos, hused, ?_, ?_, fun b' l' c' hm => ?_, ?_, ?_⟩
      · have t1 := tot_set (Pc.blkC j) q hp
        have t2 := tot_set (Pc.heldC j) q hp
        have := hcnt j
        simp only [Pc.blkC, Pc.heldC, q1, q2, List.count_nil] at t1 t2
        simp only [Pc.blk, Pc.held] at t1 t2
        simp only [St.wC, hoheld, Option.getD_none, Option.getD_some, List.count_nil, count_cons' b l j] at this ⊢
        omega
      · rw [hN]
        dsimp only
        omega
      · rw [hN]
        dsimp only
        rw [hE]
        omega
      · simp only [locked] at hhold ⊢
        omega
      · rcases List.mem_or_eq_of_mem_set hm with r | r
        · exact hd2c b' l' c' r
        · exact absurd r.symm (q6 b' l' c')
      · cases own with
        | f1 =>
          dsimp only at hown ⊢
          obtain ⟨o1, o2, o3, o4⟩ := hown
          exact ⟨o1, o2, o3, by omega⟩
        | f2 l' => simp [Own.holds] at hoh
        | gone => exact absurd rfl hg
        | chk x => exact hown
        | spin x => exact hown
        | f0 => exact hown
        | idle => trivial
        | e1 x => trivial
        | e2 x => trivial
        | e3 x => trivial
      · rw [hN]
        dsimp only
        have hz := hd3.2 (by dsimp only at hlim; omega)
        by_cases hcc : c = count
        · rw [if_pos hcc] at s4
          exact ⟨fun _ => by omega, fun h => absurd (by omega) h⟩
        · rw [if_neg hcc] at s4
          exact ⟨fun h => by omega, fun _ => by omega⟩
    | d3 =>
      have hg := hngone (by simp)
      simp only [if_neg hg]
      refine ⟨by simp, fun st' h => ?_⟩
      simp only [Out.ok.injEq] at h
      subst h
      have s1 := tot_set Pc.blkN .fin hp
      have s2 := tot_set Pc.heldN .fin hp
      have s3 := tot_set Pc.isD2 .fin hp
      have s4 := tot_set Pc.isD3 .fin hp
      have s5 := tot_set Pc.holds .fin hp
      simp only [Pc.blkN, Pc.heldN, Pc.blk, Pc.held, Pc.isD2, Pc.isD3, Pc.holds, List.length_nil] at s1 s2 s3 s4 s5
      have hB : tot Pc.blkN (thr.set i .fin) = tot Pc.blkN thr := by omega
      have hD2 : tot Pc.isD2 (thr.set i .fin) = tot Pc.isD2 thr := by omega
      have hN : (St.wN ⟨word, size, used, limit, fl, hl, live, true, own, thr.set i .fin⟩) =
          (St.wN ⟨word, size, used, limit, fl, hl, live, pushed, own, thr⟩) := by
        simp only [St.wN]
        omega
      refine ⟨fun j => ?_, ?_, hlim, hpos, hused, ?_, ?_, fun b' l' c' hm => ?_, ?_, ?_⟩
      · have t1 := tot_set (Pc.blkC j) .fin hp
        have t2 := tot_set (Pc.heldC j) .fin hp
        have := hcnt j
        simp only [Pc.blkC, Pc.heldC, Pc.blk, Pc.held, List.count_nil] at t1 t2
        simp only [St.wC] at this ⊢
        omega
      · rw [hN, hB]
        exact hlen
      · rw [hN, hD2]
        exact hsize
      · simp only [locked] at hhold ⊢
        rw [← hhold]
        omega
      · rcases List.mem_or_eq_of_mem_set hm with r | r
        · exact hd2c b' l' c' r
        · simp at r
      · cases own with
        | gone => exact absurd rfl hg
        | f1 => dsimp only at hown ⊢; rw [hB, hD2]; exact hown
        | f2 l' => dsimp only at hown ⊢; rw [hB, hD2]; exact hown
        | chk x => exact hown
        | spin x => exact hown
        | f0 => exact hown
        | idle => trivial
        | e1 x => trivial
        | e2 x => trivial
        | e3 x => trivial
      · rw [hN]
        dsimp only at hd3 ⊢
        have h1 := tot_ge (f := Pc.isD3) hmem
        simp only [Pc.isD3] at h1
        rw [Bool.toNat_true]
        by_cases hw : St.wN ⟨word, size, used, limit, fl, hl, live, pushed, own, thr⟩ = count
        · have := hd3.1 hw
          exact ⟨fun _ => by omega, fun h => absurd hw h⟩
        · have := hd3.2 hw
          omega

theorem step_inv {count : Nat} {st : St} (I : Inv count st) (a : Act) :
    step count st a ≠ .ub ∧ ∀ st', step count st a = .ok st' → Inv count st' := by
  cases a with
  | own => exact ownStep_inv I
  | thr i => exact thrStep_inv I i
  | pop =>
    simp only [step]
    by_cases ho : st.own = .idle
    · rw [if_pos ho]
      cases hh : st.hl with
      | nil => exact ⟨by simp, by simp⟩
      | cons x xs =>
        refine ⟨by simp, fun st' h => ?_⟩
        simp only [Out.ok.injEq] at h
        subst h
        refine ⟨fun i => ?_, ?_, I.lim, I.pos, I.used, I.size, I.hold, I.d2c, ?_, I.d3⟩
        · have := I.cnt i
          rw [hh, count_cons' x xs i] at this
          simp only [St.wC, count_cons' x st.live i] at this ⊢
          omega
        · have := I.len
          rw [hh, List.length_cons] at this
          simp only [St.wN, List.length_cons] at this ⊢
          omega
        · have := I.own
          rw [ho] at this
          simp only [ho]
    · rw [if_neg ho]
      exact ⟨by simp, by simp⟩
  | swap n =>
    simp only [step]
    by_cases ho : st.own = .idle ∧ st.hl = []
    · rw [if_pos ho]
      obtain ⟨ho, hh⟩ := ho
      have hlen := I.len
      have hused := I.used
      have hsize := I.size
      have hd3 := I.d3
      have hhold := I.hold
      rw [ho] at hlen hused hsize hhold
      simp only [hh, Own.hand, List.length_nil] at hlen
      cases hf : st.fl with
      | cons x xs =>
        refine ⟨by simp, fun st' h => ?_⟩
        simp only [Out.ok.injEq] at h
        subst h
        rw [hf, List.length_cons] at hlen
        have hN : (St.wN { st with fl := [], hl := xs, used := st.limit, own := .chk x }) = st.wN := by
          simp only [St.wN, ho, Own.held]
        refine ⟨fun i => ?_, ?_, I.lim, I.pos, ?_, ?_, ?_, I.d2c, rfl, ?_⟩
        · have := I.cnt i
          rw [hf, hh, ho, count_cons' x xs i] at this
          simp only [St.wC, ho, Own.hand, Own.held, List.count_nil] at this ⊢
          omega
        · rw [hN]
          simp only [Own.hand, List.length_nil, List.length_singleton]
          omega
        · simp [Own.usedOff]
        · rw [hN]
          exact hsize
        · exact hhold
        · rw [hN]
          exact hd3
      | nil =>
        dsimp only
        split
        · rename_i hn
          refine ⟨by simp, fun st' h => ?_⟩
          simp only [Out.ok.injEq] at h
          subst h
          rw [hf, List.length_nil] at hlen
          have hN : (St.wN { st with fl := [], hl := List.range' (st.limit + 1) (n - 1), limit := st.limit + n, used := st.limit + n,
                                     own := .chk st.limit }) = st.wN := by
            simp only [St.wN, ho, Own.held]
          refine ⟨fun i => ?_, ?_, hn.2, ?_, ?_, ?_, ?_, I.d2c, rfl, ?_⟩
          · have := I.cnt i
            rw [hf, hh, ho] at this
            have hr : (List.range' (st.limit + 1) (n - 1)).count i + [st.limit].count i + below i st.limit =
                below i (st.limit + n) := by
              have hnd : (List.range' (st.limit + 1) (n - 1)).Nodup := List.nodup_range' (step := 1)
              rw [hnd.count, List.count_singleton]
              have hm : i ∈ List.range' (st.limit + 1) (n - 1) ↔ st.limit + 1 ≤ i ∧ i < st.limit + n := by
                rw [List.mem_range'_1]; omega
              simp only [hm, below, beq_iff_eq]
              rcases Nat.lt_trichotomy i st.limit with a | a | a
              · rw [if_neg (by omega), if_neg (by omega), if_pos a, if_pos (by omega)]
              · rw [if_neg (by omega), if_pos a.symm, if_neg (by omega), if_pos (by omega)]
              · by_cases c : i < st.limit + n
                · rw [if_pos ⟨a, c⟩, if_neg (by omega), if_neg (by omega), if_pos c]
                · rw [if_neg (by omega), if_neg (by omega), if_neg (by omega), if_neg c]
            simp only [St.wC, ho, Own.hand, Own.held, List.count_nil] at this ⊢
            omega
          · rw [hN]
            simp only [Own.hand, List.length_nil, List.length_singleton, List.length_range']
            omega
          · show 1 ≤ st.limit + n
            omega
          · simp [Own.usedOff]
          · rw [hN]
            exact hsize
          · exact hhold
          · rw [hN]
            exact hd3
        · exact ⟨by simp, by simp⟩
    · rw [if_neg ho]
      exact ⟨by simp, by simp⟩
  | free b =>
    simp only [step]
    by_cases ho : st.own = .idle ∧ b ∈ st.live
    · rw [if_pos ho]
      obtain ⟨ho, hb⟩ := ho
      have hlen := I.len
      have hused := I.used
      have hsize := I.size
      have hd3 := I.d3
      have hhold := I.hold
      rw [ho] at hlen hused hsize hhold
      simp only [Own.hand, List.length_nil] at hlen
      simp only [Own.usedOff, Own.sizeOff] at hused hsize
      have hlv := length_erase_mem hb
      have hu : (if st.fl = [] ∧ count ≤ st.limit then count else st.used) = st.used := by
        split
        · rename_i q
          have := I.lim
          rw [q.1, List.length_nil] at hused
          omega
        · rfl
      rw [hu, if_neg (by omega)]
      refine ⟨by simp, fun st' h => ?_⟩
      simp only [Out.ok.injEq] at h
      subst h
      have hN : (St.wN { st with live := st.live.erase b, fl := b :: st.fl, used := st.used - 1, own := .f0 }) = st.wN := by
        simp only [St.wN, ho, Own.held]
      refine ⟨fun i => ?_, ?_, I.lim, I.pos, ?_, ?_, ?_, I.d2c, ?_, ?_⟩
      · have := I.cnt i
        have hc := count_erase_mem hb i
        rw [ho] at this
        simp only [St.wC, ho, Own.hand, Own.held, List.count_nil, count_cons' b st.fl i] at this ⊢
        omega
      · rw [hN]
        simp only [Own.hand, List.length_nil, List.length_cons]
        omega
      · show st.used - 1 + (b :: st.fl).length = st.limit
        rw [List.length_cons]
        omega
      · rw [hN]
        exact hsize
      · exact hhold
      · show b :: st.fl ≠ []
        simp
      · rw [hN]
        exact hd3
    · rw [if_neg ho]
      exact ⟨by simp, by simp⟩
  | defer b =>
    simp only [step]
    by_cases hb : b ∈ st.live
    · rw [if_pos hb]
      refine ⟨by simp, fun st' h => ?_⟩
      simp only [Out.ok.injEq] at h
      subst h
      have hlv := length_erase_mem hb
      have s1 := tot_append Pc.blkN st.thr (.d0 b)
      have s2 := tot_append Pc.heldN st.thr (.d0 b)
      have s3 := tot_append Pc.isD2 st.thr (.d0 b)
      have s4 := tot_append Pc.isD3 st.thr (.d0 b)
      have s5 := tot_append Pc.holds st.thr (.d0 b)
      simp only [Pc.blkN, Pc.heldN, Pc.blk, Pc.held, Pc.isD2, Pc.isD3, Pc.holds, List.length_nil, List.length_singleton] at s1 s2 s3 s4 s5
      have hN : (St.wN { st with live := st.live.erase b, thr := st.thr ++ [.d0 b] }) = st.wN := by
        simp only [St.wN, s2]
        omega
      have hne : st.live ≠ [] := List.ne_nil_of_mem hb
      refine ⟨fun i => ?_, ?_, I.lim, I.pos, I.used, ?_, ?_, fun b' l' c' hm => ?_, ?_, ?_⟩
      · have t1 := tot_append (Pc.blkC i) st.thr (.d0 b)
        have t2 := tot_append (Pc.heldC i) st.thr (.d0 b)
        have := I.cnt i
        have hc := count_erase_mem hb i
        simp only [Pc.blkC, Pc.heldC, Pc.blk, Pc.held, List.count_nil] at t1 t2
        simp only [St.wC] at this ⊢
        omega
      · have := I.len
        rw [hN]
        dsimp only
        omega
      · rw [hN]
        dsimp only
        rw [s3]
        exact I.size
      · dsimp only
        rw [s5]
        exact I.hold
      · dsimp only at hm
        rw [List.mem_append, List.mem_singleton] at hm
        rcases hm with q | q
        · exact I.d2c b' l' c' q
        · simp at q
      · have := I.own
        cases ho : st.own <;> rw [ho] at this <;> dsimp only at this ⊢
        case f1 => exact absurd this.2.2.1 hne
        case f2 => exact absurd this.2.2.1 hne
        case gone => exact absurd this.2.2.2 hne
        all_goals exact this
      · rw [hN]
        dsimp only
        rw [s4]
        exact I.d3
    · rw [if_neg hb]
      exact ⟨by simp, by simp⟩
  | collect =>
    simp only [step]
    by_cases ho : st.own = .idle ∧ st.pushed = true
    · rw [if_pos ho]
      obtain ⟨ho, hp⟩ := ho
      refine ⟨by simp, fun st' h => ?_⟩
      simp only [Out.ok.injEq] at h
      subst h
      have hd3 := I.d3
      rw [hp] at hd3
      have hN : (St.wN { st with own := .gone }) = st.wN := by
        simp only [St.wN, ho, Own.held]
      have hwN : st.wN = count ∧ tot Pc.isD3 st.thr = 0 := by
        simp only [Bool.toNat_true] at hd3
        by_cases q : st.wN = count
        · have := hd3.1 q
          exact ⟨q, by omega⟩
        · have := hd3.2 q
          omega
      have hlen := I.len
      have hlim := I.lim
      have hused := I.used
      have hsize := I.size
      have hhold := I.hold
      rw [ho] at hlen hused hsize hhold
      refine ⟨fun i => ?_, ?_, hlim, I.pos, hused, ?_, hhold, I.d2c, ⟨?_, hwN.2, ?_, ?_⟩, ?_⟩
      · have := I.cnt i
        rw [ho] at this
        simp only [St.wC, ho, Own.hand, Own.held] at this ⊢
        exact this
      · rw [hN]; exact hlen
      · rw [hN]; exact hsize
      · show tot Pc.blkN st.thr = 0
        omega
      · exact List.length_eq_zero_iff.1 (by show st.hl.length = 0; omega)
      · exact List.length_eq_zero_iff.1 (by show st.live.length = 0; omega)
      · rw [hN]; exact I.d3
    · rw [if_neg ho]
      exact ⟨by simp, by simp⟩

theorem reach_inv {count : Nat} {st : St} (h : Reach count st) : Inv count st := by
  induction h with
  | start h1 h2 => exact start_inv h1 h2
  | step _ hs ih => exact (step_inv ih _).2 _ hs

/-! ## Theorems -/

/-- C140: no thread accesses the span after it was given back, and no counter becomes negative, in any interleaving. -/
theorem deferred_never_ub {count : Nat} {st : St} (h : Reach count st) (a : Act) : step count st a ≠ .ub :=
  (step_inv (reach_inv h) a).1

/-- The blocks which were freed by other threads and are linked in the span. -/
def St.linked (st : St) : List Nat := st.word.getD []

/-- C140: a block which the program has is in none of the lists and is not handed out a second time; each block is linked at most once. -/
theorem live_block_in_no_list {count : Nat} {st : St} (h : Reach count st) :
    st.live.Nodup ∧ (st.hl ++ st.fl ++ st.linked).Nodup ∧ (∀ b ∈ st.live, b < st.limit ∧ b ∉ st.hl ∧ b ∉ st.fl ∧ b ∉ st.linked) := by
  have I := reach_inv h
  have hc : ∀ i, st.hl.count i + st.fl.count i + st.live.count i + st.linked.count i ≤ below i st.limit := by
    intro i
    have := I.cnt i
    simp only [St.wC] at this
    unfold St.linked
    omega
  have h1 : ∀ i, below i st.limit ≤ 1 := fun i => by unfold below; split <;> omega
  refine ⟨?_, ?_, fun b hb => ?_⟩
  · rw [List.nodup_iff_count_le_one]
    intro i
    have := hc i
    have := h1 i
    omega
  · rw [List.nodup_iff_count_le_one]
    intro i
    have := hc i
    have := h1 i
    simp only [List.count_append]
    omega
  · have q := List.count_pos_iff.2 hb
    have := hc b
    have := h1 b
    refine ⟨?_, ?_, ?_, ?_⟩
    · by_contra hn
      unfold below at this
      have hz : below b st.limit = 0 := by unfold below; rw [if_neg hn]
      have := hc b
      omega
    all_goals
      intro hm
      have := List.count_pos_iff.2 hm
      omega

/-- C140: when the span is given back, no block of it is with the program or being freed: all are in the free list or were freed by
others. -/
theorem gone_means_unused {count : Nat} {st : St} (h : Reach count st) (hg : st.own = .gone) :
    st.live = [] ∧ st.hl = [] ∧ (∀ p ∈ st.thr, p = .fin) ∧ st.fl.length + st.linked.length = st.limit := by
  have I := reach_inv h
  have ho := I.own
  rw [hg] at ho
  obtain ⟨o1, o2, o3, o4⟩ := ho
  refine ⟨o4, o3, fun p hp => ?_, ?_⟩
  · have q1 := tot_zero o1 p hp
    have q2 := tot_zero o2 p hp
    cases p <;> simp [Pc.blkN, Pc.blk, Pc.isD3] at q1 q2 ⊢
  · have hl := I.len
    have hh : tot Pc.holds st.thr = 0 := by
      have := tot_le blk_ge_holds st.thr
      omega
    have := (held_of_holds hh).1
    rw [hg] at hl
    simp only [St.wN, hg, Own.hand, Own.held, List.length_nil, o3, o4] at hl
    unfold St.linked
    omega

/-- C140: if other threads freed all blocks, exactly one of them hands the span over to the heap, or has done so; before, none does. -/
theorem handed_over_once {count : Nat} {st : St} (h : Reach count st) :
    (st.linked.length = count → st.thr.countP (· = .d3) + st.pushed.toNat = 1) ∧
    (1 ≤ st.thr.countP (· = .d3) + st.pushed.toNat → st.linked.length = count ∧ st.live = []) := by
  have I := reach_inv h
  have hcp : st.thr.countP (· = .d3) = tot Pc.isD3 st.thr := by
    generalize st.thr = l
    induction l with
    | nil => rfl
    | cons a l ih =>
      simp only [tot, List.map_cons, List.sum_cons, List.countP_cons] at ih ⊢
      rw [ih]
      cases a <;> simp [Pc.isD3, Nat.add_comm]
  rw [hcp]
  have hd := I.d3
  have hl := I.len
  have hlim := I.lim
  constructor
  · intro hq
    have hN : st.wN = count := by
      have : st.linked.length ≤ st.wN := by unfold St.linked St.wN; omega
      omega
    exact hd.1 hN
  · intro hq
    have hN : st.wN = count := by
      by_contra hne
      have := hd.2 hne
      omega
    have hlv : st.live = [] := List.length_eq_zero_iff.1 (by omega)
    refine ⟨?_, hlv⟩
    have hb : tot Pc.blkN st.thr = 0 := by omega
    have hh : tot Pc.holds st.thr = 0 := by
      have := tot_le blk_ge_holds st.thr
      omega
    have hth := (held_of_holds hh).1
    have hoh : st.own.held = [] := by
      have ho := I.own
      cases hw : st.own <;> try rfl
      rw [hw] at ho
      have := List.length_pos_iff.2 ho.1
      omega
    unfold St.wN at hN
    rw [hth, hoh] at hN
    simpa [St.linked] using hN

/-! ## An example -/

/-- The states of a list of actions. -/
def run (count : Nat) : St → List Act → Option St
  | st, [] => some st
  | st, a :: l => match step count st a with
    | .ok st => run count st l
    | _ => none

theorem run_reach {count : Nat} : ∀ (l : List Act) {st st' : St}, Reach count st → run count st l = some st' → Reach count st'
  | [], st, st', hr, h => by
    simp only [run, Option.some.injEq] at h
    exact h ▸ hr
  | a :: l, st, st', hr, h => by
    unfold run at h
    cases hs : step count st a with
    | no => rw [hs] at h; simp at h
    | ub => rw [hs] at h; simp at h
    | ok s1 =>
      rw [hs] at h
      exact run_reach l (Reach.step hr hs) h

/-- Three blocks: the program has all of them; two threads free blocks 0 and 1 at the same time, and the owner frees block 2 while the
second of them has incremented the length but not stored its list yet: the owner waits and then gives the span back. -/
example : (run 3 (start 3) [.pop, .pop, .defer 0, .defer 1, .thr 0, .thr 0, .thr 1, .thr 0, .thr 1, .thr 1, .free 2, .own, .own,
    .thr 1, .own, .own]).map (fun st => (st.own, st.linked, st.fl, st.thr)) = some (.gone, [1, 0], [2], [.fin, .fin]) := by
  decide

/-- The hypotheses of `handed_over_once` and `gone_means_unused` are met. -/
example : ∃ st, Reach 2 st ∧ st.linked.length = 2 ∧ st.pushed = true ∧ st.own = .gone := by
  have h : ∃ st, run 2 (start 2) [.pop, .defer 0, .defer 1, .thr 1, .thr 1, .thr 1, .thr 0, .thr 0, .thr 0, .thr 0, .collect] =
      some st ∧ st.linked.length = 2 ∧ st.pushed = true ∧ st.own = .gone := ⟨_, rfl, rfl, rfl, rfl⟩
  obtain ⟨st, h1, h2⟩ := h
  exact ⟨st, run_reach _ (Reach.start (by omega) (by omega)) h1, h2⟩

end Verif.Rp.Deferred
