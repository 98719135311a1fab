import Verif.Rp.Classes
import Mathlib.Data.List.Perm.Subperm
import Mathlib.Data.List.Nodup
import Mathlib.Data.List.Count
import Mathlib.Data.List.Range

/-!
# The blocks of the spans (`src/rpmalloc.c` 1068-1095, 1259-1352, 1555-1588, 2070-2139, 2326-2400), C132, C134, C135

A *bin* is one size class of one heap: its class free list and its list of partially used spans.  Every span in use belongs to
one bin.  Blocks are named by their span and their number in it.  Operations are atomic here; which thread performs them
matters only for the choice between freeing directly (the owner of the heap) and deferring (everybody else), and both are
allowed at any time.  The caches of spans not in use (of the size class, the thread, the heap and the process) are one
collection, from which any span may be taken.  Large and huge blocks, and finalising heaps, are not in this model.
-/

namespace Verif.Rp

/-- The parameters: pages of `2 ^ k` bytes, the size and number of the blocks of each bin, the heap of each bin, and the
address of each span. -/
structure Cfg where
  k : Nat
  size : Nat → Nat
  count : Nat → Nat
  heap : Nat → Nat
  base : Nat → Nat

/-- `span_t`, src/rpmalloc.c:559-594, as far as used for small and medium blocks.  `act` says whether the span is in use by a
heap; the code knows this from where the span is kept. -/
structure Span where
  act : Bool
  bin : Nat
  fl : List Nat
  limit : Nat
  used : Nat
  dfl : List Nat
  lsize : Nat
  deriving DecidableEq, Repr

/-- The state: the spans, the free list and the partially used spans of every bin, the number of fully used spans and the
deferred spans of every heap, the spans not in use, and all spans which are mapped. -/
structure St where
  span : Nat → Span
  free : Nat → List (Nat × Nat)
  part : Nat → List Nat
  full : Nat → Nat
  sfd : Nat → List Nat
  cache : List Nat
  mapped : List Nat

/-- Replace one value of a function. -/
def upd {α : Type} (f : Nat → α) (s : Nat) (v : α) : Nat → α := fun x => if x = s then v else f x

/-- The loop of `free_list_partial_init`, src/rpmalloc.c:1298-1303: the number of blocks linked. -/
def initLoop (size stop : Nat) : Nat → Nat → Nat
  | 0, _ => 0
  | fuel + 1, nxt => if nxt < stop then 1 + initLoop size stop fuel (nxt + size) else 0

/-- `free_list_partial_init`, src/rpmalloc.c:1281-1309: how many blocks, the first included, are taken from `count` blocks
which start at `start`. -/
def partialInit (k page start count size : Nat) : Nat :=
  if count > 1 then
    let stop := start + size * count
    let stop := if size < 2 ^ k / 2 ∧ page + 2 ^ k < stop then page + 2 ^ k else stop
    2 + initLoop size stop count (start + size + size)
  else 1

/-- `_rpmalloc_span_is_fully_utilized`, src/rpmalloc.c:1349-1352. -/
def isFull (c : Cfg) (sp : Span) : Bool := sp.fl.isEmpty && decide (c.count sp.bin ≤ sp.limit)

/-- `_rpmalloc_span_extract_free_list_deferred`, src/rpmalloc.c:1338-1347; a counter which would become negative is reported. -/
def extract (sp : Span) : Option Span :=
  if sp.used < sp.lsize then none
  else some { sp with fl := sp.dfl, used := sp.used - sp.lsize, lsize := 0, dfl := [] }

/-- The address of block `i` of span `s` with blocks of the given size. -/
def addr (c : Cfg) (s i size : Nat) : Nat := c.base s + hdr + i * size

/-- The part of `_rpmalloc_allocate_from_heap_fallback` which takes blocks from a span, src/rpmalloc.c:2077-2092: the block,
the rest for the class free list, and the span. -/
def takeBlocks (c : Cfg) (s : Nat) (sp : Span) : Nat × List Nat × Span :=
  match sp.fl with
  | x :: xs => (x, xs, { sp with fl := [], used := sp.limit })
  | [] =>
    let start := addr c s sp.limit (c.size sp.bin)
    let n := partialInit c.k (start / 2 ^ c.k * 2 ^ c.k) start (c.count sp.bin - sp.limit) (c.size sp.bin)
    (sp.limit, List.range' (sp.limit + 1) (n - 1), { sp with limit := sp.limit + n, used := sp.limit + n })

/-- The rest of that branch, src/rpmalloc.c:2094-2105. -/
def settle (sp : Span) : Option Span := if sp.dfl ≠ [] then extract sp else some sp

/-- Where a new span comes from: nowhere, newly mapped, or the `j`-th of those not in use
(`_rpmalloc_heap_extract_new_span`, src/rpmalloc.c:1785-1834). -/
inductive Pick where
  | fail
  | fresh (s : Nat)
  | cached (j : Nat)
  deriving DecidableEq, Repr

/-- `_rpmalloc_span_initialize_new`, src/rpmalloc.c:1312-1336: the number of blocks set up and the span. -/
def newSpan (c : Cfg) (b s : Nat) : Nat × Span :=
  let n := partialInit c.k (c.base s) (c.base s + hdr) (c.count b) (c.size b)
  (n, ⟨true, b, [], n, if n < c.count b then n else c.count b, [], 0⟩)

/-- The span picked, and the state without it; the kernel maps nothing where something is mapped already. -/
def pick (st : St) : Pick → Option (Nat × St)
  | .fail => none
  | .fresh s => if s ∈ st.mapped then none else some (s, { st with mapped := s :: st.mapped })
  | .cached j => match st.cache[j]? with
    | none => none
    | some s => some (s, { st with cache := st.cache.eraseIdx j })

/-- `_rpmalloc_allocate_small`, `_rpmalloc_allocate_medium` and `_rpmalloc_allocate_from_heap_fallback`,
src/rpmalloc.c:2070-2139: `none` if a counter is broken, otherwise the state and the block, or no block. -/
def malloc (c : Cfg) (st : St) (b : Nat) (p : Pick) : Option (St × Option (Nat × Nat)) :=
  match st.free b with
  | x :: xs => some ({ st with free := upd st.free b xs }, some x)
  | [] =>
    match st.part b with
    | s :: rest =>
      let t := takeBlocks c s (st.span s)
      match settle t.2.2 with
      | none => none
      | some sp =>
        let st := { st with span := upd st.span s sp, free := upd st.free b (t.2.1.map fun i => (s, i)) }
        if isFull c sp then
          some ({ st with part := upd st.part b rest, full := upd st.full (c.heap b) (st.full (c.heap b) + 1) }, some (s, t.1))
        else some (st, some (s, t.1))
    | [] =>
      match pick st p with
      | none => some (st, none)
      | some (s, st) =>
        let t := newSpan c b s
        let st := { st with span := upd st.span s t.2, free := upd st.free b ((List.range' 1 (t.1 - 1)).map fun i => (s, i)) }
        if t.1 < c.count b then some ({ st with part := upd st.part b (s :: st.part b) }, some (s, 0))
        else some ({ st with full := upd st.full (c.heap b) (st.full (c.heap b) + 1) }, some (s, 0))

/-- The first part of `_rpmalloc_deallocate_direct_small_or_medium`, src/rpmalloc.c:2330-2334: a full span is listed again. -/
def unfull (c : Cfg) (st : St) (s : Nat) : Option St :=
  let sp := st.span s
  if isFull c sp then
    if st.full (c.heap sp.bin) = 0 then none
    else some { st with
      span := upd st.span s { sp with used := c.count sp.bin }
      part := upd st.part sp.bin (s :: st.part sp.bin)
      full := upd st.full (c.heap sp.bin) (st.full (c.heap sp.bin) - 1) }
  else some st

/-- The rest, src/rpmalloc.c:2335-2351: the block is put on the free list of the span; if all blocks are free the span is
unlinked and kept for reuse.  `none` if a counter would become negative or the span is not in the list it is removed from. -/
def putBack (st : St) (s i : Nat) : Option St :=
  let sp := st.span s
  if sp.used = 0 then none
  else
    let sp' : Span := { sp with fl := i :: sp.fl, used := sp.used - 1 }
    if sp'.used = sp'.lsize then
      if s ∈ st.part sp.bin then
        some { st with
          span := upd st.span s { sp' with act := false }
          part := upd st.part sp.bin ((st.part sp.bin).erase s)
          cache := s :: st.cache }
      else none
    else some { st with span := upd st.span s sp' }

/-- `_rpmalloc_deallocate_direct_small_or_medium`, src/rpmalloc.c:2326-2352. -/
def freeDirect (c : Cfg) (st : St) (s i : Nat) : Option St :=
  match unfull c st s with
  | none => none
  | some st => putBack st s i

/-- `_rpmalloc_deallocate_defer_small_or_medium`, src/rpmalloc.c:2364-2383, with `_rpmalloc_deallocate_defer_free_span`,
2354-2361. -/
def freeDefer (c : Cfg) (st : St) (s i : Nat) : St :=
  let sp := st.span s
  let sp' : Span := { sp with dfl := i :: sp.dfl, lsize := sp.lsize + 1 }
  let st := { st with span := upd st.span s sp' }
  if sp.lsize + 1 = c.count sp.bin then
    { st with sfd := upd st.sfd (c.heap sp.bin) (s :: st.sfd (c.heap sp.bin)) }
  else st

/-- The loop of `_rpmalloc_heap_cache_adopt_deferred`, src/rpmalloc.c:1557-1587, for spans of small and medium blocks. -/
def adoptLoop (h : Nat) : List Nat → St → Option St
  | [], st => some st
  | s :: rest, st =>
    if st.full h = 0 then none
    else adoptLoop h rest { st with
      full := upd st.full h (st.full h - 1)
      span := upd st.span s { st.span s with act := false }
      cache := s :: st.cache }

/-- `_rpmalloc_heap_cache_adopt_deferred`, src/rpmalloc.c:1555-1588. -/
def adopt (st : St) (h : Nat) : Option St := adoptLoop h (st.sfd h) { st with sfd := upd st.sfd h [] }

/-- What can happen: a block of a bin is asked for; a block is freed by the owner of its heap, or by another thread; a heap
adopts its deferred spans; a span not in use is unmapped. -/
inductive Op where
  | malloc (b : Nat) (p : Pick)
  | freeDirect (s i : Nat)
  | freeDefer (s i : Nat)
  | adopt (h : Nat)
  | unmap (j : Nat)
  deriving DecidableEq, Repr

/-- One operation: the state and the block handed out, if any. -/
def step (c : Cfg) (st : St) : Op → Option (St × Option (Nat × Nat))
  | .malloc b p => malloc c st b p
  | .freeDirect s i => (freeDirect c st s i).map fun st => (st, none)
  | .freeDefer s i => some (freeDefer c st s i, none)
  | .adopt h => (adopt st h).map fun st => (st, none)
  | .unmap j => match st.cache[j]? with
    | none => some (st, none)
    | some s => some ({ st with cache := st.cache.eraseIdx j, mapped := st.mapped.erase s }, none)

/-- Before the first operation. -/
def St.init : St := ⟨fun _ => ⟨false, 0, [], 0, 0, [], 0⟩, fun _ => [], fun _ => [], fun _ => 0, fun _ => [], [], []⟩

/-! ## What is asked -/

/-- A block somebody holds: its span, its number, and the bin it was asked from. -/
structure Held where
  s : Nat
  i : Nat
  b : Nat
  deriving DecidableEq, Repr

/-- What is held after an operation: blocks handed out and not freed since. -/
def heldAfter (held : List Held) : Op → Option (Nat × Nat) → List Held
  | .malloc b _, some x => ⟨x.1, x.2, b⟩ :: held
  | .freeDirect s i, _ | .freeDefer s i, _ => held.filter fun x => ¬ (x.s = s ∧ x.i = i)
  | _, _ => held

/-- Only what is held is freed. -/
def Legal (held : List Held) : Op → Prop
  | .freeDirect s i | .freeDefer s i => ∃ x ∈ held, x.s = s ∧ x.i = i
  | _ => True

/-- The states which any sequence of operations leads to, with what is held then. -/
inductive Reach (c : Cfg) : St → List Held → Prop where
  | init : Reach c .init []
  | step {st st' held op r} : Reach c st held → Legal held op → step c st op = some (st', r) →
      Reach c st' (heldAfter held op r)

/-- Bins as `size_class_fits` (C126) provides them, and distinct spans at distinct multiples of the span size. -/
structure Cfg.Ok (c : Cfg) : Prop where
  fits : ∀ b, Fits (c.size b) (c.count b)
  base : ∀ s, spanSize ∣ c.base s
  inj : ∀ s s', c.base s = c.base s' → s = s'

/-! ## The invariant -/

/-- How often a block is held. -/
def hc (held : List Held) (s i : Nat) : Nat := held.countP fun x => decide (x.s = s ∧ x.i = i)

/-- 1 for the numbers below `n`, 0 for others. -/
def below (i n : Nat) : Nat := if i < n then 1 else 0

/-- Is the span a fully used one of heap `h`? -/
def fullOf (c : Cfg) (st : St) (h s : Nat) : Bool :=
  (st.span s).act && decide (c.heap (st.span s).bin = h) && isFull c (st.span s)

/-- What holds after every operation: every block of a span in use which was set up is held, or in the free list of the bin, or
in that of the span, or in the deferred list, in exactly one place; and all counters and lists agree with this. -/
structure Inv (c : Cfg) (st : St) (held : List Held) : Prop where
  mnd : st.mapped.Nodup
  cnd : st.cache.Nodup
  cacheOk : ∀ s ∈ st.cache, s ∈ st.mapped ∧ (st.span s).act = false
  actm : ∀ s, (st.span s).act = true → s ∈ st.mapped
  lim : ∀ s, (st.span s).act = true → (st.span s).limit ≤ c.count (st.span s).bin ∧
    (st.span s).used + (st.span s).fl.length = (st.span s).limit ∧ (st.span s).lsize = (st.span s).dfl.length
  part : ∀ b, (st.part b).Nodup ∧
    ∀ s, s ∈ st.part b ↔ (st.span s).act = true ∧ (st.span s).bin = b ∧ isFull c (st.span s) = false
  blocks : ∀ s, (st.span s).act = true → ∀ i,
    hc held s i + (st.free (st.span s).bin).count (s, i) + (st.span s).fl.count i + (st.span s).dfl.count i =
      below i (st.span s).limit
  heldOk : ∀ x ∈ held, (st.span x.s).act = true ∧ (st.span x.s).bin = x.b
  freeOk : ∀ b, ∀ x ∈ st.free b, (st.span x.1).act = true ∧ (st.span x.1).bin = b
  sfd : ∀ h, (st.sfd h).Nodup ∧ ∀ s, s ∈ st.sfd h ↔ (st.span s).act = true ∧ c.heap (st.span s).bin = h ∧
    (st.span s).lsize = c.count (st.span s).bin
  full : ∀ h, st.full h = st.mapped.countP (fullOf c st h)

theorem upd_same {α : Type} (f : Nat → α) (s : Nat) (v : α) : upd f s v s = v := by simp [upd]

theorem upd_ne {α : Type} (f : Nat → α) {s x : Nat} (v : α) (h : x ≠ s) : upd f s v x = f x := by simp [upd, h]

/-- Distinct numbers below `n`: at most `n`, and if there are `n` of them then all of them. -/
theorem pigeon {l : List Nat} {n : Nat} (h : ∀ i, l.count i ≤ if i < n then 1 else 0) :
    l.length ≤ n ∧ (l.length = n → ∀ i, l.count i = if i < n then 1 else 0) := by
  have hnd : l.Nodup := List.nodup_iff_count_le_one.mpr fun a => by
    have := h a
    split at this <;> omega
  have hsub : l ⊆ List.range n := fun a ha => by
    have h1 := h a
    have h2 := List.count_pos_iff.mpr ha
    rw [List.mem_range]
    by_contra h3
    rw [if_neg h3] at h1
    omega
  have hsp : l.Subperm (List.range n) := List.subperm_of_subset hnd hsub
  refine ⟨by simpa using hsp.length_le, fun he i => ?_⟩
  have hp := hsp.perm_of_length_le (by rw [List.length_range, he])
  rw [hp.count_eq, List.count_range]

/-- The converse: distinct numbers below `n`, all of them, are `n`. -/
theorem pigeon' {l : List Nat} {n : Nat} (h : ∀ i, l.count i = if i < n then 1 else 0) : l.length = n := by
  have hp : l.Perm (List.range n) := by
    rw [List.perm_iff_count]
    intro a
    rw [h a, List.count_range]
  simpa using hp.length_eq

/-- Counting after a change at one place. -/
theorem countP_change {l : List Nat} (hn : l.Nodup) {s : Nat} (hs : s ∈ l) {p q : Nat → Bool} (h : ∀ x, x ≠ s → p x = q x) :
    l.countP q + (if p s then 1 else 0) = l.countP p + (if q s then 1 else 0) := by
  have hp := List.perm_cons_erase hs
  have hnd : (s :: l.erase s).Nodup := hp.nodup_iff.mp hn
  rw [hp.countP_eq q, hp.countP_eq p, List.countP_cons, List.countP_cons]
  have : (l.erase s).countP p = (l.erase s).countP q := by
    apply List.countP_congr
    intro x hx
    have : x ≠ s := by
      rintro rfl
      exact (List.nodup_cons.mp hnd).1 hx
    rw [h x this]
  omega

theorem countP_same {l : List Nat} {p q : Nat → Bool} (h : ∀ x ∈ l, p x = q x) : l.countP q = l.countP p :=
  List.countP_congr fun x hx => by rw [h x hx]

/-! ## Setting up blocks -/

theorem initLoop_le {size stop : Nat} : ∀ (fuel nxt start count j : Nat), nxt = start + size * j → stop ≤ start + size * count →
    j + initLoop size stop fuel nxt ≤ max j count := by
  intro fuel
  induction fuel with
  | zero => intro nxt start count j _ _; rw [initLoop]; omega
  | succ fuel ih =>
    intro nxt start count j h1 h2
    rw [initLoop]
    split
    · rename_i hlt
      have hj : j < count := by
        by_contra hc
        have : size * count ≤ size * j := Nat.mul_le_mul_left _ (by omega)
        omega
      have := ih (nxt + size) start count (j + 1) (by rw [Nat.mul_add]; omega) h2
      omega
    · omega

/-- At least one block and not more than there are. -/
theorem partialInit_bounds (k page start count size : Nat) (h : 0 < count) :
    1 ≤ partialInit k page start count size ∧ partialInit k page start count size ≤ count := by
  unfold partialInit
  split
  · rename_i h1
    dsimp only
    have h2 := initLoop_le (size := size)
      (stop := if size < 2 ^ k / 2 ∧ page + 2 ^ k < start + size * count then page + 2 ^ k else start + size * count)
      count (start + size + size) start count 2 (by omega) (by split <;> omega)
    omega
  · omega

theorem count_range' (a m i : Nat) : (List.range' a m).count i = if a ≤ i ∧ i < a + m then 1 else 0 := by
  split
  · rename_i h
    exact List.count_eq_one_of_mem (List.nodup_range') (List.mem_range'_1.mpr h)
  · rename_i h
    exact List.count_eq_zero_of_not_mem fun hm => h (List.mem_range'_1.mp hm)

theorem count_map_pair (s : Nat) (l : List Nat) (i : Nat) : (l.map fun i => (s, i)).count (s, i) = l.count i :=
  List.count_map_of_injective l (fun i => (s, i)) (fun a b h => by simpa using h) i

theorem count_map_pair_ne {s s' : Nat} (h : s' ≠ s) (l : List Nat) (i : Nat) : (l.map fun i => (s, i)).count (s', i) = 0 :=
  List.count_eq_zero_of_not_mem fun hm => by
    rw [List.mem_map] at hm
    obtain ⟨_, _, he⟩ := hm
    simp only [Prod.mk.injEq] at he
    exact h he.1.symm

end Verif.Rp
