import Verif.Rp.Sizes

/-!
# Mapping and unmapping spans (`src/rpmalloc.c` 1104-1252, 1539-1546, 2421-2437), C136 and C137

Spans are mapped in ranges of at least 64, a master span and the rest; a heap keeps what it does not need as its reserve.  A
piece is a number of successive spans which are in use or in one of the caches; pieces are split only as reserves.  The page size is at most
the span size, 64 KiB: then `_memory_span_map_count` and `_memory_heap_reserve_count` are 64 (2779-2784) and the global reserve
is not used (1195).  Operations are atomic: the counter of a range is changed by an atomic operation.
-/

namespace Verif.Rp.Spans

/-- Successive spans of range number `sup`: `offset_from_master`, 0 for the master span, and `span_count`. -/
structure Piece where
  sup : Nat
  off : Nat
  n : Nat
  deriving DecidableEq, Repr

/-- The fields of the master span of a range, src/rpmalloc.c:559-594: what was mapped (`align_offset`), `total_spans`,
`remaining_spans`, whether the master span was given back (`SPAN_FLAG_UNMAPPED_MASTER`), and whether the range was unmapped. -/
structure Super where
  m : Mapped
  total : Nat
  remaining : Int
  gone : Bool
  released : Bool
  deriving DecidableEq, Repr

/-- The ranges, the pieces in use or cached, the reserve of each heap (`n` is `spans_reserved`), and what was unmapped. -/
structure St where
  sups : List Super
  live : List Piece
  res : List Piece
  log : List Region
  deriving DecidableEq, Repr

/-- `_rpmalloc_span_align_count`, src/rpmalloc.c:1134-1139, for pages of up to 64 KiB. -/
def alignCount (n : Nat) : Nat := if n > 64 then n else 64

/-- `_rpmalloc_span_initialize`, src/rpmalloc.c:1142-1148. -/
def newSuper (x : Mapped) (total : Nat) : Super := ⟨x, total, total, false, false⟩

/-- `_rpmalloc_span_map` (src/rpmalloc.c:1191-1221) with `_rpmalloc_span_map_from_reserve` (1119-1131),
`_rpmalloc_span_map_aligned_count` (1154-1188), `_rpmalloc_span_mark_as_subspan_unless_master` (1107-1116) and
`_rpmalloc_heap_set_reserved_spans` (1547-1552).  What is left of an older reserve goes to the caches, as a piece. -/
def map (k : Nat) (st : St) (h n : Nat) (m : Kernel) : Option St :=
  match st.res[h]? with
  | none => none
  | some r =>
    if n ≤ r.n then
      some { st with live := ⟨r.sup, r.off, n⟩ :: st.live, res := st.res.set h ⟨r.sup, r.off + n, r.n - n⟩ }
    else
      match mmapOs k m (alignCount n * spanSize) with
      | none => some st
      | some x =>
        let s := st.sups.length
        let live := if alignCount n > n ∧ r.n ≠ 0 then r :: st.live else st.live
        some { st with
          sups := st.sups ++ [newSuper x (alignCount n)]
          live := ⟨s, 0, n⟩ :: live
          res := if alignCount n > n then st.res.set h ⟨s, n, alignCount n - n⟩ else st.res }

/-- `_rpmalloc_heap_allocate_new`, src/rpmalloc.c:1856-1925, for pages of up to 64 KiB: `n` spans are mapped for 16 heaps without
reserves. -/
def mapHeaps (k : Nat) (st : St) (n : Nat) (m : Kernel) : St :=
  match mmapOs k m (n * spanSize) with
  | none => st
  | some x => { st with
      sups := st.sups ++ [newSuper x n]
      live := ⟨st.sups.length, 0, n⟩ :: st.live
      res := st.res ++ List.replicate 16 ⟨0, 0, 0⟩ }

/-- `_rpmalloc_span_unmap`, src/rpmalloc.c:1224-1256.  `none`: the header of the master span is used after it was unmapped, or the
range is unmapped although its master span was not given back. -/
def unmap (k : Nat) (st : St) (p : Piece) : Option St :=
  match st.sups[p.sup]? with
  | none => none
  | some s =>
    if s.released then none
    else
      let s := { s with gone := s.gone || decide (p.off = 0), remaining := s.remaining - p.n }
      if s.remaining ≤ 0 then
        if s.gone then
          some { st with
            sups := st.sups.set p.sup { s with released := true }
            live := st.live.erase p
            log := unmapOs k s.m.ptr s.m.offset (wrap (s.total * spanSize)) :: st.log }
        else none
      else some { st with sups := st.sups.set p.sup s, live := st.live.erase p }

/-- `_rpmalloc_deallocate_large`, src/rpmalloc.c:2421-2437: the spans of a large block become the reserve of a heap without
reserve; otherwise they stay a piece, in the caches. -/
def reserve (st : St) (h : Nat) (p : Piece) : Option St :=
  match st.res[h]? with
  | none => none
  | some r => if r.n = 0 then some { st with live := st.live.erase p, res := st.res.set h p } else some st

/-- The operations. -/
inductive Op where
  | reserve (h : Nat) (p : Piece)
  | map (h n : Nat) (m : Kernel)
  | mapHeaps (n : Nat) (m : Kernel)
  | unmap (p : Piece)

/-- One operation. -/
def step (k : Nat) (st : St) : Op → Option St
  | .map h n m => map k st h n m
  | .mapHeaps n m => some (mapHeaps k st n m)
  | .unmap p => unmap k st p
  | .reserve h p => reserve st h p

/-- Nothing is mapped. -/
def init : St := ⟨[], [], [], []⟩

/-! ## What is legal -/

/-- Two ranges of addresses do not overlap. -/
def Apart (a b : Region) : Prop := a.addr + a.len ≤ b.addr ∨ b.addr + b.len ≤ a.addr

/-- The kernel maps memory where nothing of the allocator is mapped. -/
def Fresh (st : St) (m : Kernel) : Prop :=
  ∀ s ∈ st.sups, s.released = false → ∀ len a, m len = some a → Apart s.m.region ⟨a, len⟩

/-- What callers do: requests are for 1 to 63 spans, by heaps which exist; pieces are
unmapped or made a reserve which are in use or cached. -/
def Legal (k : Nat) (st : St) : Op → Prop
  | .map h n m => h < st.res.length ∧ 1 ≤ n ∧ n ≤ 63 ∧ m.Good k ∧ Fresh st m
  | .mapHeaps n m => 1 ≤ n ∧ n ≤ 4096 ∧ m.Good k ∧ Fresh st m
  | .unmap p => p ∈ st.live
  | .reserve h p => h < st.res.length ∧ p ∈ st.live

/-- The states which are reached by legal operations. -/
inductive Reach (k : Nat) : St → Prop where
  | init : Reach k init
  | step {st st' op} : Reach k st → Legal k st op → step k st op = some st' → Reach k st'

/-! ## The invariant -/

/-- The sum of a function over a list. -/
def sumOf (f : Piece → Nat) : List Piece → Nat
  | [] => 0
  | p :: l => f p + sumOf f l

/-- Whether span `j` of range `i` belongs to the piece. -/
def covers (i j : Nat) (p : Piece) : Nat := if p.sup = i ∧ p.off ≤ j ∧ j < p.off + p.n then 1 else 0

/-- How many spans of range `i` the piece has. -/
def has (i : Nat) (p : Piece) : Nat := if p.sup = i then p.n else 0

theorem sumOf_erase (f : Piece → Nat) {p : Piece} : ∀ {l : List Piece}, p ∈ l → sumOf f (l.erase p) + f p = sumOf f l := by
  intro l
  induction l with
  | nil => intro h; simp at h
  | cons a l ih =>
    intro h
    by_cases e : a = p
    · subst e
      rw [List.erase_cons_head, sumOf]
      omega
    · rw [List.erase_cons_tail (by simpa using e), sumOf, sumOf]
      have := ih ((List.mem_cons.mp h).resolve_left (fun x => e x.symm))
      omega

theorem sumOf_set (f : Piece → Nat) (x : Piece) : ∀ (l : List Piece) (h : Nat) (r : Piece), l[h]? = some r →
    sumOf f (l.set h x) + f r = sumOf f l + f x := by
  intro l
  induction l with
  | nil => intro h r e; simp at e
  | cons a l ih =>
    intro h r e
    cases h with
    | zero =>
      simp only [List.getElem?_cons_zero, Option.some.injEq] at e
      subst e
      rw [List.set_cons_zero, sumOf, sumOf]
      omega
    | succ h =>
      rw [List.getElem?_cons_succ] at e
      have := ih h r e
      rw [List.set_cons_succ, sumOf, sumOf]
      omega

theorem sumOf_append (f : Piece → Nat) (l l' : List Piece) : sumOf f (l ++ l') = sumOf f l + sumOf f l' := by
  induction l with
  | nil => rw [List.nil_append, sumOf]; omega
  | cons a l ih => rw [List.cons_append, sumOf, sumOf, ih]; omega

theorem sumOf_zero (f : Piece → Nat) {l : List Piece} (h : ∀ p ∈ l, f p = 0) : sumOf f l = 0 := by
  induction l with
  | nil => rfl
  | cons a l ih =>
    rw [sumOf, h a (List.mem_cons_self ..), ih fun p hp => h p (List.mem_cons_of_mem _ hp)]

theorem sumOf_le (f : Piece → Nat) {l : List Piece} {p : Piece} (h : p ∈ l) : f p ≤ sumOf f l := by
  have := sumOf_erase f h
  omega

/-- What holds of every state: pieces and reserves lie in ranges and do not overlap; the counter of a range is the number of spans
of its pieces and reserves; it is unmapped when there are none; the master span is a piece until it was given back; ranges which
are mapped do not overlap; the log lists the ranges which were unmapped. -/
structure Inv (k : Nat) (st : St) : Prop where
  inside : ∀ p ∈ st.live ++ st.res, 0 < p.n → ∃ s, st.sups[p.sup]? = some s ∧ s.released = false ∧ p.off + p.n ≤ s.total
  pos : ∀ p ∈ st.live, 0 < p.n
  cover : ∀ i j, sumOf (covers i j) st.live + sumOf (covers i j) st.res ≤ 1
  count : ∀ (i : Nat) (s : Super), st.sups[i]? = some s → s.released = false →
    s.remaining = ((sumOf (has i) st.live + sumOf (has i) st.res : Nat) : Int)
  some' : ∀ (i : Nat) (s : Super), st.sups[i]? = some s → s.released = false → 0 < s.remaining
  master : ∀ (i : Nat) (s : Super), st.sups[i]? = some s → s.released = false → s.gone = false →
    ∃ p ∈ st.live ++ st.res, 0 < p.n ∧ p.sup = i ∧ p.off = 0
  apart : ∀ (i j : Nat) (s t : Super), i ≠ j → st.sups[i]? = some s → st.sups[j]? = some t → s.released = false → t.released = false →
    Apart s.m.region t.m.region
  good : ∀ s ∈ st.sups, 0 < s.total ∧ s.m.region.addr ≤ s.m.ptr ∧
    s.m.ptr + s.total * spanSize ≤ s.m.region.addr + s.m.region.len ∧
    spanSize ∣ s.m.ptr ∧ unmapOs k s.m.ptr s.m.offset (wrap (s.total * spanSize)) = s.m.region
  log : ∀ R, st.log.count R = st.sups.countP fun s => s.released && decide (s.m.region = R)

theorem init_inv (k : Nat) : Inv k init := by
  refine ⟨?_, ?_, ?_, ?_, ?_, ?_, ?_, ?_, ?_⟩ <;> simp [init, sumOf]

/-- Pieces without spans cover nothing. -/
theorem covers_empty {i j : Nat} {p : Piece} (h : p.n = 0) : covers i j p = 0 := by
  unfold covers
  rw [if_neg (by omega)]

theorem has_empty {i : Nat} {p : Piece} (h : p.n = 0) : has i p = 0 := by
  unfold has
  split
  · exact h
  · rfl

/-- A range which is not there yet is not mentioned. -/
theorem Inv.unknown {k : Nat} {st : St} (I : Inv k st) {p : Piece} (hp : p ∈ st.live ++ st.res) (hn : 0 < p.n) :
    p.sup < st.sups.length := by
  obtain ⟨s, h, _⟩ := I.inside p hp hn
  exact (List.getElem?_eq_some_iff.mp h).1

/-- The parts of the invariant which a new range changes; `live'` and `res'` are what was there and pieces of the new range. -/
theorem Inv.grow {k : Nat} {st : St} (I : Inv k st) (hk : 3 ≤ k) (hk' : k ≤ 16) {m : Kernel} (hm : m.Good k) (hf : Fresh st m) {t n : Nat}
    (ht : 1 ≤ t) (ht' : t ≤ 4096) {x : Mapped} (hx : mmapOs k m (t * spanSize) = some x) (hn : 1 ≤ n) (hnt : n ≤ t)
    {live res : List Piece}
    (hin : ∀ p ∈ live ++ res, 0 < p.n → p ∈ st.live ++ st.res ∨ p = ⟨st.sups.length, n, t - n⟩)
    (hpos : ∀ p ∈ live, 0 < p.n) (hsub : ∀ p ∈ st.live ++ st.res, 0 < p.n → p ∈ live ++ res)
    (hsum : ∀ f : Piece → Nat, (∀ p, p.n = 0 → f p = 0) →
      sumOf f live + sumOf f res = sumOf f st.live + sumOf f st.res + f ⟨st.sups.length, n, t - n⟩) :
    Inv k { st with sups := st.sups ++ [newSuper x t], live := ⟨st.sups.length, 0, n⟩ :: live, res := res } := by
  have hS : spanSize = 65536 := rfl
  obtain ⟨x1, x2, x3, x4, _, x6⟩ := map_unmap_exact hk hk' hm (size := t * spanSize) (by rw [hS]; omega) (by rw [hS]; omega) hx
  have hold : ∀ (i : Nat) (s : Super), (st.sups ++ [newSuper x t])[i]? = some s →
      st.sups[i]? = some s ∨ (i = st.sups.length ∧ s = newSuper x t) := by
    intro i s h
    by_cases hi : i < st.sups.length
    · rw [List.getElem?_append_left hi] at h
      exact Or.inl h
    · rw [List.getElem?_append_right (by omega)] at h
      by_cases e : i = st.sups.length
      · subst e
        rw [Nat.sub_self] at h
        simp only [List.getElem?_cons_zero, Option.some.injEq] at h
        exact Or.inr ⟨rfl, h.symm⟩
      · rw [List.getElem?_eq_none (by simp only [List.length_singleton]; omega)] at h
        simp at h
  have hnew : (st.sups ++ [newSuper x t])[st.sups.length]? = some (newSuper x t) := by
    rw [List.getElem?_append_right (Nat.le_refl _), Nat.sub_self]; rfl
  have hkeep : ∀ (i : Nat) (s : Super), st.sups[i]? = some s → (st.sups ++ [newSuper x t])[i]? = some s := by
    intro i s h
    rw [List.getElem?_append_left (List.getElem?_eq_some_iff.mp h).1]
    exact h
  -- sums over what was there, for the new range
  have hz : ∀ f : Piece → Nat, (∀ p, p.sup ≠ st.sups.length ∨ p.n = 0 → f p = 0) →
      sumOf f st.live = 0 ∧ sumOf f st.res = 0 := by
    intro f hf
    have hall : ∀ p ∈ st.live ++ st.res, f p = 0 := by
      intro p hp
      apply hf
      by_cases hn : p.n = 0
      · exact Or.inr hn
      · exact Or.inl (by have := I.unknown hp (by omega); omega)
    exact ⟨sumOf_zero f fun p hp => hall p (List.mem_append_left _ hp),
      sumOf_zero f fun p hp => hall p (List.mem_append_right _ hp)⟩
  have hnr : (newSuper x t).released = false := rfl
  refine ⟨?_, ?_, ?_, ?_, ?_, ?_, ?_, ?_, ?_⟩
  · -- inside
    intro p hp h0
    rw [List.cons_append, List.mem_cons] at hp
    rcases hp with rfl | hp
    · exact ⟨_, hnew, rfl, by show 0 + n ≤ t; omega⟩
    · rcases hin p hp h0 with h | rfl
      · obtain ⟨s, h1, h2⟩ := I.inside p h h0
        exact ⟨s, hkeep _ _ h1, h2⟩
      · exact ⟨_, hnew, rfl, by show n + (t - n) ≤ t; omega⟩
  · -- pos
    intro p hp
    rcases List.mem_cons.mp hp with rfl | hp
    · exact hn
    · exact hpos p hp
  · -- cover
    intro i j
    have h1 := hsum (covers i j) fun p h => covers_empty h
    dsimp only
    rw [sumOf]
    by_cases e : i = st.sups.length
    · subst e
      obtain ⟨z1, z2⟩ := hz (covers st.sups.length j) (fun p h => by
        unfold covers
        rcases h with h | h
        · rw [if_neg (fun x => h x.1)]
        · rw [if_neg (by omega)])
      rw [z1, z2] at h1
      have : covers st.sups.length j ⟨st.sups.length, 0, n⟩ + covers st.sups.length j ⟨st.sups.length, n, t - n⟩ ≤ 1 := by
        unfold covers
        dsimp only
        split <;> split <;> omega
      omega
    · have h2 := I.cover i j
      have c1 : covers i j ⟨st.sups.length, 0, n⟩ = 0 := if_neg fun x => e x.1.symm
      have c2 : covers i j ⟨st.sups.length, n, t - n⟩ = 0 := if_neg fun x => e x.1.symm
      omega
  · -- count
    intro i s h hr
    have h1 := hsum (has i) fun p h => has_empty h
    dsimp only
    rw [sumOf]
    rcases hold i s h with h | ⟨rfl, rfl⟩
    · have hlt := (List.getElem?_eq_some_iff.mp h).1
      have h2 := I.count i s h hr
      have c1 : has i ⟨st.sups.length, 0, n⟩ = 0 := if_neg fun (x : st.sups.length = i) => by omega
      have c2 : has i ⟨st.sups.length, n, t - n⟩ = 0 := if_neg fun (x : st.sups.length = i) => by omega
      rw [h2]
      congr 1
      omega
    · obtain ⟨z1, z2⟩ := hz (has st.sups.length) (fun p h => by
        unfold has
        rcases h with h | h
        · rw [if_neg h]
        · split
          · exact h
          · rfl)
      rw [z1, z2] at h1
      have c1 : has st.sups.length ⟨st.sups.length, 0, n⟩ = n := if_pos rfl
      have c2 : has st.sups.length ⟨st.sups.length, n, t - n⟩ = t - n := if_pos rfl
      show (t : Int) = _
      congr 1
      omega
  · -- some'
    intro i s h hr
    rcases hold i s h with h | ⟨rfl, rfl⟩
    · exact I.some' i s h hr
    · show (0 : Int) < t
      omega
  · -- master
    intro i s h hr hg
    rcases hold i s h with h | ⟨rfl, rfl⟩
    · obtain ⟨p, hp, h0, h2⟩ := I.master i s h hr hg
      exact ⟨p, List.mem_cons_of_mem _ (hsub p hp h0), h0, h2⟩
    · exact ⟨_, List.mem_cons_self .., hn, rfl, rfl⟩
  · -- apart
    intro i j s u hij hi hj hs hu
    rcases hold i s hi with hi | ⟨rfl, rfl⟩
    · rcases hold j u hj with hj | ⟨rfl, rfl⟩
      · exact I.apart i j s u hij hi hj hs hu
      · exact hf s (List.mem_of_getElem? hi) hs _ _ x1
    · rcases hold j u hj with hj | ⟨rfl, rfl⟩
      · exact (hf u (List.mem_of_getElem? hj) hu _ _ x1).symm
      · exact absurd rfl hij
  · -- good
    intro s hs
    rcases List.mem_append.mp hs with hs | hs
    · exact I.good s hs
    · simp only [List.mem_singleton] at hs
      subst hs
      have e : wrap (t * spanSize) = t * spanSize := Nat.mod_eq_of_lt (by rw [hS]; omega)
      refine ⟨ht, x2, x3, x4 (by rw [hS]; omega), ?_⟩
      show unmapOs k x.ptr x.offset (wrap (t * spanSize)) = x.region
      rw [e]
      exact x6
  · -- log
    intro R
    rw [I.log R, List.countP_append]
    simp [newSuper]

/-- What is in a list is the element which is replaced, or still there. -/
theorem mem_set_or {l : List Piece} (h : Nat) (x : Piece) {r p : Piece} (hr : l[h]? = some r) (hp : p ∈ l) :
    p = r ∨ p ∈ l.set h x := by
  obtain ⟨i, hi, e⟩ := List.getElem_of_mem hp
  by_cases hih : i = h
  · subst hih
    rw [List.getElem?_eq_getElem hi] at hr
    simp only [Option.some.injEq] at hr
    exact Or.inl (e.symm.trans hr)
  · refine Or.inr (List.mem_of_getElem? (i := i) ?_)
    rw [List.getElem?_set_ne (fun x => hih x.symm), List.getElem?_eq_getElem hi, e]

theorem map_inv {k : Nat} (hk : 3 ≤ k) (hk' : k ≤ 16) {st : St} (I : Inv k st) {h n : Nat} {m : Kernel} (hl : Legal k st (.map h n m)) :
    ∃ st', map k st h n m = some st' ∧ Inv k st' := by
  obtain ⟨h1, h2, h3, hm, hf⟩ := hl
  obtain ⟨r, hr⟩ : ∃ r, st.res[h]? = some r := ⟨_, List.getElem?_eq_getElem h1⟩
  have hrm : r ∈ st.res := List.mem_of_getElem? hr
  have ea : alignCount n = 64 := by unfold alignCount; rw [if_neg (by omega)]
  unfold map
  simp only [hr]
  by_cases hle : n ≤ r.n
  · rw [if_pos hle]
    refine ⟨_, rfl, ?_⟩
    obtain ⟨s, s1, s2, s3⟩ := I.inside r (List.mem_append_right _ hrm) (by omega)
    have hc : ∀ f : Piece → Nat, f ⟨r.sup, r.off, n⟩ + f ⟨r.sup, r.off + n, r.n - n⟩ = f r →
        sumOf f (⟨r.sup, r.off, n⟩ :: st.live) + sumOf f (st.res.set h ⟨r.sup, r.off + n, r.n - n⟩) =
          sumOf f st.live + sumOf f st.res := by
      intro f e
      have := sumOf_set f ⟨r.sup, r.off + n, r.n - n⟩ st.res h r hr
      rw [sumOf]
      omega
    refine ⟨?_, ?_, ?_, ?_, I.some', ?_, I.apart, I.good, I.log⟩
    · intro p hp h0
      rw [List.cons_append, List.mem_cons, List.mem_append] at hp
      rcases hp with rfl | hp | hp
      · exact ⟨s, s1, s2, by show r.off + n ≤ s.total; omega⟩
      · exact I.inside p (List.mem_append_left _ hp) h0
      · rcases List.mem_or_eq_of_mem_set hp with hp | rfl
        · exact I.inside p (List.mem_append_right _ hp) h0
        · exact ⟨s, s1, s2, by show r.off + n + (r.n - n) ≤ s.total; omega⟩
    · intro p hp
      rcases List.mem_cons.mp hp with rfl | hp
      · exact h2
      · exact I.pos p hp
    · intro i j
      have e := hc (covers i j) (by
        unfold covers
        dsimp only
        repeat' split
        all_goals omega)
      have := I.cover i j
      dsimp only
      omega
    · intro i s' hs hr'
      have e := hc (has i) (by
        unfold has
        dsimp only
        split <;> omega)
      have := I.count i s' hs hr'
      rw [this]
      congr 1
      dsimp only
      omega
    · intro i s' hs hr' hg
      obtain ⟨p, hp, h0, e1, e2⟩ := I.master i s' hs hr' hg
      rcases List.mem_append.mp hp with hp | hp
      · exact ⟨p, List.mem_cons_of_mem _ (List.mem_append_left _ hp), h0, e1, e2⟩
      · rcases mem_set_or h ⟨r.sup, r.off + n, r.n - n⟩ hr hp with rfl | hp
        · exact ⟨⟨p.sup, p.off, n⟩, List.mem_cons_self .., h2, e1, e2⟩
        · exact ⟨p, List.mem_cons_of_mem _ (List.mem_append_right _ hp), h0, e1, e2⟩
  · rw [if_neg hle]
    cases hx : mmapOs k m (alignCount n * spanSize) with
    | none => exact ⟨st, rfl, I⟩
    | some x =>
      dsimp only
      rw [ea] at hx ⊢
      rw [if_pos (show 64 > n by omega)]
      refine ⟨_, rfl, ?_⟩
      refine I.grow hk hk' hm hf (by decide) (by decide) hx h2 (by omega) ?_ ?_ ?_ ?_
      · intro p hp h0
        rcases List.mem_append.mp hp with hp | hp
        · left
          split at hp
          · rcases List.mem_cons.mp hp with rfl | hp
            · exact List.mem_append_right _ hrm
            · exact List.mem_append_left _ hp
          · exact List.mem_append_left _ hp
        · rcases List.mem_or_eq_of_mem_set hp with hp | hp
          · exact Or.inl (List.mem_append_right _ hp)
          · exact Or.inr hp
      · intro p hp
        split at hp
        · rename_i hc
          rcases List.mem_cons.mp hp with rfl | hp
          · exact Nat.pos_of_ne_zero hc.2
          · exact I.pos p hp
        · exact I.pos p hp
      · intro p hp h0
        rcases List.mem_append.mp hp with hp | hp
        · refine List.mem_append_left _ ?_
          split
          · exact List.mem_cons_of_mem _ hp
          · exact hp
        · rcases mem_set_or h ⟨st.sups.length, n, 64 - n⟩ hr hp with rfl | hp
          · refine List.mem_append_left _ ?_
            rw [if_pos ⟨by omega, by omega⟩]
            exact List.mem_cons_self ..
          · exact List.mem_append_right _ hp
      · intro f hf0
        have e := sumOf_set f ⟨st.sups.length, n, 64 - n⟩ st.res h r hr
        split
        · rw [sumOf]; omega
        · rename_i hc
          have : f r = 0 := hf0 r (by
            by_cases e : r.n = 0
            · exact e
            · exact absurd ⟨by omega, e⟩ hc)
          omega

theorem mapHeaps_inv {k : Nat} (hk : 3 ≤ k) (hk' : k ≤ 16) {st : St} (I : Inv k st) {n : Nat} {m : Kernel}
    (hl : Legal k st (.mapHeaps n m)) : Inv k (mapHeaps k st n m) := by
  obtain ⟨h1, h2, hm, hf⟩ := hl
  unfold mapHeaps
  cases hx : mmapOs k m (n * spanSize) with
  | none => exact I
  | some x =>
    dsimp only
    refine I.grow hk hk' hm hf h1 h2 hx h1 (Nat.le_refl _) ?_ I.pos
      (fun p h _ => by rw [← List.append_assoc]; exact List.mem_append_left _ h) ?_
    · intro p hp h0
      rw [← List.append_assoc] at hp
      rcases List.mem_append.mp hp with hp | hp
      · exact Or.inl hp
      · rw [List.eq_of_mem_replicate hp] at h0
        exact absurd h0 (by decide)
    · intro f hf0
      rw [sumOf_append, sumOf_zero f (l := List.replicate 16 ⟨0, 0, 0⟩)
        (fun p hp => hf0 p (by rw [List.eq_of_mem_replicate hp])), hf0 ⟨st.sups.length, n, n - n⟩ (Nat.sub_self n)]
      omega

theorem countP_set {α : Type} (q : α → Bool) (x : α) : ∀ (l : List α) (i : Nat) (r : α), l[i]? = some r →
    (l.set i x).countP q + (if q r then 1 else 0) = l.countP q + (if q x then 1 else 0) := by
  intro l
  induction l with
  | nil => intro i r e; simp at e
  | cons a l ih =>
    intro i r e
    cases i with
    | zero =>
      simp only [List.getElem?_cons_zero, Option.some.injEq] at e
      subst e
      rw [List.set_cons_zero, List.countP_cons, List.countP_cons]
      omega
    | succ i =>
      rw [List.getElem?_cons_succ] at e
      have := ih i r e
      rw [List.set_cons_succ, List.countP_cons, List.countP_cons]
      omega

theorem unmap_inv {k : Nat} {st : St} (I : Inv k st) {p : Piece} (hp : p ∈ st.live) :
    ∃ st', unmap k st p = some st' ∧ Inv k st' := by
  have hpn := I.pos p hp
  obtain ⟨s, hs, hr, hin⟩ := I.inside p (List.mem_append_left _ hp) hpn
  have hcnt := I.count _ _ hs hr
  have hlt := (List.getElem?_eq_some_iff.mp hs).1
  have hhas : has p.sup p = p.n := if_pos rfl
  have hsum : ∀ f : Piece → Nat, sumOf f (st.live.erase p) + f p = sumOf f st.live := fun f => sumOf_erase f hp
  have hle := hsum (has p.sup)
  rw [hhas] at hle
  -- another span of the master span's range covers no span of this piece
  have hget : ∀ (v : Super) (i : Nat) (u : Super), (st.sups.set p.sup v)[i]? = some u →
      (i = p.sup ∧ u = v) ∨ (i ≠ p.sup ∧ st.sups[i]? = some u) := by
    intro v i u hu
    by_cases e : i = p.sup
    · subst e
      rw [List.getElem?_set_self hlt] at hu
      simp only [Option.some.injEq] at hu
      exact Or.inl ⟨rfl, hu.symm⟩
    · rw [List.getElem?_set_ne (fun x => e x.symm)] at hu
      exact Or.inr ⟨e, hu⟩
  have hcover : ∀ i j, sumOf (covers i j) (st.live.erase p) + sumOf (covers i j) st.res ≤ 1 := by
    intro i j
    have h1 := I.cover i j
    have h2 := hsum (covers i j)
    omega
  have hother : ∀ q ∈ st.live ++ st.res, q ≠ p → q ∈ st.live.erase p ++ st.res := by
    intro q hq hne
    rcases List.mem_append.mp hq with hq | hq
    · exact List.mem_append_left _ ((List.mem_erase_of_ne hne).mpr hq)
    · exact List.mem_append_right _ hq
  have hmaster : s.gone = false → p.off ≠ 0 → ∃ q ∈ st.live.erase p ++ st.res, 0 < q.n ∧ q.sup = p.sup ∧ q.off = 0 := by
    intro h1 h2
    obtain ⟨q, hq, h0, e1, e2⟩ := I.master _ _ hs hr h1
    exact ⟨q, hother q hq (fun e => h2 (by rw [← e]; exact e2)), h0, e1, e2⟩
  have hsubl : ∀ q ∈ st.live.erase p, q ∈ st.live := fun q hq => List.mem_of_mem_erase hq
  unfold unmap
  simp only [hs, hr, Bool.false_eq_true, if_false]
  by_cases hz : s.remaining - (p.n : Int) ≤ 0
  · rw [if_pos hz]
    -- nothing else is left of the range
    have hnone : sumOf (has p.sup) (st.live.erase p) = 0 ∧ sumOf (has p.sup) st.res = 0 := by omega
    have hno : ∀ q ∈ st.live.erase p ++ st.res, 0 < q.n → q.sup ≠ p.sup := by
      intro q hq h0 e
      rcases List.mem_append.mp hq with hq | hq
      · have := sumOf_le (has p.sup) hq
        rw [show has p.sup q = q.n from if_pos e] at this
        omega
      · have := sumOf_le (has p.sup) hq
        rw [show has p.sup q = q.n from if_pos e] at this
        omega
    have hg : (s.gone || decide (p.off = 0)) = true := by
      cases hg : s.gone with
      | true => rfl
      | false =>
        rw [Bool.false_or, decide_eq_true_eq]
        refine Classical.byContradiction fun h => ?_
        obtain ⟨q, hq, h0, e1, _⟩ := hmaster hg h
        exact hno q hq h0 e1
    rw [if_pos hg]
    refine ⟨_, rfl, ?_⟩
    refine ⟨?_, fun q hq => I.pos q (hsubl q hq), hcover, ?_, ?_, ?_, ?_, ?_, ?_⟩
    · intro q hq h0
      have hne := hno q hq h0
      have hq' : q ∈ st.live ++ st.res := by
        rcases List.mem_append.mp hq with hq | hq
        · exact List.mem_append_left _ (hsubl q hq)
        · exact List.mem_append_right _ hq
      obtain ⟨u, u1, u2⟩ := I.inside q hq' h0
      exact ⟨u, by rw [List.getElem?_set_ne (fun x => hne x.symm)]; exact u1, u2⟩
    · intro i u hu hur
      rcases hget _ i u hu with ⟨_, rfl⟩ | ⟨hne, hu⟩
      · exact Bool.noConfusion hur
      · rw [I.count i u hu hur]
        have := hsum (has i)
        rw [show has i p = 0 from if_neg fun e => hne e.symm] at this
        congr 1
        dsimp only
        omega
    · intro i u hu hur
      rcases hget _ i u hu with ⟨_, rfl⟩ | ⟨_, hu⟩
      · exact Bool.noConfusion hur
      · exact I.some' i u hu hur
    · intro i u hu hur hug
      rcases hget _ i u hu with ⟨_, rfl⟩ | ⟨hne, hu⟩
      · exact Bool.noConfusion hur
      · obtain ⟨q, hq, h0, e1, e2⟩ := I.master i u hu hur hug
        exact ⟨q, hother q hq (fun e => hne (by rw [← e1, e])), h0, e1, e2⟩
    · intro i j u v hij hu hv hur hvr
      rcases hget _ i u hu with ⟨_, rfl⟩ | ⟨_, hu⟩
      · exact Bool.noConfusion hur
      · rcases hget _ j v hv with ⟨_, rfl⟩ | ⟨_, hv⟩
        · exact Bool.noConfusion hvr
        · exact I.apart i j u v hij hu hv hur hvr
    · intro u hu
      rcases List.mem_or_eq_of_mem_set hu with hu | rfl
      · exact I.good u hu
      · exact I.good s (List.mem_of_getElem? hs)
    · intro R
      have h1 := countP_set (fun u : Super => u.released && decide (u.m.region = R))
        { s with gone := s.gone || decide (p.off = 0), remaining := s.remaining - (p.n : Int), released := true } st.sups p.sup s hs
      have h2 := I.log R
      have h3 := (I.good s (List.mem_of_getElem? hs)).2.2.2.2
      dsimp only at h1 ⊢
      rw [List.count_cons, h2, h3]
      rw [hr, Bool.false_and] at h1
      simp only [Bool.true_and, decide_eq_true_eq, Bool.false_eq_true, if_false, Nat.add_zero] at h1
      rw [h1]
      congr 1
      simp only [beq_iff_eq]
  · rw [if_neg hz]
    refine ⟨_, rfl, ?_⟩
    refine ⟨?_, fun q hq => I.pos q (hsubl q hq), hcover, ?_, ?_, ?_, ?_, ?_, ?_⟩
    · intro q hq h0
      have hq' : q ∈ st.live ++ st.res := by
        rcases List.mem_append.mp hq with hq | hq
        · exact List.mem_append_left _ (hsubl q hq)
        · exact List.mem_append_right _ hq
      obtain ⟨u, u1, u2, u3⟩ := I.inside q hq' h0
      by_cases e : q.sup = p.sup
      · rw [e, hs] at u1
        simp only [Option.some.injEq] at u1
        subst u1
        exact ⟨{ s with gone := s.gone || decide (p.off = 0), remaining := s.remaining - (p.n : Int), released := false },
          by rw [e]; exact List.getElem?_set_self hlt, rfl, u3⟩
      · exact ⟨u, by rw [List.getElem?_set_ne (fun x => e x.symm)]; exact u1, u2, u3⟩
    · intro i u hu hur
      rcases hget _ i u hu with ⟨rfl, rfl⟩ | ⟨hne, hu⟩
      · dsimp only
        omega
      · rw [I.count i u hu hur]
        have := hsum (has i)
        rw [show has i p = 0 from if_neg fun e => hne e.symm] at this
        congr 1
        dsimp only
        omega
    · intro i u hu hur
      rcases hget _ i u hu with ⟨_, rfl⟩ | ⟨_, hu⟩
      · dsimp only
        omega
      · exact I.some' i u hu hur
    · intro i u hu hur hug
      rcases hget _ i u hu with ⟨rfl, rfl⟩ | ⟨hne, hu⟩
      · dsimp only at hug
        rw [Bool.or_eq_false_iff, decide_eq_false_iff_not] at hug
        exact hmaster hug.1 hug.2
      · obtain ⟨q, hq, h0, e1, e2⟩ := I.master i u hu hur hug
        exact ⟨q, hother q hq (fun e => hne (by rw [← e1, e])), h0, e1, e2⟩
    · intro i j u v hij hu hv hur hvr
      rcases hget _ i u hu with ⟨e1, rfl⟩ | ⟨e1, hu⟩
      · rcases hget _ j v hv with ⟨e2, rfl⟩ | ⟨e2, hv⟩
        · exact absurd (e1.trans e2.symm) hij
        · exact I.apart p.sup j s v (fun e => e2 e.symm) hs hv hr hvr
      · rcases hget _ j v hv with ⟨e2, rfl⟩ | ⟨e2, hv⟩
        · exact I.apart i p.sup u s e1 hu hs hur hr
        · exact I.apart i j u v hij hu hv hur hvr
    · intro u hu
      rcases List.mem_or_eq_of_mem_set hu with hu | rfl
      · exact I.good u hu
      · exact I.good s (List.mem_of_getElem? hs)
    · intro R
      have h1 := countP_set (fun u : Super => u.released && decide (u.m.region = R))
        { s with gone := s.gone || decide (p.off = 0), remaining := s.remaining - (p.n : Int) } st.sups p.sup s hs
      dsimp only at h1 ⊢
      rw [hr, Bool.false_and] at h1
      simp only [Bool.false_eq_true, if_false, Nat.add_zero] at h1
      rw [I.log R, h1]

theorem reserve_inv {k : Nat} {st : St} (I : Inv k st) {h : Nat} {p : Piece} (hh : h < st.res.length) (hp : p ∈ st.live) :
    ∃ st', reserve st h p = some st' ∧ Inv k st' := by
  obtain ⟨r, hr⟩ : ∃ r, st.res[h]? = some r := ⟨_, List.getElem?_eq_getElem hh⟩
  unfold reserve
  simp only [hr]
  by_cases hz : r.n = 0
  · rw [if_pos hz]
    refine ⟨_, rfl, ?_⟩
    have hsum : ∀ f : Piece → Nat, (∀ p, p.n = 0 → f p = 0) →
        sumOf f (st.live.erase p) + sumOf f (st.res.set h p) = sumOf f st.live + sumOf f st.res := by
      intro f hf
      have h1 := sumOf_erase f hp
      have h2 := sumOf_set f p st.res h r hr
      rw [hf r hz] at h2
      omega
    have hmem : ∀ q ∈ st.live ++ st.res, 0 < q.n → q ∈ st.live.erase p ++ st.res.set h p := by
      intro q hq h0
      by_cases e : q = p
      · subst e
        exact List.mem_append_right _ (List.mem_set hh q)
      · rcases List.mem_append.mp hq with hq | hq
        · exact List.mem_append_left _ ((List.mem_erase_of_ne e).mpr hq)
        · rcases mem_set_or h p hr hq with rfl | hq
          · omega
          · exact List.mem_append_right _ hq
    refine ⟨?_, fun q hq => I.pos q (List.mem_of_mem_erase hq), ?_, ?_, I.some', ?_, I.apart, I.good, I.log⟩
    · intro q hq h0
      refine I.inside q ?_ h0
      rcases List.mem_append.mp hq with hq | hq
      · exact List.mem_append_left _ (List.mem_of_mem_erase hq)
      · rcases List.mem_or_eq_of_mem_set hq with hq | rfl
        · exact List.mem_append_right _ hq
        · exact List.mem_append_left _ hp
    · intro i j
      have h1 := hsum (covers i j) fun p h => covers_empty h
      have h2 := I.cover i j
      dsimp only
      omega
    · intro i s hs hsr
      have h1 := hsum (has i) fun p h => has_empty h
      rw [I.count i s hs hsr]
      congr 1
      dsimp only
      omega
    · intro i s hs hsr hg
      obtain ⟨q, hq, h0, e⟩ := I.master i s hs hsr hg
      exact ⟨q, hmem q hq h0, h0, e⟩
  · rw [if_neg hz]
    exact ⟨st, rfl, I⟩

theorem step_inv {k : Nat} (hk : 3 ≤ k) (hk' : k ≤ 16) {st : St} (I : Inv k st) {op : Op} (hl : Legal k st op) :
    ∃ st', step k st op = some st' ∧ Inv k st' := by
  cases op with
  | map h n m => exact map_inv hk hk' I hl
  | mapHeaps n m => exact ⟨_, rfl, mapHeaps_inv hk hk' I hl⟩
  | unmap p => exact unmap_inv I hl
  | reserve h p => exact reserve_inv I hl.1 hl.2

theorem reach_inv {k : Nat} (hk : 3 ≤ k) (hk' : k ≤ 16) {st : St} (h : Reach k st) : Inv k st := by
  induction h with
  | init => exact init_inv k
  | step _ hl he ih =>
    obtain ⟨st', e, I⟩ := step_inv hk hk' ih hl
    rw [he] at e
    simp only [Option.some.injEq] at e
    exact e ▸ I

/-! ## The claims -/

/-- The addresses of a piece of the range `s`. -/
def Piece.start (s : Super) (p : Piece) : Nat := s.m.ptr + p.off * spanSize

/-- The address after a piece of the range `s`. -/
def Piece.stop (s : Super) (p : Piece) : Nat := s.m.ptr + (p.off + p.n) * spanSize

/-- Claim C136: whatever was mapped and unmapped before, every piece which is in use or cached lies, at a multiple of the span
size, in a range which the kernel mapped and which was not unmapped since, and no two of them overlap. -/
theorem spans_disjoint {k : Nat} (hk : 3 ≤ k) (hk' : k ≤ 16) {st : St} (h : Reach k st) :
    (∀ p ∈ st.live, ∃ s, st.sups[p.sup]? = some s ∧ s.released = false ∧ s.m.region.addr ≤ p.start s ∧
      p.start s < p.stop s ∧ p.stop s ≤ s.m.region.addr + s.m.region.len ∧ spanSize ∣ p.start s) ∧
    (∀ p q s t, [p, q].Sublist st.live → st.sups[p.sup]? = some s → st.sups[q.sup]? = some t →
      p.stop s ≤ q.start t ∨ q.stop t ≤ p.start s) := by
  have I := reach_inv hk hk' h
  have hS : spanSize = 65536 := rfl
  have hin : ∀ p ∈ st.live, ∃ s, st.sups[p.sup]? = some s ∧ s.released = false ∧ s.m.region.addr ≤ p.start s ∧
      p.start s < p.stop s ∧ p.stop s ≤ s.m.region.addr + s.m.region.len ∧ spanSize ∣ p.start s := by
    intro p hp
    have hn := I.pos p hp
    obtain ⟨s, h1, h2, h3⟩ := I.inside p (List.mem_append_left _ hp) hn
    obtain ⟨_, g1, g2, g3, _⟩ := I.good s (List.mem_of_getElem? h1)
    refine ⟨s, h1, h2, ?_, ?_, ?_, ?_⟩
    · unfold Piece.start; omega
    · unfold Piece.start Piece.stop; rw [hS]; omega
    · unfold Piece.stop
      have : (p.off + p.n) * spanSize ≤ s.total * spanSize := Nat.mul_le_mul_right _ h3
      omega
    · exact Nat.dvd_add g3 (Nat.dvd_mul_left _ _)
  refine ⟨hin, fun p q s t hsub hs ht => ?_⟩
  have hp : p ∈ st.live := hsub.subset (by simp)
  have hq : q ∈ st.live := hsub.subset (by simp)
  obtain ⟨s', e1, p1, p2, p3, p4, _⟩ := hin p hp
  obtain ⟨t', e2, q1, q2, q3, q4, _⟩ := hin q hq
  rw [hs] at e1
  rw [ht] at e2
  simp only [Option.some.injEq] at e1 e2
  subst e1 e2
  by_cases e : p.sup = q.sup
  · rw [e, ht] at hs
    simp only [Option.some.injEq] at hs
    subst hs
    have hcov : ∀ j, covers p.sup j p + covers p.sup j q ≤ 1 := by
      intro j
      have h1 := I.cover p.sup j
      have h2 : covers p.sup j p + covers p.sup j q ≤ sumOf (covers p.sup j) st.live := by
        clear h1
        revert hsub
        generalize st.live = l
        intro hsub
        have hle : ∀ (l l' : List Piece), l.Sublist l' → sumOf (covers p.sup j) l ≤ sumOf (covers p.sup j) l' := by
          intro l l' hs
          induction hs with
          | slnil => exact Nat.le_refl _
          | cons a _ ih => rw [sumOf]; omega
          | cons_cons a _ ih => rw [sumOf, sumOf]; omega
        have := hle _ _ hsub
        rw [sumOf, sumOf, sumOf] at this
        omega
      omega
    have hn := I.pos p hp
    have hn' := I.pos q hq
    unfold Piece.start Piece.stop
    rw [hS]
    rcases Nat.lt_or_ge p.off q.off with hlt | hge
    · left
      have := hcov q.off
      unfold covers at this
      rw [if_pos (c := q.sup = p.sup ∧ _) ⟨e.symm, by omega, by omega⟩] at this
      by_cases hh : q.off < p.off + p.n
      · rw [if_pos ⟨rfl, by omega, hh⟩] at this; omega
      · omega
    · right
      have := hcov p.off
      unfold covers at this
      rw [if_pos (c := p.sup = p.sup ∧ _) ⟨rfl, by omega, by omega⟩] at this
      by_cases hh : p.off < q.off + q.n
      · rw [if_pos ⟨e.symm, by omega, hh⟩] at this; omega
      · omega
  · rcases I.apart _ _ s t e hs ht p1 q1 with h | h
    · left; omega
    · right; omega

/-- Claim C137: unmapping a piece which is in use or cached is always possible: the header of its master span is still mapped.  A
range is unmapped exactly when the last of its spans was given back, pieces and reserves, and what is unmapped is exactly what the
kernel mapped: the log lists every range which was given back once, and nothing else. -/
theorem range_unmapped_once {k : Nat} (hk : 3 ≤ k) (hk' : k ≤ 16) {st : St} (h : Reach k st) :
    (∀ p ∈ st.live, ∃ st', step k st (.unmap p) = some st') ∧
    (∀ i s, st.sups[i]? = some s → (s.released = true ↔ ∀ p ∈ st.live ++ st.res, 0 < p.n → p.sup ≠ i)) ∧
    (∀ R, st.log.count R = st.sups.countP fun s => s.released && decide (s.m.region = R)) := by
  have I := reach_inv hk hk' h
  refine ⟨fun p hp => ?_, fun i s hs => ⟨fun hr p hp h0 e => ?_, fun hall => ?_⟩, I.log⟩
  · obtain ⟨st', e, _⟩ := unmap_inv I hp
    exact ⟨st', e⟩
  · obtain ⟨u, u1, u2, _⟩ := I.inside p hp h0
    rw [e, hs] at u1
    simp only [Option.some.injEq] at u1
    subst u1
    rw [hr] at u2
    exact Bool.noConfusion u2
  · cases hr : s.released with
    | true => rfl
    | false =>
      have h1 := I.some' i s hs hr
      have h2 := I.count i s hs hr
      have hz : ∀ p ∈ st.live ++ st.res, has i p = 0 := by
        intro p hp
        by_cases h0 : p.n = 0
        · exact has_empty h0
        · exact if_neg (hall p hp (by omega))
      rw [sumOf_zero _ fun p hp => hz p (List.mem_append_left _ hp),
        sumOf_zero _ fun p hp => hz p (List.mem_append_right _ hp)] at h2
      rw [h2] at h1
      exact absurd h1 (by decide)

/-- A kernel which maps at one address only. -/
def at' (a : Nat) : Kernel := fun len => if 0 < len ∧ len < 1099511627776 then some a else none

/-- Fourteen spans for the heaps, then 2, 60 and 5 spans for the first heap: 62 are carved from one range, the two spans left go
to the caches when the third request maps another range.  When all pieces of the first range are given back, in any order, it is
unmapped with its padding. -/
example : ((step 12 init (.mapHeaps 14 (at' 4194304))).bind fun s => (step 12 s (.map 0 2 (at' 8392704))).bind fun s =>
    (step 12 s (.map 0 60 (at' 0))).bind fun s => step 12 s (.map 0 5 (at' 16777216))).map (fun s => (s.live, s.res[0]?)) =
    some ([⟨2, 0, 5⟩, ⟨1, 62, 2⟩, ⟨1, 2, 60⟩, ⟨1, 0, 2⟩, ⟨0, 0, 14⟩], some ⟨2, 5, 59⟩) ∧
    ((step 12 init (.mapHeaps 14 (at' 4194304))).bind fun s => (step 12 s (.map 0 2 (at' 8392704))).bind fun s =>
    (step 12 s (.map 0 60 (at' 0))).bind fun s => (step 12 s (.map 0 5 (at' 16777216))).bind fun s =>
    (step 12 s (.unmap ⟨1, 0, 2⟩)).bind fun s => (step 12 s (.unmap ⟨1, 62, 2⟩)).bind fun s =>
      step 12 s (.unmap ⟨1, 2, 60⟩)).map (·.log) = some [⟨8392704, 4259840⟩] := by
  decide +kernel

/-- The 63 spans of a freed large block become the reserve, master span included, and are carved again. -/
example : ((step 12 init (.mapHeaps 14 (at' 4194304))).bind fun s => (step 12 s (.map 0 63 (at' 8392704))).bind fun s =>
    (step 12 s (.map 0 1 (at' 0))).bind fun s => (step 12 s (.reserve 0 ⟨1, 0, 63⟩)).bind fun s =>
    step 12 s (.map 0 3 (at' 0))).map (fun s => (s.live, s.res[0]?)) =
    some ([⟨1, 0, 3⟩, ⟨1, 63, 1⟩, ⟨0, 0, 14⟩], some ⟨1, 3, 60⟩) := by
  decide +kernel

end Verif.Rp.Spans
