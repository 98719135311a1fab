import Mathlib.Data.List.Nodup
import Mathlib.Data.List.Basic

/-!
# Threads and heaps (`src/rpmalloc.c` 757-823, 1848-1854, 1928-2008, 2890-2912), C139

Every thread that allocates has a heap, whose lists it works on without any lock.  Heaps of ended threads are put into a list of
orphans, from which new threads take them.  Here threads are interleaved arbitrarily, at the single reads and writes of the list of
orphans and of the owners; memory is sequentially consistent.  A heap is a number, and so is a thread.
-/

namespace Verif.Rp.Threads

/-- Where a thread is. -/
inductive Pc where
  /-- Runs the program without a heap. -/
  | idle
  /-- Waits for the lock in order to get a heap, src/rpmalloc.c:1939. -/
  | wantHeap
  /-- Has the lock, 1942. -/
  | popping
  /-- Has read the first orphan, 1929. -/
  | pop1 (x : Option Nat)
  /-- Has removed it, 1930. -/
  | pop2 (x : Option Nat)
  /-- Has released the lock with heap `h` and collects what others freed, 1947. -/
  | got (h : Nat)
  /-- Runs the program with heap `h`, 2895 and 820. -/
  | own (h : Nat)
  /-- Empties the caches of heap `h`, 1953-1984. -/
  | flushing (h : Nat)
  /-- Has no heap any more and waits for the lock in order to give `h` away, 1987-1992. -/
  | wantRel (h : Nat)
  /-- Has the lock, 1995. -/
  | pushing (h : Nat)
  /-- Has cleared the owner, 1849. -/
  | push1 (h : Nat)
  /-- Has linked the heap to the first orphan, 1852. -/
  | push2 (h : Nat)
  /-- Has made it the first orphan, 1853. -/
  | push3 (h : Nat)
  deriving DecidableEq

/-- The shared memory and the threads: the lock, the first orphan, `next_orphan`, `owner_thread` (`none` for -1), the number of heaps
made so far. -/
structure St where
  lock : Bool
  head : Option Nat
  next : Nat → Option Nat
  owner : Nat → Option Nat
  heaps : Nat
  pc : Nat → Pc

/-- Nothing was allocated yet. -/
def init : St := ⟨false, none, fun _ => none, fun _ => none, 0, fun _ => .idle⟩

/-- Move a thread. -/
def St.go (st : St) (t : Nat) (p : Pc) : St := { st with pc := fun u => if u = t then p else st.pc u }

/-- Write one field of a table. -/
def upd (f : Nat → Option Nat) (i : Nat) (v : Option Nat) : Nat → Option Nat := fun j => if j = i then v else f j

/-- The extra heaps of `_rpmalloc_heap_allocate_new` (src/rpmalloc.c:1900-1911) are made orphans one after the other: `m`, `m + 1`,
..., `n` of them. Returns `next_orphan` and the first orphan. -/
def extras (next : Nat → Option Nat) (head : Option Nat) (m : Nat) : Nat → (Nat → Option Nat) × Option Nat
  | 0 => (next, head)
  | n + 1 =>
    let r := extras next head m n
    (upd r.1 (m + n) r.2, some (m + n))

/-- One step of thread `t`: `none` if it has to wait.  `k`: what `_rpmalloc_heap_allocate_new` gets from the system, `none` for nothing
or the number of extra heaps (the heaps are made in one step; the lock is held).  `nolock t`: the thread was declared to be the
main thread by `rpmalloc_set_main_thread` (828), which nothing in the library calls; it skips the lock (1991).  A thread with a
heap that takes a step begins to release it. -/
def step (nolock : Nat → Bool) (st : St) (t : Nat) (k : Option Nat) : Option St :=
  match st.pc t with
  | .idle => some (st.go t .wantHeap)
  | .wantHeap => if st.lock then none else some ({ st with lock := true }.go t .popping)
  | .popping => some (st.go t (.pop1 st.head))
  | .pop1 x => some ({ st with head := x.bind st.next }.go t (.pop2 x))
  | .pop2 (some h) => some ({ st with lock := false }.go t (.got h))
  | .pop2 none =>
    match k with
    | none => some ({ st with lock := false }.go t .idle)
    | some n =>
      let r := extras st.next st.head (st.heaps + 1) n
      some ({ st with lock := false, next := r.1, head := r.2, heaps := st.heaps + 1 + n }.go t (.got st.heaps))
  | .got h => some ({ st with owner := upd st.owner h (some t) }.go t (.own h))
  | .own h => some (st.go t (.flushing h))
  | .flushing h => some (st.go t (.wantRel h))
  | .wantRel h =>
    if nolock t then some (st.go t (.pushing h))
    else if st.lock then none else some ({ st with lock := true }.go t (.pushing h))
  | .pushing h => some ({ st with owner := upd st.owner h none }.go t (.push1 h))
  | .push1 h => some ({ st with next := upd st.next h st.head }.go t (.push2 h))
  | .push2 h => some ({ st with head := some h }.go t (.push3 h))
  | .push3 _ => some ({ st with lock := false }.go t .idle)

/-- All interleavings. -/
inductive Reach (nolock : Nat → Bool) : St → Prop where
  | init : Reach nolock init
  | step {st st' t k} : Reach nolock st → step nolock st t k = some st' → Reach nolock st'

/-! ## What is expected -/

/-- The heap on whose lists a thread may work without a lock. -/
def Pc.worksOn : Pc → Option Nat
  | .got h | .own h | .flushing h => some h
  | _ => none

/-- `_rpmalloc_deallocate_direct_small_or_medium` is chosen if the owner is the running thread (src/rpmalloc.c:2390, 2453). -/
def direct (st : St) (t h : Nat) : Bool := st.owner h == some t

/-- The list of orphans as it is linked. -/
inductive Chain (next : Nat → Option Nat) : Option Nat → List Nat → Prop where
  | nil : Chain next none []
  | cons {h l} : Chain next (next h) l → Chain next (some h) (h :: l)

/-! ## Invariant -/

/-- The heap that a thread has taken and not given back. -/
def Pc.has : Pc → Option Nat
  | .pop2 x => x
  | .got h | .own h | .flushing h | .wantRel h | .pushing h | .push1 h | .push2 h => some h
  | _ => none

/-- The thread has the lock. -/
def Pc.locked : Pc → Bool
  | .popping | .pop1 _ | .pop2 _ | .pushing _ | .push1 _ | .push2 _ | .push3 _ => true
  | _ => false

/-- The owner of the heap is written down. -/
def Pc.noted : Pc → Option Nat
  | .own h | .flushing h | .wantRel h | .pushing h => some h
  | _ => none

structure Inv (st : St) (L : List Nat) : Prop where
  chain : Chain st.next st.head L
  nodup : L.Nodup
  lock : ∀ t, (st.pc t).locked = true → st.lock = true
  alone : ∀ t u, (st.pc t).locked = true → (st.pc u).locked = true → t = u
  read : ∀ t x, st.pc t = .pop1 x → x = st.head
  linked : ∀ t h, st.pc t = .push2 h → st.next h = st.head
  one : ∀ t u h, (st.pc t).has = some h → (st.pc u).has = some h → t = u
  away : ∀ t h, (st.pc t).has = some h → h ∉ L
  made : ∀ t h, (st.pc t).has = some h → h < st.heaps
  madeL : ∀ h ∈ L, h < st.heaps
  all : ∀ h, h < st.heaps → h ∈ L ∨ ∃ t, (st.pc t).has = some h
  owner : ∀ t h, st.owner h = some t ↔ (st.pc t).noted = some h

theorem chain_unique {next : Nat → Option Nat} {x : Option Nat} {l l' : List Nat} (h : Chain next x l) (h' : Chain next x l') :
    l = l' := by
  induction h generalizing l' with
  | nil => cases h'; rfl
  | cons _ ih => cases h' with | cons q => rw [ih q]

theorem chain_upd {next : Nat → Option Nat} {x : Option Nat} {l : List Nat} (h : Chain next x l) {i : Nat} (hi : i ∉ l)
    (v : Option Nat) : Chain (upd next i v) x l := by
  induction h with
  | nil => exact Chain.nil
  | @cons a l q ih =>
    rw [List.mem_cons, not_or] at hi
    have : upd next i v a = next a := by
      unfold upd
      rw [if_neg (fun e => hi.1 e.symm)]
    exact Chain.cons (this ▸ ih hi.2)

theorem chain_extras {next : Nat → Option Nat} {x : Option Nat} {l : List Nat} (h : Chain next x l) {m : Nat}
    (hl : ∀ i ∈ l, i < m) (hn : l.Nodup) : ∀ n, ∃ l', Chain (extras next x m n).1 (extras next x m n).2 l' ∧ l'.Nodup ∧
      ∀ i, i ∈ l' ↔ i ∈ l ∨ (m ≤ i ∧ i < m + n)
  | 0 => ⟨l, h, hn, fun i => ⟨Or.inl, fun q => q.elim id fun q => absurd q (by omega)⟩⟩
  | n + 1 => by
    obtain ⟨l', c1, c2, c3⟩ := chain_extras h hl hn n
    have hnot : m + n ∉ l' := by
      intro q
      rcases (c3 _).1 q with q | q
      · have := hl _ q; omega
      · omega
    refine ⟨(m + n) :: l', ?_, List.nodup_cons.2 ⟨hnot, c2⟩, fun i => ?_⟩
    · unfold extras
      dsimp only
      refine Chain.cons ?_
      have : upd (extras next x m n).1 (m + n) (extras next x m n).2 (m + n) = (extras next x m n).2 := by
        unfold upd; rw [if_pos rfl]
      rw [this]
      exact chain_upd c1 hnot _
    · rw [List.mem_cons, c3]
      constructor
      · rintro (q | q | q)
        · exact Or.inr (by omega)
        · exact Or.inl q
        · exact Or.inr (by omega)
      · rintro (q | q)
        · exact Or.inr (Or.inl q)
        · by_cases e : i = m + n
          · exact Or.inl e
          · exact Or.inr (Or.inr (by omega))

theorem go_pc (st : St) (t : Nat) (p : Pc) (u : Nat) : (st.go t p).pc u = if u = t then p else st.pc u := rfl

/-- Only the position of thread `t` changes, to one with the same properties, or the lock is taken or released. -/
theorem inv_move {st st' : St} {L : List Nat} (I : Inv st L) {t : Nat} {p : Pc} (hpc : ∀ u, st'.pc u = if u = t then p else st.pc u)
    (hnext : st'.next = st.next) (hhead : st'.head = st.head) (howner : st'.owner = st.owner) (hheaps : st'.heaps = st.heaps)
    (hlk : (p.locked = true ∧ st'.lock = true ∧ ∀ u, u ≠ t → (st.pc u).locked = false) ∨
      (p.locked = false ∧ ((st.pc t).locked = true ∨ st'.lock = st.lock)))
    (hread : ∀ x, p = .pop1 x → x = st.head) (hlinked : ∀ h, p = .push2 h → st.next h = st.head)
    (hhas : p.has = (st.pc t).has) (hnoted : p.noted = (st.pc t).noted) : Inv st' L := by
  have hhas' : ∀ u, (st'.pc u).has = (st.pc u).has := by
    intro u
    rw [hpc]
    split
    · rename_i e; rw [e]; exact hhas
    · rfl
  have hnoted' : ∀ u, (st'.pc u).noted = (st.pc u).noted := by
    intro u
    rw [hpc]
    split
    · rename_i e; rw [e]; exact hnoted
    · rfl
  refine ⟨by rw [hnext, hhead]; exact I.chain, I.nodup, ?_, ?_, ?_, ?_, ?_, ?_, ?_, ?_, ?_, ?_⟩
  · intro u hu
    rw [hpc] at hu
    rcases hlk with ⟨a, b, _⟩ | ⟨a, b⟩
    · exact b
    · split at hu
      · rw [a] at hu; simp at hu
      · rename_i hne
        rcases b with b | b
        · exact absurd (I.alone u t hu b) hne
        · rw [b]; exact I.lock u hu
  · intro u v hu hv
    rw [hpc] at hu hv
    rcases hlk with ⟨a, b, c⟩ | ⟨a, b⟩
    · split at hu <;> split at hv
      · rename_i e1 e2; rw [e1, e2]
      · rename_i e1 e2; rw [c v e2] at hv; simp at hv
      · rename_i e1 e2; rw [c u e1] at hu; simp at hu
      · exact I.alone u v hu hv
    · split at hu
      · rw [a] at hu; simp at hu
      · split at hv
        · rw [a] at hv; simp at hv
        · exact I.alone u v hu hv
  · intro u x hx
    rw [hhead]
    rw [hpc] at hx
    split at hx
    · exact hread x hx
    · exact I.read u x hx
  · intro u h hx
    rw [hhead, hnext]
    rw [hpc] at hx
    split at hx
    · exact hlinked h hx
    · exact I.linked u h hx
  · intro u v h hu hv
    rw [hhas'] at hu hv
    exact I.one u v h hu hv
  · intro u h hu
    rw [hhas'] at hu
    exact I.away u h hu
  · intro u h hu
    rw [hhas'] at hu
    rw [hheaps]
    exact I.made u h hu
  · rw [hheaps]; exact I.madeL
  · intro h hh
    rw [hheaps] at hh
    rcases I.all h hh with q | ⟨u, hu⟩
    · exact Or.inl q
    · exact Or.inr ⟨u, by rw [hhas']; exact hu⟩
  · intro u h
    rw [howner, hnoted']
    exact I.owner u h

/-- Changes of the shared memory by the thread with the lock. -/
theorem others_unlocked {st : St} {L : List Nat} (I : Inv st L) {t : Nat} (h : (st.pc t).locked = true) :
    ∀ u, u ≠ t → (st.pc u).locked = false := by
  intro u hu
  cases hq : (st.pc u).locked with
  | false => rfl
  | true => exact absurd (I.alone u t hq h) hu

theorem nobody_locked {st : St} {L : List Nat} (I : Inv st L) (h : st.lock = false) : ∀ u, (st.pc u).locked = false := by
  intro u
  cases hq : (st.pc u).locked with
  | false => rfl
  | true => rw [I.lock u hq] at h; simp at h

theorem not_pop1 {p : Pc} (h : p.locked = false) (x : Option Nat) : p ≠ .pop1 x := by
  rintro rfl
  simp [Pc.locked] at h

theorem not_push2 {p : Pc} (h : p.locked = false) (x : Nat) : p ≠ .push2 x := by
  rintro rfl
  simp [Pc.locked] at h

theorem step_inv {st st' : St} {L : List Nat} (I : Inv st L) {t : Nat} {k : Option Nat}
    (h : step (fun _ => false) st t k = some st') : ∃ L', Inv st' L' := by
  unfold step at h
  split at h
  · -- idle
    rename_i e
    simp only [Option.some.injEq] at h
    subst h
    exact ⟨L, inv_move I (t := t) (p := .wantHeap) (go_pc _ _ _) rfl rfl rfl rfl (Or.inr ⟨rfl, Or.inr rfl⟩) (by simp) (by simp)
      (by rw [e]; rfl) (by rw [e]; rfl)⟩
  · rename_i e
    split at h
    · simp at h
    · rename_i hl
      simp only [Option.some.injEq] at h
      subst h
      have hn := nobody_locked I (by simpa using hl)
      exact ⟨L, inv_move I (t := t) (p := .popping) (go_pc _ _ _) rfl rfl rfl rfl (Or.inl ⟨rfl, rfl, fun u _ => hn u⟩) (by simp)
        (by simp) (by rw [e]; rfl) (by rw [e]; rfl)⟩
  · rename_i e
    simp only [Option.some.injEq] at h
    subst h
    have hlk : (st.pc t).locked = true := by rw [e]; rfl
    exact ⟨L, inv_move I (t := t) (p := .pop1 st.head) (go_pc _ _ _) rfl rfl rfl rfl
      (Or.inl ⟨rfl, I.lock t hlk, others_unlocked I hlk⟩) (by simp) (by simp) (by rw [e]; rfl) (by rw [e]; rfl)⟩
  · -- the first orphan is removed
    rename_i x e
    simp only [Option.some.injEq] at h
    subst h
    have hlk : (st.pc t).locked = true := by rw [e]; rfl
    have hoth := others_unlocked I hlk
    have hx := I.read t x e
    subst hx
    cases hh : st.head with
    | none =>
      refine ⟨L, inv_move I (t := t) (p := .pop2 none) (fun u => by rw [go_pc]) rfl (by rw [hh]; rfl) rfl rfl
        (Or.inl ⟨rfl, I.lock t hlk, hoth⟩) (by simp) (by simp) (by rw [e]; rfl) (by rw [e]; rfl)⟩
    | some a =>
      have hc := I.chain
      rw [hh] at hc
      cases hL : L with
      | nil => rw [hL] at hc; cases hc
      | cons b l =>
        rw [hL] at hc
        cases hc with
        | cons hc =>
        have hnd := I.nodup
        rw [hL] at hnd
        obtain ⟨n1, n2⟩ := List.nodup_cons.1 hnd
        have hno : ∀ u, (st.pc u).has ≠ some a := fun u hu => I.away u a hu (by rw [hL]; simp)
        have hpc : ∀ u, ({ st with head := st.next a }.go t (.pop2 (some a))).pc u = if u = t then .pop2 (some a) else st.pc u :=
          go_pc _ _ _
        show ∃ L', Inv ({ st with head := st.next a }.go t (.pop2 (some a))) L'
        refine ⟨l, hc, n2, ?_, ?_, ?_, ?_, ?_, ?_, ?_, ?_, ?_, ?_⟩
        · intro u hu; exact I.lock t hlk
        · intro u v hu hv
          have : ∀ w, (({ st with head := st.next a }.go t (.pop2 (some a))).pc w).locked = true → w = t := by
            intro w hw
            rw [hpc] at hw
            split at hw
            · assumption
            · rename_i hne; rw [hoth w hne] at hw; simp at hw
          rw [this u hu, this v hv]
        · intro u y hy
          rw [hpc] at hy
          split at hy
          · simp at hy
          · rename_i hne; exact absurd hy (not_pop1 (hoth u hne) y)
        · intro u y hy
          rw [hpc] at hy
          split at hy
          · simp at hy
          · rename_i hne; exact absurd hy (not_push2 (hoth u hne) y)
        · intro u v y hu hv
          rw [hpc] at hu hv
          split at hu <;> split at hv
          · rename_i e1 e2; rw [e1, e2]
          · simp only [Pc.has, Option.some.injEq] at hu
            exact absurd (hu ▸ hv) (hno v)
          · simp only [Pc.has, Option.some.injEq] at hv
            exact absurd (hv ▸ hu) (hno u)
          · exact I.one u v y hu hv
        · intro u y hu hy
          rw [hpc] at hu
          split at hu
          · simp only [Pc.has, Option.some.injEq] at hu
            exact n1 (hu ▸ hy)
          · exact I.away u y hu (by rw [hL]; exact List.mem_cons_of_mem _ hy)
        · intro u y hu
          rw [hpc] at hu
          split at hu
          · simp only [Pc.has, Option.some.injEq] at hu
            exact I.madeL y (by rw [hL, ← hu]; simp)
          · exact I.made u y hu
        · intro y hy
          exact I.madeL y (by rw [hL]; exact List.mem_cons_of_mem _ hy)
        · intro y hy
          rcases I.all y hy with q | ⟨u, hu⟩
          · rw [hL, List.mem_cons] at q
            rcases q with q | q
            · exact Or.inr ⟨t, by rw [hpc, if_pos rfl, q]; rfl⟩
            · exact Or.inl q
          · refine Or.inr ⟨u, ?_⟩
            rw [hpc, if_neg]
            · exact hu
            · rintro rfl
              rw [e] at hu
              simp [Pc.has] at hu
        · intro u y
          rw [hpc]
          split
          · rename_i hu
            subst hu
            have := I.owner u y
            rw [e] at this
            exact this
          · exact I.owner u y
  · rename_i a e
    simp only [Option.some.injEq] at h
    subst h
    have hlk : (st.pc t).locked = true := by rw [e]; rfl
    exact ⟨L, inv_move I (t := t) (p := .got a) (go_pc _ _ _) rfl rfl rfl rfl (Or.inr ⟨rfl, Or.inl hlk⟩) (by simp) (by simp)
      (by rw [e]; rfl) (by rw [e]; rfl)⟩
  · -- no orphan
    rename_i e
    have hlk : (st.pc t).locked = true := by rw [e]; rfl
    have hoth := others_unlocked I hlk
    split at h
    · simp only [Option.some.injEq] at h
      subst h
      exact ⟨L, inv_move I (t := t) (p := .idle) (go_pc _ _ _) rfl rfl rfl rfl (Or.inr ⟨rfl, Or.inl hlk⟩) (by simp) (by simp)
        (by rw [e]; rfl) (by rw [e]; rfl)⟩
    · rename_i n
      simp only [Option.some.injEq] at h
      subst h
      obtain ⟨L', c1, c2, c3⟩ := chain_extras I.chain (m := st.heaps + 1) (fun i hi => by have := I.madeL i hi; omega) I.nodup n
      have hmem : ∀ u y, (if u = t then Pc.got st.heaps else st.pc u).has = some y →
          (u = t ∧ y = st.heaps) ∨ (u ≠ t ∧ (st.pc u).has = some y ∧ y < st.heaps) := by
        intro u y hu
        split at hu
        · rename_i hq
          simp only [Pc.has, Option.some.injEq] at hu
          exact Or.inl ⟨hq, hu.symm⟩
        · rename_i hq
          exact Or.inr ⟨hq, hu, I.made u y hu⟩
      have hunl : ∀ u, (if u = t then Pc.got st.heaps else st.pc u).locked = false := by
        intro u
        split
        · rfl
        · rename_i hne; exact hoth u hne
      refine ⟨L', c1, c2, ?_, ?_, ?_, ?_, ?_, ?_, ?_, ?_, ?_, ?_⟩
      · intro u hu
        rw [go_pc] at hu
        rw [hunl u] at hu
        simp at hu
      · intro u v hu _
        rw [go_pc] at hu
        rw [hunl u] at hu
        simp at hu
      · intro u y hy
        rw [go_pc] at hy
        exact absurd hy (not_pop1 (hunl u) y)
      · intro u y hy
        rw [go_pc] at hy
        exact absurd hy (not_push2 (hunl u) y)
      · intro u v y hu hv
        rw [go_pc] at hu hv
        rcases hmem u y hu with ⟨q1, q2⟩ | ⟨q1, q2, q3⟩ <;> rcases hmem v y hv with ⟨r1, r2⟩ | ⟨r1, r2, r3⟩
        · rw [q1, r1]
        · omega
        · omega
        · exact I.one u v y q2 r2
      · intro u y hu hy
        rw [go_pc] at hu
        rcases (c3 y).1 hy with q | q
        · rcases hmem u y hu with ⟨_, q2⟩ | ⟨_, q2, q3⟩
          · have := I.madeL y q
            omega
          · exact I.away u y q2 q
        · rcases hmem u y hu with ⟨_, q2⟩ | ⟨_, q2, q3⟩ <;> omega
      · intro u y hu
        rw [go_pc] at hu
        show y < st.heaps + 1 + n
        rcases hmem u y hu with ⟨_, q2⟩ | ⟨_, _, q3⟩ <;> omega
      · intro y hy
        show y < st.heaps + 1 + n
        rcases (c3 y).1 hy with q | q
        · have := I.madeL y q
          omega
        · omega
      · intro y hy
        have hy' : y < st.heaps + 1 + n := hy
        by_cases h1 : y < st.heaps
        · rcases I.all y h1 with q | ⟨u, hu⟩
          · exact Or.inl ((c3 y).2 (Or.inl q))
          · refine Or.inr ⟨u, ?_⟩
            rw [go_pc, if_neg]
            · exact hu
            · rintro rfl
              rw [e] at hu
              simp [Pc.has] at hu
        · by_cases h2 : y = st.heaps
          · exact Or.inr ⟨t, by rw [go_pc, if_pos rfl, h2]; rfl⟩
          · exact Or.inl ((c3 y).2 (Or.inr (by omega)))
      · intro u y
        rw [go_pc]
        split
        · rename_i hu
          subst hu
          have := I.owner u y
          rw [e] at this
          exact this
        · exact I.owner u y
  · -- the owner is written
    rename_i a e
    simp only [Option.some.injEq] at h
    subst h
    have hhas : (st.pc t).has = some a := by rw [e]; rfl
    have hpc : ∀ u, ({ st with owner := upd st.owner a (some t) }.go t (.own a)).pc u = if u = t then .own a else st.pc u :=
      go_pc _ _ _
    have hunl : ∀ u, ((if u = t then Pc.own a else st.pc u)).locked = true → u ≠ t ∧ (st.pc u).locked = true := by
      intro u hu
      split at hu
      · simp [Pc.locked] at hu
      · rename_i hne; exact ⟨hne, hu⟩
    have hh : ∀ u, (if u = t then Pc.own a else st.pc u).has = (st.pc u).has := by
      intro u
      split
      · rename_i q; rw [q, hhas]; rfl
      · rfl
    refine ⟨L, I.chain, I.nodup, ?_, ?_, ?_, ?_, ?_, ?_, ?_, I.madeL, ?_, ?_⟩
    · intro u hu
      rw [hpc] at hu
      exact I.lock u (hunl u hu).2
    · intro u v hu hv
      rw [hpc] at hu hv
      exact I.alone u v (hunl u hu).2 (hunl v hv).2
    · intro u y hy
      rw [hpc] at hy
      split at hy
      · simp at hy
      · exact I.read u y hy
    · intro u y hy
      rw [hpc] at hy
      split at hy
      · simp at hy
      · exact I.linked u y hy
    · intro u v y hu hv
      rw [hpc, hh] at hu hv
      exact I.one u v y hu hv
    · intro u y hu
      rw [hpc, hh] at hu
      exact I.away u y hu
    · intro u y hu
      rw [hpc, hh] at hu
      exact I.made u y hu
    · intro y hy
      rcases I.all y hy with q | ⟨u, hu⟩
      · exact Or.inl q
      · exact Or.inr ⟨u, by rw [hpc, hh]; exact hu⟩
    · intro u y
      rw [hpc]
      show upd st.owner a (some t) y = some u ↔ _
      unfold upd
      by_cases hy : y = a
      · subst hy
        rw [if_pos rfl]
        constructor
        · intro q
          simp only [Option.some.injEq] at q
          rw [if_pos q.symm]
          rfl
        · intro q
          by_cases hu : u = t
          · rw [hu]
          · rw [if_neg hu] at q
            have : (st.pc u).has = some y := by
              cases hp : st.pc u <;> rw [hp] at q <;> simp [Pc.noted] at q <;> simp [Pc.has, q]
            exact absurd (I.one u t y this hhas) hu
      · rw [if_neg hy]
        by_cases hu : u = t
        · subst hu
          rw [if_pos rfl]
          have := I.owner u y
          rw [e] at this
          simp only [Pc.noted] at this ⊢
          rw [this]
          simp only [reduceCtorEq, Option.some.injEq, false_iff]
          exact fun q => hy q.symm
        · rw [if_neg hu]
          exact I.owner u y
  · rename_i a e
    simp only [Option.some.injEq] at h
    subst h
    exact ⟨L, inv_move I (t := t) (p := .flushing a) (go_pc _ _ _) rfl rfl rfl rfl (Or.inr ⟨rfl, Or.inr rfl⟩) (by simp) (by simp)
      (by rw [e]; rfl) (by rw [e]; rfl)⟩
  · rename_i a e
    simp only [Option.some.injEq] at h
    subst h
    exact ⟨L, inv_move I (t := t) (p := .wantRel a) (go_pc _ _ _) rfl rfl rfl rfl (Or.inr ⟨rfl, Or.inr rfl⟩) (by simp) (by simp)
      (by rw [e]; rfl) (by rw [e]; rfl)⟩
  · rename_i a e
    rw [if_neg (by simp)] at h
    split at h
    · simp at h
    · rename_i hl
      simp only [Option.some.injEq] at h
      subst h
      have hn := nobody_locked I (by simpa using hl)
      exact ⟨L, inv_move I (t := t) (p := .pushing a) (go_pc _ _ _) rfl rfl rfl rfl (Or.inl ⟨rfl, rfl, fun u _ => hn u⟩) (by simp)
        (by simp) (by rw [e]; rfl) (by rw [e]; rfl)⟩
  · -- the owner is cleared
    rename_i a e
    simp only [Option.some.injEq] at h
    subst h
    have hlk : (st.pc t).locked = true := by rw [e]; rfl
    have hoth := others_unlocked I hlk
    have hnt : (st.pc t).noted = some a := by rw [e]; rfl
    have hpc : ∀ u, ({ st with owner := upd st.owner a none }.go t (.push1 a)).pc u = if u = t then .push1 a else st.pc u :=
      go_pc _ _ _
    have hh : ∀ u, (if u = t then Pc.push1 a else st.pc u).has = (st.pc u).has := by
      intro u
      split
      · rename_i q; rw [q, e]; rfl
      · rfl
    have hl' : ∀ u, (if u = t then Pc.push1 a else st.pc u).locked = (st.pc u).locked := by
      intro u
      split
      · rename_i q; rw [q, e]; rfl
      · rfl
    refine ⟨L, I.chain, I.nodup, ?_, ?_, ?_, ?_, ?_, ?_, ?_, I.madeL, ?_, ?_⟩
    · intro u hu
      rw [hpc, hl'] at hu
      exact I.lock u hu
    · intro u v hu hv
      rw [hpc, hl'] at hu hv
      exact I.alone u v hu hv
    · intro u y hy
      rw [hpc] at hy
      split at hy
      · simp at hy
      · exact I.read u y hy
    · intro u y hy
      rw [hpc] at hy
      split at hy
      · simp at hy
      · exact I.linked u y hy
    · intro u v y hu hv
      rw [hpc, hh] at hu hv
      exact I.one u v y hu hv
    · intro u y hu
      rw [hpc, hh] at hu
      exact I.away u y hu
    · intro u y hu
      rw [hpc, hh] at hu
      exact I.made u y hu
    · intro y hy
      rcases I.all y hy with q | ⟨u, hu⟩
      · exact Or.inl q
      · exact Or.inr ⟨u, by rw [hpc, hh]; exact hu⟩
    · intro u y
      rw [hpc]
      show upd st.owner a none y = some u ↔ _
      unfold upd
      by_cases hy : y = a
      · subst hy
        rw [if_pos rfl]
        simp only [reduceCtorEq, false_iff]
        intro q
        by_cases hu : u = t
        · rw [if_pos hu] at q
          simp [Pc.noted] at q
        · rw [if_neg hu] at q
          have h1 := (I.owner u y).2 q
          have h2 := (I.owner t y).2 hnt
          rw [h1] at h2
          simp only [Option.some.injEq] at h2
          exact hu h2
      · rw [if_neg hy]
        by_cases hu : u = t
        · subst hu
          rw [if_pos rfl]
          have := I.owner u y
          rw [e] at this
          simp only [Pc.noted, Option.some.injEq] at this ⊢
          rw [this]
          simp only [reduceCtorEq, iff_false]
          exact fun q => hy q.symm
        · rw [if_neg hu]
          exact I.owner u y
  · -- the heap is linked
    rename_i a e
    simp only [Option.some.injEq] at h
    subst h
    have hlk : (st.pc t).locked = true := by rw [e]; rfl
    have hoth := others_unlocked I hlk
    have haway : a ∉ L := I.away t a (by rw [e]; rfl)
    have hpc : ∀ u, ({ st with next := upd st.next a st.head }.go t (.push2 a)).pc u = if u = t then .push2 a else st.pc u :=
      go_pc _ _ _
    have hh : ∀ u, (if u = t then Pc.push2 a else st.pc u).has = (st.pc u).has := by
      intro u
      split
      · rename_i q; rw [q, e]; rfl
      · rfl
    have hl' : ∀ u, (if u = t then Pc.push2 a else st.pc u).locked = (st.pc u).locked := by
      intro u
      split
      · rename_i q; rw [q, e]; rfl
      · rfl
    refine ⟨L, chain_upd I.chain haway _, I.nodup, ?_, ?_, ?_, ?_, ?_, ?_, ?_, I.madeL, ?_, ?_⟩
    · intro u hu
      rw [hpc, hl'] at hu
      exact I.lock u hu
    · intro u v hu hv
      rw [hpc, hl'] at hu hv
      exact I.alone u v hu hv
    · intro u y hy
      rw [hpc] at hy
      split at hy
      · simp at hy
      · exact I.read u y hy
    · intro u y hy
      rw [hpc] at hy
      split at hy
      · simp only [Pc.push2.injEq] at hy
        subst hy
        show upd st.next a st.head a = st.head
        unfold upd
        rw [if_pos rfl]
      · rename_i hne; exact absurd hy (not_push2 (hoth u hne) y)
    · intro u v y hu hv
      rw [hpc, hh] at hu hv
      exact I.one u v y hu hv
    · intro u y hu
      rw [hpc, hh] at hu
      exact I.away u y hu
    · intro u y hu
      rw [hpc, hh] at hu
      exact I.made u y hu
    · intro y hy
      rcases I.all y hy with q | ⟨u, hu⟩
      · exact Or.inl q
      · exact Or.inr ⟨u, by rw [hpc, hh]; exact hu⟩
    · intro u y
      rw [hpc]
      split
      · rename_i hu
        subst hu
        have := I.owner u y
        rw [e] at this
        exact this
      · exact I.owner u y
  · -- the heap becomes the first orphan
    rename_i a e
    simp only [Option.some.injEq] at h
    subst h
    have hlk : (st.pc t).locked = true := by rw [e]; rfl
    have hoth := others_unlocked I hlk
    have hhas : (st.pc t).has = some a := by rw [e]; rfl
    have haway : a ∉ L := I.away t a hhas
    have hpc : ∀ u, ({ st with head := some a }.go t (.push3 a)).pc u = if u = t then .push3 a else st.pc u := go_pc _ _ _
    have hl' : ∀ u, (if u = t then Pc.push3 a else st.pc u).locked = (st.pc u).locked := by
      intro u
      split
      · rename_i q; rw [q, e]; rfl
      · rfl
    have hh : ∀ u y, (if u = t then Pc.push3 a else st.pc u).has = some y → u ≠ t ∧ (st.pc u).has = some y := by
      intro u y hu
      split at hu
      · simp [Pc.has] at hu
      · rename_i hne; exact ⟨hne, hu⟩
    refine ⟨a :: L, ?_, List.nodup_cons.2 ⟨haway, I.nodup⟩, ?_, ?_, ?_, ?_, ?_, ?_, ?_, ?_, ?_, ?_⟩
    · refine Chain.cons ?_
      have := I.linked t a e
      show Chain st.next (st.next a) L
      rw [this]
      exact I.chain
    · intro u hu
      rw [hpc, hl'] at hu
      exact I.lock u hu
    · intro u v hu hv
      rw [hpc, hl'] at hu hv
      exact I.alone u v hu hv
    · intro u y hy
      rw [hpc] at hy
      split at hy
      · simp at hy
      · rename_i hne; exact absurd hy (not_pop1 (hoth u hne) y)
    · intro u y hy
      rw [hpc] at hy
      split at hy
      · simp at hy
      · rename_i hne; exact absurd hy (not_push2 (hoth u hne) y)
    · intro u v y hu hv
      rw [hpc] at hu hv
      exact I.one u v y (hh u y hu).2 (hh v y hv).2
    · intro u y hu
      rw [hpc] at hu
      obtain ⟨q1, q2⟩ := hh u y hu
      rw [List.mem_cons, not_or]
      refine ⟨?_, I.away u y q2⟩
      rintro rfl
      exact q1 (I.one u t y q2 hhas)
    · intro u y hu
      rw [hpc] at hu
      exact I.made u y (hh u y hu).2
    · intro y hy
      rw [List.mem_cons] at hy
      rcases hy with rfl | hy
      · exact I.made t y hhas
      · exact I.madeL y hy
    · intro y hy
      rcases I.all y hy with q | ⟨u, hu⟩
      · exact Or.inl (List.mem_cons_of_mem _ q)
      · by_cases hu' : u = t
        · subst hu'
          rw [hhas] at hu
          simp only [Option.some.injEq] at hu
          exact Or.inl (by rw [← hu]; simp)
        · exact Or.inr ⟨u, by rw [hpc, if_neg hu']; exact hu⟩
    · intro u y
      rw [hpc]
      split
      · rename_i hu
        subst hu
        have := I.owner u y
        rw [e] at this
        exact this
      · exact I.owner u y
  · rename_i a e
    simp only [Option.some.injEq] at h
    subst h
    have hlk : (st.pc t).locked = true := by rw [e]; rfl
    exact ⟨L, inv_move I (t := t) (p := .idle) (go_pc _ _ _) rfl rfl rfl rfl (Or.inr ⟨rfl, Or.inl hlk⟩) (by simp) (by simp)
      (by rw [e]; rfl) (by rw [e]; rfl)⟩

theorem reach_inv {st : St} (h : Reach (fun _ => false) st) : ∃ L, Inv st L := by
  induction h with
  | init =>
    refine ⟨[], Chain.nil, List.nodup_nil, ?_, ?_, ?_, ?_, ?_, ?_, ?_, ?_, ?_, ?_⟩ <;>
      simp [init, Pc.locked, Pc.has, Pc.noted]
  | step _ hs ih =>
    obtain ⟨L, I⟩ := ih
    exact step_inv I hs

/-! ## Theorems -/

theorem worksOn_has {p : Pc} {h : Nat} (q : p.worksOn = some h) : p.has = some h := by
  cases p <;> simp [Pc.worksOn] at q <;> simp [Pc.has, q]

/-- C139: at no time do two threads work on the same heap, and a heap that a thread works on is no orphan which another could take. -/
theorem heap_one_thread {st : St} (hr : Reach (fun _ => false) st) :
    (∀ t u h, (st.pc t).worksOn = some h → (st.pc u).worksOn = some h → t = u) ∧
    ∃ L, Chain st.next st.head L ∧ L.Nodup ∧ ∀ t h, (st.pc t).worksOn = some h → h ∉ L := by
  obtain ⟨L, I⟩ := reach_inv hr
  exact ⟨fun t u h a b => I.one t u h (worksOn_has a) (worksOn_has b), L, I.chain, I.nodup,
    fun t h a => I.away t h (worksOn_has a)⟩

/-- C139: a thread that runs the program frees a block directly if and only if it works on the heap of the block. -/
theorem direct_free_own_heap {st : St} (hr : Reach (fun _ => false) st) {t : Nat}
    (hp : st.pc t = .idle ∨ ∃ h, st.pc t = .own h) (h : Nat) : direct st t h = true ↔ (st.pc t).worksOn = some h := by
  obtain ⟨L, I⟩ := reach_inv hr
  have := I.owner t h
  unfold direct
  rw [beq_iff_eq, this]
  rcases hp with e | ⟨a, e⟩ <;> rw [e] <;> simp [Pc.noted, Pc.worksOn]

/-- C139: no heap is lost: it is with a thread or can be taken by the next one; and heaps are made only if there is no orphan. -/
theorem heap_not_lost {st : St} (hr : Reach (fun _ => false) st) :
    (∃ L, Chain st.next st.head L ∧ ∀ h, h < st.heaps → h ∈ L ∨ ∃ t, (st.pc t).has = some h) ∧
    ∀ t k st', step (fun _ => false) st t k = some st' → st'.heaps ≠ st.heaps → st.head = none := by
  obtain ⟨L, I⟩ := reach_inv hr
  refine ⟨⟨L, I.chain, I.all⟩, fun t k st' hs hne => ?_⟩
  -- the list was found empty by this thread, which has had the lock since
  have key : ∀ st : St, Reach (fun _ => false) st → ∀ t, st.pc t = .pop2 none → st.head = none := by
    intro st hr
    induction hr with
    | init => intro t e; simp [init] at e
    | @step s1 s2 u k' hr' hs ih =>
      intro t e
      obtain ⟨L1, J⟩ := reach_inv hr'
      by_cases hu : u = t
      · subst hu
        cases hp : s1.pc u <;> simp only [step, hp] at hs
        case pop1 x =>
          simp only [Option.some.injEq] at hs
          subst hs
          rw [go_pc, if_pos rfl] at e
          simp only [Pc.pop2.injEq] at e
          subst e
          rfl
        case pop2 x =>
          cases x with
          | some a =>
            simp only [Option.some.injEq] at hs
            subst hs
            rw [go_pc, if_pos rfl] at e
            simp at e
          | none =>
            cases k' <;> (simp only [Option.some.injEq] at hs; subst hs; rw [go_pc, if_pos rfl] at e; simp at e)
        case wantHeap =>
          split at hs
          · simp at hs
          · simp only [Option.some.injEq] at hs
            subst hs
            rw [go_pc, if_pos rfl] at e
            simp at e
        case wantRel a =>
          rw [if_neg (by simp)] at hs
          split at hs
          · simp at hs
          · simp only [Option.some.injEq] at hs
            subst hs
            rw [go_pc, if_pos rfl] at e
            simp at e
        all_goals
          simp only [Option.some.injEq] at hs
          subst hs
          rw [go_pc, if_pos rfl] at e
          simp at e
      · have hne : t ≠ u := fun q => hu q.symm
        have ht : s1.pc t = .pop2 none := by
          cases hp : s1.pc u <;> simp only [step, hp] at hs
          case pop2 x =>
            cases x with
            | some a => simp only [Option.some.injEq] at hs; subst hs; rw [go_pc, if_neg hne] at e; exact e
            | none => cases k' <;> (simp only [Option.some.injEq] at hs; subst hs; rw [go_pc, if_neg hne] at e; exact e)
          case wantHeap =>
            split at hs
            · simp at hs
            · simp only [Option.some.injEq] at hs; subst hs; rw [go_pc, if_neg hne] at e; exact e
          case wantRel a =>
            rw [if_neg (by simp)] at hs
            split at hs
            · simp at hs
            · simp only [Option.some.injEq] at hs; subst hs; rw [go_pc, if_neg hne] at e; exact e
          all_goals
            simp only [Option.some.injEq] at hs
            subst hs
            rw [go_pc, if_neg hne] at e
            exact e
        have h0 := ih t ht
        have hunl : (s1.pc u).locked = false := others_unlocked J (t := t) (by rw [ht]; rfl) u hu
        cases hp : s1.pc u <;> simp only [step, hp] at hs
        case wantHeap =>
          split at hs
          · simp at hs
          · simp only [Option.some.injEq] at hs; subst hs; exact h0
        case wantRel a =>
          rw [if_neg (by simp)] at hs
          split at hs
          · simp at hs
          · simp only [Option.some.injEq] at hs; subst hs; exact h0
        case idle => simp only [Option.some.injEq] at hs; subst hs; exact h0
        case got a => simp only [Option.some.injEq] at hs; subst hs; exact h0
        case own a => simp only [Option.some.injEq] at hs; subst hs; exact h0
        case flushing a => simp only [Option.some.injEq] at hs; subst hs; exact h0
        all_goals (rw [hp] at hunl; simp [Pc.locked] at hunl)
  cases hp : st.pc t <;> simp only [step, hp] at hs
  case pop2 x =>
    cases x with
    | some a => simp only [Option.some.injEq] at hs; subst hs; exact absurd rfl hne
    | none => exact key st hr t hp
  case wantHeap =>
    split at hs
    · simp at hs
    · simp only [Option.some.injEq] at hs; subst hs; exact absurd rfl hne
  case wantRel a =>
    rw [if_neg (by simp)] at hs
    split at hs
    · simp at hs
    · simp only [Option.some.injEq] at hs; subst hs; exact absurd rfl hne
  all_goals
    simp only [Option.some.injEq] at hs
    subst hs
    exact absurd rfl hne

/-! ## A thread without the lock -/

/-- A schedule: which threads take steps, and what the system grants. -/
def run (nolock : Nat → Bool) : St → List (Nat × Option Nat) → Option St
  | st, [] => some st
  | st, (t, k) :: l => (step nolock st t k).bind fun st => run nolock st l

theorem run_reach {nolock : Nat → Bool} : ∀ (l : List (Nat × Option Nat)) {st st' : St}, Reach nolock st →
    run nolock st l = some st' → Reach nolock st'
  | [], st, st', hr, h => by
    simp only [run, Option.some.injEq] at h
    exact h ▸ hr
  | (t, k) :: l, st, st', hr, h => by
    unfold run at h
    cases hs : step nolock st t k with
    | none => rw [hs] at h; simp at h
    | some s1 =>
      rw [hs] at h
      exact run_reach l (Reach.step hr hs) h

/-- Thread 0 gets heap 0 (heap 1 is made with it) and begins to release it; thread 1 takes the lock and reads heap 1 as the first
orphan; thread 0 puts heap 0 in front of it and frees the lock of thread 1; thread 2 takes heap 0, thread 3 takes heap 1, and
thread 1 goes on with heap 1, too. -/
def raceSchedule : List (Nat × Option Nat) :=
  [(0, none), (0, none), (0, none), (0, none), (0, some 1), (0, none), (0, none), (0, none),   -- 0: wantRel 0, orphan 1
   (1, none), (1, none), (1, none),                                                            -- 1: pop1 (some 1), has the lock
   (0, none), (0, none), (0, none), (0, none), (0, none),                                      -- 0: pushed 0, lock freed
   (2, none), (2, none), (2, none), (2, none), (2, none),                                      -- 2: got 0, orphan 1
   (3, none), (3, none), (3, none), (3, none), (3, none),                                      -- 3: got 1
   (1, none), (1, none)]                                                                       -- 1: got 1

/-- C139: false for a program that calls `rpmalloc_set_main_thread`: when the main thread gives up its heap it does not take the lock,
but frees it; two other threads can then have the same heap. -/
theorem main_thread_shares_heap : ∃ st, Reach (fun t => t == 0) st ∧ (st.pc 1).worksOn = some 1 ∧ (st.pc 3).worksOn = some 1 := by
  have h : ∃ st, run (fun t => t == 0) init raceSchedule = some st ∧ (st.pc 1).worksOn = some 1 ∧ (st.pc 3).worksOn = some 1 :=
    ⟨_, rfl, rfl, rfl⟩
  obtain ⟨st, h1, h2, h3⟩ := h
  exact ⟨st, run_reach _ Reach.init h1, h2, h3⟩

/-- Two threads at the same time, each with its own heap. -/
example : ∃ st, Reach (fun _ => false) st ∧ (st.pc 0).worksOn = some 0 ∧ (st.pc 1).worksOn = some 3 ∧ direct st 1 3 = true := by
  have h : ∃ st, run (fun _ => false) init [(0, none), (0, none), (0, none), (0, none), (0, some 3), (1, none), (1, none),
      (0, none), (1, none), (1, none), (1, none), (1, none)] = some st ∧ (st.pc 0).worksOn = some 0 ∧ (st.pc 1).worksOn = some 3 ∧
      direct st 1 3 = true := ⟨_, rfl, rfl, rfl, rfl⟩
  obtain ⟨st, h1, h2⟩ := h
  exact ⟨st, run_reach _ Reach.init h1, h2⟩

end Verif.Rp.Threads
