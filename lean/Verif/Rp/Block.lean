import Verif.Rp.Sizes
import Mathlib.Data.Nat.Bitwise

/-!
# Blocks, their size, and reallocation (`src/rpmalloc.c` 2385-2391, 2463-2472, 2484-2556, 3046-3070), C130, C131

What the allocator knows about a block is in the header of its span, at the last multiple of 64 KiB below the pointer.
-/

namespace Verif.Rp

/-- What the header of a span says about its blocks (`size_class`, `block_size`, `block_count`, `span_count`,
src/rpmalloc.c:559-594). -/
inductive Kind where
  | cls (blockSize blockCount : Nat)
  | large (spans : Nat)
  | huge (pages : Nat)
  deriving DecidableEq, Repr

/-- A block: the address of its span, what the header says, and its number within the span. -/
structure Blk where
  span : Nat
  kind : Kind
  idx : Nat
  deriving DecidableEq, Repr

/-- The address of the first byte of the block. -/
def Blk.start (b : Blk) : Nat :=
  match b.kind with
  | .cls bs _ => b.span + hdr + b.idx * bs
  | _ => b.span + hdr

/-- The address after the last byte of the block; pages are `2 ^ k` bytes. -/
def Blk.stop (k : Nat) (b : Blk) : Nat :=
  match b.kind with
  | .cls bs _ => b.span + hdr + (b.idx + 1) * bs
  | .large n => b.span + n * spanSize
  | .huge n => b.span + n * 2 ^ k

/-- A block as the allocator makes them: at a multiple of the span size; in a span of a size class it is one of the blocks
which fit there; large blocks have up to 63 spans; the header fits into the pages of a huge one. -/
structure Blk.Ok (k : Nat) (b : Blk) : Prop where
  aligned : spanSize ∣ b.span
  pos : 0 < b.span
  room : match b.kind with
    | .cls bs n => Fits bs n ∧ b.idx < n
    | .large n => 1 ≤ n ∧ n ≤ 63 ∧ b.idx = 0
    | .huge n => hdr < n * 2 ^ k ∧ b.idx = 0 ∧ n < 4294967296

/-- `(uintptr_t)p & _memory_span_mask`, src/rpmalloc.c:2466, 2487, 3049. -/
def spanOf (p : Nat) : Nat := p / spanSize * spanSize

/-- `rpmalloc_usable_size`, src/rpmalloc.c:3046-3070, for the header `kind`. -/
def usable (k : Nat) (kind : Kind) (p : Nat) : Nat :=
  match kind with
  | .cls bs _ => bs - (p - (spanOf p + hdr)) % bs
  | .large n => n * spanSize - (p - spanOf p)
  | .huge n => n * 2 ^ k - (p - spanOf p)

/-- The start of the block which `_rpmalloc_deallocate_small_or_medium` puts on a free list, src/rpmalloc.c:2387-2392: the
pointer itself unless the span is marked as having aligned blocks. -/
def freeStart (bs : Nat) (marked : Bool) (p : Nat) : Nat :=
  if marked then p - (p - (spanOf p + hdr)) % 4294967296 % bs else p

/-- A pointer into a block: within its first span (so that the header is found) and not at its end. -/
def Blk.Has (k : Nat) (b : Blk) (p : Nat) : Prop := b.start ≤ p ∧ p < b.stop k ∧ p < b.span + spanSize

/-- The header of a block is found from every pointer into it. -/
theorem spanOf_eq {k : Nat} {b : Blk} (hb : b.Ok k) {p : Nat} (hp : b.Has k p) : spanOf p = b.span := by
  obtain ⟨c, hc⟩ := hb.aligned
  obtain ⟨h1, _, h3⟩ := hp
  have h0 : b.span ≤ p := by
    unfold Blk.start at h1
    split at h1 <;> omega
  unfold spanOf
  have hS : spanSize = 65536 := rfl
  rw [hS] at hc h3 ⊢
  omega

theorem cls_facts {bs n idx : Nat} (hf : Fits bs n) (hi : idx < n) : (idx + 1) * bs + hdr ≤ spanSize := by
  obtain ⟨_, _, _, h, _⟩ := hf
  have : (idx + 1) * bs ≤ n * bs := Nat.mul_le_mul_right _ hi
  omega

theorem cls_has {k : Nat} {b : Blk} (hb : b.Ok k) {p bs n : Nat} (hk : b.kind = .cls bs n) (h1 : b.start ≤ p)
    (h2 : p < b.stop k) : b.Has k p := by
  refine ⟨h1, h2, ?_⟩
  have hr := hb.room
  rw [hk] at hr
  have := cls_facts hr.1 hr.2
  unfold Blk.stop at h2
  rw [hk] at h2
  dsimp only at h2
  omega

/-- The quotient and the remainder of an offset into a block. -/
theorem off_div {i bs r : Nat} (h : r < bs) : (i * bs + r) / bs = i ∧ (i * bs + r) % bs = r := by
  have hb : 0 < bs := Nat.lt_of_le_of_lt (Nat.zero_le _) h
  rw [Nat.add_comm, Nat.add_mul_div_right _ _ hb, Nat.add_mul_mod_self_right]
  exact ⟨by rw [Nat.div_eq_of_lt h, Nat.zero_add], Nat.mod_eq_of_lt h⟩

/-- An offset within the blocks of a span. -/
theorem cls_off {k : Nat} {b : Blk} {p bs n : Nat} (hk : b.kind = .cls bs n)
    (hp : b.Has k p) : ∃ r, r < bs ∧ p = b.span + hdr + (b.idx * bs + r) ∧ b.start = b.span + hdr + b.idx * bs ∧
      b.stop k = b.span + hdr + (b.idx * bs + bs) := by
  obtain ⟨h1, h2, _⟩ := hp
  unfold Blk.start at h1 ⊢
  unfold Blk.stop at h2 ⊢
  rw [hk] at h1 h2 ⊢
  dsimp only at h1 h2 ⊢
  rw [Nat.add_mul, Nat.one_mul] at h2 ⊢
  refine ⟨p - (b.span + hdr + b.idx * bs), ?_, ?_, rfl, rfl⟩ <;> omega

/-- Claim C130: for every block and every pointer into it, the size reported is exactly the number of bytes from the pointer to
the end of the block. -/
theorem usable_exact {k : Nat} {b : Blk} (hb : b.Ok k) {p : Nat} (hp : b.Has k p) :
    p + usable k b.kind p = b.stop k := by
  have hs := spanOf_eq hb hp
  unfold usable
  rw [hs]
  cases hk : b.kind with
  | cls bs n =>
    obtain ⟨r, h1, h2, h3, h4⟩ := cls_off hk hp
    have e : p - (b.span + hdr) = b.idx * bs + r := by omega
    dsimp only
    rw [e, (off_div h1).2]
    omega
  | large n =>
    obtain ⟨h1, h2, h3⟩ := hp
    unfold Blk.start at h1
    unfold Blk.stop at h2 ⊢
    rw [hk] at h1 h2 ⊢
    dsimp only at *
    omega
  | huge n =>
    obtain ⟨h1, h2, h3⟩ := hp
    unfold Blk.start at h1
    unfold Blk.stop at h2 ⊢
    rw [hk] at h1 h2 ⊢
    dsimp only at *
    omega

/-- Claim C130 (freeing): a block of a size class is freed as a whole, from its start and, if its span is marked as having
aligned blocks, from every pointer into it. -/
theorem free_whole_block {k : Nat} {b : Blk} (hb : b.Ok k) {p bs n : Nat} (hk : b.kind = .cls bs n) (hp : b.Has k p)
    (marked : Bool) (hm : marked = true ∨ p = b.start) : freeStart bs marked p = b.start := by
  have hs := spanOf_eq hb hp
  obtain ⟨r, h1, h2, h3, h4⟩ := cls_off hk hp
  have hr := hb.room
  rw [hk] at hr
  have hf := cls_facts hr.1 hr.2
  rw [Nat.add_mul, Nat.one_mul] at hf
  unfold freeStart
  rcases hm with rfl | hm
  · rw [if_pos rfl, hs]
    have e : p - (b.span + hdr) = b.idx * bs + r := by omega
    have hS : spanSize = 65536 := rfl
    rw [e, Nat.mod_eq_of_lt (show b.idx * bs + r < 4294967296 by omega), (off_div h1).2]
    omega
  · split
    · rw [hs]
      have e : p - (b.span + hdr) = b.idx * bs + 0 := by omega
      have hS : spanSize = 65536 := rfl
      have hbs : 0 < bs := hr.1.2.1
      rw [e, Nat.mod_eq_of_lt (show b.idx * bs + 0 < 4294967296 by omega), (off_div hbs).2]
      omega
    · exact hm

/-- The first, the second and the last block of a span of blocks of 5120 bytes, at the address 0x10000. -/
example : (⟨65536, .cls 5120 12, 11⟩ : Blk).start = 121984 ∧ usable 12 (.cls 5120 12) 122000 = 5104 ∧
    freeStart 5120 true 122000 = 121984 ∧ freeStart 5120 false 121984 = 121984 := by decide +kernel

/-! ## Reallocation -/

/-- Memory. -/
abbrev Memory := Nat → UInt8

/-- `memmove` and `memcpy`. -/
def move (m : Memory) (dst src n : Nat) : Memory := fun a => if dst ≤ a ∧ a < dst + n then m (src + (a - dst)) else m a

/-- Whether `_rpmalloc_reallocate` keeps the block, its size before, and its start: src/rpmalloc.c:2485-2536, with
`oldsize` and `flags` 0 as `rprealloc` passes them (2986). -/
def fits (k : Nat) (kind : Kind) (p size : Nat) : Bool × Nat × Nat :=
  match kind with
  | .cls bs _ =>
    let off := (p - (spanOf p + hdr)) % 4294967296
    let block := spanOf p + hdr + off / bs * bs
    (decide (size ≤ bs), bs - (p - block), block)
  | .large n =>
    let total := wrap (size + hdr)
    let num := total / spanSize + (if total &&& 18446744073709486079 ≠ 0 then 1 else 0)
    let block := spanOf p + hdr
    let old := n * spanSize - (p - block) - hdr
    (decide (num ≤ n) && decide (old / 2 ≤ total), old, block)
  | .huge n =>
    let total := wrap (size + hdr)
    let num := total / 2 ^ k + (if total % 2 ^ k ≠ 0 then 1 else 0)
    let block := spanOf p + hdr
    let old := n * 2 ^ k - (p - block) - hdr
    (decide (num ≤ n) && decide (n / 2 ≤ num), old, block)

/-- The size of the block which is asked for instead, src/rpmalloc.c:2546-2547. -/
def newSize (old size : Nat) : Nat :=
  let lower := wrap (wrap (old + old / 4) + old / 8)
  if size > lower then size else if size > old then lower else size

/-- `rprealloc`, src/rpmalloc.c:2484-2556, 2978-2987: the block is kept (and the contents are moved to its start), or the
contents are copied to a new block, which `alloc` provides for the new size, or the call fails. -/
def realloc (k : Nat) (alloc : Nat → Option Blk) (m : Memory) (b : Blk) (p size : Nat) : Option (Nat × Blk) × Memory :=
  let f := fits k b.kind p size
  if f.1 then (some (f.2.2, b), if p ≠ f.2.2 then move m f.2.2 p f.2.1 else m)
  else
    match alloc (newSize f.2.1 size) with
    | none => (none, m)
    | some nb => (some (nb.start, nb), move m nb.start p (min f.2.1 (newSize f.2.1 size)))

theorem land_low {t : Nat} (h : t &&& 18446744073709486079 = 0) : t % 65536 = 0 := by
  have h1 : (t &&& 18446744073709486079) % 2 ^ 16 = (t % 2 ^ 16) &&& (18446744073709486079 % 2 ^ 16) :=
    Nat.and_mod_two_pow
  rw [h] at h1
  have h2 : (18446744073709486079 : Nat) % 2 ^ 16 = 2 ^ 16 - 1 := by decide
  rw [h2, Nat.and_two_pow_sub_one_eq_mod, Nat.mod_mod] at h1
  exact h1.symm

/-- What `fits` computes: the start of the block, the bytes from the pointer to its end, and "yes" only if the block is large
enough. -/
theorem fits_spec {k : Nat} {b : Blk} (hb : b.Ok k) {p : Nat} (hp : b.Has k p) (size : Nat)
    (hsz : size < 9223372036854775808) :
    (fits k b.kind p size).2.2 = b.start ∧ p + (fits k b.kind p size).2.1 = b.stop k ∧
      ((fits k b.kind p size).1 = true → b.start + size ≤ b.stop k) := by
  have hs := spanOf_eq hb hp
  have hS : spanSize = 65536 := rfl
  have hH : hdr = 128 := rfl
  have hw : wrap (size + hdr) = size + 128 := Nat.mod_eq_of_lt (by rw [hH]; omega)
  unfold fits
  cases hk : b.kind with
  | cls bs n =>
    obtain ⟨r, h1, h2, h3, h4⟩ := cls_off hk hp
    have hr := hb.room
    rw [hk] at hr
    have hf := cls_facts hr.1 hr.2
    rw [Nat.add_mul, Nat.one_mul] at hf
    have e : p - (b.span + hdr) = b.idx * bs + r := by omega
    dsimp only
    rw [hs, e, Nat.mod_eq_of_lt (show b.idx * bs + r < 4294967296 by omega), (off_div h1).1]
    refine ⟨h3.symm, by omega, fun h => ?_⟩
    have := of_decide_eq_true h
    omega
  | large n =>
    have hr := hb.room
    rw [hk] at hr
    dsimp only at hr
    obtain ⟨h1, h2, h3⟩ := hp
    unfold Blk.start at h1 ⊢
    unfold Blk.stop at h2 ⊢
    rw [hk] at h1 h2 ⊢
    dsimp only at *
    rw [hs, hw]
    refine ⟨rfl, by omega, fun h => ?_⟩
    rw [Bool.and_eq_true] at h
    have h4 := of_decide_eq_true h.1
    have h5 : (size + 128) % 65536 ≠ 0 → (size + 128) &&& 18446744073709486079 ≠ 0 := fun h0 h6 => h0 (land_low h6)
    rw [hS] at h4 ⊢
    split at h4
    · omega
    · rename_i h6
      have : (size + 128) % 65536 = 0 := by
        by_contra h0
        exact h6 (h5 h0)
      omega
  | huge n =>
    have hr := hb.room
    rw [hk] at hr
    dsimp only at hr
    obtain ⟨h1, h2, h3⟩ := hp
    unfold Blk.start at h1 ⊢
    unfold Blk.stop at h2 ⊢
    rw [hk] at h1 h2 ⊢
    dsimp only at *
    rw [hs, hw]
    refine ⟨rfl, by omega, fun h => ?_⟩
    rw [Bool.and_eq_true] at h
    have h4 := of_decide_eq_true h.1
    have hpos := pow_pos' k
    have h5 := Nat.div_add_mod (size + 128) (2 ^ k)
    have h6 := Nat.mod_lt (size + 128) hpos
    have h7 : ((size + 128) / 2 ^ k + (if (size + 128) % 2 ^ k ≠ 0 then 1 else 0)) * 2 ^ k ≤ n * 2 ^ k :=
      Nat.mul_le_mul_right _ h4
    rw [Nat.add_mul, Nat.mul_comm ((size + 128) / 2 ^ k) (2 ^ k)] at h7
    generalize 2 ^ k * ((size + 128) / 2 ^ k) = Q at *
    generalize (size + 128) % 2 ^ k = R at *
    split at h7
    · rw [Nat.one_mul] at h7
      omega
    · rw [Nat.zero_mul] at h7
      omega

/-- The new size is at least the size asked for. -/
theorem newSize_ge {old size : Nat} : size ≤ newSize old size := by
  unfold newSize
  dsimp only
  split
  · exact Nat.le_refl _
  · split
    · omega
    · exact Nat.le_refl _

theorem move_congr {m m' : Memory} {dst src n a : Nat} (h1 : m a = m' a) (h2 : ∀ i, i < n → m (src + i) = m' (src + i)) :
    move m dst src n a = move m' dst src n a := by
  unfold move
  split
  · exact h2 _ (by omega)
  · exact h1

/-- Claim C131: `rprealloc` reads nothing but the two blocks: what a byte holds afterwards does not depend on memory outside of the old
block and that byte. -/
theorem realloc_reads {k : Nat} {alloc : Nat → Option Blk} {m m' : Memory} {b : Blk} (hb : b.Ok k) {p size : Nat} (hp : b.Has k p)
    (hsz : size < 9223372036854775808) (hm : ∀ a, b.start ≤ a → a < b.stop k → m a = m' a) :
    (realloc k alloc m' b p size).1 = (realloc k alloc m b p size).1 ∧
      ∀ a, m a = m' a → (realloc k alloc m b p size).2 a = (realloc k alloc m' b p size).2 a := by
  obtain ⟨f1, f2, _⟩ := fits_spec hb hp size hsz
  have h1 := hp.1
  unfold realloc
  dsimp only
  split
  · refine ⟨rfl, fun a h => ?_⟩
    dsimp only
    split
    · exact move_congr h fun i hi => hm _ (by omega) (by omega)
    · exact h
  · cases alloc (newSize (fits k b.kind p size).2.1 size) with
    | none => exact ⟨rfl, fun a h => h⟩
    | some nb =>
      refine ⟨rfl, fun a h => ?_⟩
      exact move_congr h fun i hi => hm _ (by omega) (by omega)

/-- Claim C131: reallocating any block from any pointer into it, to any size below 2^63: if the call succeeds the result has
room for the new size and begins with the bytes of the old block, as many as both hold; if it fails the memory is as before.
Apart from the block which is returned no memory changes.  (A new block is disjoint from the old one and large enough: this is
what `alloc` is assumed to provide, C126, C127 and C132.) -/
theorem realloc_preserves {k : Nat} {alloc : Nat → Option Blk} {m : Memory} {b : Blk} (hb : b.Ok k) {p size : Nat}
    (hp : b.Has k p) (hsz : size < 9223372036854775808)
    (ha : ∀ n nb, alloc n = some nb → nb.start + n ≤ nb.stop k ∧ (nb.stop k ≤ b.start ∨ b.stop k ≤ nb.start)) :
    (∀ q nb, (realloc k alloc m b p size).1 = some (q, nb) →
      q = nb.start ∧ q + size ≤ nb.stop k ∧
      (∀ i, i < size → p + i < b.stop k → (realloc k alloc m b p size).2 (q + i) = m (p + i)) ∧
      ∀ a, a < nb.start ∨ nb.stop k ≤ a → (realloc k alloc m b p size).2 a = m a) ∧
    ((realloc k alloc m b p size).1 = none → (realloc k alloc m b p size).2 = m) := by
  obtain ⟨f1, f2, f3⟩ := fits_spec hb hp size hsz
  unfold realloc
  dsimp only
  rw [f1]
  generalize fits k b.kind p size = f at *
  obtain ⟨fit, old, st⟩ := f
  dsimp only at *
  cases fit with
  | true =>
    rw [if_pos rfl]
    refine ⟨fun q nb h => ?_, fun h => by simp at h⟩
    simp only [Option.some.injEq, Prod.mk.injEq] at h
    obtain ⟨rfl, rfl⟩ := h
    refine ⟨rfl, f3 rfl, fun i hi hi' => ?_, fun a ha => ?_⟩
    · by_cases hpb : p = b.start
      · dsimp only; rw [if_neg (by simpa using hpb), hpb]
      · dsimp only; rw [if_pos hpb]
        unfold move
        rw [if_pos ⟨by omega, by omega⟩, Nat.add_sub_cancel_left]
    · have := hp.1
      by_cases hpb : p = b.start
      · dsimp only; rw [if_neg (by simpa using hpb)]
      · dsimp only; rw [if_pos hpb]
        unfold move
        rw [if_neg (by omega)]
  | false =>
    rw [if_neg (by decide)]
    cases hal : alloc (newSize old size) with
    | none => exact ⟨fun q nb h => by simp at h, fun _ => rfl⟩
    | some nb' =>
      obtain ⟨h1, h2⟩ := ha _ _ hal
      have hge := newSize_ge (old := old) (size := size)
      refine ⟨fun q nb h => ?_, fun h => by simp at h⟩
      simp only [Option.some.injEq, Prod.mk.injEq] at h
      obtain ⟨rfl, rfl⟩ := h
      refine ⟨rfl, by omega, fun i hi hi' => ?_, fun a ha => ?_⟩
      · dsimp only
        unfold move
        rw [if_pos ⟨by omega, by omega⟩, Nat.add_sub_cancel_left]
      · dsimp only
        unfold move
        rw [if_neg (by omega)]

/-- The blocks of the examples are blocks as the allocator makes them. -/
theorem ok_example : (⟨65536, .cls 5120 12, 11⟩ : Blk).Ok 12 ∧ (⟨65536, .cls 5120 12, 11⟩ : Blk).Has 12 122000 ∧
    (⟨131072, .large 2, 0⟩ : Blk).Ok 12 ∧ (⟨131072, .large 2, 0⟩ : Blk).Has 12 131200 ∧
    (⟨1048576, .huge 1100, 0⟩ : Blk).Ok 12 ∧ (⟨1048576, .huge 1100, 0⟩ : Blk).Has 12 1048704 := by
  refine ⟨⟨by decide, by decide, ?_⟩, ⟨by decide, by decide, by decide⟩, ⟨by decide, by decide, by decide⟩,
    ⟨by decide, by decide, by decide⟩, ⟨by decide, by decide, by decide⟩, ⟨by decide, by decide, by decide⟩⟩
  exact ⟨by unfold Fits; decide, by decide⟩

/-- A block of 5120 bytes used from an aligned pointer 16 bytes into it: 5120 bytes still fit and the contents move to its
start; 6000 bytes do not, 7018 are asked for instead; one of two spans is kept for 65500 bytes; a block of 1100 pages is given
up for 16 bytes. -/
example : fits 12 (.cls 5120 12) 122000 5120 = (true, 5104, 121984) ∧
    (fits 12 (.cls 5120 12) 122000 6000).1 = false ∧ newSize 5104 6000 = 7018 ∧
    fits 12 (.large 2) 131200 65500 = (true, 130944, 131200) ∧ (fits 12 (.huge 1100) 1048704 16).1 = false := by
  decide +kernel

end Verif.Rp
