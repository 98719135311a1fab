import Verif.Rp.Align

/-!
# Aligned requests through `rpposix_memalign` and `rpaligned_calloc` (`src/rpmalloc.c` 3002-3044), C272

Both are built on `_rpmalloc_aligned_allocate` (`aligned`, C133).  `ENABLE_VALIDATE_ARGS` is 0 (src/rpmalloc.c:94-97).
-/

namespace Verif.Rp

/-- `rpposix_memalign(memptr, alignment, size)`, src/rpmalloc.c:3038-3044: the result and the value of `*memptr` afterwards.  `at?` is
what `memptr` points to, `none` for a null pointer.  `EINVAL` is 22, `ENOMEM` 12. -/
def posixMemalign (k : Nat) (s : Serve) (ms : Nat → Kernel) (at? : Option Nat) (alignment size : Nat) : Nat × Option Nat :=
  match at? with
  | none => (22, none)
  | some _ =>
    match (aligned k s ms alignment size).res with
    | some (_, p, _) => (0, some p)
    | none => (12, some 0)

/-- The memory and what `rpaligned_calloc` returns (0: null). -/
structure Zeroed where
  ptr : Nat
  mem : Nat → Nat

/-- `rpaligned_calloc(alignment, num, size)`, src/rpmalloc.c:3008-3032. -/
def alignedCalloc (k : Nat) (s : Serve) (ms : Nat → Kernel) (alignment num size : Nat) (mem : Nat → Nat) : Zeroed :=
  match (aligned k s ms alignment (wrap (num * size))).res with
  | some (_, p, _) => ⟨p, fun x => if p ≤ x ∧ x < p + wrap (num * size) then 0 else mem x⟩
  | none => ⟨0, mem⟩

/-! ## `rpposix_memalign` -/

/-- **C272**, what holds: for a power of two below the span size, and sizes below 2^61 bytes and 2^30 pages, the result is 0 and the
pointer is a multiple of the alignment with room for the size in a block of its own, or the result is `ENOMEM` and the pointer null.
Missing: other alignments, see `posix_small` and `posix_large`, and larger sizes, see `posix_wraps`. -/
theorem posix_partial {k : Nat} (hk : 12 ≤ k) (hk' : k ≤ 16) {s : Serve} (hs : s.Good k) {ms : Nat → Kernel}
    (hm : ∀ t, (ms t).Good k) {a : Nat} (ha : a < 16) {size : Nat} (hsz : size < 2305843009213693952)
    (hpg : size / 2 ^ k < 1073741824) (old : Nat) :
    (∃ (b : Blk) (p : Nat), posixMemalign k s ms (some old) (2 ^ a) size = (0, some p) ∧ b.Ok k ∧ b.start ≤ p ∧ p + size ≤ b.stop k ∧ 2 ^ a ∣ p) ∨
    posixMemalign k s ms (some old) (2 ^ a) size = (12, some 0) := by
  have h := (aligned_fine_partial hk hk' hs hm ha hsz hpg).1
  unfold posixMemalign
  cases e : (aligned k s ms (2 ^ a) size).res with
  | none => exact Or.inr rfl
  | some x =>
    obtain ⟨b, p, mark⟩ := x
    obtain ⟨⟨f1, f2, f3, f4, -⟩, -⟩ := h b p mark e
    exact Or.inl ⟨b, p, rfl, f1, f2.1, f4, f3⟩

/-- **C272**: the result says whether there is a pointer, for all arguments; nothing is written through a null pointer. -/
theorem posix_result (k : Nat) (s : Serve) (ms : Nat → Kernel) (alignment size : Nat) :
    posixMemalign k s ms none alignment size = (22, none) ∧
    ∀ old, (posixMemalign k s ms (some old) alignment size).1 = 0 ∨
      posixMemalign k s ms (some old) alignment size = (12, some 0) := by
  refine ⟨rfl, fun old => ?_⟩
  unfold posixMemalign
  cases (aligned k s ms alignment size).res with
  | none => exact Or.inr rfl
  | some x => exact Or.inl rfl

/-- **C272**, false of the code: alignments up to 16 are not looked at.  For 0, 3 or 12, which are refused with `EINVAL` by the
rules, the call succeeds, with a block found as if there were no alignment. -/
theorem posix_small (k : Nat) (s : Serve) (ms : Nat → Kernel) (alignment size old : Nat) (h : alignment ≤ 16) (b : Blk)
    (hb : s size = some b) : posixMemalign k s ms (some old) alignment size = (0, some b.start) := by
  unfold posixMemalign aligned
  rw [if_pos h, hb]
  rfl

/-- **C272**, false of the code: with an alignment of the span size (64 KiB) or more the call says that memory has run out, however
much there is, and never that the alignment is wrong. -/
theorem posix_large {k : Nat} (hk : k < 16) (s : Serve) (ms : Nat → Kernel) (alignment size old : Nat) (h : 65536 ≤ alignment) :
    posixMemalign k s ms (some old) alignment size = (12, some 0) := by
  have hS : spanSize = 65536 := rfl
  have hp : 2 ^ k ≤ 32768 := by
    have : (32768 : Nat) = 2 ^ 15 := by decide
    rw [this]; exact Nat.pow_le_pow_right (by decide) (by omega)
  unfold posixMemalign aligned
  rw [if_neg (by omega), if_neg (by rintro ⟨⟨h1, -⟩, -⟩; omega), if_neg (by omega), if_pos (Or.inr (by omega))]

/-- **C272**, false of the code: a size just below 2^64 is not refused; the block is one for nothing. -/
theorem posix_wraps (k : Nat) (s : Serve) (ms : Nat → Kernel) (alignment size old : Nat) (h1 : 16 < alignment) (h2 : alignment ≤ 128)
    (h3 : 18446744073709551616 - 128 < size) (h4 : size < 18446744073709551616) (b : Blk) (hb : s 0 = some b) :
    posixMemalign k s ms (some old) alignment size = (0, some b.start) := by
  unfold posixMemalign
  rw [aligned_wraps s ms h1 h2 h3 h4, hb]
  rfl

/-! ## `rpaligned_calloc` -/

/-- **C272**, what holds: if the product stays below 2^61 bytes and 2^30 pages and the alignment is a power of two below the span
size, the pointer is null and no memory changes, or it is a multiple of the alignment with room for all elements, which are zero, and
no memory outside its block changes.  Missing: products that wrap around, see `calloc_aligned_wraps` and `calloc_overrun`. -/
theorem calloc_aligned_partial {k : Nat} (hk : 12 ≤ k) (hk' : k ≤ 16) {s : Serve} (hs : s.Good k) {ms : Nat → Kernel}
    (hm : ∀ t, (ms t).Good k) {a : Nat} (ha : a < 16) {num size : Nat} (hsz : num * size < 2305843009213693952)
    (hpg : num * size / 2 ^ k < 1073741824) (mem : Nat → Nat) :
    (alignedCalloc k s ms (2 ^ a) num size mem = ⟨0, mem⟩) ∨
    ∃ (b : Blk) (p : Nat) (m : Nat → Nat), alignedCalloc k s ms (2 ^ a) num size mem = ⟨p, m⟩ ∧ b.Ok k ∧ 2 ^ a ∣ p ∧ b.start ≤ p ∧ p + num * size ≤ b.stop k ∧
      (∀ i < num * size, m (p + i) = 0) ∧ ∀ x, ¬ (b.start ≤ x ∧ x < b.stop k) → m x = mem x := by
  have w : wrap (num * size) = num * size := Nat.mod_eq_of_lt (by omega)
  have h := (aligned_fine_partial hk hk' hs hm ha hsz hpg).1
  unfold alignedCalloc
  rw [w]
  cases e : (aligned k s ms (2 ^ a) (num * size)).res with
  | none => exact Or.inl rfl
  | some x =>
    obtain ⟨b, p, mark⟩ := x
    obtain ⟨⟨f1, f2, f3, f4, -⟩, -⟩ := h b p mark e
    have f5 := f2.1
    refine Or.inr ⟨b, p, _, rfl, f1, f3, f5, f4, fun i hi => ?_, fun x hx => ?_⟩
    · exact if_pos ⟨by omega, by omega⟩
    · exact if_neg (by omega)

/-- **C272**, false of the code: if the product is a multiple of 2^64, the request is served like one for nothing, and not refused. -/
theorem calloc_aligned_wraps (k : Nat) (s : Serve) (ms : Nat → Kernel) (alignment num size c : Nat)
    (h : num * size = c * 18446744073709551616) (mem : Nat → Nat) :
    alignedCalloc k s ms alignment num size mem = alignedCalloc k s ms alignment 0 0 mem := by
  have w : wrap (num * size) = wrap (0 * 0) := by unfold wrap; omega
  unfold alignedCalloc
  rw [w]

/-- **C272**, false of the code: for one element of almost 2^64 bytes the smallest block is taken, and zeros are written from
there on, over every byte behind the block as far as the addresses go. -/
theorem calloc_overrun (k : Nat) (s : Serve) (ms : Nat → Kernel) (alignment num size : Nat) (h1 : 16 < alignment)
    (h2 : alignment ≤ 128) (h3 : 18446744073709551616 - 128 < num * size) (h4 : num * size < 18446744073709551616) (b : Blk)
    (hb : s 0 = some b) (mem : Nat → Nat) (x : Nat) (hx : b.stop k ≤ x) (hx' : x < b.start + 18446744073709551616 - 128)
    (hst : b.start ≤ b.stop k) :
    (alignedCalloc k s ms alignment num size mem).ptr = b.start ∧ (alignedCalloc k s ms alignment num size mem).mem x = 0 := by
  have w : wrap (num * size) = num * size := Nat.mod_eq_of_lt h4
  unfold alignedCalloc
  rw [w, aligned_wraps s ms h1 h2 h3 h4, hb]
  exact ⟨rfl, if_pos ⟨by omega, by omega⟩⟩

/-! ## Examples -/

/-- An allocator with one block of 16 bytes, for requests of at most 16 bytes. -/
def tiny : Serve := fun n => if n ≤ 16 then some ⟨65536, .cls 16 4088, 1⟩ else none

example : posixMemalign 12 demo (fun _ _ => none) (some 5) 4096 2000 = (0, some 151552) := by
  unfold posixMemalign aligned
  rw [limit_eq]
  decide +kernel
/-- An alignment of 3 is accepted, and 65680 is no multiple of it. -/
example : posixMemalign 12 tiny (fun _ _ => none) (some 5) 3 10 = (0, some 65680) ∧ ¬ 3 ∣ 65680 :=
  ⟨posix_small 12 tiny _ 3 10 5 (by decide) ⟨65536, .cls 16 4088, 1⟩ (by decide), by decide⟩
example : (alignedCalloc 12 tiny (fun _ _ => none) 64 1 18446744073709551600 (fun _ => 7)).mem 70000 = 0 :=
  (calloc_overrun 12 tiny _ 64 1 18446744073709551600 (by decide) (by decide) (by decide) (by decide) ⟨65536, .cls 16 4088, 1⟩
    (by decide) _ 70000 (by decide) (by decide) (by decide)).2
example : (alignedCalloc 12 demo (fun _ _ => none) 4096 20 100 (fun _ => 7)).ptr = 151552 := by
  unfold alignedCalloc aligned
  rw [limit_eq]
  decide +kernel
example : (4294967296 : Nat) * 4294967296 = 1 * 18446744073709551616 := by decide

end Verif.Rp
