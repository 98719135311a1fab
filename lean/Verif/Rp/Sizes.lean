import Verif.Rp.Classes
import Mathlib.Data.Nat.Basic

/-!
# How much memory a request gets (`src/rpmalloc.c` 925-1019, 2142-2202, 2446-2460, 2951-2976), C127, C128, C129

`size_t` is 64 bits wide and sums wrap around; `ENABLE_VALIDATE_ARGS` is 0 (src/rpmalloc.c:94-97), so no request is refused for
its size.  The page size is `2 ^ k` with `k ≤ 16`: huge pages are not enabled by the library (`rpmalloc_initialize`,
src/rpmalloc.c:2612-2618, passes no configuration).
-/

namespace Verif.Rp

/-- Arithmetic of `size_t`. -/
def wrap (n : Nat) : Nat := n % 18446744073709551616

/-- A piece of address space the kernel has mapped: `[addr, addr + len)`. -/
structure Region where
  addr : Nat
  len : Nat
  deriving DecidableEq, Repr

/-- What `_rpmalloc_mmap_os` hands out: the address, the offset which is kept for unmapping, and (only for stating
properties) what the kernel mapped. -/
structure Mapped where
  ptr : Nat
  offset : Nat
  region : Region
  deriving DecidableEq, Repr

/-- The kernel answers a call of `mmap` with the given length by an address or not at all. -/
abbrev Kernel := Nat → Option Nat

/-- What is assumed of `mmap(2)`: addresses are multiples of the page size, not 0, regions do not wrap around, and nothing
is mapped for length 0. -/
def Kernel.Good (k : Nat) (m : Kernel) : Prop :=
  ∀ len a, m len = some a → 0 < len ∧ 0 < a ∧ 2 ^ k ∣ a ∧ a + len ≤ 18446744073709551616

/-- The padding of `_rpmalloc_mmap_os`, src/rpmalloc.c:927; the granularity is the page size (src/rpmalloc.c:2643, 2656). -/
def padding (k size : Nat) : Nat := if size ≥ spanSize ∧ spanSize > 2 ^ k then spanSize else 0

/-- `_rpmalloc_mmap_os`, src/rpmalloc.c:925-993, without the callback for failures (none is installed). -/
def mmapOs (k : Nat) (m : Kernel) (size : Nat) : Option Mapped :=
  let len := wrap (size + padding k size)
  match m len with
  | none => none
  | some a =>
    if padding k size ≠ 0 then
      let fin := padding k size - a % spanSize
      some ⟨a + fin, fin / 8, ⟨a, len⟩⟩
    else some ⟨a, 0, ⟨a, len⟩⟩

/-- `_rpmalloc_unmap_os` with a release size, src/rpmalloc.c:996-1019: the arguments of `munmap`. -/
def unmapOs (k address offset release : Nat) : Region :=
  if release ≠ 0 ∧ offset ≠ 0 then
    ⟨address - offset * 8, if release ≥ spanSize ∧ spanSize > 2 ^ k then wrap (release + spanSize) else release⟩
  else ⟨address, release⟩

/-- How a request is served: from a size class, from a number of spans, or by mapping a number of pages. -/
inductive Plan where
  | cls (i : Nat)
  | large (spans : Nat)
  | huge (pages : Nat)
  deriving DecidableEq, Repr

/-- The number of units of `2 ^ s` bytes for `size` bytes and a header, as computed by `_rpmalloc_allocate_large`
(src/rpmalloc.c:2147-2150) and `_rpmalloc_allocate_huge` (2171-2174). -/
def units (s size : Nat) : Nat :=
  let size := wrap (size + hdr)
  size / 2 ^ s + (if size % 2 ^ s ≠ 0 then 1 else 0)

/-- `LARGE_SIZE_LIMIT`, src/rpmalloc.c:482. -/
def largeLimit : Nat := 63 * spanSize - hdr

/-- `_rpmalloc_allocate`, src/rpmalloc.c:2193-2202: the choice between the four functions. -/
def plan (k size : Nat) : Plan :=
  match classOf initTable.1 initTable.2 size with
  | some i => .cls i
  | none => if size ≤ largeLimit then .large (units 16 size) else .huge (units k size)

/-- The number of bytes from the pointer handed out to the end of the block, for the plans which are served from spans; spans
are whole (`_rpmalloc_heap_extract_new_span` returns at least as many as asked for, src/rpmalloc.c:1785-1834). -/
def room : Plan → Nat
  | .cls i => (ent initTable.1 i).blockSize
  | .large n => n * spanSize - hdr
  | .huge _ => 0

/-- A huge block: what was mapped, and the number of pages as kept in the 32-bit field `span_count`. -/
structure Huge where
  m : Mapped
  pages : Nat
  deriving DecidableEq, Repr

/-- The pointer handed out. -/
def Huge.ptr (h : Huge) : Nat := h.m.ptr + hdr

/-- `_rpmalloc_allocate_huge`, src/rpmalloc.c:2168-2190 (adopting deferred spans is left to `Verif/Rp/Heap.lean`). -/
def allocHuge (k : Nat) (m : Kernel) (size : Nat) : Option Huge :=
  (mmapOs k m (wrap (units k size * 2 ^ k))).map fun x => ⟨x, units k size % 4294967296⟩

/-- `_rpmalloc_deallocate_huge`, src/rpmalloc.c:2446-2460, in the owner's thread: what is unmapped. -/
def freeHuge (k : Nat) (h : Huge) : Region :=
  unmapOs k h.m.ptr h.m.offset (wrap (h.pages * 2 ^ k))

theorem pow_le {k : Nat} (h : k ≤ 16) : 2 ^ k ≤ 65536 := Nat.pow_le_pow_right (by decide) h

theorem pow_pos' (k : Nat) : 0 < 2 ^ k := Nat.pow_pos (by decide)

/-- The number of units is enough and not more than needed. -/
theorem units_spec {s size : Nat} (h : size + hdr < 18446744073709551616) :
    size + hdr ≤ units s size * 2 ^ s ∧ units s size * 2 ^ s < size + hdr + 2 ^ s := by
  have hp := pow_pos' s
  obtain ⟨P, hP⟩ : ∃ P, P = 2 ^ s := ⟨_, rfl⟩
  unfold units wrap
  rw [Nat.mod_eq_of_lt h]
  rw [← hP] at hp ⊢
  dsimp only
  have h1 := Nat.div_add_mod (size + hdr) P
  have h2 := Nat.mod_lt (size + hdr) hp
  generalize (size + hdr) / P = q at *
  generalize (size + hdr) % P = r at *
  rw [Nat.add_mul, Nat.mul_comm q P]
  split
  · rw [Nat.one_mul]; omega
  · rw [Nat.zero_mul]; omega

/-- Multiples of a power of two which divides 65536 leave a remainder which is such a multiple, and 8 divides it. -/
theorem dvd_mod {k a : Nat} (h : k ≤ 16) (ha : 2 ^ k ∣ a) : 2 ^ k ∣ a % 65536 :=
  (Nat.dvd_mod_iff (by
    have : (65536 : Nat) = 2 ^ 16 := by decide
    rw [this]; exact Nat.pow_dvd_pow 2 h)).mpr ha

/-- Claim C129 (for the mapping itself): for every size which does not wrap around, the memory handed out lies in what the
kernel mapped, starts at a multiple of the span size if it is that large, and unmapping it with the kept offset gives the
kernel exactly what it mapped. -/
theorem map_unmap_exact {k : Nat} (hk : 3 ≤ k) (hk' : k ≤ 16) {m : Kernel} (hm : m.Good k) {size : Nat} {x : Mapped}
    (hs : 0 < size) (hlt : size + spanSize < 18446744073709551616) (h : mmapOs k m size = some x) :
    m x.region.len = some x.region.addr ∧
    x.region.addr ≤ x.ptr ∧ x.ptr + size ≤ x.region.addr + x.region.len ∧
    (spanSize ≤ size → spanSize ∣ x.ptr) ∧
    x.offset < 4294967296 ∧
    unmapOs k x.ptr x.offset size = x.region := by
  have hp := pow_le hk'
  have hS : spanSize = 65536 := rfl
  unfold mmapOs at h
  dsimp only at h
  by_cases hpad : size ≥ spanSize ∧ spanSize > 2 ^ k
  · have e : padding k size = 65536 := by unfold padding; rw [if_pos hpad]; rfl
    rw [e] at h
    have e2 : wrap (size + 65536) = size + 65536 := Nat.mod_eq_of_lt (by rw [hS] at hlt; exact hlt)
    rw [e2] at h
    split at h
    · simp at h
    · rename_i a ha
      rw [if_pos (by decide)] at h
      obtain ⟨_, _, hd, _⟩ := hm _ _ ha
      have h8 : 8 ∣ a % 65536 := by
        refine Nat.dvd_trans ?_ (dvd_mod hk' hd)
        have : (8 : Nat) = 2 ^ 3 := by decide
        rw [this]; exact Nat.pow_dvd_pow 2 hk
      rw [hS] at h
      have h1 := Nat.mod_lt a (show 0 < 65536 by decide)
      have h2 := Nat.div_add_mod a 65536
      generalize hr : a % 65536 = r at *
      generalize hq : a / 65536 = q at *
      simp only [Option.some.injEq] at h
      subst h
      dsimp only
      obtain ⟨c, hc⟩ := h8
      have e3 : (65536 - r) / 8 * 8 = 65536 - r := by omega
      refine ⟨ha, by omega, by omega, fun _ => ⟨q + 1, by rw [hS]; omega⟩, by omega, ?_⟩
      unfold unmapOs
      rw [if_pos ⟨by omega, by omega⟩, if_pos hpad, e3, hS, e2, Nat.add_sub_cancel]
  · have e : padding k size = 0 := by unfold padding; rw [if_neg hpad]
    rw [e] at h
    have e2 : wrap (size + 0) = size := Nat.mod_eq_of_lt (by omega)
    rw [e2] at h
    split at h
    · simp at h
    · rename_i a ha
      rw [if_neg (by simp)] at h
      obtain ⟨_, _, hd, _⟩ := hm _ _ ha
      simp only [Option.some.injEq] at h
      subst h
      dsimp only
      refine ⟨ha, Nat.le_refl _, Nat.le_refl _, fun hge => ?_, by decide, ?_⟩
      · have hk16 : 2 ^ k = spanSize := by
          rw [hS] at hpad hge ⊢
          omega
        rw [← hk16]; exact hd
      · unfold unmapOs; rw [if_neg (by simp)]


/-- Claim C127: every request up to 2^64 - 65536 - 128 - 2^k bytes which is answered gets at least the memory asked for: a
block of a size class, at most 63 whole spans, or pages which the kernel mapped for it. -/
theorem malloc_enough_partial {k : Nat} (hk : 3 ≤ k) (hk' : k ≤ 16) {m : Kernel} (hm : m.Good k) (n : Nat)
    (hn : n + 65664 + 2 ^ k ≤ 18446744073709551616) :
    (∀ i, plan k n = .cls i → n ≤ (ent initTable.1 i).blockSize ∧ i < 126) ∧
    (∀ c, plan k n = .large c → n ≤ room (.large c) ∧ 1 ≤ c ∧ c ≤ 63) ∧
    (∀ p, plan k n = .huge p → ∀ h, allocHuge k m n = some h →
      h.ptr + n ≤ h.m.region.addr + h.m.region.len ∧ h.m.region.addr ≤ h.m.ptr ∧ spanSize ∣ h.m.ptr) := by
  have hS : spanSize = 65536 := rfl
  have hH : hdr = 128 := rfl
  have hL : largeLimit = 4128640 := rfl
  have hpos := pow_pos' k
  have hlt : n + hdr < 18446744073709551616 := by rw [hH]; omega
  have hcl := size_class_fits n
  refine ⟨fun i hi => ?_, fun c hc => ?_, fun p hpl h hh => ?_⟩
  · unfold plan at hi
    by_cases h : n ≤ 32256
    · obtain ⟨j, h1, h2, _, h3, _⟩ := hcl.1 h
      rw [h1] at hi
      injection hi with hi
      subst hi
      exact ⟨h3, h2⟩
    · rw [hcl.2 (by omega)] at hi
      dsimp only at hi
      split at hi <;> exact Plan.noConfusion hi
  · unfold plan at hc
    by_cases h : n ≤ 32256
    · obtain ⟨j, h1, _⟩ := hcl.1 h
      rw [h1] at hc
      exact Plan.noConfusion hc
    · rw [hcl.2 (by omega)] at hc
      dsimp only at hc
      by_cases hl : n ≤ largeLimit
      · rw [if_pos hl] at hc
        injection hc with hc
        have hu := units_spec (s := 16) hlt
        rw [hc] at hu
        have e16 : (2 : Nat) ^ 16 = 65536 := by decide
        rw [e16] at hu
        rw [hL] at hl
        rw [hH] at hu
        show n ≤ c * 65536 - 128 ∧ 1 ≤ c ∧ c ≤ 63
        omega
      · rw [if_neg hl] at hc; exact Plan.noConfusion hc
  · unfold plan at hpl
    by_cases hsm : n ≤ 32256
    · obtain ⟨j, h1, _⟩ := hcl.1 hsm
      rw [h1] at hpl
      exact Plan.noConfusion hpl
    · rw [hcl.2 (by omega)] at hpl
      dsimp only at hpl
      by_cases hl : n ≤ largeLimit
      · rw [if_pos hl] at hpl; exact Plan.noConfusion hpl
      · have hu := units_spec (s := k) hlt
        have hp := pow_le hk'
        unfold allocHuge at hh
        obtain ⟨T, hT⟩ : ∃ T, T = units k n * 2 ^ k := ⟨_, rfl⟩
        rw [← hT] at hu hh
        rw [hL] at hl
        have ew : wrap T = T := Nat.mod_eq_of_lt (by rw [hH] at hu; omega)
        rw [ew] at hh
        rw [Option.map_eq_some_iff] at hh
        obtain ⟨x, hx, rfl⟩ := hh
        obtain ⟨_, h2, h3, h4, _⟩ := map_unmap_exact hk hk' hm (by omega) (by rw [hS]; rw [hH] at hu; omega) hx
        refine ⟨?_, h2, h4 (by rw [hS]; omega)⟩
        unfold Huge.ptr
        dsimp only
        omega

/-- What C127 leaves out, and why: with pages smaller than a span, every answered request for more than
2^64 - 65536 - 128 bytes gets a block which ends beyond the memory mapped for it, since the sums wrap around. -/
theorem malloc_wraps {k : Nat} (hk' : k < 16) {m : Kernel} (n : Nat)
    (hn : 18446744073709551616 - 65536 - 128 < n) (hn' : n < 18446744073709551616) {h : Huge}
    (hh : allocHuge k m n = some h) :
    plan k n = .huge (units k n) ∧ h.m.region.addr + h.m.region.len < h.ptr + n := by
  have hS : spanSize = 65536 := rfl
  have hH : hdr = 128 := rfl
  have hL : largeLimit = 4128640 := rfl
  have hp : 2 ^ k ≤ 32768 := by
    have : (32768 : Nat) = 2 ^ 15 := by decide
    rw [this]; exact Nat.pow_le_pow_right (by decide) (by omega)
  have hpos := pow_pos' k
  refine ⟨?_, ?_⟩
  · unfold plan
    rw [(size_class_fits n).2 (by omega)]
    dsimp only
    rw [if_neg (by rw [hL]; omega)]
  · unfold allocHuge at hh
    rw [Option.map_eq_some_iff] at hh
    obtain ⟨x, hx, rfl⟩ := hh
    -- the length which the kernel is asked for is small
    have key : x.region.len < 65536 ∧ x.region.addr ≤ x.ptr := by
      obtain ⟨T, hT⟩ : ∃ T, T = wrap (units k n * 2 ^ k) := ⟨_, rfl⟩
      rw [← hT] at hx
      have hTs : T < 65536 ∨ 18446744073709551616 - 65536 ≤ T ∧ T < 18446744073709551616 := by
        by_cases hw : n + hdr < 18446744073709551616
        · have hu := units_spec (s := k) hw
          generalize units k n * 2 ^ k = U at *
          unfold wrap at hT
          rw [hH] at hu hw
          omega
        · have e : wrap (n + hdr) < 128 := by
            unfold wrap; rw [hH] at hw ⊢; omega
          left
          unfold units at hT
          dsimp only at hT
          generalize wrap (n + hdr) = r at *
          have h1 := Nat.div_add_mod r (2 ^ k)
          have h2 := Nat.mod_lt r hpos
          have h4 : r / 2 ^ k * 2 ^ k = 2 ^ k * (r / 2 ^ k) := Nat.mul_comm _ _
          have h3 : (r / 2 ^ k + (if r % 2 ^ k ≠ 0 then 1 else 0)) * 2 ^ k ≤ r + 2 ^ k := by
            rw [Nat.add_mul]
            split
            · rw [Nat.one_mul]; omega
            · rw [Nat.zero_mul]; omega
          generalize (r / 2 ^ k + (if r % 2 ^ k ≠ 0 then 1 else 0)) * 2 ^ k = U at *
          unfold wrap at hT
          have : U % 18446744073709551616 ≤ U := Nat.mod_le _ _
          omega
      unfold mmapOs at hx
      dsimp only at hx
      split at hx
      · simp at hx
      · rename_i a ha
        have hlen : wrap (T + padding k T) < 65536 := by
          unfold padding wrap
          rw [hS]
          split <;> omega
        split at hx
        · simp only [Option.some.injEq] at hx
          subst hx
          exact ⟨hlen, by dsimp only; omega⟩
        · simp only [Option.some.injEq] at hx
          subst hx
          exact ⟨hlen, by dsimp only; omega⟩
    unfold Huge.ptr
    dsimp only
    omega

/-- A request for 2^64 - 8192 bytes is answered (the kernel is asked for 57344 bytes): the hypotheses of `malloc_wraps` can
be met. -/
example : ((allocHuge 12 (fun len => if len = 0 then none else some 4194304) 18446744073709543424).map
    fun h => h.m.region.len) = some 61440 := by decide +kernel

/-- Claim C129: freeing a huge block of less than 2^32 pages gives the kernel exactly what it mapped for the block. -/
theorem huge_free_exact_partial {k : Nat} (hk : 3 ≤ k) (hk' : k ≤ 16) {m : Kernel} (hm : m.Good k) (n : Nat)
    (hn : n + 65664 + 2 ^ k ≤ 18446744073709551616) {h : Huge} (hh : allocHuge k m n = some h)
    (hp : units k n < 4294967296) :
    freeHuge k h = h.m.region ∧ m h.m.region.len = some h.m.region.addr := by
  have hS : spanSize = 65536 := rfl
  have hH : hdr = 128 := rfl
  have hpos := pow_pos' k
  unfold allocHuge at hh
  have hu := units_spec (s := k) (size := n) (by rw [hH]; omega)
  have ew : wrap (units k n * 2 ^ k) = units k n * 2 ^ k := Nat.mod_eq_of_lt (by rw [hH] at hu; omega)
  rw [ew] at hh
  rw [Option.map_eq_some_iff] at hh
  obtain ⟨x, hx, rfl⟩ := hh
  unfold freeHuge
  dsimp only
  rw [Nat.mod_eq_of_lt hp, ew]
  obtain ⟨h1, _, _, _, _, h6⟩ := map_unmap_exact hk hk' hm (by rw [hH] at hu; omega) (by rw [hS]; rw [hH] at hu; omega) hx
  exact ⟨h6, h1⟩

/-- What C129 leaves out: a block of 2^32 pages or more is not unmapped completely, since only the lower 32 bits of the
number of pages are kept. -/
theorem huge_free_leaks {k : Nat} (hk : 3 ≤ k) (hk' : k ≤ 16) {m : Kernel} (hm : m.Good k) (n : Nat)
    (hn : n + 65664 + 2 ^ k ≤ 18446744073709551616) {h : Huge} (hh : allocHuge k m n = some h)
    (hp : 4294967296 ≤ units k n) :
    (freeHuge k h).len < h.m.region.len := by
  have hS : spanSize = 65536 := rfl
  have hH : hdr = 128 := rfl
  have hpos := pow_pos' k
  have hple := pow_le hk'
  unfold allocHuge at hh
  have hu := units_spec (s := k) (size := n) (by rw [hH]; omega)
  have ew : wrap (units k n * 2 ^ k) = units k n * 2 ^ k := Nat.mod_eq_of_lt (by rw [hH] at hu; omega)
  rw [ew] at hh
  rw [Option.map_eq_some_iff] at hh
  obtain ⟨x, hx, rfl⟩ := hh
  obtain ⟨h1, h2, h3, _⟩ := map_unmap_exact hk hk' hm (by rw [hH] at hu; omega) (by rw [hS]; rw [hH] at hu; omega) hx
  -- the whole region has at least one span more than the block if there is padding
  have hlen : x.region.len = units k n * 2 ^ k + (if spanSize > 2 ^ k then spanSize else 0) := by
    have hbig : spanSize ≤ units k n * 2 ^ k := by
      rw [hS]
      calc 65536 ≤ 4294967296 * 1 := by decide
        _ ≤ units k n * 2 ^ k := Nat.mul_le_mul hp hpos
    have hpad : padding k (units k n * 2 ^ k) = if spanSize > 2 ^ k then spanSize else 0 := by
      unfold padding
      simp only [ge_iff_le, hbig, true_and]
    have hl : wrap (units k n * 2 ^ k + padding k (units k n * 2 ^ k)) =
        units k n * 2 ^ k + (if spanSize > 2 ^ k then spanSize else 0) := by
      rw [hpad]
      unfold wrap
      rw [hH] at hu
      apply Nat.mod_eq_of_lt
      rw [hS]
      split <;> omega
    unfold mmapOs at hx
    dsimp only at hx
    rw [hl] at hx
    split at hx
    · simp at hx
    · split at hx
      · rw [← Option.some.inj hx]
      · rw [← Option.some.inj hx]
  have hlt : units k n % 4294967296 * 2 ^ k < units k n * 2 ^ k :=
    Nat.mul_lt_mul_of_pos_right (by omega) hpos
  have hw : wrap (units k n % 4294967296 * 2 ^ k) = units k n % 4294967296 * 2 ^ k :=
    Nat.mod_eq_of_lt (by rw [hH] at hu; omega)
  unfold freeHuge unmapOs
  dsimp only
  rw [hw, hlen]
  generalize units k n % 4294967296 * 2 ^ k = A at *
  generalize units k n * 2 ^ k = B at *
  rw [hS]
  split
  · dsimp only
    split
    · rename_i h5
      rw [if_pos h5.2]
      unfold wrap
      rw [Nat.mod_eq_of_lt (by rw [hH] at hu; omega)]
      omega
    · split <;> omega
  · dsimp only
    split <;> omega

/-- A block of 2^32 pages. -/
example : units 12 (4294967296 * 4096 - 128) = 4294967296 ∧
    ((allocHuge 12 (fun len => if len = 0 then none else some 4194304) (4294967296 * 4096 - 128)).map
      fun h => (freeHuge 12 h, h.m.region)) = some (⟨4259840, 0⟩, ⟨4194304, 17592186109952⟩) := by decide +kernel

/-- `rpcalloc`, src/rpmalloc.c:2951-2976, with `ENABLE_VALIDATE_ARGS` 0: how the request is served and how many bytes are
cleared. -/
def calloc (k num size : Nat) : Plan × Nat := (plan k (wrap (num * size)), wrap (num * size))

/-- Claim C128: for an array of `num` times `size` bytes, up to 2^64 - 65536 - 128 - 2^k bytes in all, that many bytes are
cleared, and all of them lie in the block: a block of a size class, whole spans, or the pages which the kernel maps for a
request of that size. -/
theorem calloc_exact_partial {k : Nat} (hk : 3 ≤ k) (hk' : k ≤ 16) {m : Kernel} (hm : m.Good k) (num size : Nat)
    (h : num * size + 65664 + 2 ^ k ≤ 18446744073709551616) :
    (calloc k num size).2 = num * size ∧
    (∀ i, (calloc k num size).1 = .cls i → num * size ≤ (ent initTable.1 i).blockSize) ∧
    (∀ c, (calloc k num size).1 = .large c → num * size ≤ room (.large c)) ∧
    (∀ p, (calloc k num size).1 = .huge p → ∀ h, allocHuge k m (num * size) = some h →
      h.ptr + num * size ≤ h.m.region.addr + h.m.region.len) := by
  have e : wrap (num * size) = num * size := Nat.mod_eq_of_lt (by have := pow_pos' k; omega)
  obtain ⟨h1, h2, h3⟩ := malloc_enough_partial hk hk' hm (num * size) h
  simp only [calloc, e]
  exact ⟨trivial, fun i hi => (h1 i hi).1, fun c hc => (h2 c hc).1, fun p hp x hx => (h3 p hp x hx).1⟩

theorem room_cls (i : Nat) : room (.cls i) = (ent initTable.1 i).blockSize := by rw [room]

/-- What C128 leaves out: an array of 2^64 bytes or more is not refused.  It is served like a request for the remainder, so
whenever that is small the block is smaller than a single element may be. -/
theorem calloc_wraps (k num size : Nat) (h : 18446744073709551616 ≤ num * size) (hsm : wrap (num * size) ≤ 32256) :
    ∃ i, (calloc k num size).1 = .cls i ∧ room (.cls i) ≤ 32256 ∧ room (.cls i) < num * size := by
  obtain ⟨i, h1, _, _, _, _, h2, _⟩ := (size_class_fits (wrap (num * size))).1 hsm
  refine ⟨i, ?_, ?_⟩
  · simp only [calloc, plan, h1]
  rw [room_cls]
  refine ⟨h2, ?_⟩
  · exact Nat.lt_of_le_of_lt h2 (Nat.lt_of_lt_of_le (by decide) h)

/-- 2^32 elements of 2^32 bytes get a block of 16 bytes. -/
example : calloc 12 4294967296 4294967296 = (.cls 0, 0) ∧ room (.cls 0) = 16 := by
  rw [room_cls]
  simp only [calloc, plan, classOf, initTable_eq]
  decide +kernel

end Verif.Rp
