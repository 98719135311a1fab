import Verif.Rp.Block

/-!
# Aligned blocks (`src/rpmalloc.c` 2204-2316, 3160-3163), C133
-/

namespace Verif.Rp

/-- The allocator proper: for a request, a block or nothing (`_rpmalloc_allocate`). -/
abbrev Serve := Nat → Option Blk

/-- What `_rpmalloc_allocate` does for a request, by `plan`: a block of the class, of at least as many spans, or of as many
pages (src/rpmalloc.c:2117-2202). -/
def Serve.Good (k : Nat) (s : Serve) : Prop :=
  ∀ n b, s n = some b → b.Ok k ∧
    match plan k n with
    | .cls i => b.kind = .cls (ent initTable.1 i).blockSize (ent initTable.1 i).blockCount
    | .large c => ∃ c', c ≤ c' ∧ b.kind = .large c'
    | .huge g => b.kind = .huge g

/-- What an aligned request gets: the block, the pointer handed out, and whether the span was marked; the regions mapped and
unmapped by the call itself. -/
structure Got where
  res : Option (Blk × Nat × Bool)
  mapped : List Region := []
  unmapped : List Region := []
  deriving DecidableEq, Repr

/-- `ptr` moved up to the next multiple: src/rpmalloc.c:2233-2234, 2289-2290 (`ptr & ~mask` is `ptr - (ptr & mask)`). -/
def bump (alignment p : Nat) : Nat :=
  if p &&& (alignment - 1) ≠ 0 then p - (p &&& (alignment - 1)) + alignment else p

/-- The loop of `_rpmalloc_aligned_allocate`, src/rpmalloc.c:2275-2302, 2304-2315: the `t`-th attempt maps `np` pages; `ms` is
what the kernel answers at each attempt; `fuel` is `limit - np + 1`. -/
def retry (k : Nat) (ms : Nat → Kernel) (alignment size : Nat) : Nat → Nat → Nat → Got → Got
  | 0, _, _, g => g
  | fuel + 1, np, t, g =>
    match mmapOs k (ms t) (wrap (np * 2 ^ k)) with
    | none => g
    | some x =>
      let p := bump alignment (x.ptr + hdr)
      if p - x.ptr ≥ spanSize ∨ p + size > x.ptr + wrap (np * 2 ^ k) ∨ spanOf p ≠ x.ptr then
        retry k ms alignment size fuel (np + 1) (t + 1)
          ⟨none, g.mapped ++ [x.region], g.unmapped ++ [unmapOs k x.ptr x.offset (wrap (np * 2 ^ k))]⟩
      else ⟨some (⟨x.ptr, .huge (np % 4294967296), 0⟩, p, false), g.mapped ++ [x.region], g.unmapped⟩

/-- The number of pages of the first attempt, src/rpmalloc.c:2259-2267. -/
def firstPages (k alignment size : Nat) : Nat :=
  let extra := alignment / 2 ^ k
  let np := 1 + size / 2 ^ k + (if size % 2 ^ k ≠ 0 then 1 else 0)
  if extra > np then 1 + extra else np

/-- The largest number of pages which is tried, src/rpmalloc.c:2270-2272. -/
def limitPages (k np : Nat) : Nat := if spanSize / 2 ^ k * 2 < np * 2 then np * 2 else spanSize / 2 ^ k * 2

/-- The request rounded up to multiples of the size of the header, src/rpmalloc.c:2223. -/
def multiple (size : Nat) : Nat := if size ≠ 0 then wrap (size + 127) / 128 * 128 else 128

/-- `_rpmalloc_aligned_allocate`, src/rpmalloc.c:2204-2316 (`alignment & align_mask`, 2249, is the test for powers of two). -/
def aligned (k : Nat) (s : Serve) (ms : Nat → Kernel) (alignment size : Nat) : Got :=
  if alignment ≤ 16 then ⟨(s size).map fun b => (b, b.start, false), [], []⟩
  else if (alignment ≤ 128 ∧ wrap (size + 128) < initTable.2) ∧ multiple size ≤ wrap (size + alignment) then
    ⟨(s (multiple size)).map fun b => (b, b.start, false), [], []⟩
  else if alignment ≤ 2 ^ k then
    ⟨(s (wrap (size + alignment))).map fun b =>
      (b, bump alignment b.start, decide (b.start &&& (alignment - 1) ≠ 0)), [], []⟩
  else if alignment &&& (alignment - 1) ≠ 0 ∨ alignment ≥ spanSize then ⟨none, [], []⟩
  else
    let np := firstPages k alignment size
    retry k ms alignment size (limitPages k np - np + 1) np 0 ⟨none, [], []⟩

/-! ## Alignment -/

theorem land_pow (a p : Nat) : p &&& (2 ^ a - 1) = p % 2 ^ a := Nat.and_two_pow_sub_one_eq_mod p a

/-- Moving up gives the next multiple. -/
theorem bump_spec (a p : Nat) : 2 ^ a ∣ bump (2 ^ a) p ∧ p ≤ bump (2 ^ a) p ∧ bump (2 ^ a) p < p + 2 ^ a ∧
    (p % 2 ^ a = 0 → bump (2 ^ a) p = p) := by
  have hp := pow_pos' a
  unfold bump
  rw [land_pow]
  generalize 2 ^ a = A at *
  have h1 := Nat.div_add_mod p A
  have h2 := Nat.mod_lt p hp
  split
  · rename_i h
    have e : p - p % A + A = A * (p / A) + A := by omega
    refine ⟨?_, by omega, by omega, fun h0 => absurd h0 h⟩
    rw [e]
    exact Nat.dvd_add (Nat.dvd_mul_right _ _) (Nat.dvd_refl _)
  · rename_i h
    have h : p % A = 0 := by simpa using h
    exact ⟨Nat.dvd_of_mod_eq_zero h, Nat.le_refl _, by omega, fun _ => rfl⟩

theorem plan_large {k n : Nat} (hn : 32256 < n) : plan k n = if n ≤ largeLimit then .large (units 16 n) else .huge (units k n) := by
  unfold plan
  rw [(size_class_fits n).2 hn]

/-- A block which is served for a request is large enough for it, and starts at a multiple of 16. -/
theorem serve_enough {k : Nat} {s : Serve} (hs : s.Good k) {n : Nat} {b : Blk} (hb : s n = some b)
    (hn : n < 9223372036854775808) : b.Ok k ∧ b.start + n ≤ b.stop k ∧ b.start < b.stop k ∧ b.start < b.span + spanSize ∧
      16 ∣ b.start := by
  obtain ⟨h1, h2⟩ := hs n b hb
  have hS : spanSize = 65536 := rfl
  have hH : hdr = 128 := rfl
  have hL : largeLimit = 4128640 := rfl
  obtain ⟨c, hc⟩ := h1.aligned
  rw [hS] at hc
  refine ⟨h1, ?_⟩
  by_cases hsm : n ≤ 32256
  · obtain ⟨i, e1, _, _, e4, _, _, e7⟩ := (size_class_fits n).1 hsm
    have ep : plan k n = .cls i := by unfold plan; rw [e1]
    rw [ep] at h2
    dsimp only at h2
    have hr := h1.room
    rw [h2] at hr
    have hf := cls_facts hr.1 hr.2
    unfold Blk.start Blk.stop
    rw [h2]
    dsimp only
    obtain ⟨⟨d, hd⟩, hp, _⟩ := e7
    generalize (ent initTable.1 i).blockSize = bs at *
    have hcm : 16 ∣ b.idx * bs := Dvd.dvd.mul_left ⟨d, hd⟩ _
    obtain ⟨f, hf'⟩ := hcm
    rw [Nat.add_mul, Nat.one_mul] at hf ⊢
    refine ⟨by omega, by omega, by omega, ⟨c * 4096 + 8 + f, by omega⟩⟩
  · rw [plan_large (by omega)] at h2
    have hr := h1.room
    by_cases hl : n ≤ largeLimit
    · rw [if_pos hl] at h2
      obtain ⟨c', hc', hk⟩ := h2
      rw [hk] at hr
      have hu := units_spec (s := 16) (size := n) (by rw [hH]; omega)
      have e16 : (2 : Nat) ^ 16 = 65536 := by decide
      rw [e16] at hu
      unfold Blk.start Blk.stop
      rw [hk]
      dsimp only
      rw [hS]
      dsimp only at hr
      refine ⟨by omega, by omega, by omega, ⟨c * 4096 + 8, by omega⟩⟩
    · rw [if_neg hl] at h2
      dsimp only at h2
      rw [h2] at hr
      have hu := units_spec (s := k) (size := n) (by rw [hH]; omega)
      unfold Blk.start Blk.stop
      rw [h2]
      dsimp only at hr ⊢
      generalize units k n * 2 ^ k = U at *
      refine ⟨by omega, by omega, by omega, ⟨c * 4096 + 8, by omega⟩⟩

theorem medium_mult' : ∀ j < 61, 128 ∣ (ent table (ent table (65 + j)).idx).blockSize := by decide +kernel

/-- Blocks for multiples of 128 bytes start at multiples of 128. -/
theorem serve_multiple {k : Nat} {s : Serve} (hs : s.Good k) {n : Nat} {b : Blk} (hb : s n = some b)
    (hn : n ≤ 32256) (h0 : 0 < n) (hd : 128 ∣ n) : 128 ∣ b.start := by
  obtain ⟨h1, h2⟩ := hs n b hb
  have hS : spanSize = 65536 := rfl
  have hH : hdr = 128 := rfl
  obtain ⟨c, hc⟩ := h1.aligned
  rw [hS] at hc
  obtain ⟨i, e1, _⟩ := (size_class_fits n).1 hn
  have ep : plan k n = .cls i := by unfold plan; rw [e1]
  rw [ep] at h2
  dsimp only at h2
  have key : 128 ∣ (ent initTable.1 i).blockSize := by
    unfold classOf at e1
    have hL : smallLimit = 1024 := rfl
    rw [hL] at e1
    obtain ⟨d, hd'⟩ := hd
    by_cases hsm : n ≤ 1024
    · rw [if_pos hsm] at e1
      injection e1 with e1
      have := small_ok i (by omega)
      obtain ⟨_, _, h3, h4⟩ := this
      rw [if_neg (by omega)] at h4
      exact ⟨d, by omega⟩
    · rw [if_neg hsm] at e1
      split at e1
      · injection e1 with e1
        have := medium_mult' ((n - (1024 + 1)) / 512) (by omega)
        rw [initTable_eq] at e1 ⊢
        rw [e1] at this
        exact this
      · exact absurd e1 (by simp)
  unfold Blk.start
  rw [h2]
  dsimp only
  generalize (ent initTable.1 i).blockSize = bs at *
  obtain ⟨f, hf⟩ := Dvd.dvd.mul_left key b.idx
  exact ⟨c * 512 + 1 + f, by omega⟩

/-- What an aligned request asks for: a multiple of the alignment, in a block which holds the request from there on, found from
the pointer, freed from its start or marked. -/
def Fine (k alignment size : Nat) (b : Blk) (p : Nat) (mark : Bool) : Prop :=
  b.Ok k ∧ b.Has k p ∧ alignment ∣ p ∧ p + size ≤ b.stop k ∧ (mark = true ∨ p = b.start ∨ ∃ n, b.kind = .huge n)

/-- The loop of attempts. -/
theorem retry_fine {k : Nat} (hk : 12 ≤ k) (hk' : k ≤ 16) {ms : Nat → Kernel} (hm : ∀ t, (ms t).Good k) {a : Nat} (ha : a < 16)
    (hka : k < a) {size : Nat} : ∀ (fuel np t : Nat) (g : Got), g.res = none → g.unmapped = g.mapped →
      1 ≤ np → (np + fuel) * 2 ^ k < 9223372036854775808 → np + fuel ≤ 4294967296 →
      (size = 0 → 2 ^ a < np * 2 ^ k) →
      let r := retry k ms (2 ^ a) size fuel np t g
      (∀ b p mark, r.res = some (b, p, mark) → Fine k (2 ^ a) size b p mark ∧
        ∃ x, r.mapped = r.unmapped ++ [x] ∧ x.addr ≤ b.span ∧ b.stop k ≤ x.addr + x.len) ∧
      (r.res = none → r.unmapped = r.mapped) := by
  intro fuel
  have hpos := pow_pos' k
  have hS : spanSize = 65536 := rfl
  have hH : hdr = 128 := rfl
  induction fuel with
  | zero =>
    intro np t g hg hu _ _ _ _
    refine ⟨fun b p mark h => ?_, fun _ => hu⟩
    rw [retry] at h
    rw [hg] at h
    exact absurd h (by simp)
  | succ fuel ih =>
    intro np t g hg hu hnp hb hb2 h0
    dsimp only
    rw [retry]
    have hlt : np * 2 ^ k < 9223372036854775808 := by
      refine Nat.lt_of_le_of_lt ?_ hb
      exact Nat.mul_le_mul_right _ (by omega)
    have hpos2 : 0 < np * 2 ^ k := Nat.mul_pos hnp hpos
    have ew : wrap (np * 2 ^ k) = np * 2 ^ k := Nat.mod_eq_of_lt (by omega)
    rw [ew]
    split
    · refine ⟨fun b p mark h => ?_, fun _ => hu⟩
      rw [hg] at h
      exact absurd h (by simp)
    · rename_i x hx
      obtain ⟨m1, m2, m3, m4, m5, m6⟩ := map_unmap_exact (by omega) hk' (hm t) hpos2 (by rw [hS]; omega) hx
      dsimp only
      split
      · refine ih (np + 1) (t + 1) _ rfl ?_ (by omega) ?_ (by omega) ?_
        · dsimp only
          rw [m6, hu]
        · have e : np + 1 + fuel = np + (fuel + 1) := by omega
          rw [e]; exact hb
        · intro hz
          have := h0 hz
          rw [Nat.add_mul]
          omega
      · rename_i hc
        obtain ⟨b1, b2, b3, b4⟩ := bump_spec a (x.ptr + hdr)
        refine ⟨fun b p mark h => ?_, fun h => by simp at h⟩
        simp only [Option.some.injEq, Prod.mk.injEq] at h
        obtain ⟨rfl, rfl, rfl⟩ := h
        have hx0 : 0 < x.ptr := by
          have := (hm t _ _ m1).2.1
          omega
        have hsp : spanOf (bump (2 ^ a) (x.ptr + hdr)) = x.ptr := by
          by_contra h
          exact hc (Or.inr (Or.inr h))
        have hdv : spanSize ∣ x.ptr := by
          rw [← hsp]
          exact Nat.dvd_mul_left _ _
        have hle : bump (2 ^ a) (x.ptr + hdr) + size ≤ x.ptr + np * 2 ^ k := by
          by_contra h
          exact hc (Or.inr (Or.inl (by omega)))
        have hd : bump (2 ^ a) (x.ptr + hdr) - x.ptr < spanSize := by
          by_contra h
          exact hc (Or.inl (by omega))
        have eq32 : np % 4294967296 = np := Nat.mod_eq_of_lt (by omega)
        -- when nothing is asked for the pointer is before the end, since the span is aligned
        have hstr : bump (2 ^ a) (x.ptr + hdr) < x.ptr + np * 2 ^ k := by
          by_cases hz : size = 0
          · have h1 := h0 hz
            have hda : 2 ^ a ∣ x.ptr := by
              refine Nat.dvd_trans ?_ hdv
              have : spanSize = 2 ^ 16 := by decide
              rw [this]
              exact Nat.pow_dvd_pow 2 (by omega)
            have hA : 256 ≤ 2 ^ a := by
              have e : (256 : Nat) = 2 ^ 8 := by decide
              rw [e]; exact Nat.pow_le_pow_right (by decide) (by omega)
            generalize 2 ^ a = A at *
            obtain ⟨c, hc'⟩ := hda
            obtain ⟨d, hd'⟩ := b1
            rw [hH] at b2 b3 hd' hle hd ⊢
            have h2 : A * d < A * (c + 2) := by rw [Nat.mul_add]; omega
            have h3 : d < c + 2 := Nat.lt_of_mul_lt_mul_left h2
            have h4 : A * d ≤ A * (c + 1) := Nat.mul_le_mul_left _ (by omega)
            rw [Nat.mul_add] at h4
            omega
          · omega
        refine ⟨⟨⟨hdv, hx0, ?_⟩, ⟨?_, ?_, ?_⟩, b1, ?_, ?_⟩, x.region, ?_⟩
        · dsimp only; rw [eq32]; exact ⟨by omega, rfl, by omega⟩
        · show x.ptr + hdr ≤ _; exact b2
        · show _ < x.ptr + (np % 4294967296) * 2 ^ k
          rw [eq32]; exact hstr
        · show _ < x.ptr + spanSize; omega
        · show _ ≤ x.ptr + (np % 4294967296) * 2 ^ k
          rw [eq32]; exact hle
        · exact Or.inr (Or.inr ⟨_, rfl⟩)
        · refine ⟨by dsimp only; rw [hu], m2, ?_⟩
          show x.ptr + (np % 4294967296) * 2 ^ k ≤ _
          rw [eq32]; exact m3

/-- Claim C133: for every alignment which is a power of two below the span size, and every size below 2^61 for which the number
of pages fits into 32 bits: what is handed out is a multiple of the alignment, it is followed by the memory asked for up to the
end of its block, the header of the block is found from it, and freeing it frees the block as a whole (C130).  Whether the call
succeeds or not, memory which was mapped during the call and is not used is unmapped. -/
theorem aligned_fine_partial {k : Nat} (hk : 12 ≤ k) (hk' : k ≤ 16) {s : Serve} (hs : s.Good k) {ms : Nat → Kernel}
    (hm : ∀ t, (ms t).Good k) {a : Nat} (ha : a < 16) {size : Nat} (hsz : size < 2305843009213693952)
    (hpg : size / 2 ^ k < 1073741824) :
    (∀ b p mark, (aligned k s ms (2 ^ a) size).res = some (b, p, mark) → Fine k (2 ^ a) size b p mark ∧
      ((aligned k s ms (2 ^ a) size).unmapped = (aligned k s ms (2 ^ a) size).mapped ∨
        ∃ x, (aligned k s ms (2 ^ a) size).mapped = (aligned k s ms (2 ^ a) size).unmapped ++ [x] ∧
          x.addr ≤ b.span ∧ b.stop k ≤ x.addr + x.len)) ∧
    ((aligned k s ms (2 ^ a) size).res = none →
      (aligned k s ms (2 ^ a) size).unmapped = (aligned k s ms (2 ^ a) size).mapped) := by
  have hS : spanSize = 65536 := rfl
  have hH : hdr = 128 := rfl
  have hApos := pow_pos' a
  have hAle : 2 ^ a ≤ 32768 := by
    have : (32768 : Nat) = 2 ^ 15 := by decide
    rw [this]; exact Nat.pow_le_pow_right (by decide) (by omega)
  have w1 : wrap (size + 128) = size + 128 := Nat.mod_eq_of_lt (by omega)
  have w2 : wrap (size + 127) = size + 127 := Nat.mod_eq_of_lt (by omega)
  have w3 : wrap (size + 2 ^ a) = size + 2 ^ a := Nat.mod_eq_of_lt (by omega)
  unfold aligned
  rw [limit_eq, w1, w3]
  by_cases c1 : 2 ^ a ≤ 16
  · rw [if_pos c1]
    refine ⟨fun b p mark h => ⟨?_, Or.inl rfl⟩, fun _ => rfl⟩
    simp only [Option.map_eq_some_iff, Prod.mk.injEq] at h
    obtain ⟨b', hb, rfl, rfl, rfl⟩ := h
    obtain ⟨h1, h2, h3, h4, h5⟩ := serve_enough hs hb (by omega)
    refine ⟨h1, ⟨Nat.le_refl _, h3, h4⟩, ?_, h2, Or.inr (Or.inl rfl)⟩
    refine Nat.dvd_trans ?_ h5
    have e : (16 : Nat) = 2 ^ 4 := by decide
    rw [e] at c1 ⊢
    exact Nat.pow_dvd_pow 2 ((Nat.pow_le_pow_iff_right (by decide)).mp c1)
  · rw [if_neg c1]
    by_cases c2 : (2 ^ a ≤ 128 ∧ size + 128 < 32256) ∧ multiple size ≤ size + 2 ^ a
    · rw [if_pos c2]
      refine ⟨fun b p mark h => ⟨?_, Or.inl rfl⟩, fun _ => rfl⟩
      simp only [Option.map_eq_some_iff, Prod.mk.injEq] at h
      obtain ⟨b', hb, rfl, rfl, rfl⟩ := h
      have hmul : size ≤ multiple size ∧ 0 < multiple size ∧ multiple size ≤ 32256 ∧ 128 ∣ multiple size := by
        unfold multiple
        split
        · rw [w2]; exact ⟨by omega, by omega, by omega, Nat.dvd_mul_left _ _⟩
        · exact ⟨by omega, by omega, by omega, Nat.dvd_refl _⟩
      obtain ⟨h1, h2, h3, h4, h5⟩ := serve_enough hs hb (by omega)
      have h6 := serve_multiple hs hb hmul.2.2.1 hmul.2.1 hmul.2.2.2
      refine ⟨h1, ⟨Nat.le_refl _, h3, h4⟩, ?_, by omega, Or.inr (Or.inl rfl)⟩
      refine Nat.dvd_trans ?_ h6
      have e : (128 : Nat) = 2 ^ 7 := by decide
      have c3 := c2.1.1
      rw [e] at c3 ⊢
      exact Nat.pow_dvd_pow 2 ((Nat.pow_le_pow_iff_right (by decide)).mp c3)
    · rw [if_neg c2]
      by_cases c4 : 2 ^ a ≤ 2 ^ k
      · rw [if_pos c4]
        refine ⟨fun b p mark h => ⟨?_, Or.inl rfl⟩, fun _ => rfl⟩
        simp only [Option.map_eq_some_iff, Prod.mk.injEq] at h
        obtain ⟨b', hb, rfl, rfl, rfl⟩ := h
        obtain ⟨h1, h2, h3, h4, h5⟩ := serve_enough hs hb (by omega)
        obtain ⟨b1, b2, b3, b4⟩ := bump_spec a b'.start
        have hin : bump (2 ^ a) b'.start < b'.span + spanSize := by
          obtain ⟨c, hc⟩ := h1.aligned
          rw [hS] at hc h4 ⊢
          -- the end of the span is a multiple of the alignment, and at least the next one after the start
          have hda : 2 ^ a ∣ b'.span + 65536 := by
            rw [hc]
            have : (65536 : Nat) = 2 ^ 16 := by decide
            refine Nat.dvd_add (Dvd.dvd.mul_right ?_ _) ?_ <;>
              · rw [this]; exact Nat.pow_dvd_pow 2 (by omega)
          cases hkd : b'.kind with
          | cls bs n =>
            have hr := h1.room
            rw [hkd] at hr
            have hf := cls_facts hr.1 hr.2
            have hstop : b'.stop k = b'.span + hdr + (b'.idx + 1) * bs := by unfold Blk.stop; rw [hkd]
            rw [hS] at hf
            omega
          | large n =>
            have hst : b'.start = b'.span + hdr := by unfold Blk.start; rw [hkd]
            omega
          | huge n =>
            have hst : b'.start = b'.span + hdr := by unfold Blk.start; rw [hkd]
            omega
        refine ⟨h1, ⟨b2, by omega, hin⟩, b1, by omega, ?_⟩
        rw [land_pow]
        by_cases h0 : b'.start % 2 ^ a = 0
        · exact Or.inr (Or.inl (b4 h0))
        · left; simpa using h0
      · rw [if_neg c4]
        by_cases c5 : 2 ^ a &&& (2 ^ a - 1) ≠ 0 ∨ 2 ^ a ≥ spanSize
        · rw [if_pos c5]
          exact ⟨fun b p mark h => by simp at h, fun _ => rfl⟩
        · rw [if_neg c5]
          have hka : k < a := by
            by_contra h
            exact c4 (Nat.pow_le_pow_right (by decide) (by omega))
          have hkpos := pow_pos' k
          have hk4 : 4096 ≤ 2 ^ k := by
            have e : (4096 : Nat) = 2 ^ 12 := by decide
            rw [e]; exact Nat.pow_le_pow_right (by decide) hk
          have hext : 2 ^ a / 2 ^ k = 2 ^ (a - k) := Nat.pow_div (by omega) (by decide)
          have hext2 : 2 ≤ 2 ^ (a - k) := by
            calc 2 = 2 ^ 1 := by decide
              _ ≤ 2 ^ (a - k) := Nat.pow_le_pow_right (by decide) (by omega)
          have hext3 : 2 ^ (a - k) ≤ 8 := by
            have e : (8 : Nat) = 2 ^ 3 := by decide
            rw [e]; exact Nat.pow_le_pow_right (by decide) (by omega)
          have hmulA : 2 ^ (a - k) * 2 ^ k = 2 ^ a := by
            rw [← Nat.pow_add]; congr 1; omega
          -- the number of pages of the first attempt
          obtain ⟨np, hnp⟩ : ∃ np, np = firstPages k (2 ^ a) size := ⟨_, rfl⟩
          have hnp1 : 1 ≤ np ∧ np ≤ size / 2 ^ k + 10 ∧ (size = 0 → np = 1 + 2 ^ (a - k)) := by
            rw [hnp]
            unfold firstPages
            dsimp only
            rw [hext]
            refine ⟨?_, ?_, fun hz => ?_⟩
            · generalize size / 2 ^ k = Q at hpg ⊢
              generalize size % 2 ^ k = R
              split <;> (try split) <;> omega
            · generalize size / 2 ^ k = Q at hpg ⊢
              generalize size % 2 ^ k = R
              split <;> (try split) <;> omega
            · rw [hz, Nat.zero_div, Nat.zero_mod]
              rw [if_pos (by simp; omega)]
          have hlim : limitPages k np ≤ 2 * np + 32 := by
            unfold limitPages
            have : spanSize / 2 ^ k ≤ 16 := by
              rw [hS]
              exact Nat.div_le_of_le_mul (by omega)
            split <;> omega
          dsimp only
          rw [← hnp]
          have hdiv : size / 2 ^ k * 2 ^ k ≤ size := Nat.div_mul_le_self _ _
          have hk65 := pow_le hk'
          have hfu : np + (limitPages k np - np + 1) ≤ 2 * (size / 2 ^ k) + 54 := by omega
          have hbig : (np + (limitPages k np - np + 1)) * 2 ^ k < 9223372036854775808 := by
            refine Nat.lt_of_le_of_lt (Nat.mul_le_mul_right _ hfu) ?_
            rw [Nat.add_mul, Nat.mul_assoc]
            have : 54 * 2 ^ k ≤ 54 * 65536 := Nat.mul_le_mul_left _ hk65
            generalize size / 2 ^ k * 2 ^ k = Q at *
            generalize 54 * 2 ^ k = R at *
            omega
          have hr := retry_fine hk hk' hm ha hka (size := size) (limitPages k np - np + 1) np 0 ⟨none, [], []⟩ rfl rfl
            hnp1.1 hbig (by omega) (fun hz => by
              rw [hnp1.2.2 hz, Nat.add_mul, hmulA]; omega)
          dsimp only at hr
          refine ⟨fun b p mark h => ?_, hr.2⟩
          obtain ⟨f1, f2⟩ := hr.1 b p mark h
          exact ⟨f1, Or.inr f2⟩

/-- What C133 leaves out: for sizes above 2^64 - 128 the sums wrap around, and the request is served like one for nothing. -/
theorem aligned_wraps {k : Nat} (s : Serve) (ms : Nat → Kernel) {alignment size : Nat} (h1 : 16 < alignment)
    (h2 : alignment ≤ 128) (h3 : 18446744073709551616 - 128 < size) (h4 : size < 18446744073709551616) :
    aligned k s ms alignment size = ⟨(s 0).map fun b => (b, b.start, false), [], []⟩ := by
  have w1 : wrap (size + 128) < 128 := by unfold wrap; omega
  have w2 : multiple size = 0 := by
    unfold multiple
    rw [if_pos (by omega)]
    have : wrap (size + 127) < 127 := by unfold wrap; omega
    omega
  unfold aligned
  rw [limit_eq, if_neg (by omega), if_pos ⟨⟨h2, by omega⟩, by rw [w2]; omega⟩, w2]

/-- The allocator of the examples: it has one block of 128 bytes and one of 6144 bytes. -/
def demo : Serve := fun n =>
  if n = 128 then some ⟨65536, .cls 128 511, 1⟩ else if n = 6096 then some ⟨131072, .cls 6144 10, 3⟩ else none

theorem demo_good : demo.Good 12 := by
  intro n b h
  unfold demo at h
  split at h
  · rename_i hn
    subst hn
    simp only [Option.some.injEq] at h
    subst h
    refine ⟨⟨by decide, by decide, ⟨by decide, by decide⟩⟩, ?_⟩
    have e : plan 12 128 = .cls 8 := by unfold plan; rw [initTable_eq]; decide +kernel
    rw [e, initTable_eq]
    decide
  · split at h
    · rename_i hn
      subst hn
      simp only [Option.some.injEq] at h
      subst h
      refine ⟨⟨by decide, by decide, ⟨by decide, by decide⟩⟩, ?_⟩
      have e : plan 12 6096 = .cls 74 := by unfold plan; rw [initTable_eq]; decide +kernel
      rw [e, initTable_eq]
      decide
    · simp at h

/-- An alignment which is not a power of two is not refused, and not met. -/
theorem aligned_not_power : ∃ (s : Serve) (p : Nat) (b : Blk), s.Good 12 ∧
    (aligned 12 s (fun _ _ => none) 48 100).res = some (b, p, false) ∧ ¬ 48 ∣ p := by
  refine ⟨demo, 65792, ⟨65536, .cls 128 511, 1⟩, demo_good, ?_, by decide⟩
  unfold aligned
  rw [limit_eq]
  decide +kernel

/-- 2000 bytes at a multiple of 4096 are found in a block of 6144 bytes; 100 bytes at a multiple of 16384, on a system with
pages of 4096 bytes, at the third attempt: the first two regions are unmapped. -/
example : (aligned 12 demo (fun _ _ => none) 4096 2000).res = some (⟨131072, .cls 6144 10, 3⟩, 151552, true) ∧
    aligned 12 demo (fun t _ => some ([4096 * 5, 4096 * 17, 65536].getD t 0)) 16384 100 =
      ⟨some (⟨65536, .huge 7, 0⟩, 81920, false), [⟨20480, 20480⟩, ⟨69632, 24576⟩, ⟨65536, 28672⟩],
        [⟨20480, 20480⟩, ⟨69632, 24576⟩]⟩ := by
  unfold aligned
  rw [limit_eq]
  decide +kernel

end Verif.Rp
