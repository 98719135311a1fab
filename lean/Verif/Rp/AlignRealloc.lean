import Verif.Rp.Block

/-!
# Reallocating with an alignment (`src/rpmalloc.c` 2484-2580, 2989-3000), C199
-/

namespace Verif.Rp

/-- Whether the block is kept, its size before (or what the caller says it was), and its start: src/rpmalloc.c:2485-2536, with any
`oldsize`. -/
def fitsOld (k : Nat) (kind : Kind) (p size oldsize : Nat) : Bool × Nat × Nat :=
  let f := fits k kind p size
  let old := if oldsize = 0 then f.2.1 else oldsize
  match kind with
  | .cls _ _ => (f.1, old, f.2.2)
  | .large n =>
    let total := wrap (size + hdr)
    let num := total / spanSize + (if total &&& 18446744073709486079 ≠ 0 then 1 else 0)
    (decide (num ≤ n) && decide (old / 2 ≤ total), old, f.2.2)
  | .huge _ => (f.1, old, f.2.2)

/-- What a call does: the block and the pointer returned, the memory, and the block freed. -/
structure Redone where
  res : Option (Blk × Nat)
  mem : Memory
  freed : Option Blk := none

/-- `_rpmalloc_reallocate`, src/rpmalloc.c:2484-2556: `o` is the old block and pointer (`none`: `NULL`), `bare` is
`RPMALLOC_NO_PRESERVE`, `grow` is `RPMALLOC_GROW_OR_FAIL`. -/
def reallocate (k : Nat) (alloc : Nat → Option Blk) (m : Memory) (o : Option (Blk × Nat)) (size oldsize : Nat) (bare grow : Bool) : Redone :=
  match o with
  | none =>
    if grow then ⟨none, m, none⟩
    else ⟨(alloc (newSize 0 size)).map fun nb => (nb, nb.start), m, none⟩
  | some (b, p) =>
    let f := fitsOld k b.kind p size oldsize
    if f.1 then ⟨some (b, f.2.2), if p ≠ f.2.2 ∧ bare = false then move m f.2.2 p f.2.1 else m, none⟩
    else if grow then ⟨none, m, none⟩
    else
      match alloc (newSize f.2.1 size) with
      | none => ⟨none, m, none⟩
      | some nb => ⟨some (nb, nb.start), if bare then m else move m nb.start p (min f.2.1 (newSize f.2.1 size)), some b⟩

/-- `_rpmalloc_aligned_reallocate`, src/rpmalloc.c:2558-2580.  `al` is `_rpmalloc_aligned_allocate` for this alignment. -/
def alignedReallocate (k : Nat) (alloc : Nat → Option Blk) (al : Nat → Option (Blk × Nat)) (m : Memory) (o : Option (Blk × Nat))
    (alignment size oldsize : Nat) (bare grow : Bool) : Redone :=
  if alignment ≤ 16 then reallocate k alloc m o size oldsize bare grow
  else
    let us := match o with
      | none => 0
      | some (b, p) => usable k b.kind p
    let ptr := match o with
      | none => 0
      | some (_, p) => p
    if (us ≥ size ∧ ptr &&& (alignment - 1) = 0) ∧ (grow = true ∨ size ≥ us / 2) then ⟨o, m, none⟩
    else
      match (if grow then none else al size) with
      | none => ⟨none, m, none⟩
      | some (nb, q) =>
        match o with
        | none => ⟨some (nb, q), m, none⟩
        | some (b, p) =>
          ⟨some (nb, q), if bare then m else move m q p (min (if oldsize = 0 then us else oldsize) size), some b⟩

/-! ## What it should do -/

/-- `nb` is apart from the old block, if there is one. -/
def Apart (k : Nat) (o : Option (Blk × Nat)) (nb : Blk) : Prop :=
  ∀ b p, o = some (b, p) → nb.stop k ≤ b.start ∨ b.stop k ≤ nb.start

/-- The bytes from the old pointer on which are to be kept. -/
def kept (k : Nat) (b : Blk) (p oldsize : Nat) : Nat := if oldsize = 0 then b.stop k - p else oldsize

/-- The contract: a block is aligned and has room, holds what the old one held (as much as both hold), no memory outside of it changes, and
the old block is freed exactly if another is returned; a failure has no effect. -/
def Contract (k : Nat) (m : Memory) (o : Option (Blk × Nat)) (alignment size oldsize : Nat) (bare : Bool) (r : Redone) : Prop :=
  match r.res with
  | none => r.mem = m ∧ r.freed = none
  | some (nb, q) =>
    alignment ∣ q ∧ nb.start ≤ q ∧ q + size ≤ nb.stop k ∧
    (∀ a, a < nb.start ∨ nb.stop k ≤ a → r.mem a = m a) ∧
    match o with
    | none => r.freed = none
    | some (b, p) =>
      (bare = false → ∀ i, i < size → i < kept k b p oldsize → r.mem (q + i) = m (p + i)) ∧
      ((nb = b ∧ r.freed = none) ∨ (Apart k o nb ∧ r.freed = some b))

theorem fitsOld_spec {k : Nat} {b : Blk} (hb : b.Ok k) {p : Nat} (hp : b.Has k p) (size oldsize : Nat)
    (hsz : size < 9223372036854775808) :
    (fitsOld k b.kind p size oldsize).2.2 = b.start ∧ (fitsOld k b.kind p size oldsize).2.1 = kept k b p oldsize ∧
      ((fitsOld k b.kind p size oldsize).1 = true → b.start + size ≤ b.stop k) := by
  obtain ⟨h1, h2, h3⟩ := fits_spec hb hp size hsz
  have hk : (if oldsize = 0 then (fits k b.kind p size).2.1 else oldsize) = kept k b p oldsize := by
    unfold kept
    split <;> omega
  unfold fitsOld
  dsimp only
  split
  · exact ⟨h1, hk, h3⟩
  · next n hkn =>
    refine ⟨h1, hk, fun h => ?_⟩
    -- whether the block is kept does not depend on `oldsize` as far as its room is concerned
    have hr := hb.room
    rw [hkn] at hr
    dsimp only at hr
    have hS : spanSize = 65536 := rfl
    have hH : hdr = 128 := rfl
    have hw : wrap (size + hdr) = size + 128 := Nat.mod_eq_of_lt (by rw [hH]; omega)
    unfold Blk.start Blk.stop
    rw [hkn]
    dsimp only
    rw [hw, Bool.and_eq_true] at h
    have h4 := of_decide_eq_true h.1
    rw [hS] at h4 ⊢
    split at h4
    · omega
    · rename_i h6
      have : (size + 128) % 65536 = 0 := land_low (by simpa using h6)
      omega
  · exact ⟨h1, hk, h3⟩

theorem start_sixteen {k : Nat} {b : Blk} (hb : b.Ok k) : 16 ∣ b.start := by
  have hH : hdr = 128 := rfl
  obtain ⟨c, hc⟩ := hb.aligned
  have hS : spanSize = 65536 := rfl
  have hr := hb.room
  unfold Blk.start
  split
  · next bs n hk =>
    rw [hk] at hr
    obtain ⟨d, hd⟩ := hr.1.1
    refine ⟨4096 * c + 8 + b.idx * d, ?_⟩
    have e : b.idx * (16 * d) = 16 * (b.idx * d) := Nat.mul_left_comm _ _ _
    rw [hc, hS, hH, hd, e]
    omega
  · rw [hc, hS, hH]
    omega

theorem move_in {m : Memory} {dst src n i : Nat} (h : i < n) : move m dst src n (dst + i) = m (src + i) := by
  unfold move
  rw [if_pos ⟨by omega, by omega⟩, Nat.add_sub_cancel_left]

theorem move_out {m : Memory} {dst src n a : Nat} (h : a < dst ∨ dst + n ≤ a) : move m dst src n a = m a := by
  unfold move
  rw [if_neg (by omega)]

/-- `rpaligned_realloc` with any power of two as the alignment, any old block or none, any flags, and any old size the old block has room
for keeps the contract.  (`alloc` and `al` give blocks with room, aligned, apart from the old one: C126, C127, C132, C133.) -/
theorem aligned_realloc {k : Nat} {alloc : Nat → Option Blk} {al : Nat → Option (Blk × Nat)} (m : Memory) {o : Option (Blk × Nat)} (a : Nat)
    {size oldsize : Nat} (bare grow : Bool)
    (ho : ∀ b p, o = some (b, p) → b.Ok k ∧ b.Has k p ∧ p + oldsize ≤ b.stop k) (hsz : size < 9223372036854775808)
    (ha : ∀ n nb, alloc n = some nb → nb.Ok k ∧ nb.start + n ≤ nb.stop k ∧ Apart k o nb)
    (hal : ∀ n nb q, al n = some (nb, q) → 2 ^ a ∣ q ∧ nb.start ≤ q ∧ q + n ≤ nb.stop k ∧ Apart k o nb) :
    Contract k m o (2 ^ a) size oldsize bare (alignedReallocate k alloc al m o (2 ^ a) size oldsize bare grow) := by
  have hdvd : 2 ^ a ≤ 16 → 2 ^ a ∣ 16 := by
    intro h
    have : a ≤ 4 := by
      by_contra hc
      have := Nat.pow_le_pow_right (n := 2) (by decide) (show 5 ≤ a by omega)
      omega
    exact Nat.pow_dvd_pow 2 this (m := a) (n := 4)
  unfold alignedReallocate
  split
  · next h16 =>
    have hd := hdvd h16
    unfold reallocate
    match o with
    | none =>
      dsimp only
      split
      · exact ⟨rfl, rfl⟩
      · cases hn : alloc (newSize 0 size) with
        | none => exact ⟨rfl, rfl⟩
        | some nb =>
          obtain ⟨h1, h2, _⟩ := ha _ _ hn
          have := newSize_ge (old := 0) (size := size)
          exact ⟨Nat.dvd_trans hd (start_sixteen h1), Nat.le_refl _, by omega, fun _ _ => rfl, rfl⟩
    | some (b, p) =>
      obtain ⟨hb, hp, hold⟩ := ho b p rfl
      obtain ⟨f1, f2, f3⟩ := fitsOld_spec hb hp size oldsize hsz
      have hroom : p + kept k b p oldsize ≤ b.stop k := by
        unfold kept
        have := hp.2.1
        split <;> omega
      dsimp only
      rw [f1, f2]
      split
      · next hfit =>
        have hps := hp.1
        refine ⟨Nat.dvd_trans hd (start_sixteen hb), Nat.le_refl _, f3 hfit, fun x hx => ?_, fun hbare i hi hi' => ?_, Or.inl ⟨rfl, rfl⟩⟩
        · dsimp only
          split
          · exact move_out (by omega)
          · rfl
        · dsimp only
          split
          · exact move_in hi'
          · next hne =>
            have : p = b.start := by
              by_contra hc
              exact hne ⟨hc, hbare⟩
            rw [this]
      · split
        · exact ⟨rfl, rfl⟩
        · cases hn : alloc (newSize (kept k b p oldsize) size) with
          | none => exact ⟨rfl, rfl⟩
          | some nb =>
            obtain ⟨h1, h2, h3⟩ := ha _ _ hn
            have hge := newSize_ge (old := kept k b p oldsize) (size := size)
            refine ⟨Nat.dvd_trans hd (start_sixteen h1), Nat.le_refl _, by omega, fun x hx => ?_, fun hbare i hi hi' => ?_,
              Or.inr ⟨h3, rfl⟩⟩
            · dsimp only
              split
              · rfl
              · exact move_out (by omega)
            · dsimp only
              rw [hbare, if_neg (by decide)]
              exact move_in (by omega)
  · next h16 =>
    match o with
    | none =>
      dsimp only
      split
      · exact ⟨rfl, rfl⟩
      · cases grow with
        | true => exact ⟨rfl, rfl⟩
        | false =>
          cases hn : al size with
          | none => exact ⟨by simp, by simp⟩
          | some nq =>
            obtain ⟨nb, q⟩ := nq
            obtain ⟨h1, h2, h3, _⟩ := hal _ _ _ hn
            exact ⟨h1, h2, h3, fun _ _ => rfl, rfl⟩
    | some (b, p) =>
      obtain ⟨hb, hp, hold⟩ := ho b p rfl
      have hu := usable_exact hb hp
      dsimp only
      split
      · next hc =>
        obtain ⟨⟨hc1, hc2⟩, _⟩ := hc
        rw [Nat.and_two_pow_sub_one_eq_mod] at hc2
        exact ⟨Nat.dvd_of_mod_eq_zero hc2, hp.1, by omega, fun _ _ => rfl, fun _ _ _ _ => rfl, Or.inl ⟨rfl, rfl⟩⟩
      · cases grow with
        | true => exact ⟨rfl, rfl⟩
        | false =>
          cases hn : al size with
          | none => exact ⟨by simp, by simp⟩
          | some nq =>
            obtain ⟨nb, q⟩ := nq
            obtain ⟨h1, h2, h3, h4⟩ := hal _ _ _ hn
            have hkept : (if oldsize = 0 then usable k b.kind p else oldsize) = kept k b p oldsize := by
              unfold kept
              split <;> omega
            refine ⟨h1, h2, h3, fun x hx => ?_, fun hbare i hi hi' => ?_, Or.inr ⟨h4, rfl⟩⟩
            · show (if bare = true then m else move m q p _) x = m x
              split
              · rfl
              · exact move_out (by omega)
            · show (if bare = true then m else move m q p _) (q + i) = _
              rw [hbare, if_neg (by decide), hkept]
              exact move_in (by omega)

/-- `rpaligned_realloc` reads nothing but the two blocks: what the new block holds afterwards does not depend on any other memory. -/
theorem aligned_realloc_reads {k : Nat} {alloc : Nat → Option Blk} {al : Nat → Option (Blk × Nat)} (m m' : Memory) {o : Option (Blk × Nat)}
    (alignment : Nat) {size oldsize : Nat} (bare grow : Bool)
    (ho : ∀ b p, o = some (b, p) → b.Ok k ∧ b.Has k p ∧ p + oldsize ≤ b.stop k) (hsz : size < 9223372036854775808)
    (hold : ∀ b p, o = some (b, p) → ∀ a, b.start ≤ a → a < b.stop k → m a = m' a) :
    (alignedReallocate k alloc al m' o alignment size oldsize bare grow).res = (alignedReallocate k alloc al m o alignment size oldsize bare grow).res ∧
      ∀ a, m a = m' a → (alignedReallocate k alloc al m o alignment size oldsize bare grow).mem a =
        (alignedReallocate k alloc al m' o alignment size oldsize bare grow).mem a := by
  have hread : ∀ b p, o = some (b, p) → ∀ n, n ≤ kept k b p oldsize → ∀ i, i < n → m (p + i) = m' (p + i) := by
    intro b p e n hn i hi
    obtain ⟨_, hp, h3⟩ := ho b p e
    have := hp.1
    refine hold b p e _ (by omega) ?_
    unfold kept at hn
    have := hp.2.1
    split at hn <;> omega
  unfold alignedReallocate
  split
  · unfold reallocate
    match o with
    | none =>
      dsimp only
      split
      · exact ⟨rfl, fun a h => h⟩
      · exact ⟨rfl, fun a h => h⟩
    | some (b, p) =>
      obtain ⟨hb, hp, h3⟩ := ho b p rfl
      obtain ⟨f1, f2, _⟩ := fitsOld_spec hb hp size oldsize hsz
      dsimp only
      rw [f1, f2]
      split
      · refine ⟨rfl, fun a h => ?_⟩
        dsimp only
        split
        · exact move_congr h (hread b p rfl _ (Nat.le_refl _))
        · exact h
      · split
        · exact ⟨rfl, fun a h => h⟩
        · cases alloc (newSize (kept k b p oldsize) size) with
          | none => exact ⟨rfl, fun a h => h⟩
          | some nb =>
            refine ⟨rfl, fun a h => ?_⟩
            dsimp only
            split
            · exact h
            · exact move_congr h (hread b p rfl _ (Nat.min_le_left _ _))
  · match o with
    | none =>
      dsimp only
      split
      · exact ⟨rfl, fun a h => h⟩
      · cases (if grow then none else al size) with
        | none => exact ⟨rfl, fun a h => h⟩
        | some nq => exact ⟨rfl, fun a h => h⟩
    | some (b, p) =>
      obtain ⟨hb, hp, h3⟩ := ho b p rfl
      have hu := usable_exact hb hp
      have hkept : (if oldsize = 0 then usable k b.kind p else oldsize) = kept k b p oldsize := by
        unfold kept
        split <;> omega
      dsimp only
      split
      · exact ⟨rfl, fun a h => h⟩
      · cases (if grow then none else al size) with
        | none => exact ⟨rfl, fun a h => h⟩
        | some nq =>
          refine ⟨rfl, fun a h => ?_⟩
          dsimp only
          rw [hkept]
          split
          · exact h
          · exact move_congr h (hread b p rfl _ (Nat.min_le_left _ _))

/-- A pointer aligned to 32 in a block of 5120 bytes: 5000 bytes at 32 are kept, 100 bytes are moved (less than half), and at 16 the block
is kept but used from its start. -/
example : (alignedReallocate 12 (fun _ => none) (fun _ => some (⟨196608, .cls 128 511, 0⟩, 196736)) (fun _ => 7)
      (some (⟨65536, .cls 5120 12, 11⟩, 122016)) 32 5000 0 false false).res = some (⟨65536, .cls 5120 12, 11⟩, 122016) ∧
    (alignedReallocate 12 (fun _ => none) (fun _ => some (⟨196608, .cls 128 511, 0⟩, 196736)) (fun _ => 7)
      (some (⟨65536, .cls 5120 12, 11⟩, 122016)) 32 100 0 false false).freed = some ⟨65536, .cls 5120 12, 11⟩ ∧
    (alignedReallocate 12 (fun _ => none) (fun _ => none) (fun _ => 7)
      (some (⟨65536, .cls 5120 12, 11⟩, 122016)) 16 100 0 false false).res = some (⟨65536, .cls 5120 12, 11⟩, 121984) := by
  decide +kernel

/-- The hypotheses of `aligned_realloc` are met by this block and an old size of 16. -/
example : (⟨65536, .cls 5120 12, 11⟩ : Blk).Ok 12 ∧ (⟨65536, .cls 5120 12, 11⟩ : Blk).Has 12 122000 ∧
    122000 + 16 ≤ (⟨65536, .cls 5120 12, 11⟩ : Blk).stop 12 := ⟨ok_example.1, ok_example.2.1, by decide⟩

end Verif.Rp
