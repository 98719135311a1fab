import Mathlib.Tactic.Common
import Mathlib.Data.List.Basic

/-!
# The size classes of the allocator (`src/rpmalloc.c` 462-484, 2590-2609, 2808-2829), C126

The allocator installed by default (`src/events.c:226`) serves every request up to 32256 bytes from a span of 64 KiB which
is cut into blocks of one size.  The table of these sizes is computed at start, and classes with the same number of blocks
are merged.  `RPMALLOC_CONFIGURABLE` is 0 (include/rpmalloc.h:53), so the size of a span is fixed.
-/

namespace Verif.Rp

/-- `_memory_span_size`, src/rpmalloc.c:695, 718: the hardwired 64 KiB. -/
def spanSize : Nat := 65536

/-- `SPAN_HEADER_SIZE`, src/rpmalloc.c:484. -/
def hdr : Nat := 128

/-- `SMALL_SIZE_LIMIT`, src/rpmalloc.c:468. -/
def smallLimit : Nat := 16 * (65 - 1)

/-- `MEDIUM_SIZE_LIMIT`, src/rpmalloc.c:480. -/
def mediumMax : Nat := smallLimit + 512 * 61

/-- `size_class_t`, src/rpmalloc.c:665-672. -/
structure Cls where
  blockSize : Nat
  blockCount : Nat
  idx : Nat
  deriving DecidableEq, Repr

/-- An entry of `_memory_size_class` before initialisation (static storage). -/
def Cls.zero : Cls := ⟨0, 0, 0⟩

/-- Entry `i` of `_memory_size_class`; the table has `SIZE_CLASS_COUNT` = 126 entries. -/
def ent (t : List Cls) (i : Nat) : Cls := t.getD i .zero

/-- The loop of `_rpmalloc_adjust_size_class`, src/rpmalloc.c:2599-2607: earlier classes with the same number of blocks
become copies of class `i`.  The second argument is `prevclass`. -/
def mergeDown (i : Nat) : Nat → List Cls → List Cls
  | 0, t => t
  | p + 1, t =>
    if (ent t p).blockCount = (ent t i).blockCount then mergeDown i p (t.set p (ent t i)) else t

/-- `_rpmalloc_adjust_size_class`, src/rpmalloc.c:2590-2609; `block_count` and `class_idx` are 16 bits wide. -/
def adjust (i : Nat) (t : List Cls) : List Cls :=
  let bs := (ent t i).blockSize
  let t := t.set i ⟨bs, (spanSize - hdr) / bs % 65536, i % 65536⟩
  if 65 ≤ i then mergeDown i i t else t

/-- The two statements which give class `i` its block size and adjust it, src/rpmalloc.c:2810-2811, 2813-2815, 2827-2828. -/
def setup (i size : Nat) (t : List Cls) : List Cls :=
  adjust i (t.set i { ent t i with blockSize := size % 4294967296 })

/-- The loop over the small classes, src/rpmalloc.c:2812-2816, from class `i` on (`n` classes remain). -/
def smallLoop : Nat → Nat → List Cls → List Cls
  | 0, _, t => t
  | n + 1, i, t => smallLoop n (i + 1) (setup i (i * 16) t)

/-- The loop over the medium classes, src/rpmalloc.c:2821-2829: stops with a smaller limit at the first size above it. -/
def mediumLoop : Nat → Nat → Nat → List Cls → List Cls × Nat
  | 0, _, lim, t => (t, lim)
  | n + 1, i, lim, t =>
    let size := smallLimit + (i + 1) * 512
    if size > lim then (t, smallLimit + i * 512) else mediumLoop n (i + 1) lim (setup (65 + i) size t)

/-- The part of `rpmalloc_initialize_config` which fills the table, src/rpmalloc.c:2808-2829: the table and
`_memory_medium_size_limit`. -/
def initTable : List Cls × Nat :=
  let t := setup 0 16 (List.replicate 126 .zero)
  let t := smallLoop 64 1 t
  let lim := (spanSize - hdr) / 2
  let lim := if lim > mediumMax then mediumMax else lim
  mediumLoop 61 0 lim t

/-- The class a request of `size` bytes is served from (`_rpmalloc_allocate`, `_rpmalloc_allocate_small` and
`_rpmalloc_allocate_medium`, src/rpmalloc.c:2117-2139, 2193-2198), or `none` if it is not served from a size class. -/
def classOf (t : List Cls) (lim size : Nat) : Option Nat :=
  if size ≤ smallLimit then some ((size + 15) / 16)
  else if size ≤ lim then some (ent t (65 + (size - (smallLimit + 1)) / 512)).idx
  else none

/-- What is asked of one class: `count` blocks of `size` bytes, aligned to 16 bytes, fit behind the header of a span, at
least two of them and as many as there is room for. -/
def Fits (size count : Nat) : Prop :=
  16 ∣ size ∧ 0 < size ∧ 2 ≤ count ∧ hdr + count * size ≤ spanSize ∧ spanSize < hdr + (count + 1) * size

instance (s c : Nat) : Decidable (Fits s c) := by unfold Fits; infer_instance

/-- The computed table, spelled out only to keep checking short: `initTable_eq` shows that this is what the loops compute. -/
def table : List Cls := [
  ⟨16, 4088, 0⟩, ⟨16, 4088, 1⟩, ⟨32, 2044, 2⟩, ⟨48, 1362, 3⟩, ⟨64, 1022, 4⟩, ⟨80, 817, 5⟩,
  ⟨96, 681, 6⟩, ⟨112, 584, 7⟩, ⟨128, 511, 8⟩, ⟨144, 454, 9⟩, ⟨160, 408, 10⟩, ⟨176, 371, 11⟩,
  ⟨192, 340, 12⟩, ⟨208, 314, 13⟩, ⟨224, 292, 14⟩, ⟨240, 272, 15⟩, ⟨256, 255, 16⟩, ⟨272, 240,
  17⟩, ⟨288, 227, 18⟩, ⟨304, 215, 19⟩, ⟨320, 204, 20⟩, ⟨336, 194, 21⟩, ⟨352, 185, 22⟩, ⟨368,
  177, 23⟩, ⟨384, 170, 24⟩, ⟨400, 163, 25⟩, ⟨416, 157, 26⟩, ⟨432, 151, 27⟩, ⟨448, 146, 28⟩,
  ⟨464, 140, 29⟩, ⟨480, 136, 30⟩, ⟨496, 131, 31⟩, ⟨512, 127, 32⟩, ⟨528, 123, 33⟩, ⟨544, 120,
  34⟩, ⟨560, 116, 35⟩, ⟨576, 113, 36⟩, ⟨592, 110, 37⟩, ⟨608, 107, 38⟩, ⟨624, 104, 39⟩, ⟨640,
  102, 40⟩, ⟨656, 99, 41⟩, ⟨672, 97, 42⟩, ⟨688, 95, 43⟩, ⟨704, 92, 44⟩, ⟨720, 90, 45⟩, ⟨736,
  88, 46⟩, ⟨752, 86, 47⟩, ⟨768, 85, 48⟩, ⟨784, 83, 49⟩, ⟨800, 81, 50⟩, ⟨816, 80, 51⟩, ⟨832, 78,
  52⟩, ⟨848, 77, 53⟩, ⟨864, 75, 54⟩, ⟨880, 74, 55⟩, ⟨896, 73, 56⟩, ⟨912, 71, 57⟩, ⟨928, 70,
  58⟩, ⟨944, 69, 59⟩, ⟨960, 68, 60⟩, ⟨976, 67, 61⟩, ⟨992, 65, 62⟩, ⟨1008, 64, 63⟩, ⟨1024, 63,
  64⟩, ⟨1536, 42, 65⟩, ⟨2048, 31, 66⟩, ⟨2560, 25, 67⟩, ⟨3072, 21, 68⟩, ⟨3584, 18, 69⟩, ⟨4096,
  15, 70⟩, ⟨4608, 14, 71⟩, ⟨5120, 12, 72⟩, ⟨5632, 11, 73⟩, ⟨6144, 10, 74⟩, ⟨7168, 9, 76⟩,
  ⟨7168, 9, 76⟩, ⟨7680, 8, 77⟩, ⟨9216, 7, 80⟩, ⟨9216, 7, 80⟩, ⟨9216, 7, 80⟩, ⟨10752, 6, 83⟩,
  ⟨10752, 6, 83⟩, ⟨10752, 6, 83⟩, ⟨12800, 5, 87⟩, ⟨12800, 5, 87⟩, ⟨12800, 5, 87⟩, ⟨12800, 5,
  87⟩, ⟨15872, 4, 93⟩, ⟨15872, 4, 93⟩, ⟨15872, 4, 93⟩, ⟨15872, 4, 93⟩, ⟨15872, 4, 93⟩, ⟨15872,
  4, 93⟩, ⟨21504, 3, 104⟩, ⟨21504, 3, 104⟩, ⟨21504, 3, 104⟩, ⟨21504, 3, 104⟩, ⟨21504, 3, 104⟩,
  ⟨21504, 3, 104⟩, ⟨21504, 3, 104⟩, ⟨21504, 3, 104⟩, ⟨21504, 3, 104⟩, ⟨21504, 3, 104⟩, ⟨21504, 3,
  104⟩, ⟨32256, 2, 125⟩, ⟨32256, 2, 125⟩, ⟨32256, 2, 125⟩, ⟨32256, 2, 125⟩, ⟨32256, 2, 125⟩,
  ⟨32256, 2, 125⟩, ⟨32256, 2, 125⟩, ⟨32256, 2, 125⟩, ⟨32256, 2, 125⟩, ⟨32256, 2, 125⟩, ⟨32256, 2,
  125⟩, ⟨32256, 2, 125⟩, ⟨32256, 2, 125⟩, ⟨32256, 2, 125⟩, ⟨32256, 2, 125⟩, ⟨32256, 2, 125⟩,
  ⟨32256, 2, 125⟩, ⟨32256, 2, 125⟩, ⟨32256, 2, 125⟩, ⟨32256, 2, 125⟩, ⟨32256, 2, 125⟩]

theorem initTable_eq : initTable = (table, 32256) := by decide +kernel

theorem limit_eq : initTable.2 = 32256 := by rw [initTable_eq]

/-- Every class which a request can be sent to is usable, for all 65 small classes and for all merged ones. -/
theorem small_ok' : ∀ i < 65, let c := ent table i; Fits c.blockSize c.blockCount ∧ c.idx = i ∧ i * 16 ≤ c.blockSize ∧
    c.blockSize ≤ i * 16 + (if i = 0 then 16 else 0) := by
  decide +kernel

theorem medium_ok' : ∀ j < 61, let i := (ent table (65 + j)).idx
    let c := ent table i
    i < 126 ∧ 65 + j ≤ i ∧ Fits c.blockSize c.blockCount ∧ c.idx = i ∧ smallLimit + (j + 1) * 512 ≤ c.blockSize ∧
      c.blockSize ≤ 32256 := by
  decide +kernel

theorem small_ok : ∀ i < 65, let c := ent initTable.1 i; Fits c.blockSize c.blockCount ∧ c.idx = i ∧ i * 16 ≤ c.blockSize ∧
    c.blockSize ≤ i * 16 + (if i = 0 then 16 else 0) := by
  rw [initTable_eq]; exact small_ok'

theorem medium_ok : ∀ j < 61, let i := (ent initTable.1 (65 + j)).idx
    let c := ent initTable.1 i
    i < 126 ∧ 65 + j ≤ i ∧ Fits c.blockSize c.blockCount ∧ c.idx = i ∧ smallLimit + (j + 1) * 512 ≤ c.blockSize ∧
      c.blockSize ≤ 32256 := by
  rw [initTable_eq]; exact medium_ok'

/-- Claim C126: every request of up to 32256 bytes is served from a class of the table whose blocks are at least as large as
the request (and, for the small requests, less than 16 bytes larger unless the request is for nothing); its blocks are
aligned to 16 bytes, fit into a span behind the header, and a span holds at least two of them and as many as fit.  Requests
above are not served from a class. -/
theorem size_class_fits (size : Nat) :
    (size ≤ 32256 → ∃ i, classOf initTable.1 initTable.2 size = some i ∧ i < 126 ∧
      (ent initTable.1 i).idx = i ∧
      size ≤ (ent initTable.1 i).blockSize ∧
      (0 < size → size ≤ 1024 → (ent initTable.1 i).blockSize < size + 16) ∧
      (ent initTable.1 i).blockSize ≤ 32256 ∧
      Fits (ent initTable.1 i).blockSize (ent initTable.1 i).blockCount) ∧
    (32256 < size → classOf initTable.1 initTable.2 size = none) := by
  have hl := limit_eq
  refine ⟨fun h => ?_, fun h => ?_⟩
  · unfold classOf
    by_cases hs : size ≤ smallLimit
    · have hs' : size ≤ 1024 := hs
      obtain ⟨h1, h2, h3, h4⟩ := small_ok ((size + 15) / 16) (by omega)
      refine ⟨_, if_pos hs, by omega, h2, by omega, fun h0 _ => ?_, ?_, h1⟩
      · rw [if_neg (by omega)] at h4; omega
      · split at h4 <;> omega
    · have hs' : 1024 < size := by have : smallLimit = 1024 := rfl; omega
      have hj : (size - (smallLimit + 1)) / 512 < 61 := by have : smallLimit = 1024 := rfl; omega
      obtain ⟨h1, _, h3, h4, h5, h6⟩ := medium_ok _ hj
      refine ⟨_, by rw [if_neg hs, hl, if_pos h], h1, h4, ?_, fun _ h => by omega, h6, h3⟩
      refine Nat.le_trans ?_ h5
      have : smallLimit = 1024 := rfl
      omega
  · unfold classOf
    rw [if_neg (by have : smallLimit = 1024 := rfl; omega), hl, if_neg (by omega)]

/-- A request of 5000 bytes goes to the class of 5120 bytes; one of 30000 bytes to the largest, into which several smaller
classes were merged. -/
example : classOf initTable.1 initTable.2 5000 = some 72 ∧ ent initTable.1 72 = ⟨5120, 12, 72⟩ ∧
    classOf initTable.1 initTable.2 30000 = some 125 ∧ ent initTable.1 125 = ⟨32256, 2, 125⟩ := by
  rw [initTable_eq]; decide +kernel

end Verif.Rp
