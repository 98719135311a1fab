import Mathlib.Tactic
import Verif.Basic

/-!
# What comes back from work done in the pool (src/future.c, src/async_io.c), C108, C109

`queue_get(queue_work(futures_pool(), fn, ...))` is how every blocking call is made (`fs_read`, `fs_fread`, `async_fwrite`, `fs_fgets`, ...).  The function
returns a `void *` that stands for a number, for a pointer, or for an array, and `promise_set` has to guess which.  Words are naturals below `2 ^ 64`.
-/

namespace Verif.Future.Value

/-- The `type` field of the header before an array, as far as `is_data` distinguishes (src/arrays.c:325-332). -/
inductive Tag where
  | array
  | range
  | rangeChar
  | tuple
  | other
  deriving DecidableEq

/-- Memory as `is_data` and `data_copy` see it: `hdr v` is the tag in the `array_metadata_t` that ends at address `v`, `none` if that memory cannot be read;
`items v` the elements stored from `v` on. -/
structure Mem where
  hdr : Nat → Option Tag
  items : Nat → List Nat

/-- `casting(x)` for a signed `x`, include/arrays.h:391. -/
def word (x : Int) : Nat := (x % 2 ^ 64).toNat

/-- The `int` in the low half of a word (`values_t.integer`, or an assignment to `int`). -/
def int32 (v : Nat) : Int := ((v : Int) + 2 ^ 31) % 2 ^ 32 - 2 ^ 31

/-- `is_ptr_usable`, src/arrays.c:334-336: the comparison is signed. -/
def usable (v : Nat) : Bool := decide (0x20000000 < v ∧ v < 2 ^ 63)

/-- `is_data`, src/arrays.c:325-332. -/
def isData (m : Mem) (v : Nat) : Res Bool :=
  if v = 0 ∨ usable v = false then .ok false
  else match m.hdr v with
  | none => .ub
  | some .other => .ok false
  | some _ => .ok true

/-- A promise: `arr`: `result->is_array` with the copied elements; `value`: `result->value`; `erred`. -/
structure P where
  arr : Option (List Nat)
  value : Nat
  erred : Int
  deriving DecidableEq

/-- As made by `queue_work`, src/future.c:338-384 (`events_calloc`), and `erred` reset by `queue_work_handler`, line 253. -/
def P.fresh : P := ⟨none, 0, 0⟩

/-- `promise_set(p, res)`, src/future.c:42-57. -/
def promiseSet (m : Mem) (errno : Int) (p : P) (v : Nat) : Res P :=
  if v = 0 then .ok p
  else do
    let p := if v = word (-1) then { p with erred := errno } else p
    let d ← isData m v
    if d then .ok { p with arr := some (m.items v) } else .ok { p with value := v }

/-- `queue_get(p)` once the promise is done, src/future.c:422-452, and the error that `queue_work_handler` (lines 264-265) leaves in `errno` (`none`: untouched).
For an array the first element of the copy is returned. -/
def queueGet (p : P) : Res (Nat × Option Int) :=
  let e := if p.erred = 0 then none else some p.erred
  match p.arr with
  | some [] => .ub
  | some (x :: _) => .ok (x, e)
  | none => .ok (p.value, e)

/-- A blocking call whose function returned `v` with `errno`. -/
def call (m : Mem) (errno : Int) (v : Nat) : Res (Nat × Option Int) := promiseSet m errno .fresh v >>= queueGet

/-- A call whose result is an `int`: `casting(r)` there, `.integer` here (`fs_read`, `fs_write`, `fs_open`, ...: src/async_io.c:596-720). -/
def callInt (m : Mem) (errno r : Int) : Res (Int × Option Int) := do
  let (v, e) ← call m errno (word r)
  .ok (int32 v, e)

/-- A call whose result is a `size_t` (`fs_fread`, src/async_io.c:1018-1025). -/
def callSize (m : Mem) (n : Nat) : Res Nat := do
  let (v, _) ← call m 0 n
  .ok v

/-- What the C library does for one file written by path: whether it opens, how many items `fwrite` takes, whether `fflush` and `fclose` succeed. -/
structure File where
  opens : Bool
  items : Nat
  flush : Bool
  close : Bool

/-- The value of `_os_fwriter`, src/async_io.c:967-985: the count goes through an `int`, and the results of `fflush` and `fclose` are not looked at. -/
def fwriter (emptyPath : Bool) (f : File) : Nat :=
  if emptyPath then 0
  else if f.opens then (if 0 < int32 f.items then word (int32 f.items) else 0) else 0

/-- `async_fwrite(path, mode, buf, size, count)`, src/async_io.c:987-991. -/
def asyncFwrite (m : Mem) (emptyPath : Bool) (f : File) : Res Int := do
  let (v, _) ← call m 0 (fwriter emptyPath f)
  .ok (int32 v)

/-- `fs_fwrite(buf, size, count, stream)`, src/async_io.c:993-1005. -/
def fsFwrite (m : Mem) (items : Nat) : Res Nat := do
  let (v, _) ← call m 0 (word (int32 items))
  .ok v

/-! ## Lemmas -/

theorem int32_word {r : Int} (h1 : -2 ^ 31 ≤ r) (h2 : r < 2 ^ 31) : int32 (word r) = r := by
  unfold int32 word
  omega

theorem int32_small {n : Nat} (h : n < 2 ^ 31) : int32 n = n := by
  unfold int32; omega

theorem word_nat {n : Nat} (h : n < 2 ^ 64) : word (n : Int) = n := by
  unfold word; omega

/-- A word that is not taken for an array comes back. -/
theorem call_plain {m : Mem} {errno : Int} {v : Nat} (h : v = 0 ∨ isData m v = .ok false) :
    call m errno v = .ok (v, if v = word (-1) ∧ errno ≠ 0 then some errno else none) := by
  unfold call promiseSet
  by_cases h0 : v = 0
  · subst h0
    rw [if_pos rfl, Res.ok_bind, if_neg (by rintro ⟨h, -⟩; revert h; decide)]
    rfl
  · rw [if_neg h0]
    rcases h with h | h
    · exact absurd h h0
    · simp only [h, Res.ok_bind, Bool.false_eq_true, if_false]
      by_cases hw : v = word (-1)
      · simp only [hw, if_true, true_and, queueGet, P.fresh]
        by_cases he : errno = 0 <;> simp [he]
      · simp [hw, queueGet, P.fresh]

theorem isData_unusable {m : Mem} {v : Nat} (h : usable v = false) : isData m v = .ok false := by
  unfold isData
  rw [if_pos (Or.inr h)]

theorem call_ub {m : Mem} {errno : Int} {v : Nat} (hu : usable v = true) (hm : m.hdr v = none) : call m errno v = .ub := by
  have h0 : v ≠ 0 := by rintro rfl; revert hu; decide
  unfold call promiseSet
  rw [if_neg h0]
  have : isData m v = .ub := by
    unfold isData
    rw [if_neg (by simp [h0, hu]), hm]
  simp only [this, Res.ub_bind]

/-! ## Claims -/

/-- Claim C108: every `int` result up to 0x20000000 of a function run in the pool comes back unchanged, whatever is in memory, and the caller's `errno` is set
exactly if the result is -1 (and to the error of the function). -/
theorem int_result_exact_partial (m : Mem) (errno r : Int) (h1 : -2 ^ 31 ≤ r) (h2 : r ≤ 0x20000000) :
    callInt m errno r = .ok (r, if r = -1 ∧ errno ≠ 0 then some errno else none) := by
  have hu : usable (word r) = false := by
    unfold usable word
    rw [decide_eq_false_iff_not]
    omega
  have hw : word r = word (-1) ↔ r = -1 := by
    unfold word
    omega
  unfold callInt
  rw [call_plain (Or.inr (isData_unusable hu)), Res.ok_bind]
  simp only [int32_word h1 (by omega), hw]

/-- Claim C108 (failure): a larger result, such as the length of a read of more than 512 MiB, is taken for a pointer: memory in front of that address is read. -/
theorem large_result_ub (m : Mem) (errno r : Int) (h1 : 0x20000000 < r) (h2 : r < 2 ^ 31) (hm : m.hdr (word r) = none) :
    callInt m errno r = .ub := by
  have hu : usable (word r) = true := by
    unfold usable word
    rw [decide_eq_true_iff]
    omega
  unfold callInt
  rw [call_ub hu hm]
  rfl

/-- Claim C108 (failure), and if such an address happens to lie in an array, the caller gets an element of it. -/
theorem large_result_wrong (m : Mem) (errno r : Int) (x : Nat) (xs : List Nat) (h1 : 0x20000000 < r) (h2 : r < 2 ^ 31)
    (hm : m.hdr (word r) = some .array) (hi : m.items (word r) = x :: xs) :
    callInt m errno r = .ok (int32 x, none) := by
  have hu : usable (word r) = true := by
    unfold usable word
    rw [decide_eq_true_iff]
    omega
  have h0 : word r ≠ 0 := by
    intro h; rw [h] at hu; revert hu; decide
  have hw : word r ≠ word (-1) := by
    unfold word
    omega
  unfold callInt call promiseSet isData
  rw [if_neg h0, if_neg hw, if_neg (by simp [h0, hu]), hm]
  simp [queueGet, hi, P.fresh]

/-- Claim C108: a pointer to memory whose preceding bytes can be read and do not look like an array header comes back unchanged, and one that points to an
array gives the first element of the array. -/
theorem pointer_result_partial (m : Mem) (errno : Int) (v : Nat) (hu : usable v = true) :
    (m.hdr v = some .other → call m errno v = .ok (v, none)) ∧
      (∀ t x xs, m.hdr v = some t → t ≠ .other → m.items v = x :: xs → call m errno v = .ok (x, none)) := by
  have h0 : v ≠ 0 := by rintro rfl; revert hu; decide
  have hw : v ≠ word (-1) := by
    rintro rfl
    revert hu; decide
  constructor
  · intro hm
    have hd : isData m v = .ok false := by
      unfold isData
      rw [if_neg (by simp [h0, hu]), hm]
    rw [call_plain (Or.inr hd), if_neg (fun h => hw h.1)]
  · intro t x xs hm ht hi
    have hd : isData m v = .ok true := by
      unfold isData
      rw [if_neg (by simp [h0, hu]), hm]
      cases t <;> first | rfl | exact absurd rfl ht
    unfold call promiseSet
    rw [if_neg h0, if_neg hw, hd]
    simp [queueGet, hi, P.fresh]

/-- Claim C108 (failure): a pointer to memory of which nothing in front can be read (the start of a mapping, for example a buffer given to `fs_fgets`) makes
the pool thread read there. -/
theorem pointer_result_ub (m : Mem) (errno : Int) (v : Nat) (hu : usable v = true) (hm : m.hdr v = none) : call m errno v = .ub :=
  call_ub hu hm

/-- Claim C109: writing up to 0x20000000 items to a file that opens, `async_fwrite` and `fs_fwrite` return the number of items that the library took. -/
theorem fwrite_count_partial (m : Mem) (f : File) (h : f.items ≤ 0x20000000) (ho : f.opens = true) :
    asyncFwrite m false f = .ok (f.items : Int) ∧ fsFwrite m f.items = .ok f.items := by
  have hi : int32 f.items = f.items := int32_small (by omega)
  have hw : word (f.items : Int) = f.items := word_nat (by omega)
  have hu : usable f.items = false := by
    unfold usable
    rw [decide_eq_false_iff_not]
    omega
  have hf : fwriter false f = f.items := by
    unfold fwriter
    simp only [Bool.false_eq_true, if_false, ho, if_true, hi, hw]
    split <;> omega
  constructor
  · unfold asyncFwrite
    rw [hf, call_plain (Or.inr (isData_unusable hu)), Res.ok_bind]
    simp only [hi]
  · unfold fsFwrite
    rw [hi, hw, call_plain (Or.inr (isData_unusable hu)), Res.ok_bind]

/-- Claim C109 (failure): the same count is reported when the data could not be brought to the file: `fflush` and `fclose` may both have failed. -/
theorem fwrite_flush_failure_hidden (m : Mem) (n : Nat) (h : n ≤ 0x20000000) (fl cl : Bool) :
    asyncFwrite m false ⟨true, n, fl, cl⟩ = .ok (n : Int) :=
  (fwrite_count_partial m ⟨true, n, fl, cl⟩ h rfl).1

/-- Claim C109 (failure): with at least `2 ^ 31` items the count is not the one of the library: `async_fwrite` reports nothing written, `fs_fwrite` more
than was asked for. -/
theorem fwrite_large_wrong (m : Mem) (f : File) (h1 : 2 ^ 31 ≤ f.items) (h2 : f.items < 2 ^ 32) :
    asyncFwrite m false f = .ok 0 ∧ ∃ k, fsFwrite m f.items = .ok k ∧ 2 ^ 63 < k := by
  have hi : int32 f.items = (f.items : Int) - 2 ^ 32 := by unfold int32; omega
  have hf : fwriter false f = 0 := by
    have hn : ¬ 0 < int32 f.items := by omega
    unfold fwriter
    simp only [Bool.false_eq_true, if_false, hn, ite_self]
  constructor
  · unfold asyncFwrite
    rw [hf, call_plain (Or.inl rfl), Res.ok_bind]
    rfl
  · have hu : usable (word (int32 f.items)) = false := by
      unfold usable word
      rw [decide_eq_false_iff_not, hi]
      omega
    refine ⟨word (int32 f.items), ?_, ?_⟩
    · unfold fsFwrite
      rw [call_plain (Or.inr (isData_unusable hu)), Res.ok_bind]
    · unfold word
      rw [hi]
      omega

/-! Reading 4096 bytes; an error; 600 MB. -/
example : callInt ⟨fun _ => none, fun _ => []⟩ 0 4096 = .ok (4096, none) := by decide +kernel
example : callInt ⟨fun _ => none, fun _ => []⟩ 2 (-1) = .ok (-1, some 2) := by decide +kernel
example : callInt ⟨fun _ => none, fun _ => []⟩ 0 600000000 = .ub := by decide +kernel
example : callInt ⟨fun _ => some .array, fun _ => [7, 8]⟩ 0 600000000 = .ok (7, none) := by decide +kernel
example : call ⟨fun _ => some .other, fun _ => []⟩ 0 0x7f0000001000 = .ok (0x7f0000001000, none) := by decide +kernel
example : asyncFwrite ⟨fun _ => none, fun _ => []⟩ false ⟨true, 10, false, false⟩ = .ok 10 := by decide +kernel
example : asyncFwrite ⟨fun _ => none, fun _ => []⟩ false ⟨true, 3000000000, true, true⟩ = .ok 0 := by decide +kernel
example : fsFwrite ⟨fun _ => none, fun _ => []⟩ 3000000000 = .ok 18446744072414584320 := by decide +kernel

end Verif.Future.Value
