import Verif.Mem

/-!
# What a task does with the memory given to `defer_free` (`deferred_unwind`, `defer_free` in `src/events.c`), C94

`defer_free(p)` puts the bare pointer into the task's `garbage`, in the company of arrays, of deferred functions (`defer_t`)
and of objects with a destructor; when the task ends, `deferred_unwind` finds out which of these an entry is by looking at
the memory behind it.
-/

namespace Verif.Udp

/-- One entry of `garbage`: the address, the type word that `array_type` finds in front of the block (part of an array's
header, and for other blocks whatever the allocator keeps there), and the bytes of the block. -/
structure Entry where
  ptr : Nat
  pre : Nat
  bytes : Bytes
  deriving DecidableEq, Repr

/-- What is done: `free(p)`, `data_delete(p)` of an array, the call of a function with one argument, or of a destructor with
the entry. -/
inductive Act where
  | free (ptr : Nat)
  | delete (ptr : Nat)
  | call (func arg : Nat)
  | dtor (func ptr : Nat)
  deriving DecidableEq, Repr

/-- A little-endian word of `k` bytes at offset `i`. -/
def word (b : Bytes) (i : Nat) : Nat → Res Nat
  | 0 => .ok 0
  | k + 1 => do
    let lo ← rd b i
    let hi ← word b (i + 1) k
    .ok (lo.toNat + 256 * hi)

/-- The members of `data_types` that matter here, include/arrays.h:36-93. -/
def dataObj : Nat := 21
def dataArray : Nat := 31
def dataTuple : Nat := 32
def dataRange : Nat := 33
def dataRangeChar : Nat := 34
def dataHashtable : Nat := 35
def dataMap : Nat := 36
def dataDefer : Nat := 37

/-- `is_data`, src/arrays.c:325-332, on a usable pointer. -/
def isData (pre : Nat) : Bool := pre == dataArray || pre == dataRange || pre == dataRangeChar || pre == dataTuple

/-- `defer_free`, src/events.c:1868-1891, within a task: NULL is refused. -/
def deferFree (garbage : List Entry) (e : Entry) : List Entry × Bool :=
  if e.ptr = 0 then (garbage, false) else (garbage ++ [e], true)

/-- One round of the loop of `deferred_unwind`, src/events.c:1104-1121, with the layouts of `defer_t` (include/arrays.h:155-162)
and `data_object_t` (149-153) on 64-bit machines.  Simplified: the called functions are not looked into. -/
def unwind1 (e : Entry) : Res (List Act) :=
  if e.ptr > 0x20000000 then do
    let type ← word e.bytes 0 4
    if isData e.pre then .ok [.delete e.ptr]
    else if type = dataDefer then do
      let isPtr ← word e.bytes 4 4
      if isPtr ≠ 0 then do
        let data ← word e.bytes 16 8
        let func ← word e.bytes 24 8
        .ok [.call func data, .free e.ptr]
      else do
        let value ← word e.bytes 8 8
        let func ← word e.bytes 32 8
        .ok [.call func value, .free e.ptr]
    else if type = dataObj ∨ type = dataHashtable ∨ type = dataMap then do
      let func ← word e.bytes 16 8
      .ok [.dtor func e.ptr]
    else .ok [.free e.ptr]
  else .ok []

/-- `deferred_unwind`, src/events.c:1101-1125: from the last entry to the first.  `l` is the reversed `garbage`. -/
def unwindAll : List Entry → Res (List Act)
  | [] => .ok []
  | e :: l => do
    let a ← unwind1 e
    let r ← unwindAll l
    .ok (a ++ r)

def unwind (garbage : List Entry) : Res (List Act) := unwindAll garbage.reverse

/-! ## Claims -/

/-- Plain memory, as far as `deferred_unwind` can tell: at least a type word long, and neither the word at its start nor the
one in front of it is the number of an array, object, map or deferred function. -/
def LooksPlain (e : Entry) : Prop :=
  e.ptr > 0x20000000 ∧ e.pre ∉ [31, 32, 33, 34] ∧
    ∃ b0 b1 b2 b3 rest, e.bytes = b0 :: b1 :: b2 :: b3 :: rest ∧
      ¬((b0 ∈ [21, 35, 36, 37]) ∧ b1 = 0 ∧ b2 = 0 ∧ b3 = 0)

theorem word4 (b0 b1 b2 b3 : UInt8) (rest : Bytes) : word (b0 :: b1 :: b2 :: b3 :: rest) 0 4 =
    .ok (b0.toNat + 256 * (b1.toNat + 256 * (b2.toNat + 256 * (b3.toNat + 256 * 0)))) := rfl

theorem unwind1_plain {e : Entry} (h : LooksPlain e) : unwind1 e = .ok [.free e.ptr] := by
  obtain ⟨hp, hpre, b0, b1, b2, b3, rest, hb, hn⟩ := h
  have hd : isData e.pre = false := by
    simp only [List.mem_cons, List.not_mem_nil, or_false, not_or] at hpre
    simp [isData, dataArray, dataRange, dataRangeChar, dataTuple, hpre]
  have h0 := b0.toNat_lt
  have h1 := b1.toNat_lt
  have h2 := b2.toNat_lt
  have h3 := b3.toNat_lt
  have key : ∀ n : UInt8, n ∈ ([21, 35, 36, 37] : List UInt8) →
      b0.toNat + 256 * (b1.toNat + 256 * (b2.toNat + 256 * (b3.toNat + 256 * 0))) ≠ n.toNat := by
    intro n hn' he
    have := n.toNat_lt
    apply hn
    have e0 : b0.toNat = n.toNat := by omega
    have e1 : b1.toNat = 0 := by omega
    have e2 : b2.toNat = 0 := by omega
    have e3 : b3.toNat = 0 := by omega
    refine ⟨?_, UInt8.toNat.inj e1, UInt8.toNat.inj e2, UInt8.toNat.inj e3⟩
    rw [UInt8.toNat.inj e0]; exact hn'
  have hw := word4 b0 b1 b2 b3 rest
  have k21 := key 21 (by simp)
  have k35 := key 35 (by simp)
  have k36 := key 36 (by simp)
  have k37 := key 37 (by simp)
  generalize b0.toNat + 256 * (b1.toNat + 256 * (b2.toNat + 256 * (b3.toNat + 256 * 0))) = w at hw k21 k35 k36 k37
  have j37 : w ≠ dataDefer := k37
  have j : ¬(w = dataObj ∨ w = dataHashtable ∨ w = dataMap) := by
    rintro (h | h | h)
    · exact k21 h
    · exact k35 h
    · exact k36 h
  unfold unwind1
  rw [if_pos hp, hb, hw]
  simp only [Res.ok_bind, hd, if_neg j37, if_neg j]
  rfl

theorem unwind_plain (garbage : List Entry) (h : ∀ e ∈ garbage, LooksPlain e) :
    unwind garbage = .ok (garbage.reverse.map fun e => .free e.ptr) := by
  unfold unwind
  have h' : ∀ e ∈ garbage.reverse, LooksPlain e := fun e he => h e (List.mem_reverse.1 he)
  generalize garbage.reverse = l at h'
  induction l with
  | nil => rfl
  | cons e l ih =>
    rw [unwindAll, unwind1_plain (h' e (by simp)), ih fun x hx => h' x (by simp [hx])]
    rfl

/-- The calls of `defer_free` during a task, one after the other; also what they return. -/
def deferAll (garbage : List Entry) : List Entry → List Entry × List Bool
  | [] => (garbage, [])
  | e :: l =>
    let r := deferFree garbage e
    let q := deferAll r.1 l
    (q.1, r.2 :: q.2)

theorem deferAll_eq (g l : List Entry) :
    deferAll g l = (g ++ l.filter (fun e => e.ptr ≠ 0), l.map fun e => decide (e.ptr ≠ 0)) := by
  induction l generalizing g with
  | nil => simp [deferAll]
  | cons e l ih =>
    by_cases h : e.ptr = 0 <;> simp [deferAll, deferFree, h, ih]

/-- C94: memory that was given to `defer_free` and does not look like one of the library's own objects is freed when the task
ends: every block once, the last one first, and nothing else is done.  `defer_free` returns false for NULL, for which nothing is
done, and true otherwise. -/
theorem deferred_memory_freed_partial (calls : List Entry) (h : ∀ e ∈ calls, e.ptr ≠ 0 → LooksPlain e) :
    (deferAll [] calls).2 = calls.map (fun e => decide (e.ptr ≠ 0)) ∧
      unwind (deferAll [] calls).1 = .ok ((calls.filter fun e => e.ptr ≠ 0).reverse.map fun e => .free e.ptr) := by
  rw [deferAll_eq]
  refine ⟨rfl, ?_⟩
  rw [List.nil_append]
  refine unwind_plain _ fun e he => ?_
  obtain ⟨h1, h2⟩ := List.mem_filter.1 he
  exact h e h1 (of_decide_eq_true h2)

/-- The bytes of a number, lowest first. -/
def le : Nat → Nat → Bytes
  | 0, _ => []
  | k + 1, n => UInt8.ofNat (n % 256) :: le k (n / 256)

theorem le_length (k n : Nat) : (le k n).length = k := by
  induction k generalizing n with
  | zero => rfl
  | succ k ih => simp [le, ih]

theorem word_le (k n : Nat) (a b : Bytes) (i : Nat) (hi : i = a.length) (h : n < 256 ^ k) : word (a ++ le k n ++ b) i k = .ok n := by
  induction k generalizing n a i with
  | zero => simp only [Nat.pow_zero] at h; simp [word]; omega
  | succ k ih =>
    have e : a ++ le (k + 1) n ++ b = (a ++ [UInt8.ofNat (n % 256)]) ++ le k (n / 256) ++ b := by simp [le]
    have hr : rd (a ++ le (k + 1) n ++ b) i = .ok (UInt8.ofNat (n % 256)) := by
      subst hi
      simp [rd, le]
    rw [word, hr, Res.ok_bind, e, ih (n / 256) (a ++ [UInt8.ofNat (n % 256)]) (i + 1) (by simp [hi])
      (by rw [Nat.pow_succ] at h; exact Nat.div_lt_of_lt_mul (by omega))]
    simp only [Res.ok_bind, Res.ok.injEq]
    have : (UInt8.ofNat (n % 256)).toNat = n % 256 := by
      simp
    rw [this]
    omega

/-- The contents that make a block look like a deferred call of `func(arg)`: 40 bytes. -/
def payload (func arg : Nat) : Bytes := le 4 37 ++ (le 4 1 ++ (le 8 0 ++ (le 8 arg ++ (le 8 func ++ le 8 0))))

theorem payload_length (func arg : Nat) : (payload func arg).length = 40 := by simp [payload, le_length]

theorem unwind1_payload (func arg ptr pre : Nat) (tail : Bytes) (hf : func < 256 ^ 8) (ha : arg < 256 ^ 8)
    (hp : ptr > 0x20000000) (hpre : pre ∉ [31, 32, 33, 34]) :
    unwind1 ⟨ptr, pre, payload func arg ++ tail⟩ = .ok [.call func arg, .free ptr] := by
  have hd : isData pre = false := by
    simp only [List.mem_cons, List.not_mem_nil, or_false, not_or] at hpre
    simp [isData, dataArray, dataRange, dataRangeChar, dataTuple, hpre]
  have w0 : word (payload func arg ++ tail) 0 4 = .ok 37 := by
    have := word_le 4 37 [] (le 4 1 ++ (le 8 0 ++ (le 8 arg ++ (le 8 func ++ le 8 0))) ++ tail) 0 rfl (by norm_num)
    simpa [payload, List.append_assoc] using this
  have w1 : word (payload func arg ++ tail) 4 4 = .ok 1 := by
    have := word_le 4 1 (le 4 37) (le 8 0 ++ (le 8 arg ++ (le 8 func ++ le 8 0)) ++ tail) 4 (by simp [le_length]) (by norm_num)
    simpa [payload, List.append_assoc] using this
  have w2 : word (payload func arg ++ tail) 16 8 = .ok arg := by
    have := word_le 8 arg (le 4 37 ++ le 4 1 ++ le 8 0) (le 8 func ++ le 8 0 ++ tail) 16 (by simp [le_length]) ha
    simpa [payload, List.append_assoc] using this
  have w3 : word (payload func arg ++ tail) 24 8 = .ok func := by
    have := word_le 8 func (le 4 37 ++ le 4 1 ++ le 8 0 ++ le 8 arg) (le 8 0 ++ tail) 24 (by simp [le_length]) hf
    simpa [payload, List.append_assoc] using this
  unfold unwind1
  simp only [hp, if_true, w0, w1, w2, w3, Res.ok_bind, hd, dataDefer]
  simp

/-- C94 is false: for every function and argument there are 40 bytes with which memory given to `defer_free` (the text of a
file, a received message, the result of a string function) makes the end of the task call that function. -/
theorem deferred_memory_can_call (func arg : Nat) (hf : func < 2 ^ 64) (ha : arg < 2 ^ 64) :
    ∃ contents : Bytes, contents.length = 40 ∧ ∀ ptr pre (tail : Bytes), ptr > 0x20000000 → pre ∉ [31, 32, 33, 34] →
      unwind [⟨ptr, pre, contents ++ tail⟩] = .ok [.call func arg, .free ptr] := by
  refine ⟨payload func arg, payload_length func arg, fun ptr pre tail hp hpre => ?_⟩
  unfold unwind
  rw [List.reverse_singleton, unwindAll, unwind1_payload func arg ptr pre tail (by omega) (by omega) hp hpre]
  rfl

/-- C94 is false for short memory: the type word is read from blocks that have less than its four bytes (a text of one
character: two bytes). -/
theorem deferred_short_memory_ub (ptr pre : Nat) (bytes : Bytes) (h : bytes.length < 4) (hp : ptr > 0x20000000) :
    unwind [⟨ptr, pre, bytes⟩] = .ub := by
  have : word bytes 0 4 = .ub := by
    match bytes, h with
    | [], _ => rfl
    | [_], _ => rfl
    | [_, _], _ => rfl
    | [_, _, _], _ => rfl
  unfold unwind unwindAll
  simp only [List.reverse_singleton, unwind1, hp, if_true, this, Res.ub_bind]

/-! ## Concrete cases -/

example : LooksPlain ⟨0x30000000, 7, [104, 105, 0, 0]⟩ :=
  ⟨by norm_num, by decide, 104, 105, 0, 0, [], rfl, by decide⟩
example : unwind (deferAll [] [⟨0x30000000, 7, [104, 105, 0, 0]⟩, ⟨0, 0, []⟩, ⟨0x30000010, 0, [1, 2, 3, 4, 5, 6]⟩]).1 =
    .ok [.free 0x30000010, .free 0x30000000] := by decide +kernel
example : unwind [⟨0x30000000, 7, [104, 105, 0, 0]⟩, ⟨0x30000010, 0, [1, 2, 3, 4, 5, 6]⟩] =
    .ok [.free 0x30000010, .free 0x30000000] := by decide +kernel
example : unwind [⟨0x30000000, 7, payload 0x401000 0x402000 ++ [9, 9]⟩] = .ok [.call 0x401000 0x402000, .free 0x30000000] := by
  decide +kernel
/-- The text "%" in a block of 32 bytes. -/
example : unwind [⟨0x30000000, 7, [37] ++ calloc 31⟩] = .ub := by decide +kernel

end Verif.Udp
