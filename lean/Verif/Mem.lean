import Verif.Basic
import Mathlib.Tactic

/-!
# Byte buffers

A buffer is the list of bytes of one C object.  Every access outside it is undefined behaviour.
These are the primitives (`*p`, `*p = c`, `memcpy`, `memset`, `memchr`, `strlen`, `strstr`) in terms of which
the string functions of `src/arrays.c` are transcribed.
-/

namespace Verif

abbrev Bytes := List UInt8

/-- `buf[i]` (read). -/
def rd (b : Bytes) (i : Nat) : Res UInt8 :=
  match b[i]? with
  | some v => .ok v
  | none => .ub

/-- `buf[i] = v`. -/
def wr (b : Bytes) (i : Nat) (v : UInt8) : Res Bytes :=
  if i < b.length then .ok (b.set i v) else .ub

/-- `memcpy(dst + d, src + s, n)` / `memmove` with all source bytes read before writing. -/
def memcpy (dst : Bytes) (d : Nat) (src : Bytes) (s n : Nat) : Res Bytes :=
  if s + n ≤ src.length ∧ d + n ≤ dst.length then
    .ok (dst.take d ++ (src.drop s).take n ++ dst.drop (d + n))
  else .ub

/-- `memset(dst, c, n)`. -/
def memset (dst : Bytes) (c : UInt8) (n : Nat) : Res Bytes :=
  if n ≤ dst.length then .ok (List.replicate n c ++ dst.drop n) else .ub

/-- `calloc(1, n)`. -/
def calloc (n : Nat) : Bytes := List.replicate n 0

/-- The memory image of a C string literal or argument: its bytes and the terminator. -/
def cstr (s : Bytes) : Bytes := s ++ [0]

/-- No embedded terminator. -/
def NulFree (s : Bytes) : Prop := ∀ b ∈ s, b ≠ 0

instance (s : Bytes) : Decidable (NulFree s) := by unfold NulFree; infer_instance

/-- The C string starting at offset `p` of a buffer: bytes up to the first NUL, undefined if there is none. -/
def strAt (b : Bytes) (p : Nat) : Res Bytes :=
  if 0 ∈ b.drop p then .ok ((b.drop p).takeWhile (· ≠ 0)) else .ub

/-- `_mem_align_up(x, 2)`, include/arrays.h:381. -/
def alignUp2 (x : Nat) : Nat := (x + 1) / 2 * 2

theorem le_alignUp2 (x : Nat) : x ≤ alignUp2 x := by unfold alignUp2; omega

/-- `memchr(b + p, c, n)`: offset of the first `c` among the `n` bytes at `p`; undefined if the range leaves
the object. -/
def memchr (b : Bytes) (p : Nat) (c : UInt8) (n : Nat) : Res (Option Nat) :=
  if p + n ≤ b.length then
    .ok (((b.drop p).take n).findIdx? (· == c) |>.map (p + ·))
  else .ub

/-- First offset ≥ `p`, within the list `s`, at which `needle` is a prefix of the rest (`none` if nowhere).
Specification-level search used for `strstr`/`memmem`. -/
def searchFrom (s needle : Bytes) (p : Nat) : Option Nat :=
  (List.range (s.length + 1)).find? (fun i => p ≤ i ∧ needle.isPrefixOf (s.drop i))

/-- `strstr(b + p, needle)` on a buffer: search inside the C string that starts at `p`. -/
def strstr (b : Bytes) (p : Nat) (needle : Bytes) : Res (Option Nat) := do
  let s ← strAt b p
  .ok ((searchFrom s needle 0).map (p + ·))

/-! ### basic facts -/

theorem NulFree.append {a b : Bytes} (ha : NulFree a) (hb : NulFree b) : NulFree (a ++ b) := by
  intro x hx
  rcases List.mem_append.1 hx with h | h
  · exact ha x h
  · exact hb x h

theorem NulFree.left {a b : Bytes} (h : NulFree (a ++ b)) : NulFree a := fun x hx => h x (List.mem_append_left _ hx)
theorem NulFree.right {a b : Bytes} (h : NulFree (a ++ b)) : NulFree b := fun x hx => h x (List.mem_append_right _ hx)

theorem rd_ok {b : Bytes} {i : Nat} (h : i < b.length) : rd b i = .ok b[i] := by
  simp [rd, h]

theorem rd_cstr_lt {s : Bytes} {i : Nat} (h : i < s.length) : rd (cstr s) i = .ok s[i] := by
  simp [rd, cstr, List.getElem?_append_left h, h]

theorem rd_cstr_end (s : Bytes) : rd (cstr s) s.length = .ok 0 := by
  simp [rd, cstr]

theorem wr_ok {b : Bytes} {i : Nat} {v} (h : i < b.length) : wr b i v = .ok (b.set i v) := by
  simp [wr, h]

theorem memcpy_ok {dst src : Bytes} {d s n} (h1 : s + n ≤ src.length) (h2 : d + n ≤ dst.length) :
    memcpy dst d src s n = .ok (dst.take d ++ (src.drop s).take n ++ dst.drop (d + n)) := by
  simp [memcpy, h1, h2]

theorem strAt_cstr {s : Bytes} (hs : NulFree s) {p : Nat} (hp : p ≤ s.length) : strAt (cstr s) p = .ok (s.drop p) := by
  have e : (cstr s).drop p = s.drop p ++ [0] := by
    simp [cstr, List.drop_append_of_le_length hp]
  have hd : ∀ b ∈ s.drop p, b ≠ 0 := fun b hb => hs b (List.mem_of_mem_drop hb)
  have : List.takeWhile (fun x : UInt8 => decide (x ≠ 0)) (s.drop p ++ [0]) = s.drop p := by
    rw [List.takeWhile_append_of_pos (by simpa using hd)]
    simp
  simp only [strAt, e]
  rw [if_pos (by simp), this]

theorem searchFrom_some {s needle : Bytes} {p i : Nat} (h : searchFrom s needle p = some i) :
    p ≤ i ∧ i ≤ s.length ∧ needle <+: s.drop i ∧ ∀ j, p ≤ j → j < i → ¬ needle <+: s.drop j := by
  unfold searchFrom at h
  rw [List.find?_range_eq_some] at h
  obtain ⟨h1, h2, h3⟩ := h
  simp at h1 h2 h3
  exact ⟨h1.1, by omega, h1.2, fun j hj hlt hp => (h3 j hlt).elim (fun q => by omega) (fun q => q hp)⟩

theorem searchFrom_none {s needle : Bytes} {p : Nat} (h : searchFrom s needle p = none) :
    ∀ j, p ≤ j → j ≤ s.length → ¬ needle <+: s.drop j := by
  unfold searchFrom at h
  rw [List.find?_range_eq_none] at h
  intro j hj hl hp
  have := h j (by omega)
  simp [hj] at this
  exact this hp

end Verif
