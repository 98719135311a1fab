import Verif.Mem
import Mathlib.Data.List.Basic

/-!
# `async_fprintf` (`src/async_io.c` 943-965), C257

A text is put into a file by a function of a pool thread: the file is opened, the text printed to the stream with `"%s"`, the stream flushed and closed.

The C library is in the model as far as it matters: a stream has a buffer, so `fprintf` may return before anything was written; the disk may be full.
-/

namespace Verif.Io.Fprintf

/-- The mode of `fopen`, as far as it matters: `"w"`, `"a"`, `"r"`, or something that is no mode. -/
inductive Mode where
  | write | append | read | none
  deriving DecidableEq, Repr

/-- What is outside: whether the file may be opened, how many bytes the disk still takes, and how many bytes of the text `fprintf` itself writes out since they do not fit its
buffer. -/
structure Env where
  canOpen : Bool
  room : Nat
  early : Nat
  deriving DecidableEq, Repr

/-- `fopen` on the file of that name: the contents a stream begins with, or failure.  The file itself is emptied by `"w"`. -/
def fopen (e : Env) (m : Mode) (file : Option Bytes) : Option Bytes :=
  if e.canOpen then
    match m, file with
    | .write, _ => some []
    | .append, f => some (f.getD [])
    | .read, f => f
    | .none, _ => Option.none
  else Option.none

/-- `fprintf(fi, "%s", text)`: the value, the contents of the file, what is left in the buffer, and the room. -/
def fprintf (e : Env) (m : Mode) (file text : Bytes) : Int × Bytes × Bytes × Nat :=
  if m = .read then (-1, file, [], e.room)
  else if 2 ^ 31 ≤ text.length then (-1, file, [], e.room)
  else if e.room < e.early then (-1, file ++ text.take e.room, [], 0)
  else (text.length, file ++ text.take e.early, text.drop e.early, e.room - e.early)

/-- `fflush`, also when it is done by `fclose`: what does not fit is lost with the stream. -/
def flush (file buf : Bytes) (room : Nat) : Bytes := file ++ buf.take room

/-- `_os_fprintf`, async_io.c:943-961, as returned by `async_fprintf` (963-965): the value and the file afterwards.  The results of `fflush` and `fclose` are not looked
at. -/
def asyncFprintf (e : Env) (pathEmpty : Bool) (m : Mode) (text : Bytes) (file : Option Bytes) : Int × Option Bytes :=
  if pathEmpty then (0, file)
  else
    match fopen e m file with
    | none => (0, file)
    | some c =>
      let (count, c, buf, room) := fprintf e m c text
      let c := flush c buf room
      (if count > 0 then count else 0, some c)

/-! ## C257 -/

/-- The contents a stream of that mode adds to. -/
def base (m : Mode) (file : Option Bytes) : Bytes := if m = .append then file.getD [] else []

/-- If the file can be opened for writing and the disk takes the text, the text is in the file as it is given, whatever is in it, and its length is returned. -/
theorem stored_partial (e : Env) (m : Mode) (hm : m = .write ∨ m = .append) (text : Bytes) (file : Option Bytes) (ho : e.canOpen = true) (h0 : text ≠ [])
    (hlen : text.length < 2 ^ 31) (he : e.early ≤ text.length) (hr : text.length ≤ e.room) :
    asyncFprintf e false m text file = ((text.length : Int), some (base m file ++ text)) := by
  have hpos : 0 < text.length := List.length_pos_iff.2 h0
  have key : ∀ c, (let (count, c, buf, room) := fprintf e m c text
      ((if count > 0 then count else 0 : Int), some (flush c buf room))) = ((text.length : Int), some (c ++ text)) := by
    intro c
    have hm' : m ≠ .read := by rcases hm with rfl | rfl <;> simp
    simp only [fprintf, if_neg hm', if_neg (by omega : ¬ 2 ^ 31 ≤ text.length), if_neg (by omega : ¬ e.room < e.early), flush]
    rw [if_pos (by omega), List.append_assoc, List.take_of_length_le (l := text.drop e.early) (by rw [List.length_drop]; omega), List.take_append_drop]
  rcases hm with rfl | rfl
  · simpa [asyncFprintf, fopen, ho, base] using key []
  · simpa [asyncFprintf, fopen, ho, base] using key (file.getD [])

/-- When the disk is full, the length of the whole text is returned although only the beginning is in the file, as long as `fprintf` itself did not notice. -/
theorem counted_but_lost (e : Env) (m : Mode) (hm : m = .write ∨ m = .append) (text : Bytes) (file : Option Bytes) (ho : e.canOpen = true)
    (hlen : text.length < 2 ^ 31) (he : e.early ≤ e.room) (hr : e.room < text.length) :
    ∃ c, asyncFprintf e false m text file = ((text.length : Int), some c) ∧ c = base m file ++ text.take e.room ∧ c ≠ base m file ++ text := by
  have key : ∀ c, (let (count, c, buf, room) := fprintf e m c text
      ((if count > 0 then count else 0 : Int), some (flush c buf room))) = ((text.length : Int), some (c ++ text.take e.room)) := by
    intro c
    have hm' : m ≠ .read := by rcases hm with rfl | rfl <;> simp
    simp only [fprintf, if_neg hm', if_neg (by omega : ¬ 2 ^ 31 ≤ text.length), if_neg (by omega : ¬ e.room < e.early), flush]
    rw [if_pos (by omega), List.append_assoc]
    congr 3
    conv_rhs => rw [show e.room = e.early + (e.room - e.early) by omega, List.take_add]
  refine ⟨base m file ++ text.take e.room, ?_, rfl, ?_⟩
  · rcases hm with rfl | rfl
    · simpa [asyncFprintf, fopen, ho, base] using key []
    · simpa [asyncFprintf, fopen, ho, base] using key (file.getD [])
  · intro h
    have := congrArg List.length (List.append_cancel_left h)
    rw [List.length_take] at this
    omega

/-- A file that cannot be opened is reported like an empty text that was put there: 0, never a negative value. -/
theorem failure_not_told (e : Env) (m : Mode) (text : Bytes) (file : Option Bytes) (p : Bool) :
    0 ≤ (asyncFprintf e p m text file).1 ∧ (e.canOpen = false → asyncFprintf e p m text file = (0, file)) ∧
      (m = .write ∨ m = .append → e.early = 0 → (asyncFprintf e false m [] file).1 = 0) := by
  refine ⟨?_, ?_, ?_⟩
  · cases p
    · simp only [asyncFprintf]
      cases fopen e m file with
      | none => simp
      | some c =>
        simp only [Bool.false_eq_true, if_false]
        split <;> omega
    · simp [asyncFprintf]
  · intro h
    cases p <;> simp [asyncFprintf, fopen, h]
  · rintro (rfl | rfl) h <;> cases hc : e.canOpen <;> simp [asyncFprintf, fopen, hc, fprintf, h]

/-- Whatever happens, what was in the file is not touched by adding, and what comes after it is a beginning of the text. -/
theorem append_keeps (e : Env) (text old : Bytes) (p : Bool) :
    ∃ t, t <+: text ∧ (asyncFprintf e p .append text (some old)).2 = some (old ++ t) := by
  cases p
  · cases hc : e.canOpen
    · exact ⟨[], List.nil_prefix, by simp [asyncFprintf, fopen, hc]⟩
    · simp only [asyncFprintf, fopen, hc, if_true, Option.getD_some, Bool.false_eq_true, if_false, fprintf]
      rw [if_neg (by simp)]
      split
      · exact ⟨[], List.nil_prefix, by simp [flush]⟩
      · split
        · exact ⟨text.take e.room, List.take_prefix _ _, by simp [flush]⟩
        · refine ⟨text.take e.early ++ (text.drop e.early).take (e.room - e.early), ?_, by simp [flush]⟩
          rw [← List.take_add]
          exact List.take_prefix _ _
  · exact ⟨[], List.nil_prefix, by simp [asyncFprintf]⟩

/-- 7 bytes with a percent sign are added to 2, all at once when the stream is closed. -/
example : asyncFprintf ⟨true, 4096, 0⟩ false .append [37, 100, 37, 115, 10, 65, 66] (some [1, 2]) = (7, some [1, 2, 37, 100, 37, 115, 10, 65, 66]) := by decide

/-- The disk takes 3 bytes: 7 are reported. -/
example : asyncFprintf ⟨true, 3, 0⟩ false .append [37, 100, 37, 115, 10, 65, 66] (some [1, 2]) = (7, some [1, 2, 37, 100, 37]) := by decide

end Verif.Io.Fprintf
