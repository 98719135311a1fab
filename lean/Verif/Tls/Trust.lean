import Verif.Mem
import Mathlib.Data.List.Basic

/-!
# The file of trusted certificates (`src/async_tls.c` 41, 700-717, 1054), C271

`use_ca_certificate` chooses the file with the certificates of authorities that connections trust; `ca_cert_file` returns its name,
and `tls_dial` passes that name to the TLS library for every connection.  The name is kept in one static buffer of
`n = PATH_MAX + MAXHOSTNAMELEN + 4` bytes.  `d` is `X509_get_default_cert_file()`, a constant of the TLS library.
Not modelled: what the library does with the file.
-/

namespace Verif.Tls.Trust
open Verif

/-- `use_ca_certificate(path)`, src/async_tls.c:700-710; `none` is a null pointer.  The text in `events_ca_cert` afterwards and
whether a message is printed: `snprintf` returns the length of the complete text. -/
def useCa (n : Nat) (d : Bytes) (path : Option Bytes) (buf : Bytes) : Bytes × Bool :=
  if buf = [] then
    match path with
    | none => (d.take (n - 1), d.length == 0)
    | some p => (p.take (n - 1), p.length == 0)
  else (buf, false)

/-- `ca_cert_file()`, src/async_tls.c:712-717: the text in the buffer, which is also the text returned. -/
def caFile (n : Nat) (d : Bytes) (buf : Bytes) : Bytes :=
  if buf = [] then (useCa n d none buf).1 else buf

/-- What a program does: it chooses a file, or it asks for the name.  A connection by `tls_dial` (line 1054) asks for the name. -/
inductive Ev
  | use (path : Option Bytes)
  | ask

/-- What is seen of one step. -/
inductive Out
  | quiet
  | message
  | file (name : Bytes)
deriving DecidableEq

/-- One step of the program. -/
def step (n : Nat) (d : Bytes) (buf : Bytes) : Ev → Bytes × Out
  | .use p => ((useCa n d p buf).1, if (useCa n d p buf).2 then .message else .quiet)
  | .ask => (caFile n d buf, .file (caFile n d buf))

/-- What is seen of a whole program, beginning with the buffer `buf`. -/
def outs (n : Nat) (d : Bytes) (buf : Bytes) : List Ev → List Out
  | [] => []
  | e :: l => (step n d buf e).2 :: outs n d (step n d buf e).1 l

/-- All that is seen of a program. -/
def program (n : Nat) (d : Bytes) (l : List Ev) : List Out := outs n d [] l

/-! ## Specification -/

/-- The file meant: of the calls made so far (latest first) the latest choice counts, without one the default. -/
def meant (d : Bytes) : List Ev → Bytes
  | [] => d
  | .use (some p) :: _ => p
  | .use none :: _ => d
  | .ask :: l => meant d l

/-- The file named by the first call that is not a choice of the empty name. -/
def first (d : Bytes) : List Ev → Option Bytes
  | [] => none
  | .use none :: _ => some d
  | .ask :: _ => some d
  | .use (some p) :: l => if p = [] then first d l else some p

/-! ## Proofs -/

theorem take_ne {n : Nat} (hn : 1 < n) {t : Bytes} (h : t ≠ []) : t.take (n - 1) ≠ [] := by
  cases t with
  | nil => exact absurd rfl h
  | cons x t =>
    obtain ⟨k, rfl⟩ : ∃ k, n = k + 2 := ⟨n - 2, by omega⟩
    simp

theorem step_set (n : Nat) (d : Bytes) {buf : Bytes} (h : buf ≠ []) (e : Ev) :
    step n d buf e = (buf, match e with | .use _ => .quiet | .ask => .file buf) := by
  cases e <;> simp [step, useCa, caFile, h]

/-- Once the buffer is filled it stays. -/
theorem outs_set (n : Nat) (d : Bytes) {buf : Bytes} (h : buf ≠ []) : ∀ l : List Ev,
    outs n d buf l = l.map fun e => match e with | .use _ => .quiet | .ask => .file buf := by
  intro l
  induction l with
  | nil => rfl
  | cons e l ih =>
    simp only [outs, step_set n d h e, List.map_cons]
    rw [ih]

/-- **C271**: what is seen of every program: the first call that is not a choice of the empty name decides for ever.  Every time a
file is named it is that one, cut to the size of the buffer. -/
theorem files_first (n : Nat) (d : Bytes) (hn : 1 < n) (hd : d ≠ []) : ∀ (l : List Ev) (f : Bytes), Out.file f ∈ program n d l →
    ∃ t, first d l = some t ∧ f = t.take (n - 1) := by
  intro l
  induction l with
  | nil => intro f h; simp [program, outs] at h
  | cons e l ih =>
    intro f h
    have fix : ∀ t : Bytes, t ≠ [] → ∀ g, Out.file g ∈ outs n d (t.take (n - 1)) l → g = t.take (n - 1) := by
      intro t ht g hg
      rw [outs_set n d (take_ne hn ht)] at hg
      obtain ⟨x, -, hx⟩ := List.mem_map.1 hg
      cases x with
      | use p => exact absurd hx (by simp)
      | ask => simpa using hx.symm
    cases e with
    | ask =>
      refine ⟨d, rfl, ?_⟩
      simp only [program, outs, step, caFile, useCa, if_true, List.mem_cons] at h
      rcases h with h | h
      · simpa using h
      · exact fix d hd f h
    | use p =>
      cases p with
      | none =>
        refine ⟨d, rfl, ?_⟩
        simp only [program, outs, step, useCa, if_true, List.mem_cons] at h
        rcases h with h | h
        · simp [hd] at h
        · exact fix d hd f h
      | some p =>
        by_cases hp : p = []
        · subst hp
          simp only [program, outs, step, useCa, if_true, List.mem_cons, List.take_nil] at h
          rcases h with h | h
          · simp at h
          · obtain ⟨t, h1, h2⟩ := ih f h
            exact ⟨t, by simpa [first] using h1, h2⟩
        · refine ⟨p, by simp [first, hp], ?_⟩
          simp only [program, outs, step, useCa, if_true, List.mem_cons] at h
          rcases h with h | h
          · simp [hp] at h
          · exact fix p hp f h

/-- **C271**: all connections of a process trust the same file. -/
theorem one_file (n : Nat) (d : Bytes) (hn : 1 < n) (hd : d ≠ []) (l : List Ev) (f g : Bytes) (hf : Out.file f ∈ program n d l)
    (hg : Out.file g ∈ program n d l) : f = g := by
  obtain ⟨t, h1, rfl⟩ := files_first n d hn hd l f hf
  obtain ⟨u, h2, rfl⟩ := files_first n d hn hd l g hg
  rw [h1] at h2
  rw [Option.some.inj h2]

/-- **C271**, what holds: a program that first chooses a file, whose name fits, and chooses no other trusts the file meant in every
connection.  Missing: programs that choose later, or more than once; see `late_choice` and `second_choice`. -/
theorem chosen_partial (n : Nat) (d p : Bytes) (hp : p ≠ []) (hl : p.length < n) (k : Nat) :
    program n d (.use (some p) :: List.replicate k .ask) = .quiet :: List.replicate k (.file p) ∧
    meant d (List.replicate k .ask ++ [.use (some p)]) = p := by
  have ht : p.take (n - 1) = p := List.take_of_length_le (by omega)
  constructor
  · simp only [program, outs, step, useCa, if_true, ht]
    rw [outs_set n d hp]
    simp [hp]
  · induction k with
    | zero => rfl
    | succ k ih => exact ih

/-- **C271**, what holds: a program that chooses nothing trusts the file of the TLS library in every connection. -/
theorem default_partial (n : Nat) (d : Bytes) (hd : d ≠ []) (hl : d.length < n) (k : Nat) :
    program n d (List.replicate k .ask) = List.replicate k (.file d) ∧ meant d (List.replicate k .ask) = d := by
  have ht : d.take (n - 1) = d := List.take_of_length_le (by omega)
  constructor
  · cases k with
    | zero => rfl
    | succ k =>
      simp only [program, List.replicate_succ, outs, step, caFile, useCa, if_true, ht]
      rw [outs_set n d hd]
      simp
  · induction k with
    | zero => rfl
    | succ k ih => exact ih

/-- **C271**, false of the code: a file chosen after a connection was made is never used, and no message says so.  Each later
connection goes on trusting the authorities of the default file. -/
theorem late_choice (n : Nat) (d p : Bytes) (hd : d ≠ []) (hl : d.length < n) (hpd : p ≠ d) (k : Nat) :
    program n d (.ask :: .use (some p) :: List.replicate k .ask) = .file d :: .quiet :: List.replicate k (.file d) ∧
    meant d (List.replicate k .ask ++ [.use (some p), .ask]) ≠ d := by
  have ht : d.take (n - 1) = d := List.take_of_length_le (by omega)
  constructor
  · simp only [program, outs, step, caFile, useCa, if_true, ht, if_neg hd]
    rw [outs_set n d hd]
    simp
  · induction k with
    | zero => exact hpd
    | succ k ih => exact ih

/-- **C271**, false of the code: of two choices the first is used, and no message says so. -/
theorem second_choice (n : Nat) (d p : Bytes) (q : Option Bytes) (hp : p ≠ []) (hl : p.length < n) (k : Nat) :
    program n d (.use (some p) :: .use q :: List.replicate k .ask) = .quiet :: .quiet :: List.replicate k (.file p) ∧
    meant d (List.replicate k .ask ++ [.use q, .use (some p)]) = q.getD d := by
  have ht : p.take (n - 1) = p := List.take_of_length_le (by omega)
  constructor
  · simp only [program, outs, step, useCa, if_true, ht, if_neg hp]
    rw [outs_set n d hp]
    simp [hp]
  · induction k with
    | zero => cases q <;> rfl
    | succ k ih => exact ih

/-- **C271**, false of the code: with an empty name a message is printed, and connections trust the default file. -/
theorem empty_choice (n : Nat) (d : Bytes) (hl : d.length < n) :
    program n d [.use (some []), .ask] = [.message, .file d] := by
  have ht : d.take (n - 1) = d := List.take_of_length_le (by omega)
  simp [program, outs, step, caFile, useCa, ht]

/-- **C271**, false of the code: a name that does not fit is cut, and no message says so; another file is trusted. -/
theorem long_choice (n : Nat) (d p : Bytes) (hn : 1 < n) (hl : n ≤ p.length) :
    program n d [.use (some p), .ask] = [.quiet, .file (p.take (n - 1))] ∧ p.take (n - 1) ≠ p := by
  have hp : p ≠ [] := by rintro rfl; simp at hl; omega
  refine ⟨?_, fun e => ?_⟩
  · simp [program, outs, step, caFile, useCa, hp]
    omega
  · have := congrArg List.length e
    simp at this
    omega

/-! ## Examples -/

/-- The choice of "a" before, and of "b" after the first of two connections; the default is "d". -/
example : program 4356 [100] [.use (some []), .use (some [97]), .ask, .use (some [98]), .ask] =
    [.message, .quiet, .file [97], .quiet, .file [97]] := by decide
example : program 4356 [100] [.ask, .use (some [97]), .ask] = [.file [100], .quiet, .file [100]] := by decide
example : first [100] [.use (some []), .use (some [97]), .ask] = some [97] := by decide
example : Out.file [97] ∈ program 4356 [100] [.use (some [97]), .ask, .ask] := by decide
example : program 4 [100] [.use (some [97, 98, 99, 100]), .ask] = [.quiet, .file [97, 98, 99]] := by decide

end Verif.Tls.Trust
