import Verif.Fd.Blocking

/-!
# The pipes of a spawned program (`src/async_io.c` 847-892, `src/os_unix.c` 536-567, 580-585), C274

`spawn` with a function for the output makes a pipe for the input and one for the output of the program, and a third one for its errors
if an environment is given; `pipe2(…, O_NONBLOCK)` makes both ends nonblocking.  The child then makes its ends the standard streams.
Linux is modelled; which descriptors the kernel chooses is left open.
-/

namespace Verif.Proc.SpawnPipes
open Verif.Fd.Blocking

/-- The parent: the kernel, the number of the next open file, and the descriptors it has opened here and not closed. -/
structure Sys where
  k : Kern
  next : Nat
  opened : List Int

/-- `pipe2(fds, O_NONBLOCK)`; `none` if the kernel refuses, otherwise the descriptors of the end for reading and of the one for writing
(`O_WRONLY` is 1). -/
def pipe2 (nb : Flags) (s : Sys) : Option (Int × Int) → Option Sys
  | none => none
  | some (r, w) => some ⟨⟨Function.update (Function.update s.k.file r (some s.next)) w (some (s.next + 1)),
      Function.update (Function.update s.k.flags s.next nb) (s.next + 1) (nb ||| 1#32)⟩, s.next + 2, s.opened ++ [r, w]⟩

/-- What the kernel answers: the descriptor for `eventfd` in `exec_info` and the pipes. -/
structure Answers where
  ev : Int
  inp : Option (Int × Int)
  out : Option (Int × Int)
  err : Option (Int × Int)

/-- The ends of the pipes in the record of the child: read end and write end. -/
structure Pipes where
  inp : Int × Int
  out : Int × Int
  err : Option (Int × Int)
deriving DecidableEq

/-- What `spawn_ex` does up to line 893: it returns NULL, or goes on without or with pipes. -/
inductive Outcome
  | null
  | plain
  | piped (p : Pipes)
deriving DecidableEq

/-- `spawn_ex` up to line 893 of src/async_io.c; `io`: there is a function for the output, `env`: an environment is given.  The
`eventfd` is opened by `exec_info` (src/os_unix.c:580-585). -/
def spawnEx (nb : Flags) (s : Sys) (io env : Bool) (a : Answers) : Sys × Outcome :=
  let s := { s with opened := s.opened ++ [a.ev] }
  if io then
    match pipe2 nb s a.inp, a.inp with
    | some s1, some i =>
      match pipe2 nb s1 a.out, a.out with
      | some s2, some o =>
        if env then
          match pipe2 nb s2 a.err, a.err with
          | some s3, some e => (s3, .piped ⟨i, o, some e⟩)
          | _, _ => (s2, .null)
        else (s2, .piped ⟨i, o, none⟩)
      | _, _ => (s1, .null)
    | _, _ => (s, .null)
  else (s, .plain)

/-- `dup2(a, b)` and `close(c)` in the child. -/
def dupClose (k : Kern) (a b c : Int) : Kern :=
  { k with file := Function.update (Function.update k.file b (k.file a)) c none }

/-- The child makes its ends of the pipes the standard streams, src/os_unix.c:536-567.  It has the descriptors of the parent, which
stand for the same open files. -/
def child (k : Kern) (p : Pipes) : Kern :=
  let k := dupClose k p.inp.1 0 p.inp.2
  let k := dupClose k p.out.2 1 p.out.1
  match p.err with
  | some e => dupClose k e.2 2 e.1
  | none => k

/-- What a `read` of a program finds: bytes, the end of the input, the error `EAGAIN`, or it waits. -/
inductive Found
  | bytes
  | eof
  | again
  | waits
deriving DecidableEq

/-- `read(2)` on the end of a pipe with flags `f`, which holds `n` bytes and has `writers` open ends for writing. -/
def readPipe (nb f : Flags) (n writers : Nat) : Found :=
  if n ≠ 0 then .bytes else if writers = 0 then .eof else if f &&& nb = nb then .again else .waits

/-! ## Specification -/

/-- The descriptors of pipes are new: none is a standard stream, and no two are the same. -/
def Fresh (p : Pipes) : Prop :=
  2 < p.inp.1 ∧ 2 < p.inp.2 ∧ 2 < p.out.1 ∧ 2 < p.out.2 ∧ p.inp.1 ≠ p.inp.2 ∧ p.out.1 ≠ p.out.2 ∧ p.inp.1 ≠ p.out.1 ∧
  p.inp.1 ≠ p.out.2 ∧ p.inp.2 ≠ p.out.1 ∧ p.inp.2 ≠ p.out.2 ∧
  ∀ e, p.err = some e → 2 < e.1 ∧ 2 < e.2 ∧ e.1 ≠ e.2 ∧ (∀ x ∈ [p.inp.1, p.inp.2, p.out.1, p.out.2], e.1 ≠ x ∧ e.2 ≠ x)

/-! ## Proofs -/

theorem piped {nb : Flags} {s s' : Sys} {io env : Bool} {a : Answers} {p : Pipes} (h : spawnEx nb s io env a = (s', .piped p)) :
    io = true ∧ a.inp = some p.inp ∧ a.out = some p.out ∧ (if env then a.err = p.err ∧ p.err ≠ none else p.err = none) := by
  obtain ⟨ev, i, o, e⟩ := a
  cases io with
  | false => simp [spawnEx] at h
  | true =>
    rcases i with _ | ⟨i1, i2⟩
    · simp [spawnEx, pipe2] at h
    rcases o with _ | ⟨o1, o2⟩
    · simp [spawnEx, pipe2] at h
    cases env with
    | false =>
      simp [spawnEx, pipe2] at h
      obtain ⟨-, rfl⟩ := h
      simp
    | true =>
      rcases e with _ | ⟨e1, e2⟩
      · simp [spawnEx, pipe2] at h
      · simp [spawnEx, pipe2] at h
        obtain ⟨-, rfl⟩ := h
        simp

/-- **C274**, false of the code: the standard input, output and, with an environment, error stream of a program whose output is
handled are all nonblocking. -/
theorem child_nonblocking {nb : Flags} {s s' : Sys} {env : Bool} {a : Answers} {p : Pipes}
    (h : spawnEx nb s true env a = (s', .piped p)) (hp : Fresh p) :
    getfl (child s'.k p) 0 = nb ∧ getfl (child s'.k p) 1 = nb ||| 1#32 ∧ (env = true → getfl (child s'.k p) 2 = nb ||| 1#32) := by
  obtain ⟨-, h1, h2, h3⟩ := piped h
  obtain ⟨⟨i1, i2⟩, ⟨o1, o2⟩, e⟩ := p
  obtain ⟨ev, _, _, ae⟩ := a
  simp only at h1 h2 h3
  subst h1 h2
  obtain ⟨q1, q2, q3, q4, q5, q6, q7, q8, q9, q10, qe⟩ := hp
  simp only at q1 q2 q3 q4 q5 q6 q7 q8 q9 q10
  cases env with
  | false =>
    simp only [Bool.false_eq_true, if_false] at h3
    subst h3
    simp [spawnEx, pipe2] at h
    subst h
    have a1 : (0 : Int) ≠ i2 := by omega
    have a2 : (0 : Int) ≠ o1 := by omega
    have a4 : (1 : Int) ≠ o1 := by omega
    have a5 : o2 ≠ 0 := by omega
    have a6 : i1 ≠ 0 := by omega
    refine ⟨?_, ?_, by simp⟩
    · simp [child, dupClose, getfl, Function.update_apply, a1, a2, q5, q7, q8]
      intros; exfalso; omega
    · simp [child, dupClose, getfl, Function.update_apply, a4, a5, Ne.symm q10]
  | true =>
    simp only [if_true] at h3
    obtain ⟨h3, h4⟩ := h3
    rcases e with _ | ⟨e1, e2⟩
    · exact absurd rfl h4
    subst h3
    simp [spawnEx, pipe2] at h
    subst h
    obtain ⟨r1, r2, r3, r4⟩ := qe _ rfl
    simp only [List.mem_cons, List.not_mem_nil, or_false, forall_eq_or_imp, forall_eq] at r1 r2 r3 r4
    obtain ⟨⟨t1, t2⟩, ⟨t3, t4⟩, ⟨t5, t6⟩, t7, t8⟩ := r4
    have a1 : (0 : Int) ≠ i2 := by omega
    have a2 : (0 : Int) ≠ o1 := by omega
    have a4 : (1 : Int) ≠ o1 := by omega
    have a5 : o2 ≠ 0 := by omega
    have a6 : (0 : Int) ≠ e1 := by omega
    have a7 : (1 : Int) ≠ e1 := by omega
    have a8 : (2 : Int) ≠ e1 := by omega
    have a9 : e2 ≠ 0 := by omega
    have a10 : e2 ≠ 1 := by omega
    refine ⟨?_, ?_, fun _ => ?_⟩
    · simp [child, dupClose, getfl, Function.update_apply, a1, a2, a6, q5, q7, q8, Ne.symm t1, Ne.symm t2]
      rw [if_neg (by omega), if_neg (by omega), if_neg (by omega)]
    · simp [child, dupClose, getfl, Function.update_apply, a4, a5, a7, Ne.symm q10, Ne.symm t7, Ne.symm t8]
    · simp [child, dupClose, getfl, Function.update_apply, a8, a9, a10, t4, t6]

/-- **C274**, false of the code: a program that reads its input before the parent has written any is told `EAGAIN`, which programs not
made for it take for an error; with a blocking pipe it would wait. -/
theorem child_told_again {nb : Flags} (hnb : nb ≠ 0#32) {s s' : Sys} {env : Bool} {a : Answers} {p : Pipes}
    (h : spawnEx nb s true env a = (s', .piped p)) (hp : Fresh p) (w : Nat) (hw : 0 < w) :
    readPipe nb (getfl (child s'.k p) 0) 0 w = .again ∧ readPipe nb (0#32) 0 w = .waits := by
  rw [(child_nonblocking h hp).1]
  have h1 : ¬ (0#32 : Flags) = nb := fun e => hnb e.symm
  have h2 : w ≠ 0 := by omega
  constructor <;> simp [readPipe, h1, h2]

/-- **C274**, false of the code: without an environment the error stream of the program is that of the parent, and no pipe. -/
theorem errors_inherited {nb : Flags} {s s' : Sys} {a : Answers} {p : Pipes} (h : spawnEx nb s true false a = (s', .piped p))
    (hp : Fresh p) : (child s'.k p).file 2 = s.k.file 2 := by
  obtain ⟨-, h1, h2, h3⟩ := piped h
  obtain ⟨⟨i1, i2⟩, ⟨o1, o2⟩, e⟩ := p
  obtain ⟨ev, _, _, ae⟩ := a
  simp only [Bool.false_eq_true, if_false] at h1 h2 h3
  subst h1 h2 h3
  obtain ⟨q1, q2, q3, q4, -⟩ := hp
  simp only at q1 q2 q3 q4
  simp [spawnEx, pipe2] at h
  subst h
  have a1 : (2 : Int) ≠ i2 := by omega
  have a2 : (2 : Int) ≠ o1 := by omega
  have a3 : (2 : Int) ≠ i1 := by omega
  have a4 : (2 : Int) ≠ o2 := by omega
  simp [child, dupClose, Function.update_apply, a1, a2, a3, a4]

/-- **C274**, false of the code: whenever `spawn` returns NULL because a pipe could not be made, the `eventfd` of the record stays
open, and with it both ends of every pipe that was made before. -/
theorem failed_leaves {nb : Flags} {s s' : Sys} {io env : Bool} {a : Answers} (h : spawnEx nb s io env a = (s', .null)) :
    s'.opened = s.opened ++ [a.ev] ++
      match a.inp, a.out with
      | none, _ => []
      | some i, none => [i.1, i.2]
      | some i, some o => [i.1, i.2, o.1, o.2] := by
  obtain ⟨ev, i, o, e⟩ := a
  cases io with
  | false => simp [spawnEx] at h
  | true =>
    rcases i with _ | ⟨i1, i2⟩
    · simp [spawnEx, pipe2] at h
      subst h
      simp
    rcases o with _ | ⟨o1, o2⟩
    · simp [spawnEx, pipe2] at h
      subst h
      simp
    cases env with
    | false => simp [spawnEx, pipe2] at h
    | true =>
      rcases e with _ | ⟨e1, e2⟩
      · simp [spawnEx, pipe2] at h
        subst h
        simp
      · simp [spawnEx, pipe2] at h

/-- **C274**, what holds: `spawn` fails here exactly if a pipe it needs cannot be made; without a function for the output it makes
none, and the streams of the program stay those of the parent.  Missing: that nothing stays open after a failure, see
`failed_leaves`, and that the streams wait, see `child_nonblocking`. -/
theorem fails_iff_partial (nb : Flags) (s : Sys) (io env : Bool) (a : Answers) :
    ((spawnEx nb s io env a).2 = .null ↔ io = true ∧ (a.inp = none ∨ a.out = none ∨ env = true ∧ a.err = none)) ∧
    ((spawnEx nb s io env a).2 = .plain ↔ io = false) ∧ (io = false → (spawnEx nb s io env a).1.k = s.k) := by
  obtain ⟨ev, i, o, e⟩ := a
  cases io with
  | false => simp [spawnEx]
  | true =>
    rcases i with _ | ⟨i1, i2⟩
    · simp [spawnEx, pipe2]
    rcases o with _ | ⟨o1, o2⟩
    · simp [spawnEx, pipe2]
    cases env with
    | false => simp [spawnEx, pipe2]
    | true =>
      rcases e with _ | ⟨e1, e2⟩
      · simp [spawnEx, pipe2]
      · simp [spawnEx, pipe2]

/-! ## Examples -/

/-- A parent with a terminal as its streams. -/
def term : Sys := ⟨⟨fun fd => if fd = 0 ∨ fd = 1 ∨ fd = 2 then some 0 else none, fun _ => 2#32⟩, 1, []⟩

example : (spawnEx 2048#32 term true false ⟨3, some (4, 5), some (6, 7), none⟩).2 = .piped ⟨(4, 5), (6, 7), none⟩ := by decide
example : Fresh ⟨(4, 5), (6, 7), some (8, 9)⟩ := by
  refine ⟨by decide, by decide, by decide, by decide, by decide, by decide, by decide, by decide, by decide, by decide, ?_⟩
  intro e he
  cases he
  exact ⟨by decide, by decide, by decide, by decide⟩
example : getfl (child (spawnEx 2048#32 term true false ⟨3, some (4, 5), some (6, 7), none⟩).1.k ⟨(4, 5), (6, 7), none⟩) 0 = 2048#32 := by
  decide
example : (spawnEx 2048#32 term true true ⟨3, some (4, 5), some (6, 7), none⟩).1.opened = [3, 4, 5, 6, 7] := by decide

end Verif.Proc.SpawnPipes
