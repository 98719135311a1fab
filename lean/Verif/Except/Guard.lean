import Verif.Except.Model

/-!
# Model of guard scopes and deferred functions (`include/except.h` 331-351, `src/except.c`), one thread without tasks

A program (`G`) defers functions, panics, and nests `guard { … } guarded;` sections and `try { … } catch_any { … }`.  A
deferred function may call `guard_caught(E)` first and then does something to the data that may depend on the answer; it
does not defer or panic itself.  The stages of the `try` statement inside of `guard` are those of `Verif.Except.Model`, here
already followed through; the state of its record is what matters: `ex_throw_st` (1), or `1 | ex_catch_st` (5) if the
exception was accepted while it was being thrown.  `defer_arr` is a list: it stays within its initial capacity (see C01).
-/

namespace Verif.Except.Guard

open Verif.Except

variable {σ : Type}

/-- A deferred function: `catches` is the argument of its `guard_caught`, if it calls it. -/
structure D (σ : Type) where
  catches : Option Nat
  f : Bool → σ → σ

inductive G (σ : Type) where
  | act (f : σ → σ)
  | seq (p q : G σ)
  | ite (c : σ → Bool) (p q : G σ)
  | rep (n : σ → Nat) (p : G σ)
  | throw (e : σ → Exc)
  | defer (d : D σ)
  | fence (d : D σ)
  | guard (p : G σ)
  | tryAny (p q : G σ)

/-- `ex_guard_t` with its scope (src/events_internal.h:511-530).  `defers` is newest first; `none` is NULL. -/
structure Blk (σ : Type) where
  defers : Option (List (D σ))
  prot : Bool
  err : Exn
  freed : Bool

/-- The thread: blocks, `scope_local()->arena`, the deferred functions of the thread's own scope. -/
structure S (σ : Type) where
  blk : Nat → Blk σ
  n : Nat
  arena : Option Nat
  root : List (D σ)
  dat : σ

/-- `rec`: the exception was accepted by a deferred function while being thrown. -/
inductive GOut where
  | norm
  | exn (e : Exn) (rec : Bool)
  | ub
  deriving DecidableEq

def S.set (s : S σ) (b : Nat) (x : Blk σ) : S σ := { s with blk := Function.update s.blk b x }

/-- The answer of `guard_caught`, src/except.c:1164-1181. -/
def hit (e : Exn) (d : D σ) : Bool := (d.catches.map (isExc e)).getD false

/-- The loop of `scope_unwind`, src/except.c:1051-1070: newest first.  Also whether one of them accepted the exception. -/
def runD (e : Exn) : List (D σ) → σ → Bool × σ
  | [], x => (false, x)
  | d :: l, x =>
    let r := runD e l (d.f (hit e d) x)
    (hit e d || r.1, r.2)

/-- `scope_unwind`, src/except.c:1043-1087. -/
def unwind (s : S σ) (b : Nat) : Bool × S σ :=
  match (s.blk b).defers with
  | none => (false, s)
  | some l =>
    let r := runD (s.blk b).err l s.dat
    (r.1, { s.set b { s.blk b with defers := none, prot := (s.blk b).prot && (s.blk b).err.isNone } with dat := r.2 })

/-- `ex_throw` with `guard_set`, src/except.c:484-523 and 1183-1196: a protected scope is unwound at once. -/
def hook (s : S σ) (e : Exn) : GOut × S σ :=
  match s.arena with
  | none => (.exn e false, s)
  | some b =>
    let s := s.set b { s.blk b with err := e }
    if (s.blk b).prot then
      let r := unwind s b
      (.exn e r.1, r.2)
    else (.exn e false, s)

/-- `guard_reset` of a live block, src/except.c:1198-1215.  `a0` is the `arena` before the guard section. -/
def reset (b : Nat) (a0 : Option Nat) (s : S σ) : Bool × S σ :=
  let r := unwind s b
  (r.1, { r.2.set b { r.2.blk b with freed := true } with arena := a0 })

/-- `deferred` and `scope_deferred`, src/events.c:1927-1950 and src/except.c:1089-1104.  Appending to a NULL array crashes. -/
def addDefer (d : D σ) (prot : Bool) (s : S σ) : GOut × S σ :=
  match s.arena with
  | none => (.norm, { s with root := d :: s.root })
  | some b =>
    match (s.blk b).defers with
    | none => (.ub, s)
    | some l => (.norm, s.set b { s.blk b with defers := some (d :: l), prot := (s.blk b).prot || prot })

def giter (p : S σ → GOut × S σ) : Nat → S σ → GOut × S σ
  | 0, s => (.norm, s)
  | n + 1, s =>
    match p s with
    | (.norm, s) => giter p n s
    | r => r

/-- The end of a guard section, include/except.h:345-351.  `catch_if` is taken in state 1 only; if nobody accepts the
exception it is taken a second time and `guard_reset` looks at the freed block: `stale` tells whether the freed memory
still looks like a guard block. -/
def guardEnd (stale : Bool) (b : Nat) (a0 : Option Nat) : GOut × S σ → GOut × S σ
  | (.norm, s) => (.norm, (reset b a0 s).2)
  | (.exn e true, s) => hook s e
  | (.exn e false, s) =>
    let r := reset b a0 s
    if r.1 then (.norm, r.2) else if stale then (.ub, r.2) else hook r.2 e
  | (.ub, s) => (.ub, s)

/-- `guard_init`, src/except.c:1119-1137. -/
def guardInit (s : S σ) : S σ :=
  { s with blk := Function.update s.blk s.n ⟨some [], false, none, false⟩, n := s.n + 1, arena := some s.n }

def gexec (stale : Bool) : G σ → S σ → GOut × S σ
  | .act f, s => (.norm, { s with dat := f s.dat })
  | .seq p q, s =>
    match gexec stale p s with
    | (.norm, s) => gexec stale q s
    | r => r
  | .ite c p q, s => if c s.dat then gexec stale p s else gexec stale q s
  | .rep n p, s => giter (fun s => gexec stale p s) (n s.dat) s
  | .throw e, s => hook s (some (e s.dat))
  | .defer d, s => addDefer d false s
  | .fence d, s => addDefer d true s
  | .guard p, s => guardEnd stale s.n s.arena (gexec stale p (guardInit s))
  | .tryAny p q, s =>
    match gexec stale p s with
    | (.exn _ false, s) => gexec stale q s
    | (.exn e true, s) => hook s e
    | r => r

def S.init (d : σ) : S σ := { blk := fun _ => ⟨none, false, none, true⟩, n := 0, arena := none, root := [], dat := d }

/-- A thread: its own deferred functions run when it ends (`scope_destroy`), also after an uncaught exception; outside of a
guard section `guard_caught` follows a null pointer. -/
def thread (stale : Bool) (p : G σ) (d : σ) : GOut × σ :=
  match gexec stale p (S.init d) with
  | (.ub, s) => (.ub, s.dat)
  | (o, s) => if s.root.any (·.catches.isSome) then (.ub, s.dat) else (o, (runD none s.root s.dat).2)

/-! ## Specification -/

/-- A scope: its deferred functions, newest first, and whether it holds a `fence`. -/
structure Frame (σ : Type) where
  defers : List (D σ)
  prot : Bool

inductive GS where
  | norm
  | exn (e : Exn)

/-- The open scopes, innermost first; the last one is the thread's. -/
structure Fr (σ : Type) where
  stack : List (Frame σ)
  root : List (D σ)

/-- A deferred function accepts an exception by its message, or its name if it has none. -/
def accepts (e : Exn) (d : D σ) : Bool :=
  match d.catches, e with
  | some n, some x => x.msg.getD x.name == n
  | _, _ => false

/-- Deferred functions, newest first, each run once and told whether it accepts the exception. -/
def specRun (e : Exn) (l : List (D σ)) (x : σ) : Bool × σ :=
  (l.any (accepts e), l.foldl (fun x d => d.f (accepts e d) x) x)

abbrev GRes (σ : Type) := Option (GS × Fr σ × σ)

def specDefer (d : D σ) (prot : Bool) (fr : Fr σ) : Fr σ :=
  match fr.stack with
  | [] => { fr with root := d :: fr.root }
  | f :: st => { fr with stack := ⟨d :: f.defers, f.prot || prot⟩ :: st }

def sgiter (p : Fr σ → σ → GRes σ) : Nat → Fr σ → σ → GRes σ
  | 0, fr, s => some (.norm, fr, s)
  | n + 1, fr, s =>
    match p fr s with
    | some (.norm, fr, s) => sgiter p n fr s
    | r => r

/-- Leaving a scope: its deferred functions run, newest first, each once; the scopes outside of it keep theirs.  An exception
goes on unless one of them accepts it.  Accepting an exception in a scope with a `fence` is outside of the rules. -/
def specEnd : GRes σ → GRes σ
  | some (.norm, ⟨f :: st, root⟩, s) => some (.norm, ⟨st, root⟩, (specRun none f.defers s).2)
  | some (.exn e, ⟨f :: st, root⟩, s) =>
    let r := specRun e f.defers s
    if r.1 then (if f.prot then none else some (.norm, ⟨st, root⟩, r.2)) else some (.exn e, ⟨st, root⟩, r.2)
  | _ => none

/-- `none`: outside of the rules.  A `try` inside of a guard section must not throw (it does not leave the section's
deferred functions alone). -/
def sg : G σ → Fr σ → σ → GRes σ
  | .act f, fr, s => some (.norm, fr, f s)
  | .seq p q, fr, s =>
    match sg p fr s with
    | some (.norm, fr, s) => sg q fr s
    | r => r
  | .ite c p q, fr, s => if c s then sg p fr s else sg q fr s
  | .rep n p, fr, s => sgiter (fun fr s => sg p fr s) (n s) fr s
  | .throw e, fr, s => some (.exn (some (e s)), fr, s)
  | .defer d, fr, s => some (.norm, specDefer d false fr, s)
  | .fence d, fr, s => some (.norm, specDefer d true fr, s)
  | .guard p, fr, s => specEnd (sg p { fr with stack := ⟨[], false⟩ :: fr.stack } s)
  | .tryAny p q, fr, s =>
    match sg p fr s with
    | some (.exn _, fr, s) => if fr.stack.isEmpty then sg q fr s else none
    | r => r

/-- The whole thread. -/
def specThread (p : G σ) (d : σ) : Option (GS × σ) :=
  match sg p ⟨[], []⟩ d with
  | some (o, fr, s) => if fr.root.any (·.catches.isSome) then none else some (o, (specRun none fr.root s).2)
  | none => none

end Verif.Except.Guard
