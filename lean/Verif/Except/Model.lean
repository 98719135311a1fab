import Mathlib.Logic.Function.Basic
import Mathlib.Tactic

/-!
# Model of `try` / `catch` / `finally` / `throw` (`include/except.h`, `src/except.c`, not Windows)

A program is built from ordinary actions on its data (`σ`), conditions, loops, function calls and the exception macros.  The
machine executes the code that the macros expand to: the `for` loop over the stages of a `try` statement, the chain of
`ex_context_t` records, `setjmp`/`longjmp`.  Names and messages are numbers.

Not modelled here: scopes (`guard`, `fence`), protected pointers (see `Verif.Except.Protect`), exceptions raised by OS
signals, backtraces, and what `task_exception_set` records (src/except.c:871-874).
-/

namespace Verif.Except

/-- What is thrown: `ctx->ex` and `ctx->_panic`.  `throw(E)` has no message, `panic(m)` has the name `_panic`. -/
structure Exc where
  name : Nat
  msg : Option Nat
  deriving DecidableEq

/-- `none`: `ctx->ex` is NULL. -/
abbrev Exn := Option Exc

/-- A catch clause, include/except.h:307-309. -/
inductive Pat where
  | name (e : Nat)      -- catch(E)
  | any                 -- catch_any
  | cond                -- catch_if
  deriving DecidableEq

mutual
/-- Programs. -/
inductive Prog (σ : Type) where
  | act (f : σ → σ)
  | seq (p q : Prog σ)
  | ite (c : σ → Bool) (p q : Prog σ)
  | rep (n : σ → Nat) (p : Prog σ)
  | throw (e : σ → Exc)
  | rethrow
  | caught (e : Nat) (p q : Prog σ)     -- if (caught(e)) p else q
  | ret                                 -- return (or break) out of the function
  | call (p : Prog σ)
  /-- `try body cs finally f`; `fb` is what the finally block does first with `err.name` and `err.is_caught`. -/
  | try_ (body : Prog σ) (cs : Cls σ) (hasFin : Bool) (fb : Exn → Bool → σ → σ) (f : Prog σ)
/-- Catch clauses; `b` is what the clause does first with `err.name`. -/
inductive Cls (σ : Type) where
  | nil
  | cons (p : Pat) (b : Exn → σ → σ) (h : Prog σ) (rest : Cls σ)
end

/-- `ex_context_t` with the `err.stage` of the same statement (stages -1..3 are counted from 0 here). -/
structure Ctx where
  state : BitVec 3
  stage : Nat
  next : Nat
  exc : Exn

/-- States, include/except.h:26-33. -/
def tryS : BitVec 3 := 0
def throwS : BitVec 3 := 1
def catchS : BitVec 3 := 4

/-- The machine.  Records are numbered by their place on the C stack; 0 is the root record of the thread. -/
structure M (σ : Type) where
  ctx : Nat → Ctx
  cur : Nat            -- ex_local()
  top : Nat            -- the next free place on the C stack
  dat : σ

inductive Out where
  | norm
  | ret
  | jmp (c : Nat) (v : BitVec 3)     -- longjmp(c->buf, v)
  | dead                             -- ex_terminate
  | stuck                            -- the bound of `tryLoop`; not reached, see `Props`
  deriving DecidableEq

variable {σ : Type}

def M.set (m : M σ) (c : Nat) (x : Ctx) : M σ := { m with ctx := Function.update m.ctx c x }

/-- `ex_throw`, src/except.c:484-523. -/
def throwTo (m : M σ) (e : Exn) : Out × M σ :=
  if m.cur = 0 then (.dead, m)
  else (.jmp m.cur ((m.ctx m.cur).state ||| throwS), m.set m.cur { m.ctx m.cur with exc := e })

/-- The test of `try_caught` without a scope, src/except.c:966-982: the message or else the name is compared. -/
def isExc (x : Exn) (e : Nat) : Bool :=
  match x with
  | none => false
  | some x => x.msg.getD x.name == e

/-- `try_caught`: the exception of the current record is marked as handled. -/
def tryCaught (m : M σ) (e : Nat) : Bool × M σ :=
  if isExc (m.ctx m.cur).exc e then (true, m.set m.cur { m.ctx m.cur with state := catchS }) else (false, m)

/-- `try_catching`, src/except.c:937-951, once the state is known to be `ex_throw_st`. -/
def matches_ (p : Pat) (x : Exn) : Bool :=
  match p with
  | .cond => true
  | .any => true
  | .name e => x.map (·.name) == some e

/-- The new state of the record when a clause is taken. -/
def catchState : Pat → BitVec 3
  | .cond => throwS
  | _ => catchS

/-- `try_finish`, src/except.c:908-921. -/
def finish (c : Nat) (m : M σ) : Out × M σ :=
  let m := if m.cur = c then { m with cur := (m.ctx c).next } else m
  if (m.ctx c).state &&& throwS ≠ 0 then throwTo m (m.ctx c).exc else (.norm, m)

/-- The `for` loop of the `try` macro with `try_next`, include/except.h:300-305 and src/except.c:923-935.  `one` is the
`if`/`else if` chain.  The number is a bound on the rounds left. -/
def tryLoop (one : M σ → Out × M σ) (c : Nat) : Nat → M σ → Out × M σ
  | 0, m => (.stuck, m)
  | n + 1, m =>
    let m := m.set c { m.ctx c with stage := (m.ctx c).stage + 1 }
    if (m.ctx c).stage < 4 then
      match one m with
      | (.norm, m) => tryLoop one c n m
      | (.jmp c' v, m) => if c' = c then tryLoop one c n (m.set c { m.ctx c with state := v }) else (.jmp c' v, m)
      | r => r
    else finish c m

/-- `try_finallying`, src/except.c:953-963. -/
def finally_ (c : Nat) (hasFin : Bool) (fb : Exn → Bool → σ → σ) (f : M σ → Out × M σ) (m : M σ) : Out × M σ :=
  if hasFin ∧ (m.ctx c).stage = 3 then
    f { m with cur := (m.ctx c).next, dat := fb (m.ctx c).exc ((m.ctx c).state == catchS) m.dat }
  else (.norm, m)

/-- The chain: body, clauses, finally block. -/
def chain (c : Nat) (body : M σ → Out × M σ) (cls : M σ → Option (Out × M σ)) (fin : M σ → Out × M σ) (m : M σ) : Out × M σ :=
  if (m.ctx c).state = tryS ∧ (m.ctx c).stage = 1 then body m
  else match cls m with
    | some r => r
    | none => fin m

/-- A `try` statement: `try_start` (src/except.c:893-906), then the loop.  Its record is dead afterwards. -/
def tryStmt (one : Nat → M σ → Out × M σ) (m : M σ) : Out × M σ :=
  let c := m.top
  let r := tryLoop (one c) c 4
    { m with ctx := Function.update m.ctx c ⟨tryS, 0, m.cur, none⟩, cur := c, top := c + 1 }
  (r.1, { r.2 with top := c })

/-- A loop with a computed number of rounds. -/
def iter (p : M σ → Out × M σ) : Nat → M σ → Out × M σ
  | 0, m => (.norm, m)
  | n + 1, m =>
    match p m with
    | (.norm, m) => iter p n m
    | r => r

mutual
/-- Execution; `lx` is the record that the name `ex_err` refers to at this place of the program. -/
def exec (lx : Nat) : Prog σ → M σ → Out × M σ
  | .act f, m => (.norm, { m with dat := f m.dat })
  | .seq p q, m =>
    match exec lx p m with
    | (.norm, m) => exec lx q m
    | r => r
  | .ite c p q, m => if c m.dat then exec lx p m else exec lx q m
  | .rep n p, m => iter (fun m => exec lx p m) (n m.dat) m
  | .throw e, m => throwTo m (some (e m.dat))
  | .rethrow, m => throwTo m (m.ctx lx).exc
  | .caught e p q, m =>
    match tryCaught m e with
    | (true, m) => exec lx p m
    | (false, m) => exec lx q m
  | .ret, m => (.ret, m)
  | .call p, m =>
    match exec 0 p m with
    | (.ret, m') => (.norm, { m' with top := m.top })
    | r => r
  | .try_ body cs hasFin fb f, m =>
    tryStmt (fun c => chain c (fun m => exec c body m) (fun m => execCls c cs m) (finally_ c hasFin fb (fun m => exec c f m))) m
/-- The clauses: `none` if none is taken. -/
def execCls (c : Nat) : Cls σ → M σ → Option (Out × M σ)
  | .nil, _ => none
  | .cons p b h rest, m =>
    if (m.ctx c).state = throwS ∧ matches_ p (m.ctx c).exc then
      some (exec c h { m.set c { m.ctx c with state := catchState p } with dat := b (m.ctx c).exc m.dat })
    else execCls c rest m
end

/-- A thread that has not used exceptions yet. -/
def M.init (d : σ) : M σ := { ctx := fun _ => ⟨0, 0, 0, none⟩, cur := 0, top := 1, dat := d }

end Verif.Except
