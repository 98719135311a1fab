import Verif.Except.Model

/-!
# Specification of exceptions: the usual big-step meaning, without records, stages or jumps

`none` is a program outside of the rules: leaving the body or a catch block of a `try` statement by `return`, and leaving a
`catch_if` block without having accepted the exception with `caught(E)`.
-/

namespace Verif.Except

variable {σ : Type}

/-- How a piece of program ends. -/
inductive SOut where
  | norm
  | ret
  | exn (e : Exn)

/-- Where `caught(E)` looks: in no catch block, or in the catch block of an exception that is accepted or not yet. -/
inductive Dyn where
  | body
  | catch_ (e : Exn) (handled : Bool)

/-- `caught(E)`. -/
def specCaught (d : Dyn) (e : Nat) : Bool × Dyn :=
  match d with
  | .body => (false, .body)
  | .catch_ x b => if isExc x e then (true, .catch_ x true) else (false, .catch_ x b)

abbrev SRes (σ : Type) := Option (SOut × Dyn × σ)

/-- The end of a `try` statement: the finally block, then the pending exception if there is one. -/
def specFinish (hasFin : Bool) (fb : Exn → Bool → σ → σ) (f : Exn → Dyn → σ → SRes σ) (e : Exn) (caught pend : Bool)
    (d : Dyn) (s : σ) : SRes σ :=
  match (if hasFin then f e d (fb e caught s) else some (.norm, d, s)) with
  | some (.norm, d, s) => some (if pend then .exn e else .norm, d, s)
  | r => r

def specIter (p : Dyn → σ → SRes σ) : Nat → Dyn → σ → SRes σ
  | 0, d, s => some (.norm, d, s)
  | n + 1, d, s =>
    match p d s with
    | some (.norm, d, s) => specIter p n d s
    | r => r

/-- After the body of a `try` statement. -/
def specTry (cls : Exn → σ → Option (SRes σ)) (fin : Exn → Bool → Bool → Dyn → σ → SRes σ) (d : Dyn) : SRes σ → SRes σ
  | some (.norm, _, s) => fin none false false d s
  | some (.exn e, _, s) =>
    match cls e s with
    | none => fin e false true d s
    | some (some (.norm, .catch_ _ true, s)) => fin e true false d s
    | some (some (.exn e', .catch_ _ true, s)) => fin e' false true d s
    | _ => none
  | _ => none

mutual
def sexec : Prog σ → Exn → Dyn → σ → SRes σ
  | .act f, _, d, s => some (.norm, d, f s)
  | .seq p q, x, d, s =>
    match sexec p x d s with
    | some (.norm, d, s) => sexec q x d s
    | r => r
  | .ite c p q, x, d, s => if c s then sexec p x d s else sexec q x d s
  | .rep n p, x, d, s => specIter (fun d s => sexec p x d s) (n s) d s
  | .throw e, _, d, s => some (.exn (some (e s)), d, s)
  | .rethrow, x, d, s => some (.exn x, d, s)
  | .caught e p q, x, d, s =>
    match specCaught d e with
    | (true, d) => sexec p x d s
    | (false, d) => sexec q x d s
  | .ret, _, d, s => some (.ret, d, s)
  | .call p, _, d, s =>
    match sexec p none d s with
    | some (.ret, d, s) => some (.norm, d, s)
    | r => r
  | .try_ body cs hasFin fb f, _, d, s =>
    specTry (fun e s => sexecCls cs e s) (specFinish hasFin fb (fun e d s => sexec f e d s)) d (sexec body none .body s)
def sexecCls : Cls σ → Exn → σ → Option (SRes σ)
  | .nil, _, _ => none
  | .cons p b h rest, e, s =>
    if matches_ p e then some (sexec h e (.catch_ e (p ≠ .cond)) (b e s)) else sexecCls rest e s
end

end Verif.Except
