import Verif.Arrays.Model

/-!
# Specification of the dynamic array: plain lists

Nothing here mentions blocks, capacities or addresses.
-/

namespace Verif.Arrays

/-- What a list does for each operation.  `none`: the caller indexed outside the list (caller error). -/
def specStep (xs : List Val) : Op → Option (List Val × Out)
  | .append v => some (xs ++ [v], .unit)
  | .pop => some (xs.dropLast, .value (xs.getLastD 0))
  | .shift => some (xs.tail, .value (xs.headD 0))
  | .remove i => some (xs.eraseIdx i, .unit)
  | .reset => some ([], .unit)
  | .get i => (xs[i]?).map (fun v => (xs, .value v))
  | .size => some (xs, .nat xs.length)

/-- A history on a list. -/
def specRun (xs : List Val) : List Op → Option (List Val × List Out)
  | [] => some (xs, [])
  | op :: ops => do
    let (xs, o) ← specStep xs op
    let (xs, os) ← specRun xs ops
    return (xs, o :: os)

/-- Largest length the list reaches during a history. -/
def peak (xs : List Val) : List Op → Nat
  | [] => xs.length
  | op :: ops =>
    match specStep xs op with
    | some (xs', _) => max xs.length (peak xs' ops)
    | none => xs.length

/-- Reading back an array through its handle: the elements `arr[0] .. arr[size-1]`. -/
def contents (m : Heap) (h : Handle) : Res (List Val) := do
  let b ← m.load h
  (List.range b.size).mapM (fun i => b.read i)

/-- The kind label of an array. -/
def kindOf (m : Heap) (h : Handle) : Res Kind := do
  let b ← m.load h
  return b.kind

end Verif.Arrays
