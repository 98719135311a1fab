import Verif.Basic
import Mathlib.Tactic

/-!
# Model of `memsort` (src/arrays.c:858-891)

Array elements are values of an arbitrary type; `memcpy` of one element is a read or a write of one list position.
The comparison callback is a function of the two values compared.
-/

namespace Verif.Sort

variable {α : Type}

/-- Read element `i`; outside the array is undefined. -/
def lget (a : List α) (i : Nat) : Res α :=
  match a[i]? with
  | some v => .ok v
  | none => .ub

/-- Write element `i`; outside the array is undefined. -/
def lput (a : List α) (i : Nat) (v : α) : Res (List α) :=
  if i < a.length then .ok (a.set i v) else .ub

/-- The loop `for (k = j; k >= gap; k -= gap)`, src/arrays.c:876-886.  The first argument is a bound on the number
of iterations (`k` itself is enough, because every gap is positive). -/
def insertLoop (cmp : α → α → Int) (gap : Nat) (tmp : α) : Nat → List α → Nat → Res (List α × Nat)
  | 0, a, k => .ok (a, k)
  | f + 1, a, k =>
    if k ≥ gap then do
      let c ← lget a (k - gap)
      if cmp c tmp > 0 then do
        let a ← lput a k c
        insertLoop cmp gap tmp f a (k - gap)
      else .ok (a, k)
    else .ok (a, k)

/-- One iteration of the `j` loop, src/arrays.c:874-887. -/
def insertOne (cmp : α → α → Int) (gap : Nat) (a : List α) (j : Nat) : Res (List α) := do
  let tmp ← lget a j
  let (a, k) ← insertLoop cmp gap tmp j a j
  lput a k tmp

/-- The loop `for (j = i; j < elemcount; j += gap)`, src/arrays.c:873-888 (first argument: iteration bound). -/
def strideLoop (cmp : α → α → Int) (gap n : Nat) : Nat → List α → Nat → Res (List α)
  | 0, a, _ => .ok a
  | f + 1, a, j =>
    if j < n then do
      let a ← insertOne cmp gap a j
      strideLoop cmp gap n f a (j + gap)
    else .ok a

/-- The loop `for (i = 0; i < gap; i++)`, src/arrays.c:872-889; first argument `gap - i`. -/
def gapLoop (cmp : α → α → Int) (gap n : Nat) : Nat → List α → Nat → Res (List α)
  | 0, a, _ => .ok a
  | r + 1, a, i => do
    let a ← strideLoop cmp gap n n a i
    gapLoop cmp gap n r a (i + 1)

/-- `A102549`, src/arrays.c:862, in the order in which the loop visits it (index 8 down to 0). -/
def gaps : List Nat := [1750, 701, 301, 132, 57, 23, 10, 4, 1]

/-- The loop over the gap sequence, src/arrays.c:867-890. -/
def gapsLoop (cmp : α → α → Int) (n : Nat) : List Nat → List α → Res (List α)
  | [], a => .ok a
  | g :: gs, a => do
    let a ← (if g > n / 2 then .ok a else gapLoop cmp g n g a 0 : Res (List α))
    gapsLoop cmp n gs a

/-- `memsort(data, elemcount, elemsize, compfunc, userarg)`, src/arrays.c:858-891. -/
def memsort (cmp : α → α → Int) (a : List α) : Res (List α) := gapsLoop cmp a.length gaps a

end Verif.Sort
