import Verif.Mem

/-!
# Specification vocabulary for searching and splitting
-/

namespace Verif.Str

/-- `pat` occurs in `s` at offset `i`. -/
def OccursAt (pat s : Bytes) (i : Nat) : Prop := i ≤ s.length ∧ pat <+: s.drop i

/-- `ws` are the pieces of `s` between successive leftmost, non-overlapping occurrences of `d`. -/
inductive Split (d : Bytes) : Bytes → List Bytes → Prop
  | last (s : Bytes) : (∀ i, ¬ OccursAt d s i) → Split d s [s]
  | more (w r : Bytes) (ws : List Bytes) :
      (∀ i, i < w.length → ¬ OccursAt d (w ++ d ++ r) i) →
      Split d r ws → Split d (w ++ d ++ r) (w :: ws)

end Verif.Str
