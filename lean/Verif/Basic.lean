/-!
# Common outcome type

The modelled language is C, so every partial operation has an explicit "undefined behaviour" outcome.
-/

namespace Verif

/-- Outcome of running a piece of C code: a value, or undefined behaviour (out-of-bounds access, use after
free, read of an uninitialised slot, signed overflow ...).  Models no particular line: it is the meta-level
result type used by all models. -/
inductive Res (α : Type u) where
  | ok (a : α)
  | ub
  deriving Repr, DecidableEq

namespace Res

/-- Sequencing of C statements: undefined behaviour is absorbing. -/
def bind (x : Res α) (f : α → Res β) : Res β :=
  match x with
  | ok a => f a
  | ub => ub

instance : Monad Res where
  pure := ok
  bind := bind

@[simp] theorem ok_bind (a : α) (f : α → Res β) : (Res.ok a >>= f) = f a := rfl
@[simp] theorem ub_bind (f : α → Res β) : ((Res.ub : Res α) >>= f) = Res.ub := rfl
@[simp] theorem pure_eq (a : α) : (pure a : Res α) = Res.ok a := rfl

instance : LawfulMonad Res := LawfulMonad.mk'
  (id_map := fun x => by cases x <;> rfl)
  (pure_bind := fun _ _ => rfl)
  (bind_assoc := fun x _ _ => by cases x <;> rfl)

/-- Lift an `Option`, `none` being undefined behaviour. -/
def ofOption : Option α → Res α
  | some a => ok a
  | none => ub

@[simp] theorem ofOption_some (a : α) : ofOption (some a) = Res.ok a := rfl
@[simp] theorem ofOption_none : ofOption (none : Option α) = Res.ub := rfl

theorem bind_eq_ok {x : Res α} {f : α → Res β} {b : β} :
    (x >>= f) = Res.ok b ↔ ∃ a, x = Res.ok a ∧ f a = Res.ok b := by
  cases x <;> simp

theorem mapM_ok {f : α → Res β} {g : α → β} (l : List α) (h : ∀ x ∈ l, f x = .ok (g x)) :
    l.mapM f = .ok (l.map g) := by
  induction l with
  | nil => rfl
  | cons a l ih =>
    rw [List.mapM_cons, h a (by simp), ih (fun x hx => h x (by simp [hx]))]; rfl

end Res

end Verif
