import Verif.Spec.Send

/-!
# Specification: integers of a field type
-/

namespace TT.Spec

/-- The integers that a signed or unsigned type of `n` bytes can represent. -/
def Representable (signed : Bool) (n : Nat) (x : Int) : Prop :=
  match signed with
  | false => 0 ≤ x ∧ x < 2 ^ (8 * n)
  | true => -2 ^ (8 * n - 1) ≤ x ∧ x < 2 ^ (8 * n - 1)

instance (s : Bool) (n : Nat) (x : Int) : Decidable (Representable s n x) := by
  unfold Representable; cases s <;> infer_instance

/-- `y` is what is left of `x` in a type of `n` bytes: representable, and equal up to a multiple of
`2 ^ (8 * n)`. -/
def Narrowed (signed : Bool) (n : Nat) (x y : Int) : Prop :=
  Representable signed n y ∧ ∃ k : Int, x = y + k * 2 ^ (8 * n)

/-- Which field types are signed: not `uint8_t`, and of the others those listed in `sg`. -/
def signedType (sg : Nat → Bool) : FieldType → Bool
  | .uint8 => false
  | .pod ty _ => sg ty

/-- The calls seen are the calls made: same types in the same order, and each argument is what is left of
the integer that was given. -/
inductive Matches (signed : FieldType → Bool) :
    List (MsgType × List Int) → List (MsgType × List Int) → Prop where
  | nil : Matches signed [] []
  | cons {t : MsgType} {xs ys : List Int} {cs ds : List (MsgType × List Int)}
      (hx : xs.length = t.fields.length) (hy : ys.length = t.fields.length)
      (h : ∀ (i : Nat) (f : FieldType) (x y : Int), t.fields[i]? = some f → xs[i]? = some x →
        ys[i]? = some y → Narrowed (signed f) (fieldSize f) x y)
      (hs : Matches signed cs ds) : Matches signed ((t, xs) :: cs) ((t, ys) :: ds)

end TT.Spec
