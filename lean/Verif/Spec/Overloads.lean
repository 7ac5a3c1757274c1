import Verif.Model.Overloads

/-!
# Specification: which overloads fit exactly
-/

namespace TT.Spec

/-- The overload is declared for `m` with exactly the types of its fields, by value or by reference to
`const`. -/
def FitsExactly (o : Overload) (m : MsgType) : Prop :=
  o.msg = m ∧ o.params.map (·.ty) = m.fields ∧ ∀ p ∈ o.params, p.mode ≠ .mutRef

instance (o : Overload) (m : MsgType) : Decidable (FitsExactly o m) := by
  unfold FitsExactly; infer_instance

/-- The overload could be called with the fields of `m`, some of them perhaps converted. -/
def Callable (conv : Conversions) (o : Overload) (m : MsgType) : Prop :=
  o.msg = m ∧ o.params.length = m.fields.length ∧
  ∀ (i : Nat) (p : Param) (f : FieldType), o.params[i]? = some p → m.fields[i]? = some f →
    p.mode ≠ .mutRef ∧ (p.ty = f ∨ conv f p.ty ≠ .impossible)

end TT.Spec
