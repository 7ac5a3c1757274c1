import Verif.Model.Lifetime
import Verif.Spec.History

/-!
# Specification: calls on destroyed objects
-/

namespace TT.Spec
open TT

/-- The calls on the receiver in a program. -/
def callsOf (ops : List LOp) : List Op :=
  ops.filterMap fun
    | .call op => some op
    | .destroy _ => none

/-- The program destroyed object `obj` when at most `n` handler calls had been made. -/
def DestroyedBy {C : Collection} (B : Build) (user : UserCode) (fuel : Nat) (w : World C) (ops : List LOp)
    (n : Nat) (obj : Nat) : Prop :=
  ∃ before after w1 os, ops = before ++ LOp.destroy obj :: after ∧
    w.run B user fuel (callsOf before) = .ok (w1, os) ∧ w1.trace.length ≤ n

end TT.Spec
