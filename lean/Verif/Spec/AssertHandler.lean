import Verif.Spec.History

/-!
# Specification: programs that break the rules
-/

namespace TT.Spec
open TT

/-- The length of an appended range can be told from the capacity in the arithmetic of the buffer: it fits
the size type, and added to the capacity the arithmetic type. -/
def Tellable (C : Collection) (B : Build) (xs : List Byte) : Prop :=
  xs.length < 2 ^ leastBits (capacity C) ∧
  capacity C + xs.length < 2 ^ max (leastBits (capacity C)) B.intBits

/-- What handlers may do here: everything but `clearHandler`, and appending ranges whose length cannot be
told. -/
def Bold (C : Collection) (B : Build) (user : UserCode) : Prop :=
  ∀ calls free, ∀ a ∈ (user calls free).acts, match a with
    | .clearHandler => False
    | .append xs => Tellable C B xs
    | _ => True

/-- What programs may do here between calls: everything but appending ranges whose length cannot be told and
receiving from adapters that do not keep to their limit. -/
def BoldOp (C : Collection) (B : Build) : Op → Prop
  | .append xs => Tellable C B xs
  | .receiveFrom _ rcv => ∀ n : Byte, GoodReply n.toNat (rcv n)
  | _ => True

/-- The receiver is in order: the bytes waiting are the last of those fed and fit the buffer, and every call
so far was for a message that arrived. -/
structure InOrder (C : Collection) (fed buf : List Byte) (trace : List Invocation) : Prop where
  fits : buf.length ≤ capacity C
  suffix : ∃ past, fed = past ++ buf
  genuine : ∀ i ∈ trace, ∃ h m past rest, IsMsg C m ∧ fed = past ++ frame C.envelope m ++ rest ∧
    i = callOf C h m

end TT.Spec
