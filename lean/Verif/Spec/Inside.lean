import Verif.Spec.Machine
import Verif.Model.Inside

/-!
# Specification: handlers that refill and copy their receiver

From `Verif.Model.Inside` only data types are used.
-/

namespace TT.Spec

variable {C : Collection}

/-- The calls of a handler that finds `free` bytes free, with every refill replaced by appending what
the adapter delivers for the space then left, and without the copies. -/
def plain : Nat → List (InsideAct C) → List Act
  | _, [] => []
  | free, .call (.append xs) :: as => .append xs :: plain (free - xs.length) as
  | free, .call a :: as => a :: plain free as
  | free, .receiveFrom avail rcv :: as =>
    let got := (rcv (UInt8.ofNat (min avail.toNat free))).written
    .append got :: plain (free - got.length) as
  | free, .save :: as => plain free as
  | free, .assign _ :: as => plain free as

/-- User code without refills and copies. -/
def plainCode (code : InsideCode C) : UserCode := fun calls free =>
  ⟨plain free (code calls free).acts, (code calls free).throws⟩

/-- No assignment, and every adapter delivers what it says and no more than it was asked for. -/
def Tame : Nat → List (InsideAct C) → Prop
  | _, [] => True
  | free, .call (.append xs) :: as => Tame (free - xs.length) as
  | free, .call _ :: as => Tame free as
  | free, .receiveFrom avail rcv :: as =>
    GoodReply (min avail.toNat free) (rcv (UInt8.ofNat (min avail.toNat free))) ∧
      Tame (free - (rcv (UInt8.ofNat (min avail.toNat free))).written.length) as
  | free, .save :: as => Tame free as
  | _, .assign _ :: _ => False

/-- User code that is tame in every call. -/
def TameCode (code : InsideCode C) : Prop := ∀ calls free, Tame free (code calls free).acts

end TT.Spec
