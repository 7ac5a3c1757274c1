import Verif.Model.Receive

/-!
# Appending ranges of elements of other types

`appendReceived(begin, end)` takes iterators of any type whose elements can be assigned to a byte: `char`, `int`, `bool`,
`double`, or objects made up by an iterator class, whose operators may throw. `Verif.Model.Receive` has ranges of bytes.

Simplifications: an iterator throws, if at all, where it is dereferenced; user-defined conversions are taken for dereferencing.
-/

namespace TT

/-- What dereferencing an iterator gives: an integer of any type (`bool` and `char` included), a finite floating point number
`num / den`, an infinite one or no number, or an exception. The expression is part of `std::copy` in util/ReceiveBuffer.h:178. -/
inductive Item where
  | int (x : Int)
  | real (num : Int) (den : Nat)
  | nan
  | throws
deriving DecidableEq, Repr

/-- The assignment of an element to a byte; `none` if it throws. Integers are reduced modulo 256. Floating point numbers are
truncated, and the assignment is undefined if the result is not the value of a byte. Models the assignment that `std::copy` makes
in util/ReceiveBuffer.h:178. -/
def Item.assign : Item → Res (Option Byte)
  | .int x => .ok (some (UInt8.ofNat (x % 256).toNat))
  | .real n d =>
    if d = 0 then .error .ub
    else if 0 ≤ n.tdiv d ∧ n.tdiv d ≤ 255 then .ok (some (UInt8.ofNat (n.tdiv d).toNat))
    else .error .ub
  | .nan => .error .ub
  | .throws => .ok none

/-- `std::copy(input_begin, input_end, end())`: the array afterwards, and whether all elements were copied.
Models util/ReceiveBuffer.h:178. -/
def copyItems (l : List Byte) (i : Nat) : List Item → Res (List Byte × Bool)
  | [] => .ok (l, true)
  | x :: xs => do
    match ← x.assign with
    | none => return (l, false)
    | some v =>
      let l ← RB.rawSet l i v
      copyItems l (i + 1) xs

/-- `push_back(input_begin, input_end)`; the flag is `false` if an exception left it. Models util/ReceiveBuffer.h:175-182. -/
def RB.pushBackItems {cap : Nat} (B : Build) (b : RB cap) (xs : List Item) : Res (RB cap × Bool) := do
  let b ← b.ensureSpace B (trunc cap xs.length)
  let (l, all) ← copyItems b.contents b.pastEnd xs
  let b : RB cap := { b with contents := l }
  if all then
    let b : RB cap := { b with pastEnd := trunc cap (b.pastEnd + xs.length) }
    b.verifyInvariants B
    return (b, true)
  else return (b, false)

namespace World
variable {C : Collection}

/-- `appendReceived(begin, end)`. Models Receiver.h:111-114 and detail/types/EnvelopeReceiveBuffer.h:77-80. The log of bytes fed
grows by the bytes that were appended. -/
def appendItems (B : Build) (w : World C) (xs : List Item) : Res (World C × Bool) := do
  let (b, all) ← w.rx.recv.buf.pushBackItems B xs
  let r := { w.rx with recv := { w.rx.recv with buf := b } }
  let bytes := if all then xs.filterMap (fun x => x.assign.toOption.join) else []
  return ({ w with rx := r, fed := w.fed ++ bytes }, all)

/-- One API call: an appended range, or any other. Models Receiver.h:86-155; nothing is observed if an exception leaves
`appendReceived`. -/
def stepI (B : Build) (user : UserCode) (fuel : Nat) (w : World C) : List Item ⊕ Op → Res (World C × Option Obs)
  | .inl xs => do
    let (w, all) ← w.appendItems B xs
    return (w, if all then some .unit else none)
  | .inr op => do
    let (w, o) ← w.step B user fuel op
    return (w, some o)

/-- A history of such calls, in a program that catches the exceptions of iterators. Uses of Receiver.h:86-155. -/
def runI (B : Build) (user : UserCode) (fuel : Nat) :
    World C → List (List Item ⊕ Op) → Res (World C × List (Option Obs))
  | w, [] => .ok (w, [])
  | w, p :: ps => do
    let (w, o) ← w.stepI B user fuel p
    let (w, os) ← runI B user fuel w ps
    return (w, o :: os)

end World
end TT
