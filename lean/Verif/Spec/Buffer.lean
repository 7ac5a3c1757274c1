import Verif.Model.ReceiveBuffer

/-!
# Specification: a bounded sequence of bytes

What each operation of a bounded vector/FIFO does to a plain list, when it is in contract, and what
it returns. `none` means "out of contract".
-/

namespace TT.Spec

/-- Calls on a bounded byte buffer. Iterators are given by their distance from `begin()`. -/
inductive BufCall where
  | pushBack (x : Byte)
  | pushRange (xs : List Byte)
  | popFront (n : Nat)
  | popBack (n : Nat)
  | erase (first last : Nat)
  | eraseOne (position : Nat)
  | clear
  | ensureSpace (n : Nat)
  | set (i : Nat) (x : Byte)
  /-- go on with a copy-constructed buffer -/
  | copy
  /-- go on with another buffer, holding `former`, this one was assigned to -/
  | assignTo (former : List Byte)
deriving DecidableEq, Repr

/-- What a call returns: nothing, an element, or an iterator (distance from `begin()`). -/
inductive BufRet where
  | unit
  | elem (x : Byte)
  | pos (i : Nat)
deriving DecidableEq, Repr

/-- One call on a plain list of at most `cap` elements. -/
def BufCall.spec (cap : Nat) (xs : List Byte) : BufCall → Option (List Byte × BufRet)
  | .pushBack x => if xs.length < cap then some (xs ++ [x], .unit) else none
  | .pushRange ys => if xs.length + ys.length ≤ cap then some (xs ++ ys, .unit) else none
  | .popFront n =>
    match xs.head? with
    | some x => if n ≤ xs.length then some (xs.drop n, .elem x) else none
    | none => none
  | .popBack n =>
    match xs.getLast? with
    | some x => if n ≤ xs.length then some (xs.take (xs.length - n), .elem x) else none
    | none => none
  | .erase i j => if i < j ∧ j ≤ xs.length then some (xs.take i ++ xs.drop j, .pos i) else none
  | .eraseOne i => if i < xs.length then some (xs.eraseIdx i, .pos i) else none
  | .clear => some ([], .unit)
  | .ensureSpace n => if xs.length + n ≤ cap then some (xs, .unit) else none
  | .set i x => if i < xs.length then some (xs.set i x, .unit) else none
  | .copy => some (xs, .unit)
  | .assignTo former => if former.length ≤ cap then some (xs, .unit) else none

/-- A sequence of calls on a plain list. -/
def specCalls (cap : Nat) (xs : List Byte) : List BufCall → Option (List Byte × List BufRet)
  | [] => some (xs, [])
  | c :: cs =>
    match c.spec cap xs with
    | none => none
    | some (ys, r) =>
      match specCalls cap ys cs with
      | none => none
      | some (zs, rs) => some (zs, r :: rs)

end TT.Spec
