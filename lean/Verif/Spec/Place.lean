import Verif.Spec.Buffer

/-!
# Specification: where the elements of a receive buffer are

A receive buffer keeps its elements side by side in an array. An iterator (or a pointer, or a reference) to an
element is a place in that array.
-/

namespace TT.Spec

/-- Place of the first element after room has been made for `n` more behind the elements `xs`, the first of
which is at `start`: nothing moves while there is room behind the elements; otherwise they move to the front of
the array. An empty buffer starts again at the front. -/
def placeFor (cap start : Nat) (xs : List Byte) (n : Nat) : Nat :=
  if xs = [] ∨ cap < start + xs.length + n then 0 else start

/-- Place of the first element after a call. -/
def BufCall.place (cap start : Nat) (xs : List Byte) : BufCall → Nat
  | .pushBack _ => placeFor cap start xs 1
  | .pushRange ys => placeFor cap start xs ys.length
  | .ensureSpace n => placeFor cap start xs n
  | .popFront n => start + n
  | .erase i j => if i = 0 then start + j else start
  | .eraseOne i => if i = 0 then start + 1 else start
  | .popBack _ => start
  | .set _ _ => start
  | .clear => 0
  | .copy => 0
  | .assignTo _ => 0

/-- Place of the first element after a sequence of calls. -/
def places (cap start : Nat) (xs : List Byte) : List BufCall → Nat
  | [] => start
  | c :: cs =>
    match c.spec cap xs with
    | none => start
    | some (ys, _) => places cap (c.place cap start xs) ys cs

/-- Number of elements a call asks room for. -/
def BufCall.asks : BufCall → Nat
  | .pushBack _ => 1
  | .pushRange ys => ys.length
  | .ensureSpace n => n
  | _ => 0

/-- Number of elements a call removes at the front. -/
def BufCall.taken : BufCall → Nat
  | .popFront n => n
  | .erase i j => if i = 0 then j else 0
  | .eraseOne i => if i = 0 then 1 else 0
  | _ => 0

/-- A call on this very array that does not throw everything away. -/
def BufCall.InPlace : BufCall → Prop
  | .clear => False
  | .copy => False
  | .assignTo _ => False
  | _ => True

/-- The buffer is not empty before any of the calls. -/
def NeverEmpty (cap : Nat) (xs : List Byte) : List BufCall → Prop
  | [] => True
  | c :: cs => xs ≠ [] ∧ ∀ ys r, c.spec cap xs = some (ys, r) → NeverEmpty cap ys cs

end TT.Spec
