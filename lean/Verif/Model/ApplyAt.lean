import Verif.Model.Protocol

/-!
# `util::apply_at` and `util::find_index` for any sequence, index and functor

In `Verif.Model.Protocol` the two appear as the library uses them: on the message types of a collection, with a message id.
They are utilities of their own; here they are modelled for any sequence of types, any value of the index and any functor.
Types are elements of a type `α`.
-/

namespace TT

/-- What `operator()` of a functor does when called with a type: it may change the functor (`F`) and what that refers to
(`W`), and throw. The functor called in util/MPLApplyAt.h:120. -/
abbrev OnType (α F W : Type) := F → W → α → F × W × Bool

/-- What has happened in a call of `apply_at`. For util/MPLApplyAt.h:136-146. -/
structure Applied (F W : Type) where
  /-- the object whose `operator()` was called -/
  functor : F
  /-- what it refers to -/
  world : W
  /-- whether an exception propagates -/
  threw : Bool
  /-- the number of comparisons made -/
  compared : Nat
deriving DecidableEq, Repr

/-- The recursion, from `Current` on. `i` has been converted to the index type. Models util/MPLApplyAt.h:76-104 and 119-121. -/
def intToTypeFrom {α F W : Type} (seq : List α) (i : Nat) (op : OnType α F W) (current : Nat) (a : Applied F W) :
    Applied F W :=
  match h : seq[current]? with
  | none => a
  | some m =>
    let a := { a with compared := a.compared + 1 }
    if current = i then
      let r := op a.functor a.world m
      { a with functor := r.1, world := r.2.1, threw := r.2.2 }
    else intToTypeFrom seq i op (current + 1) a
termination_by seq.length - current
decreasing_by
  have := (List.getElem?_eq_some_iff.mp h).1
  omega

/-- Conversion of an integer to the index type `uint_value_t<size>::least`. Models util/MPLApplyAt.h:137,139. -/
def indexOf (n : Nat) (i : Int) : Nat := (i % (2 ^ leastBits n : Nat)).toNat

/-- `util::apply_at<seq>(i, f)`, called with an index of any integer type. The functor is passed by value: the object of the
caller is not touched, a copy is called. The result: what happened to the copy. Models util/MPLApplyAt.h:136-146. -/
def applyAtAny {α F W : Type} (seq : List α) (i : Int) (op : OnType α F W) (f : F) (w : W) : Applied F W :=
  intToTypeFrom seq (indexOf seq.length i) op 0 { functor := f, world := w, threw := false, compared := 0 }

/-- The values of the caller's variables afterwards: the functor object, what it refers to, and whether an exception reached
the caller. Models a call of util/MPLApplyAt.h:136-146. -/
def applyAtCaller {α F W : Type} (seq : List α) (i : Int) (op : OnType α F W) (f : F) (w : W) : F × W × Bool :=
  let a := applyAtAny seq i op f w
  (f, a.world, a.threw)

/-- `util::find_index<seq, T>`: the distance to the first element that is `T`; `none` where it does not compile, because there
is none. Models util/MPLFindIndex.h:53-68. -/
def findIndexAny {α : Type} [DecidableEq α] : List α → α → Option Nat
  | [], _ => none
  | m :: ms, t => if m = t then some 0 else (findIndexAny ms t).map (· + 1)

end TT
