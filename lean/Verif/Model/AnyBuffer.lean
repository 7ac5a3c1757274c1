import Verif.Model.Base

/-!
# `util::ReceiveBuffer<SIZE, Values>` for any element type, whose copies may throw

`Verif.Model.ReceiveBuffer` is the instance with `uint8_t` that the library uses. Here the elements are of any type, and each
copy of an element (by assignment or construction) may throw an exception, which ends the call and leaves the buffer in the
state it has at that moment. Simplifications: an assignment that throws leaves its target as it was; returning an element by
value makes no further copy (the compiler elides it); `memmove`-like shortcuts of `std::copy` are not taken, which is right
exactly for types whose copies can throw.
-/

namespace TT

/-- The data members. Models util/ReceiveBuffer.h:347-349. -/
structure GB (α : Type) (cap : Nat) where
  begin_ : Nat
  pastEnd : Nat
  contents : List α
deriving DecidableEq, Repr

namespace GB
variable {α : Type} {cap : Nat}

/-- The buffer while code is running, and how many more element copies succeed before one throws (`none`: all of them). The
object is util/ReceiveBuffer.h:347-349. -/
structure State (α : Type) (cap : Nat) where
  buf : GB α cap
  budget : Option Nat
deriving DecidableEq, Repr

/-- Code that runs on a buffer: it ends with a value, or with an exception (`none`), or it is undefined or aborts. Models the
ways in which calls of util/ReceiveBuffer.h:49-351 end. -/
def Code (α : Type) (cap : Nat) (β : Type) := State α cap → Res (State α cap × Option β)

/-- One piece of code after another; an exception ends both. Language rules, for util/ReceiveBuffer.h:49-351. -/
instance : Monad (Code α cap) where
  pure v := fun s => .ok (s, some v)
  bind m k := fun s =>
    match m s with
    | .error f => .error f
    | .ok (s, none) => .ok (s, none)
    | .ok (s, some v) => k v s

/-- A computation that does not change the buffer. For util/ReceiveBuffer.h:49-351. -/
def lift {β : Type} (r : Res β) : Code α cap β := fun s => r.map fun v => (s, some v)

/-- The buffer itself (`*this`). For util/ReceiveBuffer.h:49-351. -/
def this : Code α cap (GB α cap) := fun s => .ok (s, some s.buf)

/-- Changes the data members. For the assignments in util/ReceiveBuffer.h:157-160, 285-345. -/
def change (b : GB α cap) : Code α cap Unit := fun s => .ok ({ s with buf := b }, some ())

/-- One copy of an element, which may throw. For the copies in util/ReceiveBuffer.h:168, 178, 207, 219, 273, 337. -/
def copyElement : Code α cap Unit := fun s =>
  match s.budget with
  | none => .ok (s, some ())
  | some 0 => .ok (s, none)
  | some (k + 1) => .ok ({ s with budget := some k }, some ())

/-- Default constructor; `d` is what the default constructor of the element type makes. Models util/ReceiveBuffer.h:74-78. -/
def new (cap : Nat) (d : α) : GB α cap := { begin_ := 0, pastEnd := 0, contents := List.replicate cap d }

/-- `empty()`. Models util/ReceiveBuffer.h:119-121. -/
def empty (b : GB α cap) : Bool := b.begin_ == b.pastEnd

/-- `size()`. Models util/ReceiveBuffer.h:124-126. -/
def size (b : GB α cap) : Nat := subT cap b.pastEnd b.begin_

/-- `adjusted_index(i)`. Models util/ReceiveBuffer.h:305-307. -/
def adjustedIndex (b : GB α cap) (i : Nat) : Nat := trunc cap (b.begin_ + i)

/-- Reading an element of the array. Models the accesses in util/ReceiveBuffer.h:143,151. -/
def rawGet (l : List α) (i : Nat) : Res α :=
  match l[i]? with
  | some v => .ok v
  | none => .error .ub

/-- Assigning to an element of the array. Models the accesses in util/ReceiveBuffer.h:143,168. -/
def assignAt (i : Nat) (v : α) : Code α cap Unit := do
  let b ← this
  if i < b.contents.length then
    copyElement
    change { b with contents := b.contents.set i v }
  else lift (.error .ub)

/-- `operator[](i)`, the place in the array. Models util/ReceiveBuffer.h:141-144. -/
def place (B : Build) (b : GB α cap) (i : Nat) : Res Nat := do
  assertMsg B (decide (i < b.size))
  return b.adjustedIndex i

/-- `operator[](i)` used as a value. Models util/ReceiveBuffer.h:141-144. -/
def get (B : Build) (b : GB α cap) (i : Nat) : Res α := do
  let p ← b.place B i
  rawGet b.contents p

/-- The loop of `std::copy` within the array, lowest first. For the calls in util/ReceiveBuffer.h:273,337. -/
def copyLoop (src dst : Nat) : Nat → Code α cap Unit
  | 0 => pure ()
  | n + 1 => do
    let b ← this
    let v ← lift (rawGet b.contents src)
    assignAt dst v
    copyLoop (src + 1) (dst + 1) n

/-- `std::copy(first, last, d_first)` within the array. For the calls in util/ReceiveBuffer.h:273,337. -/
def copyWithin (first last dFirst : Nat) : Code α cap Unit :=
  if last < first then lift (.error .ub)
  else if first ≤ dFirst ∧ dFirst < last then lift (.error .ub)
  else copyLoop first dFirst (last - first)

/-- `std::copy` from elsewhere to index `i` of the array. For the calls in util/ReceiveBuffer.h:178,337. -/
def writeAt (i : Nat) : List α → Code α cap Unit
  | [] => pure ()
  | x :: xs => do
    assignAt i x
    writeAt (i + 1) xs

/-- `slide_contents_forward()`. Models util/ReceiveBuffer.h:310-312 and 336-340 with one object. -/
def slideContentsForward : Code α cap Unit := do
  let b ← this
  copyWithin b.begin_ b.pastEnd 0
  let b ← this
  change { b with begin_ := 0, pastEnd := b.size }

/-- Assignment from a different buffer. Models util/ReceiveBuffer.h:109-116, branch `else`, and 336-340. -/
def assign (source : GB α cap) : Code α cap Unit :=
  if source.pastEnd < source.begin_ ∨ source.contents.length < source.pastEnd then lift (.error .ub)
  else do
    writeAt 0 ((source.contents.drop source.begin_).take (source.pastEnd - source.begin_))
    let b ← this
    change { b with begin_ := 0, pastEnd := source.size }

/-- `clear()`. Models util/ReceiveBuffer.h:157-160. -/
def clear : Code α cap Unit := do
  let b ← this
  change { b with begin_ := 0, pastEnd := 0 }

/-- `ensure_space(n)`. Models util/ReceiveBuffer.h:285-298. -/
def ensureSpace (B : Build) (n : Nat) : Code α cap Unit := do
  let b ← this
  let b := if b.empty then { b with begin_ := 0, pastEnd := 0 } else b
  change b
  if promAdd B cap b.pastEnd n ≤ cap then pure ()
  else do
    lift (assertMsg B (decide (promAdd B cap b.size n ≤ cap)))
    slideContentsForward

/-- `verify_invariants()`. Models util/ReceiveBuffer.h:342-345. -/
def verifyInvariants (B : Build) : Code α cap Unit := do
  let b ← this
  lift (assertMsg B (decide (b.begin_ ≤ b.pastEnd)))
  lift (assertMsg B (decide (b.pastEnd ≤ cap)))

/-- `increment_pastEnd()`. Models util/ReceiveBuffer.h:319-323. -/
def incrementPastEnd (B : Build) : Code α cap Unit := do
  ensureSpace B 1
  let b ← this
  let b := { b with pastEnd := trunc cap (b.pastEnd + 1) }
  change b
  lift (assertMsg B (decide (b.pastEnd ≤ cap)))

/-- `push_back(x)`, where `x` is not an element of the buffer. Models util/ReceiveBuffer.h:166-169. -/
def pushBack (B : Build) (x : α) : Code α cap Unit := do
  incrementPastEnd B
  let b ← this
  let p ← lift (b.place B (subT cap b.size 1))
  assignAt p x

/-- `push_back(first, last)`, where the range is elsewhere. Models util/ReceiveBuffer.h:175-182. -/
def pushBackRange (B : Build) (xs : List α) : Code α cap Unit := do
  ensureSpace B (trunc cap xs.length)
  let b ← this
  writeAt b.pastEnd xs
  let b ← this
  change { b with pastEnd := trunc cap (b.pastEnd + xs.length) }
  verifyInvariants B

/-- `decrement_pastEnd()`, `n` times. Models util/ReceiveBuffer.h:208-210, 274-276, 325-328. -/
def decrementLoop (B : Build) : Nat → Code α cap Unit
  | 0 => pure ()
  | n + 1 => do
    let b ← this
    lift (assertMsg B (decide (b.pastEnd > b.begin_)))
    change { b with pastEnd := subT cap b.pastEnd 1 }
    decrementLoop B n

/-- `increment_begin()`, `n` times. Models util/ReceiveBuffer.h:220-222, 330-333. -/
def incrementLoop (B : Build) : Nat → Code α cap Unit
  | 0 => pure ()
  | n + 1 => do
    let b ← this
    lift (assertMsg B (decide (b.begin_ < b.pastEnd)))
    change { b with begin_ := trunc cap (b.begin_ + 1) }
    incrementLoop B n

/-- `pop_back(count)`. Models util/ReceiveBuffer.h:206-212 and util/VectorSimulator.h:102-108. -/
def popBack (B : Build) (count : Nat) : Code α cap α := do
  let b ← this
  let v ← lift (b.get B (subT cap b.size 1))
  copyElement
  decrementLoop B count
  return v

/-- `pop_front(count)`. Models util/ReceiveBuffer.h:218-224 and util/VectorSimulator.h:94-100. -/
def popFront (B : Build) (count : Nat) : Code α cap α := do
  let b ← this
  let v ← lift (b.get B 0)
  copyElement
  incrementLoop B count
  return v

/-- `erase(first, last)`, with array indices for iterators. Models util/ReceiveBuffer.h:256-279. -/
def erase (B : Build) (first last : Nat) : Code α cap Nat := do
  let b ← this
  let startIndex := subT cap first b.begin_
  let endIndex := subT cap last b.begin_
  lift (assertMsg B (decide (first < last)))
  let len := subT cap endIndex startIndex
  if len = 0 then return first
  else do
    lift (assertMsg B (decide (len ≤ b.size)))
    if startIndex = 0 then do
      let _ ← popFront B len
      let b ← this
      return b.begin_ + startIndex
    else if last = b.pastEnd then do
      let _ ← popBack B len
      let b ← this
      return b.begin_ + startIndex
    else do
      lift (assertMsg B (decide (0 < startIndex)))
      lift (assertMsg B (decide (endIndex < b.size)))
      copyWithin last b.pastEnd (b.begin_ + startIndex)
      decrementLoop B len
      let b ← this
      return b.begin_ + startIndex

/-- A call on a buffer, other than reading. The functions are util/ReceiveBuffer.h:157-298. -/
inductive Call (α : Type) where
  | clear
  | pushBack (x : α)
  | pushBackRange (xs : List α)
  | popBack (count : Nat)
  | popFront (count : Nat)
  /-- `erase(begin() + i, begin() + j)` -/
  | erase (i j : Nat)
  | ensureSpace (n : Nat)

/-- One call. It returns an element if the function does. Models util/ReceiveBuffer.h:157-298. -/
def call (B : Build) : Call α → Code α cap (Option α)
  | .clear => do clear; return none
  | .pushBack x => do pushBack B x; return none
  | .pushBackRange xs => do pushBackRange B xs; return none
  | .popBack n => do let v ← popBack B n; return some v
  | .popFront n => do let v ← popFront B n; return some v
  | .erase i j => do
    let b ← this
    let _ ← erase B (b.begin_ + i) (b.begin_ + j)
    return none
  | .ensureSpace n => do ensureSpace B n; return none

/-- A program that makes calls and catches their exceptions. In each call the given number of element copies succeed before
one throws. Uses of util/ReceiveBuffer.h:157-298. -/
def program (B : Build) : GB α cap → List (Call α × Option Nat) → Res (GB α cap × List (Option (Option α)))
  | b, [] => .ok (b, [])
  | b, (c, k) :: cs => do
    let (s, r) ← call B c ⟨b, k⟩
    let (b, rs) ← program B s.buf cs
    return (b, r :: rs)

end GB
end TT
