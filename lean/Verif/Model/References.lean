import Verif.Model.Transmit

/-!
# Compositions refer to their components

`TransmitterComposition` keeps references (transmitters/TransmitterComposition.h:70-71). `Verif.Model.Transmit` takes a
composition for a pair of transmitters, each with its own state. Here transmitters are objects in memory: a component can be
used by several compositions, twice by the same one, and by the program itself, and objects can be destroyed.

A reference is bound when the composition is constructed and cannot be bound again, and its type contains the types of what
it refers to. So what can be reached from a composition is a finite tree that never changes.

Simplifications: no object is created at the address of a destroyed one. Transmitters do not modify the arrays they are given
(see C109) and do not refer to one another in other ways.
-/

namespace TT

/-- A reference to a transmitter: to object `i` that is no composition, or to the composition object `k` that was constructed
with these two references. Models transmitters/TransmitterComposition.h:49-57,70-71. -/
inductive TRef where
  | obj (i : Nat)
  | comp (k : Nat) (first second : TRef)
deriving DecidableEq, Repr

/-- The states of all objects that are no compositions. A composition has no state but its references,
transmitters/TransmitterComposition.h:70-71. -/
abbrev TMem (σ : Type) := Nat → σ

/-- A new state for object `i`. Assignment to the members of a transmitter, as in transmitters/ChecksumComputer.h:46-48. -/
def TMem.put {σ : Type} (m : TMem σ) (i : Nat) (s : σ) : TMem σ := fun j => if j = i then s else m j

/-- Calls on a transmitter by reference, with these objects destroyed; calls on a destroyed object are undefined. `T i` is
the class of object `i`. A composition calls the first, then the second; it inherits `writeFinished`, which does nothing.
Models transmitters/TransmitterComposition.h:59-69 and detail/bases/TransmitterBase.h:49-60,79-80. -/
def refTx {σ : Type} (T : Nat → Tx σ) (dead : List Nat) : TRef → Tx (TMem σ)
  | .obj i =>
    { writeByte := fun m v =>
        if i ∈ dead then .error .ub else do
          let s ← (T i).writeByte (m i) v
          return m.put i s
      write := fun m data =>
        if i ∈ dead then .error .ub else do
          let s ← (T i).write (m i) data
          return m.put i s
      writeFinished := fun m =>
        if i ∈ dead then .error .ub else do
          let s ← (T i).writeFinished (m i)
          return m.put i s }
  | .comp k a b =>
    { writeByte := fun m v =>
        if k ∈ dead then .error .ub else do
          let m ← (refTx T dead a).writeByte m v
          (refTx T dead b).writeByte m v
      write := fun m data =>
        if k ∈ dead then .error .ub else do
          let m ← (refTx T dead a).write m data
          (refTx T dead b).write m data
      writeFinished := fun m => if k ∈ dead then .error .ub else defaultWriteFinished m }

/-- What a program does: send a message through some transmitter, or destroy an object. Uses of Send.h:48-66. -/
inductive ROp where
  | send (r : TRef) (t : MsgType) (contents : List Value)
  | destroy (k : Nat)
deriving DecidableEq, Repr

/-- A program. `none`: it does not compile. Uses of Send.h:48-66. -/
def runRefs {σ : Type} (C : Collection) (T : Nat → Tx σ) : List Nat → TMem σ → List ROp → Option (Res (TMem σ))
  | _, m, [] => some (.ok m)
  | dead, m, .destroy k :: ops => runRefs C T (k :: dead) m ops
  | dead, m, .send r t vs :: ops =>
    match send C t (refTx T dead r) m vs with
    | some (.ok m) => runRefs C T dead m ops
    | other => other

end TT
