import Verif.Spec.History
import Verif.Spec.Send
import Verif.Model.Policy

/-!
# Specification: which serialization policies are exact
-/

namespace TT.Spec

/-- The bytes of a serializer's outputs. -/
def serialized (os : List Output) : List Byte :=
  (os.map fun o => match o with
    | .byte b => [b]
    | .block bs => bs).flatten

/-- The deserializer reads `sizeof(T)` bytes for a field of type `T` and makes `dec` of them. A read
outside the array is undefined. -/
def Reads (P : Policy) (dec : FieldType → List Byte → List Byte) : Prop :=
  ∀ contents it f, P.unbuffer contents it f =
    if it + fieldSize f ≤ contents.length
    then .ok (dec f ((contents.drop it).take (fieldSize f)), it + fieldSize f) else .error .ub

/-- A policy that uses exactly `sizeof(T)` bytes for a field of type `T`, on both sides, and whose
deserializer undoes the serializer. -/
structure Exact (P : Policy) (dec : FieldType → List Byte → List Byte) : Prop where
  size : ∀ prev v, Value.Fits v → (serialized (P.buffer prev v)).length = fieldSize v.ty
  reads : Reads P dec
  inverse : ∀ prev v, Value.Fits v → dec v.ty (serialized (P.buffer prev v)) = v.bytes

/-- The payload that a policy makes of the fields `vs`, the fields `prev` coming before. -/
def payloadWith (P : Policy) : List Value → List Value → List Byte
  | _, [] => []
  | prev, v :: vs => serialized (P.buffer prev v) ++ payloadWith P (prev ++ [v]) vs

/-- User code as seen by a receiver that passes on the bytes of the fields undecoded. -/
def decoded (dec : FieldType → List Byte → List Byte) (user : UserCode) : UserCode :=
  fun calls free => user (calls.map fun c => { c with args := List.zipWith dec c.msg.fields c.args }) free

end TT.Spec

namespace TT
open Spec

variable {C : Collection}

/-- Legality of a history of a receiver with policy `P`. -/
def Policy.Legal (P : Policy) (B : Build) (user : UserCode) (fuel : Nat) : World C → List Op → Prop
  | _, [] => True
  | w, op :: ops => OpLegal w op ∧ ∀ w' o, P.step B user fuel w op = .ok (w', o) →
      P.Legal B user fuel w' ops

/-- A legal history on a fresh receiver with policy `P` led to `w`. -/
structure Policy.Reached (P : Policy) (B : Build) (user : UserCode) (fuel : Nat) (ops : List Op)
    (w : World C) (os : List Obs) : Prop where
  legal : P.Legal B user fuel (World.new C) ops
  run : P.run B user fuel (World.new C) ops = .ok (w, os)

/-- A world with the bytes of the arguments decoded. -/
def decodedWorld (dec : FieldType → List Byte → List Byte) (w : World C) : World C :=
  { w with trace := w.trace.map fun i => { i with args := List.zipWith dec i.msg.fields i.args } }

end TT
