import Verif.Model.Base

/-!
# Specification: object representation of unsigned integers
-/

namespace TT.Spec

/-- Byte order of a machine. -/
inductive Order where
  | little
  | big
deriving DecidableEq, Repr

/-- The `n` lowest base-256 digits of `v`, least significant first. -/
def digits : Nat → Nat → List Byte
  | 0, _ => []
  | n + 1, v => UInt8.ofNat (v % 256) :: digits n (v / 256)

/-- Value of base-256 digits, least significant first. -/
def value : List Byte → Nat
  | [] => 0
  | b :: bs => b.toNat + 256 * value bs

/-- Object representation of an `n`-byte unsigned integer. -/
def encode (o : Order) (n v : Nat) : List Byte :=
  match o with
  | .little => digits n v
  | .big => (digits n v).reverse

/-- The integer a machine sees in an object representation. -/
def decode (o : Order) (bs : List Byte) : Nat :=
  match o with
  | .little => value bs
  | .big => value bs.reverse

end TT.Spec
