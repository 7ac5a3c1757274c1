import Verif.Model.Transmit

/-!
# Integer arguments of the generated `send` overloads

`sendOverload` (`Verif.Model.Transmit`) is given the object representations of the parameters. Here the
arguments are integers of any type: the call converts each to the type of the field, the object is copied
byte by byte, and the receiving handler looks at the copied object again as an integer.

Simplifications: two's complement, 8-bit bytes, and the conversion to a signed type that cannot represent the
value is reduction modulo a power of two (guaranteed since C++20, and what compilers did before).
-/

namespace TT

/-- Byte order of a machine: does it store the least significant byte first?. What `memcpy` in
serializers/BitwiseCopySerialization.h:38,54 copies depends on it. -/
inductive Machine where
  | littleEndian
  | bigEndian
deriving DecidableEq, Repr

/-- Which of the opaque field types, all of them integers here, are signed. A parameter for field types as
in MessageType.h:51-56. -/
abbrev Signs := Nat → Bool

/-- Is the field type signed?. For field types as in MessageType.h:46-56. -/
def FieldType.signed (sg : Signs) : FieldType → Bool
  | .uint8 => false
  | .pod ty _ => sg ty

/-- Implicit conversion of an integer argument to the parameter type
`mpl::at_c<typename MessageType::sequence_type, i>::type`.
Models the parameter passing of detail/operations/SendOverloads_Generated.h:88-97 and its siblings. -/
def convertInt (signed : Bool) (n : Nat) (x : Int) : Int :=
  let r := x % (256 ^ n : Nat)
  if signed && decide ((256 ^ n : Nat) ≤ 2 * r) then r - (256 ^ n : Nat) else r

/-- The `n` lowest bytes of the two's complement of `x`, least significant first. What is stored in the
object copied in serializers/BitwiseCopySerialization.h:38. -/
def lowBytes : Nat → Int → List Byte
  | 0, _ => []
  | n + 1, x => UInt8.ofNat (x % 256).toNat :: lowBytes n (x / 256)

/-- Object representation, which `memcpy` copies into the message.
Models serializers/BitwiseCopySerialization.h:35-40. -/
def objectRep (mach : Machine) (n : Nat) (x : Int) : List Byte :=
  match mach with
  | .littleEndian => lowBytes n x
  | .bigEndian => (lowBytes n x).reverse

/-- Value of bytes as an unsigned integer, least significant first. What is read from the object copied in
serializers/BitwiseCopySerialization.h:54. -/
def lowValue : List Byte → Int
  | [] => 0
  | b :: bs => b.toNat + 256 * lowValue bs

/-- The integer the handler sees in the parameter it is given, after `memcpy(&ret, it, sizeof(T))`.
Models serializers/BitwiseCopySerialization.h:49-58. -/
def readInt (mach : Machine) (signed : Bool) (bs : List Byte) : Int :=
  let v : Int := match mach with
    | .littleEndian => lowValue bs
    | .bigEndian => lowValue bs.reverse
  if signed && decide ((256 ^ bs.length : Nat) ≤ 2 * v) then v - (256 ^ bs.length : Nat) else v

/-- Object representations of the converted arguments. Models the parameter passing of
detail/operations/SendOverloads_Generated.h:88-97 and its siblings. -/
def intArgs (mach : Machine) (sg : Signs) (fs : List FieldType) (xs : List Int) : List (List Byte) :=
  List.zipWith (fun f x => objectRep mach f.sizeof (convertInt (f.signed sg) f.sizeof x)) fs xs

/-- `send<Collection, Message>(tx, x1, ..., xn)` with integer arguments.
Models detail/operations/SendOverloads_Generated.h:55-430. `none`: does not compile. -/
def sendInts {σ : Type} (mach : Machine) (sg : Signs) (C : Collection) (m : MsgType) (T : Tx σ) (s : σ)
    (xs : List Int) : Option (Res σ) :=
  if xs.length = m.fields.length then sendOverload C m T s (intArgs mach sg m.fields xs) else none

/-- The arguments of a handler call as the integers the handler sees. Models
serializers/BitwiseCopySerialization.h:49-58 for all fields. -/
def seenInts (mach : Machine) (sg : Signs) (m : MsgType) (args : List (List Byte)) : List Int :=
  List.zipWith (fun f bs => readInt mach (f.signed sg) bs) m.fields args

/-- A program: several calls of `send` with integer arguments, one after the other. Uses of
detail/operations/SendOverloads_Generated.h:55-430. -/
def sendAllInts {σ : Type} (mach : Machine) (sg : Signs) (C : Collection) (T : Tx σ) :
    σ → List (MsgType × List Int) → Option (Res σ)
  | s, [] => some (.ok s)
  | s, c :: cs =>
    match sendInts mach sg C c.1 T s c.2 with
    | some (.ok s') => sendAllInts mach sg C T s' cs
    | r => r

end TT
