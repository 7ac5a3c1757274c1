import Verif.Model.Transmit
import Verif.Model.Receive

/-!
# Fields with padding bytes

A field may be a structure. Its object representation then contains bytes between and after the members that belong to no
value. Whenever such an object is copied, the copy has equal members, but the compiler may leave anything in those bytes.
`Verif.Model.Transmit` and `Verif.Model.Receive` take values for their representations; here every copy that the library makes
on the way from the caller to the transmitter, and from the receive buffer to the handler, may change the representation.

Simplification: several copies of the same value, one after the other, are taken together. What `memcpy` does is exact.
-/

namespace TT

/-- What becomes of the fields of a message when they are copied: position of the field, number of its type, its
representation. The compiler decides. For the copies in detail/operations/SendOverloads_Generated.h:90-97 and
detail/operations/DeserializeToFusion.h:69-83. -/
abbrev Copier := Nat → Nat → List Byte → List Byte

/-- A copy of one field; a `uint8_t` has no padding. For the parameters of
detail/operations/SendOverloads_Generated.h:90-97 and the variable in detail/operations/DeserializeToFusion.h:71. -/
def Copier.field (K : Copier) (i : Nat) : FieldType → List Byte → List Byte
  | .uint8, bs => bs
  | .pod ty _, bs => K i ty bs

/-- Copies of all fields from position `i` on. For `fusion::make_list` in
detail/operations/SendOverloads_Generated.h:90-97. -/
def Copier.fields (K : Copier) : Nat → List Value → List Value
  | _, [] => []
  | i, v :: vs => ⟨v.ty, K.field i v.ty v.bytes⟩ :: K.fields (i + 1) vs

/-- The same for fields that have been received. For `fusion::push_back` and `fusion::as_list` in
detail/operations/DeserializeToFusion.h:69-83. -/
def Copier.args (K : Copier) : Nat → List FieldType → List (List Byte) → List (List Byte)
  | i, f :: fs, a :: as => K.field i f a :: K.args (i + 1) fs as
  | _, _, as => as

/-- `send` with the fields as separate parameters: they are copied into the parameters and into a list, whose elements are
then copied by `memcpy`. Models detail/operations/SendOverloads_Generated.h:55-430. -/
def sendCopied {σ : Type} (K : Copier) (C : Collection) (m : MsgType) (T : Tx σ) (s : σ) (args : List Value) :
    Option (Res σ) :=
  send C m T s (K.fields 0 args)

/-- Several such calls, each with its own copies. Uses of detail/operations/SendOverloads_Generated.h:55-430. -/
def sendAllCopied {σ : Type} (C : Collection) (T : Tx σ) : σ → List (Copier × MsgType × List Value) → Option (Res σ)
  | s, [] => some (.ok s)
  | s, (K, m, vs) :: rs =>
    match sendCopied K C m T s vs with
    | some (.ok s) => sendAllCopied C T s rs
    | other => other

/-- What the user's function is given: copies of what has been taken out of the receive buffer. Models
detail/operations/DeserializeToFusion.h:69-83,107-112 and ParameterHandlerBase.h:49-56. -/
def Copier.call (K : Copier) (c : UserCall) : UserCall :=
  { c with args := K.args 0 c.msg.fields c.args }

/-- The calls as the user's code sees them; the arguments of call number `i` have been copied by `Ks i`. Models
detail/operations/DeserializeToFusion.h:69-83,107-112, several times. -/
def seesCopies (Ks : Nat → Copier) (calls : List UserCall) : List UserCall :=
  calls.mapIdx fun i c => (Ks i).call c

/-- User code that is given copies: as a part of the program it is one more user code, which gets what was in the receive
buffer, makes copies and passes them on. Models detail/operations/DeserializeToFusion.h:107-112. -/
def UserCode.givenCopies (Ks : Nat → Copier) (user : UserCode) : UserCode :=
  fun calls free => user (seesCopies Ks calls) free

end TT
