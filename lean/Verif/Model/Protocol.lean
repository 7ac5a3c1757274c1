import Verif.Model.Base

/-!
# Protocol definitions: field types, message types, collections, and the compile-time metafunctions
-/

namespace TT

/-- Start of Header. Models detail/constants/ControlCodes.h:38. -/
def SOH : Byte := 0x01
/-- Start of Text. Models detail/constants/ControlCodes.h:40. -/
def STX : Byte := 0x02
/-- End of Text. Models detail/constants/ControlCodes.h:43. -/
def ETX : Byte := 0x03
/-- End of Transmission. Models detail/constants/ControlCodes.h:45. -/
def EOT : Byte := 0x04

/-- A field type: `uint8_t`, which has its own code path in the serializer and deserializer
(serializers/BitwiseCopySerialization.h:42-45, 62-68), or any other trivially copyable type,
known by an identity `ty` and its `sizeof`. -/
inductive FieldType where
  | uint8
  | pod (ty : Nat) (size : Nat)
deriving DecidableEq, Repr

/-- `sizeof(T)` / `boost::mpl::sizeof_`, as used in detail/operations/Sizeof.h:45. -/
def FieldType.sizeof : FieldType → Nat
  | .uint8 => 1
  | .pod _ n => n

/-- A message type: a struct deriving from `MessageTypeBase<mpl::vector<...>>`.
Models MessageType.h:51-56. `tag` is the identity of the C++ struct: two structs with the same
field list are different message types. -/
structure MsgType where
  tag : Nat
  fields : List FieldType
deriving DecidableEq, Repr

/-- The two envelopes shipped with the library. Models envelopes/Envelopes_fwd.h:34-35. -/
inductive Envelope where
  | basic
  | basicChecksum
deriving DecidableEq, Repr

/-- `MessageCollection<MessageTypeSequence, EnvelopeType>`. Models MessageCollection.h:48-54. -/
structure Collection where
  messages : List MsgType
  envelope : Envelope
deriving DecidableEq, Repr

/-- `overhead_size`. Models envelopes/Basic.h:43-48 and envelopes/BasicChecksum.h:41-47. -/
def Envelope.overheadSize : Envelope → Nat
  | .basic => 1 + 1 + 1 + 1 + 1
  | .basicChecksum => 1 + 1 + 1 + 1 + 1 + 1

/-- `data_offset`. Models envelopes/Basic.h:50 and envelopes/BasicChecksum.h:49. -/
def Envelope.dataOffset : Envelope → Nat
  | .basic => 3
  | .basicChecksum => 3

/-- `Envelope::Size<n>`. Models envelopes/Basic.h:54-55 and envelopes/BasicChecksum.h:51-52. -/
def Envelope.size (e : Envelope) (contents : Nat) : Nat := e.overheadSize + contents

/-- `Sizeof<MPLTypeSequence>`: `mpl::accumulate` of `plus<_1, sizeof_<_2>>` from 0.
Models detail/operations/Sizeof.h:41-46. Unbounded integers (a `long` in the code). -/
def sizeofSeq (fs : List FieldType) : Nat := fs.foldl (fun acc f => acc + f.sizeof) 0

/-- `Sizeof<BoundMessageType<Collection, Message>>`. Models detail/operations/Sizeof.h:48-60. -/
def sizeofBound (C : Collection) (m : MsgType) : Nat := C.envelope.size (sizeofSeq m.fields)

/-- `MessageArity`. Models detail/operations/MessageArity.h:37-38. -/
def messageArity (m : MsgType) : Nat := m.fields.length

/-- `MessageCount`. Models detail/operations/MessageCount.h:37-38. -/
def messageCount (C : Collection) : Nat := C.messages.length

/-- `isIdValid`. Models detail/operations/IsIdValid.h:37-40 (comparison after promotion to `int`). -/
def isIdValid (C : Collection) (id : Byte) : Bool := decide (id.toNat < messageCount C)

/-- `boost::mpl::max_element` with `TotalMessageSizeLess`: keeps the earlier element unless it is
strictly smaller. Models detail/operations/MaxMessageLength.h:40-49. -/
def maxElement (C : Collection) : MsgType → List MsgType → MsgType
  | best, [] => best
  | best, m :: ms =>
    maxElement C (if sizeofBound C best < sizeofBound C m then m else best) ms

/-- `MaxMessageLength`. Models detail/operations/MaxMessageLength.h:48-52.
Totalised: an empty collection does not compile (`deref` of the end iterator); here it gives 0. -/
def maxMessageLength (C : Collection) : Nat :=
  match C.messages with
  | [] => 0
  | m :: ms => sizeofBound C (maxElement C m ms)

/-- `MessageBufferSizeScale`. Models detail/constants/MessageBufferSizeScale.h:36. -/
def messageBufferSizeScale : Nat := 3

/-- `ComputeReceiveBufferSize`. Models detail/operations/ComputeReceiveBufferSize.h:37-43. -/
def recvBufferSize (C : Collection) : Nat := maxMessageLength C * messageBufferSizeScale

/-- `util::find_index<message_types, message_type>`: distance from the beginning to the first
occurrence. `none` is the failed static assertion `contains`.
Models util/MPLFindIndex.h:53-68. -/
def findIndex : List MsgType → MsgType → Option Nat
  | [], _ => none
  | m :: ms, t => if m = t then some 0 else (findIndex ms t).map (· + 1)

/-- `BoundMessageType::message_id`, and its conversion to `MessageIdType` in `send`.
Models BoundMessageType.h:77 and Send.h:64. -/
def messageId (C : Collection) (m : MsgType) : Option Byte :=
  (findIndex C.messages m).map UInt8.ofNat

/-- The static assertions a collection must pass before anything using it compiles: at least one
message (detail/operations/MaxMessageLength.h:49) and at most `MaxMessageId` = 255 messages
(BoundMessageType.h:86-88, detail/types/MessageIdType.h:34-36).
The arity assertion BoundMessageType.h:84 is not included: it applies `mpl::equal`, which compares
*sequences*, to two integral constants, and so does not constrain the arity. -/
def Collection.compiles (C : Collection) : Bool :=
  decide (C.messages ≠ []) && decide (messageCount C ≤ 255)

/-- `runtime_int_to_type_impl::apply`: walk `Current` = 0, 1, ... below `Limit`, and run the functor
on the element at `Current` when it equals the runtime index; past the end, silently do nothing.
Models util/MPLApplyAt.h:76-104 and 116-126. -/
def applyAtFrom {α : Type} (seq : List MsgType) (i : Nat) (op : MsgType → α) (dflt : α)
    (current : Nat) : α :=
  match h : seq[current]? with
  | none => dflt
  | some m => if current = i then op m else applyAtFrom seq i op dflt (current + 1)
termination_by seq.length - current
decreasing_by
  have := (List.getElem?_eq_some_iff.mp h).1
  omega

/-- `util::apply_at<Sequence>(i, f)`. Models util/MPLApplyAt.h:136-146. `dflt` is the effect of not
calling the functor at all. The runtime index is converted to `uint_value_t<size>::least`. -/
def applyAt {α : Type} (seq : List MsgType) (i : Byte) (op : MsgType → α) (dflt : α) : α :=
  applyAtFrom seq (trunc seq.length i.toNat) op dflt 0

/-- Runtime `getMessageLength(id)`; the result has type `MessageSizeType<Collection>::type`.
Models detail/operations/MessageLength.h:42-71. If `apply_at` did not find the index the code would
return the uninitialised `retval`: that is the fault `ub`. -/
def getMessageLength (C : Collection) (id : Byte) : Res Nat :=
  if !isIdValid C id then .ok 0
  else applyAt C.messages id
    (fun m => .ok (trunc (maxMessageLength C) (sizeofBound C m))) (.error .ub)

/-- Compile-time `MessageLength<Collection, MessageId>`. Models detail/operations/MessageLength.h:57-58;
`none` when `mpl::at` is out of range (does not compile). -/
def messageLengthCT (C : Collection) (id : Nat) : Option Nat :=
  (C.messages[id]?).map (sizeofBound C)

end TT
