/-!
# What the preprocessor makes of a list of `#include` lines

The headers of the library with everything in them that includes another header of the library or of Boost.Fusion, or
defines or reads one of three macros.
-/

namespace TT.Inc

/-- The headers of the library (all files `*.h` in /repo/tuple-transmission and /repo/util). Those called `ArduinoSerial.h`
and `VrpnSerial.h` exist twice, in `transmitters` and in `receiveadapters`. The names are used in lines like
tuple-transmission/Receiver.h:24-28. -/
inductive Header where
  | boundMessageType
  | boundMessageTypeFwd
  | messageCollection
  | messageType
  | parameterHandlerBase
  | partialHandlerBase
  | receiver
  | receiverFwd
  | send
  | envelopeBase
  | envelopeBaseFwd
  | receiveAdapterBase
  | receiveAdapterBaseFwd
  | serializerBase
  | transmitterBase
  | transmitterBaseFwd
  | arityConfig
  | controlCodes
  | messageBufferSizeScale
  | computeReceiveBufferSize
  | deserializeAndInvoke
  | deserializeToFusion
  | isIdValid
  | maxMessageLength
  | messageArity
  | messageCount
  | messageCountFwd
  | messageLength
  | sendOverloads
  | sizeof
  | sizeofFwd
  | envelopeReceiveBuffer
  | integralTypes
  | messageIdType
  | messageSizeType
  | messageSizeTypeFwd
  | basic
  | basicChecksum
  | envelopesFwd
  | arduinoSerialAdapter
  | vrpnSerialAdapter
  | bitwiseCopySerialization
  | arduinoI2C
  | arduinoSerialTransmitter
  | autosizedBoostArrayBuffer
  | boostArrayBuffer
  | checksumComputer
  | transmitterComposition
  | vectorBuffer
  | vrpnSerialTransmitter
  | boostAssertMsg
  | mplApplyAt
  | mplFindIndex
  | receiveBuffer
  | vectorSimulator
  | booststdint
  deriving DecidableEq, Repr

/-- The headers of Boost.Fusion that the library includes; `other` for those it does not. They are not in
/repo. Lines like tuple-transmission/Send.h:36. -/
inductive Fusion where
  | asList
  | cons
  | forEach
  | invokeProcedure
  | isSequence
  | makeList
  | mpl
  | pushBack
  | pushFront
  | other (n : Nat)
  deriving DecidableEq, Repr

/-- The macros: `FUSION_MAX_LIST_SIZE` and `BOOST_FUSION_INVOKE_PROCEDURE_MAX_ARITY`
(detail/constants/ArityConfig.h:45-50), and `BOOST_TEST_MESSAGE` (for example Receiver.h:37-39). -/
inductive Macro where
  | listSize
  | invokeArity
  | testMessage
  deriving DecidableEq, Repr

/-- The lines that matter. `default m v` is `#ifndef m` / `#define m v` / `#endif`. `use m` is a place that expands `m`, be
it in `#if` or in code. The empty definition of `BOOST_TEST_MESSAGE` counts as the number 0. Lines like
tuple-transmission/Receiver.h:20-39. -/
inductive Directive where
  | include (h : Header)
  | fusion (f : Fusion)
  | default (m : Macro) (v : Nat)
  | use (m : Macro)
  deriving DecidableEq, Repr

/-- The contents of each header, in the order of the lines; several uses of a macro in sequence appear once. Headers of
Boost other than Fusion, of the standard library and of VRPN are left out: they have nothing to do with the
macros. Files and lines are given case by case (the first is tuple-transmission/BoundMessageType.h:24-29). -/
def body : Header → List Directive
  -- tuple-transmission/BoundMessageType.h:24-29
  | .boundMessageType =>
    [ .include .boundMessageTypeFwd,
      .include .arityConfig,
      .include .messageIdType,
      .include .messageArity,
      .include .messageCount,
      .include .mplFindIndex ]
  -- tuple-transmission/BoundMessageType_fwd.h
  | .boundMessageTypeFwd => []
  -- tuple-transmission/MessageCollection.h
  | .messageCollection => []
  -- tuple-transmission/MessageType.h
  | .messageType => []
  -- tuple-transmission/ParameterHandlerBase.h:24-54
  | .parameterHandlerBase =>
    [ .include .arityConfig,
      .include .receiver,
      .fusion .pushFront,
      .fusion .invokeProcedure,
      .fusion .isSequence,
      .default .testMessage 0,
      .use .testMessage ]
  -- tuple-transmission/PartialHandlerBase.h:26-31
  | .partialHandlerBase =>
    [ .include .receiver,
      .include .parameterHandlerBase,
      .fusion .isSequence ]
  -- tuple-transmission/Receiver.h:24-171
  | .receiver =>
    [ .include .receiverFwd,
      .include .envelopeReceiveBuffer,
      .include .messageIdType,
      .include .deserializeAndInvoke,
      .include .receiveAdapterBaseFwd,
      .default .testMessage 0,
      .use .testMessage ]
  -- tuple-transmission/Receiver_fwd.h
  | .receiverFwd => []
  -- tuple-transmission/Send.h:24-36
  | .send =>
    [ .include .arityConfig,
      .include .transmitterBaseFwd,
      .include .integralTypes,
      .include .sendOverloads,
      .include .boundMessageType,
      .fusion .mpl ]
  -- tuple-transmission/detail/bases/EnvelopeBase.h:24-78
  | .envelopeBase =>
    [ .include .envelopeBaseFwd,
      .include .messageIdType,
      .include .boostAssertMsg,
      .default .testMessage 0,
      .use .testMessage ]
  -- tuple-transmission/detail/bases/EnvelopeBase_fwd.h
  | .envelopeBaseFwd => []
  -- tuple-transmission/detail/bases/ReceiveAdapterBase.h:24-24
  | .receiveAdapterBase =>
    [ .include .integralTypes ]
  -- tuple-transmission/detail/bases/ReceiveAdapterBase_fwd.h
  | .receiveAdapterBaseFwd => []
  -- tuple-transmission/detail/bases/SerializerBase.h:24-32
  | .serializerBase =>
    [ .include .arityConfig,
      .include .integralTypes,
      .fusion .forEach ]
  -- tuple-transmission/detail/bases/TransmitterBase.h:24-25
  | .transmitterBase =>
    [ .include .transmitterBaseFwd,
      .include .integralTypes ]
  -- tuple-transmission/detail/bases/TransmitterBase_fwd.h
  | .transmitterBaseFwd => []
  -- tuple-transmission/detail/constants/ArityConfig.h:46-49
  | .arityConfig =>
    [ .default .listSize 9,
      .default .invokeArity 10 ]
  -- tuple-transmission/detail/constants/ControlCodes.h:27-27
  | .controlCodes =>
    [ .include .booststdint ]
  -- tuple-transmission/detail/constants/MessageBufferSizeScale.h
  | .messageBufferSizeScale => []
  -- tuple-transmission/detail/operations/ComputeReceiveBufferSize.h:24-25
  | .computeReceiveBufferSize =>
    [ .include .maxMessageLength,
      .include .messageBufferSizeScale ]
  -- tuple-transmission/detail/operations/DeserializeAndInvoke.h:24-26
  | .deserializeAndInvoke =>
    [ .include .messageIdType,
      .include .deserializeToFusion,
      .include .mplApplyAt ]
  -- tuple-transmission/detail/operations/DeserializeToFusion.h:24-109
  | .deserializeToFusion =>
    [ .include .arityConfig,
      .fusion .mpl,
      .fusion .pushBack,
      .fusion .cons,
      .fusion .asList,
      .default .testMessage 0,
      .use .testMessage ]
  -- tuple-transmission/detail/operations/IsIdValid.h:24-25
  | .isIdValid =>
    [ .include .messageIdType,
      .include .messageCount ]
  -- tuple-transmission/detail/operations/MaxMessageLength.h:24-25
  | .maxMessageLength =>
    [ .include .sizeof,
      .include .boundMessageType ]
  -- tuple-transmission/detail/operations/MessageArity.h
  | .messageArity => []
  -- tuple-transmission/detail/operations/MessageCount.h
  | .messageCount => []
  -- tuple-transmission/detail/operations/MessageCount_fwd.h
  | .messageCountFwd => []
  -- tuple-transmission/detail/operations/MessageLength.h:24-29
  | .messageLength =>
    [ .include .messageSizeType,
      .include .messageIdType,
      .include .messageCount,
      .include .isIdValid,
      .include .boundMessageType,
      .include .mplApplyAt ]
  -- tuple-transmission/detail/operations/SendOverloads_Generated.h:26-388
  | .sendOverloads =>
    [ .include .arityConfig,
      .include .messageArity,
      .include .transmitterBaseFwd,
      .fusion .makeList,
      .use .listSize ]
  -- tuple-transmission/detail/operations/Sizeof.h:24-25
  | .sizeof =>
    [ .include .sizeofFwd,
      .include .boundMessageTypeFwd ]
  -- tuple-transmission/detail/operations/Sizeof_fwd.h
  | .sizeofFwd => []
  -- tuple-transmission/detail/types/EnvelopeReceiveBuffer.h:24-29
  | .envelopeReceiveBuffer =>
    [ .include .computeReceiveBufferSize,
      .include .isIdValid,
      .include .messageLength,
      .include .messageSizeType,
      .include .messageIdType,
      .include .receiveBuffer ]
  -- tuple-transmission/detail/types/IntegralTypes.h:24-24
  | .integralTypes =>
    [ .include .booststdint ]
  -- tuple-transmission/detail/types/MessageIdType.h:24-24
  | .messageIdType =>
    [ .include .booststdint ]
  -- tuple-transmission/detail/types/MessageSizeType.h:24-24
  | .messageSizeType =>
    [ .include .maxMessageLength ]
  -- tuple-transmission/detail/types/MessageSizeType_fwd.h
  | .messageSizeTypeFwd => []
  -- tuple-transmission/envelopes/Basic.h:24-117
  | .basic =>
    [ .include .envelopeBase,
      .include .controlCodes,
      .include .integralTypes,
      .include .bitwiseCopySerialization,
      .default .testMessage 0,
      .use .testMessage ]
  -- tuple-transmission/envelopes/BasicChecksum.h:24-135
  | .basicChecksum =>
    [ .include .envelopeBase,
      .include .controlCodes,
      .include .integralTypes,
      .include .checksumComputer,
      .include .transmitterComposition,
      .include .bitwiseCopySerialization,
      .use .testMessage ]
  -- tuple-transmission/envelopes/Envelopes_fwd.h
  | .envelopesFwd => []
  -- tuple-transmission/receiveadapters/ArduinoSerial.h:24-25
  | .arduinoSerialAdapter =>
    [ .include .integralTypes,
      .include .receiveAdapterBase ]
  -- tuple-transmission/receiveadapters/VrpnSerial.h:24-25
  | .vrpnSerialAdapter =>
    [ .include .integralTypes,
      .include .receiveAdapterBase ]
  -- tuple-transmission/serializers/BitwiseCopySerialization.h:24-24
  | .bitwiseCopySerialization =>
    [ .include .serializerBase ]
  -- tuple-transmission/transmitters/ArduinoI2C.h:24-25
  | .arduinoI2C =>
    [ .include .transmitterBase,
      .include .boostArrayBuffer ]
  -- tuple-transmission/transmitters/ArduinoSerial.h:24-24
  | .arduinoSerialTransmitter =>
    [ .include .transmitterBase ]
  -- tuple-transmission/transmitters/AutosizedBoostArrayBuffer.h:24-26
  | .autosizedBoostArrayBuffer =>
    [ .include .boostArrayBuffer,
      .include .sizeof,
      .include .maxMessageLength ]
  -- tuple-transmission/transmitters/BoostArrayBuffer.h:24-24
  | .boostArrayBuffer =>
    [ .include .transmitterBase ]
  -- tuple-transmission/transmitters/ChecksumComputer.h:24-25
  | .checksumComputer =>
    [ .include .transmitterBase,
      .include .integralTypes ]
  -- tuple-transmission/transmitters/TransmitterComposition.h:24-25
  | .transmitterComposition =>
    [ .include .transmitterBaseFwd,
      .include .integralTypes ]
  -- tuple-transmission/transmitters/VectorBuffer.h:24-25
  | .vectorBuffer =>
    [ .include .transmitterBase,
      .include .maxMessageLength ]
  -- tuple-transmission/transmitters/VrpnSerial.h:24-24
  | .vrpnSerialTransmitter =>
    [ .include .transmitterBase ]
  -- util/BoostAssertMsg.h
  | .boostAssertMsg => []
  -- util/MPLApplyAt.h
  | .mplApplyAt => []
  -- util/MPLFindIndex.h
  | .mplFindIndex => []
  -- util/ReceiveBuffer.h:34-41
  | .receiveBuffer =>
    [ .include .vectorSimulator,
      .include .booststdint,
      .include .boostAssertMsg ]
  -- util/VectorSimulator.h
  | .vectorSimulator => []
  -- util/booststdint.h
  | .booststdint => []
/-- What the installed version of Boost.Fusion does: `fixes f m = some d` if header `f` sets up something with room for
the number in `m`, after having defined `m` as `d` if it was not defined. The macros are those of
detail/constants/ArityConfig.h:45-50. -/
structure Boost where
  fixes : Fusion → Macro → Option Nat

/-- The state of the preprocessor.
* `macros`: the macros defined;
* `guards`: the headers whose include guards are defined;
* `read`: the headers read to the end, in that order;
* `fixed`: for each macro the number that Boost.Fusion used when it was set up;
* `uses`: the uses of macros in headers of the library and the definition each one saw;
* `tooDeep`: whether includes were nested too deeply. The guards are lines like
tuple-transmission/Receiver.h:20-21. -/
structure State where
  macros : Macro → Option Nat
  guards : List Header := []
  read : List Header := []
  fixed : Macro → Option Nat := fun _ => none
  uses : List (Header × Macro × Option Nat) := []
  tooDeep : Bool := false

/-- `#ifndef m` / `#define m v` / `#endif`, for example detail/constants/ArityConfig.h:45-47. -/
def setDefault (m : Macro) (v : Nat) (s : State) : State :=
  match s.macros m with
  | some _ => s
  | none => { s with macros := fun m' => if m' = m then some v else s.macros m' }

/-- A header of Boost.Fusion and one macro. The header sets up things the first time only. The macros are
those of detail/constants/ArityConfig.h:45-50. -/
def fixMacro (boost : Boost) (f : Fusion) (s : State) (m : Macro) : State :=
  match boost.fixes f m with
  | none => s
  | some d =>
    let s := setDefault m d s
    match s.fixed m with
    | some _ => s
    | none => { s with fixed := fun m' => if m' = m then s.macros m else s.fixed m' }

/-- `#include` of a header of Boost.Fusion, which has nothing to do with `BOOST_TEST_MESSAGE`. Lines like
tuple-transmission/Send.h:36. -/
def readFusion (boost : Boost) (f : Fusion) (s : State) : State :=
  fixMacro boost f (fixMacro boost f s .listSize) .invokeArity

/-- The lines of header `h`; `rd` reads the headers included. Lines like tuple-transmission/Receiver.h:20-39. -/
def readLines (boost : Boost) (rd : Header → State → State) (h : Header) : List Directive → State → State
  | [], s => s
  | .include h' :: ds, s => readLines boost rd h ds (rd h' s)
  | .fusion f :: ds, s => readLines boost rd h ds (readFusion boost f s)
  | .default m v :: ds, s => readLines boost rd h ds (setDefault m v s)
  | .use m :: ds, s => readLines boost rd h ds { s with uses := s.uses ++ [(h, m, s.macros m)] }

/-- `#include` of a header of the library, at most `depth` levels deep: nothing if its include guard is defined (for
example Receiver.h:20-21), otherwise the guard is defined and the lines are read. -/
def readHeader (boost : Boost) : Nat → Header → State → State
  | 0, _, s => { s with tooDeep := true }
  | depth + 1, h, s =>
    if h ∈ s.guards then s
    else
      let s := readLines boost (readHeader boost depth) h (body h) { s with guards := h :: s.guards }
      { s with read := s.read ++ [h] }

/-- An `#include` line of the user. Lines like tests/DefinePartialHandler.h:24. -/
inductive Item where
  | lib (h : Header)
  | fusion (f : Fusion)
  deriving DecidableEq, Repr

/-- The depth of nesting that the C++ standard asks of every compiler (annex B). Nothing in /repo depends on
it; includes are nested as in tuple-transmission/PartialHandlerBase.h:26-27. -/
def depthLimit : Nat := 256

/-- One line of the user. Lines like tests/DefinePartialHandler.h:22. -/
def readItem (boost : Boost) (s : State) : Item → State
  | .lib h => readHeader boost depthLimit h s
  | .fusion f => readFusion boost f s

/-- A source file that starts with the macros `ms` defined, by the user or on the command line, and consists of the
`#include` lines `items`. A source file like tests/Handler.cpp:1-30. -/
def preprocess (boost : Boost) (ms : Macro → Option Nat) (items : List Item) : State :=
  items.foldl (readItem boost) { macros := ms }

end TT.Inc
