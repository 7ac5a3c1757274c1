import Verif.Properties.Samples

/-!
# The unit tests of the repository, run on the model

These are tests of the model, not proofs of properties: each `example` transcribes a test case of
/repo/tests and checks that the model gives the result which the test demands of the C++ code.
They are evaluated by the kernel (`decide +kernel`).

Not transcribed: the header compilation tests (tests/cleanbuild), and the compile-time assertion on
the largest arity (tests/ProtocolForTest.h:64).
-/

namespace TT.Tests
open TT.Sample (dbg rel16)

/-! ### The protocol of the tests -/

/-- `int8_t`. -/
def int8 : FieldType := .pod 0 1
/-- `int16_t`. -/
def int16 : FieldType := .pod 1 2
/-- `float`. -/
def float : FieldType := .pod 2 4
/-- `uint16_t`. -/
def uint16 : FieldType := .pod 3 2

/-- tests/ProtocolForTest.h:54-55. -/
def messageA : MsgType := ⟨0, [int8, .uint8, int16]⟩
/-- tests/ProtocolForTest.h:56. -/
def messageB : MsgType := ⟨1, [.uint8, .uint8, .uint8]⟩
/-- tests/ProtocolForTest.h:57. -/
def messageC : MsgType := ⟨2, [float, float, float]⟩
/-- tests/ProtocolForTest.h:58. -/
def messageD : MsgType := ⟨3, [.uint8, .uint8, .uint8]⟩
/-- tests/ProtocolForTest.h:59. -/
def emptyMessage : MsgType := ⟨4, []⟩
/-- tests/ProtocolForTest.h:61. -/
def maxArityMessage : MsgType := ⟨5, List.replicate 9 .uint8⟩

/-- `MyMessageCollection`, tests/ProtocolForTest.h:65-75. -/
def my (E : Envelope) : Collection :=
  ⟨[messageA, messageB, messageC, messageD, emptyMessage, maxArityMessage], E⟩

/-- `ValidMessage`, tests/ProtocolTestSpecifics.h:48-53. -/
def validMessage : Envelope → List Byte
  | .basic => [SOH, 1, STX, 5, 10, 15, ETX, EOT]
  | .basicChecksum => [SOH, 1, STX, 5, 10, 15, ETX, 0x25, EOT]

/-- `InvalidMessageId`, tests/ProtocolTestSpecifics.h:33. -/
def invalidMessageId : Byte := 20

/-- The test handlers: `PartialHandlerBase` with overloads for `MessageB` and `EmptyMessage`
(tests/DefinePartialHandler.h:31-65). -/
def partialHandler : Handler := ⟨.partialBase [messageB, emptyMessage], 7⟩
/-- `ParameterHandlerBase` (tests/Handler.cpp:28-64). -/
def parameterHandler : Handler := ⟨.parameterBase, 7⟩

/-- The handlers of the tests do not touch the receiver. -/
def user : UserCode := Sample.passive

/-! ### tests/Sizeof.cpp -/

example : sizeofSeq [int16, int16, int16] = 3 * 2 := by decide +kernel
example : sizeofSeq [uint16, uint16, uint16] = 3 * 2 := by decide +kernel
example : sizeofSeq [int8] = 1 := by decide +kernel
example : sizeofSeq [] = 0 := by decide +kernel
example : sizeofBound (my .basic) messageA = sizeofSeq messageA.fields + 5 := by decide +kernel

/-! ### tests/MessageLength.cpp -/

example : maxMessageLength (my .basic) = 17 := by decide +kernel
example : getMessageLength (my .basic) 0 = .ok 9 := by decide +kernel
example : getMessageLength (my .basic) 1 = .ok 8 := by decide +kernel
example : messageLengthCT (my .basic) 0 = some 9 ∧ messageLengthCT (my .basic) 1 = some 8 := by
  decide +kernel
example : isIdValid (my .basic) invalidMessageId = false := by decide +kernel

/-! ### tests/TupleTransmission.cpp and tests/BasicChecksum.cpp -/

/-- `make_vector(uint8_t(5), uint8_t(10), uint8_t(15))`. -/
def fiveTenFifteen : List Value := [⟨.uint8, [5]⟩, ⟨.uint8, [10]⟩, ⟨.uint8, [15]⟩]

/-- The array of an array buffer of the given size after one `send` of `MessageB`. -/
def sentB (E : Envelope) (size : Nat) : Option (Res (List Byte)) :=
  (send (my E) messageB (boostArrayBuffer size) (ArrayBuf.new size) fiveTenFifteen).map
    (fun r => r.map (·.buffer))

example : sentB .basic (autosizedCapacity (my .basic) messageB) =
    some (.ok [SOH, 1, STX, 5, 10, 15, ETX, EOT]) := by decide +kernel
example : sentB .basic 8 = some (.ok [SOH, 1, STX, 5, 10, 15, ETX, EOT]) := by decide +kernel
example : (sendOverload (my .basic) messageB (boostArrayBuffer 8) (ArrayBuf.new 8)
      [[5], [10], [15]]).map (fun r => r.map (·.buffer)) =
    some (.ok [SOH, 1, STX, 5, 10, 15, ETX, EOT]) := by decide +kernel
example : sentB .basicChecksum (autosizedCapacity (my .basicChecksum) messageB) =
    some (.ok [SOH, 1, STX, 5, 10, 15, ETX, SOH + 1 + STX + 5 + 10 + 15 + ETX, EOT]) := by
  decide +kernel

/-! ### tests/EnvelopeReceiveBuffer.cpp -/

/-- `DefaultConstruction`. -/
example : (ERB.new (my .basic)).bufferSize = 0 ∧ (ERB.new (my .basic)).bufferEmpty = true ∧
    (ERB.new (my .basic)).isCurrentMessageIdValid = false := by decide +kernel

/-- `MessageMethods`. -/
example : ∀ B ∈ [dbg, rel16],
    let r := ERB.new (my .basic)
    let r1 := r.setCurrentMessageId 0
    let r2 := r1.setCurrentMessageId 1
    let r3 := r2.setCurrentMessageId 0
    let r4 := r3.setCurrentMessageId invalidMessageId
    r.isCurrentMessageIdValid = false ∧
    r1.isCurrentMessageIdValid = true ∧ r1.getCurrentMessageId B = .ok 0 ∧
    r2.isCurrentMessageIdValid = true ∧ r2.getCurrentMessageId B = .ok 1 ∧
    r3.isCurrentMessageIdValid = true ∧ r3.getCurrentMessageId B = .ok 0 ∧
    r4.isCurrentMessageIdValid = false := by decide +kernel

/-- What `runNefariousMessageTest` appends, step by step: single bytes or ranges of the valid
message. -/
inductive Piece where
  | one (b : Byte)
  | valid (n start : Nat)

/-- Append one piece. -/
def Piece.append (B : Build) (r : ERB (my .basic)) : Piece → Res (ERB (my .basic))
  | .one b => r.bufferAppendOne B b
  | .valid n start => r.bufferAppend B (((validMessage .basic).drop start).take n)

/-- The appends of tests/EnvelopeReceiveBuffer.cpp:66-172 in order. -/
def pieces : List Piece :=
  [.one 0, .valid 1 0, .one 20, .valid 1 0, .valid 1 1, .valid 1 0, .valid 2 1, .valid 3 3,
   .valid 7 0, .valid 8 0, .one 0]

/-- Append the first `n` pieces; the sizes after each step, what the check says, and the size
after the check. -/
def nefarious (B : Build) (n : Nat) : Res (Nat × Bool × Nat × Option Byte) := do
  let r ← (pieces.take n).foldlM (Piece.append B) (ERB.new (my .basic))
  let before := r.bufferSize
  let (r, found) ← r.checkBufferForMessage B
  return (before, found, r.bufferSize, r.currentMessageId)

/-- Rounds 0 to 9: size before, found, size after, current id if a message was found. The sixth line
is the second block guarded by `round == 4`, which the test never reaches; it demands size 1 there,
but the id byte 1 is itself a start code, so two bytes stay. -/
example : ∀ B ∈ [dbg, rel16],
    ((List.range 11).map fun k => (nefarious B (k + 1)).map fun x =>
      [x.1, x.2.1.toNat, x.2.2.1, if x.2.1 then (x.2.2.2.getD 0).toNat else 0]) =
    [.ok [1, 0, 0, 0], .ok [2, 0, 1, 0], .ok [3, 0, 0, 0], .ok [4, 0, 1, 0], .ok [5, 0, 2, 0],
     .ok [6, 0, 2, 0], .ok [8, 0, 3, 0], .ok [11, 0, 6, 0], .ok [18, 0, 7, 0], .ok [26, 1, 8, 1],
     .ok [27, 1, 9, 1]] := by
  decide +kernel

/-! ### tests/HandlerCommon.h -/

/-- A receiver constructed with a handler. -/
def start (E : Envelope) (h : Handler) : World (my E) :=
  { World.new (my E) with rx := Receiver.newWith (my E) h }

/-- The calls that reached the test handler. -/
def callsAfter {E : Envelope} (B : Build) (w : World (my E)) (ops : List Op) :
    Res (List UserCall) :=
  (w.run B user 100 ops).map fun x => x.1.userCalls

/-- `IncompleteMessages`: after each of the growing prefixes, and all of them together, the
handler has not been called. -/
example : ∀ B ∈ [dbg, rel16], ∀ h ∈ [partialHandler, parameterHandler],
    ∀ n ∈ List.range 8, callsAfter B (start .basic h)
      ((List.range n).flatMap fun k => [.append ((validMessage .basic).take k), .process])
      = .ok [] := by decide +kernel
example : ∀ B ∈ [dbg, rel16], ∀ n ∈ List.range 9, callsAfter B (start .basicChecksum partialHandler)
      ((List.range n).flatMap fun k => [.append ((validMessage .basicChecksum).take k), .process])
      = .ok [] := by decide +kernel

/-- `CompleteMessage`. -/
example : ∀ B ∈ [dbg, rel16], ∀ h ∈ [partialHandler, parameterHandler],
    callsAfter B (start .basic h) [.append (validMessage .basic), .process] =
      .ok [⟨7, messageB, [[5], [10], [15]], true⟩] := by decide +kernel
example : ∀ B ∈ [dbg, rel16],
    callsAfter B (start .basicChecksum partialHandler)
      [.append (validMessage .basicChecksum), .process] =
      .ok [⟨7, messageB, [[5], [10], [15]], true⟩] := by decide +kernel

/-- `DifferentMessageSameSignature` and `ValidMessageButModifiedId`. The test checks before any
processing; processing afterwards still calls nothing for the partial handler. -/
example : ∀ B ∈ [dbg, rel16],
    callsAfter B (start .basic partialHandler) [.append ((validMessage .basic).set 1 3)] = .ok [] ∧
    callsAfter B (start .basic partialHandler) [.append ((validMessage .basic).set 1 3), .process]
      = .ok [] ∧
    callsAfter B (start .basicChecksum partialHandler)
      [.append ((validMessage .basicChecksum).set 1 3), .process] = .ok [] := by decide +kernel

/-! ### tests/RoundtripCommon.h -/

/-- Send with a `VectorBuffer`, check the length, receive, process: length of the buffer, what
`processMessages` returned, the last id, the calls that reached the handler. -/
def roundTrip (E : Envelope) (B : Build) (sent : Option (Res (List Byte))) :
    Option (Res (Nat × Obs × Option Byte × List UserCall)) :=
  sent.map fun r => do
    let bytes ← r
    let (w, os) ← (start E partialHandler).run B user 100 [.append bytes, .process]
    return (bytes.length, os.getLastD .unit, w.rx.getLastMessageId, w.userCalls)

/-- `send` of the contents to an empty vector. -/
def viaList (E : Envelope) (m : MsgType) (args : List (List Byte)) : Option (Res (List Byte)) :=
  send (my E) m vectorBuffer [] (List.zipWith Value.mk m.fields args)

/-- The parameter overload of `send` to an empty vector. -/
def viaOverload (E : Envelope) (m : MsgType) (args : List (List Byte)) :
    Option (Res (List Byte)) :=
  sendOverload (my E) m vectorBuffer [] args

/-- Contents used by the tests: 5, 10, 15 in the respective types (`float` little endian), nothing,
nine zeros. -/
def contents : List (MsgType × List (List Byte)) :=
  [(messageA, [[5], [10], [15, 0]]),
   (messageB, [[5], [10], [15]]),
   (messageC, [[0, 0, 0xA0, 0x40], [0, 0, 0x20, 0x41], [0, 0, 0x70, 0x41]]),
   (messageD, [[5], [10], [15]]),
   (emptyMessage, []),
   (maxArityMessage, List.replicate 9 [0])]

/-- What a round trip must give: one message is counted, the last id is the id of the message, the
handler sees exactly `MessageB` and `EmptyMessage`. -/
def expected (E : Envelope) (c : MsgType × List (List Byte)) :
    Option (Res (Nat × Obs × Option Byte × List UserCall)) :=
  some (.ok (sizeofBound (my E) c.1, .processed (.returned 1), messageId (my E) c.1,
    if c.1 ∈ [messageB, emptyMessage] then [⟨7, c.1, c.2, true⟩] else []))

example : ∀ E ∈ [Envelope.basic, .basicChecksum], ∀ B ∈ [dbg, rel16], ∀ c ∈ contents,
    decide (roundTrip E B (viaList E c.1 c.2) = expected E c) = true := by decide +kernel
example : ∀ E ∈ [Envelope.basic, .basicChecksum], ∀ B ∈ [dbg, rel16], ∀ c ∈ contents,
    decide (roundTrip E B (viaOverload E c.1 c.2) = expected E c) = true := by decide +kernel

end TT.Tests
