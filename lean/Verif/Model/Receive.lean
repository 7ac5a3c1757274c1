import Verif.Model.ReceiveBuffer
import Verif.Model.Transmit

/-!
# Receiving: `EnvelopeReceiveBuffer`, the envelopes' `checkBufferForMessage`, deserialization,
`Receiver`, handlers and receive adapters
-/

namespace TT

/-- Data members of `EnvelopeReceiveBuffer<Collection>`.
Models detail/types/EnvelopeReceiveBuffer.h:47, 205-208. -/
structure ERB (C : Collection) where
  currentMessageId : Option Byte
  buf : RB (recvBufferSize C)
deriving DecidableEq, Repr

namespace ERB
variable {C : Collection}

/-- Default construction (`boost::none`, empty buffer).
Models detail/types/EnvelopeReceiveBuffer.h:205-208. -/
def new (C : Collection) : ERB C := { currentMessageId := none, buf := RB.new _ }

/-- `bufferAvailableSpace()`. Models detail/types/EnvelopeReceiveBuffer.h:72-74. -/
def bufferAvailableSpace (r : ERB C) : Nat := subT (recvBufferSize C) r.buf.maxSize r.buf.size

/-- `bufferAppend(begin, end)`. Models detail/types/EnvelopeReceiveBuffer.h:77-80. -/
def bufferAppend (B : Build) (r : ERB C) (xs : List Byte) : Res (ERB C) := do
  let b ← r.buf.pushBackRange B xs
  return { r with buf := b }

/-- `bufferAppend(element)`. Models detail/types/EnvelopeReceiveBuffer.h:86-88. -/
def bufferAppendOne (B : Build) (r : ERB C) (x : Byte) : Res (ERB C) := do
  let b ← r.buf.pushBack B x
  return { r with buf := b }

/-- `bufferSize()`. Models detail/types/EnvelopeReceiveBuffer.h:120-122. -/
def bufferSize (r : ERB C) : Nat := r.buf.size

/-- `bufferEmpty()`. Models detail/types/EnvelopeReceiveBuffer.h:125-127. -/
def bufferEmpty (r : ERB C) : Bool := r.buf.empty

/-- `bufferFront()`. Models detail/types/EnvelopeReceiveBuffer.h:130-137. -/
def bufferFront (B : Build) (r : ERB C) : Res Byte := r.buf.front B

/-- `bufferPopFront(count)`; the returned element is never used by the callers.
Models detail/types/EnvelopeReceiveBuffer.h:141-143. -/
def bufferPopFront (B : Build) (r : ERB C) (count : Nat) : Res (ERB C) := do
  let (b, _) ← r.buf.popFront B count
  return { r with buf := b }

/-- `buffer(i)`. Models detail/types/EnvelopeReceiveBuffer.h:146-153. -/
def buffer (B : Build) (r : ERB C) (i : Nat) : Res Byte := r.buf.get B i

/-- `bufferFromFunctorRef`. Models detail/types/EnvelopeReceiveBuffer.h:159-162. -/
def bufferFromFunctorRef (B : Build) (r : ERB C) (f : Byte → RB.DeviceReply) (n : Nat) :
    Res (ERB C × Nat) := do
  let (b, k) ← r.buf.bufferFromExternalFunctorRef B f n
  return ({ r with buf := b }, k)

/-- `setCurrentMessageId(id)`. Models detail/types/EnvelopeReceiveBuffer.h:171-177. -/
def setCurrentMessageId (r : ERB C) (id : Byte) : ERB C :=
  if isIdValid C id then { r with currentMessageId := some id }
  else { r with currentMessageId := none }

/-- `isCurrentMessageIdValid()`. Models detail/types/EnvelopeReceiveBuffer.h:182-188. -/
def isCurrentMessageIdValid (r : ERB C) : Bool := r.currentMessageId.isSome

/-- `getCurrentMessageId()`: dereferences the optional; undefined if it is empty
(`boost::optional` asserts it in debug builds).
Models detail/types/EnvelopeReceiveBuffer.h:193-195. -/
def getCurrentMessageId (B : Build) (r : ERB C) : Res Byte := do
  assertMsg B r.currentMessageId.isSome
  match r.currentMessageId with
  | some id => .ok id
  | none => .error .ub

/-- `getMessageLength()`. Models detail/types/EnvelopeReceiveBuffer.h:200-203. -/
def getMessageLength (B : Build) (r : ERB C) : Res Nat := do
  assertMsg B r.isCurrentMessageIdValid
  let id ← r.getCurrentMessageId B
  TT.getMessageLength C id

/-- `getDataIterator()`: absolute array index of the first payload byte.
Models detail/types/EnvelopeReceiveBuffer.h:100-102. -/
def getDataIterator (r : ERB C) : Nat := r.buf.begin_ + C.envelope.dataOffset

end ERB

/-- Loop that drops bytes until a start code is at the front.
Models envelopes/Basic.h:71-79 and, textually identical, envelopes/BasicChecksum.h:76-84. -/
def skipToSOH {C : Collection} (B : Build) : Nat → ERB C → Res (ERB C)
  | 0, _ => .error .diverge
  | fuel + 1, r =>
    if r.bufferEmpty then .ok r
    else do
      let c ← r.bufferFront B
      if c ≠ SOH then
        let r ← r.bufferPopFront B 1
        skipToSOH B fuel r
      else .ok r

/-- `EnvelopeBase::popAndRetry`; `retry` is the recursive call of `checkBufferForMessage`.
Models detail/bases/EnvelopeBase.h:76-85. -/
def popAndRetry {C : Collection} (B : Build) (retry : ERB C → Res (ERB C × Bool)) (r : ERB C) :
    Res (ERB C × Bool) := do
  assertMsg B (!r.bufferEmpty)
  if r.bufferEmpty then return (r, false)
  let r ← r.bufferPopFront B 1
  retry r

/-- `Basic::checkBufferForMessage`. Models envelopes/Basic.h:68-123. The first argument bounds the
depth of the recursion through `popAndRetry`.
`msgLength - 2` is formed on the message size type; the index parameter is the buffer size type. -/
def checkBasic {C : Collection} (B : Build) : Nat → ERB C → Res (ERB C × Bool)
  | 0, _ => .error .diverge
  | depth + 1, r => do
    let r ← skipToSOH B (r.bufferSize + 1) r
    if r.bufferSize < 2 then return (r, false)
    let idByte ← r.buffer B 1
    let r := r.setCurrentMessageId idByte
    if !r.isCurrentMessageIdValid then popAndRetry B (checkBasic B depth) r
    else if r.bufferSize < 3 then return (r, false)
    else
      let c2 ← r.buffer B 2
      if c2 ≠ STX then popAndRetry B (checkBasic B depth) r
      else
        let msgLength ← r.getMessageLength B
        if r.bufferSize < msgLength then return (r, false)
        else
          let e2 ← r.buffer B (subT (recvBufferSize C) msgLength 2)
          -- `||` evaluates its right operand only if the left one is false
          let bad ← (if e2 ≠ ETX then (.ok true : Res Bool) else do
            let e1 ← r.buffer B (subT (recvBufferSize C) msgLength 1)
            return decide (e1 ≠ EOT))
          if bad then popAndRetry B (checkBasic B depth) r
          else return (r, true)

/-- The receive-side checksum loop `for (i = 0; i < msgLength - 2; ++i) checksum.output(buffer(i))`.
Models envelopes/BasicChecksum.h:126-130; counts `n` remaining iterations from index `i`. -/
def checksumLoop {C : Collection} (B : Build) (r : ERB C) (ck : Byte) (i : Nat) : Nat → Res Byte
  | 0 => .ok ck
  | n + 1 => do
    let v ← r.buffer B i
    let ck ← checksumComputer.writeByte ck v
    checksumLoop B r ck (i + 1) n

/-- `BasicChecksum::checkBufferForMessage`. Models envelopes/BasicChecksum.h:73-147. -/
def checkChecksum {C : Collection} (B : Build) : Nat → ERB C → Res (ERB C × Bool)
  | 0, _ => .error .diverge
  | depth + 1, r => do
    let r ← skipToSOH B (r.bufferSize + 1) r
    if r.bufferSize < 2 then return (r, false)
    let idByte ← r.buffer B 1
    let r := r.setCurrentMessageId idByte
    if !r.isCurrentMessageIdValid then popAndRetry B (checkChecksum B depth) r
    else if r.bufferSize < 3 then return (r, false)
    else
      let c2 ← r.buffer B 2
      if c2 ≠ STX then popAndRetry B (checkChecksum B depth) r
      else
        let msgLength ← r.getMessageLength B
        if r.bufferSize < msgLength then return (r, false)
        else
          let e3 ← r.buffer B (subT (recvBufferSize C) msgLength 3)
          let bad ← (if e3 ≠ ETX then (.ok true : Res Bool) else do
            let e1 ← r.buffer B (subT (recvBufferSize C) msgLength 1)
            return decide (e1 ≠ EOT))
          if bad then popAndRetry B (checkChecksum B depth) r
          else
            let ck ← checksumLoop B r checksumInit 0 (msgLength - 2)
            let fromMessage ← r.buffer B (subT (recvBufferSize C) msgLength 2)
            if ck ≠ fromMessage then popAndRetry B (checkChecksum B depth) r
            else return (r, true)

namespace ERB
variable {C : Collection}

/-- `checkBufferForMessage` with an explicit bound on the recursion depth, dispatching to the
envelope of the collection. Models detail/types/EnvelopeReceiveBuffer.h:93-96 and
detail/bases/EnvelopeBase.h:70-74. -/
def checkDepth (B : Build) (depth : Nat) (r : ERB C) : Res (ERB C × Bool) :=
  match C.envelope with
  | .basic => checkBasic B depth r
  | .basicChecksum => checkChecksum B depth r

/-- `checkBufferForMessage()`. The recursion budget is the number of buffered bytes plus one
(`check_depth_irrelevant` shows that a larger budget never changes the result). Models
detail/types/EnvelopeReceiveBuffer.h:93-96. -/
def checkBufferForMessage (B : Build) (r : ERB C) : Res (ERB C × Bool) :=
  r.checkDepth B (r.bufferSize + 1)

/-- `popMessage()`. Models detail/types/EnvelopeReceiveBuffer.h:106-110. The argument of the
assertion is a call with side effects; it is made only in builds with assertions. -/
def popMessage (B : Build) (r : ERB C) : Res (ERB C) := do
  let r ← (if B.debug then do
      let (r, ok) ← r.checkBufferForMessage B
      assertMsg B ok
      return r
    else .ok r)
  let n ← r.getMessageLength B
  let r ← r.bufferPopFront B n
  return { r with currentMessageId := none }

end ERB

/-! ### Deserialization -/

/-- `BitwiseCopyDeserializer::Unbuffer<T>::apply(it)`: copies `sizeof(T)` bytes out of the receive
buffer's array at index `it`. Models serializers/BitwiseCopySerialization.h:48-68. -/
def unbuffer (contents : List Byte) (it : Nat) : FieldType → Res (List Byte × Nat)
  | .uint8 => do
    let b ← RB.rawGet contents it
    return ([b], it + 1)
  | .pod _ n =>
    if it + n ≤ contents.length then .ok ((contents.drop it).take n, it + n) else .error .ub

/-- `Deserialize<...>::apply`: unbuffer the fields from left to right, appending each to the
sequence built so far. Models detail/operations/DeserializeToFusion.h:64-94. -/
def deserialize (contents : List Byte) : Nat → List FieldType → List (List Byte) →
    Res (List (List Byte))
  | _, [], acc => .ok acc
  | it, f :: fs, acc => do
    let (v, it) ← unbuffer contents it f
    deserialize contents it fs (acc ++ [v])

/-! ### Handlers -/

/-- How the user's handler class is built.

* `functor`            : any functor with `operator()(Message const&, Sequence const&)` for all types;
* `parameterBase`      : derives from `ParameterHandlerBase` (ParameterHandlerBase.h:46-61);
* `partialBase ms`     : derives from `PartialHandlerBase` (PartialHandlerBase.h:47-82) and itself
                         declares overloads, with exactly the fields' types, for the types in `ms`. -/
inductive HandlerKind where
  | functor
  | parameterBase
  | partialBase (overloads : List MsgType)
deriving DecidableEq, Repr

/-- A handler object: its class and its address. Models the object of Receiver.h:66-77 that
`_functorPointer` (192-195) points to. -/
structure Handler where
  kind : HandlerKind
  obj : Nat
deriving DecidableEq, Repr

/-- One call `f(MessageType(), sequence)` made by the receiver on a handler object
(detail/operations/DeserializeToFusion.h:107-112). `args` are the object representations of the
deserialized fields. -/
structure Invocation where
  handler : Handler
  msg : MsgType
  args : List (List Byte)
deriving DecidableEq, Repr

/-- A call that reaches code written by the user: `spread` tells whether the fields arrive as
separate parameters. The calls of ParameterHandlerBase.h:55 and detail/operations/DeserializeToFusion.h:107-112. -/
structure UserCall where
  obj : Nat
  msg : MsgType
  args : List (List Byte)
  spread : Bool
deriving DecidableEq, Repr

/-- What a call on the handler object turns into. Models ParameterHandlerBase.h:49-56 (prepend the
message tag, spread the sequence over the parameters) and PartialHandlerBase.h:52-80 (empty
default overloads, which win unless the derived class has an exactly matching one). -/
def dispatch (i : Invocation) : Option UserCall :=
  match i.handler.kind with
  | .functor => some ⟨i.handler.obj, i.msg, i.args, false⟩
  | .parameterBase => some ⟨i.handler.obj, i.msg, i.args, true⟩
  | .partialBase ms => if i.msg ∈ ms then some ⟨i.handler.obj, i.msg, i.args, true⟩ else none

/-- What user code may do to the receiver from inside a handler call. The calls are members of
Receiver.h:86-155. -/
inductive Act where
  /-- `receiver.appendReceived(...)` -/
  | append (xs : List Byte)
  /-- `receiver.setHandler(h)` -/
  | setHandler (h : Handler)
  /-- `receiver.clearHandler()` -/
  | clearHandler
  /-- `receiver.processMessages()` -/
  | process
deriving DecidableEq, Repr

/-- Behaviour of one handler call: calls back into the receiver, then returns or throws. User code, called
in detail/operations/DeserializeToFusion.h:107-112. -/
structure Reaction where
  acts : List Act
  throws : Bool
deriving DecidableEq, Repr

/-- All user code: decides its reaction from everything it has been called with so far (including
the current call, last in the list) and from the free space it can query. Called in
detail/operations/DeserializeToFusion.h:107-112. -/
abbrev UserCode := List UserCall → Nat → Reaction

/-! ### `Receiver` -/

/-- Data members of `Receiver<MessageCollection>`. Models Receiver.h:184-196.
`_invoker` is represented by the handler class it was instantiated with, `_functorPointer` by the
address of the handler object. -/
structure Receiver (C : Collection) where
  recv : ERB C
  invoker : Option HandlerKind
  functorPointer : Option Nat
  lastMessageId : Option Byte
deriving DecidableEq, Repr

/-- The receiver together with two ghost logs: every functor call made so far, and every byte
handed to the receiver so far. The logs are never read by the modelled code, except that user code
sees the calls it received. The object is Receiver.h:184-196. -/
structure World (C : Collection) where
  rx : Receiver C
  trace : List Invocation
  fed : List Byte
deriving DecidableEq, Repr

namespace Receiver
variable {C : Collection}

/-- `Receiver()`. Models Receiver.h:80-82. -/
def new (C : Collection) : Receiver C :=
  { recv := ERB.new C, invoker := none, functorPointer := none, lastMessageId := none }

/-- `setHandler(handler)`. Models Receiver.h:86-90. -/
def setHandler (r : Receiver C) (h : Handler) : Receiver C :=
  { r with invoker := some h.kind, functorPointer := some h.obj }

/-- `Receiver(handler)`. Models Receiver.h:74-77. -/
def newWith (C : Collection) (h : Handler) : Receiver C :=
  { recv := ERB.new C, invoker := some h.kind, functorPointer := some h.obj,
    lastMessageId := none }

/-- `clearHandler()`. Models Receiver.h:93-96. -/
def clearHandler (r : Receiver C) : Receiver C :=
  { r with invoker := none, functorPointer := none }

/-- `hasHandler()`. Models Receiver.h:99-101. -/
def hasHandler (r : Receiver C) : Bool := r.functorPointer.isSome

/-- `getBufferAvailableSpace()`. Models Receiver.h:105-107. -/
def getBufferAvailableSpace (r : Receiver C) : Nat := r.recv.bufferAvailableSpace

/-- `appendReceived(begin, end)`. Models Receiver.h:111-114. -/
def appendReceived (B : Build) (r : Receiver C) (xs : List Byte) : Res (Receiver C) := do
  let e ← r.recv.bufferAppend B xs
  return { r with recv := e }

/-- A receive adapter: what `getNumAvailable()` reports and what `receiveIntoBuffer(it, max)` does.
Models detail/bases/ReceiveAdapterBase.h:42-67. -/
structure Device where
  numAvailable : Byte
  receive : Byte → RB.DeviceReply

/-- `receiveFrom(adapter)`. Models Receiver.h:120-123. -/
def receiveFrom (B : Build) (r : Receiver C) (d : Device) : Res (Receiver C × Nat) := do
  let (e, n) ← r.recv.bufferFromFunctorRef B d.receive d.numAvailable.toNat
  return ({ r with recv := e }, n)

/-- `getLastMessageId()`. Models Receiver.h:126-128. -/
def getLastMessageId (r : Receiver C) : Option Byte := r.lastMessageId

/-- The implicitly generated copy constructor: member-wise, the buffer through its own copy
constructor (util/ReceiveBuffer.h:81-86). Models class `Receiver`, Receiver.h:58-197, and
`EnvelopeReceiveBuffer`, which declare none. -/
def copyConstruct (r : Receiver C) : Res (Receiver C) := do
  let b ← r.recv.buf.copyConstruct
  return { r with recv := { r.recv with buf := b } }

/-- `(*_invoker)(id, _functorPointer, it)`: a null function pointer or a null object is undefined;
otherwise the message type at the runtime id is looked up, its fields are deserialized and the
functor is called. `none`: no functor call happened.
Models Receiver.h:146, 167-177, detail/operations/DeserializeAndInvoke.h:39-45 and
detail/operations/DeserializeToFusion.h:96-126. -/
def invoke (r : Receiver C) (id : Byte) : Res (Option Invocation) :=
  match r.invoker, r.functorPointer with
  | some k, some o =>
    applyAt C.messages id
      (fun m => do
        let args ← deserialize r.recv.buf.contents r.recv.getDataIterator m.fields []
        return some ⟨⟨k, o⟩, m, args⟩)
      (.ok none)
  | _, _ => .error .ub

end Receiver

/-- How `processMessages` ended: with a count (`uint8_t`) or with an exception from user code. Models the
end of Receiver.h:134-155. -/
inductive Outcome where
  | returned (n : Byte)
  | threw
deriving DecidableEq, Repr

namespace World
variable {C : Collection}

/-- A fresh receiver, nothing fed, nothing called. Models Receiver.h:80-82. -/
def new (C : Collection) : World C := { rx := Receiver.new C, trace := [], fed := [] }

/-- The calls that reached user code. The calls of ParameterHandlerBase.h:55 and
detail/operations/DeserializeToFusion.h:107-112. -/
def userCalls (w : World C) : List UserCall := w.trace.filterMap dispatch

/-- `appendReceived` with the log of fed bytes. Models Receiver.h:111-114. -/
def append (B : Build) (w : World C) (xs : List Byte) : Res (World C) := do
  let r ← w.rx.appendReceived B xs
  return { w with rx := r, fed := w.fed ++ xs }

/-- Execute the calls a handler makes on its own receiver; `nested` is a nested
`processMessages()`. The flag tells whether an exception is propagating. The calls are members of
Receiver.h:86-155. -/
def runActs (B : Build) (nested : World C → Res (World C × Outcome)) :
    World C → List Act → Res (World C × Bool)
  | w, [] => .ok (w, false)
  | w, .append xs :: as => do
    let w ← w.append B xs
    runActs B nested w as
  | w, .setHandler h :: as => runActs B nested { w with rx := w.rx.setHandler h } as
  | w, .clearHandler :: as => runActs B nested { w with rx := w.rx.clearHandler } as
  | w, .process :: as => do
    let (w, o) ← nested w
    match o with
    | .threw => return (w, true)
    | .returned _ => runActs B nested w as

/-- Log the functor call, and if it reaches user code let that run. Models
detail/operations/DeserializeToFusion.h:107-112 and ParameterHandlerBase.h:49-56. -/
def callHandler (B : Build) (user : UserCode) (nested : World C → Res (World C × Outcome))
    (w : World C) (i : Invocation) : Res (World C × Bool) := do
  let w := { w with trace := w.trace ++ [i] }
  match dispatch i with
  | none => return (w, false)
  | some _ =>
    let reaction := user w.userCalls w.rx.getBufferAvailableSpace
    let (w, thrown) ← runActs B nested w reaction.acts
    return (w, thrown || reaction.throws)

/-- The loop of `processMessages`. Models Receiver.h:139-154. The fuel bounds loop iterations and
nesting. -/
def processLoop (B : Build) (user : UserCode) : Nat → World C → Byte → Res (World C × Outcome)
  | 0, _, _ => .error .diverge
  | fuel + 1, w, msgCount => do
    let (e, found) ← w.rx.recv.checkBufferForMessage B
    let w := { w with rx := { w.rx with recv := e } }
    if !found then return (w, .returned msgCount)
    else
      let id ← w.rx.recv.getCurrentMessageId B
      let w := { w with rx := { w.rx with lastMessageId := some id } }
      let i? ← w.rx.invoke id
      let (w, thrown) ← (match i? with
        | none => (.ok (w, false) : Res (World C × Bool))
        | some i => callHandler B user
            (fun w => if !w.rx.hasHandler then .ok (w, .returned 0)
                      else processLoop B user fuel w 0) w i)
      if thrown then return (w, .threw)
      else
        let e ← w.rx.recv.popMessage B
        processLoop B user fuel { w with rx := { w.rx with recv := e } } (msgCount + 1)

/-- `processMessages()`. Models Receiver.h:134-155. -/
def processMessages (B : Build) (user : UserCode) (fuel : Nat) (w : World C) :
    Res (World C × Outcome) :=
  if !w.rx.hasHandler then .ok (w, .returned 0)
  else processLoop B user fuel w 0

end World

/-! ### Histories of API calls -/

/-- One call on the public interface of `Receiver`. The functions are Receiver.h:86-155. -/
inductive Op where
  | append (xs : List Byte)
  | receiveFrom (numAvailable : Byte) (receive : Byte → RB.DeviceReply)
  | process
  | setHandler (h : Handler)
  | clearHandler
  /-- replace the receiver by a copy of itself -/
  | copy

/-- What the caller observes of one call. The results of the functions in Receiver.h:86-155. -/
inductive Obs where
  | unit
  | count (n : Nat)
  | processed (o : Outcome)
deriving DecidableEq, Repr

namespace World
variable {C : Collection}

/-- One API call. Models Receiver.h:86-155. The bytes an adapter delivered are the first
`ret` of those it wrote. -/
def step (B : Build) (user : UserCode) (fuel : Nat) (w : World C) : Op → Res (World C × Obs)
  | .append xs => do
    let w ← w.append B xs
    return (w, .unit)
  | .receiveFrom avail rcv => do
    let limit := min avail.toNat w.rx.getBufferAvailableSpace
    let reply := rcv (UInt8.ofNat limit)
    let (r, n) ← w.rx.receiveFrom B { numAvailable := avail, receive := rcv }
    return ({ w with rx := r, fed := w.fed ++ reply.written.take reply.ret.toNat }, .count n)
  | .process => do
    let (w, o) ← w.processMessages B user fuel
    return (w, .processed o)
  | .setHandler h => .ok ({ w with rx := w.rx.setHandler h }, .unit)
  | .clearHandler => .ok ({ w with rx := w.rx.clearHandler }, .unit)
  | .copy => do
    let r ← w.rx.copyConstruct
    return ({ w with rx := r }, .unit)

/-- A history of API calls, with everything observed. Uses of Receiver.h:86-155. -/
def run (B : Build) (user : UserCode) (fuel : Nat) : World C → List Op → Res (World C × List Obs)
  | w, [] => .ok (w, [])
  | w, op :: ops => do
    let (w, o) ← w.step B user fuel op
    let (w, os) ← run B user fuel w ops
    return (w, o :: os)

end World
end TT
