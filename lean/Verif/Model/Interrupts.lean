import Verif.Model.Receive

/-!
# `processMessages` interrupted by code that appends received bytes

On the target platforms bytes arrive in interrupt routines (util/ReceiveBuffer.h has no protection
against that). Here the main program calls `processMessages`, and between any two calls it makes on
its `EnvelopeReceiveBuffer` an interrupt routine may call `appendReceived`. Every place where an
interrupt may come is a `tick`, written where the source has a call; the calls are in the order of
the source.

Simplifications: handlers do not call back into the receiver and do not throw; a reference returned
by `buffer(i)` or `bufferFront()` is read together with the call that returned it; interrupts inside
a member function of `ReceiveBuffer` are left to the definitions at the end of this file.
-/

namespace TT

/-- The program: the receiver with its logs, the bytes still to arrive on the line, and for each of
the next places where an interrupt may come the number of bytes that have arrived there
(0: no interrupt). The receiver is Receiver.h:184-196. -/
structure IWorld (C : Collection) where
  w : World C
  line : List Byte
  ints : List Nat
deriving DecidableEq, Repr

namespace IWorld
variable {C : Collection}

/-- Bytes in the buffer and on the line: a bound on the number of loop iterations. `bufferSize` is
detail/types/EnvelopeReceiveBuffer.h:120-122. -/
def total (s : IWorld C) : Nat := s.w.rx.recv.bufferSize + s.line.length

/-- Replace the buffer. It is the data member of Receiver.h:185. -/
def setRecv (s : IWorld C) (e : ERB C) : IWorld C :=
  { s with w := { s.w with rx := { s.w.rx with recv := e } } }

/-- A place where the interrupt routine may run: it appends what has arrived, at most as much as
fits (`getBufferAvailableSpace()`). Calls Receiver.h:105-114. -/
def tick (B : Build) (s : IWorld C) : Res (IWorld C) :=
  match s.ints with
  | [] => .ok s
  | n :: ns => do
    let k := min n s.w.rx.getBufferAvailableSpace
    let w ← s.w.append B (s.line.take k)
    return { w := w, line := s.line.drop k, ints := ns }

/-- A call of a const member of the buffer, preceded by a place for an interrupt. The members are
detail/types/EnvelopeReceiveBuffer.h:120-153. -/
def ask {α : Type} (B : Build) (s : IWorld C) (f : ERB C → Res α) : Res (IWorld C × α) := do
  let s ← s.tick B
  let a ← f s.w.rx.recv
  return (s, a)

/-- A call of `bufferPopFront(n)`, preceded by a place for an interrupt. Calls
detail/types/EnvelopeReceiveBuffer.h:141-143. -/
def pop (B : Build) (s : IWorld C) (n : Nat) : Res (IWorld C) := do
  let s ← s.tick B
  let e ← s.w.rx.recv.bufferPopFront B n
  return s.setRecv e

/-- `bufferSize()`. Calls detail/types/EnvelopeReceiveBuffer.h:120-122. -/
def size (B : Build) (s : IWorld C) : Res (IWorld C × Nat) := s.ask B fun e => .ok e.bufferSize

/-- `bufferEmpty()`. Calls detail/types/EnvelopeReceiveBuffer.h:125-127. -/
def empty (B : Build) (s : IWorld C) : Res (IWorld C × Bool) := s.ask B fun e => .ok e.bufferEmpty

/-- `bufferFront()`. Calls detail/types/EnvelopeReceiveBuffer.h:130-137. -/
def front (B : Build) (s : IWorld C) : Res (IWorld C × Byte) := s.ask B fun e => e.bufferFront B

/-- `buffer(i)`. Calls detail/types/EnvelopeReceiveBuffer.h:146-153. -/
def at' (B : Build) (s : IWorld C) (i : Nat) : Res (IWorld C × Byte) :=
  s.ask B fun e => e.buffer B i

/-- As `skipToSOH`. Models envelopes/Basic.h:71-79 and envelopes/BasicChecksum.h:76-84. -/
def skip (B : Build) : Nat → IWorld C → Res (IWorld C)
  | 0, _ => .error .diverge
  | fuel + 1, s => do
    let (s, isEmpty) ← s.empty B
    if isEmpty then return s
    else
      let (s, c) ← s.front B
      if c ≠ SOH then
        let s ← s.pop B 1
        skip B fuel s
      else return s

/-- As `TT.popAndRetry`. Models detail/bases/EnvelopeBase.h:76-85; the assertion calls
`bufferEmpty()` in builds that have assertions. -/
def popAndRetry (B : Build) (retry : IWorld C → Res (IWorld C × Bool)) (s : IWorld C) :
    Res (IWorld C × Bool) := do
  let s ← (if B.debug then do
      let (s, isEmpty) ← s.empty B
      assertMsg B (!isEmpty)
      return s
    else (.ok s : Res (IWorld C)))
  let (s, isEmpty) ← s.empty B
  if isEmpty then return (s, false)
  else
    let s ← s.pop B 1
    retry s

/-- As `TT.checksumLoop`. Models envelopes/BasicChecksum.h:126-130. -/
def checksum (B : Build) : Nat → Nat → IWorld C → Byte → Res (IWorld C × Byte)
  | 0, _, s, ck => .ok (s, ck)
  | n + 1, i, s, ck => do
    let (s, v) ← s.at' B i
    let ck ← checksumComputer.writeByte ck v
    checksum B n (i + 1) s ck

/-- The end of `checkBufferForMessage`: is the message of length `n` at the front well-formed?
Models envelopes/Basic.h:114-122 and envelopes/BasicChecksum.h:119-146. -/
def ending (B : Build) (s : IWorld C) (n : Nat) : Res (IWorld C × Bool) :=
  match C.envelope with
  | .basic => do
    let (s, e2) ← s.at' B (subT (recvBufferSize C) n 2)
    if e2 ≠ ETX then return (s, false)
    else
      let (s, e1) ← s.at' B (subT (recvBufferSize C) n 1)
      return (s, decide (e1 = EOT))
  | .basicChecksum => do
    let (s, e3) ← s.at' B (subT (recvBufferSize C) n 3)
    if e3 ≠ ETX then return (s, false)
    else
      let (s, e1) ← s.at' B (subT (recvBufferSize C) n 1)
      if e1 ≠ EOT then return (s, false)
      else
        let (s, ck) ← checksum B (n - 2) 0 s checksumInit
        let (s, fromMessage) ← s.at' B (subT (recvBufferSize C) n 2)
        return (s, decide (ck = fromMessage))

/-- As `ERB.checkDepth`. Models envelopes/Basic.h:68-123 and envelopes/BasicChecksum.h:73-147, which
differ in their ends only. -/
def check (B : Build) : Nat → IWorld C → Res (IWorld C × Bool)
  | 0, _ => .error .diverge
  | depth + 1, s => do
    let s ← skip B (s.total + 1) s
    let (s, n) ← s.size B
    if n < 2 then return (s, false)
    else
      let (s, id) ← s.at' B 1
      let s := s.setRecv (s.w.rx.recv.setCurrentMessageId id)
      if !s.w.rx.recv.isCurrentMessageIdValid then popAndRetry B (check B depth) s
      else
        let (s, n) ← s.size B
        if n < 3 then return (s, false)
        else
          let (s, c2) ← s.at' B 2
          if c2 ≠ STX then popAndRetry B (check B depth) s
          else
            let msgLength ← s.w.rx.recv.getMessageLength B
            let (s, n) ← s.size B
            if n < msgLength then return (s, false)
            else
              let (s, good) ← s.ending B msgLength
              if good then return (s, true)
              else popAndRetry B (check B depth) s

/-- As `ERB.checkBufferForMessage`. Models detail/types/EnvelopeReceiveBuffer.h:93-96. -/
def checkBufferForMessage (B : Build) (s : IWorld C) : Res (IWorld C × Bool) :=
  check B (s.total + 1) s

/-- As `ERB.popMessage`. Models detail/types/EnvelopeReceiveBuffer.h:106-110. -/
def popMessage (B : Build) (s : IWorld C) : Res (IWorld C) := do
  let s ← (if B.debug then do
      let (s, ok) ← s.checkBufferForMessage B
      assertMsg B ok
      return s
    else (.ok s : Res (IWorld C)))
  let n ← s.w.rx.recv.getMessageLength B
  let s ← s.pop B n
  return s.setRecv { s.w.rx.recv with currentMessageId := none }

/-- `(*_invoker)(id, _functorPointer, getDataIterator())`: the iterator is made first, the fields are
read through it later. `late`: may an interrupt come in between? If so the fields are read from
where the iterator pointed to, out of what is in the array by then. Models Receiver.h:146 and, as
`Receiver.invoke`, Receiver.h:167-177. -/
def invoke (B : Build) (late : Bool) (s : IWorld C) (id : Byte) :
    Res (IWorld C × Option Invocation) := do
  let s ← s.tick B
  let it := s.w.rx.recv.buf.begin_
  let s ← (if late then s.tick B else (.ok s : Res (IWorld C)))
  let b := { s.w.rx.recv.buf with begin_ := it }
  let rx : Receiver C := { s.w.rx with recv := { s.w.rx.recv with buf := b } }
  let i ← rx.invoke id
  return (s, i)

/-- As `World.processLoop`. Models Receiver.h:139-154; the number of messages is left out. An
interrupt may come while the handler runs: that is the first place of `popMessage`. -/
def loop (B : Build) (late : Bool) : Nat → IWorld C → Res (IWorld C)
  | 0, _ => .error .diverge
  | fuel + 1, s => do
    let (s, found) ← s.checkBufferForMessage B
    if !found then return s
    else
      let id ← s.w.rx.recv.getCurrentMessageId B
      let s := { s with w := { s.w with rx := { s.w.rx with lastMessageId := some id } } }
      let (s, i?) ← s.invoke B late id
      let s := { s with w := { s.w with trace := s.w.trace ++ i?.toList } }
      let s ← s.popMessage B
      loop B late fuel s

/-- As `World.processMessages`. Models Receiver.h:134-155. -/
def processMessages (B : Build) (late : Bool) (s : IWorld C) : Res (IWorld C) :=
  if !s.w.rx.hasHandler then .ok s
  else loop B late (s.total + 1) s

/-- The main loop of a program: call `processMessages` again and again; each call comes with the
interrupts during it. The body of a main loop calls Receiver.h:134-155. -/
def serve (B : Build) (late : Bool) : List (List Nat) → IWorld C → Res (IWorld C)
  | [], s => .ok s
  | r :: rs, s => do
    let s ← processMessages B late { s with ints := r }
    serve B late rs s

/-- The program at its start: a receiver constructed with a handler, nothing received yet, `bytes`
going to arrive. Models Receiver.h:74-77. -/
def start (C : Collection) (h : Handler) (bytes : List Byte) : IWorld C :=
  { w := { rx := Receiver.newWith C h, trace := [], fed := [] }, line := bytes, ints := [] }

end IWorld

/-! ### Interrupts inside members of `ReceiveBuffer` -/

namespace RB
variable {cap : Nat}

/-- `size()` with an interrupt that appends `xs`, after `_pastEnd` has been read and before `_begin`
is. Models util/ReceiveBuffer.h:124-126. -/
def sizeInterrupted (B : Build) (b : RB cap) (xs : List Byte) : Res (RB cap × Nat) := do
  let pastEnd := b.pastEnd
  let b ← b.pushBackRange B xs
  return (b, subT cap pastEnd b.begin_)

/-- The element access of `operator[]` with an interrupt that appends `xs`, after `adjusted_index`
and before the array is read. Models util/ReceiveBuffer.h:149-152 and 305-307. -/
def getInterrupted (B : Build) (b : RB cap) (i : Nat) (xs : List Byte) : Res (RB cap × Byte) := do
  assertMsg B (decide (i < b.size))
  let a := b.adjustedIndex i
  let b ← b.pushBackRange B xs
  let v ← rawGet b.contents a
  return (b, v)

/-- `pop_front(k + n)` with an interrupt that appends `xs` between two iterations of its loop. Models
util/ReceiveBuffer.h:218-224. -/
def popBetween (B : Build) (b : RB cap) (k n : Nat) (xs : List Byte) : Res (RB cap) := do
  let _ ← b.front B
  let b ← popFrontLoop B b k
  let b ← b.pushBackRange B xs
  popFrontLoop B b n

/-- `increment_begin()` with an interrupt that appends `xs`, after `_begin` has been read and before
the incremented value is written. Models util/ReceiveBuffer.h:330-333. -/
def incrementInterrupted (B : Build) (b : RB cap) (xs : List Byte) : Res (RB cap) := do
  assertMsg B (decide (b.begin_ < b.pastEnd))
  let begin_ := b.begin_
  let b ← b.pushBackRange B xs
  return { b with begin_ := trunc cap (begin_ + 1) }

end RB

end TT
