import Verif.Model.Receive

/-!
# Counting the work of `processMessages`

The functions below are the functions of `Verif.Model.Receive` once more, each call on the receive
buffer being counted. What they compute is the same (`checkCounted_costs`, `processMessagesCounted_erase`);
the counts are the subject of C76.

Counted as 1: `bufferEmpty`, `bufferSize`, `bufferFront`, `buffer(i)`, `setCurrentMessageId`,
`isCurrentMessageIdValid`, `getCurrentMessageId`, `getMessageLength`. Counted as `n + 1`:
`bufferPopFront(n)`, which is a loop (util/ReceiveBuffer.h:218-224). Counted as its size: the
deserialization of a message, that is, the number of bytes copied. Not counted: what user code does, and
constant numbers of machine instructions between those calls.
-/

namespace TT

/-- Computations that count. Auxiliary; what is counted is in the header of this file
(util/ReceiveBuffer.h:218-224 and the callers). -/
def Counted (α : Type) := Nat → Res (α × Nat)

namespace Counted

/-- A call that costs `n`. Auxiliary, as `Counted`; util/ReceiveBuffer.h:218-224. -/
def call {α : Type} (n : Nat) (x : Res α) : Counted α := fun c =>
  match x with
  | .ok a => .ok (a, c + n)
  | .error f => .error f

/-- Sequencing. Auxiliary, as `Counted`; the order of statements in Receiver.h:139-154. -/
def andThen {α β : Type} (x : Counted α) (f : α → Counted β) : Counted β := fun c =>
  match x c with
  | .ok (a, c) => f a c
  | .error f => .error f

/-- Run, starting with count `c`. Auxiliary, as `Counted`; Receiver.h:139-154. -/
def run {α : Type} (x : Counted α) (c : Nat) : Res (α × Nat) := x c

instance : Monad Counted where
  pure a := call 0 (.ok a)
  bind := andThen

end Counted

open Counted

variable {C : Collection}

/-- As `skipToSOH`. Models envelopes/Basic.h:71-79 and envelopes/BasicChecksum.h:76-84. -/
def skipToSOHCounted (B : Build) : Nat → ERB C → Counted (ERB C)
  | 0, _ => call 0 (.error .diverge)
  | fuel + 1, r => do
    let empty ← call 1 (.ok r.bufferEmpty)
    if empty then call 0 (.ok r)
    else do
      let c ← call 1 (r.bufferFront B)
      if c ≠ SOH then do
        let r ← call 2 (r.bufferPopFront B 1)
        skipToSOHCounted B fuel r
      else call 0 (.ok r)

/-- As `popAndRetry`. Models detail/bases/EnvelopeBase.h:76-85; the assertion is another call, made only
in builds with assertions. -/
def popAndRetryCounted (B : Build) (retry : ERB C → Counted (ERB C × Bool)) (r : ERB C) :
    Counted (ERB C × Bool) := do
  call (if B.debug then 1 else 0) (assertMsg B (!r.bufferEmpty))
  let empty ← call 1 (.ok r.bufferEmpty)
  if empty then call 0 (.ok (r, false))
  else do
    let r ← call 2 (r.bufferPopFront B 1)
    retry r

/-- As `checksumLoop`. Models envelopes/BasicChecksum.h:126-130. -/
def checksumLoopCounted (B : Build) (r : ERB C) (ck : Byte) (i : Nat) : Nat → Counted Byte
  | 0 => call 0 (.ok ck)
  | n + 1 => do
    let v ← call 1 (r.buffer B i)
    let ck ← call 0 (checksumComputer.writeByte ck v)
    checksumLoopCounted B r ck (i + 1) n

/-- The end of `checkBufferForMessage`: is the message of length `n` at the front well-formed?
Models envelopes/Basic.h:114-123 and envelopes/BasicChecksum.h:119-146. -/
def trailerCounted (B : Build) (r : ERB C) (n : Nat) : Counted Bool :=
  match C.envelope with
  | .basic => do
    let e2 ← call 1 (r.buffer B (subT (recvBufferSize C) n 2))
    if e2 ≠ ETX then call 0 (.ok false)
    else do
      let e1 ← call 1 (r.buffer B (subT (recvBufferSize C) n 1))
      call 0 (.ok (decide (e1 = EOT)))
  | .basicChecksum => do
    let e3 ← call 1 (r.buffer B (subT (recvBufferSize C) n 3))
    if e3 ≠ ETX then call 0 (.ok false)
    else do
      let e1 ← call 1 (r.buffer B (subT (recvBufferSize C) n 1))
      if e1 ≠ EOT then call 0 (.ok false)
      else do
        let ck ← checksumLoopCounted B r checksumInit 0 (n - 2)
        let fm ← call 1 (r.buffer B (subT (recvBufferSize C) n 2))
        call 0 (.ok (decide (ck = fm)))

/-- As `checkBasic` and `checkChecksum`, whose common shape this is.
Models envelopes/Basic.h:68-123 and envelopes/BasicChecksum.h:73-147. -/
def checkCounted (B : Build) : Nat → ERB C → Counted (ERB C × Bool)
  | 0, _ => call 0 (.error .diverge)
  | depth + 1, r => do
    let r ← skipToSOHCounted B (r.bufferSize + 1) r
    let size ← call 1 (.ok r.bufferSize)
    if size < 2 then call 0 (.ok (r, false))
    else do
      let idByte ← call 1 (r.buffer B 1)
      let r ← call 1 (.ok (r.setCurrentMessageId idByte))
      let valid ← call 1 (.ok r.isCurrentMessageIdValid)
      if !valid then popAndRetryCounted B (checkCounted B depth) r
      else do
        let size ← call 1 (.ok r.bufferSize)
        if size < 3 then call 0 (.ok (r, false))
        else do
          let c2 ← call 1 (r.buffer B 2)
          if c2 ≠ STX then popAndRetryCounted B (checkCounted B depth) r
          else do
            let msgLength ← call 1 (r.getMessageLength B)
            let size ← call 1 (.ok r.bufferSize)
            if size < msgLength then call 0 (.ok (r, false))
            else do
              let good ← trailerCounted B r msgLength
              if good then call 0 (.ok (r, true))
              else popAndRetryCounted B (checkCounted B depth) r

/-- As `ERB.checkBufferForMessage`. Models detail/types/EnvelopeReceiveBuffer.h:93-96. -/
def ERB.checkBufferForMessageCounted (B : Build) (r : ERB C) : Counted (ERB C × Bool) :=
  checkCounted B (r.bufferSize + 1) r

/-- As `ERB.popMessage`. Models detail/types/EnvelopeReceiveBuffer.h:106-110. -/
def ERB.popMessageCounted (B : Build) (r : ERB C) : Counted (ERB C) := do
  let r ← (if B.debug then do
      let (r, ok) ← r.checkBufferForMessageCounted B
      call 0 (assertMsg B ok)
      call 0 (.ok r)
    else call 0 (.ok r))
  let n ← call 1 (r.getMessageLength B)
  let r ← call (n + 1) (r.bufferPopFront B n)
  call 0 (.ok { r with currentMessageId := none })

namespace World

/-- As `World.runActs`; only nested `processMessages` calls cost something. Uses of Receiver.h:86-155. -/
def runActsCounted (B : Build) (nested : World C → Counted (World C × Outcome)) :
    World C → List Act → Counted (World C × Bool)
  | w, [] => call 0 (.ok (w, false))
  | w, .append xs :: as => do
    let w ← call 0 (w.append B xs)
    runActsCounted B nested w as
  | w, .setHandler h :: as => runActsCounted B nested { w with rx := w.rx.setHandler h } as
  | w, .clearHandler :: as => runActsCounted B nested { w with rx := w.rx.clearHandler } as
  | w, .process :: as => do
    let (w, o) ← nested w
    match o with
    | .threw => call 0 (.ok (w, true))
    | .returned _ => runActsCounted B nested w as

/-- As `World.callHandler`. Models detail/operations/DeserializeToFusion.h:107-112 and
ParameterHandlerBase.h:49-56. -/
def callHandlerCounted (B : Build) (user : UserCode) (nested : World C → Counted (World C × Outcome))
    (w : World C) (i : Invocation) : Counted (World C × Bool) := do
  let w := { w with trace := w.trace ++ [i] }
  match dispatch i with
  | none => call 0 (.ok (w, false))
  | some _ =>
    let reaction := user w.userCalls w.rx.getBufferAvailableSpace
    let (w, thrown) ← runActsCounted B nested w reaction.acts
    call 0 (.ok (w, thrown || reaction.throws))

/-- What the deserialization of one call copied: the bytes of all fields. Models
serializers/BitwiseCopySerialization.h:48-68. -/
def copied : Option Invocation → Nat
  | none => 0
  | some i => (i.args.map List.length).sum

/-- As `World.processLoop`. Models Receiver.h:139-154. -/
def processLoopCounted (B : Build) (user : UserCode) :
    Nat → World C → Byte → Counted (World C × Outcome)
  | 0, _, _ => call 0 (.error .diverge)
  | fuel + 1, w, msgCount => do
    let (e, found) ← w.rx.recv.checkBufferForMessageCounted B
    let w := { w with rx := { w.rx with recv := e } }
    if !found then call 0 (.ok (w, .returned msgCount))
    else do
      let id ← call 1 (w.rx.recv.getCurrentMessageId B)
      let w := { w with rx := { w.rx with lastMessageId := some id } }
      let i? ← call 0 (w.rx.invoke id)
      call (copied i?) (.ok ())
      let (w, thrown) ← (match i? with
        | none => call 0 (.ok (w, false))
        | some i => callHandlerCounted B user
            (fun w => if !w.rx.hasHandler then call 0 (.ok (w, .returned 0))
                      else processLoopCounted B user fuel w 0) w i)
      if thrown then call 0 (.ok (w, .threw))
      else do
        let e ← w.rx.recv.popMessageCounted B
        processLoopCounted B user fuel { w with rx := { w.rx with recv := e } } (msgCount + 1)

/-- As `World.processMessages`. Models Receiver.h:134-155. -/
def processMessagesCounted (B : Build) (user : UserCode) (fuel : Nat) (w : World C) :
    Counted (World C × Outcome) :=
  if !w.rx.hasHandler then call 0 (.ok (w, .returned 0))
  else processLoopCounted B user fuel w 0

/-- As `World.run`, counting what the `processMessages` calls cost. Uses of Receiver.h:86-155. -/
def runCounted (B : Build) (user : UserCode) (fuel : Nat) :
    World C → List Op → Counted (World C × List Obs)
  | w, [] => call 0 (.ok (w, []))
  | w, op :: ops => do
    let (w, o) ← (match op with
      | .process => do
        let (w, o) ← w.processMessagesCounted B user fuel
        call 0 (.ok (w, .processed o))
      | op => call 0 (w.step B user fuel op))
    let (w, os) ← runCounted B user fuel w ops
    call 0 (.ok (w, o :: os))

end World
end TT
