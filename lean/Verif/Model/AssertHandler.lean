import Verif.Model.Receive

/-!
# Failed assertions that throw

With `BOOST_ENABLE_ASSERT_HANDLER` a failed assertion calls a function that the user defines
(util/BoostAssertMsg.h:48-60) instead of aborting. In this file that function throws an exception. The
functions below are those of `Verif.Model.ReceiveBuffer` and `Verif.Model.Receive` with assertions evaluated;
where an assertion fails they return the object as it is at that point and the flag `true`.

Simplification: assertions inside `checkBufferForMessage`, `getMessageLength`, `pop_front` and
`bufferFromExternalFunctorRef` stay faults (`abort`). The property proved of this model includes that they
never fail.
-/

namespace TT

namespace RB
variable {cap : Nat}

/-- `ensure_space(n)`. Models util/ReceiveBuffer.h:285-298; the flag: the assertion of line 295 has thrown. -/
def ensureSpaceT (B : Build) (b : RB cap) (n : Nat) : Res (RB cap × Bool) :=
  let b := if b.empty then { b with begin_ := 0, pastEnd := 0 } else b
  if promAdd B cap b.pastEnd n ≤ cap then .ok (b, false)
  else if promAdd B cap b.size n ≤ cap then do
    let b ← b.slideContentsForward
    return (b, false)
  else .ok (b, true)

/-- `push_back(input_begin, input_end)`. Models util/ReceiveBuffer.h:175-182 and 342-345; the flag: an
assertion has thrown. -/
def pushBackRangeT (B : Build) (b : RB cap) (xs : List Byte) : Res (RB cap × Bool) := do
  let (b, thrown) ← b.ensureSpaceT B (trunc cap xs.length)
  if thrown then return (b, true)
  let l ← writeAt b.contents b.pastEnd xs
  let b := { b with pastEnd := trunc cap (b.pastEnd + xs.length), contents := l }
  return (b, !(decide (b.begin_ ≤ b.pastEnd) && decide (b.pastEnd ≤ cap)))

end RB

/-- `popMessage()`. Models detail/types/EnvelopeReceiveBuffer.h:106-110; the flag: the assertion of line 107
has thrown, after the call in its argument has been made. -/
def ERB.popMessageT {C : Collection} (B : Build) (r : ERB C) : Res (ERB C × Bool) := do
  let (r, ok) ← r.checkBufferForMessage B
  if !ok then return (r, true)
  let n ← r.getMessageLength B
  let r ← r.bufferPopFront B n
  return ({ r with currentMessageId := none }, false)

namespace World
variable {C : Collection}

/-- `appendReceived`. Models Receiver.h:111-114. Bytes of an append that throws are not part of the log. -/
def appendT (B : Build) (w : World C) (xs : List Byte) : Res (World C × Bool) := do
  let (b, thrown) ← w.rx.recv.buf.pushBackRangeT B xs
  return ({ w with rx := { w.rx with recv := { w.rx.recv with buf := b } },
                   fed := if thrown then w.fed else w.fed ++ xs }, thrown)

/-- The calls a handler makes on its own receiver. `caught`: does the handler catch the exception, thrown after
the given calls of user code and with the given calls on the receiver still to make? If not it leaves the
handler. The calls are members of Receiver.h:86-155. -/
def runActsT (B : Build) (nested : World C → Res (World C × Outcome))
    (caught : List UserCall → List Act → Bool) : World C → List Act → Res (World C × Bool)
  | w, [] => .ok (w, false)
  | w, .append xs :: as => do
    let (w, thrown) ← w.appendT B xs
    if thrown && !caught w.userCalls as then return (w, true)
    else runActsT B nested caught w as
  | w, .setHandler h :: as => runActsT B nested caught { w with rx := w.rx.setHandler h } as
  | w, .clearHandler :: as => runActsT B nested caught { w with rx := w.rx.clearHandler } as
  | w, .process :: as => do
    let (w, o) ← nested w
    if decide (o = .threw) && !caught w.userCalls as then return (w, true)
    else runActsT B nested caught w as

/-- A call on the handler object, as `callHandler`. Models detail/operations/DeserializeToFusion.h:107-112
and ParameterHandlerBase.h:49-56. -/
def callHandlerT (B : Build) (user : UserCode) (caught : List UserCall → List Act → Bool)
    (nested : World C → Res (World C × Outcome)) (w : World C) (i : Invocation) :
    Res (World C × Bool) := do
  let w := { w with trace := w.trace ++ [i] }
  match dispatch i with
  | none => return (w, false)
  | some _ =>
    let reaction := user w.userCalls w.rx.getBufferAvailableSpace
    let (w, thrown) ← runActsT B nested caught w reaction.acts
    return (w, thrown || reaction.throws)

/-- The loop of `processMessages`. Models Receiver.h:139-154. -/
def processLoopT (B : Build) (user : UserCode) (caught : List UserCall → List Act → Bool) :
    Nat → World C → Byte → Res (World C × Outcome)
  | 0, _, _ => .error .diverge
  | fuel + 1, w, msgCount => do
    let (e, found) ← w.rx.recv.checkBufferForMessage B
    let w := { w with rx := { w.rx with recv := e } }
    if !found then return (w, .returned msgCount)
    else
      let id ← w.rx.recv.getCurrentMessageId B
      let w := { w with rx := { w.rx with lastMessageId := some id } }
      let i? ← w.rx.invoke id
      let (w, thrown) ← (match i? with
        | none => (.ok (w, false) : Res (World C × Bool))
        | some i => callHandlerT B user caught
            (fun w => if !w.rx.hasHandler then .ok (w, .returned 0)
                      else processLoopT B user caught fuel w 0) w i)
      if thrown then return (w, .threw)
      else
        let (e, thrown) ← w.rx.recv.popMessageT B
        let w := { w with rx := { w.rx with recv := e } }
        if thrown then return (w, .threw)
        else processLoopT B user caught fuel w (msgCount + 1)

/-- `processMessages()`. Models Receiver.h:134-155. -/
def processMessagesT (B : Build) (user : UserCode) (caught : List UserCall → List Act → Bool)
    (fuel : Nat) (w : World C) : Res (World C × Outcome) :=
  if !w.rx.hasHandler then .ok (w, .returned 0)
  else processLoopT B user caught fuel w 0

/-- One API call by a program that catches what it throws; `none`: `appendReceived` threw.
Models Receiver.h:86-155. -/
def stepT (B : Build) (user : UserCode) (caught : List UserCall → List Act → Bool) (fuel : Nat)
    (w : World C) : Op → Res (World C × Option Obs)
  | .append xs => do
    let (w, thrown) ← w.appendT B xs
    return (w, if thrown then none else some .unit)
  | .process => do
    let (w, o) ← w.processMessagesT B user caught fuel
    return (w, some (.processed o))
  | op => do
    let (w, o) ← w.step B user fuel op
    return (w, some o)

/-- A history of API calls by a program that catches all exceptions and goes on. Uses of Receiver.h:86-155. -/
def runT (B : Build) (user : UserCode) (caught : List UserCall → List Act → Bool) (fuel : Nat) :
    World C → List Op → Res (World C × List (Option Obs))
  | w, [] => .ok (w, [])
  | w, op :: ops => do
    let (w, o) ← w.stepT B user caught fuel op
    let (w, os) ← runT B user caught fuel w ops
    return (w, o :: os)

end World
end TT
