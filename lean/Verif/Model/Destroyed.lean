import Verif.Model.Receive

/-!
# Receivers destroyed by their own handlers

In this file a handler may destroy the receiver that called it. Every use of a data member of a destroyed
receiver is undefined. The rest is as in `Verif.Model.Receive`. The arguments of the handler are not part of
the receiver (detail/operations/DeserializeToFusion.h:96-126: the deserialized fields are a local object), so
the handler may still use them.

`destroys calls`: the handler, having been called with the last of these calls, destroys the receiver.
Simplifications: it does so after the calls it makes on the receiver and only if none of them throws; a receiver
is not destroyed by the program between calls, which ends its history.
-/

namespace TT
namespace World
variable {C : Collection}

/-- The calls a handler makes on its own receiver, as `runActs`, with a second flag: the receiver is gone. The
calls are members of Receiver.h:86-155. -/
def runActsX (B : Build) (nested : World C → Res (World C × Outcome × Bool)) :
    World C → List Act → Res (World C × Bool × Bool)
  | w, [] => .ok (w, false, false)
  | w, .append xs :: as => do
    let w ← w.append B xs
    runActsX B nested w as
  | w, .setHandler h :: as => runActsX B nested { w with rx := w.rx.setHandler h } as
  | w, .clearHandler :: as => runActsX B nested { w with rx := w.rx.clearHandler } as
  | w, .process :: as => do
    let (w, o, gone) ← nested w
    match o with
    | .threw => return (w, true, gone)
    | .returned _ => if gone then .error .ub else runActsX B nested w as

/-- A call on the handler object, as `callHandler`. Models detail/operations/DeserializeToFusion.h:107-112 and
ParameterHandlerBase.h:49-56. -/
def callHandlerX (B : Build) (user : UserCode) (destroys : List UserCall → Bool)
    (nested : World C → Res (World C × Outcome × Bool)) (w : World C) (i : Invocation) :
    Res (World C × Bool × Bool) := do
  let w := { w with trace := w.trace ++ [i] }
  match dispatch i with
  | none => return (w, false, false)
  | some _ =>
    let calls := w.userCalls
    let reaction := user calls w.rx.getBufferAvailableSpace
    let (w, thrown, gone) ← runActsX B nested w reaction.acts
    if thrown then return (w, true, gone)
    else return (w, reaction.throws, destroys calls)

/-- The loop of `processMessages`. Models Receiver.h:139-154: when the handler returns, `_recv.popMessage()`
(line 149) uses a data member; when it throws, no data member is used any more. -/
def processLoopX (B : Build) (user : UserCode) (destroys : List UserCall → Bool) :
    Nat → World C → Byte → Res (World C × Outcome × Bool)
  | 0, _, _ => .error .diverge
  | fuel + 1, w, msgCount => do
    let (e, found) ← w.rx.recv.checkBufferForMessage B
    let w := { w with rx := { w.rx with recv := e } }
    if !found then return (w, .returned msgCount, false)
    else
      let id ← w.rx.recv.getCurrentMessageId B
      let w := { w with rx := { w.rx with lastMessageId := some id } }
      let i? ← w.rx.invoke id
      let (w, thrown, gone) ← (match i? with
        | none => (.ok (w, false, false) : Res (World C × Bool × Bool))
        | some i => callHandlerX B user destroys
            (fun w => if !w.rx.hasHandler then .ok (w, .returned 0, false)
                      else processLoopX B user destroys fuel w 0) w i)
      if thrown then return (w, .threw, gone)
      else if gone then .error .ub
      else
        let e ← w.rx.recv.popMessage B
        processLoopX B user destroys fuel { w with rx := { w.rx with recv := e } } (msgCount + 1)

/-- `processMessages()`. Models Receiver.h:134-155. -/
def processMessagesX (B : Build) (user : UserCode) (destroys : List UserCall → Bool) (fuel : Nat)
    (w : World C) : Res (World C × Outcome × Bool) :=
  if !w.rx.hasHandler then .ok (w, .returned 0, false)
  else processLoopX B user destroys fuel w 0

/-- One API call. Models Receiver.h:86-155; only `processMessages` calls handlers. -/
def stepX (B : Build) (user : UserCode) (destroys : List UserCall → Bool) (fuel : Nat) (w : World C) :
    Op → Res (World C × Obs × Bool)
  | .process => do
    let (w, o, gone) ← w.processMessagesX B user destroys fuel
    return (w, .processed o, gone)
  | op => do
    let (w, o) ← w.step B user fuel op
    return (w, o, false)

/-- A history. Uses of Receiver.h:86-155; a call on a receiver that is gone is undefined. -/
def runX (B : Build) (user : UserCode) (destroys : List UserCall → Bool) (fuel : Nat) :
    World C → List Op → Res (World C × List Obs × Bool)
  | w, [] => .ok (w, [], false)
  | w, op :: ops => do
    let (w, o, gone) ← w.stepX B user destroys fuel op
    if gone then (if ops.isEmpty then return (w, [o], true) else .error .ub)
    else
      let (w, os, gone) ← runX B user destroys fuel w ops
      return (w, o :: os, gone)

end World
end TT
