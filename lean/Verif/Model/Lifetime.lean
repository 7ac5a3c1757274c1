import Verif.Model.Receive

/-!
# Handler objects that are destroyed

`Receiver` keeps the address of the handler (Receiver.h:67-77). In this file objects can be destroyed: by
the program between calls, and by handlers during calls. A call on a destroyed object is undefined; storing,
copying or clearing its address is not. The rest is as in `Verif.Model.Receive`.

`dead` are the objects the program has destroyed so far; `kills calls` those destroyed by handlers in the
course of these calls. Simplification: no object is created at the address of a destroyed one.
-/

namespace TT
namespace World
variable {C : Collection}

/-- The calls a handler makes on its own receiver, as `runActs`. The calls are members of Receiver.h:86-155. -/
def runActsD (B : Build) (nested : World C → Res (World C × Outcome)) :
    World C → List Act → Res (World C × Bool)
  | w, [] => .ok (w, false)
  | w, .append xs :: as => do
    let w ← w.append B xs
    runActsD B nested w as
  | w, .setHandler h :: as => runActsD B nested { w with rx := w.rx.setHandler h } as
  | w, .clearHandler :: as => runActsD B nested { w with rx := w.rx.clearHandler } as
  | w, .process :: as => do
    let (w, o) ← nested w
    match o with
    | .threw => return (w, true)
    | .returned _ => runActsD B nested w as

/-- A call on the handler object, as `callHandler`: `(*static_cast<MessageFunctor *>(f))(...)`
(Receiver.h:167-177). -/
def callHandlerD (B : Build) (user : UserCode) (kills : List Invocation → List Nat) (dead : List Nat)
    (nested : World C → Res (World C × Outcome)) (w : World C) (i : Invocation) :
    Res (World C × Bool) := do
  if i.handler.obj ∈ dead ∨ i.handler.obj ∈ kills w.trace then .error .ub
  else
    let w := { w with trace := w.trace ++ [i] }
    match dispatch i with
    | none => return (w, false)
    | some _ =>
      let reaction := user w.userCalls w.rx.getBufferAvailableSpace
      let (w, thrown) ← runActsD B nested w reaction.acts
      return (w, thrown || reaction.throws)

/-- The loop of `processMessages`. Models Receiver.h:139-154. -/
def processLoopD (B : Build) (user : UserCode) (kills : List Invocation → List Nat) (dead : List Nat) :
    Nat → World C → Byte → Res (World C × Outcome)
  | 0, _, _ => .error .diverge
  | fuel + 1, w, msgCount => do
    let (e, found) ← w.rx.recv.checkBufferForMessage B
    let w := { w with rx := { w.rx with recv := e } }
    if !found then return (w, .returned msgCount)
    else
      let id ← w.rx.recv.getCurrentMessageId B
      let w := { w with rx := { w.rx with lastMessageId := some id } }
      let i? ← w.rx.invoke id
      let (w, thrown) ← (match i? with
        | none => (.ok (w, false) : Res (World C × Bool))
        | some i => callHandlerD B user kills dead
            (fun w => if !w.rx.hasHandler then .ok (w, .returned 0)
                      else processLoopD B user kills dead fuel w 0) w i)
      if thrown then return (w, .threw)
      else
        let e ← w.rx.recv.popMessage B
        processLoopD B user kills dead fuel { w with rx := { w.rx with recv := e } } (msgCount + 1)

/-- `processMessages()`. Models Receiver.h:134-155. -/
def processMessagesD (B : Build) (user : UserCode) (kills : List Invocation → List Nat) (dead : List Nat)
    (fuel : Nat) (w : World C) : Res (World C × Outcome) :=
  if !w.rx.hasHandler then .ok (w, .returned 0)
  else processLoopD B user kills dead fuel w 0

end World

/-- What a program does: calls on the receiver, and destroying objects. The calls are members of
Receiver.h:86-155; the objects are those of Receiver.h:66-77. -/
inductive LOp where
  | call (op : Op)
  | destroy (obj : Nat)

namespace World
variable {C : Collection}

/-- One API call with these objects destroyed. Models Receiver.h:86-155; only `processMessages` uses the
object. -/
def stepD (B : Build) (user : UserCode) (kills : List Invocation → List Nat) (dead : List Nat) (fuel : Nat)
    (w : World C) : Op → Res (World C × Obs)
  | .process => do
    let (w, o) ← w.processMessagesD B user kills dead fuel
    return (w, .processed o)
  | op => w.step B user fuel op

/-- A history. Uses of Receiver.h:86-155. -/
def runD (B : Build) (user : UserCode) (kills : List Invocation → List Nat) (fuel : Nat) :
    World C → List Nat → List LOp → Res (World C × List Obs)
  | w, _, [] => .ok (w, [])
  | w, dead, .destroy o :: ops => runD B user kills fuel w (o :: dead) ops
  | w, dead, .call op :: ops => do
    let (w, o) ← w.stepD B user kills dead fuel op
    let (w, os) ← runD B user kills fuel w dead ops
    return (w, o :: os)

end World
end TT
