import Verif.Model.CustomEnvelope

/-!
# Envelopes written by users, with handlers that throw and call the receiver

In `Verif.Model.CustomEnvelope` handlers return normally and do not call the receiver. Here `processMessages` is cut at the
handler calls it makes, as in `Verif.Model.Several`, and user code is whoever makes the next move. Simplification: there is
one receiver, and at most one `processMessages` call in progress (the property does not allow more).
-/

namespace TT

/-- One thing user code does next, in the main program if no handler call is in progress, and otherwise in that handler
call. The calls are members of Receiver.h:86-155. -/
inductive CMove where
  | append (xs : List Byte)
  | receiveFrom (numAvailable : Byte) (receive : Byte → RB.DeviceReply)
  | setHandler (h : Handler)
  | clearHandler
  | process
  /-- return from the handler call in progress -/
  | finish
  /-- let an exception out of the handler call in progress, and out of `processMessages` -/
  | throw

/-- The receiver with its logs; the variable `msgCount` of the `processMessages` call in progress and the handler call it is
making; the handler calls that returned. The objects are Receiver.h:184-196, the variable is Receiver.h:139. -/
structure CPlay (C : Custom) where
  world : C.World
  busy : Option (Byte × Option Invocation)
  returned : List Invocation
deriving DecidableEq, Repr

namespace CPlay
variable {C : Custom}

/-- A new receiver. Models Receiver.h:80-82. -/
def start (C : Custom) : CPlay C := { world := Custom.World.new C, busy := none, returned := [] }

/-- The head of the loop of `processMessages`, up to the handler call, which is then in progress; or to the end, if no
message is found. Models Receiver.h:140-146, 153-154. -/
def look (B : Build) (p : CPlay C) (msgCount : Byte) : Res (CPlay C × Option Outcome) := do
  let (e, found) ← C.check B p.world.recv
  let w := { p.world with recv := e }
  if !found then return ({ p with world := w, busy := none }, some (.returned msgCount))
  else
    let id ← w.recv.getCurrentMessageId B
    let w := { w with lastMessageId := some id }
    let c ← w.invoke id
    return ({ p with world := { w with trace := w.trace ++ c.toList }, busy := some (msgCount, c) }, none)

/-- One move. The result tells how a `processMessages` call ended, if one did. Models Receiver.h:86-155. -/
def move (B : Build) (p : CPlay C) : CMove → Res (CPlay C × Option Outcome)
  | .append xs => do
    let b ← p.world.recv.buf.pushBackRange B xs
    return ({ p with world :=
      { p.world with recv := { p.world.recv with buf := b }, fed := p.world.fed ++ xs } }, none)
  | .receiveFrom avail rcv => do
    let reply := rcv (UInt8.ofNat (min avail.toNat p.world.space))
    let (b, _) ← p.world.recv.buf.bufferFromExternalFunctorRef B rcv avail.toNat
    return ({ p with world :=
      { p.world with recv := { p.world.recv with buf := b },
                     fed := p.world.fed ++ reply.written.take reply.ret.toNat } }, none)
  | .setHandler h => return ({ p with world := { p.world with handler := some h } }, none)
  | .clearHandler => return ({ p with world := { p.world with handler := none } }, none)
  | .process =>
    if p.world.handler.isNone then return (p, some (.returned 0))
    else p.look B 0
  | .finish =>
    match p.busy with
    | none => return (p, none)
    | some (msgCount, c) => do
      let e ← C.popMessage B p.world.recv
      look B { p with world := { p.world with recv := e }, returned := p.returned ++ c.toList } (msgCount + 1)
  | .throw =>
    match p.busy with
    | none => return (p, none)
    | some _ => return ({ p with busy := none }, some .threw)

/-- Several moves. Uses of Receiver.h:86-155. -/
def moves (B : Build) : CPlay C → List CMove → Res (CPlay C × List (Option Outcome))
  | p, [] => .ok (p, [])
  | p, m :: ms => do
    let (p, o) ← p.move B m
    let (p, os) ← moves B p ms
    return (p, o :: os)

end CPlay
end TT
