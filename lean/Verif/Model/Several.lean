import Verif.Model.Receive

/-!
# Programs with several receivers whose handlers may use the other receivers

User code is not a function here, as in `UserCode`, but whoever makes the moves: the next thing done, by the main
program or by the handler call in progress, may be anything at any time, and may depend on everything. A
`processMessages` call is cut at the handler calls it makes. Calls in progress are on a stack.
-/

namespace TT

/-- One thing user code does next, in the main program if no handler call is in progress, and otherwise in the
innermost one. The calls are members of Receiver.h:86-155. Simplification: a handler call that reaches the empty
default of `PartialHandlerBase` is a handler call whose next move is `finish`. -/
inductive Move where
  | append (i : Nat) (xs : List Byte)
  | receiveFrom (i : Nat) (numAvailable : Byte) (receive : Byte → RB.DeviceReply)
  | setHandler (i : Nat) (h : Handler)
  | clearHandler (i : Nat)
  /-- call `processMessages()` of receiver `i` -/
  | process (i : Nat)
  /-- return from the handler call in progress -/
  | finish
  /-- let an exception out of the handler call in progress; the code that called `processMessages` goes on with the
  next move: it may catch the exception, or let it out in turn -/
  | throw

/-- The receivers (each with its own collection) and their logs, as in `World`; the `processMessages` calls in
progress, innermost first, each with the receiver, its variable `msgCount`, and the handler call it is making (`none`:
the id has no message type, no call is made); and, as a further log, the handler calls that returned. The objects are Receiver.h:184-196, the variable is Receiver.h:139. -/
structure Several (C : Nat → Collection) where
  world : (i : Nat) → World (C i)
  stack : List (Nat × Byte × Option Invocation)
  returned : (i : Nat) → List Invocation

namespace Several
variable {C : Nat → Collection}

/-- Change one receiver and its logs. All of Receiver.h:86-155 concerns one receiver. -/
def put (p : Several C) (i : Nat) (w : World (C i)) : Several C :=
  { p with world := fun j => if h : j = i then h ▸ w else p.world j }

/-- New receivers, no call in progress. Models Receiver.h:80-82. -/
def start (C : Nat → Collection) : Several C :=
  { world := fun i => World.new (C i), stack := [], returned := fun _ => [] }

/-- The head of the loop of `processMessages` of receiver `i`, up to the handler call, which is then in progress; or
to the end, if no message is found. `msgCount` is the variable, `rest` the calls in progress below. Models
Receiver.h:140-146, 153-154. -/
def look (B : Build) (p : Several C) (i : Nat) (msgCount : Byte) (rest : List (Nat × Byte × Option Invocation)) :
    Res (Several C × Option Outcome) := do
  let w := p.world i
  let (e, found) ← w.rx.recv.checkBufferForMessage B
  let w := { w with rx := { w.rx with recv := e } }
  if !found then return ({ p.put i w with stack := rest }, some (.returned msgCount))
  else
    let id ← w.rx.recv.getCurrentMessageId B
    let w := { w with rx := { w.rx with lastMessageId := some id } }
    let c ← w.rx.invoke id
    return ({ p.put i { w with trace := w.trace ++ c.toList } with stack := (i, msgCount, c) :: rest }, none)

/-- One move. The result tells how a `processMessages` call ended, if one did. Models Receiver.h:86-155. -/
def move (B : Build) (p : Several C) : Move → Res (Several C × Option Outcome)
  | .append i xs => do
    let w ← (p.world i).append B xs
    return (p.put i w, none)
  | .receiveFrom i avail rcv => do
    let w := p.world i
    let reply := rcv (UInt8.ofNat (min avail.toNat w.rx.getBufferAvailableSpace))
    let (r, _) ← w.rx.receiveFrom B { numAvailable := avail, receive := rcv }
    return (p.put i { w with rx := r, fed := w.fed ++ reply.written.take reply.ret.toNat }, none)
  | .setHandler i h => return (p.put i { p.world i with rx := (p.world i).rx.setHandler h }, none)
  | .clearHandler i => return (p.put i { p.world i with rx := (p.world i).rx.clearHandler }, none)
  | .process i =>
    if !(p.world i).rx.hasHandler then return (p, some (.returned 0))
    else p.look B i 0 p.stack
  | .finish =>
    match p.stack with
    | [] => return (p, none)
    | (i, msgCount, c) :: rest => do
      let w := p.world i
      let e ← w.rx.recv.popMessage B
      let p := p.put i { w with rx := { w.rx with recv := e } }
      look B { p with returned := fun j => if j = i then p.returned j ++ c.toList else p.returned j }
        i (msgCount + 1) rest
  | .throw =>
    match p.stack with
    | [] => return (p, none)
    | _ :: rest => return ({ p with stack := rest }, some .threw)

/-- Several moves. Uses of Receiver.h:86-155. -/
def moves (B : Build) : Several C → List Move → Res (Several C × List (Option Outcome))
  | p, [] => .ok (p, [])
  | p, m :: ms => do
    let (p, o) ← p.move B m
    let (p, os) ← moves B p ms
    return (p, o :: os)

end Several
end TT
