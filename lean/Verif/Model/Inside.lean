import Verif.Model.Copies

/-!
# Everything a handler can do to the receiver that is calling it

`Act` has the calls that only change handler and buffer. A handler that can name its receiver can also
refill it from a receive adapter, copy it, and assign to it.
-/

namespace TT

/-- What user code may do to the receiver from inside a handler call. The calls are members of
Receiver.h:86-155 and its implicit copies (58-197). -/
inductive InsideAct (C : Collection) where
  /-- one of the calls of `Act` -/
  | call (a : Act)
  /-- `receiver.receiveFrom(adapter)` -/
  | receiveFrom (numAvailable : Byte) (receive : Byte → RB.DeviceReply)
  /-- `saved.push_back(receiver)`: keep a copy -/
  | save
  /-- `receiver = other` -/
  | assign (other : Receiver C)

/-- Behaviour of one handler call: calls back into the receiver, then returns or throws. User code, called
in ParameterHandlerBase.h:55. -/
structure InsideReaction (C : Collection) where
  acts : List (InsideAct C)
  throws : Bool

/-- User code, as in `UserCode`. User code, called in ParameterHandlerBase.h:55. -/
abbrev InsideCode (C : Collection) := List UserCall → Nat → InsideReaction C

/-- The receiver with its logs, and the copies made so far, each with the number of handler calls that
had been made by then (the current one included). The object is Receiver.h:184-196. -/
structure InsideWorld (C : Collection) where
  w : World C
  saved : List (Nat × Receiver C)

namespace InsideWorld
variable {C : Collection}

/-- Execute the calls a handler makes on its own receiver. Models Receiver.h:86-123, 134-155 and the
implicit copy constructor and copy assignment of `Receiver` (Receiver.h:58-197 declares neither). -/
def runActs (B : Build) (nested : InsideWorld C → Res (InsideWorld C × Outcome)) :
    InsideWorld C → List (InsideAct C) → Res (InsideWorld C × Bool)
  | x, [] => .ok (x, false)
  | x, .call (.append xs) :: as => do
    let w ← x.w.append B xs
    runActs B nested { x with w := w } as
  | x, .call (.setHandler h) :: as =>
    runActs B nested { x with w := { x.w with rx := x.w.rx.setHandler h } } as
  | x, .call .clearHandler :: as =>
    runActs B nested { x with w := { x.w with rx := x.w.rx.clearHandler } } as
  | x, .call .process :: as => do
    let (x, o) ← nested x
    match o with
    | .threw => return (x, true)
    | .returned _ => runActs B nested x as
  | x, .receiveFrom avail rcv :: as => do
    let reply := rcv (UInt8.ofNat (min avail.toNat x.w.rx.getBufferAvailableSpace))
    let (r, _) ← x.w.rx.receiveFrom B { numAvailable := avail, receive := rcv }
    runActs B nested { x with w := { x.w with rx := r, fed := x.w.fed ++ reply.written.take reply.ret.toNat } } as
  | x, .save :: as => do
    let r ← x.w.rx.copyConstruct
    runActs B nested { x with saved := x.saved ++ [(x.w.trace.length, r)] } as
  | x, .assign other :: as => do
    let r ← x.w.rx.assign other
    runActs B nested { x with w := { x.w with rx := r } } as

/-- Log the functor call, and if it reaches user code let that run; as `World.callHandler`. Models
detail/operations/DeserializeToFusion.h:107-112 and ParameterHandlerBase.h:49-56. -/
def callHandler (B : Build) (code : InsideCode C)
    (nested : InsideWorld C → Res (InsideWorld C × Outcome)) (x : InsideWorld C) (i : Invocation) :
    Res (InsideWorld C × Bool) := do
  let x := { x with w := { x.w with trace := x.w.trace ++ [i] } }
  match dispatch i with
  | none => return (x, false)
  | some _ =>
    let reaction := code x.w.userCalls x.w.rx.getBufferAvailableSpace
    let (x, thrown) ← runActs B nested x reaction.acts
    return (x, thrown || reaction.throws)

/-- The loop of `processMessages`, as `World.processLoop`. Models Receiver.h:139-154. -/
def processLoop (B : Build) (code : InsideCode C) :
    Nat → InsideWorld C → Byte → Res (InsideWorld C × Outcome)
  | 0, _, _ => .error .diverge
  | fuel + 1, x, msgCount => do
    let (e, found) ← x.w.rx.recv.checkBufferForMessage B
    let x := { x with w := { x.w with rx := { x.w.rx with recv := e } } }
    if !found then return (x, .returned msgCount)
    else
      let id ← x.w.rx.recv.getCurrentMessageId B
      let x := { x with w := { x.w with rx := { x.w.rx with lastMessageId := some id } } }
      let i? ← x.w.rx.invoke id
      let (x, thrown) ← (match i? with
        | none => (.ok (x, false) : Res (InsideWorld C × Bool))
        | some i => callHandler B code
            (fun x => if !x.w.rx.hasHandler then .ok (x, .returned 0)
                      else processLoop B code fuel x 0) x i)
      if thrown then return (x, .threw)
      else
        let e ← x.w.rx.recv.popMessage B
        processLoop B code fuel { x with w := { x.w with rx := { x.w.rx with recv := e } } } (msgCount + 1)

/-- `processMessages()`. Models Receiver.h:134-155. -/
def processMessages (B : Build) (code : InsideCode C) (fuel : Nat) (x : InsideWorld C) :
    Res (InsideWorld C × Outcome) :=
  if !x.w.rx.hasHandler then .ok (x, .returned 0)
  else processLoop B code fuel x 0

end InsideWorld
end TT
