import Verif.Spec.History
import Verif.Model.Adapters

/-!
# Specification of a program that polls a serial port

The port is a queue of bytes that have arrived and not been read.
-/

namespace TT
open Spec

variable {C : Collection}

/-- A VRPN port with the bytes `q` waiting: reads at most `count` of them, reports how many. -/
def vrpnPort (q : List Byte) : Receiver.Device :=
  vrpnAdapter fun count => ⟨q.take count.toNat, ((q.take count.toNat).length : Nat)⟩

/-- An Arduino `Stream` with the bytes `q` waiting. -/
def arduinoPort (q : List Byte) : Receiver.Device :=
  arduinoAdapter q.length fun count => (q.take count.toNat, (q.take count.toNat).length)

/-- A program polling a port: in each round some bytes arrive (`as`), then it calls `receiveFrom`,
then `processMessages`. The second component is what is still waiting in the port. -/
def poll (B : Build) (user : UserCode) (fuel : Nat) (port : List Byte → Receiver.Device) :
    World C → List Byte → List (List Byte) → Res (World C × List Byte)
  | w, q, [] => .ok (w, q)
  | w, q, a :: as => do
    let (r, n) ← w.rx.receiveFrom B (port (q ++ a))
    let w := { w with rx := r, fed := w.fed ++ (q ++ a).take n }
    let (w, _) ← w.processMessages B user fuel
    poll B user fuel port w ((q ++ a).drop n) as

/-- A new receiver with a handler. -/
def withHandler (C : Collection) (h : Handler) : World C :=
  { World.new C with rx := Receiver.newWith C h }

end TT
