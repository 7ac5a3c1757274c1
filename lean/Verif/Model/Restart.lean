import Verif.Model.Copies

/-!
# Starting a receiver afresh

A program that receives packets of bytes which are known to belong together (datagrams, or bursts separated by
silence) can assign a new receiver to its receiver before each packet.
-/

namespace TT
namespace World
variable {C : Collection}

/-- `receiver = Receiver(handler)`: a temporary is constructed (Receiver.h:74-77) and assigned member by member with the
implicit copy assignment (class `Receiver`, Receiver.h:58-197). The log of bytes begins anew, so that it lists the bytes
given to the receiver since the assignment; the log of calls goes on. -/
def restart (w : World C) (h : Handler) : Res (World C) := do
  let r ← w.rx.assign (Receiver.newWith C h)
  return { rx := r, trace := w.trace, fed := [] }

/-- Handle each packet with a receiver started afresh: all of its bytes are appended at once, then the messages are
processed, and what came of that is noted (an exception is caught). Models a user of Receiver.h:74-77,111-114,134-155. -/
def datagrams (B : Build) (user : UserCode) (fuel : Nat) (h : Handler) (w : World C) :
    List (List Byte) → Res (World C × List Outcome)
  | [] => .ok (w, [])
  | p :: ps => do
    let w ← w.restart h
    let w ← w.append B p
    let (w, out) ← w.processMessages B user fuel
    let (w, outs) ← w.datagrams B user fuel h ps
    return (w, out :: outs)

end World
end TT
