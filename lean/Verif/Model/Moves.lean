import Verif.Model.Receive

/-!
# Counting the bytes that `appendReceived` and `receiveFrom` move

`ensure_space` moves what is waiting to the front of the array when there is not enough room behind it.
The functions below say how many bytes that are; they compute nothing else. They are the subject of C77.
-/

namespace TT

/-- Number of elements copied by `ensure_space(n)`: the length of the range given to `std::copy`, 0 if
`slide_contents_forward` is not reached. Follows the branches of `RB.ensureSpace`.
Models util/ReceiveBuffer.h:285-298 and 336-340. -/
def RB.movedBy {cap : Nat} (B : Build) (b : RB cap) (n : Nat) : Nat :=
  let b := if b.empty then { b with begin_ := 0, pastEnd := 0 } else b
  if promAdd B cap b.pastEnd n ≤ cap then 0 else b.pastEnd - b.begin_

namespace World
variable {C : Collection}

/-- Number of bytes moved within the receive buffer by one API call. Calls made from inside handlers are
not counted (C77 is about handlers that do not append), nor is the copying of a whole receiver.
Models Receiver.h:111-123 (the arguments of `ensure_space` as in util/ReceiveBuffer.h:175-200). -/
def moves (B : Build) (w : World C) : Op → Nat
  | .append xs => w.rx.recv.buf.movedBy B (trunc (recvBufferSize C) xs.length)
  | .receiveFrom avail _ => w.rx.recv.buf.movedBy B
      (min avail.toNat (subT (recvBufferSize C) (recvBufferSize C) w.rx.recv.buf.size))
  | _ => 0

/-- Number of bytes moved in a history. Uses of Receiver.h:111-123. -/
def runMoves (B : Build) (user : UserCode) (fuel : Nat) : World C → List Op → Nat
  | _, [] => 0
  | w, op :: ops => w.moves B op +
      match w.step B user fuel op with
      | .ok (w, _) => runMoves B user fuel w ops
      | .error _ => 0

end World
end TT
