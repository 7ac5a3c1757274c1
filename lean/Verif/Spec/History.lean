import Verif.Spec.Machine
import Verif.Spec.Arith

/-!
# Vocabulary for statements about histories of API calls

Used by the property files; nothing here is a modelled function.
-/

namespace TT
open Spec

variable {C : Collection}

/-- The bytes a receiver has been given and not yet used, front to back. -/
def buffered (w : World C) : List Byte :=
  (w.rx.recv.buf.contents.drop w.rx.recv.buf.begin_).take
    (w.rx.recv.buf.pastEnd - w.rx.recv.buf.begin_)

/-- What the handlers have been called with so far: message type and field contents. -/
def delivered (w : World C) : List (MsgType × List (List Byte)) := w.trace.map seen

/-- Legality of one API call, in terms of what the caller can query. -/
def OpLegal (w : World C) : Op → Prop
  | .append xs => xs.length ≤ w.rx.getBufferAvailableSpace
  | .receiveFrom avail rcv =>
      GoodReply (min avail.toNat w.rx.getBufferAvailableSpace)
        (rcv (UInt8.ofNat (min avail.toNat w.rx.getBufferAvailableSpace)))
  | _ => True

/-- Legality of a history: each call is legal in the state in which it is made. -/
def Legal (B : Build) (user : UserCode) (fuel : Nat) : World C → List Op → Prop
  | _, [] => True
  | w, op :: ops => OpLegal w op ∧ ∀ w' o, w.step B user fuel op = .ok (w', o) →
      Legal B user fuel w' ops

/-- A legal history `ops` on a fresh receiver led to the state `w`, the caller observing `os`. -/
structure Reached (B : Build) (user : UserCode) (fuel : Nat) (ops : List Op) (w : World C)
    (os : List Obs) : Prop where
  legal : Legal B user fuel (World.new C) ops
  run : (World.new C).run B user fuel ops = .ok (w, os)

/-- The standing assumptions: the arithmetic bound of C50 holds, and handlers call back only
`appendReceived` (within the free space) and `setHandler`. -/
structure Setting (C : Collection) (B : Build) (user : UserCode) : Prop where
  arith : Arith B (recvBufferSize C)
  benign : BenignUser user

end TT
