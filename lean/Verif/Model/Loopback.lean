import Verif.Model.Transmit
import Verif.Model.Receive

/-!
# A transmitter that is connected to a receiver in the same program

The simplest connection there is: what is sent is appended to the buffer of a receiver, without a line in between. The
transmitter is user code derived from `TransmitterBase`:

    struct Loop : TransmitterBase<Loop> {
      void writeByte(uint8_t v)                            { rx.appendReceived(&v, &v + 1); }
      void write(uint8_t * data, size_t len)               { rx.appendReceived(data, data + len); }
      void writeFinished()                                 { if (sync) rx.processMessages(); }
      ...
    };
-/

namespace TT

/-- The transmitter. The state is the receiver, and whether an exception a handler threw is propagating: then nothing
further is called. With `sync`, the receiver handles each message as soon as it is complete. Models a class derived from
detail/bases/TransmitterBase.h:45-77 whose functions call Receiver.h:111-114 and Receiver.h:134-155. -/
def loopTx {C : Collection} (B : Build) (user : UserCode) (fuel : Nat) (sync : Bool) : Tx (World C × Bool) where
  writeByte s v := if s.2 then .ok s else do
    let w ← s.1.append B [v]
    return (w, false)
  write s data := if s.2 then .ok s else do
    let w ← s.1.append B data
    return (w, false)
  writeFinished s := if s.2 || !sync then .ok s else do
    let (w, o) ← s.1.processMessages B user fuel
    return (w, match o with
      | .threw => true
      | .returned _ => false)

end TT
