import Verif.Model.Transmit

/-!
# Transmitters that throw

`TransmitterBase`, the envelopes, the serializer and `send` contain no `try` block, and no object they
create has a destructor with an effect (`ChecksumComputer` and `TransmitterComposition` in
envelopes/BasicChecksum.h:61-62 hold a byte and two references). So an exception of a transmitter ends
the whole `send`: nothing more is output and the exception arrives at the caller of `send`.
-/

namespace TT

/-- A transmitter whose functions may throw: each returns the new state and whether it threw.
Models the implementation methods called in detail/bases/TransmitterBase.h:51-67. -/
structure ThrowTx (σ : Type) where
  writeByte : σ → Byte → σ × Bool
  write : σ → List Byte → σ × Bool
  writeFinished : σ → σ × Bool

/-- The transmitter as the code of `send` sees it. The second component of the state says that an
exception is propagating; then the statements that follow are not executed, that is, they have no
effect. Models detail/bases/TransmitterBase.h:51-67 with exceptions. -/
def ThrowTx.tx {σ : Type} (X : ThrowTx σ) : Tx (σ × Bool) where
  writeByte s v := .ok (if s.2 then s else X.writeByte s.1 v)
  write s data := .ok (if s.2 then s else X.write s.1 data)
  writeFinished s := .ok (if s.2 then s else X.writeFinished s.1)

/-- `try { send(...) } catch (...) {}`: the new state and whether `send` threw; `none` if the call does
not compile. Models Send.h:48-66 with a throwing transmitter. -/
def sendCaught {σ : Type} (C : Collection) (t : MsgType) (X : ThrowTx σ) (s : σ) (vs : List Value) :
    Option (Res (σ × Bool)) := send C t X.tx (s, false) vs

end TT
