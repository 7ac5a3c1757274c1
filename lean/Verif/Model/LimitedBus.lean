import Verif.Model.Transmit

/-!
# `ArduinoI2C` on a bus library that takes only so many bytes at once
-/

namespace TT

/-- `ArduinoI2C` whose `TwoWire` object takes the first `limit` bytes of each `write(ptr, len)` (32 for the library that
comes with the boards). The function reports how many bytes it has taken; the code discards that result. Models
transmitters/ArduinoI2C.h:47-58. The limit itself is not in the repository: it is a parameter here. -/
def limitedI2C (limit : Nat) : Tx I2CState where
  writeByte s v := do
    let b ← s.bufTx.writeByte v
    return { s with bufTx := b }
  write s data := do
    let b ← s.bufTx.write data
    return { s with bufTx := b }
  writeFinished s := .ok { bufTx := s.bufTx.reset, wire := s.wire ++ [s.bufTx.range.take limit] }

end TT
