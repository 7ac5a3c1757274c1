import Verif.Model.Receive

/-!
# The receive adapters shipped with the library

The device objects behind them (`vrpn_SerialPort`, Arduino's `Stream`) are not part of the
repository; they are parameters here.
-/

namespace TT

/-- What `vrpn_SerialPort::read_available_characters(buffer, count)` did: the bytes stored at
`buffer`, and the `int` returned (-1 on error). The result type of the call in
receiveadapters/VrpnSerial.h:41-43. -/
structure PortReply where
  written : List Byte
  ret : Int
deriving DecidableEq, Repr

/-- `VrpnSerialReceiveAdapter`. Models receiveadapters/VrpnSerial.h:36-47: `getNumAvailable` is
inherited from `ReceiveAdapterWithoutAvailable` (detail/bases/ReceiveAdapterBase.h:69-75) and the
`int` result is converted to `uint8_t` on return (receiveadapters/VrpnSerial.h:41-43). -/
def vrpnAdapter (read : Byte → PortReply) : Receiver.Device :=
  { numAvailable := 255
    receive := fun count => ⟨(read count).written, UInt8.ofInt (read count).ret⟩ }

/-- `ArduinoSerialReceiveAdapter`. Models receiveadapters/ArduinoSerial.h:38-53: `available` is the
`int` returned by `Stream::available()`, converted after `std::min<int>(255, ...)`
(receiveadapters/ArduinoSerial.h:42-44); `readBytes` stores bytes and returns a `size_t`, converted to `uint8_t`
(receiveadapters/ArduinoSerial.h:46-49).
Simplification: the base class is spelled `detail::ReceiveAdapter` in the source, which is declared
nowhere; it is read as `detail::ReceiveAdapterBase`. -/
def arduinoAdapter (available : Int) (readBytes : Byte → List Byte × Nat) : Receiver.Device :=
  { numAvailable := UInt8.ofInt (min 255 available)
    receive := fun count => ⟨(readBytes count).1, UInt8.ofNat (readBytes count).2⟩ }

end TT
