import Verif.Model.Receive

/-!
# Implicit copies of objects

`BoostArrayBuffer` and `Receiver` declare no copy operations, so the compiler generates member-wise
ones. `BoostArrayBuffer` holds an iterator into its own array, which a member-wise copy leaves
pointing into the array of the object it was copied from.
-/

namespace TT

/-- A `BoostArrayBuffer` object in memory. Models transmitters/BoostArrayBuffer.h:76-79.
The iterator `it` is the address of the object whose array it points into, and an index. -/
structure HeapArr where
  buffer : List Byte
  owner : Nat
  pos : Nat
deriving DecidableEq, Repr

/-- The `BoostArrayBuffer` objects of a program by address; `none`: no living object there.
Simplification: an address is not used again after the object's destruction. The class is
transmitters/BoostArrayBuffer.h:39-81. -/
abbrev Heap := Nat → Option HeapArr

namespace Heap

/-- Change what is at one address. Auxiliary; used for the assignments in
transmitters/BoostArrayBuffer.h:44-51,72-74. -/
def upd (h : Heap) (k : Nat) (x : Option HeapArr) : Heap := fun j => if j = k then x else h j

/-- Construction at address `k`. Models transmitters/BoostArrayBuffer.h:42. -/
def construct (h : Heap) (k size : Nat) : Heap := h.upd k (some ⟨List.replicate size 0, k, 0⟩)

/-- The implicit copy constructor (object at `src` copied to a new object at `k`) and the implicit
copy assignment: both members are copied, the iterator as it is.
Models class `BoostArrayBuffer`, transmitters/BoostArrayBuffer.h:39-81, which declares neither. -/
def copy (h : Heap) (k src : Nat) : Heap := h.upd k (h src)

/-- The implicit destructor. Models class `BoostArrayBuffer`, transmitters/BoostArrayBuffer.h:39-81, which
declares none. -/
def destroy (h : Heap) (k : Nat) : Heap := h.upd k none

/-- `reset()`. Models transmitters/BoostArrayBuffer.h:72-74. -/
def reset (h : Heap) (k : Nat) : Heap := h.upd k ((h k).map fun o => { o with owner := k, pos := 0 })

/-- The elements of `[begin(), end())`. `begin()` points into the object's own array; if `end()`
points into another one this is not a range and using it is undefined.
Models transmitters/BoostArrayBuffer.h:59-70. -/
def range (h : Heap) (k : Nat) : Res (List Byte) :=
  match h k with
  | some o => if o.owner = k then .ok (o.buffer.take o.pos) else .error .ub
  | none => .error .ub

/-- `it = std::copy(data, data + len, it)`, and with one element `*it = v; ++it;`: every element is
stored where the iterator points, undefined if that is past the array or in a destroyed object.
Models transmitters/BoostArrayBuffer.h:44-51. -/
def write (k : Nat) : Heap → List Byte → Res Heap
  | h, [] => .ok h
  | h, v :: vs =>
    match h k with
    | none => .error .ub
    | some o =>
      match h o.owner with
      | none => .error .ub
      | some t =>
        if o.pos < t.buffer.length then
          let h := h.upd o.owner (some { t with buffer := t.buffer.set o.pos v })
          write k (h.upd k ((h k).map fun o => { o with pos := o.pos + 1 })) vs
        else .error .ub

/-- The transmitter at address `k`. Models transmitters/BoostArrayBuffer.h:39-81. -/
def tx (k : Nat) : Tx Heap where
  writeByte h v := write k h [v]
  write := write k
  writeFinished := defaultWriteFinished

/-- An `ArduinoI2C` whose `bufTx` is the array buffer at address `k`; the second component is the
list of `TwoWire::write` calls. Models transmitters/ArduinoI2C.h:47-62. -/
def i2c (k : Nat) : Tx (Heap × List (List Byte)) where
  writeByte s v := do
    let h ← write k s.1 [v]
    return (h, s.2)
  write s data := do
    let h ← write k s.1 data
    return (h, s.2)
  writeFinished s := do
    let bs ← range s.1 k
    return (reset s.1 k, s.2 ++ [bs])

end Heap

namespace Receiver
variable {C : Collection}

/-- The implicit copy assignment from a different receiver: member-wise, the buffer through its own
`operator=` (util/ReceiveBuffer.h:109-116). Models class `Receiver`, Receiver.h:58-197, and
`EnvelopeReceiveBuffer`, detail/types/EnvelopeReceiveBuffer.h:43-209, which declare none. -/
def assign (this other : Receiver C) : Res (Receiver C) := do
  let b ← this.recv.buf.assign other.recv.buf
  return { recv := { currentMessageId := other.recv.currentMessageId, buf := b }
           invoker := other.invoker
           functorPointer := other.functorPointer
           lastMessageId := other.lastMessageId }

/-- The implicit copy assignment of a receiver to itself. Same sources as `assign`. Models
Receiver.h:58-197, detail/types/EnvelopeReceiveBuffer.h:43-209 and util/ReceiveBuffer.h:109-112. -/
def selfAssign (this : Receiver C) : Res (Receiver C) := do
  let b ← this.recv.buf.selfAssign
  return { this with recv := { this.recv with buf := b } }

end Receiver
end TT
