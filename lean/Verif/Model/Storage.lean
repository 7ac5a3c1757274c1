import Verif.Model.Throwing

/-!
# The memory of `VectorBuffer`

In `Verif.Model.Transmit` a `VectorBuffer` is a list that always can grow. Here it is a `std::vector<uint8_t>`: a block of
memory that has to be requested, is replaced by a larger one when it is full, and may be refused, in which case
`std::bad_alloc` is thrown.

Rules of `std::vector` used: `vector(n)` and copies request exactly as many elements as they hold; `clear()` keeps the memory;
`push_back` into a vector that is not full requests nothing; into a full one it requests a larger block first, and if that
is refused nothing has changed; assignment uses the memory of the target if it is large enough and otherwise requests a new
block before it changes anything. (The standard allows vectors to request more than this; all implementations do the
above.) The rule by which the new size is chosen is a parameter.
-/

namespace TT

/-- The memory of the program: by how much a full vector grows, and which requests are granted. `grants k n`: is the request
number `k` granted, if it is for `n` bytes? For the requests made in transmitters/VectorBuffer.h:46,51,55. -/
structure Memory where
  grow : Nat → Nat
  grants : Nat → Nat → Bool

/-- `VectorBuffer`: the elements of its vector, the number of elements that fit in its block of memory, which block that is
(the number of the request that was granted), and how many requests have been made so far. Models
transmitters/VectorBuffer.h:85-86. -/
structure VecBuf where
  contents : List Byte
  room : Nat
  block : Option Nat
  asked : Nat
deriving DecidableEq, Repr

/-- Constructor: a vector of as many elements as the longest message has bytes, cleared. `none`: it throws. Models
transmitters/VectorBuffer.h:45-48; `asked` requests have been made before. -/
def VecBuf.new (M : Memory) (C : Collection) (asked : Nat) : Option VecBuf :=
  if M.grants asked (maxMessageLength C) then
    some { contents := [], room := maxMessageLength C, block := some asked, asked := asked + 1 }
  else none

/-- `buffer.push_back(v)`: the new state, and whether it threw. Models transmitters/VectorBuffer.h:50-52. -/
def VecBuf.push (M : Memory) (s : VecBuf) (v : Byte) : VecBuf × Bool :=
  if s.contents.length < s.room then ({ s with contents := s.contents ++ [v] }, false)
  else if M.grants s.asked (M.grow s.room) then
    ({ contents := s.contents ++ [v], room := M.grow s.room, block := some s.asked, asked := s.asked + 1 }, false)
  else ({ s with asked := s.asked + 1 }, true)

/-- `std::copy(data, data + len, std::back_inserter(buffer))`. Models transmitters/VectorBuffer.h:54-56. -/
def VecBuf.pushAll (M : Memory) (s : VecBuf) : List Byte → VecBuf × Bool
  | [] => (s, false)
  | v :: vs =>
    match s.push M v with
    | (s, true) => (s, true)
    | (s, false) => s.pushAll M vs

/-- `VectorBuffer` as a transmitter; `writeFinished` is that of detail/bases/TransmitterBase.h:79-80. Models
transmitters/VectorBuffer.h:43-87. -/
def vecTx (M : Memory) : ThrowTx VecBuf where
  writeByte := VecBuf.push M
  write := VecBuf.pushAll M
  writeFinished s := (s, false)

/-- The implicit copy constructor: a new vector with the same elements. `none`: it throws. For the class of
transmitters/VectorBuffer.h:43-87. -/
def VecBuf.copy (M : Memory) (s : VecBuf) : Option VecBuf :=
  if s.contents = [] then some { contents := [], room := 0, block := none, asked := s.asked }
  else if M.grants s.asked s.contents.length then
    some { contents := s.contents, room := s.contents.length, block := some s.asked, asked := s.asked + 1 }
  else none

/-- The implicit assignment `s = t` (of different objects): the new state of `s`, and whether it threw. For the class of
transmitters/VectorBuffer.h:43-87. -/
def VecBuf.assign (M : Memory) (s t : VecBuf) : VecBuf × Bool :=
  if t.contents.length ≤ s.room then ({ s with contents := t.contents }, false)
  else if M.grants s.asked t.contents.length then
    ({ contents := t.contents, room := t.contents.length, block := some s.asked, asked := s.asked + 1 }, false)
  else ({ s with asked := s.asked + 1 }, true)

end TT
