import Verif.Spec.CustomEnvelope

/-!
# Specification: envelopes whose check changes the bytes in the receive buffer

`buffer(i)` returns a reference, so the check of an envelope written by a user may decode a message in place. Stated with
lists of bytes, like `Verif.Spec.CustomEnvelope`.
-/

namespace TT.Spec

/-- A way of looking for a message at the front of a stream that may change the bytes: what stands in the buffer afterwards,
and the id of the message that is then in front, if any. -/
abbrev Look := List Byte → List Byte × Option Byte

/-- The envelope's program looks for messages in the way `look`, when it begins with one of the message ids `idle`. No id is
set in a new receiver and after `popMessage`. -/
structure Performs (C : Custom) (look : Look) (idle : Option Byte → Prop) : Prop where
  start : idle none
  found : ∀ {xs cur ys id}, xs.length ≤ customCapacity C → idle cur → look xs = (ys, some id) →
    effect C C.code xs cur = some (ys, some id, true)
  nothing : ∀ {xs cur ys}, xs.length ≤ customCapacity C → idle cur → look xs = (ys, none) →
    ∃ cur', idle cur' ∧ effect C C.code xs cur = some (ys, cur', false)

/-- The check makes no bytes, and reports only messages that are then there as a whole. The payload lies inside the message,
and no message is empty. -/
structure ProperLook (C : Custom) (look : Look) : Prop where
  overhead : 0 < C.overhead
  offset : C.dataOffset ≤ C.overhead
  shrinks : ∀ xs, (look xs).1.length ≤ xs.length
  whole : ∀ xs ys id, look xs = (ys, some id) → ∃ k, lengthAt C id = some k ∧ k ≤ ys.length

/-- A second check right after one that reported a message reports it again. It may change the bytes of the message, which
have been used by then, but not those after it. -/
def Repeatable (C : Custom) (look : Look) : Prop :=
  ∀ xs ys id, xs.length ≤ customCapacity C → look xs = (ys, some id) →
    ∃ zs, effect C C.code ys (some id) = some (zs, some id, true) ∧ zs.length = ys.length ∧
      ∀ k, lengthAt C id = some k → zs.drop k = ys.drop k

/-- Decisions are not revised when more bytes arrive. -/
structure OnlineLook (look : Look) : Prop where
  found : ∀ xs zs ys id, look xs = (ys, some id) → look (xs ++ zs) = (ys ++ zs, some id)
  nothing : ∀ xs zs ys, look xs = (ys, none) → look (xs ++ zs) = look (ys ++ zs)

/-- `Finds C look s ms r`: looking at `s` again and again gives the messages `ms` and leaves `r`. -/
inductive Finds (C : Custom) (look : Look) : List Byte → List Msg → List Byte → Prop where
  | stop {s r : List Byte} : look s = (r, none) → Finds C look s [] r
  | take {s ys r : List Byte} {id : Byte} {t : MsgType} {ms : List Msg} :
      look s = (ys, some id) → typeAt C id = some t →
      Finds C look (ys.drop (C.overhead + payloadSize t)) ms r →
      Finds C look s (⟨id, (ys.drop C.dataOffset).take (payloadSize t)⟩ :: ms) r

/-- The bytes `bytes` are looked at as the message `m`, whatever follows. -/
def Shows (C : Custom) (look : Look) (bytes : List Byte) (m : Msg) : Prop :=
  ∃ plain t, (∀ ys, look (bytes ++ ys) = (plain ++ ys, some m.id)) ∧ typeAt C m.id = some t ∧
    plain.length = C.overhead + payloadSize t ∧ m.payload = (plain.drop C.dataOffset).take (payloadSize t)

end TT.Spec
