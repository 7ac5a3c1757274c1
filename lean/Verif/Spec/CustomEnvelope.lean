import Verif.Spec.Stream
import Verif.Spec.Arith
import Verif.Model.CustomEnvelope

/-!
# Specification: what an envelope written by a user has to do, and what it gets

Stated with lists of bytes. Of the model it uses the data types and, for histories, the calls on the
receiver.
-/

namespace TT.Spec

/-- The message type with a given id. -/
def typeAt (C : Custom) (id : Byte) : Option MsgType := C.messages[id.toNat]?

/-- Total length of the message with a given id. -/
def lengthAt (C : Custom) (id : Byte) : Option Nat :=
  (typeAt C id).map fun t => C.overhead + payloadSize t

/-- Capacity of the receive buffer: three of the longest messages. -/
def customCapacity (C : Custom) : Nat :=
  3 * (C.messages.map fun t => C.overhead + payloadSize t).foldr max 0

/-- What a program does with the bytes `xs` in the buffer and the current message id `cur`: the bytes and
the id it leaves, and its answer. `none` if it asks for something that is not there. -/
def effect (C : Custom) : EnvCode → List Byte → Option Byte →
    Option (List Byte × Option Byte × Bool)
  | .done found, xs, cur => some (xs, cur, found)
  | .size k, xs, cur => effect C (k xs.length) xs cur
  | .byte i k, xs, cur =>
    match xs[i]? with
    | some b => effect C (k b) xs cur
    | none => none
  | .write i b k, xs, cur => if i < xs.length then effect C k (xs.set i b) cur else none
  | .pop n k, xs, cur => if xs ≠ [] ∧ n ≤ xs.length then effect C k (xs.drop n) cur else none
  | .setId id k, xs, _ => effect C k xs (if (typeAt C id).isSome then some id else none)
  | .hasId k, xs, cur => effect C (k cur.isSome) xs cur
  | .length k, xs, cur =>
    match cur.bind (lengthAt C) with
    | some n => effect C (k n) xs cur
    | none => none

/-- A way of looking for a message at the front of a stream: how many bytes to skip, and the id of the
message found there, if any. -/
abbrev Scan := List Byte → Nat × Option Byte

/-- The envelope's program looks for messages in the way `scan`. -/
def Implements (C : Custom) (scan : Scan) : Prop :=
  ∀ xs cur, xs.length ≤ customCapacity C →
    ∃ cur', effect C C.code xs cur = some (xs.drop (scan xs).1, cur', (scan xs).2.isSome) ∧
      ((scan xs).2.isSome = true → cur' = (scan xs).2)

/-- A scan skips only what is there, and reports only messages that are there as a whole. The payload lies
inside the message, and no message is empty. -/
structure Proper (C : Custom) (scan : Scan) : Prop where
  overhead : 0 < C.overhead
  offset : C.dataOffset ≤ C.overhead
  within : ∀ xs, (scan xs).1 ≤ xs.length
  whole : ∀ xs n id, scan xs = (n, some id) → ∃ k, lengthAt C id = some k ∧ n + k ≤ xs.length

/-- Looked at again, a message found is still found. -/
def Settled (scan : Scan) : Prop :=
  ∀ xs n id, scan xs = (n, some id) → scan (xs.drop n) = (0, some id)

/-- Decisions are not revised when more bytes arrive. -/
structure Online (scan : Scan) : Prop where
  found : ∀ xs ys n id, scan xs = (n, some id) → scan (xs ++ ys) = (n, some id)
  skipped : ∀ xs ys n, scan xs = (n, none) →
    scan (xs ++ ys) = (n + (scan (xs.drop n ++ ys)).1, (scan (xs.drop n ++ ys)).2)

/-- `Parses C scan s ms r`: scanning `s` again and again gives the messages `ms` and leaves `r`. -/
inductive Parses (C : Custom) (scan : Scan) : List Byte → List Msg → List Byte → Prop where
  | stop {s : List Byte} {n : Nat} : scan s = (n, none) → Parses C scan s [] (s.drop n)
  | take {s r : List Byte} {n : Nat} {id : Byte} {t : MsgType} {ms : List Msg} :
      scan s = (n, some id) → typeAt C id = some t →
      Parses C scan (s.drop (n + (C.overhead + payloadSize t))) ms r →
      Parses C scan s (⟨id, (s.drop (n + C.dataOffset)).take (payloadSize t)⟩ :: ms) r

/-- The handler call a message causes. -/
def customCall (C : Custom) (h : Handler) (m : Msg) : Invocation :=
  let t := (typeAt C m.id).getD ⟨0, []⟩
  ⟨h, t, splitFields t.fields m.payload⟩

/-- What a handler is told about a message: its type and its fields. -/
def customMeaning (C : Custom) (m : Msg) : MsgType × List (List Byte) :=
  let t := (typeAt C m.id).getD ⟨0, []⟩
  (t, splitFields t.fields m.payload)

/-- `enc` makes messages that the scan finds: at the front, whatever follows, with the length of the type
and the payload at its place. -/
structure Encodes (C : Custom) (scan : Scan) (enc : Msg → List Byte) (m : Msg) : Prop where
  found : ∀ ys, scan (enc m ++ ys) = (0, some m.id)
  length : lengthAt C m.id = some (enc m).length
  payload : ((enc m).drop C.dataOffset).take m.payload.length = m.payload
  size : ∃ t, typeAt C m.id = some t ∧ m.payload.length = payloadSize t

end TT.Spec

namespace TT.Custom
variable {C : Custom}

/-- The bytes a receiver has been given and not yet used. -/
def World.buffered (w : C.World) : List Byte :=
  (w.recv.buf.contents.drop w.recv.buf.begin_).take (w.recv.buf.pastEnd - w.recv.buf.begin_)

/-- Appends do not exceed the free space. -/
def World.Legal (B : Build) (fuel : Nat) : C.World → List COp → Prop
  | _, [] => True
  | w, op :: ops =>
    (match op with
      | .append xs => xs.length ≤ w.space
      | _ => True) ∧
    ∀ w' o, w.step B fuel op = .ok (w', o) → Legal B fuel w' ops

/-- A legal history on a fresh receiver led to `w`. -/
structure Reached (B : Build) (fuel : Nat) (ops : List COp) (w : C.World) (os : List (Option Byte)) :
    Prop where
  legal : (World.new C).Legal B fuel ops
  run : (World.new C).run B fuel ops = .ok (w, os)

end TT.Custom
