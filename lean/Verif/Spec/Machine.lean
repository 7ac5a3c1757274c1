import Verif.Spec.Stream
import Verif.Model.Receive

/-!
# Specification of the receiver as an abstract machine

The state is what a user can observe or has caused: the bytes waiting, the handler, the last id,
the calls made, the bytes fed. No buffer positions, no arrays, no fuel, no faults.
From `Verif.Model.Receive` only data types are used (`Handler`, `Invocation`, `UserCall`, `Act`,
`Reaction`, `UserCode`, `Outcome`, `Op`), not functions.
-/

namespace TT.Spec

/-- Length of the longest message. -/
def maxLen (C : Collection) : Nat :=
  (C.messages.map fun t => overhead C.envelope + payloadSize t).foldr max 0

/-- Capacity of the receive buffer. -/
def capacity (C : Collection) : Nat := 3 * maxLen C

/-- The handler call a message causes: message type and the payload cut into the type's fields. -/
def callOf (C : Collection) (h : Handler) (m : Msg) : Invocation :=
  let t := (typeOf C m.id).getD ⟨0, []⟩
  ⟨h, t, splitFields t.fields m.payload⟩

/-- The call of user-written code caused by a call of a handler object. -/
def userCall (i : Invocation) : Option UserCall :=
  match i.handler.kind with
  | .functor => some ⟨i.handler.obj, i.msg, i.args, false⟩
  | .parameterBase => some ⟨i.handler.obj, i.msg, i.args, true⟩
  | .partialBase ms => if i.msg ∈ ms then some ⟨i.handler.obj, i.msg, i.args, true⟩ else none

/-- The bytes a list of call-backs appends. -/
def appended : List Act → List Byte
  | [] => []
  | .append xs :: as => xs ++ appended as
  | _ :: as => appended as

/-- The handler after a list of call-backs. -/
def handlerAfter (h : Option Handler) : List Act → Option Handler
  | [] => h
  | .setHandler h' :: as => handlerAfter (some h') as
  | .clearHandler :: as => handlerAfter none as
  | _ :: as => handlerAfter h as

/-- Call-backs a handler may make without breaking the receiver, given the free space:
appends that fit and `setHandler`. -/
def Benign (acts : List Act) (free : Nat) : Prop :=
  (∀ a ∈ acts, a ≠ .clearHandler ∧ a ≠ .process) ∧ (appended acts).length ≤ free

/-- User code all of whose reactions are benign. -/
def BenignUser (user : UserCode) : Prop := ∀ calls free, Benign (user calls free).acts free

/-- User code whose reactions are benign from call number `n` on (counting from 0). -/
def BenignFrom (user : UserCode) (n : Nat) : Prop :=
  ∀ calls free, n < calls.length → Benign (user calls free).acts free

/-- Abstract state of a receiver. -/
structure AState where
  buf : List Byte
  handler : Option Handler
  last : Option Byte
  trace : List Invocation
  fed : List Byte

/-- Reaction to the last call of `trace` with `free` bytes of space: the user's, if user code is
reached, otherwise none. -/
def reaction (user : UserCode) (trace : List Invocation) (i : Invocation) (free : Nat) : Reaction :=
  match userCall i with
  | none => ⟨[], false⟩
  | some _ => user ((trace ++ [i]).filterMap userCall) free

/-- The abstract state just after the handler call for message `m` (still in front of `t`). -/
def afterCall (C : Collection) (user : UserCode) (s : AState) (h : Handler) (m : Msg)
    (t : List Byte) : AState × Bool :=
  let i := callOf C h m
  let re := reaction user s.trace i (capacity C - (frame C.envelope m ++ t).length)
  ({ buf := frame C.envelope m ++ t ++ appended re.acts
     handler := handlerAfter (some h) re.acts
     last := some m.id
     trace := s.trace ++ [i]
     fed := s.fed ++ appended re.acts }, re.throws)

/-- What `processMessages` does with a handler set: scan to a message, call, remove it, repeat;
stop when the scan is stuck or user code throws. The list is the messages handled and removed. -/
inductive Proc (C : Collection) (user : UserCode) :
    AState → List Msg → AState → Bool → Prop where
  | done {s : AState} {r : List Byte} :
      Decodes C s.buf [] r → Proc C user s [] { s with buf := r } false
  | throw {s : AState} {m : Msg} {t : List Byte} {h : Handler} :
      IsMsg C m → Run C s.buf [] (frame C.envelope m ++ t) → s.handler = some h →
      (afterCall C user s h m t).2 = true →
      Proc C user s [] (afterCall C user s h m t).1 true
  | msg {s s' : AState} {m : Msg} {t : List Byte} {h : Handler} {ms : List Msg} {thrown : Bool} :
      IsMsg C m → Run C s.buf [] (frame C.envelope m ++ t) → s.handler = some h →
      (afterCall C user s h m t).2 = false →
      Proc C user { (afterCall C user s h m t).1 with
        buf := (afterCall C user s h m t).1.buf.drop (frame C.envelope m).length } ms s' thrown →
      Proc C user s (m :: ms) s' thrown

/-- `Keeps C user n s`: one `processMessages` call started in `s` handles at least `n` messages. -/
inductive Keeps (C : Collection) (user : UserCode) : Nat → AState → Prop where
  | zero (s : AState) : Keeps C user 0 s
  | succ {s : AState} {m : Msg} {t : List Byte} {h : Handler} {n : Nat} :
      IsMsg C m → Run C s.buf [] (frame C.envelope m ++ t) → s.handler = some h →
      (afterCall C user s h m t).2 = false →
      Keeps C user n { (afterCall C user s h m t).1 with
        buf := (afterCall C user s h m t).1.buf.drop (frame C.envelope m).length } →
      Keeps C user (n + 1) s

/-- A well-behaved answer of a receive adapter that was allowed `limit` bytes: it writes at most
that many and returns the number written. -/
def GoodReply (limit : Nat) (r : RB.DeviceReply) : Prop :=
  r.written.length ≤ limit ∧ r.ret.toNat = r.written.length

/-- One API call on the abstract machine, with the messages it removed and what the caller saw.
There is no rule for an append that does not fit or for an adapter that misbehaves. -/
inductive Step (C : Collection) (user : UserCode) :
    AState → Op → List Msg → AState → Obs → Prop where
  | append {s : AState} {xs : List Byte} : s.buf.length + xs.length ≤ capacity C →
      Step C user s (.append xs) [] { s with buf := s.buf ++ xs, fed := s.fed ++ xs } .unit
  | receive {s : AState} {avail : Byte} {rcv : Byte → RB.DeviceReply} {limit : Nat} :
      limit = min avail.toNat (capacity C - s.buf.length) →
      GoodReply limit (rcv (UInt8.ofNat limit)) →
      Step C user s (.receiveFrom avail rcv) []
        { s with buf := s.buf ++ (rcv (UInt8.ofNat limit)).written,
                 fed := s.fed ++ (rcv (UInt8.ofNat limit)).written }
        (.count (rcv (UInt8.ofNat limit)).written.length)
  | setHandler {s : AState} {h : Handler} :
      Step C user s (.setHandler h) [] { s with handler := some h } .unit
  | clearHandler {s : AState} : Step C user s .clearHandler [] { s with handler := none } .unit
  | copy {s : AState} : Step C user s .copy [] s .unit
  | idle {s : AState} : s.handler = none →
      Step C user s .process [] s (.processed (.returned 0))
  | process {s s' : AState} {ms : List Msg} : s.handler.isSome → Proc C user s ms s' false →
      Step C user s .process ms s' (.processed (.returned (UInt8.ofNat ms.length)))
  | thrown {s s' : AState} {ms : List Msg} : s.handler.isSome → Proc C user s ms s' true →
      Step C user s .process ms s' (.processed .threw)

/-- A history of API calls on the abstract machine. -/
inductive Exec (C : Collection) (user : UserCode) :
    AState → List Op → List Msg → AState → List Obs → Prop where
  | nil (s : AState) : Exec C user s [] [] s []
  | cons {s s' s'' : AState} {op : Op} {ops : List Op} {ms ns : List Msg} {o : Obs}
      {os : List Obs} :
      Step C user s op ms s' o → Exec C user s' ops ns s'' os →
      Exec C user s (op :: ops) (ms ++ ns) s'' (o :: os)

/-- The abstract state of a new receiver. -/
def AState.new : AState := ⟨[], none, none, [], []⟩

/-- User code that never appends from a handler. -/
def Quiet (user : UserCode) : Prop := ∀ calls free, appended (user calls free).acts = []

/-- User code that never calls `appendReceived` from a handler (not even with nothing). -/
def NeverAppends (user : UserCode) : Prop :=
  ∀ calls free xs, Act.append xs ∉ (user calls free).acts

/-- User code that never throws. -/
def NeverThrows (user : UserCode) : Prop := ∀ calls free, (user calls free).throws = false

/-- User code that never changes the handler from a handler. -/
def KeepsHandler (user : UserCode) : Prop :=
  ∀ calls free h, handlerAfter h (user calls free).acts = h

/-- Message type and field contents of a call. -/
def seen (i : Invocation) : MsgType × List (List Byte) := (i.msg, i.args)

/-- Message type and field contents of a message on the wire. -/
def meaning (C : Collection) (m : Msg) : MsgType × List (List Byte) :=
  let t := (typeOf C m.id).getD ⟨0, []⟩
  (t, splitFields t.fields m.payload)

/-- What handler calls append, one after the other: `calls` are the calls with the free space each
one saw, `past` the calls before. -/
def appendedBy (user : UserCode) : List Invocation → List (Invocation × Nat) → List Byte
  | _, [] => []
  | past, (i, free) :: calls =>
    appended (reaction user past i free).acts ++ appendedBy user (past ++ [i]) calls

/-- User code whose decision to throw depends on the calls it got only. -/
def ThrowsByCalls (user : UserCode) : Prop := ∀ calls f f', (user calls f).throws = (user calls f').throws

/-- Among `calls`, made after those in `past`, is one to which user code reacts by throwing. -/
def SomeThrows (user : UserCode) (past calls : List Invocation) : Prop :=
  ∃ pre i post, calls = pre ++ i :: post ∧ (reaction user (past ++ pre) i 0).throws = true

/-- Each call goes to the handler the previous one left set; `h'` is what the last one leaves. -/
def Follows (user : UserCode) (h' : Option Handler) :
    Option Handler → List Invocation → List (Invocation × Nat) → Prop
  | h, _, [] => h' = h
  | h, past, (i, free) :: calls =>
    h = some i.handler ∧
      Follows user h' (handlerAfter h (reaction user past i free).acts) (past ++ [i]) calls

end TT.Spec
