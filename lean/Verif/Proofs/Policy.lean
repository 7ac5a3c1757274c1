import Verif.Spec.Policy
import Verif.Proofs.Send
import Verif.Proofs.Deliver

/-!
# Helper lemmas: serialization policies
-/

namespace TT
open Spec

/-! ### Sending -/

section Sending
variable {σ : Type} (P : Policy)

/-- An output of a serializer as an output of the specification. -/
def Output.toOut : Output → Out
  | .byte b => .byte b
  | .block bs => .block bs

/-- The outputs for the fields `vs`. -/
def Policy.outs : List Value → List Value → List Out
  | _, [] => []
  | prev, v :: vs => (P.buffer prev v).map Output.toOut ++ outs (prev ++ [v]) vs

theorem outputs_eq (T : Tx σ) (os : List Output) :
    ∀ s, outputs T s os = feed T s (os.map Output.toOut) := by
  induction os with
  | nil => intro s; rfl
  | cons o os ih =>
    intro s
    simp only [outputs, List.map_cons, feed_cons]
    have : o.run T s = o.toOut.on T s := by cases o <;> rfl
    rw [this]
    cases o.toOut.on T s with
    | error f => rfl
    | ok s' => exact ih s'

theorem Policy.bufferTuple_eq (T : Tx σ) (vs : List Value) :
    ∀ prev s, P.bufferTuple T prev s vs = feed T s (P.outs prev vs) := by
  induction vs with
  | nil => intro prev s; rfl
  | cons v vs ih =>
    intro prev s
    simp only [Policy.bufferTuple, Policy.outs, feed_append, outputs_eq]
    cases feed T s ((P.buffer prev v).map Output.toOut) with
    | error f => rfl
    | ok s' => exact ih _ s'

theorem outs_ne (vs : List Value) : ∀ prev, ∀ o ∈ P.outs prev vs, o ≠ .finished := by
  induction vs with
  | nil => intro prev o ho; simp [Policy.outs] at ho
  | cons v vs ih =>
    intro prev o ho
    simp only [Policy.outs, List.mem_append, List.mem_map] at ho
    rcases ho with ⟨x, _, rfl⟩ | ho
    · cases x <;> simp [Output.toOut]
    · exact ih _ o ho

theorem outBytes_toOut (os : List Output) : outBytes (os.map Output.toOut) = serialized os := by
  unfold outBytes serialized
  rw [List.map_map]
  congr 1
  refine List.map_congr_left fun o _ => ?_
  cases o <;> rfl

theorem outBytes_outs (vs : List Value) : ∀ prev,
    outBytes (P.outs prev vs) = payloadWith P prev vs := by
  induction vs with
  | nil => intro prev; rfl
  | cons v vs ih =>
    intro prev
    rw [Policy.outs, outBytes_append, ih, outBytes_toOut]; rfl

/-- Everything `send` outputs. -/
def Policy.script (E : Envelope) (id : Byte) (vs : List Value) : List Out :=
  [.byte 0x01, .byte id, .byte 0x02] ++ P.outs [] vs ++
    (match E with
      | .basic => [.byte 0x03, .byte 0x04]
      | .basicChecksum =>
        [.byte 0x03, .byte (byteSum ([0x01, id, 0x02] ++ payloadWith P [] vs ++ [0x03])),
          .byte 0x04]) ++
    [.finished]

theorem outBytes_policy_script (E : Envelope) (id : Byte) (vs : List Value) :
    outBytes (P.script E id vs) = frame E ⟨id, payloadWith P [] vs⟩ := by
  unfold Policy.script
  rw [outBytes_append, outBytes_append, outBytes_append, outBytes_outs]
  cases E <;> simp [outBytes, Out.bytes, frame]

theorem Policy.sendMessageBasic_eq (T : Tx σ) (s : σ) (vs : List Value) (id : Byte) :
    P.sendMessageBasic T s vs id =
      feed T s ([.byte 0x01, .byte id, .byte 0x02] ++ P.outs [] vs ++
        [.byte 0x03, .byte 0x04]) := by
  simp only [Policy.sendMessageBasic, List.cons_append, List.nil_append, feed_cons, feed_append,
    P.bufferTuple_eq, Out.on, SOH, STX, ETX, EOT]
  cases T.writeByte s 1 with
  | error f => rfl
  | ok s1 =>
    simp only [ok_bind, Except.bind]
    cases T.writeByte s1 id with
    | error f => rfl
    | ok s2 =>
      simp only [ok_bind]
      cases T.writeByte s2 2 with
      | error f => rfl
      | ok s3 =>
        simp only [ok_bind]
        cases feed T s3 (P.outs [] vs) with
        | error f => rfl
        | ok s4 =>
          simp only [ok_bind]
          cases T.writeByte s4 3 with
          | error f => rfl
          | ok s5 =>
            simp only [ok_bind]
            cases T.writeByte s5 4 <;> rfl

theorem Policy.sendMessageChecksum_eq (T : Tx σ) (s : σ) (vs : List Value) (id : Byte) :
    P.sendMessageChecksum T s vs id =
      feed T s ([.byte 0x01, .byte id, .byte 0x02] ++ P.outs [] vs ++
        [.byte 0x03, .byte (byteSum ([0x01, id, 0x02] ++ payloadWith P [] vs ++ [0x03])),
         .byte 0x04]) := by
  have h1 : P.sendMessageChecksum T s vs id =
      (feed (composition checksumComputer T) (checksumInit, s)
        ([.byte 0x01, .byte id, .byte 0x02] ++ P.outs [] vs ++ [.byte 0x03])).bind
        (fun p => feed T p.2 [.byte p.1, .byte 0x04]) := by
    simp only [Policy.sendMessageChecksum, List.cons_append, List.nil_append, feed_cons, feed_append,
      P.bufferTuple_eq, Out.on, SOH, STX, ETX, EOT]
    generalize (composition checksumComputer T).writeByte (checksumInit, s) 1 = r1
    cases r1 with
    | error f => rfl
    | ok p1 =>
      simp only [ok_bind, Except.bind]
      cases (composition checksumComputer T).writeByte p1 id with
      | error f => rfl
      | ok p2 =>
        simp only [ok_bind]
        cases (composition checksumComputer T).writeByte p2 2 with
        | error f => rfl
        | ok p3 =>
          simp only [ok_bind]
          cases feed (composition checksumComputer T) p3 (P.outs [] vs) with
          | error f => rfl
          | ok p4 =>
            simp only [ok_bind]
            cases (composition checksumComputer T).writeByte p4 3 with
            | error f => rfl
            | ok p5 =>
              simp only [ok_bind, feed]
              cases T.writeByte p5.2 p5.1 with
              | error f => rfl
              | ok s6 =>
                simp only [ok_bind]
                cases T.writeByte s6 4 <;> rfl
  rw [h1, composition_checksum_feed]
  · have hb : outBytes ([.byte 0x01, .byte id, .byte 0x02] ++ P.outs [] vs ++ [.byte 0x03]) =
        [0x01, id, 0x02] ++ payloadWith P [] vs ++ [0x03] := by
      rw [outBytes_append, outBytes_append, outBytes_outs]
      simp [outBytes, Out.bytes]
    have hs : ([.byte 0x01, .byte id, .byte 0x02] ++ P.outs [] vs ++
        [.byte 0x03, .byte (byteSum ([0x01, id, 0x02] ++ payloadWith P [] vs ++ [0x03])),
          .byte 0x04]) =
        ([.byte 0x01, .byte id, .byte 0x02] ++ P.outs [] vs ++ [.byte 0x03]) ++
        [.byte (byteSum ([0x01, id, 0x02] ++ payloadWith P [] vs ++ [0x03])), .byte 0x04] := by simp
    rw [hs, feed_snoc2, hb]
    cases feed T s ([.byte 0x01, .byte id, .byte 0x02] ++ P.outs [] vs ++ [.byte 0x03]) with
    | error f => rfl
    | ok s' => simp [Except.bind, checksumInit]
  · intro o ho
    simp only [List.mem_append, List.mem_cons, List.not_mem_nil, or_false] at ho
    rcases ho with ((rfl | rfl | rfl) | ho) | rfl
    · simp
    · simp
    · simp
    · exact outs_ne P vs [] o ho
    · simp

/-- `send` with a policy is the script run on the transmitter, when the call compiles. -/
theorem Policy.send_eq (C : Collection) (t : MsgType) (T : Tx σ) (s : σ) (vs : List Value)
    (h : Sendable C t vs) {id : Byte} (hid : idOf C t id) :
    P.send C t T s vs = some (feed T s (P.script C.envelope id vs)) := by
  obtain ⟨h1, h2, h3⟩ := h
  have hcomp : (C.compiles && contentsMatch t vs) = true := by
    simp only [Collection.compiles, contentsMatch, Bool.and_eq_true, decide_eq_true_eq]
    exact ⟨⟨List.ne_nil_of_mem h2, h1⟩, h3⟩
  unfold Policy.send
  rw [if_pos hcomp, (messageId_spec h1).mpr hid]
  simp only
  congr 1
  unfold Policy.sendMessage Policy.script
  cases C.envelope
  · simp only [P.sendMessageBasic_eq]
    rw [feed_finished]; rfl
  · simp only [P.sendMessageChecksum_eq]
    rw [feed_finished]; rfl

/-- The values whose object representations are what the policy outputs. -/
def Policy.encoded : List Value → List Value → List Value
  | _, [] => []
  | prev, v :: vs => ⟨v.ty, serialized (P.buffer prev v)⟩ :: encoded (prev ++ [v]) vs

theorem encoded_types (vs : List Value) : ∀ prev,
    (P.encoded prev vs).map (·.ty) = vs.map (·.ty) := by
  induction vs with
  | nil => intro prev; rfl
  | cons v vs ih => intro prev; simp [Policy.encoded, ih]

theorem payloadOf_encoded (vs : List Value) : ∀ prev,
    payloadOf (P.encoded prev vs) = payloadWith P prev vs := by
  induction vs with
  | nil => intro prev; rfl
  | cons v vs ih =>
    intro prev
    have := ih (prev ++ [v])
    simp only [payloadOf] at this
    simp [Policy.encoded, payloadWith, payloadOf, this]

variable {P}
variable {dec : FieldType → List Byte → List Byte}

theorem encoded_fits (hP : Exact P dec) (vs : List Value) : ∀ prev,
    (∀ v ∈ vs, Value.Fits v) → ∀ v ∈ P.encoded prev vs, Value.Fits v := by
  induction vs with
  | nil => intro prev _ v hv; simp [Policy.encoded] at hv
  | cons v vs ih =>
    intro prev hf x hx
    simp only [Policy.encoded, List.mem_cons] at hx
    rcases hx with rfl | hx
    · exact hP.size prev v (hf v (by simp))
    · exact ih _ (fun v hv => hf v (by simp [hv])) x hx

theorem decode_encoded (hP : Exact P dec) (vs : List Value) : ∀ prev,
    (∀ v ∈ vs, Value.Fits v) →
    List.zipWith dec (vs.map (·.ty)) ((P.encoded prev vs).map (·.bytes)) = vs.map (·.bytes) := by
  induction vs with
  | nil => intro prev _; rfl
  | cons v vs ih =>
    intro prev hf
    simp only [Policy.encoded, List.map_cons, List.zipWith_cons_cons]
    rw [hP.inverse prev v (hf v (by simp)), ih _ (fun v hv => hf v (by simp [hv]))]

end Sending

/-! ### Receiving -/

section Receiving
variable {C : Collection} {P : Policy} {dec : FieldType → List Byte → List Byte} {B : Build}
  {user : UserCode}

/-- Decode the arguments of a call. -/
abbrev decI (dec : FieldType → List Byte → List Byte) (i : Invocation) : Invocation :=
  { i with args := List.zipWith dec i.msg.fields i.args }

/-- Decode the arguments of a call of user code. -/
abbrev decU (dec : FieldType → List Byte → List Byte) (c : UserCall) : UserCall :=
  { c with args := List.zipWith dec c.msg.fields c.args }

theorem dispatch_decI (i : Invocation) : dispatch (decI dec i) = (dispatch i).map (decU dec) := by
  unfold dispatch
  cases i.handler.kind with
  | functor => rfl
  | parameterBase => rfl
  | partialBase ms => simp only; split <;> rfl

theorem unbuffer_eq (contents : List Byte) (it : Nat) (f : FieldType) :
    unbuffer contents it f = if it + fieldSize f ≤ contents.length
      then .ok ((contents.drop it).take (fieldSize f), it + fieldSize f) else .error .ub := by
  cases f with
  | uint8 =>
    unfold unbuffer RB.rawGet
    have hf : fieldSize .uint8 = 1 := rfl
    rw [hf]
    by_cases h : it + 1 ≤ contents.length
    · rw [if_pos h]
      have h' : it < contents.length := by omega
      rw [List.getElem?_eq_getElem h']
      simp only [ok_bind, pure_eq_ok]
      rw [List.take_one, List.head?_drop, List.getElem?_eq_getElem h']
      rfl
    · rw [if_neg h, List.getElem?_eq_none (by omega)]
      rfl
  | pod ty n => rfl

theorem deserialize_eq (hP : Reads P dec) (contents : List Byte) (fs : List FieldType) :
    ∀ (it : Nat) (done : List FieldType) (acc : List (List Byte)), acc.length = done.length →
    P.deserialize contents it fs (List.zipWith dec done acc) =
      (deserialize contents it fs acc).map (List.zipWith dec (done ++ fs)) := by
  induction fs with
  | nil => intro it done acc _; simp [Policy.deserialize, deserialize, Except.map]
  | cons f fs ih =>
    intro it done acc hl
    unfold Policy.deserialize deserialize
    rw [hP, unbuffer_eq]
    split
    · simp only [ok_bind]
      have := ih (it + fieldSize f) (done ++ [f])
        (acc ++ [(contents.drop it).take (fieldSize f)]) (by simp [hl])
      rw [List.zipWith_append hl.symm] at this
      simp only [List.zipWith_cons_cons, List.zipWith_nil_left, List.append_assoc,
        List.cons_append, List.nil_append] at this
      exact this
    · rfl

theorem policy_invoke_eq (hP : Reads P dec) (r : Receiver C) (id : Byte) :
    P.invoke r id = (r.invoke id).map (Option.map (decI dec)) := by
  unfold Policy.invoke Receiver.invoke
  cases r.invoker with
  | none => rfl
  | some k =>
    cases r.functorPointer with
    | none => rfl
    | some o =>
      simp only
      rw [applyAt_eq, applyAt_eq]
      cases C.messages[id.toNat]? with
      | none => rfl
      | some m =>
        simp only
        have := deserialize_eq hP r.recv.buf.contents m.fields r.recv.getDataIterator [] [] rfl
        simp only [List.zipWith_nil_left, List.nil_append] at this
        rw [this]
        cases deserialize r.recv.buf.contents r.recv.getDataIterator m.fields [] with
        | error f => rfl
        | ok args => rfl

/-- The result of a computation with the world decoded. -/
abbrev mapW (dec : FieldType → List Byte → List Byte) {α : Type} (x : Res (World C × α)) :
    Res (World C × α) := x.map fun p => (decodedWorld dec p.1, p.2)

theorem append_dec (w : World C) (xs : List Byte) :
    (decodedWorld dec w).append B xs = (w.append B xs).map (decodedWorld dec) := by
  have hr : (decodedWorld dec w).rx = w.rx := rfl
  unfold World.append
  rw [hr]
  cases w.rx.appendReceived B xs with
  | error f => rfl
  | ok r => rfl

theorem runActs_dec {n1 n2 : World C → Res (World C × Outcome)}
    (hn : ∀ w, n2 (decodedWorld dec w) = mapW dec (n1 w)) (acts : List Act) :
    ∀ w : World C, World.runActs B n2 (decodedWorld dec w) acts =
      mapW dec (World.runActs B n1 w acts) := by
  induction acts with
  | nil => intro w; rfl
  | cons a as ih =>
    intro w
    cases a with
    | append xs =>
      unfold World.runActs
      rw [append_dec]
      cases w.append B xs with
      | error f => rfl
      | ok w' => exact ih w'
    | setHandler h => exact ih { w with rx := w.rx.setHandler h }
    | clearHandler => exact ih { w with rx := w.rx.clearHandler }
    | process =>
      unfold World.runActs
      rw [hn w]
      cases n1 w with
      | error f => rfl
      | ok p =>
        obtain ⟨w1, o⟩ := p
        cases o with
        | threw => rfl
        | returned n => exact ih w1

theorem userCalls_dec (w : World C) :
    (decodedWorld dec w).userCalls = w.userCalls.map (decU dec) := by
  unfold World.userCalls decodedWorld
  simp only
  rw [List.filterMap_map, List.map_filterMap]
  congr 1
  funext i
  exact dispatch_decI i

theorem callHandler_dec {n1 n2 : World C → Res (World C × Outcome)}
    (hn : ∀ w, n2 (decodedWorld dec w) = mapW dec (n1 w)) (w : World C) (i : Invocation) :
    World.callHandler B user n2 (decodedWorld dec w) (decI dec i) =
      mapW dec (World.callHandler B (decoded dec user) n1 w i) := by
  unfold World.callHandler
  have e : ({ decodedWorld dec w with trace := (decodedWorld dec w).trace ++ [decI dec i] } :
      World C) = decodedWorld dec { w with trace := w.trace ++ [i] } := by
    unfold decodedWorld; simp
  simp only
  rw [e, dispatch_decI]
  cases dispatch i with
  | none => rfl
  | some c =>
    simp only [Option.map_some]
    rw [userCalls_dec]
    generalize ({ w with trace := w.trace ++ [i] } : World C) = w1
    have hr : (decodedWorld dec w).rx = w.rx := rfl
    have hu : decoded dec user w1.userCalls w.rx.getBufferAvailableSpace =
      user (w1.userCalls.map (decU dec)) w.rx.getBufferAvailableSpace := rfl
    rw [hr, hu]
    generalize user (w1.userCalls.map (decU dec)) w.rx.getBufferAvailableSpace = re
    rw [runActs_dec hn]
    cases World.runActs B n1 w1 re.acts with
    | error f => rfl
    | ok p => rfl

theorem policy_processLoop_eq (hP : Reads P dec) (fuel : Nat) : ∀ (w : World C) (k : Byte),
    P.processLoop B user fuel (decodedWorld dec w) k =
      mapW dec (World.processLoop B (decoded dec user) fuel w k) := by
  induction fuel with
  | zero => intro w k; rfl
  | succ fuel ih =>
    intro w k
    unfold Policy.processLoop World.processLoop
    have hr : (decodedWorld dec w).rx = w.rx := rfl
    rw [hr]
    cases w.rx.recv.checkBufferForMessage B with
    | error f => rfl
    | ok x =>
      obtain ⟨e, found⟩ := x
      simp only [ok_bind]
      cases found with
      | false => rfl
      | true =>
        simp only [Bool.not_true, Bool.false_eq_true, if_false]
        cases e.getCurrentMessageId B with
        | error f => rfl
        | ok id =>
          simp only [ok_bind]
          rw [policy_invoke_eq hP]
          cases Receiver.invoke ({ w.rx with recv := e, lastMessageId := some id } : Receiver C) id with
          | error f => rfl
          | ok i? =>
            simp only [Except.map, ok_bind]
            have ew : ({ decodedWorld dec w with
                rx := { w.rx with recv := e, lastMessageId := some id } } : World C) =
                decodedWorld dec { w with rx := { w.rx with recv := e, lastMessageId := some id } } :=
              rfl
            rw [ew]
            generalize ({ w with rx := { w.rx with recv := e, lastMessageId := some id } } :
              World C) = w1
            have hn : ∀ w2 : World C, (if !(decodedWorld dec w2).rx.hasHandler then
                .ok (decodedWorld dec w2, .returned 0)
                else P.processLoop B user fuel (decodedWorld dec w2) 0) =
                mapW dec (if !w2.rx.hasHandler then .ok (w2, .returned 0)
                  else World.processLoop B (decoded dec user) fuel w2 0) := by
              intro w2
              have : (decodedWorld dec w2).rx = w2.rx := rfl
              rw [this]
              split
              · rfl
              · exact ih w2 0
            have rest : ∀ x : Res (World C × Bool), (mapW dec x >>= fun p =>
                if p.2 = true then (pure (p.1, Outcome.threw) : Res (World C × Outcome)) else do
                  let e ← p.1.rx.recv.popMessage B
                  P.processLoop B user fuel { p.1 with rx := { p.1.rx with recv := e } } (k + 1)) =
                mapW dec (x >>= fun p =>
                if p.2 = true then (pure (p.1, Outcome.threw) : Res (World C × Outcome)) else do
                  let e ← p.1.rx.recv.popMessage B
                  World.processLoop B (decoded dec user) fuel
                    { p.1 with rx := { p.1.rx with recv := e } } (k + 1)) := by
              intro x
              cases x with
              | error f => rfl
              | ok p =>
                obtain ⟨w2, t⟩ := p
                cases t with
                | true => rfl
                | false =>
                  simp only [mapW, Except.map, ok_bind, Bool.false_eq_true, if_false]
                  have hr2 : (decodedWorld dec w2).rx = w2.rx := rfl
                  rw [hr2]
                  cases w2.rx.recv.popMessage B with
                  | error f => rfl
                  | ok e2 => exact ih { w2 with rx := { w2.rx with recv := e2 } } (k + 1)
            cases i? with
            | none => exact rest (.ok (w1, false))
            | some i =>
              simp only [Option.map_some]
              rw [callHandler_dec hn]
              exact rest _

theorem policy_step_eq (hP : Reads P dec) (fuel : Nat) (w : World C) (op : Op) :
    P.step B user fuel (decodedWorld dec w) op =
      mapW dec (w.step B (decoded dec user) fuel op) := by
  cases op with
  | append xs =>
    change (decodedWorld dec w).step B user fuel (.append xs) = _
    unfold World.step
    simp only
    rw [append_dec]
    cases w.append B xs with
    | error f => rfl
    | ok w' => rfl
  | receiveFrom a rcv =>
    change (decodedWorld dec w).step B user fuel (.receiveFrom a rcv) = _
    unfold World.step
    have hr : (decodedWorld dec w).rx = w.rx := rfl
    simp only
    rw [hr]
    cases w.rx.receiveFrom B { numAvailable := a, receive := rcv } with
    | error f => rfl
    | ok r => rfl
  | setHandler h => rfl
  | clearHandler => rfl
  | copy =>
    change (decodedWorld dec w).step B user fuel .copy = _
    unfold World.step
    have hr : (decodedWorld dec w).rx = w.rx := rfl
    simp only
    rw [hr]
    cases w.rx.copyConstruct with
    | error f => rfl
    | ok r => rfl
  | process =>
    unfold Policy.step World.step Policy.processMessages World.processMessages
    have : (decodedWorld dec w).rx = w.rx := rfl
    rw [this]
    simp only
    split
    · rfl
    · rw [policy_processLoop_eq hP]
      cases World.processLoop B (decoded dec user) fuel w 0 with
      | error f => rfl
      | ok p => rfl

theorem policy_run_eq (hP : Reads P dec) (fuel : Nat) (ops : List Op) : ∀ w : World C,
    P.run B user fuel (decodedWorld dec w) ops =
      mapW dec (w.run B (decoded dec user) fuel ops) := by
  induction ops with
  | nil => intro w; rfl
  | cons op ops ih =>
    intro w
    unfold Policy.run World.run
    rw [policy_step_eq hP]
    cases w.step B (decoded dec user) fuel op with
    | error f => rfl
    | ok p =>
      obtain ⟨w1, o⟩ := p
      simp only [mapW, Except.map, ok_bind]
      rw [ih]
      cases w1.run B (decoded dec user) fuel ops with
      | error f => rfl
      | ok q => rfl

theorem policy_legal (hP : Reads P dec) (fuel : Nat) (ops : List Op) : ∀ w : World C,
    P.Legal B user fuel (decodedWorld dec w) ops → Legal B (decoded dec user) fuel w ops := by
  induction ops with
  | nil => intro w _; trivial
  | cons op ops ih =>
    intro w h
    obtain ⟨h1, h2⟩ := h
    have h1' : OpLegal w op := by cases op <;> exact h1
    refine ⟨h1', fun w' o hs => ih w' (h2 (decodedWorld dec w') o ?_)⟩
    rw [policy_step_eq hP, hs]; rfl

end Receiving
end TT
