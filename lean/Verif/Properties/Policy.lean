import Verif.Proofs.Policy
import Verif.Properties.EndToEnd

/-!
# Property of other serialization policies: C78
-/

namespace TT.Properties
open Spec

variable {C : Collection} {B : Build} {user : UserCode} {fuel : Nat}

/-! ### C78 -/

/-- Several sends with policy `P`. -/
def sendAllWith {σ : Type} (P : Policy) (T : Tx σ) : σ → List Request → Option (Res σ)
  | s, [] => some (.ok s)
  | s, r :: rs => match P.send r.C r.t T s r.vs with
    | some (.ok s') => sendAllWith P T s' rs
    | other => other

theorem outputs_single {σ : Type} (T : Tx σ) (s : σ) (o : Output) :
    outputs T s [o] = o.run T s := by
  unfold outputs
  cases o.run T s <;> rfl

theorem bitwiseCopy_field {σ : Type} (T : Tx σ) (s : σ) (prev : List Value) (v : Value) :
    outputs T s (bitwiseCopy.buffer prev v) = bufferField T s v := by
  obtain ⟨ty, bytes⟩ := v
  unfold bitwiseCopy bufferField
  simp only
  split
  · rw [outputs_single]; rfl
  · rename_i hne
    rw [outputs_single]
    first
      | rfl
      | split
        · exact absurd rfl (fun h => hne _ rfl h)
        · rfl

theorem bitwiseCopy_tuple {σ : Type} (T : Tx σ) (vs : List Value) : ∀ prev s,
    bitwiseCopy.bufferTuple T prev s vs = bufferTuple T s vs := by
  induction vs with
  | nil => intro prev s; rfl
  | cons v vs ih =>
    intro prev s
    unfold Policy.bufferTuple bufferTuple
    rw [bitwiseCopy_field]
    simp only [ih]

/-- C78. With `BitwiseCopy` the functions with a policy are those of the rest of the model: sending. -/
theorem C78_same_send {σ : Type} (t : MsgType) (T : Tx σ) (s : σ) (vs : List Value) :
    bitwiseCopy.send C t T s vs = send C t T s vs := by
  unfold Policy.send send Policy.sendMessage sendMessage Policy.sendMessageBasic
    Policy.sendMessageChecksum sendMessageBasic sendMessageChecksum
  simp only [bitwiseCopy_tuple] <;> rfl

theorem exact_bitwiseCopy : Exact bitwiseCopy fun _ bs => bs where
  size prev v hv := by
    obtain ⟨ty, bytes⟩ := v
    unfold Value.Fits at hv
    unfold bitwiseCopy serialized
    simp only
    rw [← hv]
    split <;> simp
  reads := unbuffer_eq
  inverse prev v hv := by
    obtain ⟨ty, bytes⟩ := v
    unfold bitwiseCopy serialized
    simp only
    split <;> simp

theorem bitwiseCopy_deserialize (contents : List Byte) (fs : List FieldType) : ∀ it acc,
    bitwiseCopy.deserialize contents it fs acc = deserialize contents it fs acc := by
  induction fs with
  | nil => intro it acc; rfl
  | cons f fs ih =>
    intro it acc
    unfold Policy.deserialize deserialize
    simp only [ih]
    rfl

theorem bitwiseCopy_invoke (r : Receiver C) (id : Byte) :
    bitwiseCopy.invoke r id = r.invoke id := by
  unfold Policy.invoke Receiver.invoke
  simp only [bitwiseCopy_deserialize] <;> rfl

theorem bitwiseCopy_loop (fuel : Nat) : ∀ (w : World C) (k : Byte),
    bitwiseCopy.processLoop B user fuel w k = World.processLoop B user fuel w k := by
  induction fuel with
  | zero => intro w k; rfl
  | succ fuel ih =>
    intro w k
    unfold Policy.processLoop World.processLoop
    simp only [ih, bitwiseCopy_invoke] <;> rfl

/-- C78. With `BitwiseCopy` the functions with a policy are those of the rest of the model:
receiving. -/
theorem C78_same_receiver (ops : List Op) : ∀ w : World C,
    bitwiseCopy.run B user fuel w ops = w.run B user fuel ops := by
  induction ops with
  | nil => intro w; rfl
  | cons op ops ih =>
    intro w
    unfold Policy.run World.run
    have : bitwiseCopy.step B user fuel w op = w.step B user fuel op := by
      cases op <;> try rfl
      unfold Policy.step World.step Policy.processMessages World.processMessages
      simp only [bitwiseCopy_loop]
    rw [this]
    simp only [ih]

/-- C78. Sending with any policy at all puts the frame of the policy's payload on a faithful
transmitter, whatever the sizes. -/
theorem C78_send {σ : Type} {T : Tx σ} {log : σ → List Byte} (hT : Faithful T log) (P : Policy)
    {t : MsgType} {vs : List Value} (h : Sendable C t vs) (s : σ) : ∃ s',
    P.send C t T s vs = some (.ok s') ∧ log s' = log s ++
      frame C.envelope ⟨UInt8.ofNat (C.messages.idxOf t), payloadWith P [] vs⟩ := by
  have hid := idOf_idxOf h.1 h.2.1
  obtain ⟨s1, h1, h2⟩ := hT.feed (P.script C.envelope _ vs) s
  exact ⟨s1, by rw [P.send_eq C t T s vs h hid, h1], by rw [h2, outBytes_policy_script]⟩

/-- C78. A receiver whose deserializer reads as many bytes as the types have behaves, from any state and under any calls, legal or not,
as the receiver of the rest of the model: same results, same buffer, same faults; only the values
given to the handler are decoded. -/
theorem C78_receiver {P : Policy} {dec : FieldType → List Byte → List Byte} (hP : Reads P dec)
    (ops : List Op) (w : World C) :
    P.run B user fuel (decodedWorld dec w) ops =
      (w.run B (decoded dec user) fuel ops).map fun p => (decodedWorld dec p.1, p.2) :=
  policy_run_eq hP fuel ops w

/-- A legal history of a receiver with an exact policy is one of a receiver with BitwiseCopy. -/
theorem Policy.Reached.plain {P : Policy} {dec : FieldType → List Byte → List Byte}
    (hP : Reads P dec) {ops : List Op} {w : World C} {os : List Obs}
    (h : P.Reached B user fuel ops w os) : ∃ w0 : World C,
    Reached B (decoded dec user) fuel ops w0 os ∧ w = decodedWorld dec w0 := by
  have hr := h.run
  have e : World.new C = decodedWorld dec (World.new C) := rfl
  rw [e, policy_run_eq hP] at hr
  cases hw : (World.new C).run B (decoded dec user) fuel ops with
  | error f => rw [hw] at hr; cases hr
  | ok p =>
    rw [hw] at hr
    obtain ⟨w0, os0⟩ := p
    simp only [mapW, Except.map, Except.ok.injEq, Prod.mk.injEq] at hr
    obtain ⟨h1, rfl⟩ := hr
    exact ⟨w0, ⟨policy_legal hP fuel ops _ (by rw [← e]; exact h.legal), hw⟩, h1.symm⟩

/-- The request whose object representations are what the policy outputs. -/
def Request.encoded (P : Policy) (r : Request) : Request := { r with vs := P.encoded [] r.vs }

theorem Request.Good.encoded {P : Policy} {dec : FieldType → List Byte → List Byte}
    (hP : Exact P dec) {r : Request} (h : r.Good C) : (r.encoded P).Good C :=
  ⟨h.1, ⟨h.2.1.1, h.2.1.2.1, by
    simpa [Request.encoded, encoded_types] using h.2.1.2.2⟩,
    encoded_fits hP r.vs [] h.2.2⟩

theorem sendAllWith_faithful {σ : Type} {T : Tx σ} {log : σ → List Byte} (hT : Faithful T log)
    (P : Policy) (rs : List Request) (hrs : ∀ r ∈ rs, r.C = C ∧ Sendable C r.t r.vs) :
    ∀ s : σ, ∃ s', sendAllWith P T s rs = some (.ok s') ∧
      log s' = log s ++ frames C.envelope (rs.map fun r => (r.encoded P).msg) := by
  induction rs with
  | nil => intro s; exact ⟨s, rfl, by simp [frames]⟩
  | cons r rs ih =>
    intro s
    obtain ⟨hC, hs⟩ := hrs r (by simp)
    obtain ⟨s1, h1, h2⟩ := C78_send hT P hs s
    obtain ⟨s2, h3, h4⟩ := ih (fun r' hr' => hrs r' (by simp [hr'])) s1
    refine ⟨s2, ?_, ?_⟩
    · unfold sendAllWith
      rw [hC, h1]
      exact h3
    · rw [h4, h2, List.map_cons, frames_cons]
      have : (r.encoded P).msg =
          ⟨UInt8.ofNat (C.messages.idxOf r.t), payloadWith P [] r.vs⟩ := by
        unfold Request.msg Request.encoded
        simp only
        rw [payloadOf_encoded, hC]
      rw [this, List.append_assoc]

/-- C78. With an exact policy on both sides: messages sent through any byte-faithful transmitter and
received in any legal way are delivered exactly once each, in order, with the values that were sent
(not their encodings), and nothing is left. -/
theorem C78_round_trip {σ : Type} {T : Tx σ} {log : σ → List Byte} (hT : Faithful T log)
    {P : Policy} {dec : FieldType → List Byte → List Byte} (hP : Exact P dec)
    (S : Setting C B user) (hn : NeverThrows user)
    (rs : List Request) (hrs : ∀ r ∈ rs, r.Good C) (s s' : σ)
    (hsend : sendAllWith P T s rs = some (.ok s'))
    {ops : List Op} {w : World C} {os : List Obs}
    (h : P.Reached B user fuel (ops ++ [.process]) w os) (hh : w.rx.hasHandler = true)
    (hfed : log s' = log s ++ w.fed) :
    delivered w = rs.map (fun r => (r.t, r.vs.map (·.bytes))) ∧ buffered w = [] := by
  obtain ⟨w0, h0, rfl⟩ := Policy.Reached.plain hP.reads h
  have S' : Setting C B (decoded dec user) := ⟨S.arith, fun calls free => S.benign _ free⟩
  have hn' : NeverThrows (decoded dec user) := fun calls free => hn _ free
  obtain ⟨s2, h1, h2⟩ := sendAllWith_faithful hT P rs (fun r hr => ⟨(hrs r hr).1, (hrs r hr).2.1⟩) s
  obtain ⟨s3, h3, h4⟩ := sendAll_faithful hT (rs.map (Request.encoded P)) (by
    intro r hr
    obtain ⟨r', hr', rfl⟩ := List.mem_map.mp hr
    exact (hrs r' hr').encoded hP) s
  rw [hsend] at h1
  simp only [Option.some.injEq, Except.ok.injEq] at h1
  subst h1
  have e : log s3 = log s ++ w0.fed := by
    rw [h4, List.map_map]
    have : log s' = log s ++ w0.fed := hfed
    rw [← this, h2]
    rfl
  obtain ⟨hd, hb⟩ := C25_round_trip hT S' hn' (rs.map (Request.encoded P)) (by
    intro r hr
    obtain ⟨r', hr', rfl⟩ := List.mem_map.mp hr
    exact (hrs r' hr').encoded hP) s s3 h3 h0 hh e
  refine ⟨?_, hb⟩
  have hd' : delivered (decodedWorld dec w0) =
      (delivered w0).map fun p => (p.1, List.zipWith dec p.1.fields p.2) := by
    unfold delivered decodedWorld
    simp only [List.map_map]
    rfl
  rw [hd', hd, List.map_map, List.map_map]
  refine List.map_congr_left fun r hr => ?_
  simp only [Function.comp, Request.encoded]
  have := (hrs r hr).2.1.2.2
  rw [← this, decode_encoded hP r.vs [] (hrs r hr).2.2]

/-- C78. Why exactness is needed: if the policy makes fewer bytes of a message than the sizes of its
field types add up to, a receiver given the whole transmission of it waits for more: it keeps all
of it in the buffer and delivers nothing, however often it is asked. -/
theorem C78_short {σ : Type} {T : Tx σ} {log : σ → List Byte} (hT : Faithful T log)
    {P : Policy} {dec : FieldType → List Byte → List Byte} (hP : Reads P dec)
    (S : Setting C B user) (hn : NeverThrows user) {t : MsgType} {vs : List Value}
    (hs : Sendable C t vs) (hshort : (payloadWith P [] vs).length < payloadSize t) (s s' : σ)
    (hsend : P.send C t T s vs = some (.ok s'))
    {ops : List Op} {w : World C} {os : List Obs}
    (h : P.Reached B user fuel (ops ++ [.process]) w os) (hh : w.rx.hasHandler = true)
    (hfed : log s' = log s ++ w.fed) :
    delivered w = [] ∧ buffered w = w.fed ∧ w.fed ≠ [] := by
  obtain ⟨w0, h0, rfl⟩ := Policy.Reached.plain hP h
  have S' : Setting C B (decoded dec user) := ⟨S.arith, fun calls free => S.benign _ free⟩
  have hn' : NeverThrows (decoded dec user) := fun calls free => hn _ free
  obtain ⟨s2, h1, h2⟩ := C78_send hT P hs s
  rw [hsend] at h1
  simp only [Option.some.injEq, Except.ok.injEq] at h1
  subst h1
  rw [hfed] at h2
  have hf : w0.fed = _ := List.append_cancel_left h2
  obtain ⟨ms, hd, e⟩ := h0.polled S' hn' hh
  have hid := (idOf_idxOf hs.1 hs.2.1).1
  have hw : Waiting C w0.fed := by
    refine Or.inr (Or.inr ⟨UInt8.ofNat (C.messages.idxOf t),
      (frame C.envelope ⟨UInt8.ofNat (C.messages.idxOf t), payloadWith P [] vs⟩).drop 3,
      overhead C.envelope + payloadSize t, ?_, ?_, ?_⟩)
    · unfold announced typeOf; rw [hid]; rfl
    · rw [hf]; unfold frame; cases C.envelope <;> simp
    · rw [hf, frame_length]; simp only; omega
  obtain ⟨e1, e2⟩ := hd.unique ⟨Run.refl _, Or.inr hw⟩
  have ht : delivered w0 = [] := by rw [e, e1]; rfl
  refine ⟨?_, e2, ?_⟩
  · unfold delivered at ht ⊢
    have := List.map_eq_nil_iff.mp ht
    unfold decodedWorld
    simp [this]
  · change w0.fed ≠ []
    rw [hf]; unfold frame; cases C.envelope <;> simp

/-- And back: how the examples below obtain their histories. -/
theorem Policy.Reached.of_plain {P : Policy} {dec : FieldType → List Byte → List Byte}
    (hP : Reads P dec) {ops : List Op} {w : World C} {os : List Obs}
    (h : Reached B (decoded dec user) fuel ops w os) :
    P.Reached B user fuel ops (decodedWorld dec w) os := by
  have e : World.new C = decodedWorld dec (World.new C) := rfl
  have key : ∀ (ops : List Op) (w : World C), Legal B (decoded dec user) fuel w ops →
      P.Legal B user fuel (decodedWorld dec w) ops := by
    intro ops
    induction ops with
    | nil => intro w _; trivial
    | cons op ops ih =>
      intro w h
      obtain ⟨h1, h2⟩ := h
      have h1' : OpLegal (decodedWorld dec w) op := by cases op <;> exact h1
      refine ⟨h1', fun w' o hs => ?_⟩
      rw [policy_step_eq hP] at hs
      cases hw : w.step B (decoded dec user) fuel op with
      | error f => rw [hw] at hs; cases hs
      | ok p =>
        rw [hw] at hs
        simp only [mapW, Except.map, Except.ok.injEq, Prod.mk.injEq] at hs
        rw [← hs.1]
        exact ih p.1 (h2 p.1 p.2 hw)
  refine ⟨key ops _ h.legal, ?_⟩
  rw [e, policy_run_eq hP, h.run]
  rfl

/-- A policy for a wire with the bytes of each field reversed, output one at a time. -/
def bigEndian : Policy where
  buffer _ v := v.bytes.reverse.map .byte
  unbuffer contents it f :=
    if it + fieldSize f ≤ contents.length
    then .ok (((contents.drop it).take (fieldSize f)).reverse, it + fieldSize f) else .error .ub

theorem serialized_bytes (bs : List Byte) : serialized (bs.map .byte) = bs := by
  unfold serialized
  induction bs with
  | nil => rfl
  | cons b bs ih => simpa using ih

theorem exact_bigEndian : Exact bigEndian fun _ bs => bs.reverse where
  size prev v hv := by
    unfold Value.Fits at hv
    change (serialized (v.bytes.reverse.map .byte)).length = _
    rw [serialized_bytes, List.length_reverse, hv]
  reads contents it f := rfl
  inverse prev v hv := by
    change (serialized (v.bytes.reverse.map .byte)).reverse = _
    rw [serialized_bytes, List.reverse_reverse]

/-- As `bigEndian`, but the serializer stops a field at the first zero byte. -/
def shortening : Policy where
  buffer _ v := [.block (v.bytes.takeWhile (· ≠ 0))]
  unbuffer := bigEndian.unbuffer

/-- `pose` on the wire of `bigEndian`, in two pieces. -/
def sessionBig : List Op :=
  [.append [1, 2, 2, 1, 3, 2], .setHandler Sample.h0, .process, .append [0, 1, 4, 3, 3, 4]]

example : ∃ (w : World Sample.basic) (os : List Obs),
    bigEndian.Reached Sample.dbg Sample.passive 50 (sessionBig ++ [.process]) w os ∧
    delivered w = [(Sample.pose, [[1], [1, 0, 2, 3], [3, 4]])] ∧ buffered w = [] := by
  obtain ⟨w, os, h, hp⟩ := Sample.reached (C := Sample.basic) (B := Sample.dbg)
    (user := decoded (fun _ bs => bs.reverse) Sample.passive) (fuel := 50)
    (ops := sessionBig ++ [.process]) (fun w _ => w.rx.hasHandler) (by decide +kernel)
  have hf := C25_fed_is_chunks (user := decoded (fun _ bs => bs.reverse) Sample.passive)
    Sample.setting_basic Sample.passive_quiet (by simp [sessionBig]) h
  have h' := Policy.Reached.of_plain exact_bigEndian.reads h
  exact ⟨_, os, h', C78_round_trip vectorBuffer_faithful exact_bigEndian Sample.setting_basic
    Sample.passive_neverThrows [⟨Sample.basic, Sample.pose, Sample.poseVals⟩] (by decide +kernel)
    [] (chunks sessionBig) (by decide +kernel) h' hp (by
      rw [show (decodedWorld _ w).fed = w.fed from rfl, hf]; rfl)⟩

/-- `pose` on the wire of `shortening`: the second field has lost three of its four bytes. -/
def sessionShort : List Op :=
  [.setHandler Sample.h0, .append [1, 2, 2, 1, 1, 3], .process, .append [4, 3, 4], .process]

example : ∃ (w : World Sample.basic) (os : List Obs),
    shortening.Reached Sample.dbg Sample.passive 50 (sessionShort ++ [.process]) w os ∧
    shortening.send Sample.basic Sample.pose vectorBuffer [] Sample.poseVals =
      some (.ok [1, 2, 2, 1, 1, 3, 4, 3, 4]) ∧
    delivered w = [] ∧ buffered w = w.fed ∧ w.fed ≠ [] := by
  obtain ⟨w, os, h, hp⟩ := Sample.reached (C := Sample.basic) (B := Sample.dbg)
    (user := decoded (fun _ bs => bs.reverse) Sample.passive) (fuel := 50)
    (ops := sessionShort ++ [.process]) (fun w _ => w.rx.hasHandler) (by decide +kernel)
  have hf := C25_fed_is_chunks (user := decoded (fun _ bs => bs.reverse) Sample.passive)
    Sample.setting_basic Sample.passive_quiet (by simp [sessionShort]) h
  have hr : Reads shortening fun _ bs => bs.reverse := exact_bigEndian.reads
  have h' := Policy.Reached.of_plain hr h
  exact ⟨_, os, h', by decide +kernel, C78_short vectorBuffer_faithful hr Sample.setting_basic
    Sample.passive_neverThrows (t := Sample.pose) (vs := Sample.poseVals) (by decide +kernel)
    (by decide +kernel) [] (chunks sessionShort) (by decide +kernel) h' hp
    (by rw [show (decodedWorld _ w).fed = w.fed from rfl, hf]; rfl)⟩

end TT.Properties
