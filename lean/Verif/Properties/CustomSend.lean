import Verif.Model.CustomSend
import Verif.Properties.CustomMoves
import Verif.Properties.EndToEnd

/-!
# Envelopes written by users: sending, and what no envelope can do: C105
-/

namespace TT.Properties
open Spec

variable {C : Custom} {B : Build} {scan : Scan} {fuel : Nat}

/-! ### C105, sending -/

theorem vectorBuffer_faithful : Faithful vectorBuffer (fun s => s) :=
  ⟨fun _ _ => ⟨_, rfl, rfl⟩, fun _ _ => ⟨_, rfl, rfl⟩, fun _ => ⟨_, rfl, rfl⟩⟩

theorem bufferField_same (v : Value) {v0 v1 : List Byte} (h : bufferField vectorBuffer v0 v = .ok v1) :
    v1 = v0 ++ v.bytes ∧ ∀ {σ : Type} {T : Tx σ} {log : σ → List Byte}, Faithful T log → ∀ s : σ, ∃ s',
      bufferField T s v = .ok s' ∧ log s' = log s ++ v.bytes := by
  obtain ⟨ty, bs⟩ := v
  unfold bufferField at h ⊢
  split at h
  · rename_i b hty hbs
    simp only at hty hbs
    subst hty hbs
    cases h
    exact ⟨rfl, fun hT s => hT.byte s b⟩
  · rename_i bs' hno
    cases h
    refine ⟨rfl, fun {σ T log} hT s => ?_⟩
    obtain ⟨s', e1, e2⟩ := hT.block s bs
    exact ⟨s', e1, e2⟩

theorem bufferField_composed {α : Type} (K : Tx α) (v : Value) {a a1 : α} {v0 v1 : List Byte}
    (h : bufferField (composition K vectorBuffer) (a, v0) v = .ok (a1, v1)) :
    v1 = v0 ++ v.bytes ∧ ∀ {σ : Type} {T : Tx σ} {log : σ → List Byte}, Faithful T log → ∀ s : σ, ∃ s',
      bufferField (composition K T) (a, s) v = .ok (a1, s') ∧ log s' = log s ++ v.bytes := by
  obtain ⟨ty, bs⟩ := v
  unfold bufferField at h ⊢
  split at h
  · rename_i b hty hbs
    simp only at hty hbs
    subst hty hbs
    simp only [composition] at h
    cases ha : K.writeByte a b with
    | error f => simp [ha] at h
    | ok a2 =>
      simp [ha, vectorBuffer] at h
      obtain ⟨rfl, rfl⟩ := h
      refine ⟨rfl, fun {σ T log} hT s => ?_⟩
      obtain ⟨s', e1, e2⟩ := hT.byte s b
      exact ⟨s', by simp [composition, ha, e1], e2⟩
  · rename_i bs' hno
    simp only [composition] at h
    cases ha : K.write a bs with
    | error f => simp [ha] at h
    | ok a2 =>
      simp [ha, vectorBuffer] at h
      obtain ⟨rfl, rfl⟩ := h
      refine ⟨rfl, fun {σ T log} hT s => ?_⟩
      obtain ⟨s', e1, e2⟩ := hT.block s bs
      exact ⟨s', by simp [composition, ha, e1], e2⟩

theorem bufferTuple_same (vs : List Value) : ∀ {v0 v1 : List Byte}, bufferTuple vectorBuffer v0 vs = .ok v1 →
    v1 = v0 ++ payloadOf vs ∧ ∀ {σ : Type} {T : Tx σ} {log : σ → List Byte}, Faithful T log → ∀ s : σ, ∃ s',
      bufferTuple T s vs = .ok s' ∧ log s' = log s ++ payloadOf vs := by
  induction vs with
  | nil =>
    intro v0 v1 h
    cases h
    exact ⟨by simp [payloadOf], fun _ s => ⟨s, rfl, by simp [payloadOf]⟩⟩
  | cons v vs ih =>
    intro v0 v1 h
    unfold bufferTuple at h
    cases hf : bufferField vectorBuffer v0 v with
    | error f => simp [hf] at h
    | ok v2 =>
      simp only [hf, ok_bind] at h
      obtain ⟨rfl, h2⟩ := bufferField_same v hf
      obtain ⟨rfl, h3⟩ := ih h
      refine ⟨by simp [payloadOf], fun {σ T log} hT s => ?_⟩
      obtain ⟨s1, e1, e2⟩ := h2 hT s
      obtain ⟨s2, e3, e4⟩ := h3 hT s1
      exact ⟨s2, by simp only [bufferTuple, e1, ok_bind, e3], by rw [e4, e2]; simp [payloadOf]⟩

theorem bufferTuple_composed {α : Type} (K : Tx α) (vs : List Value) : ∀ {a a1 : α} {v0 v1 : List Byte},
    bufferTuple (composition K vectorBuffer) (a, v0) vs = .ok (a1, v1) →
    v1 = v0 ++ payloadOf vs ∧ ∀ {σ : Type} {T : Tx σ} {log : σ → List Byte}, Faithful T log → ∀ s : σ, ∃ s',
      bufferTuple (composition K T) (a, s) vs = .ok (a1, s') ∧ log s' = log s ++ payloadOf vs := by
  induction vs with
  | nil =>
    intro a a1 v0 v1 h
    cases h
    exact ⟨by simp [payloadOf], fun _ s => ⟨s, rfl, by simp [payloadOf]⟩⟩
  | cons v vs ih =>
    intro a a1 v0 v1 h
    unfold bufferTuple at h
    cases hf : bufferField (composition K vectorBuffer) (a, v0) v with
    | error f => simp [hf] at h
    | ok p2 =>
      obtain ⟨a2, v2⟩ := p2
      simp only [hf, ok_bind] at h
      obtain ⟨rfl, h2⟩ := bufferField_composed K v hf
      obtain ⟨rfl, h3⟩ := ih h
      refine ⟨by simp [payloadOf], fun {σ T log} hT s => ?_⟩
      obtain ⟨s1, e1, e2⟩ := h2 hT s
      obtain ⟨s2, e3, e4⟩ := h3 hT s1
      exact ⟨s2, by simp only [bufferTuple, e1, ok_bind, e3], by rw [e4, e2]; simp [payloadOf]⟩

theorem sendCode_same {α : Type} (K : Tx α) (vs : List Value) (code : SendCode α) :
    ∀ {a a1 : α} {v0 v1 : List Byte}, code.exec K vectorBuffer vs (a, v0) = .ok (a1, v1) →
    ∃ b, v1 = v0 ++ b ∧ ∀ {σ : Type} {T : Tx σ} {log : σ → List Byte}, Faithful T log → ∀ s : σ, ∃ s',
      code.exec K T vs (a, s) = .ok (a1, s') ∧ log s' = log s ++ b := by
  induction code with
  | done =>
    intro a a1 v0 v1 h
    cases h
    exact ⟨[], by simp, fun _ s => ⟨s, rfl, by simp⟩⟩
  | byte watched b k ih =>
    intro a a1 v0 v1 h
    unfold SendCode.exec at h
    cases watched with
    | false =>
      simp [SendCode.direct, vectorBuffer] at h
      obtain ⟨bs, rfl, h2⟩ := ih h
      refine ⟨b :: bs, by simp, fun {σ T log} hT s => ?_⟩
      obtain ⟨s1, e1, e2⟩ := hT.byte s b
      obtain ⟨s2, e3, e4⟩ := h2 hT s1
      exact ⟨s2, by simp [SendCode.exec, SendCode.direct, e1, e3], by rw [e4, e2]; simp⟩
    | true =>
      cases ha : K.writeByte a b with
      | error f => simp [composition, ha] at h
      | ok a2 =>
        simp [composition, ha, vectorBuffer] at h
        obtain ⟨bs, rfl, h2⟩ := ih h
        refine ⟨b :: bs, by simp, fun {σ T log} hT s => ?_⟩
        obtain ⟨s1, e1, e2⟩ := hT.byte s b
        obtain ⟨s2, e3, e4⟩ := h2 hT s1
        exact ⟨s2, by simp [SendCode.exec, composition, ha, e1, e3], by rw [e4, e2]; simp⟩
  | block watched b k ih =>
    intro a a1 v0 v1 h
    unfold SendCode.exec at h
    cases watched with
    | false =>
      simp [SendCode.direct, vectorBuffer] at h
      obtain ⟨bs, rfl, h2⟩ := ih h
      refine ⟨b ++ bs, by simp, fun {σ T log} hT s => ?_⟩
      obtain ⟨s1, e1, e2⟩ := hT.block s b
      obtain ⟨s2, e3, e4⟩ := h2 hT s1
      exact ⟨s2, by simp [SendCode.exec, SendCode.direct, e1, e3], by rw [e4, e2]; simp⟩
    | true =>
      cases ha : K.write a b with
      | error f => simp [composition, ha] at h
      | ok a2 =>
        simp [composition, ha, vectorBuffer] at h
        obtain ⟨bs, rfl, h2⟩ := ih h
        refine ⟨b ++ bs, by simp, fun {σ T log} hT s => ?_⟩
        obtain ⟨s1, e1, e2⟩ := hT.block s b
        obtain ⟨s2, e3, e4⟩ := h2 hT s1
        exact ⟨s2, by simp [SendCode.exec, composition, ha, e1, e3], by rw [e4, e2]; simp⟩
  | contents watched k ih =>
    intro a a1 v0 v1 h
    unfold SendCode.exec at h
    cases watched with
    | false =>
      cases hb : bufferTuple vectorBuffer v0 vs with
      | error f => simp [SendCode.direct, hb] at h
      | ok v2 =>
        simp [SendCode.direct, hb] at h
        obtain ⟨rfl, h1⟩ := bufferTuple_same vs hb
        obtain ⟨bs, rfl, h2⟩ := ih h
        refine ⟨payloadOf vs ++ bs, by simp, fun {σ T log} hT s => ?_⟩
        obtain ⟨s1, e1, e2⟩ := h1 hT s
        obtain ⟨s2, e3, e4⟩ := h2 hT s1
        exact ⟨s2, by simp [SendCode.exec, SendCode.direct, e1, e3], by rw [e4, e2]; simp⟩
    | true =>
      cases hb : bufferTuple (composition K vectorBuffer) (a, v0) vs with
      | error f => simp [hb] at h
      | ok p2 =>
        obtain ⟨a2, v2⟩ := p2
        simp [hb] at h
        obtain ⟨rfl, h1⟩ := bufferTuple_composed K vs hb
        obtain ⟨bs, rfl, h2⟩ := ih h
        refine ⟨payloadOf vs ++ bs, by simp, fun {σ T log} hT s => ?_⟩
        obtain ⟨s1, e1, e2⟩ := h1 hT s
        obtain ⟨s2, e3, e4⟩ := h2 hT s1
        exact ⟨s2, by simp [SendCode.exec, e1, e3], by rw [e4, e2]; simp⟩
  | ask k ih =>
    intro a a1 v0 v1 h
    obtain ⟨bs, h1, h2⟩ := ih a (a := a) (v0 := v0) h
    exact ⟨bs, h1, fun hT s => h2 hT s⟩

/-- C105, sending. What `sendMessage` of any envelope puts into a `VectorBuffer` is what it puts into every other
transmitter that takes what it is given, whatever it already holds. -/
theorem C105_same (S : SendSide) {t : MsgType} {vs : List Value} {bytes : List Byte}
    (h : C.send S t vectorBuffer [] vs = some (.ok bytes)) {σ : Type} {T : Tx σ} {log : σ → List Byte}
    (hT : Faithful T log) (s : σ) : ∃ s', C.send S t T s vs = some (.ok s') ∧ log s' = log s ++ bytes := by
  unfold Custom.send at h ⊢
  split at h
  · rename_i hc
    rw [if_pos hc]
    split at h
    · cases h
    · rename_i id hid
      rw [Option.some.injEq] at h
      cases he : (S.code id vs).exec S.own vectorBuffer vs (S.initial, []) with
      | error f => simp [he] at h
      | ok p =>
        obtain ⟨a, v⟩ := p
        rw [he] at h
        simp [vectorBuffer, defaultWriteFinished] at h
        subst h
        obtain ⟨b, hb, h2⟩ := sendCode_same S.own vs _ he
        obtain ⟨s1, e1, e2⟩ := h2 hT s
        obtain ⟨s2, e3, e4⟩ := hT.finished s1
        refine ⟨s2, by simp [e1, e3], ?_⟩
        rw [e4, e2, hb]
        simp
  · cases h

theorem findIndex_eq {l : List MsgType} {t : MsgType} : findIndex l t = if t ∈ l then some (l.idxOf t) else none := by
  induction l with
  | nil => rfl
  | cons m l ih =>
    unfold findIndex
    by_cases h : m = t
    · simp [h]
    · have h' : (m == t) = false := by simpa using h
      by_cases hm : t ∈ l
      · simp [h, ih, hm, List.idxOf_cons, h']
      · simp [h, ih, hm, Ne.symm h]

/-- C105, what compiles and what the envelope is given. A call compiles exactly if there are at most 255 message types, the
type is one of them and the contents have the types of its fields. The envelope is given the position of the type as id, and
the transmitter is told at the end that the message is complete. -/
theorem C105_call (S : SendSide) (t : MsgType) {σ : Type} (T : Tx σ) (s : σ) (vs : List Value) :
    (C.send S t T s vs ≠ none ↔ C.messages.length ≤ 255 ∧ t ∈ C.messages ∧ vs.map (·.ty) = t.fields) ∧
    (C.send S t T s vs ≠ none → C.send S t T s vs =
      some ((S.code (UInt8.ofNat (C.messages.idxOf t)) vs).exec S.own T vs (S.initial, s) >>= fun p => T.writeFinished p.2)) := by
  unfold Custom.send contentsMatch
  rw [findIndex_eq]
  by_cases hm : t ∈ C.messages
  · have hne : C.messages ≠ [] := List.ne_nil_of_mem hm
    by_cases hl : C.messages.length ≤ 255
    · by_cases hv : vs.map (·.ty) = t.fields
      · simp [hm, hl, hv, hne]
      · simp [hm, hl, hv]
    · simp [hl]
  · simp [hm]

/-- C105, the shipped envelopes are of this kind. -/
theorem C105_shipped (C : Collection) {σ : Type} (T : Tx σ) (t : MsgType) (s : σ) (vs : List Value) :
    C.asCustom.send C.envelope.asSend t T s vs = send C t T s vs := by
  obtain ⟨msgs, E⟩ := C
  unfold Custom.send send
  refine congrArg (fun x => if (Collection.compiles ⟨msgs, E⟩ && contentsMatch t vs) = true then x else none) ?_
  · unfold messageId
    simp only [Collection.asCustom]
    cases findIndex msgs t with
    | none => rfl
    | some i =>
      simp only [Option.map_some, Option.some.injEq]
      cases E with
      | basic =>
        simp only [Envelope.asSend, sendMessage, sendMessageBasic, SendCode.exec, SendCode.direct, Bool.false_eq_true, if_false]
        cases T.writeByte s SOH with
        | error f => rfl
        | ok s =>
        simp only [ok_bind]
        cases T.writeByte s (UInt8.ofNat i) with
        | error f => rfl
        | ok s =>
        simp only [ok_bind]
        cases T.writeByte s STX with
        | error f => rfl
        | ok s =>
        simp only [ok_bind]
        cases bufferTuple T s vs with
        | error f => rfl
        | ok s =>
        simp only [ok_bind]
        cases T.writeByte s ETX with
        | error f => rfl
        | ok s =>
        simp only [ok_bind]
        cases T.writeByte s EOT with
        | error f => rfl
        | ok s => rfl
      | basicChecksum =>
        simp only [Envelope.asSend, sendMessage, sendMessageChecksum, SendCode.exec, SendCode.direct, Bool.false_eq_true, if_false,
          if_true]
        generalize composition checksumComputer T = K
        cases K.writeByte (checksumInit, s) SOH with
        | error f => rfl
        | ok p =>
        simp only [ok_bind]
        cases K.writeByte p (UInt8.ofNat i) with
        | error f => rfl
        | ok p =>
        simp only [ok_bind]
        cases K.writeByte p STX with
        | error f => rfl
        | ok p =>
        simp only [ok_bind]
        cases bufferTuple K p vs with
        | error f => rfl
        | ok p =>
        simp only [ok_bind]
        cases K.writeByte p ETX with
        | error f => rfl
        | ok p =>
        simp only [ok_bind]
        cases T.writeByte p.2 p.1 with
        | error f => rfl
        | ok s =>
        simp only [ok_bind]
        cases T.writeByte s EOT with
        | error f => rfl
        | ok s => rfl

/-- `bytes` is what `send` makes of these contents, and the envelope's search finds the message in it: at its front, whatever
follows, of the length the message type has, with the contents at `data_offset`. -/
def Announces (C : Custom) (scan : Scan) (S : SendSide) (r : MsgType × List Value) (bytes : List Byte) : Prop :=
  C.send S r.1 vectorBuffer [] r.2 = some (.ok bytes) ∧ (∀ v ∈ r.2, Value.Fits v) ∧
  ∃ id, typeAt C id = some r.1 ∧ (∀ ys, scan (bytes ++ ys) = (0, some id)) ∧
    bytes.length = C.overhead + (payloadOf r.2).length ∧
    (bytes.drop C.dataOffset).take (payloadOf r.2).length = payloadOf r.2

theorem customSendAll_same (S : SendSide) {σ : Type} {T : Tx σ} {log : σ → List Byte} (hT : Faithful T log)
    (rs : List (MsgType × List Value)) (hrs : ∀ r ∈ rs, ∃ b, Announces C scan S r b) : ∀ s : σ,
    ∃ (s' : σ) (ps : List ((MsgType × List Value) × List Byte)), C.sendAll S T s rs = some (.ok s') ∧
      log s' = log s ++ (ps.map (·.2)).flatten ∧ ps.map (·.1) = rs ∧ ∀ p ∈ ps, Announces C scan S p.1 p.2 := by
  induction rs with
  | nil => intro s; exact ⟨s, [], rfl, by simp, rfl, by simp⟩
  | cons r rs ih =>
    intro s
    obtain ⟨b, hb⟩ := hrs r (by simp)
    obtain ⟨s1, e1, e2⟩ := C105_same S hb.1 hT s
    obtain ⟨s2, ps, e3, e4, h1, h2⟩ := ih (fun r' hr' => hrs r' (by simp [hr'])) s1
    refine ⟨s2, (r, b) :: ps, by simp [Custom.sendAll, e1, e3], by rw [e4, e2]; simp, by simp [h1], ?_⟩
    intro p hp
    rcases List.mem_cons.mp hp with rfl | hp
    · exact hb
    · exact h2 p hp

theorem announces_fields {S : SendSide} {r : MsgType × List Value} {b : List Byte} (h : Announces C scan S r b) :
    r.2.map (·.ty) = r.1.fields := by
  have h1 := h.1
  unfold Custom.send at h1
  split at h1
  · rename_i hc
    rw [Bool.and_eq_true] at hc
    simpa [contentsMatch] using hc.2
  · cases h1

/-- C105, whole transmissions. Messages sent by a program with an envelope of its own, through any transmitter that takes
what it is given, to a receiver with this envelope: the handler is called for all of them, in order, and for nothing else. -/
theorem C105_end_to_end (G : GoodEnvelope C scan) (ha : Arith B (customCapacity C)) (hf : customCapacity C < fuel)
    (S : SendSide) {σ : Type} {T : Tx σ} {log : σ → List Byte} (hT : Faithful T log)
    (rs : List (MsgType × List Value)) (hrs : ∀ r ∈ rs, ∃ b, Announces C scan S r b) (s : σ) :
    ∃ s' bytes, C.sendAll S T s rs = some (.ok s') ∧ log s' = log s ++ bytes ∧
      ∀ (ops : List Custom.COp) (w : C.World) (os : List (Option Byte)),
        Custom.Reached B fuel (ops ++ [.process]) w os → w.handler ≠ none → w.fed = bytes →
        w.trace.map seen = rs.map (fun r => (r.1, r.2.map (·.bytes))) ∧ w.buffered = [] := by
  obtain ⟨s', ps, e1, e2, rfl, hall⟩ := customSendAll_same (scan := scan) S hT rs hrs s
  refine ⟨s', (ps.map (·.2)).flatten, e1, e2, fun ops w os h hh hfed => ?_⟩
  have key : ∀ ps : List ((MsgType × List Value) × List Byte), (∀ p ∈ ps, Announces C scan S p.1 p.2) →
      ∃ ms, Parses C scan (ps.map (·.2)).flatten ms [] ∧
        ms.map (customMeaning C) = (ps.map (·.1)).map (fun r => (r.1, r.2.map (·.bytes))) := by
    intro ps
    induction ps with
    | nil =>
      intro _
      refine ⟨[], ?_, rfl⟩
      have h1 := G.proper.within []
      cases hx : scan [] with
      | mk n found =>
        rw [hx] at h1
        cases found with
        | none => simpa using Parses.stop (C := C) hx
        | some id =>
          obtain ⟨k, hk, hle⟩ := G.proper.whole [] n id hx
          have := Custom.lengthAt_pos G.proper hk
          simp at hle
          omega
    | cons q ps ih =>
      intro hall
      obtain ⟨r, b⟩ := q
      have hb : Announces C scan S r b := hall (r, b) (by simp)
      obtain ⟨ms, hp, hm⟩ := ih fun p hp => hall p (by simp [hp])
      rw [List.map_cons, List.map_cons, List.flatten_cons]
      have hty := announces_fields hb
      obtain ⟨-, hfit, id, ht, hfound, hlen, hpay⟩ := hb
      have hps : (payloadOf r.2).length = payloadSize r.1 := by
        rw [payloadOf_length hfit, hty]; rfl
      have hof := G.proper.offset
      rw [hps] at hlen hpay
      have := Parses.take (hfound (ps.map (·.2)).flatten) ht (ms := ms) (r := [])
        (by rw [Nat.zero_add, ← hlen, List.drop_left]; exact hp)
      rw [Nat.zero_add, List.drop_append_of_le_length (by omega), List.take_append_of_le_length (by simp; omega),
        hpay] at this
      refine ⟨_, this, ?_⟩
      rw [List.map_cons, List.map_cons, hm]
      congr 1
      simp only [customMeaning, ht, Option.getD_some]
      rw [← hty, splitFields_payloadOf hfit]
  obtain ⟨ms, hp, hm⟩ := key ps hall
  obtain ⟨ns, _, htr, huniq⟩ := C84_stream G.implements_ G.proper G.online ha (fun _ => G.settled) hf h hh
  obtain ⟨rfl, hr⟩ := huniq ms [] (by rw [hfed]; exact hp)
  exact ⟨htr.trans hm, hr.symm⟩

/-! ### C105, what no envelope can do -/

theorem splitFields_flatten (fs : List FieldType) : ∀ p : List Byte, p.length = (fs.map fieldSize).sum →
    (splitFields fs p).flatten = p := by
  induction fs with
  | nil => intro p h; simp at h; simp [splitFields, h]
  | cons f fs ih =>
    intro p h
    simp only [List.map_cons, List.sum_cons] at h
    simp only [splitFields, List.flatten_cons]
    rw [ih _ (by simp; omega), List.take_append_drop]

/-- The calls stand in the stream: gaps, and the bytes of the fields of each call, and a last gap before the rest. -/
def StandsIn (C : Custom) (calls : List (MsgType × List (List Byte))) (s rest : List Byte) : Prop :=
  ∃ (gaps : List (List Byte)) (last : List Byte), gaps.length = calls.length ∧
    s = (List.zipWith (fun g c => g ++ c.2.flatten) gaps calls).flatten ++ last ++ rest ∧
    (calls.map fun c => C.overhead + c.2.flatten.length).sum + rest.length ≤ s.length ∧
    ∀ c ∈ calls, c.1 ∈ C.messages ∧ c.2.map List.length = c.1.fields.map fieldSize

theorem splitFields_lengths (fs : List FieldType) : ∀ p : List Byte, p.length = (fs.map fieldSize).sum →
    (splitFields fs p).map List.length = fs.map fieldSize := by
  induction fs with
  | nil => intro p _; rfl
  | cons f fs ih =>
    intro p h
    simp only [List.map_cons, List.sum_cons] at h
    simp only [splitFields, List.map_cons, ih _ (by simp; omega : (p.drop (fieldSize f)).length = _), List.length_take]
    congr 1
    omega

theorem parses_stands (hp : Proper C scan) {s r : List Byte} {ms : List Msg} (h : Parses C scan s ms r) :
    StandsIn C (ms.map (customMeaning C)) s r := by
  induction h with
  | @stop s n hx =>
    refine ⟨[], s.take n, rfl, by simp, ?_, by simp⟩
    simp
  | @take s r n id t ms hx ht _ ih =>
    obtain ⟨gaps, last, hlen, hs, hsum, hall⟩ := ih
    obtain ⟨k, hk, hle⟩ := hp.whole s n id hx
    have hkt : C.overhead + payloadSize t = k := by simpa [lengthAt, ht] using hk
    have hof := hp.offset
    generalize hd : s.drop (n + (C.overhead + payloadSize t)) = tail at hs hsum
    have htl : tail.length = s.length - (n + (C.overhead + payloadSize t)) := by rw [← hd]; simp
    have hpl : ((s.drop (n + C.dataOffset)).take (payloadSize t)).length = payloadSize t := by
      simp; omega
    have hm : customMeaning C ⟨id, (s.drop (n + C.dataOffset)).take (payloadSize t)⟩ =
        (t, splitFields t.fields ((s.drop (n + C.dataOffset)).take (payloadSize t))) := by
      simp [customMeaning, ht]
    have hfl := splitFields_flatten t.fields _ hpl
    have hfll := splitFields_lengths t.fields _ hpl
    generalize hpd : (s.drop (n + C.dataOffset)).take (payloadSize t) = p at hm hfl hpl hfll
    have hsplit : s = s.take (n + C.dataOffset) ++ p ++ (s.drop (n + C.dataOffset + payloadSize t)).take
        (C.overhead - C.dataOffset) ++ tail := by
      have e1 : s = s.take (n + C.dataOffset) ++ s.drop (n + C.dataOffset) := (List.take_append_drop _ _).symm
      have e2 : s.drop (n + C.dataOffset) = p ++ s.drop (n + C.dataOffset + payloadSize t) := by
        rw [← hpd, ← List.drop_drop (i := payloadSize t) (j := n + C.dataOffset), List.take_append_drop]
      have e3 : s.drop (n + C.dataOffset + payloadSize t) =
          (s.drop (n + C.dataOffset + payloadSize t)).take (C.overhead - C.dataOffset) ++ tail := by
        have : tail = (s.drop (n + C.dataOffset + payloadSize t)).drop (C.overhead - C.dataOffset) := by
          rw [← hd, List.drop_drop]
          congr 1
          omega
        rw [this, List.take_append_drop]
      generalize (s.drop (n + C.dataOffset + payloadSize t)).take (C.overhead - C.dataOffset) = mid at e3 ⊢
      rw [e3] at e2
      rw [e2] at e1
      rw [List.append_assoc, List.append_assoc]
      exact e1
    generalize s.take (n + C.dataOffset) = g at hsplit
    generalize (s.drop (n + C.dataOffset + payloadSize t)).take (C.overhead - C.dataOffset) = mid at hsplit
    have hmem : t ∈ C.messages := List.mem_of_getElem? ht
    have hsum' : (((⟨id, p⟩ :: ms : List Msg).map (customMeaning C)).map fun c => C.overhead + c.2.flatten.length).sum
        + r.length ≤ s.length := by
      simp only [List.map_cons, List.sum_cons, hm, hfl, hpl]
      omega
    have hall' : ∀ c ∈ (⟨id, p⟩ :: ms : List Msg).map (customMeaning C), c.1 ∈ C.messages ∧
        c.2.map List.length = c.1.fields.map fieldSize := by
      intro c hc
      rw [List.map_cons, List.mem_cons] at hc
      rcases hc with rfl | hc
      · rw [hm]; exact ⟨hmem, hfll⟩
      · exact hall c hc
    cases ms with
    | nil =>
      simp at hlen
      subst hlen
      refine ⟨[g], mid ++ last, rfl, ?_, hsum', hall'⟩
      simp at hs
      rw [List.map_cons, hm]
      simp [hfl]
      rw [← hs]
      simpa using hsplit
    | cons m ms =>
      cases gaps with
      | nil => simp at hlen
      | cons g2 gaps =>
        refine ⟨g :: (mid ++ g2) :: gaps, last, by simpa using hlen, ?_, hsum', hall'⟩
        rw [List.map_cons, hm]
        simp only [List.map_cons, List.zipWith_cons_cons, List.flatten_cons, hfl] at hs ⊢
        generalize (List.zipWith (fun g c => g ++ c.2.flatten) gaps (List.map (customMeaning C) ms)).flatten = z at hs ⊢
        generalize (customMeaning C m).2.flatten = y at hs ⊢
        rw [hsplit, hs]
        simp

theorem stands_append {a b : List (MsgType × List (List Byte))} {s x r : List Byte} (h : StandsIn C a s x)
    (h' : StandsIn C b x r) : StandsIn C (a ++ b) s r := by
  obtain ⟨g1, l1, e1, hs1, n1, k1⟩ := h
  obtain ⟨g2, l2, e2, hs2, n2, k2⟩ := h'
  have hsum : (((a ++ b).map fun c => C.overhead + c.2.flatten.length).sum + r.length ≤ s.length) := by
    rw [List.map_append, List.sum_append]
    omega
  have hall : ∀ c ∈ a ++ b, c.1 ∈ C.messages ∧ c.2.map List.length = c.1.fields.map fieldSize := by
    intro c hc
    rcases List.mem_append.mp hc with hc | hc
    · exact k1 c hc
    · exact k2 c hc
  cases b with
  | nil =>
    simp at e2
    subst e2
    refine ⟨g1, l1 ++ l2, by simpa using e1, ?_, hsum, hall⟩
    simp at hs2
    rw [hs1, hs2]
    simp
  | cons c b =>
    cases g2 with
    | nil => simp at e2
    | cons g g2 =>
      refine ⟨g1 ++ (l1 ++ g) :: g2, l2, by simp at e2 ⊢; omega, ?_, hsum, hall⟩
      rw [List.zipWith_append e1]
      simp only [List.zipWith_cons_cons, List.flatten_append, List.flatten_cons] at hs2 ⊢
      rw [hs1, hs2]
      simp

theorem stands_more {a : List (MsgType × List (List Byte))} {s x ys : List Byte} (h : StandsIn C a s x) :
    StandsIn C a (s ++ ys) (x ++ ys) := by
  obtain ⟨g1, l1, e1, hs1, n1, k1⟩ := h
  refine ⟨g1, l1, e1, by rw [hs1]; simp, by rw [List.length_append, List.length_append]; omega, k1⟩

theorem seen_customCall (h : Handler) (ms : List Msg) : (ms.map (customCall C h)).map seen = ms.map (customMeaning C) := by
  rw [List.map_map]; rfl

theorem run_stands (ha : Arith B C.recvBufferSize) (hi : Implements C scan) (hp : Proper C scan)
    (hs : B.debug = true → Settled scan) (hf : C.recvBufferSize < fuel) (ops : List Custom.COp) :
    ∀ {w w' : C.World} {os : List (Option Byte)} {xs : List Byte}, w.recv.buf.Holds xs →
    StandsIn C (w.trace.map seen) w.fed xs → w.Legal B fuel ops → w.run B fuel ops = .ok (w', os) →
    ∃ ys, w'.recv.buf.Holds ys ∧ StandsIn C (w'.trace.map seen) w'.fed ys := by
  induction ops with
  | nil =>
    intro w w' os xs hb h _ hr
    simp [Custom.World.run] at hr
    exact ⟨xs, hr.1 ▸ hb, hr.1 ▸ h⟩
  | cons op ops ih =>
    intro w w' os xs hb h hl hr
    obtain ⟨w1, o, e, hst⟩ := Custom.step_ok ha hi hp hs hf hb op (by
      have := hl.1
      cases op <;> simp_all)
    have hh : ∃ ys, w1.recv.buf.Holds ys ∧ StandsIn C (w1.trace.map seen) w1.fed ys := by
      cases op with
      | append ys =>
        obtain ⟨hb, hfed, htr, _⟩ := hst
        exact ⟨xs ++ ys, hb, by rw [htr, hfed]; exact stands_more h⟩
      | setHandler hd =>
        obtain ⟨hb, hfed, htr, _⟩ := hst
        exact ⟨xs, hb, by rw [htr, hfed]; exact h⟩
      | clearHandler =>
        obtain ⟨hb, hfed, htr, _⟩ := hst
        exact ⟨xs, hb, by rw [htr, hfed]; exact h⟩
      | process =>
        cases hw : w.handler with
        | none =>
          simp only [hw] at hst
          obtain ⟨hfed, _, hb, htr, _⟩ := hst
          exact ⟨xs, hb, by rw [htr, hfed]; exact h⟩
        | some hd =>
          simp only [hw] at hst
          obtain ⟨hfed, _, ns, r, hpar, hb, htr, _⟩ := hst
          refine ⟨r, hb, ?_⟩
          rw [htr, hfed, List.map_append, seen_customCall]
          exact stands_append h (parses_stands hp hpar)
    obtain ⟨ys, hb1, hh⟩ := hh
    rw [Custom.World.run] at hr
    simp only [e, ok_bind] at hr
    cases hr2 : w1.run B fuel ops with
    | error f => simp [hr2] at hr
    | ok y =>
      simp [hr2] at hr
      exact ih hb1 hh (hl.2 w1 o e) (hr2.trans (by rw [← hr.1]))

/-- C105, contents go over the line as they are. Whatever the envelope, as long as its check leaves the bytes that it does
not discard as they are (`Implements`), and whatever was received: the contents of the
messages delivered stand in the bytes received, in order, byte for byte, field after field and without overlap, and each
message uses up the bytes of the overhead as well. -/
theorem C105_in_clear (hi : Implements C scan) (hp : Proper C scan) (ha : Arith B (customCapacity C))
    (hs : B.debug = true → Settled scan) (hf : customCapacity C < fuel) {ops : List Custom.COp} {w : C.World}
    {os : List (Option Byte)} (h : Custom.Reached B fuel ops w os) :
    StandsIn C (w.trace.map seen) w.fed w.buffered := by
  rw [← Custom.capacity_eq] at ha hf
  obtain ⟨ys, hb, hst⟩ := run_stands ha hi hp hs hf ops (Custom.holds_new C)
    ⟨[], [], rfl, rfl, by simp [Custom.World.new], by simp [Custom.World.new]⟩ h.legal h.run
  rw [Custom.buffered_eq hb]
  exact hst

/-- A new receiver that is given the bytes `s` can have called its handler for the message `m` and nothing else. -/
def UnderstoodAs (C : Custom) (B : Build) (s : List Byte) (m : Msg) : Prop :=
  ∃ (fuel : Nat) (ops : List Custom.COp) (w : C.World) (os : List (Option Byte)), customCapacity C < fuel ∧
    Custom.Reached B fuel (ops ++ [.process]) w os ∧ w.handler ≠ none ∧ w.fed = s ∧
    w.trace.map seen = [customMeaning C m]

/-- C105, no escaping. Let `s` be any bytes, made by whatever sender, from which a receiver understands a message of some
type with contents `p`. Then `p` stands in `s` as it is, with at least the overhead around it. So no such envelope can keep
a byte value out of what is sent, or change, compress or encrypt the contents. -/
theorem C105_no_escaping (hi : Implements C scan) (hp : Proper C scan) (ha : Arith B (customCapacity C))
    (hs : B.debug = true → Settled scan) {id : Byte} {t : MsgType} (ht : typeAt C id = some t) {p s : List Byte}
    (hl : p.length = payloadSize t) (h : UnderstoodAs C B s ⟨id, p⟩) :
    ∃ pre post, s = pre ++ p ++ post ∧ C.overhead ≤ pre.length + post.length := by
  obtain ⟨fuel, ops, w, os, hf, hr, -, rfl, htr⟩ := h
  obtain ⟨gaps, last, hlen, hfed, hsum, -⟩ := C105_in_clear hi hp ha hs hf hr
  have hm : (customMeaning C ⟨id, p⟩).2.flatten = p := by
    simp only [customMeaning, ht, Option.getD_some]
    exact splitFields_flatten t.fields p hl
  rw [htr] at hlen hfed hsum
  match gaps, hlen with
  | [g], _ =>
    simp only [List.zipWith_cons_cons, List.zipWith_nil_right, List.flatten_cons, List.flatten_nil, hm, List.append_nil,
      List.append_assoc] at hfed
    simp only [List.map_cons, List.map_nil, List.sum_cons, List.sum_nil, hm] at hsum
    refine ⟨g, last ++ w.buffered, by simpa using hfed, ?_⟩
    have := congrArg List.length hfed
    simp only [List.length_append] at this ⊢
    omega

/-- C105, no protection of receivers that join in the middle. For every envelope that meets the conditions of C84, and
whatever bytes `enc` sends for the messages of some type: if the contents of that type have room for the bytes `s'` of
another message `m'`, then there is a message whose bytes contain `s'`, and a receiver that joins the line there calls its
handler for `m'`, which nobody sent, whatever comes afterwards. -/
theorem C105_forgery (G : GoodEnvelope C scan) (ha : Arith B (customCapacity C)) {id : Byte} {t : MsgType}
    (ht : typeAt C id = some t) {enc : List Byte → List Byte}
    (henc : ∀ p, p.length = payloadSize t → UnderstoodAs C B (enc p) ⟨id, p⟩) {m' : Msg} {s' : List Byte}
    (hm' : UnderstoodAs C B s' m') (hfit : s'.length ≤ payloadSize t) :
    ∃ (p pre post : List Byte), p.length = payloadSize t ∧ enc p = pre ++ (s' ++ post) ∧
      (∀ (after : List Byte) (fuel : Nat) (ops : List Custom.COp) (w : C.World) (os : List (Option Byte)),
        customCapacity C < fuel → Custom.Reached B fuel (ops ++ [.process]) w os → w.handler ≠ none →
        w.fed = s' ++ post ++ after → ∃ calls, w.trace.map seen = customMeaning C m' :: calls) ∧
      (customMeaning C m').1 ≠ t := by
  have hl : (s' ++ List.replicate (payloadSize t - s'.length) 0 : List Byte).length = payloadSize t := by
    simp; omega
  obtain ⟨pre, post, e, -⟩ := C105_no_escaping G.implements_ G.proper ha (fun _ => G.settled) ht hl (henc _ hl)
  obtain ⟨fuel', ops', w', os', hf', hr', hh', hfed', htr'⟩ := hm'
  obtain ⟨ms, hpar, hms, -⟩ := C84_stream G.implements_ G.proper G.online ha (fun _ => G.settled) hf' hr' hh'
  refine ⟨_, pre, List.replicate (payloadSize t - s'.length) 0 ++ post, hl, by rw [e]; simp, ?_, ?_⟩
  · intro after fuel ops w os hf hr hh hfed
    obtain ⟨ns, hpar2, hns, huniq⟩ := C84_stream G.implements_ G.proper G.online ha (fun _ => G.settled) hf hr hh
    rw [hfed'] at hpar
    obtain ⟨ks, r, hk⟩ := Custom.parses_exists G.proper
      (w'.buffered ++ (List.replicate (payloadSize t - s'.length) 0 ++ post ++ after))
    have hall := Custom.parses_append G.proper G.online hpar hk
    obtain ⟨e2, -⟩ := huniq (ms ++ ks) r (by rw [hfed]; simpa using hall)
    refine ⟨ks.map (customMeaning C), ?_⟩
    have : w.trace.map seen = ns.map (customMeaning C) := hns
    rw [this, ← e2, List.map_append, ← hms]
    have : w'.trace.map (fun i => (i.msg, i.args)) = [customMeaning C m'] := htr'
    rw [this]
    rfl
  · intro heq
    obtain ⟨gaps, last, hlen, hfed, hsum, hall⟩ := C105_in_clear G.implements_ G.proper ha (fun _ => G.settled) hf' hr'
    rw [htr'] at hsum hall
    obtain ⟨-, hlens⟩ := hall (customMeaning C m') (by simp)
    simp only [List.map_cons, List.map_nil, List.sum_cons, List.sum_nil] at hsum
    have hsz : (customMeaning C m').2.flatten.length = payloadSize t := by
      rw [List.length_flatten, hlens, heq]; rfl
    have := G.proper.overhead
    rw [hfed'] at hsum
    omega

/-- What a sender makes so that the search finds it is understood. -/
theorem understood_of_encodes (G : GoodEnvelope C scan) (ha : Arith B (customCapacity C)) {enc : Msg → List Byte} {m : Msg}
    (he : Encodes C scan enc m) : UnderstoodAs C B (enc m) m := by
  have hle : (enc m).length ≤ customCapacity C := by
    have := Custom.le_max he.length
    rw [← Custom.capacity_eq]
    unfold Custom.recvBufferSize messageBufferSizeScale
    omega
  let hd : Handler := ⟨.functor, 0⟩
  have hl : (Custom.World.new C).Legal B (customCapacity C + 1) ([.setHandler hd, .append (enc m)] ++ [.process]) := by
    refine ⟨trivial, fun w1 o1 e1 => ?_⟩
    simp only [Custom.World.step, Except.ok.injEq, Prod.mk.injEq] at e1
    obtain ⟨rfl, rfl⟩ := e1
    refine ⟨?_, fun _ _ _ => ⟨trivial, fun _ _ _ => trivial⟩⟩
    show (enc m).length ≤ (Custom.World.new C).space
    have ha' := ha
    rw [← Custom.capacity_eq] at ha'
    rw [Custom.space_eq ha'.lt64 (Custom.holds_new C), Custom.capacity_eq]
    simpa using hle
  obtain ⟨w, os, hr⟩ := C84_safe G.implements_ G.proper ha (fun _ => G.settled) (Nat.lt_succ_self _) hl
  have hw : w.handler = some hd ∧ w.fed = enc m := by
    have ha' := ha
    rw [← Custom.capacity_eq] at ha'
    have hr2 := hr.run
    obtain ⟨b, e, hh⟩ := (Custom.holds_new C).pushBackRange_ok ha'.lt64 (ys := enc m)
      (by rw [Custom.capacity_eq]; simpa using hle)
    have e' : RB.pushBackRange B (Custom.World.new C).recv.buf (enc m) = .ok b := e B ha'
    simp only [List.cons_append, List.nil_append, Custom.World.run, Custom.World.step, ok_bind, e', pure_eq_ok] at hr2
    obtain ⟨w2, o2, e2, hst⟩ := Custom.step_ok (B := B) (fuel := customCapacity C + 1) ha' G.implements_ G.proper
      (fun _ => G.settled) (by rw [Custom.capacity_eq]; omega)
      (w := { Custom.World.new C with handler := some hd, recv := { (Custom.World.new C).recv with buf := b },
                                      fed := (Custom.World.new C).fed ++ enc m }) hh .process trivial
    simp only [Custom.World.step] at e2
    cases hp : ({ Custom.World.new C with handler := some hd, recv := { (Custom.World.new C).recv with buf := b },
                                          fed := (Custom.World.new C).fed ++ enc m } : C.World).processMessages B
        (customCapacity C + 1) with
    | error f => simp [hp] at e2
    | ok y =>
      simp [hp] at e2
      simp [hp] at hr2
      obtain ⟨h1, h2, -⟩ := hst
      rw [← e2.1] at h1 h2
      rw [← hr2.1]
      exact ⟨h2, by rw [h1]; rfl⟩
  have hrt := C84_round_trip G.implements_ G.proper G.online ha (fun _ => G.settled) (Nat.lt_succ_self _) hr
    (by rw [hw.1]; simp) (enc := enc) (ms := [m]) (by simpa using he) (by simp [hw.2])
  exact ⟨_, _, w, os, Nat.lt_succ_self _, hr, by rw [hw.1]; simp, hw.2, hrt.1⟩

/-- The sending side of the demonstration envelope: a sync byte, the id, the contents. -/
def demoSend : SendSide where
  α := Unit
  own := ⟨fun _ _ => .ok (), fun _ _ => .ok (), fun _ => .ok ()⟩
  initial := ()
  code := fun id _ => .byte false 0xAA <| .byte false id <| .contents false .done

/-- The hypotheses of C105_same and C105_end_to_end hold, for two messages, one of them with a sync byte in it. -/
example : GoodEnvelope (Demo.demo false false) (Demo.scan false false) ∧
    Arith ⟨true, 32⟩ (customCapacity (Demo.demo false false)) ∧ Faithful vectorBuffer (fun s => s) ∧
    ∀ r ∈ ([(⟨0, [.uint8]⟩, [⟨.uint8, [0xAA]⟩]), (⟨1, [.uint8, .pod 0 2]⟩, [⟨.uint8, [5]⟩, ⟨.pod 0 2, [6, 7]⟩])] :
      List (MsgType × List Value)), ∃ b, Announces (Demo.demo false false) (Demo.scan false false) demoSend r b := by
  refine ⟨demo_good, ⟨by decide +kernel, by decide +kernel⟩, vectorBuffer_faithful, ?_⟩
  intro r hr
  have key : ∀ {id : Byte} {t : MsgType} {vs : List Value}, typeAt (Demo.demo false false) id = some t →
      (payloadOf vs).length = payloadSize t → (∀ v ∈ vs, Value.Fits v) →
      (Demo.demo false false).send demoSend t vectorBuffer [] vs = some (.ok (0xAA :: id :: payloadOf vs)) →
      Announces (Demo.demo false false) (Demo.scan false false) demoSend (t, vs) (0xAA :: id :: payloadOf vs) := by
    intro id t vs ht hl hv hs
    have he := Demo.encodes (m := ⟨id, payloadOf vs⟩) ht hl
    refine ⟨hs, hv, id, ht, he.found, ?_, he.payload⟩
    show _ = 2 + _
    simp only [List.length_cons]
    omega
  simp only [List.mem_cons, List.not_mem_nil, or_false] at hr
  rcases hr with rfl | rfl
  · exact ⟨_, key (id := 0) rfl rfl (by decide) rfl⟩
  · exact ⟨_, key (id := 1) rfl rfl (by decide) rfl⟩

/-- The hypotheses of C105_no_escaping and C105_forgery hold: the contents of the second message type have room for the
three bytes of a message of the first. -/
example : typeAt (Demo.demo false false) 1 = some ⟨1, [.uint8, .pod 0 2]⟩ ∧
    (∀ p : List Byte, p.length = payloadSize ⟨1, [.uint8, .pod 0 2]⟩ →
      UnderstoodAs (Demo.demo false false) ⟨true, 32⟩ (0xAA :: 1 :: p) ⟨1, p⟩) ∧
    UnderstoodAs (Demo.demo false false) ⟨true, 32⟩ [0xAA, 0, 9] ⟨0, [9]⟩ ∧
    ([0xAA, 0, 9] : List Byte).length ≤ payloadSize ⟨1, [.uint8, .pod 0 2]⟩ := by
  have ha : Arith ⟨true, 32⟩ (customCapacity (Demo.demo false false)) := ⟨by decide +kernel, by decide +kernel⟩
  refine ⟨rfl, fun p hp => ?_, ?_, by decide⟩
  · exact understood_of_encodes demo_good ha (Demo.encodes (m := ⟨1, p⟩) (t := ⟨1, [.uint8, .pod 0 2]⟩) rfl hp)
  · exact understood_of_encodes demo_good ha (Demo.encodes (m := ⟨0, [9]⟩) (t := ⟨0, [.uint8]⟩) rfl rfl)

/-- The hypotheses of C105_in_clear hold for a receiver that has delivered two messages, the first after garbage, and has
part of a third. -/
example : ∃ (w : (Demo.demo false false).World) (os : List (Option Byte)),
    Custom.Reached ⟨true, 32⟩ 20 [.setHandler ⟨.functor, 0⟩, .append [0x55, 0xAA, 0x01], .process, .append [0x07, 0x08],
      .process, .append [0x09, 0xAA, 0x00, 0x0A, 0xAA], .process] w os ∧
    w.trace.map seen = [(⟨1, [.uint8, .pod 0 2]⟩, [[0x07], [0x08, 0x09]]), (⟨0, [.uint8]⟩, [[0x0A]])] ∧
    w.buffered = [0xAA] ∧ customCapacity (Demo.demo false false) < 20 := by
  obtain ⟨w, os, h, e⟩ := reachedB (C := Demo.demo false false) (B := ⟨true, 32⟩) (fuel := 20)
    (ops := [.setHandler ⟨.functor, 0⟩, .append [0x55, 0xAA, 0x01], .process, .append [0x07, 0x08],
      .process, .append [0x09, 0xAA, 0x00, 0x0A, 0xAA], .process])
    (fun w => decide (w.trace.map seen = [(⟨1, [.uint8, .pod 0 2]⟩, [[0x07], [0x08, 0x09]]), (⟨0, [.uint8]⟩, [[0x0A]])]) &&
      decide (w.buffered = [0xAA])) (by decide +kernel)
  exact ⟨w, os, h, by simpa using (by simpa using e : _ ∧ _).1, by simpa using (by simpa using e : _ ∧ _).2, by decide +kernel⟩

end TT.Properties
