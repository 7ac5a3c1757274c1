import Verif.Spec.Send
import Verif.Proofs.Stream
import Verif.Proofs.Protocol
import Verif.Proofs.RB

/-!
# Helper lemmas: sending
-/

namespace TT
open Spec

variable {σ τ : Type}

theorem feed_append (T : Tx σ) (s : σ) (a b : List Out) :
    feed T s (a ++ b) = (feed T s a).bind (fun s => feed T s b) := by
  induction a generalizing s with
  | nil => rfl
  | cons o a ih =>
    simp only [List.cons_append, feed]
    split
    · exact ih _
    · rfl

theorem feed_snoc2 (T : Tx σ) (s : σ) (a : List Out) (x y : Out) :
    feed T s (a ++ [x, y]) = (feed T s a).bind (fun s => feed T s [x, y]) := feed_append T s a _

theorem feed_finished (T : Tx σ) (s : σ) (a : List Out) :
    feed T s (a ++ [.finished]) = (feed T s a).bind T.writeFinished := by
  rw [feed_append]
  congr 1; funext s'
  simp only [feed, Out.on]
  cases T.writeFinished s' <;> rfl

theorem feed_cons (T : Tx σ) (s : σ) (o : Out) (b : List Out) :
    feed T s (o :: b) = (o.on T s).bind (fun s => feed T s b) := by
  simp only [feed]
  cases o.on T s <;> rfl

theorem bufferField_eq (T : Tx σ) (s : σ) (v : Value) : bufferField T s v = (outField v).on T s := by
  rcases v with ⟨ty, bs⟩
  cases ty with
  | uint8 =>
    match bs with
    | [] => rfl
    | [_] => rfl
    | _ :: _ :: _ => rfl
  | pod ty n =>
    match bs with
    | [] => rfl
    | [_] => rfl
    | _ :: _ :: _ => rfl

theorem bufferTuple_eq (T : Tx σ) (vs : List Value) :
    ∀ s, bufferTuple T s vs = feed T s (vs.map outField) := by
  induction vs with
  | nil => intro s; rfl
  | cons v vs ih =>
    intro s
    simp only [bufferTuple, List.map_cons, feed_cons, bufferField_eq]
    cases (outField v).on T s with
    | error f => rfl
    | ok s' => exact ih s'

theorem outField_bytes (v : Value) : (outField v).bytes = v.bytes := by
  unfold outField
  split
  · rename_i h; rw [h]; rfl
  · rfl

theorem outBytes_fields (vs : List Value) : outBytes (vs.map outField) = payloadOf vs := by
  simp [outBytes, payloadOf, Function.comp_def, outField_bytes]

theorem outBytes_append (a b : List Out) : outBytes (a ++ b) = outBytes a ++ outBytes b := by
  simp [outBytes]

theorem outBytes_script (E : Envelope) (id : Byte) (vs : List Value) :
    outBytes (script E id vs) = frame E ⟨id, payloadOf vs⟩ := by
  unfold script
  rw [outBytes_append, outBytes_append, outBytes_append, outBytes_fields]
  cases E <;> simp [outBytes, Out.bytes, frame]

/-! ### The checksum computer and composition -/

theorem checksumWrite (bs : List Byte) : ∀ ck : Byte,
    defaultWrite (fun ck v => (.ok (ck + v) : Res Byte)) ck bs = .ok (ck + byteSum bs) := by
  induction bs with
  | nil => intro ck; simp [defaultWrite, byteSum]
  | cons b bs ih => intro ck; simp [defaultWrite, ih, byteSum, UInt8.add_assoc]

theorem checksum_on (ck : Byte) (o : Out) :
    o.on checksumComputer ck = .ok (ck + byteSum o.bytes) := by
  cases o with
  | byte b => simp [Out.on, checksumComputer, Out.bytes, byteSum]
  | block bs => exact checksumWrite bs ck
  | finished => simp [Out.on, checksumComputer, defaultWriteFinished, Out.bytes, byteSum]

theorem composition_on (T : Tx σ) (U : Tx τ) (s : σ) (u : τ) {o : Out} (h : o ≠ .finished) :
    o.on (composition T U) (s, u) =
      (o.on T s).bind (fun s' => (o.on U u).bind (fun u' => .ok (s', u'))) := by
  cases o with
  | byte b => rfl
  | block bs => rfl
  | finished => exact absurd rfl h

theorem composition_checksum_feed (T : Tx σ) (os : List Out) (h : ∀ o ∈ os, o ≠ .finished) :
    ∀ (ck : Byte) (s : σ), feed (composition checksumComputer T) (ck, s) os =
      (feed T s os).bind (fun s' => .ok (ck + byteSum (outBytes os), s')) := by
  induction os with
  | nil => intro ck s; simp [feed, outBytes, byteSum, Except.bind]
  | cons o os ih =>
    intro ck s
    rw [feed_cons, feed_cons, composition_on _ _ _ _ (h o (by simp)), checksum_on]
    cases ho : o.on T s with
    | error f => rfl
    | ok s' =>
      have := ih (fun o' ho' => h o' (by simp [ho'])) (ck + byteSum o.bytes) s'
      simp only [Except.bind] at this ⊢
      rw [this]
      cases feed T s' os with
      | error f => rfl
      | ok s'' =>
        simp [outBytes, byteSum_append, UInt8.add_assoc]

theorem outField_ne (v : Value) : outField v ≠ .finished := by
  unfold outField
  split <;> simp

/-! ### `sendMessage` is a script -/

theorem feed_one (T : Tx σ) (s : σ) (b : Byte) : feed T s [.byte b] = T.writeByte s b := by
  simp only [feed, Out.on]
  cases T.writeByte s b <;> rfl

theorem sendMessageBasic_eq (T : Tx σ) (s : σ) (vs : List Value) (id : Byte) :
    sendMessageBasic T s vs id =
      feed T s ([.byte 0x01, .byte id, .byte 0x02] ++ vs.map outField ++
        [.byte 0x03, .byte 0x04]) := by
  simp only [sendMessageBasic, List.cons_append, List.nil_append, feed_cons, feed_append,
    bufferTuple_eq, Out.on, SOH, STX, ETX, EOT]
  cases T.writeByte s 1 with
  | error f => rfl
  | ok s1 =>
    simp only [ok_bind, Except.bind]
    cases T.writeByte s1 id with
    | error f => rfl
    | ok s2 =>
      simp only [ok_bind]
      cases T.writeByte s2 2 with
      | error f => rfl
      | ok s3 =>
        simp only [ok_bind]
        cases feed T s3 (vs.map outField) with
        | error f => rfl
        | ok s4 =>
          simp only [ok_bind]
          cases T.writeByte s4 3 with
          | error f => rfl
          | ok s5 =>
            simp only [ok_bind]
            cases T.writeByte s5 4 <;> rfl

theorem sendMessageChecksum_eq (T : Tx σ) (s : σ) (vs : List Value) (id : Byte) :
    sendMessageChecksum T s vs id =
      feed T s ([.byte 0x01, .byte id, .byte 0x02] ++ vs.map outField ++
        [.byte 0x03, .byte (byteSum ([0x01, id, 0x02] ++ payloadOf vs ++ [0x03])),
         .byte 0x04]) := by
  have h1 : sendMessageChecksum T s vs id =
      (feed (composition checksumComputer T) (checksumInit, s)
        ([.byte 0x01, .byte id, .byte 0x02] ++ vs.map outField ++ [.byte 0x03])).bind
        (fun p => feed T p.2 [.byte p.1, .byte 0x04]) := by
    simp only [sendMessageChecksum, List.cons_append, List.nil_append, feed_cons, feed_append,
      bufferTuple_eq, Out.on, SOH, STX, ETX, EOT]
    generalize (composition checksumComputer T).writeByte (checksumInit, s) 1 = r1
    cases r1 with
    | error f => rfl
    | ok p1 =>
      simp only [ok_bind, Except.bind]
      cases (composition checksumComputer T).writeByte p1 id with
      | error f => rfl
      | ok p2 =>
        simp only [ok_bind]
        cases (composition checksumComputer T).writeByte p2 2 with
        | error f => rfl
        | ok p3 =>
          simp only [ok_bind]
          cases feed (composition checksumComputer T) p3 (vs.map outField) with
          | error f => rfl
          | ok p4 =>
            simp only [ok_bind]
            cases (composition checksumComputer T).writeByte p4 3 with
            | error f => rfl
            | ok p5 =>
              simp only [ok_bind, feed]
              cases T.writeByte p5.2 p5.1 with
              | error f => rfl
              | ok s6 =>
                simp only [ok_bind]
                cases T.writeByte s6 4 <;> rfl
  rw [h1, composition_checksum_feed]
  · have hb : outBytes ([.byte 0x01, .byte id, .byte 0x02] ++ vs.map outField ++ [.byte 0x03]) =
        [0x01, id, 0x02] ++ payloadOf vs ++ [0x03] := by
      rw [outBytes_append, outBytes_append, outBytes_fields]
      simp [outBytes, Out.bytes]
    have hs : ([.byte 0x01, .byte id, .byte 0x02] ++ vs.map outField ++
        [.byte 0x03, .byte (byteSum ([0x01, id, 0x02] ++ payloadOf vs ++ [0x03])), .byte 0x04]) =
        ([.byte 0x01, .byte id, .byte 0x02] ++ vs.map outField ++ [.byte 0x03]) ++
        [.byte (byteSum ([0x01, id, 0x02] ++ payloadOf vs ++ [0x03])), .byte 0x04] := by simp
    rw [hs, feed_snoc2, hb]
    cases feed T s ([.byte 0x01, .byte id, .byte 0x02] ++ vs.map outField ++ [.byte 0x03]) with
    | error f => rfl
    | ok s' => simp [Except.bind, checksumInit]
  · intro o ho
    simp only [List.mem_append, List.mem_cons, List.mem_map, List.not_mem_nil, or_false] at ho
    rcases ho with ((rfl | rfl | rfl) | ⟨v, _, rfl⟩) | rfl
    · simp
    · simp
    · simp
    · exact outField_ne v
    · simp

theorem sendMessage_finished (E : Envelope) (T : Tx σ) (s : σ) (vs : List Value) (id : Byte) :
    (sendMessage E T s vs id).bind T.writeFinished = feed T s (script E id vs) := by
  unfold sendMessage script
  cases E
  · simp only [sendMessageBasic_eq]
    rw [feed_finished]
  · simp only [sendMessageChecksum_eq]
    rw [feed_finished]

/-! ### Ids -/

theorem messageId_spec {C : Collection} {t : MsgType} {id : Byte}
    (hc : C.messages.length ≤ 255) : messageId C t = some id ↔ idOf C t id := by
  constructor
  · intro h
    unfold messageId at h
    cases hf : findIndex C.messages t with
    | none => simp [hf] at h
    | some i =>
      simp [hf] at h
      obtain ⟨h1, h2⟩ := findIndex_some hf
      have hi : i < C.messages.length := (List.getElem?_eq_some_iff.mp h1).1
      have : id.toNat = i := by rw [← h]; simp; omega
      unfold idOf
      rw [this]
      exact ⟨h1, h2⟩
  · rintro ⟨h1, h2⟩
    have hmem : t ∈ C.messages := List.mem_of_getElem? h1
    obtain ⟨i, hi⟩ := Option.isSome_iff_exists.mp (findIndex_isSome.mpr hmem)
    obtain ⟨h3, h4⟩ := findIndex_some hi
    have : i = id.toNat := by
      rcases Nat.lt_trichotomy i id.toNat with h | h | h
      · exact absurd h3 (h2 i h)
      · exact h
      · exact absurd h1 (h4 _ h)
    simp [messageId, hi, this]

theorem idOf_exists {C : Collection} {t : MsgType} (hc : C.messages.length ≤ 255)
    (h : t ∈ C.messages) : ∃ id, idOf C t id := by
  obtain ⟨i, hi⟩ := Option.isSome_iff_exists.mp (findIndex_isSome.mpr h)
  exact ⟨UInt8.ofNat i, (messageId_spec hc).mp (by simp [messageId, hi])⟩

theorem idOf_unique {C : Collection} {t : MsgType} {id id' : Byte} (h : idOf C t id)
    (h' : idOf C t id') : id = id' := by
  have : id.toNat = id'.toNat := by
    rcases Nat.lt_trichotomy id.toNat id'.toNat with hl | hl | hl
    · exact absurd h.1 (h'.2 _ hl)
    · exact hl
    · exact absurd h'.1 (h.2 _ hl)
  exact UInt8.toNat_inj.mp this

theorem idOf_idxOf {C : Collection} {t : MsgType} (hl : C.messages.length ≤ 255)
    (h : t ∈ C.messages) : idOf C t (UInt8.ofNat (C.messages.idxOf t)) := by
  have hlt := List.idxOf_lt_length_of_mem h
  have e : (UInt8.ofNat (C.messages.idxOf t)).toNat = C.messages.idxOf t := by simp; omega
  unfold idOf
  rw [e]
  refine ⟨by simp [hlt], fun j hj hj' => ?_⟩
  obtain ⟨hj1, hj2⟩ := List.getElem?_eq_some_iff.mp hj'
  have := List.not_of_lt_findIdx (p := (· == t)) (xs := C.messages) (i := j) hj
  simp [hj2] at this

theorem wire_eq {C : Collection} {t : MsgType} {vs : List Value} {id : Byte}
    (h : Sendable C t vs) (hid : idOf C t id) :
    wire C t vs = frame C.envelope ⟨id, payloadOf vs⟩ := by
  rw [idOf_unique hid (idOf_idxOf h.1 h.2.1)]
  rfl

/-- `send` is the script run on the transmitter, exactly when the call compiles. -/
theorem send_eq (C : Collection) (t : MsgType) (T : Tx σ) (s : σ) (vs : List Value)
    (h : Sendable C t vs) {id : Byte} (hid : idOf C t id) :
    send C t T s vs = some (feed T s (script C.envelope id vs)) := by
  obtain ⟨h1, h2, h3⟩ := h
  have hcomp : (C.compiles && contentsMatch t vs) = true := by
    simp only [Collection.compiles, contentsMatch, Bool.and_eq_true, decide_eq_true_eq]
    exact ⟨⟨List.ne_nil_of_mem h2, h1⟩, h3⟩
  unfold send
  rw [if_pos hcomp, (messageId_spec h1).mpr hid]
  simp only
  rw [← sendMessage_finished]
  rfl

theorem send_none (C : Collection) (t : MsgType) (T : Tx σ) (s : σ) (vs : List Value)
    (h : ¬ Sendable C t vs) : send C t T s vs = none := by
  unfold send
  split
  · rename_i hc
    simp only [Collection.compiles, contentsMatch, Bool.and_eq_true, decide_eq_true_eq] at hc
    split
    · rfl
    · rename_i id hid
      have := (messageId_spec hc.1.2).mp hid
      exact absurd ⟨hc.1.2, List.mem_of_getElem? this.1, hc.2⟩ h
  · rfl

/-! ### Faithful transmitters -/

theorem Spec.Faithful.feed {T : Tx σ} {log : σ → List Byte} (h : Faithful T log) (os : List Out) :
    ∀ s, ∃ s', Spec.feed T s os = .ok s' ∧ log s' = log s ++ outBytes os := by
  induction os with
  | nil => intro s; exact ⟨s, rfl, by simp [outBytes]⟩
  | cons o os ih =>
    intro s
    have : ∃ s1, o.on T s = .ok s1 ∧ log s1 = log s ++ o.bytes := by
      cases o with
      | byte b => exact h.byte s b
      | block bs => exact h.block s bs
      | finished => simpa [Out.bytes, Out.on] using h.finished s
    obtain ⟨s1, h1, h2⟩ := this
    obtain ⟨s2, h3, h4⟩ := ih s1
    refine ⟨s2, ?_, by rw [h4, h2]; simp [outBytes]⟩
    rw [feed_cons, h1]
    exact h3

theorem vectorBuffer_faithful : Faithful vectorBuffer id where
  byte s b := ⟨s ++ [b], rfl, rfl⟩
  block s bs := ⟨s ++ bs, rfl, rfl⟩
  finished s := ⟨s, rfl, rfl⟩

theorem portTransmitter_faithful : Faithful portTransmitter List.flatten where
  byte s b := ⟨s ++ [[b]], rfl, by simp⟩
  block s bs := ⟨s ++ [bs], rfl, by simp⟩
  finished s := ⟨s, rfl, rfl⟩

/-! ### The array buffer -/

theorem ArrayBuf.write_ok {size : Nat} (bs : List Byte) : ∀ (a : ArrayBuf size),
    a.it + bs.length ≤ a.buffer.length → ∃ a' : ArrayBuf size, a.write bs = .ok a' ∧
      a'.range = a.range ++ bs ∧ a'.it = a.it + bs.length ∧
      a'.buffer.length = a.buffer.length := by
  induction bs with
  | nil => intro a _; exact ⟨a, rfl, by simp, rfl, rfl⟩
  | cons b bs ih =>
    intro a h
    simp only [List.length_cons] at h
    obtain ⟨a', h1, h2, h3, h4⟩ :=
      ih (ArrayBuf.mk (a.buffer.set a.it b) (a.it + 1)) (by simp; omega)
    refine ⟨a', ?_, ?_, by rw [h3]; simp; omega, by simpa using h4⟩
    · unfold ArrayBuf.write
      rw [if_pos (by omega), h1]
    · rw [h2]
      have : (ArrayBuf.mk (size := size) (a.buffer.set a.it b) (a.it + 1)).range =
          a.range ++ [b] := by
        unfold ArrayBuf.range
        simp only
        rw [List.take_add_one, List.getElem?_set_self (by omega), List.take_set_of_le (Nat.le_refl _)]
        rfl
      rw [this]; simp

theorem ArrayBuf.write_ub {size : Nat} (bs : List Byte) : ∀ (a : ArrayBuf size),
    a.it ≤ a.buffer.length → a.buffer.length < a.it + bs.length → a.write bs = .error .ub := by
  induction bs with
  | nil => intro a h1 h; simp at h; omega
  | cons b bs ih =>
    intro a h1 h
    simp only [List.length_cons] at h
    unfold ArrayBuf.write
    split
    · exact ih _ (by simp; omega) (by simp; omega)
    · rfl

theorem ArrayBuf.writeByte_eq {size : Nat} (a : ArrayBuf size) (b : Byte) :
    a.writeByte b = a.write [b] := by
  unfold ArrayBuf.writeByte ArrayBuf.write
  split <;> rfl

theorem arrayBuffer_on {size : Nat} (a : ArrayBuf size) (o : Out) :
    o.on (boostArrayBuffer size) a = a.write o.bytes := by
  cases o with
  | byte b => exact a.writeByte_eq b
  | block bs => rfl
  | finished => rfl

theorem ArrayBuf.write_append {size : Nat} (xs ys : List Byte) : ∀ (a : ArrayBuf size),
    a.write (xs ++ ys) = (a.write xs).bind (fun a => a.write ys) := by
  induction xs with
  | nil => intro a; rfl
  | cons x xs ih =>
    intro a
    rw [List.cons_append]
    conv => lhs; unfold ArrayBuf.write
    conv => rhs; arg 1; unfold ArrayBuf.write
    split
    · exact ih _
    · rfl

theorem arrayBuffer_feed {size : Nat} (os : List Out) : ∀ (a : ArrayBuf size),
    feed (boostArrayBuffer size) a os = a.write (outBytes os) := by
  induction os with
  | nil => intro a; rfl
  | cons o os ih =>
    intro a
    have : outBytes (o :: os) = o.bytes ++ outBytes os := by simp [outBytes]
    rw [feed_cons, arrayBuffer_on, this, ArrayBuf.write_append]
    congr 1; funext a'; exact ih a'

/-! ### Fields -/

theorem payloadOf_length {vs : List Value} (h : ∀ v ∈ vs, Value.Fits v) :
    (payloadOf vs).length = ((vs.map (·.ty)).map fieldSize).sum := by
  induction vs with
  | nil => rfl
  | cons v vs ih =>
    have h1 := h v (by simp)
    have h2 := ih (fun v' hv' => h v' (by simp [hv']))
    unfold Value.Fits at h1
    simp only [payloadOf, List.map_cons, List.flatten_cons, List.length_append, List.sum_cons]
    simp only [payloadOf] at h2
    omega

theorem splitFields_payloadOf {vs : List Value} (h : ∀ v ∈ vs, Value.Fits v) :
    splitFields (vs.map (·.ty)) (payloadOf vs) = vs.map (·.bytes) := by
  induction vs with
  | nil => rfl
  | cons v vs ih =>
    have h1 := h v (by simp)
    unfold Value.Fits at h1
    have h2 := ih (fun v' hv' => h v' (by simp [hv']))
    simp only [payloadOf] at h2
    simp only [payloadOf, List.map_cons, List.flatten_cons, splitFields]
    rw [← h1, List.take_left, List.drop_left, h2]

theorem isMsg_of_send {C : Collection} {t : MsgType} {vs : List Value} {id : Byte}
    (h : Sendable C t vs) (hid : idOf C t id) (hv : ∀ v ∈ vs, Value.Fits v) :
    IsMsg C ⟨id, payloadOf vs⟩ := by
  refine ⟨t, hid.1, ?_⟩
  simp only
  rw [payloadOf_length hv, h.2.2]
  rfl

end TT
