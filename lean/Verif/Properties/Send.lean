import Verif.Properties.Samples
import Verif.Proofs.Send

/-!
# Properties of sending: C01 - C09, C48, C49, C52

`send C t T s vs : Option (Res σ)`: `none` means that the call does not compile.
-/

namespace TT.Properties
open Spec

variable {σ τ : Type}

/-! ### C01, C02: the wire formats -/

/-- C01. With the Basic envelope, whatever the transmitter and its state, `send` performs a fixed
list of outputs whose bytes are SOH, id, STX, the fields in order, ETX, EOT. -/
theorem C01_basic_wire (C : Collection) (t : MsgType) (vs : List Value) (id : Byte)
    (hE : C.envelope = .basic) (h : Sendable C t vs) (hid : idOf C t id) :
    ∃ os : List Out,
      (∀ (σ : Type) (T : Tx σ) (s : σ), send C t T s vs = some (feed T s os)) ∧
      outBytes os = [0x01, id, 0x02] ++ (vs.map (·.bytes)).flatten ++ [0x03, 0x04] := by
  refine ⟨script C.envelope id vs, fun σ T s => send_eq C t T s vs h hid, ?_⟩
  rw [outBytes_script, hE]
  rfl

example := C01_basic_wire Sample.basic Sample.pose Sample.poseVals 2 rfl (by decide) (by decide)

/-- C02. With the BasicChecksum envelope the bytes are SOH, id, STX, fields, ETX, then the sum
modulo 256 of all of these, then EOT. -/
theorem C02_checksum_wire (C : Collection) (t : MsgType) (vs : List Value) (id : Byte)
    (hE : C.envelope = .basicChecksum) (h : Sendable C t vs) (hid : idOf C t id) :
    ∃ (os : List Out) (front : List Byte),
      (∀ (σ : Type) (T : Tx σ) (s : σ), send C t T s vs = some (feed T s os)) ∧
      front = [0x01, id, 0x02] ++ (vs.map (·.bytes)).flatten ++ [0x03] ∧
      outBytes os = front ++ [UInt8.ofNat ((front.map UInt8.toNat).sum % 256), 0x04] := by
  refine ⟨script C.envelope id vs, _, fun σ T s => send_eq C t T s vs h hid, rfl, ?_⟩
  rw [outBytes_script, hE]
  have : ∀ l : List Byte, byteSum l = UInt8.ofNat ((l.map UInt8.toNat).sum % 256) := by
    intro l
    induction l with
    | nil => rfl
    | cons b l ih =>
      rw [byteSum, ih, List.map_cons, List.sum_cons]
      apply UInt8.toNat_inj.mp
      have := UInt8.toNat_lt b
      simp
  rw [← this]
  rfl

example := C02_checksum_wire Sample.checked Sample.pose Sample.poseVals 2 rfl (by decide) (by decide)

/-- The calls that compile, exactly: at most 255 types, the message is one of them, and the
contents have its field types (used by every other sending property). -/
theorem C01_compiles_iff (C : Collection) (t : MsgType) (T : Tx σ) (s : σ) (vs : List Value) :
    (send C t T s vs).isSome ↔
      C.messages.length ≤ 255 ∧ t ∈ C.messages ∧ vs.map (·.ty) = t.fields := by
  constructor
  · intro h
    by_cases hs : Sendable C t vs
    · exact hs
    · rw [send_none C t T s vs hs] at h; simp at h
  · intro h
    obtain ⟨id, hid⟩ := idOf_exists h.1 h.2.1
    rw [send_eq C t T s vs h hid]; rfl

example : Sample.basic.messages.length ≤ 255 ∧ Sample.pose ∈ Sample.basic.messages ∧
    Sample.poseVals.map (·.ty) = Sample.pose.fields := by decide

/-! ### C03: sizes -/

/-- C03. The number of bytes output equals the compile-time size, i.e. the field sizes plus 5 or 6. -/
theorem C03_size (C : Collection) (t : MsgType) (vs : List Value)
    (h : Sendable C t vs) (hv : ∀ v ∈ vs, v.bytes.length = fieldSize v.ty) :
    ∃ os : List Out,
      (∀ (σ : Type) (T : Tx σ) (s : σ), send C t T s vs = some (feed T s os)) ∧
      (outBytes os).length = sizeofBound C t ∧
      sizeofBound C t = (t.fields.map fieldSize).sum +
        (match C.envelope with | .basic => 5 | .basicChecksum => 6) := by
  obtain ⟨id, hid⟩ := idOf_exists h.1 h.2.1
  refine ⟨script C.envelope id vs, fun σ T s => send_eq C t T s vs h hid, ?_, ?_⟩
  · rw [outBytes_script, frame_length, payloadOf_length hv, h.2.2, sizeofBound_eq]
    rfl
  · rw [sizeofBound_eq, Nat.add_comm]
    cases C.envelope <;> rfl

example := C03_size Sample.checked Sample.pose Sample.poseVals (by decide) (by decide)

/-! ### C04, C05: array buffers -/

/-- C04. An array buffer sized for one message, new or reset, takes one `send` of it, is then full,
and holds the wire bytes. -/
theorem C04_autosized (C : Collection) (t : MsgType) (vs : List Value) (id : Byte)
    (h : Sendable C t vs) (hid : idOf C t id) (hv : ∀ v ∈ vs, v.bytes.length = fieldSize v.ty)
    (a : ArrayBuf (autosizedCapacity C t)) (ha : a.buffer.length = autosizedCapacity C t) :
    ∃ a', send C t (boostArrayBuffer _) a.reset vs = some (.ok a') ∧
      a'.range = frame C.envelope ⟨id, payloadOf vs⟩ ∧
      a'.it = autosizedCapacity C t ∧ a'.buffer.length = autosizedCapacity C t := by
  have hl : (frame C.envelope ⟨id, payloadOf vs⟩).length = autosizedCapacity C t := by
    rw [frame_length]
    simp only
    rw [payloadOf_length hv, h.2.2]
    exact (sizeofBound_eq C t).symm
  obtain ⟨a', h1, h2, h3, h4⟩ := ArrayBuf.write_ok (frame C.envelope ⟨id, payloadOf vs⟩) a.reset
    (by simp [ArrayBuf.reset, hl, ha])
  refine ⟨a', ?_, ?_, ?_, ?_⟩
  · rw [send_eq C t _ _ vs h hid, arrayBuffer_feed, outBytes_script, h1]
  · rw [h2]; simp [ArrayBuf.range, ArrayBuf.reset]
  · rw [h3, hl]; simp [ArrayBuf.reset]
  · rw [h4]; exact ha

/-- C04, a newly constructed buffer is in that state. -/
theorem C04_new (size : Nat) : (ArrayBuf.new size).reset = ArrayBuf.new size ∧
    (ArrayBuf.new size).buffer.length = size := by
  simp [ArrayBuf.new, ArrayBuf.reset]

/-- C04. An array buffer sized for the collection takes one `send` of any of its messages. -/
theorem C04_collection (C : Collection) (t : MsgType) (vs : List Value) (id : Byte)
    (h : Sendable C t vs) (hid : idOf C t id) (hv : ∀ v ∈ vs, v.bytes.length = fieldSize v.ty)
    (a : ArrayBuf (collectionAutosizedCapacity C))
    (ha : a.buffer.length = collectionAutosizedCapacity C) :
    ∃ a', send C t (boostArrayBuffer _) a.reset vs = some (.ok a') ∧
      a'.range = frame C.envelope ⟨id, payloadOf vs⟩ ∧
      a'.buffer.length = collectionAutosizedCapacity C := by
  have hl : (frame C.envelope ⟨id, payloadOf vs⟩).length ≤ collectionAutosizedCapacity C := by
    rw [frame_length]
    simp only
    rw [payloadOf_length hv, h.2.2]
    exact (sizeofBound_eq C t).symm ▸ le_maxMessageLength C h.2.1
  obtain ⟨a', h1, h2, h3, h4⟩ := ArrayBuf.write_ok (frame C.envelope ⟨id, payloadOf vs⟩) a.reset
    (by simp [ArrayBuf.reset, ha]; exact hl)
  refine ⟨a', ?_, ?_, ?_⟩
  · rw [send_eq C t _ _ vs h hid, arrayBuffer_feed, outBytes_script, h1]
  · rw [h2]; simp [ArrayBuf.range, ArrayBuf.reset]
  · rw [h4]; exact ha

example := C04_autosized Sample.checked Sample.pose Sample.poseVals 2 (by decide) (by decide)
  (by decide) (ArrayBuf.new _) (C04_new _).2
example := C04_collection Sample.basic Sample.level Sample.levelVals 1 (by decide) (by decide)
  (by decide) (ArrayBuf.new _) (C04_new _).2

/-- C05. Outputs to an array buffer are well defined iff they fit behind what is already there. -/
theorem C05_array_boundary {size : Nat} (a : ArrayBuf size) (ha : a.buffer.length = size)
    (hi : a.it ≤ size) (os : List Out) :
    (a.it + (outBytes os).length ≤ size → ∃ a', feed (boostArrayBuffer size) a os = .ok a' ∧
      a'.range = a.range ++ outBytes os ∧ a'.it = a.it + (outBytes os).length ∧
      a'.buffer.length = size) ∧
    (size < a.it + (outBytes os).length → feed (boostArrayBuffer size) a os = .error .ub) := by
  rw [arrayBuffer_feed]
  constructor
  · intro h
    obtain ⟨a', h1, h2, h3, h4⟩ := ArrayBuf.write_ok (outBytes os) a (by omega)
    exact ⟨a', h1, h2, h3, by omega⟩
  · intro h
    exact ArrayBuf.write_ub (outBytes os) a (by omega) (by omega)

example : (ArrayBuf.new 5).buffer.length = 5 ∧ (ArrayBuf.new 5).it ≤ 5 ∧
    (ArrayBuf.new 5).it + (outBytes [.byte 1, .block [2, 3, 4], .finished]).length ≤ 5 ∧
    5 < (ArrayBuf.new 5).it + (outBytes [.byte 1, .block [2, 3, 4, 5, 6]]).length := by decide

/-! ### C06: VectorBuffer -/

/-- One `send` request. -/
structure Request where
  C : Collection
  t : MsgType
  vs : List Value

/-- Make the `send` calls one after the other. -/
def sendAll (T : Tx σ) : σ → List Request → Option (Res σ)
  | s, [] => some (.ok s)
  | s, r :: rs => match send r.C r.t T s r.vs with
    | some (.ok s') => sendAll T s' rs
    | other => other

/-- C06. Any list of sends appends the wire bytes of each in order, keeping what was there. -/
theorem C06_vector_accumulates (prev : List Byte) (rs : List Request)
    (h : ∀ r ∈ rs, Sendable r.C r.t r.vs) :
    sendAll vectorBuffer prev rs =
      some (.ok (prev ++ (rs.map fun r => wire r.C r.t r.vs).flatten)) := by
  induction rs generalizing prev with
  | nil => simp [sendAll]
  | cons r rs ih =>
    have hr := h r (by simp)
    have hid := idOf_idxOf hr.1 hr.2.1
    obtain ⟨s', h1, h2⟩ := vectorBuffer_faithful.feed (script r.C.envelope _ r.vs) prev
    simp only [id_eq] at h2
    unfold sendAll
    rw [send_eq r.C r.t vectorBuffer prev r.vs hr hid, h1]
    simp only
    rw [ih s' (fun r' hr' => h r' (by simp [hr'])), h2, outBytes_script]
    simp [wire]

example := C06_vector_accumulates [7, 7]
  [⟨Sample.basic, Sample.pose, Sample.poseVals⟩, ⟨Sample.checked, Sample.level, Sample.levelVals⟩]
  (by decide)

/-! ### C07: composition -/

/-- The outputs of a script without `outputFinished`. -/
def data (os : List Out) : List Out := os.filter (· ≠ .finished)

/-- C07. Running outputs on a composition succeeds iff it does on both components, each of which
gets the same bytes and blocks in the same order, but never `outputFinished`. -/
theorem C07_composition (T : Tx σ) (U : Tx τ) (s s' : σ) (u u' : τ) (os : List Out) :
    feed (composition T U) (s, u) os = .ok (s', u') ↔
      feed T s (data os) = .ok s' ∧ feed U u (data os) = .ok u' := by
  induction os generalizing s u with
  | nil => simp [feed, data]
  | cons o os ih =>
    by_cases ho : o = .finished
    · subst ho
      have : data (.finished :: os) = data os := by simp [data]
      rw [this, feed_cons]
      exact ih s u
    · have : data (o :: os) = o :: data os := by simp [data, ho]
      rw [this, feed_cons, feed_cons, feed_cons, composition_on _ _ _ _ ho]
      cases o.on T s with
      | error f => simp [Except.bind]
      | ok s1 =>
        cases o.on U u with
        | error f => simp [Except.bind]
        | ok u1 => exact ih s1 u1

/-- C07, checksum. Composing with a checksum computer leaves the other component's outputs
unchanged and adds up their bytes. -/
theorem C07_checksum (T : Tx σ) (s s' : σ) (ck ck' : Byte) (os : List Out) :
    feed (composition checksumComputer T) (ck, s) os = .ok (ck', s') ↔
      feed T s (data os) = .ok s' ∧ ck' = ck + byteSum (outBytes os) := by
  rw [C07_composition]
  have h : ∀ (os : List Out) (ck : Byte), feed checksumComputer ck (data os) =
      .ok (ck + byteSum (outBytes os)) := by
    intro os
    induction os with
    | nil => intro ck; simp [feed, data, outBytes, byteSum]
    | cons o os ih =>
      intro ck
      have hb : outBytes (o :: os) = o.bytes ++ outBytes os := by simp [outBytes]
      by_cases ho : o = .finished
      · subst ho
        have : data (.finished :: os) = data os := by simp [data]
        rw [this, hb, ih]; simp [Out.bytes]
      · have : data (o :: os) = o :: data os := by simp [data, ho]
        rw [this, feed_cons, checksum_on, hb, byteSum_append, ← UInt8.add_assoc]
        exact ih _
  rw [h]
  simp only [Except.ok.injEq]
  constructor
  · rintro ⟨h1, h2⟩; exact ⟨h2, h1.symm⟩
  · rintro ⟨h1, h2⟩; exact ⟨h2.symm, h1⟩

example : feed (composition vectorBuffer (composition checksumComputer vectorBuffer))
    ([9], 0, []) [.byte 1, .block [2, 255], .finished] = .ok ([9, 1, 2, 255], 2, [1, 2, 255]) := by
  decide

/-! ### C08: ids -/

/-- C08. For distinct message types the id of a type is its position, and conversely. -/
theorem C08_id_is_position (C : Collection) (hn : C.messages.Nodup) (hl : C.messages.length ≤ 255)
    (t : MsgType) (id : Byte) :
    messageId C t = some id ↔ C.messages[id.toNat]? = some t := by
  rw [messageId_spec hl]
  constructor
  · exact fun h => h.1
  · intro h
    refine ⟨h, fun j hj hj' => ?_⟩
    obtain ⟨h1, e1⟩ := List.getElem?_eq_some_iff.mp h
    obtain ⟨h2, e2⟩ := List.getElem?_eq_some_iff.mp hj'
    have := (List.getElem_inj (h₀ := h1) (h₁ := h2) hn).mp (e1.trans e2.symm)
    omega

/-- C08. Every message type of the collection has an id, and different types different ids. -/
theorem C08_ids_distinct (C : Collection) (hl : C.messages.length ≤ 255) (t : MsgType)
    (ht : t ∈ C.messages) :
    ∃ id, messageId C t = some id ∧ id.toNat < C.messages.length ∧
      ∀ t' ∈ C.messages, t' ≠ t → messageId C t' ≠ some id := by
  obtain ⟨id, hid⟩ := idOf_exists hl ht
  refine ⟨id, (messageId_spec hl).mpr hid, (List.getElem?_eq_some_iff.mp hid.1).1, ?_⟩
  intro t' _ hne h
  have := ((messageId_spec hl).mp h).1
  rw [hid.1] at this
  exact hne (Option.some.inj this).symm

/-- C08. The receiver's run-time dispatch on a valid id runs the functor for the type at that
position, i.e. the one whose id was sent; on an invalid id it does nothing. -/
theorem C08_dispatch {α : Type} (C : Collection) (hl : C.messages.length ≤ 255) (t : MsgType)
    (id : Byte) (h : messageId C t = some id) (op : MsgType → α) (none_ : α) :
    applyAt C.messages id op none_ = op t := by
  rw [applyAt_eq, ((messageId_spec hl).mp h).1]

/-- C08. Dispatch on an id that no type has calls nothing. -/
theorem C08_dispatch_invalid {α : Type} (C : Collection) (id : Byte)
    (h : C.messages.length ≤ id.toNat) (op : MsgType → α) (none_ : α) :
    applyAt C.messages id op none_ = none_ ∧ isIdValid C id = false := by
  constructor
  · rw [applyAt_eq, List.getElem?_eq_none h]
  · unfold isIdValid messageCount
    rw [decide_eq_false_iff_not]
    omega

example : Sample.basic.messages.Nodup ∧ Sample.basic.messages.length ≤ 255 ∧
    Sample.pose ∈ Sample.basic.messages ∧ messageId Sample.basic Sample.pose = some 2 ∧
    Sample.basic.messages.length ≤ (3 : Byte).toNat := by decide

/-! ### C09: run-time length -/

/-- C09. The run-time length of a valid id is the compile-time length of that message. -/
theorem C09_length_valid (C : Collection) (hm : maxMessageLength C < 2 ^ 64) (id : Byte)
    (h : id.toNat < C.messages.length) :
    ∃ n, messageLengthCT C id.toNat = some n ∧ getMessageLength C id = .ok n ∧
      n = sizeofBound C C.messages[id.toNat] := by
  have hg : C.messages[id.toNat]? = some C.messages[id.toNat] := List.getElem?_eq_getElem h
  refine ⟨sizeofBound C C.messages[id.toNat], by simp [messageLengthCT, hg], ?_, rfl⟩
  apply getMessageLength_eq hm
  simp only [announced, typeOf, hg, Option.map_some]
  rw [sizeofBound_eq]

/-- C09. For an invalid id the run-time length is 0. -/
theorem C09_length_invalid (C : Collection) (id : Byte) (h : C.messages.length ≤ id.toNat) :
    getMessageLength C id = .ok 0 :=
  getMessageLength_invalid (by simp [typeOf, h])

example : maxMessageLength Sample.checked < 2 ^ 64 ∧ (2 : Byte).toNat < Sample.checked.messages.length ∧
    Sample.checked.messages.length ≤ (7 : Byte).toNat := by decide

/-! ### C48: I2C -/

/-- An I2C transmitter between messages. -/
def I2CState.Idle (s : I2CState) : Prop := s.bufTx.it = 0 ∧ s.bufTx.buffer.length = 255

theorem i2c_data (s : I2CState) (os : List Out) (h : ∀ o ∈ os, o ≠ .finished) :
    feed arduinoI2C s os = (s.bufTx.write (outBytes os)).bind
      (fun b => .ok { s with bufTx := b }) := by
  induction os generalizing s with
  | nil => rfl
  | cons o os ih =>
    have hb : outBytes (o :: os) = o.bytes ++ outBytes os := by simp [outBytes]
    have ho : o.on arduinoI2C s =
        (s.bufTx.write o.bytes).bind (fun b => .ok { s with bufTx := b }) := by
      cases o with
      | byte b =>
        simp only [Out.on, arduinoI2C, Out.bytes, ArrayBuf.writeByte_eq]
        rfl
      | block bs => rfl
      | finished => exact absurd rfl (h _ (by simp))
    rw [feed_cons, ho, hb, ArrayBuf.write_append]
    cases s.bufTx.write o.bytes with
    | error f => rfl
    | ok b => exact ih _ (fun o' ho' => h o' (by simp [ho']))

theorem script_split (E : Envelope) (id : Byte) (vs : List Value) :
    ∃ os, script E id vs = os ++ [.finished] ∧ (∀ o ∈ os, o ≠ .finished) ∧
      outBytes os = frame E ⟨id, payloadOf vs⟩ := by
  refine ⟨_, rfl, ?_, ?_⟩
  · intro o ho
    cases E <;>
    · simp only [List.mem_append, List.mem_cons, List.mem_map, List.not_mem_nil, or_false] at ho
      rcases ho with ((rfl | rfl | rfl) | ⟨v, _, rfl⟩) | h
      · simp
      · simp
      · simp
      · exact outField_ne v
      · rcases h with rfl | rfl | rfl <;> simp
  · have := outBytes_script E id vs
    unfold script at this
    rw [outBytes_append] at this
    simpa [outBytes, Out.bytes] using this

/-- C48. A message of at most 255 bytes becomes exactly one bus write with exactly its bytes, and
the transmitter is idle again. -/
theorem C48_i2c_one_write (C : Collection) (t : MsgType) (vs : List Value) (id : Byte)
    (h : Sendable C t vs) (hid : idOf C t id) (s : I2CState) (hs : I2CState.Idle s)
    (hl : (frame C.envelope ⟨id, payloadOf vs⟩).length ≤ 255) :
    ∃ s', send C t arduinoI2C s vs = some (.ok s') ∧
      s'.wire = s.wire ++ [frame C.envelope ⟨id, payloadOf vs⟩] ∧ I2CState.Idle s' := by
  obtain ⟨os, e, hne, hb⟩ := script_split C.envelope id vs
  obtain ⟨b, h1, h2, h3, h4⟩ := ArrayBuf.write_ok (frame C.envelope ⟨id, payloadOf vs⟩) s.bufTx
    (by rw [hs.1, hs.2]; omega)
  refine ⟨{ bufTx := b.reset, wire := s.wire ++ [b.range] }, ?_, ?_, rfl, ?_⟩
  · rw [send_eq C t _ _ vs h hid, e, feed_finished, i2c_data _ _ hne, hb, h1]
    rfl
  · simp only [h2]
    simp [ArrayBuf.range, hs.1]
  · simp [ArrayBuf.reset, h4, hs.2]

/-- C48. A longer message overflows the transmitter's buffer. -/
theorem C48_i2c_overflow (C : Collection) (t : MsgType) (vs : List Value) (id : Byte)
    (h : Sendable C t vs) (hid : idOf C t id) (s : I2CState) (hs : I2CState.Idle s)
    (hl : 255 < (frame C.envelope ⟨id, payloadOf vs⟩).length) :
    send C t arduinoI2C s vs = some (.error .ub) := by
  obtain ⟨os, e, hne, hb⟩ := script_split C.envelope id vs
  rw [send_eq C t _ _ vs h hid, e, feed_finished, i2c_data _ _ hne, hb,
    ArrayBuf.write_ub _ _ (by rw [hs.1, hs.2]; omega) (by rw [hs.1, hs.2]; omega)]
  rfl

/-- A message type with a 300-byte field. -/
def bigMsg : MsgType := ⟨0, [.pod 0 300]⟩
def bigColl : Collection := ⟨[bigMsg], .basic⟩
def bigVals : List Value := [⟨.pod 0 300, List.replicate 300 7⟩]

/-- C48. Any list of messages of at most 255 bytes: one bus write per message, in order. -/
theorem C48_i2c_sequence (s : I2CState) (hs : I2CState.Idle s) (rs : List Request)
    (h : ∀ r ∈ rs, Sendable r.C r.t r.vs) (hl : ∀ r ∈ rs, (wire r.C r.t r.vs).length ≤ 255) :
    ∃ s', sendAll arduinoI2C s rs = some (.ok s') ∧
      s'.wire = s.wire ++ rs.map (fun r => wire r.C r.t r.vs) := by
  induction rs generalizing s with
  | nil => exact ⟨s, rfl, by simp⟩
  | cons r rs ih =>
    have hr := h r (by simp)
    have hid := idOf_idxOf hr.1 hr.2.1
    obtain ⟨s1, h1, h2, h3⟩ := C48_i2c_one_write r.C r.t r.vs _ hr hid s hs (hl r (by simp))
    obtain ⟨s2, h4, h5⟩ := ih s1 h3 (fun r' hr' => h r' (by simp [hr']))
      (fun b hb => hl b (by simp [hb]))
    refine ⟨s2, ?_, by rw [h5, h2]; simp [wire]⟩
    unfold sendAll
    rw [h1]
    exact h4

example := C48_i2c_sequence ⟨ArrayBuf.new 255, [[1, 2]]⟩ ⟨rfl, List.length_replicate⟩
  [⟨Sample.basic, Sample.pose, Sample.poseVals⟩, ⟨Sample.checked, Sample.level, Sample.levelVals⟩]
  (by decide) (by decide)
example : I2CState.Idle ⟨ArrayBuf.new 255, [[1, 2]]⟩ ∧
    (frame Sample.checked.envelope ⟨2, payloadOf Sample.poseVals⟩).length ≤ 255 ∧
    255 < (frame bigColl.envelope ⟨0, payloadOf bigVals⟩).length ∧
    Sendable bigColl bigMsg bigVals ∧ idOf bigColl bigMsg 0 :=
  ⟨⟨rfl, List.length_replicate⟩, by decide, by decide +kernel, by decide, by decide⟩

/-! ### C49: transmitter independence -/

/-- C49. The outputs of `send` are one fixed list, the same for every transmitter and state;
`outputFinished` occurs exactly once, at the end. -/
theorem C49_fixed_outputs (C : Collection) (t : MsgType) (vs : List Value) (h : Sendable C t vs) :
    ∃ os : List Out,
      (∀ (σ : Type) (T : Tx σ) (s : σ), send C t T s vs = some (feed T s (os ++ [.finished]))) ∧
      Out.finished ∉ os := by
  obtain ⟨id, hid⟩ := idOf_exists h.1 h.2.1
  obtain ⟨os, e, hne, _⟩ := script_split C.envelope id vs
  exact ⟨os, fun σ T s => by rw [send_eq C t T s vs h hid, e], fun hm => hne _ hm rfl⟩

/-- C49. Any two transmitters that faithfully log what is output get the same bytes. -/
theorem C49_same_bytes (C : Collection) (t : MsgType) (vs : List Value) (h : Sendable C t vs)
    (T : Tx σ) (U : Tx τ) (logT : σ → List Byte) (logU : τ → List Byte)
    (hT : Faithful T logT) (hU : Faithful U logU) (s : σ) (u : τ) :
    ∃ s' u' bs, send C t T s vs = some (.ok s') ∧ send C t U u vs = some (.ok u') ∧
      logT s' = logT s ++ bs ∧ logU u' = logU u ++ bs := by
  obtain ⟨id, hid⟩ := idOf_exists h.1 h.2.1
  obtain ⟨s', h1, h2⟩ := hT.feed (script C.envelope id vs) s
  obtain ⟨u', h3, h4⟩ := hU.feed (script C.envelope id vs) u
  exact ⟨s', u', _, by rw [send_eq C t T s vs h hid, h1], by rw [send_eq C t U u vs h hid, h3],
    h2, h4⟩

example := C49_same_bytes Sample.checked Sample.pose Sample.poseVals (by decide) vectorBuffer
  portTransmitter id List.flatten vectorBuffer_faithful portTransmitter_faithful [] []

/-! ### C52: parameter overloads -/

/-- C52. Passing the fields as separate parameters outputs what sending the tuple outputs, and the
bytes are the parameters' representations in order. -/
theorem C52_overload (C : Collection) (t : MsgType) (T : Tx σ) (s : σ) (args : List (List Byte))
    (hn : args.length = t.fields.length) (h9 : t.fields.length ≤ 9)
    (hl : C.messages.length ≤ 255) (ht : t ∈ C.messages) :
    ∃ vs : List Value, vs.map (·.bytes) = args ∧ vs.map (·.ty) = t.fields ∧
      sendOverload C t T s args = send C t T s vs ∧ (send C t T s vs).isSome := by
  have h1 : (List.zipWith Value.mk t.fields args).map (·.bytes) = args := by
    rw [List.map_zipWith]
    have : ∀ (fs : List FieldType) (as : List (List Byte)), as.length = fs.length →
        List.zipWith (fun x y => (Value.mk x y).bytes) fs as = as := by
      intro fs
      induction fs with
      | nil => intro as h; cases as <;> simp at h ⊢
      | cons f fs ih =>
        intro as h
        cases as with
        | nil => simp at h
        | cons a as => simp at h; simp [ih as h]
    exact this _ _ hn
  have h2 : (List.zipWith Value.mk t.fields args).map (·.ty) = t.fields := by
    rw [List.map_zipWith]
    have : ∀ (fs : List FieldType) (as : List (List Byte)), as.length = fs.length →
        List.zipWith (fun x y => (Value.mk x y).ty) fs as = fs := by
      intro fs
      induction fs with
      | nil => intro as h; simp
      | cons f fs ih =>
        intro as h
        cases as with
        | nil => simp at h
        | cons a as => simp at h; simp [ih as h]
    exact this _ _ hn
  refine ⟨_, h1, h2, ?_, (C01_compiles_iff C t T s _).mpr ⟨hl, ht, h2⟩⟩
  unfold sendOverload
  rw [if_pos ⟨hn, h9⟩]

/-- C52. A wrong number of arguments does not compile. -/
theorem C52_wrong_arity (C : Collection) (t : MsgType) (T : Tx σ) (s : σ) (args : List (List Byte))
    (hn : args.length ≠ t.fields.length) : sendOverload C t T s args = none := by
  unfold sendOverload
  rw [if_neg (fun h => hn h.1)]

example := C52_overload Sample.basic Sample.pose vectorBuffer [] [[1], [2, 3, 4, 5], [6, 7]]
  (by decide) (by decide) (by decide) (by decide)
example := C52_wrong_arity Sample.basic Sample.pose vectorBuffer [] [[1], [2, 3, 4, 5]] (by decide)

end TT.Properties
