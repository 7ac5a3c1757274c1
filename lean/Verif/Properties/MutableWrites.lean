import Verif.Model.MutableWrites
import Verif.Properties.EndToEnd

/-!
# Property about transmitters that change the array they are given: C109
-/

namespace TT.Properties
open Spec

variable {σ τ : Type}

/-! ### C109 -/

/-- The state alone. -/
def state : Res (σ × List Byte) → Res σ
  | .ok (s, _) => .ok s
  | .error f => .error f

/-- What a transmitter does to its state, leaving aside what becomes of the array. -/
def plain (T : MutTx σ) : Tx σ where
  writeByte := T.writeByte
  write s bs := state (T.write s bs)
  writeFinished := T.writeFinished

theorem mutField_eq (T : MutTx σ) (s : σ) (v : Value) :
    mutBufferField T s v = (bufferField (plain T) s v >>= fun s => .ok (s, v)) := by
  unfold mutBufferField bufferField
  split
  · rename_i b h1 h2
    simp only [h1, h2]
    rfl
  · rename_i h
    split
    · rename_i b h1 h2
      exact absurd h2 (h b h1)
    · simp only [plain]
      cases T.write s v.bytes <;> rfl

theorem mutTuple_eq (T : MutTx σ) : ∀ (vs : List Value) (s : σ),
    mutBufferTuple T s vs = (bufferTuple (plain T) s vs >>= fun s => .ok (s, vs)) := by
  intro vs
  induction vs with
  | nil => intro s; rfl
  | cons v vs ih =>
    intro s
    simp only [mutBufferTuple, bufferTuple, mutField_eq]
    cases bufferField (plain T) s v with
    | error f => rfl
    | ok s1 =>
      simp only [ok_bind, ih]
      cases bufferTuple (plain T) s1 vs <;> rfl

theorem plain_checksum (T : MutTx σ) :
    plain (mutComposition (MutTx.of checksumComputer) T) = composition checksumComputer (plain T) := by
  unfold plain mutComposition composition MutTx.of
  congr 1
  funext s bs
  simp only
  cases checksumComputer.write s.1 bs with
  | error f => rfl
  | ok a =>
    simp only [ok_bind]
    show state (T.write s.2 bs >>= fun q => (.ok ((a, q.1), q.2) : Res ((Byte × σ) × List Byte))) = _
    cases T.write s.2 bs <;> rfl

theorem mutSendMessage_eq (E : Envelope) (T : MutTx σ) (s : σ) (vs : List Value) (id : Byte) :
    mutSendMessage E T s vs id = (sendMessage E (plain T) s vs id >>= fun s => .ok (s, vs)) := by
  cases E with
  | basic =>
    simp only [mutSendMessage, sendMessage, mutSendMessageBasic, sendMessageBasic, mutTuple_eq]
    show (T.writeByte s SOH >>= _) = ((T.writeByte s SOH >>= _) >>= _)
    cases T.writeByte s SOH with
    | error f => rfl
    | ok s1 =>
      show (T.writeByte s1 id >>= _) = ((T.writeByte s1 id >>= _) >>= _)
      cases T.writeByte s1 id with
      | error f => rfl
      | ok s2 =>
        show (T.writeByte s2 STX >>= _) = ((T.writeByte s2 STX >>= _) >>= _)
        cases T.writeByte s2 STX with
        | error f => rfl
        | ok s3 =>
          simp only [ok_bind]
          cases bufferTuple (plain T) s3 vs with
          | error f => rfl
          | ok s4 =>
            show (T.writeByte s4 ETX >>= _) = ((T.writeByte s4 ETX >>= _) >>= _)
            cases T.writeByte s4 ETX with
            | error f => rfl
            | ok s5 => rfl
  | basicChecksum =>
    simp only [mutSendMessage, sendMessage, mutSendMessageChecksum, sendMessageChecksum, mutTuple_eq, plain_checksum]
    have hb : ∀ p v, (mutComposition (MutTx.of checksumComputer) T).writeByte p v =
        (composition checksumComputer (plain T)).writeByte p v := fun _ _ => rfl
    simp only [hb]
    generalize composition checksumComputer (plain T) = K
    cases K.writeByte (checksumInit, s) SOH with
    | error f => rfl
    | ok s1 =>
      simp only [ok_bind]
      cases K.writeByte s1 id with
      | error f => rfl
      | ok s2 =>
        simp only [ok_bind]
        cases K.writeByte s2 STX with
        | error f => rfl
        | ok s3 =>
          simp only [ok_bind]
          cases bufferTuple K s3 vs with
          | error f => rfl
          | ok s4 =>
            simp only [ok_bind]
            cases K.writeByte s4 ETX with
            | error f => rfl
            | ok s5 =>
              simp only [ok_bind]
              show (T.writeByte s5.2 s5.1 >>= _) = ((T.writeByte s5.2 s5.1 >>= _) >>= _)
              cases T.writeByte s5.2 s5.1 with
              | error f => rfl
              | ok s6 => rfl

/-- C109, one transmitter. Whatever it does to the arrays, it is given exactly the outputs of the script, with the checksum of
the bytes as they were, and the caller's values stay as they are. A call compiles if and only if it does for other
transmitters. -/
theorem C109_alone (C : Collection) (t : MsgType) (T : MutTx σ) (s : σ) (vs : List Value) :
    (∀ id, Sendable C t vs → idOf C t id →
      mutSend C t T s vs = some (feed (plain T) s (script C.envelope id vs) >>= fun s => .ok (s, vs))) ∧
    (¬ Sendable C t vs → mutSend C t T s vs = none) := by
  have key : mutSend C t T s vs = (send C t (plain T) s vs).map (fun x => x >>= fun s => .ok (s, vs)) := by
    unfold mutSend send
    split
    · cases messageId C t with
      | none => rfl
      | some id =>
        simp only
        rw [mutSendMessage_eq]
        simp only [Option.map_some, Option.some.injEq]
        cases sendMessage C.envelope (plain T) s vs _ with
        | error f => rfl
        | ok s1 =>
          simp only [ok_bind]
          show (T.writeFinished s1 >>= _) = (T.writeFinished s1 >>= _)
          rfl
    · rfl
  refine ⟨fun id hs hid => ?_, fun hs => ?_⟩
  · rw [key, send_eq C t (plain T) s vs hs hid]
    rfl
  · rw [key, send_none C t (plain T) s vs hs]
    rfl

/-- A port that inverts the bytes of arrays in place before it writes them. -/
def inverting : MutTx (List Byte) where
  writeByte s v := .ok (s ++ [~~~v])
  write s bs := .ok (s ++ bs.map (~~~·), bs.map (~~~·))
  writeFinished := .ok

/-- `C109_alone` for a port that inverts what it is given: the line carries the inverted frame, with the inverse of the right
checksum, and the contents are as before. -/
example : Sendable Sample.checked Sample.pose Sample.poseVals ∧ idOf Sample.checked Sample.pose 2 ∧
    mutSend Sample.checked Sample.pose inverting [] Sample.poseVals =
      some (.ok ((frame .basicChecksum Sample.mPose).map (~~~·), Sample.poseVals)) := by
  refine ⟨?_, ?_, by decide +kernel⟩
  · unfold Sendable; decide +kernel
  · unfold idOf; decide +kernel

/-- The outputs that the second transmitter of a composition gets: the arrays as the first one, `T`, has left them. -/
def leftBy (T : MutTx σ) : σ → List Out → List Out
  | _, [] => []
  | s, .byte b :: os => match T.writeByte s b with
    | .ok s' => .byte b :: leftBy T s' os
    | .error _ => []
  | s, .block bs :: os => match T.write s bs with
    | .ok (s', bs') => .block bs' :: leftBy T s' os
    | .error _ => []
  | s, .finished :: os => leftBy T s os

/-- C109, two transmitters. In a composition the first one gets the outputs, the second one gets what the first has left of
them. -/
theorem C109_composed (T : MutTx σ) (U : MutTx τ) (s s' : σ) (u u' : τ) (os : List Out) :
    feed (plain (mutComposition T U)) (s, u) os = .ok (s', u') ↔
      feed (plain T) s (data os) = .ok s' ∧ feed (plain U) u (leftBy T s os) = .ok u' := by
  induction os generalizing s u with
  | nil => simp [feed, data, leftBy]
  | cons o os ih =>
    cases o with
    | finished =>
      have : data (.finished :: os) = data os := by simp [data]
      rw [this, leftBy, feed_cons]
      exact ih s u
    | byte b =>
      have : data (.byte b :: os) = .byte b :: data os := by simp [data]
      rw [this, feed_cons, feed_cons, leftBy]
      have h1 : (Out.byte b).on (plain (mutComposition T U)) (s, u) =
          (T.writeByte s b >>= fun a => U.writeByte u b >>= fun c => .ok (a, c)) := rfl
      have h2 : (Out.byte b).on (plain T) s = T.writeByte s b := rfl
      rw [h1, h2]
      cases T.writeByte s b with
      | error f => simp [Except.bind]
      | ok s1 =>
        simp only [ok_bind]
        rw [feed_cons]
        have h3 : (Out.byte b).on (plain U) u = U.writeByte u b := rfl
        rw [h3]
        cases U.writeByte u b with
        | error f => simp [Except.bind]
        | ok u1 => exact ih s1 u1
    | block bs =>
      have : data (.block bs :: os) = .block bs :: data os := by simp [data]
      rw [this, feed_cons, feed_cons, leftBy]
      have h1 : (Out.block bs).on (plain (mutComposition T U)) (s, u) =
          state (T.write s bs >>= fun q => U.write u q.2 >>= fun r => (.ok ((q.1, r.1), r.2) : Res ((σ × τ) × List Byte))) :=
        rfl
      have h2 : (Out.block bs).on (plain T) s = state (T.write s bs) := rfl
      rw [h1, h2]
      cases T.write s bs with
      | error f => simp [Except.bind, state]
      | ok q =>
        obtain ⟨s1, bs'⟩ := q
        simp only [ok_bind]
        rw [feed_cons]
        have h3 : (Out.block bs').on (plain U) u = state (U.write u bs') := rfl
        rw [h3]
        cases U.write u bs' with
        | error f => simp [Except.bind, state]
        | ok r =>
          obtain ⟨u1, cs⟩ := r
          exact ih s1 u1

/-- Inverting first: the second transmitter gets the inverted array, but the single byte as it is. -/
example : leftBy inverting [] [.byte 1, .block [2, 3], .finished] = [.byte 1, .block [0xFD, 0xFC]] ∧
    feed (plain (mutComposition inverting (MutTx.of vectorBuffer))) ([], []) [.byte 1, .block [2, 3], .finished] =
      .ok ([0xFE, 0xFD, 0xFC], [1, 0xFD, 0xFC]) := by
  decide +kernel

/-- C109, three and more transmitters. A composition leaves of the arrays what its second transmitter leaves of what the first
has left; this is what a transmitter composed with it gets. -/
theorem C109_left (T : MutTx σ) (U : MutTx τ) (s : σ) (u : τ) (os : List Out) (r : σ × τ)
    (h : feed (plain (mutComposition T U)) (s, u) os = .ok r) :
    leftBy (mutComposition T U) (s, u) os = leftBy U u (leftBy T s os) := by
  induction os generalizing s u with
  | nil => rfl
  | cons o os ih =>
    rw [feed_cons] at h
    cases o with
    | finished => exact ih s u h
    | byte b =>
      have h1 : (mutComposition T U).writeByte (s, u) b =
          (T.writeByte s b >>= fun a => U.writeByte u b >>= fun c => .ok (a, c)) := rfl
      have h2 : (Out.byte b).on (plain (mutComposition T U)) (s, u) = (mutComposition T U).writeByte (s, u) b := rfl
      rw [h2, h1] at h
      rw [leftBy, leftBy, h1]
      cases h3 : T.writeByte s b with
      | error f => rw [h3] at h; simp [Except.bind] at h
      | ok s1 =>
        rw [h3] at h
        simp only [ok_bind] at h ⊢
        rw [leftBy]
        cases h4 : U.writeByte u b with
        | error f => rw [h4] at h; simp [Except.bind] at h
        | ok u1 =>
          rw [h4] at h
          simp only [ok_bind] at h ⊢
          rw [ih s1 u1 h]
    | block bs =>
      have h1 : (mutComposition T U).write (s, u) bs =
          (T.write s bs >>= fun q => U.write u q.2 >>= fun r => (.ok ((q.1, r.1), r.2) : Res ((σ × τ) × List Byte))) := rfl
      have h2 : (Out.block bs).on (plain (mutComposition T U)) (s, u) = state ((mutComposition T U).write (s, u) bs) := rfl
      rw [h2, h1] at h
      rw [leftBy, leftBy, h1]
      cases h3 : T.write s bs with
      | error f => rw [h3] at h; simp [Except.bind, state] at h
      | ok q =>
        obtain ⟨s1, bs1⟩ := q
        rw [h3] at h
        simp only [ok_bind] at h ⊢
        rw [leftBy]
        cases h4 : U.write u bs1 with
        | error f => rw [h4] at h; simp [Except.bind, state] at h
        | ok q =>
          obtain ⟨u1, bs2⟩ := q
          rw [h4] at h
          simp only [ok_bind, state] at h ⊢
          rw [ih s1 u1 h]

/-- Two inversions before a buffer: the buffer gets the original array. -/
example : feed (plain (mutComposition (mutComposition inverting inverting) (MutTx.of vectorBuffer))) (([], []), [])
    [.byte 1, .block [2, 3], .finished] = .ok (([0xFE, 0xFD, 0xFC], [0xFE, 2, 3]), [1, 2, 3]) := by
  decide +kernel

/-- A transmitter that leaves arrays as they are. -/
def Gentle (T : MutTx σ) : Prop := ∀ s bs s' bs', T.write s bs = .ok (s', bs') → bs' = bs

/-- C109. If the first transmitter leaves arrays as they are, both get the outputs, whatever the second one does to the arrays. -/
theorem C109_gentle {T : MutTx σ} (hT : Gentle T) (U : MutTx τ) (s s' : σ) (u u' : τ) (os : List Out) :
    feed (plain (mutComposition T U)) (s, u) os = .ok (s', u') ↔
      feed (plain T) s (data os) = .ok s' ∧ feed (plain U) u (data os) = .ok u' := by
  rw [C109_composed]
  have key : ∀ (os : List Out) (s s' : σ), feed (plain T) s (data os) = .ok s' → leftBy T s os = data os := by
    intro os
    induction os with
    | nil => intro s s' _; rfl
    | cons o os ih =>
      intro s s' h
      cases o with
      | finished =>
        have : data (.finished :: os) = data os := by simp [data]
        rw [this] at h ⊢
        exact ih s s' h
      | byte b =>
        have : data (.byte b :: os) = .byte b :: data os := by simp [data]
        rw [this] at h ⊢
        rw [feed_cons] at h
        have h2 : (Out.byte b).on (plain T) s = T.writeByte s b := rfl
        rw [h2] at h
        rw [leftBy]
        cases h3 : T.writeByte s b with
        | error f => rw [h3] at h; simp [Except.bind] at h
        | ok s1 =>
          rw [h3] at h
          simp only
          rw [ih s1 s' h]
      | block bs =>
        have : data (.block bs :: os) = .block bs :: data os := by simp [data]
        rw [this] at h ⊢
        rw [feed_cons] at h
        have h2 : (Out.block bs).on (plain T) s = state (T.write s bs) := rfl
        rw [h2] at h
        rw [leftBy]
        cases h3 : T.write s bs with
        | error f => rw [h3] at h; simp [Except.bind, state] at h
        | ok q =>
          obtain ⟨s1, bs'⟩ := q
          rw [h3] at h
          rw [hT _ _ _ _ h3]
          simp only
          rw [ih s1 s' h]
  constructor
  · rintro ⟨h1, h2⟩
    rw [key os s s' h1] at h2
    exact ⟨h1, h2⟩
  · rintro ⟨h1, h2⟩
    refine ⟨h1, ?_⟩
    rw [key os s s' h1]
    exact h2

/-- A buffer first: it is `Gentle`, and inverting what it has left changes nothing for it. -/
example : Gentle (MutTx.of vectorBuffer) ∧
    feed (plain (mutComposition (MutTx.of vectorBuffer) inverting)) ([], []) [.byte 1, .block [2, 3], .finished] =
      .ok ([1, 2, 3], [0xFE, 0xFD, 0xFC]) := by
  refine ⟨?_, by decide +kernel⟩
  intro s bs s' bs' h
  simp [MutTx.of, vectorBuffer] at h
  exact h.2.symm

/-- C109. The transmitters of the library leave arrays as they are, and so do compositions of such transmitters; for them this
model is the other one. -/
theorem C109_model (T : Tx σ) (U : Tx τ) :
    plain (MutTx.of T) = T ∧ Gentle (MutTx.of T) ∧
      mutComposition (MutTx.of T) (MutTx.of U) = MutTx.of (composition T U) := by
  refine ⟨?_, ?_, ?_⟩
  · unfold plain MutTx.of
    obtain ⟨a, b, c⟩ := T
    congr 1
    funext s bs
    simp only
    cases b s bs <;> rfl
  · intro s bs s' bs' h
    unfold MutTx.of at h
    simp only at h
    cases h2 : T.write s bs with
    | error f => simp [h2] at h
    | ok s1 => simp [h2] at h; exact h.2.symm
  · unfold mutComposition MutTx.of composition
    congr 1
    funext s bs
    simp only
    cases T.write s.1 bs with
    | error f => rfl
    | ok a =>
      show (U.write s.2 bs >>= fun r => _) >>= _ = (U.write s.2 bs >>= _) >>= _
      cases U.write s.2 bs <;> rfl

/-- `C109_model` for two buffers. -/
example : mutSend Sample.checked Sample.pose (mutComposition (MutTx.of vectorBuffer) (MutTx.of vectorBuffer)) ([], [])
    Sample.poseVals =
      some (.ok ((frame .basicChecksum Sample.mPose, frame .basicChecksum Sample.mPose), Sample.poseVals)) := by
  decide +kernel

/-- C109, order matters. A line that is composed with such a port gets the message if it comes first. If it comes second, it
gets inverted contents: with BasicChecksum what it gets is not a message, and with Basic it is another one. -/
theorem C109_order_witness :
    (mutSend Sample.checked Sample.pose (mutComposition (MutTx.of vectorBuffer) inverting) ([], []) Sample.poseVals).map
      (·.map (·.1.1)) = some (.ok (frame .basicChecksum Sample.mPose)) ∧
    (∃ bs, (mutSend Sample.checked Sample.pose (mutComposition inverting (MutTx.of vectorBuffer)) ([], [])
      Sample.poseVals).map (·.map (·.1.2)) = some (.ok bs) ∧ (∀ m, bs ≠ frame .basicChecksum m)) ∧
    (mutSend Sample.basic Sample.pose (mutComposition inverting (MutTx.of vectorBuffer)) ([], []) Sample.poseVals).map
      (·.map (·.1.2)) = some (.ok (frame .basic ⟨2, [0x01, 0xFE, 0xFF, 0xFD, 0xFC, 0xFC, 0xFB]⟩)) := by
  refine ⟨by decide +kernel, ⟨[1, 2, 2, 1, 0xFE, 0xFF, 0xFD, 0xFC, 0xFC, 0xFB, 3, 22, 4], by decide +kernel, ?_⟩,
    by decide +kernel⟩
  rintro ⟨id, p⟩ h
  have hl := congrArg List.length h
  simp only [frame, List.length_append, List.length_cons, List.length_nil] at hl
  have hp : p.length = 7 := by omega
  have h2 := congrArg (fun l => (l.take 10).drop 3) h
  have h1 := congrArg (fun l => l[1]?) h
  simp [frame, hp] at h1 h2
  subst h1
  subst h2
  revert h
  decide +kernel

end TT.Properties
