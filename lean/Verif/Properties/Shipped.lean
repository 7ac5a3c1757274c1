import Verif.Properties.EndToEnd
import Verif.Properties.Flush

/-!
# Property C90: whole transmissions through the transmitters of the library
-/

namespace TT.Properties
open Spec

variable {C : Collection}

/-- A receiver that is given `bytes`, in whatever pieces and with whatever polling, calls its handler for exactly
the messages `rs`, in order, with the contents that were sent, and keeps nothing. -/
def Arrives (C : Collection) (rs : List Request) (bytes : List Byte) : Prop :=
  ∀ (B : Build) (user : UserCode) (fuel : Nat) (ops : List Op) (w : World C) (os : List Obs),
    Setting C B user → NeverThrows user → Reached B user fuel (ops ++ [.process]) w os →
    w.rx.hasHandler = true → w.fed = bytes →
    delivered w = rs.map (fun r => (r.t, r.vs.map (·.bytes))) ∧ buffered w = []

theorem arrives_frames {rs : List Request} (hrs : ∀ r ∈ rs, r.Good C) :
    Arrives C rs (frames C.envelope (rs.map Request.msg)) := by
  intro B user fuel ops w os S hn h hh hfed
  obtain ⟨s', h1, h2⟩ := sendAll_faithful vectorBuffer_faithful rs hrs []
  exact C25_round_trip vectorBuffer_faithful S hn rs hrs [] s' h1 h hh (by rw [h2, hfed])

theorem Request.Good.length {r : Request} (h : r.Good C) :
    (frame C.envelope r.msg).length = sizeofBound C r.t := by
  obtain ⟨rfl, hs, hv⟩ := h
  rw [frame_length, sizeofBound_eq]
  simp only [Request.msg]
  rw [payloadOf_length hv, hs.2.2]
  rfl

/-- Sending to an array buffer. -/
theorem sendAll_array {size : Nat} (rs : List Request) (hrs : ∀ r ∈ rs, r.Good C) : ∀ (a : ArrayBuf size),
    a.buffer.length = size → a.it ≤ size →
    (a.it + (rs.map fun r => sizeofBound C r.t).sum ≤ size →
      ∃ a', sendAll (boostArrayBuffer size) a rs = some (.ok a') ∧
        a'.range = a.range ++ frames C.envelope (rs.map Request.msg)) ∧
    (size < a.it + (rs.map fun r => sizeofBound C r.t).sum →
      sendAll (boostArrayBuffer size) a rs = some (.error .ub)) := by
  induction rs with
  | nil =>
    intro a ha hi
    exact ⟨fun _ => ⟨a, rfl, by simp [frames]⟩, fun h => by simp at h; omega⟩
  | cons r rs ih =>
    intro a ha hi
    have hr := hrs r (by simp)
    have hs : Sendable r.C r.t r.vs := by rw [hr.1]; exact hr.2.1
    have hid := idOf_idxOf hs.1 hs.2.1
    have hlen := hr.length
    have hb : outBytes (script r.C.envelope (UInt8.ofNat (r.C.messages.idxOf r.t)) r.vs) =
        frame C.envelope r.msg := by rw [outBytes_script, ← hr.1]; rfl
    have step := C05_array_boundary a ha hi (script r.C.envelope (UInt8.ofNat (r.C.messages.idxOf r.t)) r.vs)
    rw [hb, hlen] at step
    rw [List.map_cons, List.sum_cons]
    have eok : ∀ {a1}, feed (boostArrayBuffer size) a
        (script r.C.envelope (UInt8.ofNat (r.C.messages.idxOf r.t)) r.vs) = .ok a1 →
        sendAll (boostArrayBuffer size) a (r :: rs) = sendAll (boostArrayBuffer size) a1 rs := by
      intro a1 h
      conv => lhs; unfold sendAll
      rw [send_eq r.C r.t _ a r.vs hs hid, h]
    have eub : feed (boostArrayBuffer size) a
        (script r.C.envelope (UInt8.ofNat (r.C.messages.idxOf r.t)) r.vs) = .error .ub →
        sendAll (boostArrayBuffer size) a (r :: rs) = some (.error .ub) := by
      intro h
      unfold sendAll
      rw [send_eq r.C r.t _ a r.vs hs hid, h]
    by_cases hfit : a.it + sizeofBound C r.t ≤ size
    · obtain ⟨a1, e1, r1, i1, l1⟩ := step.1 hfit
      obtain ⟨ih1, ih2⟩ := ih (fun r' hr' => hrs r' (by simp [hr'])) a1 l1 (by omega)
      rw [i1] at ih1 ih2
      refine ⟨fun h => ?_, fun h => ?_⟩
      · obtain ⟨a2, e2, r2⟩ := ih1 (by omega)
        refine ⟨a2, (eok e1).trans e2, ?_⟩
        rw [r2, r1, List.map_cons, frames_cons, List.append_assoc]
      · exact (eok e1).trans (ih2 (by omega))
    · exact ⟨fun h => absurd h (by omega), fun _ => eub (step.2 (by omega))⟩

/-- C90, `VectorBuffer`: the calls of `send` succeed, and what they add to the vector arrives. -/
theorem C90_vector (rs : List Request) (hrs : ∀ r ∈ rs, r.Good C) (s : List Byte) :
    ∃ bytes, sendAll vectorBuffer s rs = some (.ok (s ++ bytes)) ∧ Arrives C rs bytes := by
  obtain ⟨s', h1, h2⟩ := sendAll_faithful vectorBuffer_faithful rs hrs s
  refine ⟨_, ?_, arrives_frames hrs⟩
  rw [h1]
  exact congrArg (fun x => some (Except.ok x)) h2

/-- C90, the serial ports (VRPN and Arduino, on a port that takes what it is given): what is written to the port
arrives. -/
theorem C90_port (rs : List Request) (hrs : ∀ r ∈ rs, r.Good C) (s : List (List Byte)) :
    ∃ s' bytes, sendAll portTransmitter s rs = some (.ok s') ∧ s'.flatten = s.flatten ++ bytes ∧
      Arrives C rs bytes := by
  obtain ⟨s', h1, h2⟩ := sendAll_faithful portTransmitter_faithful rs hrs s
  exact ⟨s', _, h1, h2, arrives_frames hrs⟩

/-- C90, array buffers: if there is room for the messages, the calls of `send` succeed and what is then new in the
buffer arrives; if not, the behaviour is undefined. -/
theorem C90_array {size : Nat} (rs : List Request) (hrs : ∀ r ∈ rs, r.Good C) (a : ArrayBuf size)
    (ha : a.buffer.length = size) (hi : a.it ≤ size) :
    (a.it + (rs.map fun r => sizeofBound C r.t).sum ≤ size →
      ∃ a' bytes, sendAll (boostArrayBuffer size) a rs = some (.ok a') ∧ a'.range = a.range ++ bytes ∧
        Arrives C rs bytes) ∧
    (size < a.it + (rs.map fun r => sizeofBound C r.t).sum →
      sendAll (boostArrayBuffer size) a rs = some (.error .ub)) := by
  obtain ⟨h1, h2⟩ := sendAll_array rs hrs a ha hi
  refine ⟨fun h => ?_, h2⟩
  obtain ⟨a', e, r⟩ := h1 h
  exact ⟨a', _, e, r, arrives_frames hrs⟩

/-- C90, `ArduinoI2C`: messages of at most 255 bytes each; their number does not matter. There is one transaction
for each message, and what is in all of them together arrives. -/
theorem C90_i2c (rs : List Request) (hrs : ∀ r ∈ rs, r.Good C) (hl : ∀ r ∈ rs, sizeofBound C r.t ≤ 255)
    (s : I2CState) (hs : I2CState.Idle s) :
    ∃ s' txs, sendAll arduinoI2C s rs = some (.ok s') ∧ I2CState.Idle s' ∧ s'.wire = s.wire ++ txs ∧
      txs.length = rs.length ∧ Arrives C rs txs.flatten := by
  have key : ∀ (rs : List Request), (∀ r ∈ rs, r.Good C) → (∀ r ∈ rs, sizeofBound C r.t ≤ 255) →
      ∀ s : I2CState, I2CState.Idle s → ∃ s', sendAll arduinoI2C s rs = some (.ok s') ∧ I2CState.Idle s' ∧
        s'.wire = s.wire ++ rs.map (fun r => frame C.envelope r.msg) := by
    intro rs
    induction rs with
    | nil => intro _ _ s hs; exact ⟨s, rfl, hs, by simp⟩
    | cons r rs ih =>
      intro hrs hl s hs
      have hr := hrs r (by simp)
      have hsend : Sendable r.C r.t r.vs := by rw [hr.1]; exact hr.2.1
      have hid := idOf_idxOf hsend.1 hsend.2.1
      have hw : frame r.C.envelope ⟨UInt8.ofNat (r.C.messages.idxOf r.t), payloadOf r.vs⟩ =
          frame C.envelope r.msg := by rw [← hr.1]; rfl
      obtain ⟨s1, h1, h2, h3⟩ := C48_i2c_one_write r.C r.t r.vs _ hsend hid s hs
        (by rw [hw, hr.length]; exact hl r (by simp))
      obtain ⟨s2, h4, h5, h6⟩ := ih (fun r' hr' => hrs r' (by simp [hr'])) (fun r' hr' => hl r' (by simp [hr'])) s1 h3
      refine ⟨s2, ?_, h5, by rw [h6, h2, hw]; simp⟩
      unfold sendAll
      rw [h1]
      exact h4
  obtain ⟨s', h1, h2, h3⟩ := key rs hrs hl s hs
  refine ⟨s', _, h1, h2, h3, by simp, ?_⟩
  have := arrives_frames hrs
  rwa [frames, List.map_map] at this

/-- C90, compositions: two transmitters that keep everything make one that keeps everything, in both parts. So
compositions of any depth do. -/
theorem C90_composition {T : Tx σ} {U : Tx τ} {logT : σ → List Byte} {logU : τ → List Byte}
    (hT : Faithful T logT) (hU : Faithful U logU) :
    Faithful (composition T U) (fun s => logT s.1) ∧ Faithful (composition T U) (fun s => logU s.2) := by
  constructor
  · refine ⟨fun s b => ?_, fun s bs => ?_, fun s => ⟨s, rfl, rfl⟩⟩
    · obtain ⟨a, e1, l1⟩ := hT.byte s.1 b
      obtain ⟨c, e2, _⟩ := hU.byte s.2 b
      exact ⟨(a, c), by simp only [composition, e1, e2]; rfl, l1⟩
    · obtain ⟨a, e1, l1⟩ := hT.block s.1 bs
      obtain ⟨c, e2, _⟩ := hU.block s.2 bs
      exact ⟨(a, c), by simp only [composition, e1, e2]; rfl, l1⟩
  · refine ⟨fun s b => ?_, fun s bs => ?_, fun s => ⟨s, rfl, rfl⟩⟩
    · obtain ⟨a, e1, _⟩ := hT.byte s.1 b
      obtain ⟨c, e2, l2⟩ := hU.byte s.2 b
      exact ⟨(a, c), by simp only [composition, e1, e2]; rfl, l2⟩
    · obtain ⟨a, e1, _⟩ := hT.block s.1 bs
      obtain ⟨c, e2, l2⟩ := hU.block s.2 bs
      exact ⟨(a, c), by simp only [composition, e1, e2]; rfl, l2⟩

/-- C90, compositions: sent through a composition, all messages arrive at the receivers behind both components. -/
theorem C90_both {T : Tx σ} {U : Tx τ} {logT : σ → List Byte} {logU : τ → List Byte}
    (hT : Faithful T logT) (hU : Faithful U logU) (rs : List Request) (hrs : ∀ r ∈ rs, r.Good C) (s : σ) (u : τ) :
    ∃ s' u' bytes, sendAll (composition T U) (s, u) rs = some (.ok (s', u')) ∧
      logT s' = logT s ++ bytes ∧ logU u' = logU u ++ bytes ∧ Arrives C rs bytes := by
  obtain ⟨p, h1, h2⟩ := sendAll_faithful (C90_composition hT hU).1 rs hrs (s, u)
  obtain ⟨p', h1', h2'⟩ := sendAll_faithful (C90_composition hT hU).2 rs hrs (s, u)
  rw [h1] at h1'
  obtain rfl : p = p' := by simpa using h1'
  exact ⟨p.1, p.2, _, h1, h2, h2', arrives_frames hrs⟩

/-- C90, transmitters of the user: `TransmitterBase` has fallbacks for `write` and `writeFinished`, so defining `writeByte`
is enough. If it takes each byte, all messages arrive. -/
theorem C90_minimal (writeByte : σ → Byte → Res σ) (log : σ → List Byte)
    (hb : ∀ s b, ∃ s', writeByte s b = .ok s' ∧ log s' = log s ++ [b])
    (rs : List Request) (hrs : ∀ r ∈ rs, r.Good C) (s : σ) :
    ∃ s' bytes, sendAll ⟨writeByte, defaultWrite writeByte, defaultWriteFinished⟩ s rs = some (.ok s') ∧
      log s' = log s ++ bytes ∧ Arrives C rs bytes := by
  have hw : ∀ bs s, ∃ s', defaultWrite writeByte s bs = .ok s' ∧ log s' = log s ++ bs := by
    intro bs
    induction bs with
    | nil => intro s; exact ⟨s, rfl, by simp⟩
    | cons b bs ih =>
      intro s
      obtain ⟨s1, e1, l1⟩ := hb s b
      obtain ⟨s2, e2, l2⟩ := ih s1
      refine ⟨s2, ?_, by rw [l2, l1]; simp⟩
      unfold defaultWrite
      rw [e1]
      exact e2
  have hT : Faithful (σ := σ) ⟨writeByte, defaultWrite writeByte, defaultWriteFinished⟩ log :=
    ⟨hb, fun s bs => hw bs s, fun s => ⟨s, rfl, rfl⟩⟩
  obtain ⟨s', h1, h2⟩ := sendAll_faithful hT rs hrs s
  exact ⟨s', _, h1, h2, arrives_frames hrs⟩

/-! ### Examples -/

/-- All of it happens: the three messages of C25, through each of the transmitters. -/
example := C90_vector requests3 (C := Sample.checked) (by decide +kernel) [7, 7]
example := C90_port requests3 (C := Sample.checked) (by decide +kernel) [[7], [7, 7]]
example := (C90_array requests3 (C := Sample.checked) (by decide +kernel) (ArrayBuf.new 30) List.length_replicate
  (by decide)).1 (by decide +kernel)
example := (C90_array requests3 (C := Sample.checked) (by decide +kernel) (ArrayBuf.new 20) List.length_replicate
  (by decide)).2 (by decide +kernel)
example := C90_i2c requests3 (C := Sample.checked) (by decide +kernel) (by decide +kernel) ⟨ArrayBuf.new 255, [[1, 2]]⟩
  ⟨rfl, List.length_replicate⟩
example := C90_both (C := Sample.checked) vectorBuffer_faithful
  (C90_composition portTransmitter_faithful vectorBuffer_faithful).2 requests3 (by decide +kernel) [] ([], [9])

/-- A transmitter that counts the bytes it puts on the line. -/
example := C90_minimal (C := Sample.checked) (fun (s : Nat × List Byte) b => .ok (s.1 + 1, s.2 ++ [b])) (·.2)
  (fun _ _ => ⟨_, rfl, rfl⟩) requests3 (by decide +kernel) (0, [])

/-- Some receiver is given these bytes. -/
example : ∃ bytes, Arrives Sample.checked requests3 bytes ∧ ∃ (w : World Sample.checked) (os : List Obs),
    Reached Sample.dbg Sample.passive 50 (session3 ++ [.process]) w os ∧ w.rx.hasHandler = true ∧ w.fed = bytes := by
  obtain ⟨w, os, h, hp⟩ := Sample.reached (C := Sample.checked) (B := Sample.dbg)
    (user := Sample.passive) (fuel := 50) (ops := session3 ++ [.process])
    (fun w _ => w.rx.hasHandler) (by decide +kernel)
  have hf := C25_fed_is_chunks Sample.setting_checked Sample.passive_quiet (by simp [session3]) h
  obtain ⟨bytes, h1, h2⟩ := C90_vector requests3 (C := Sample.checked) (by decide +kernel) []
  refine ⟨bytes, h2, w, os, h, hp, ?_⟩
  rw [hf]
  have : sendAll vectorBuffer [] requests3 = some (.ok (chunks (session3 ++ [.process]))) := by decide +kernel
  rw [this] at h1
  simpa using h1

end TT.Properties
