import Verif.Properties.Send

/-!
# Transmitters that need `writeFinished`, inside a composition: C72
-/

namespace TT.Properties
open Spec

variable {σ τ : Type}

/-! ### C72 -/

theorem data_script {E : Envelope} {id : Byte} {vs : List Value} {os : List Out}
    (e : script E id vs = os ++ [.finished]) (hne : ∀ o ∈ os, o ≠ .finished) :
    data (script E id vs) = os := by
  rw [e]
  unfold data
  rw [List.filter_append, List.filter_eq_self.mpr (by simpa using hne)]
  simp

/-- A quantity only `writeFinished` changes survives any outputs without `outputFinished`. -/
theorem feed_keeps {α : Type} (T : Tx σ) (out : σ → α)
    (hb : ∀ s b s', T.writeByte s b = .ok s' → out s' = out s)
    (hw : ∀ s bs s', T.write s bs = .ok s' → out s' = out s) (os : List Out) :
    ∀ s s', feed T s (data os) = .ok s' → out s' = out s := by
  induction os with
  | nil => intro s s' h; simp [data, feed] at h; rw [h]
  | cons o os ih =>
    intro s s' h
    by_cases ho : o = .finished
    · subst ho
      rw [show data (.finished :: os) = data os by simp [data]] at h
      exact ih s s' h
    · rw [show data (o :: os) = o :: data os by simp [data, ho], feed_cons] at h
      cases h1 : o.on T s with
      | error f => rw [h1] at h; simp [Except.bind] at h
      | ok s1 =>
        rw [h1] at h
        rw [ih s1 s' h]
        cases o with
        | byte b => exact hb s b s1 h1
        | block bs => exact hw s bs s1 h1
        | finished => exact absurd rfl ho

/-- C72. If a transmitter passes anything on only in `writeFinished` (so nothing observable behind it,
`out`, changes otherwise), then as a component of a `TransmitterComposition`, first or second, it never
passes anything on, whatever is sent. -/
theorem C72_never_flushed {α : Type} (T : Tx σ) (U : Tx τ) (out : σ → α)
    (hb : ∀ s b s', T.writeByte s b = .ok s' → out s' = out s)
    (hw : ∀ s bs s', T.write s bs = .ok s' → out s' = out s) (rs : List Request)
    (h : ∀ r ∈ rs, Sendable r.C r.t r.vs) :
    (∀ s u s' u', sendAll (composition T U) (s, u) rs = some (.ok (s', u')) → out s' = out s) ∧
    (∀ s u s' u', sendAll (composition U T) (u, s) rs = some (.ok (u', s')) → out s' = out s) := by
  induction rs with
  | nil =>
    constructor
    · intro s u s' u' e; simp [sendAll] at e; rw [e.1]
    · intro s u s' u' e; simp [sendAll] at e; rw [e.2]
  | cons r rs ih =>
    obtain ⟨ih1, ih2⟩ := ih (fun r' hr' => h r' (by simp [hr']))
    have hr := h r (by simp)
    have hid := idOf_idxOf hr.1 hr.2.1
    constructor
    · intro s u s' u' e
      unfold sendAll at e
      rw [send_eq r.C r.t _ (s, u) r.vs hr hid] at e
      cases h1 : feed (composition T U) (s, u) (script r.C.envelope _ r.vs) with
      | error f => rw [h1] at e; simp at e
      | ok p =>
        obtain ⟨s1, u1⟩ := p
        rw [h1] at e
        have := (C07_composition T U s s1 u u1 _).mp h1
        rw [ih1 s1 u1 s' u' e, feed_keeps T out hb hw _ s s1 this.1]
    · intro s u s' u' e
      unfold sendAll at e
      rw [send_eq r.C r.t _ (u, s) r.vs hr hid] at e
      cases h1 : feed (composition U T) (u, s) (script r.C.envelope _ r.vs) with
      | error f => rw [h1] at e; simp at e
      | ok p =>
        obtain ⟨u1, s1⟩ := p
        rw [h1] at e
        have := (C07_composition U T u u1 s s1 _).mp h1
        rw [ih2 s1 u1 s' u' e, feed_keeps T out hb hw _ s s1 this.2]

/-- With a second component that cannot fail, a composition does what the first component does. -/
theorem composition_feed (T : Tx σ) {U : Tx τ} {log : τ → List Byte} (hU : Faithful U log)
    (os : List Out) : ∀ (s : σ) (u : τ),
      (∃ s' u', feed T s (data os) = .ok s' ∧ feed (composition T U) (s, u) os = .ok (s', u') ∧
        log u' = log u ++ outBytes os) ∨
      (∃ f, feed T s (data os) = .error f ∧ feed (composition T U) (s, u) os = .error f) := by
  induction os with
  | nil => intro s u; exact Or.inl ⟨s, u, rfl, rfl, by simp [outBytes]⟩
  | cons o os ih =>
    intro s u
    have hb : outBytes (o :: os) = o.bytes ++ outBytes os := by simp [outBytes]
    by_cases ho : o = .finished
    · subst ho
      rw [show data (.finished :: os) = data os by simp [data], hb]
      simpa [Out.bytes, feed_cons, Out.on, composition, defaultWriteFinished, Except.bind]
        using ih s u
    · obtain ⟨u1, e1, l1⟩ : ∃ u1, o.on U u = .ok u1 ∧ log u1 = log u ++ o.bytes := by
        cases o with
        | byte b => exact hU.byte u b
        | block bs => exact hU.block u bs
        | finished => exact absurd rfl ho
      rw [show data (o :: os) = o :: data os by simp [data, ho], feed_cons, feed_cons,
        composition_on _ _ _ _ ho, e1]
      cases o.on T s with
      | error f => exact Or.inr ⟨f, rfl, rfl⟩
      | ok s1 =>
        rcases ih s1 u1 with ⟨s', u', h1, h2, h3⟩ | ⟨f, h1, h2⟩
        · exact Or.inl ⟨s', u', h1, h2, by rw [h3, l1, hb, List.append_assoc]⟩
        · exact Or.inr ⟨f, h1, h2⟩

/-- One message to an I2C transmitter in a composition. -/
theorem i2c_composed {U : Tx τ} {log : τ → List Byte} (hU : Faithful U log) (r : Request)
    (hr : Sendable r.C r.t r.vs) (s : I2CState) (u : τ) :
    (∃ b u', s.bufTx.write (wire r.C r.t r.vs) = .ok b ∧
      send r.C r.t (composition arduinoI2C U) (s, u) r.vs =
        some (.ok ({ s with bufTx := b }, u')) ∧ log u' = log u ++ wire r.C r.t r.vs) ∨
    (∃ f, s.bufTx.write (wire r.C r.t r.vs) = .error f ∧
      send r.C r.t (composition arduinoI2C U) (s, u) r.vs = some (.error f)) := by
  have hid := idOf_idxOf hr.1 hr.2.1
  obtain ⟨os, e, hne, hb⟩ := script_split r.C.envelope (UInt8.ofNat (r.C.messages.idxOf r.t)) r.vs
  have hd := data_script e hne
  rw [send_eq r.C r.t _ (s, u) r.vs hr hid]
  rcases composition_feed arduinoI2C hU
    (script r.C.envelope (UInt8.ofNat (r.C.messages.idxOf r.t)) r.vs) s u with
    ⟨s', u', h1, h2, h3⟩ | ⟨f, h1, h2⟩
  · rw [hd, i2c_data _ _ hne, hb] at h1
    rw [outBytes_script] at h3
    cases hw : s.bufTx.write (wire r.C r.t r.vs) with
    | error f => unfold wire at hw; rw [hw] at h1; simp [Except.bind] at h1
    | ok b =>
      unfold wire at hw; rw [hw] at h1
      simp only [Except.bind, Except.ok.injEq] at h1
      subst h1
      exact Or.inl ⟨b, u', rfl, by rw [h2], h3⟩
  · rw [hd, i2c_data _ _ hne, hb] at h1
    cases hw : s.bufTx.write (wire r.C r.t r.vs) with
    | error f' =>
      unfold wire at hw; rw [hw] at h1
      simp only [Except.bind, Except.error.injEq] at h1
      subst h1
      exact Or.inr ⟨f', rfl, by rw [h2]⟩
    | ok b => unfold wire at hw; rw [hw] at h1; simp [Except.bind] at h1

/-- C72. The I2C transmitter in a composition: as long as the messages together fit into its 255 bytes
nothing faults, the other component gets everything, and nothing goes to the bus. -/
theorem C72_i2c_silent {U : Tx τ} {log : τ → List Byte} (hU : Faithful U log)
    (rs : List Request) (h : ∀ r ∈ rs, Sendable r.C r.t r.vs) : ∀ (s : I2CState) (u : τ),
    s.bufTx.buffer.length = 255 →
    s.bufTx.it + (rs.map fun r => (wire r.C r.t r.vs).length).sum ≤ 255 →
    ∃ s' u', sendAll (composition arduinoI2C U) (s, u) rs = some (.ok (s', u')) ∧
      s'.wire = s.wire ∧
      s'.bufTx.range = s.bufTx.range ++ (rs.map fun r => wire r.C r.t r.vs).flatten ∧
      log u' = log u ++ (rs.map fun r => wire r.C r.t r.vs).flatten := by
  induction rs with
  | nil => intro s u _ _; exact ⟨s, u, rfl, rfl, by simp, by simp⟩
  | cons r rs ih =>
    intro s u hl hs
    simp only [List.map_cons, List.sum_cons] at hs
    obtain ⟨b, h1, h2, h3, h4⟩ := ArrayBuf.write_ok (wire r.C r.t r.vs) s.bufTx (by omega)
    rcases i2c_composed hU r (h r (by simp)) s u with ⟨b', u1, e1, e2, e3⟩ | ⟨f, e1, _⟩
    · rw [h1] at e1
      obtain rfl := Except.ok.inj e1
      obtain ⟨s', u', g1, g2, g3, g4⟩ := ih (fun r' hr' => h r' (by simp [hr']))
        { s with bufTx := b } u1 (by simp [h4, hl]) (by simp only; omega)
      refine ⟨s', u', ?_, g2, ?_, ?_⟩
      · unfold sendAll
        rw [e2]
        exact g1
      · rw [g3, h2]; simp
      · rw [g4, e3]; simp
    · rw [h1] at e1; simp at e1

/-- C72. The message with which the total exceeds 255 bytes writes outside the buffer, also if every
single message fits. -/
theorem C72_i2c_overflow {U : Tx τ} {log : τ → List Byte} (hU : Faithful U log)
    (rs : List Request) (h : ∀ r ∈ rs, Sendable r.C r.t r.vs) : ∀ (s : I2CState) (u : τ),
    s.bufTx.buffer.length = 255 → s.bufTx.it ≤ 255 →
    255 < s.bufTx.it + (rs.map fun r => (wire r.C r.t r.vs).length).sum →
    sendAll (composition arduinoI2C U) (s, u) rs = some (.error .ub) := by
  induction rs with
  | nil => intro s u _ h1 h2; simp at h2; omega
  | cons r rs ih =>
    intro s u hl hi hs
    simp only [List.map_cons, List.sum_cons] at hs
    unfold sendAll
    by_cases hfit : s.bufTx.it + (wire r.C r.t r.vs).length ≤ 255
    · obtain ⟨b, h1, h2, h3, h4⟩ := ArrayBuf.write_ok (wire r.C r.t r.vs) s.bufTx (by omega)
      rcases i2c_composed hU r (h r (by simp)) s u with ⟨b', u1, e1, e2, e3⟩ | ⟨f, e1, _⟩
      · rw [h1] at e1
        obtain rfl := Except.ok.inj e1
        rw [e2]
        exact ih (fun r' hr' => h r' (by simp [hr'])) { s with bufTx := b } u1 (by simp [h4, hl])
          (by simp only; omega) (by simp only; omega)
      · rw [h1] at e1; simp at e1
    · have hub := ArrayBuf.write_ub (wire r.C r.t r.vs) s.bufTx (by omega) (by omega)
      rcases i2c_composed hU r (h r (by simp)) s u with ⟨b', u1, e1, _⟩ | ⟨f, e1, e2⟩
      · rw [hub] at e1; simp at e1
      · rw [hub] at e1
        obtain rfl := Except.error.inj e1
        rw [e2]

/-- A request of 12 bytes. -/
def poseRequest : Request := ⟨Sample.basic, Sample.pose, Sample.poseVals⟩

example := C72_never_flushed arduinoI2C vectorBuffer (·.wire)
  (by
    intro s b s' h
    simp only [arduinoI2C] at h
    cases e : s.bufTx.writeByte b with
    | error f => rw [e] at h; simp at h
    | ok b' => rw [e] at h; simp at h; rw [← h])
  (by
    intro s b s' h
    simp only [arduinoI2C] at h
    cases e : s.bufTx.write b with
    | error f => rw [e] at h; simp at h
    | ok b' => rw [e] at h; simp at h; rw [← h])
  [poseRequest, poseRequest] (by decide)
example := C72_i2c_silent vectorBuffer_faithful [poseRequest, poseRequest] (by decide)
  ⟨ArrayBuf.new 255, []⟩ [] List.length_replicate (by decide)
example := C72_i2c_overflow vectorBuffer_faithful (List.replicate 22 poseRequest)
  (by intro r hr; rw [List.eq_of_mem_replicate hr]; decide)
  ⟨ArrayBuf.new 255, []⟩ [] List.length_replicate (by decide) (by decide +kernel)
example : (wire poseRequest.C poseRequest.t poseRequest.vs).length = 12 := by decide

end TT.Properties
