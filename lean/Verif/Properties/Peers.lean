import Verif.Properties.LineErrors

/-!
# Properties of peers that differ: C60 (different envelopes), C61 (extended collections), C62 (relays)
-/

namespace TT.Properties
open Spec

variable {C : Collection} {B : Build} {user : UserCode} {fuel : Nat}

/-! ### C60: sender and receiver use different envelopes -/

/-- A message whose id and payload contain no start code. -/
def NoStart (m : Msg) : Prop := m.id ≠ 0x01 ∧ ∀ b ∈ m.payload, b ≠ 0x01

instance (m : Msg) : Decidable (NoStart m) := by unfold NoStart; infer_instance

theorem NoStart.basic_tail {m : Msg} (h : NoStart m) : ∀ b ∈ (frame .basic m).drop 1, b ≠ 0x01 := by
  intro b hb
  simp [frame] at hb
  rcases hb with rfl | rfl | hb | rfl | rfl
  · exact h.1
  · decide
  · exact h.2 b hb
  · decide
  · decide

/-- Start codes in a concatenation of Basic frames without inner start codes are where the frames
begin. -/
theorem start_in_frames {ms : List Msg} (h : ∀ m ∈ ms, NoStart m) :
    ∀ {pre post : List Byte}, frames .basic ms = pre ++ 0x01 :: post →
      ∃ m ms', m ∈ ms ∧ 0x01 :: post = frames .basic (m :: ms') := by
  induction ms with
  | nil => intro pre post e; simp [frames] at e
  | cons m ms ih =>
    intro pre post e
    obtain ⟨rest, hr⟩ : ∃ rest, frame .basic m = 0x01 :: rest :=
      ⟨_, (frame_cons .basic m).choose_spec⟩
    have hno := (h m (by simp)).basic_tail
    rw [hr] at hno
    have ih' := @ih fun m' hm' => h m' (by simp [hm'])
    have lift : ∀ {pre post : List Byte}, frames .basic ms = pre ++ 0x01 :: post →
        ∃ m' ms', m' ∈ m :: ms ∧ 0x01 :: post = frames .basic (m' :: ms') := by
      intro pre post e
      obtain ⟨m', ms', h1, h2⟩ := ih' e
      exact ⟨m', ms', by simp [h1], h2⟩
    cases pre with
    | nil => exact ⟨m, ms, by simp, by rw [e]; rfl⟩
    | cons x pre =>
      rw [frames_cons, hr] at e
      simp only [List.cons_append, List.cons.injEq] at e
      rcases List.append_eq_append_iff.mp e.2 with ⟨a, h1, h2⟩ | ⟨c, h1, h2⟩
      · exact lift h2
      · cases c with
        | nil => exact lift (pre := []) (by simpa using h2.symm)
        | cons y c =>
          simp only [List.cons_append, List.cons.injEq] at h2
          exact absurd h2.1.symm (hno y (by rw [h1]; simp))

/-- C60. A receiver that expects BasicChecksum never calls a handler for messages sent with Basic,
whatever the history, the polling and the handlers (messages without inner start codes). -/
theorem C60_basic_to_checksum (hE : C.envelope = .basicChecksum) (S : Setting C B user)
    {ops : List Op} {w : World C} {os : List Obs} (h : Reached B user fuel ops w os)
    {ms : List Msg} (hms : ∀ m ∈ ms, IsMsg C m) (hno : ∀ m ∈ ms, NoStart m)
    (hfed : w.fed = frames .basic ms) : w.trace = [] := by
  cases htr : w.trace with
  | nil => rfl
  | cons i tr =>
    exfalso
    obtain ⟨D, m', post, hm', hr, _⟩ := reached_onPath S h i (by simp [htr])
    obtain ⟨pre, e⟩ := hr.suffix
    obtain ⟨rest, hrest⟩ : ∃ rest, frame C.envelope m' = 0x01 :: rest :=
      ⟨_, (frame_cons C.envelope m').choose_spec⟩
    rw [hfed, hrest] at e
    obtain ⟨m, ms', hm, e2⟩ := start_in_frames hno (pre := pre) (post := rest ++ post) e
    have hst : Starts C (frames .basic (m :: ms')) := ⟨m', post, hm', by rw [← e2, hrest]; rfl⟩
    obtain ⟨ty, hty, hpl⟩ := hms m hm
    have hl : (frame .basic m).length = 5 + m.payload.length := by
      rw [frame_length]; rfl
    refine not_starts_of_end (id := m.id) (n := 6 + m.payload.length) ?_ ?_ ?_ hst
    · rw [frames_cons]; exact frame_id .basic m _
    · unfold announced; rw [hty, hE, hpl]; rfl
    · rw [frames_cons, List.getElem?_append_right (by omega)]
      cases ms' with
      | nil => simp [frames]
      | cons m2 ms2 =>
        obtain ⟨t, ht⟩ := frames_head .basic (ms := m2 :: ms2) (by simp)
        have h0 : 6 + m.payload.length - 1 - (frame .basic m).length = 0 := by omega
        rw [ht, h0]
        simp

/-- The checksum byte of a message. -/
def sumOf (m : Msg) : Byte := byteSum ([0x01, m.id, 0x02] ++ m.payload ++ [0x03])

theorem checksum_frame (m : Msg) : frame .basicChecksum m =
    0x01 :: (m.id :: 0x02 :: m.payload ++ [0x03]) ++ [sumOf m, 0x04] := by
  simp [frame, sumOf]

/-- C60. A receiver that expects Basic delivers, from messages sent with BasicChecksum, exactly those
whose checksum byte happens to equal EOT - with their correct contents - and no others
(messages without inner start codes). -/
theorem C60_checksum_to_basic (hE : C.envelope = .basic) (S : Setting C B user)
    (hn : NeverThrows user) {ops : List Op} {w : World C} {os : List Obs}
    (h : Reached B user fuel (ops ++ [.process]) w os) (hh : w.rx.hasHandler = true)
    {ms : List Msg} (hms : ∀ m ∈ ms, IsMsg C m) (hno : ∀ m ∈ ms, NoStart m)
    (hfed : w.fed = frames .basicChecksum ms) :
    delivered w = (ms.filter fun m => sumOf m = 0x04).map (meaning C) := by
  have key : ∀ ms : List Msg, (∀ m ∈ ms, IsMsg C m) → (∀ m ∈ ms, NoStart m) →
      ∃ r, Decodes C (frames .basicChecksum ms) (ms.filter fun m => sumOf m = 0x04) r := by
    intro ms
    induction ms with
    | nil => intro _ _; exact ⟨[], Run.refl _, Or.inl rfl⟩
    | cons m ms ih =>
      intro hms hno
      obtain ⟨r, hd⟩ := ih (fun m' hm' => hms m' (by simp [hm'])) (fun m' hm' => hno m' (by simp [hm']))
      have hm := hms m (by simp)
      have hN := hno m (by simp)
      obtain ⟨ty, hty, hpl⟩ := id hm
      have hann : announced C m.id = some (5 + m.payload.length) := by
        unfold announced; rw [hty, hE, hpl]; rfl
      by_cases hk : sumOf m = 0x04
      · refine ⟨r, ?_, hd.2⟩
        rw [List.filter_cons_of_pos (by simpa using hk), frames_cons]
        have hf : frame .basicChecksum m = frame C.envelope m ++ [0x04] := by
          rw [checksum_frame, hk, hE]; simp [frame]
        rw [hf, List.append_assoc]
        exact Run.take hm (run_noise (noise := [0x04]) (by decide) hd.1)
      · rw [List.filter_cons_of_neg (by simpa using hk), frames_cons, checksum_frame]
        -- the frame is given up
        have hid : ((0x01 :: (m.id :: 0x02 :: m.payload ++ [0x03]) ++ [sumOf m, 0x04]) ++
            frames .basicChecksum ms)[1]? = some m.id := by simp
        have h1 : ¬ Starts C ((0x01 :: (m.id :: 0x02 :: m.payload ++ [0x03]) ++ [sumOf m, 0x04]) ++
            frames .basicChecksum ms) := by
          refine not_starts_of_end hid hann ?_
          have e : ((0x01 :: (m.id :: 0x02 :: m.payload ++ [0x03]) ++ [sumOf m, 0x04]) ++
            frames .basicChecksum ms)[5 + m.payload.length - 1]? = some (sumOf m) := by
            rw [List.append_assoc, List.getElem?_append_right (by simp; omega)]
            have h0 : 5 + m.payload.length - 1 -
                (0x01 :: (m.id :: 0x02 :: m.payload ++ [(0x03 : Byte)])).length = 0 := by
              simp; omega
            rw [h0]; rfl
          rw [e]
          simpa using hk
        have h2 : ¬ Waiting C ((0x01 :: (m.id :: 0x02 :: m.payload ++ [0x03]) ++ [sumOf m, 0x04]) ++
            frames .basicChecksum ms) := by
          refine not_waiting_of_length hid hann ?_ ?_ <;> simp <;> omega
        have hnoise : ∀ b ∈ m.id :: 0x02 :: m.payload ++ [0x03], b ≠ 0x01 := by
          intro b hb
          simp at hb
          rcases hb with rfl | rfl | hb | rfl
          · exact hN.1
          · decide
          · exact hN.2 b hb
          · decide
        -- the end of the frame: checksum and EOT
        have htail : ∃ r, Decodes C ([sumOf m, 0x04] ++ frames .basicChecksum ms)
            (ms.filter fun m => sumOf m = 0x04) r := by
          by_cases h1' : sumOf m = 0x01
          · by_cases hw : Waiting C ([sumOf m, 0x04] ++ frames .basicChecksum ms)
            · have hnil : ms = [] := by
                cases ms with
                | nil => rfl
                | cons m2 ms2 =>
                  exfalso
                  obtain ⟨t, ht⟩ := frames_head .basicChecksum (ms := m2 :: ms2) (by simp)
                  rw [ht] at hw
                  rcases hw with e | ⟨_, _, e⟩ | ⟨_, _, _, _, e, _⟩ <;> simp at e
              subst hnil
              exact ⟨_, Run.refl _, Or.inr hw⟩
            · refine ⟨r, ?_, hd.2⟩
              refine Run.skip ?_ hw (run_noise (noise := [0x04]) (by decide) hd.1)
              rintro ⟨m2, t, _, e⟩
              obtain ⟨rest, hr⟩ := frame_cons C.envelope m2
              rw [hr] at e
              cases ms with
              | nil => simp [frames] at e
              | cons m3 ms3 =>
                obtain ⟨t', ht⟩ := frames_head .basicChecksum (ms := m3 :: ms3) (by simp)
                rw [ht] at e
                simp at e
          · refine ⟨r, run_noise ?_ hd.1, hd.2⟩
            intro b hb
            simp at hb
            rcases hb with rfl | rfl
            · exact h1'
            · decide
        obtain ⟨r', hd'⟩ := htail
        refine ⟨r', ?_, hd'.2⟩
        have := run_giveUp (C := C) (tail := m.id :: 0x02 :: m.payload ++ [0x03])
          (s := [sumOf m, 0x04] ++ frames .basicChecksum ms) (by simpa using h1) (by simpa using h2)
          hnoise hd'.1
        simpa using this
  obtain ⟨r, hd⟩ := key ms hms hno
  rw [← hfed] at hd
  exact (polled_eq S hn h hh hd).1

/-- Two Basic messages on a BasicChecksum receiver. -/
example : ∃ (w : World Sample.checked) (os : List Obs),
    Reached Sample.dbg Sample.passive 50
      [.setHandler Sample.h0, .append (frames .basic [⟨2, [5, 4, 3, 2, 0, 9, 9]⟩, ⟨0, []⟩]),
       .process] w os ∧ w.trace = [] := by
  obtain ⟨w, os, h, hp⟩ := Sample.reached (C := Sample.checked) (B := Sample.dbg)
    (user := Sample.passive) (fuel := 50)
    (ops := [.setHandler Sample.h0, .append (frames .basic [⟨2, [5, 4, 3, 2, 0, 9, 9]⟩, ⟨0, []⟩]),
       .process]) (fun _ _ => true) (by decide +kernel)
  have hf := C25_fed_is_chunks Sample.setting_checked Sample.passive_quiet (by simp) h
  exact ⟨w, os, h, C60_basic_to_checksum rfl Sample.setting_checked h
    (ms := [⟨2, [5, 4, 3, 2, 0, 9, 9]⟩, ⟨0, []⟩]) (by decide +kernel) (by decide +kernel)
    (by rw [hf]; decide +kernel)⟩

/-- Of two BasicChecksum messages a Basic receiver delivers the one with checksum 4. -/
example : ∃ (w : World Sample.basic) (os : List Obs),
    Reached Sample.dbg Sample.passive 50
      ([.setHandler Sample.h0, .append (frames .basicChecksum
        [⟨2, [5, 4, 3, 2, 0, 9, 9]⟩, ⟨2, [252, 0, 0, 0, 0, 0, 0]⟩])] ++ [.process]) w os ∧
    delivered w = [meaning Sample.basic ⟨2, [252, 0, 0, 0, 0, 0, 0]⟩] := by
  obtain ⟨w, os, h, hp⟩ := Sample.reached (C := Sample.basic) (B := Sample.dbg)
    (user := Sample.passive) (fuel := 50)
    (ops := [.setHandler Sample.h0, .append (frames .basicChecksum
        [⟨2, [5, 4, 3, 2, 0, 9, 9]⟩, ⟨2, [252, 0, 0, 0, 0, 0, 0]⟩])] ++ [.process])
    (fun w _ => w.rx.hasHandler) (by decide +kernel)
  have hf := C25_fed_is_chunks Sample.setting_basic Sample.passive_quiet (by simp) h
  have := C60_checksum_to_basic rfl Sample.setting_basic Sample.passive_neverThrows h hp
    (ms := [⟨2, [5, 4, 3, 2, 0, 9, 9]⟩, ⟨2, [252, 0, 0, 0, 0, 0, 0]⟩]) (by decide +kernel)
    (by decide +kernel) (by rw [hf]; decide +kernel)
  exact ⟨w, os, h, by rw [this]; decide +kernel⟩

/-! ### C61: message types added at the end of a collection -/

/-- The collection with further message types at the end. -/
def extended (C : Collection) (extra : List MsgType) : Collection :=
  ⟨C.messages ++ extra, C.envelope⟩

theorem typeOf_extended {extra : List MsgType} {id : Byte} {t : MsgType}
    (h : typeOf C id = some t) : typeOf (extended C extra) id = some t := by
  unfold typeOf extended at *
  have := (List.getElem?_eq_some_iff.mp h).1
  rw [List.getElem?_append_left this]
  exact h

theorem isMsg_extended (extra : List MsgType) {m : Msg} (h : IsMsg C m) :
    IsMsg (extended C extra) m := by
  obtain ⟨t, h1, h2⟩ := h
  exact ⟨t, typeOf_extended h1, h2⟩

theorem meaning_extended (extra : List MsgType) {m : Msg} (h : IsMsg C m) :
    meaning (extended C extra) m = meaning C m := by
  obtain ⟨t, h1, h2⟩ := h
  unfold meaning
  rw [typeOf_extended h1, h1]

/-- C61. Adding message types at the end of a collection does not change what is sent for the old
ones: the same outputs on every transmitter. -/
theorem C61_same_send {σ : Type} (extra : List MsgType) {t : MsgType} (ht : t ∈ C.messages)
    (hl : (C.messages ++ extra).length ≤ 255) (T : Tx σ) (s : σ) (vs : List Value) :
    send (extended C extra) t T s vs = send C t T s vs := by
  have hl' : C.messages.length ≤ 255 := by simp at hl; omega
  by_cases hv : vs.map (·.ty) = t.fields
  · have h1 : Sendable C t vs := ⟨hl', ht, hv⟩
    have h2 : Sendable (extended C extra) t vs := ⟨hl, by simp [extended, ht], hv⟩
    have hid := idOf_idxOf hl' ht
    have hid' : idOf (extended C extra) t (UInt8.ofNat (C.messages.idxOf t)) := by
      obtain ⟨a, b⟩ := hid
      have hlt := (List.getElem?_eq_some_iff.mp a).1
      refine ⟨typeOf_extended a, fun j hj => ?_⟩
      have := b j hj
      unfold extended
      simp only
      rw [List.getElem?_append_left (by omega)]
      exact this
    rw [send_eq _ t T s vs h1 hid, send_eq _ t T s vs h2 hid']
    rfl
  · rw [send_none, send_none]
    · exact fun h => hv h.2.2
    · exact fun h => hv h.2.2

/-- C61. A receiver of the old collection, given messages of the extended one, delivers exactly those
of the old types and skips the others (provided these contain no inner start code). -/
theorem C61_old_receiver (extra : List MsgType) (S : Setting C B user) (hn : NeverThrows user)
    {ops : List Op} {w : World C} {os : List Obs}
    (h : Reached B user fuel (ops ++ [.process]) w os) (hh : w.rx.hasHandler = true)
    {ms : List Msg} (hms : ∀ m ∈ ms, IsMsg (extended C extra) m)
    (hno : ∀ m ∈ ms, typeOf C m.id = none → ∀ b ∈ (frame C.envelope m).drop 1, b ≠ 0x01)
    (hfed : w.fed = frames C.envelope ms) :
    delivered w = (ms.filter fun m => (typeOf C m.id).isSome).map (meaning (extended C extra)) ∧
      buffered w = [] := by
  have key : ∀ ms : List Msg, (∀ m ∈ ms, IsMsg (extended C extra) m) →
      (∀ m ∈ ms, typeOf C m.id = none → ∀ b ∈ (frame C.envelope m).drop 1, b ≠ 0x01) →
      Run C (frames C.envelope ms) (ms.filter fun m => (typeOf C m.id).isSome) [] ∧
      ∀ m ∈ ms.filter fun m => (typeOf C m.id).isSome, IsMsg C m := by
    intro ms
    induction ms with
    | nil => intro _ _; exact ⟨Run.refl _, by simp⟩
    | cons m ms ih =>
      intro hms hno
      obtain ⟨ih1, ih2⟩ := ih (fun m' hm' => hms m' (by simp [hm']))
        (fun m' hm' => hno m' (by simp [hm']))
      obtain ⟨t, ht1, ht2⟩ := hms m (by simp)
      cases hty : typeOf C m.id with
      | some t' =>
        have hm : IsMsg C m := by
          have := typeOf_extended (extra := extra) hty
          rw [ht1] at this
          exact ⟨t', hty, by rw [ht2, Option.some.inj this]⟩
        rw [List.filter_cons_of_pos (by simp [hty]), frames_cons]
        refine ⟨Run.take hm ih1, ?_⟩
        intro m' hm'
        rcases List.mem_cons.mp hm' with rfl | hm'
        · exact hm
        · exact ih2 m' hm'
      | none =>
        rw [List.filter_cons_of_neg (by simp [hty]), frames_cons]
        refine ⟨?_, ih2⟩
        have hnoise := hno m (by simp) hty
        have hid := frame_id C.envelope m (frames C.envelope ms)
        have h1 := not_starts_of_invalid hid hty
        have h2 : ¬ Waiting C (frame C.envelope m ++ frames C.envelope ms) := by
          obtain ⟨rest, hr⟩ := frame_cons C.envelope m
          rw [hr]
          rintro (e | ⟨id, _, e⟩ | ⟨id, rest', n, hn', e, _⟩)
          · simp at e
          · simp at e
          · simp at e
            rw [← e.1] at hn'
            unfold announced at hn'
            simp [hty] at hn'
        obtain ⟨rest, hr⟩ : ∃ rest, frame C.envelope m = 0x01 :: rest :=
          ⟨_, (frame_cons C.envelope m).choose_spec⟩
        rw [hr] at h1 h2 hnoise ⊢
        exact run_giveUp h1 h2 hnoise ih1
  obtain ⟨k1, k2⟩ := key ms hms hno
  rw [← hfed] at k1
  obtain ⟨e1, e2⟩ := polled_eq S hn h hh ⟨k1, Or.inl rfl⟩
  refine ⟨?_, e2⟩
  rw [e1]
  exact List.map_congr_left fun m hm => (meaning_extended extra (k2 m hm)).symm

/-- C61. A receiver of the extended collection delivers everything an old sender sends. -/
theorem C61_new_receiver (extra : List MsgType) (S : Setting (extended C extra) B user)
    (hn : NeverThrows user) {ops : List Op} {w : World (extended C extra)} {os : List Obs}
    (h : Reached B user fuel (ops ++ [.process]) w os) (hh : w.rx.hasHandler = true)
    {ms : List Msg} (hms : ∀ m ∈ ms, IsMsg C m) (hfed : w.fed = frames C.envelope ms) :
    delivered w = ms.map (meaning C) ∧ buffered w = [] := by
  have hr := run_frames (C := extended C extra) (ms := ms)
    (fun m hm => isMsg_extended extra (hms m hm)) []
  rw [List.append_nil] at hr
  obtain ⟨e1, e2⟩ := polled_eq S hn h hh (ms := ms) (r := []) ⟨by rw [hfed]; exact hr, Or.inl rfl⟩
  refine ⟨?_, e2⟩
  rw [e1]
  exact List.map_congr_left fun m hm => meaning_extended extra (hms m hm)

example := C61_same_send (C := Sample.basic) [⟨7, [.pod 3 8]⟩] (t := Sample.pose) (by decide) (by decide)
  vectorBuffer [9] Sample.poseVals

/-- A `pose`, an unknown message 3, a `ping`. -/
example : ∃ (w : World Sample.basic) (os : List Obs),
    Reached Sample.dbg Sample.passive 50
      ([.setHandler Sample.h0, .append (frames .basic [Sample.mPose, ⟨3, [7, 0]⟩, ⟨0, []⟩])] ++
        [.process]) w os ∧
    delivered w = [meaning Sample.basic Sample.mPose, meaning Sample.basic ⟨0, []⟩] := by
  obtain ⟨w, os, h, hp⟩ := Sample.reached (C := Sample.basic) (B := Sample.dbg)
    (user := Sample.passive) (fuel := 50)
    (ops := [.setHandler Sample.h0, .append (frames .basic [Sample.mPose, ⟨3, [7, 0]⟩, ⟨0, []⟩])] ++
        [.process])
    (fun w _ => w.rx.hasHandler) (by decide +kernel)
  have hf := C25_fed_is_chunks Sample.setting_basic Sample.passive_quiet (by simp) h
  have := C61_old_receiver [⟨7, [.pod 3 2]⟩] Sample.setting_basic Sample.passive_neverThrows h hp
    (ms := [Sample.mPose, ⟨3, [7, 0]⟩, ⟨0, []⟩]) (by decide +kernel) (by decide +kernel)
    (by rw [hf]; decide +kernel)
  exact ⟨w, os, h, by rw [this.1]; decide +kernel⟩

example : ∃ (w : World (extended Sample.basic [⟨7, [.pod 3 2]⟩])) (os : List Obs),
    Reached Sample.dbg Sample.passive 50
      ([.setHandler Sample.h0, .append (frames .basic [Sample.mPose, ⟨0, []⟩])] ++ [.process]) w os ∧
    delivered w = [meaning Sample.basic Sample.mPose, meaning Sample.basic ⟨0, []⟩] := by
  obtain ⟨w, os, h, hp⟩ := Sample.reached (C := extended Sample.basic [⟨7, [.pod 3 2]⟩])
    (B := Sample.dbg) (user := Sample.passive) (fuel := 50)
    (ops := [.setHandler Sample.h0, .append (frames .basic [Sample.mPose, ⟨0, []⟩])] ++ [.process])
    (fun w _ => w.rx.hasHandler) (by decide +kernel)
  have S : Setting (extended Sample.basic [⟨7, [.pod 3 2]⟩]) Sample.dbg Sample.passive :=
    ⟨⟨by decide, by decide⟩, Sample.passive_benign⟩
  have hf := C25_fed_is_chunks S Sample.passive_quiet (by simp) h
  have := C61_new_receiver [⟨7, [.pod 3 2]⟩] S Sample.passive_neverThrows h hp
    (ms := [Sample.mPose, ⟨0, []⟩]) (by decide +kernel) (by rw [hf]; decide +kernel)
  exact ⟨w, os, h, by rw [this.1]; rfl⟩

/-- An old collection with one message type, and one with a type of equal size put in front. -/
def oldC : Collection := ⟨[⟨10, [.uint8]⟩], .basicChecksum⟩
def frontC : Collection := ⟨[⟨11, [.uint8]⟩, ⟨10, [.uint8]⟩], .basicChecksum⟩

/-- C61. Adding a type anywhere else is not compatible: a message of the old collection is delivered as
the message type that was put in front of it. -/
theorem C61_front_witness : ∃ (s' : List Byte) (w : World frontC) (os : List Obs),
    send oldC ⟨10, [.uint8]⟩ vectorBuffer [] [⟨.uint8, [5]⟩] = some (.ok s') ∧
    Reached Sample.dbg Sample.passive 50 [.setHandler Sample.h0, .append s', .process] w os ∧
    delivered w = [(⟨11, [.uint8]⟩, [[5]])] := by
  obtain ⟨w, os, h, hp⟩ := Sample.reached (C := frontC) (B := Sample.dbg)
    (user := Sample.passive) (fuel := 50)
    (ops := [.setHandler Sample.h0, .append [1, 0, 2, 5, 3, 11, 4], .process])
    (fun w _ => decide (delivered w = [(⟨11, [.uint8]⟩, [[5]])])) (by decide +kernel)
  exact ⟨_, w, os, by decide +kernel, h, by simpa using hp⟩

/-! ### C62: relays -/

/-- The `send` call with which a handler passes on the message it is called with. -/
def forward (C : Collection) (i : Invocation) : Request :=
  ⟨C, i.msg, List.zipWith Value.mk i.msg.fields i.args⟩

theorem splitFields_sound : ∀ (fs : List FieldType) (p : List Byte),
    p.length = (fs.map fieldSize).sum →
    (List.zipWith Value.mk fs (splitFields fs p)).map (·.ty) = fs ∧
    (List.zipWith Value.mk fs (splitFields fs p)).map (·.bytes) = splitFields fs p ∧
    (∀ v ∈ List.zipWith Value.mk fs (splitFields fs p), Value.Fits v) ∧
    payloadOf (List.zipWith Value.mk fs (splitFields fs p)) = p := by
  intro fs
  induction fs with
  | nil =>
    intro p h
    have : p = [] := by simpa using h
    subst this
    simp [splitFields, payloadOf]
  | cons f fs ih =>
    intro p h
    simp only [List.map_cons, List.sum_cons] at h
    obtain ⟨h1, h2, h3, h4⟩ := ih (p.drop (fieldSize f)) (by rw [List.length_drop]; omega)
    refine ⟨by simp [splitFields, h1], by simp [splitFields, h2], ?_, ?_⟩
    · intro v hv
      simp only [splitFields, List.zipWith_cons_cons, List.mem_cons] at hv
      rcases hv with rfl | hv
      · simp only [Value.Fits, List.length_take]
        omega
      · exact h3 v hv
    · simp only [splitFields, List.zipWith_cons_cons]
      unfold payloadOf at h4 ⊢
      simp only [List.map_cons, List.flatten_cons]
      rw [h4, List.take_append_drop]

theorem forward_good (hl : C.messages.length ≤ 255) {i : Invocation} {m : Msg} (hm : IsMsg C m)
    (hs : seen i = meaning C m) :
    (forward C i).Good C ∧ ((forward C i).t, (forward C i).vs.map (·.bytes)) = seen i ∧
    payloadOf (forward C i).vs = m.payload ∧ typeOf C m.id = some i.msg := by
  obtain ⟨t, ht, hp⟩ := hm
  have h1 : i.msg = t := by
    have := congrArg Prod.fst hs
    simpa [seen, meaning, ht] using this
  have h2 : i.args = splitFields t.fields m.payload := by
    have := congrArg Prod.snd hs
    simpa [seen, meaning, ht] using this
  obtain ⟨a1, a2, a3, a4⟩ := splitFields_sound t.fields m.payload hp
  unfold forward
  rw [h1, h2]
  refine ⟨⟨rfl, ⟨hl, List.mem_of_getElem? ht, a1⟩, a3⟩, ?_, a4, ht⟩
  simp only [a2, seen, h1, h2]

/-- C62. Whatever the stream, the history and the handlers, the calls a receiver makes can all be
passed on: the forwarding `send` compiles and sends the same type and field contents. -/
theorem C62_forward (hl : C.messages.length ≤ 255) (S : Setting C B user) {ops : List Op}
    {w : World C} {os : List Obs} (h : Reached B user fuel ops w os) :
    (∀ i ∈ w.trace, (forward C i).Good C) ∧
    (w.trace.map (forward C)).map (fun r => (r.t, r.vs.map (·.bytes))) = delivered w := by
  have hall : ∀ i ∈ w.trace, (forward C i).Good C ∧
      ((forward C i).t, (forward C i).vs.map (·.bytes)) = seen i := by
    intro i hi
    obtain ⟨D, m, post, hm, _, hs⟩ := reached_onPath S h i hi
    obtain ⟨a, b, _⟩ := forward_good hl hm hs
    exact ⟨a, b⟩
  refine ⟨fun i hi => (hall i hi).1, ?_⟩
  rw [List.map_map]
  exact List.map_congr_left fun i hi => (hall i hi).2

/-- C62. A relay that forwards every call puts on its output exactly the messages its input decodes
to, without the noise between them (distinct message types). -/
theorem C62_cleans {σ : Type} {T : Tx σ} {log : σ → List Byte} (hT : Faithful T log)
    (hl : C.messages.length ≤ 255) (hnd : C.messages.Nodup) (S : Setting C B user)
    (hn : NeverThrows user) {ops : List Op} {w : World C} {os : List Obs}
    (h : Reached B user fuel (ops ++ [.process]) w os) (hh : w.rx.hasHandler = true) (s : σ) :
    ∃ ms s', Decodes C w.fed ms (buffered w) ∧
      sendAll T s (w.trace.map (forward C)) = some (.ok s') ∧
      log s' = log s ++ frames C.envelope ms := by
  obtain ⟨ms, hd, e⟩ := h.polled S hn hh
  obtain ⟨hg, _⟩ := C62_forward hl S h
  obtain ⟨s', h1, h2⟩ := sendAll_faithful hT (w.trace.map (forward C))
    (by intro r hr; obtain ⟨i, hi, rfl⟩ := List.mem_map.mp hr; exact hg i hi) s
  refine ⟨ms, s', hd, h1, ?_⟩
  rw [h2]
  have hmsg : ∀ (tr : List Invocation) (ms : List Msg), tr.map seen = ms.map (meaning C) →
      (∀ m ∈ ms, IsMsg C m) → (tr.map (forward C)).map Request.msg = ms := by
    intro tr
    induction tr with
    | nil => intro ms e _; cases ms <;> simp_all
    | cons i tr ih =>
      intro ms e hms
      cases ms with
      | nil => simp at e
      | cons m ms =>
        simp only [List.map_cons, List.cons.injEq] at e ⊢
        refine ⟨?_, ih ms e.2 fun m' hm' => hms m' (by simp [hm'])⟩
        obtain ⟨_, _, a3, a4⟩ := forward_good hl (hms m (by simp)) e.1
        have hid : UInt8.ofNat (C.messages.idxOf i.msg) = m.id := by
          have hmem : i.msg ∈ C.messages := List.mem_of_getElem? a4
          have hi1 := (idOf_idxOf hl hmem).1
          have hlt := (List.getElem?_eq_some_iff.mp a4).1
          have hlt1 := (List.getElem?_eq_some_iff.mp hi1).1
          unfold typeOf at a4
          rw [← a4] at hi1
          have := (List.getElem?_inj hlt1 hnd).mp hi1
          exact UInt8.toNat_inj.mp this
        unfold Request.msg
        rw [a3]
        simp only [forward]
        rw [hid]
  rw [hmsg _ ms e hd.1.isMsg]

/-- C62. Behind a relay a second receiver delivers exactly what the relay's receiver delivered. -/
theorem C62_downstream {σ : Type} {T : Tx σ} {log : σ → List Byte} (hT : Faithful T log)
    (hl : C.messages.length ≤ 255) (S : Setting C B user) {ops : List Op} {w : World C}
    {os : List Obs} (h : Reached B user fuel ops w os) (s s' : σ)
    (hsend : sendAll T s (w.trace.map (forward C)) = some (.ok s'))
    {B2 : Build} {user2 : UserCode} {fuel2 : Nat} (S2 : Setting C B2 user2)
    (hn2 : NeverThrows user2) {ops2 : List Op} {w2 : World C} {os2 : List Obs}
    (h2 : Reached B2 user2 fuel2 (ops2 ++ [.process]) w2 os2) (hh2 : w2.rx.hasHandler = true)
    (hfed : log s' = log s ++ w2.fed) : delivered w2 = delivered w ∧ buffered w2 = [] := by
  obtain ⟨hg, he⟩ := C62_forward hl S h
  have := C25_round_trip hT S2 hn2 (w.trace.map (forward C))
    (by intro r hr; obtain ⟨i, hi, rfl⟩ := List.mem_map.mp hr; exact hg i hi) s s' hsend h2 hh2 hfed
  rw [he] at this
  exact this

/-- A relay that received one message after noise forwards just its frame. -/
example : ∃ (w : World Sample.checked) (os : List Obs) (ms : List Msg) (s' : List Byte),
    Reached Sample.dbg Sample.passive 50 ([.setHandler Sample.h0,
      .append ([7, 1, 9] ++ frame .basicChecksum Sample.mPose ++ [4, 4])] ++ [.process]) w os ∧
    sendAll vectorBuffer [8] (w.trace.map (forward Sample.checked)) = some (.ok s') ∧
    Decodes Sample.checked w.fed ms (buffered w) ∧ s' = [8] ++ frames .basicChecksum ms := by
  obtain ⟨w, os, h, hp⟩ := Sample.reached (C := Sample.checked) (B := Sample.dbg)
    (user := Sample.passive) (fuel := 50)
    (ops := [.setHandler Sample.h0,
      .append ([7, 1, 9] ++ frame .basicChecksum Sample.mPose ++ [4, 4])] ++ [.process])
    (fun w _ => w.rx.hasHandler) (by decide +kernel)
  obtain ⟨ms, s', a, b, c⟩ := C62_cleans vectorBuffer_faithful (by decide) (by decide)
    Sample.setting_checked Sample.passive_neverThrows h hp [8]
  exact ⟨w, os, ms, s', h, b, a, c⟩

/-- A relay receives two messages in noise and forwards them; the second receiver gets both. -/
example : ∃ (w w2 : World Sample.checked) (os os2 : List Obs) (s' : List Byte),
    Reached Sample.dbg Sample.passive 50
      ([.setHandler Sample.h0, .append ([7, 1, 9] ++ frame .basicChecksum Sample.mPose ++ [4, 4] ++
        frame .basicChecksum Sample.mPing)] ++ [.process]) w os ∧
    sendAll vectorBuffer [] (w.trace.map (forward Sample.checked)) = some (.ok s') ∧
    Reached Sample.dbg Sample.passive 50 ([.setHandler Sample.h0, .append s'] ++ [.process]) w2 os2 ∧
    delivered w2 = delivered w ∧ (delivered w).length = 2 := by
  obtain ⟨w, os, h, hp⟩ := Sample.reached (C := Sample.checked) (B := Sample.dbg)
    (user := Sample.passive) (fuel := 50)
    (ops := [.setHandler Sample.h0, .append ([7, 1, 9] ++ frame .basicChecksum Sample.mPose ++ [4, 4] ++
        frame .basicChecksum Sample.mPing)] ++ [.process])
    (fun w _ => decide ((delivered w).length = 2) && decide (
      sendAll vectorBuffer [] (w.trace.map (forward Sample.checked)) =
        some (.ok (frames .basicChecksum [Sample.mPose, Sample.mPing])))) (by decide +kernel)
  simp only [Bool.and_eq_true, decide_eq_true_eq] at hp
  obtain ⟨w2, os2, h2, hp2⟩ := Sample.reached (C := Sample.checked) (B := Sample.dbg)
    (user := Sample.passive) (fuel := 50)
    (ops := [.setHandler Sample.h0, .append (frames .basicChecksum [Sample.mPose, Sample.mPing])] ++
      [.process])
    (fun w _ => w.rx.hasHandler) (by decide +kernel)
  have hf2 := C25_fed_is_chunks Sample.setting_checked Sample.passive_quiet (by simp) h2
  refine ⟨w, w2, os, os2, _, h, hp.2, h2, ?_, hp.1⟩
  exact (C62_downstream vectorBuffer_faithful (by decide) Sample.setting_checked h [] _ hp.2
    Sample.setting_checked Sample.passive_neverThrows h2 hp2 (by rw [hf2]; rfl)).1

end TT.Properties
