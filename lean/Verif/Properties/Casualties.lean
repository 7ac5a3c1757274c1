import Verif.Properties.Recovery
import Verif.Properties.Bursts

/-!
# Property C136: exactly the unharmed messages are delivered

A line on which any number of messages are damaged, by wrong bytes and by missing or additional ones, or lost.
-/

namespace TT.Properties
open Spec

variable {C : Collection} {B : Build} {user : UserCode} {fuel : Nat}

/-- `d` are the bytes of the message `m`, some of them wrong, but not the id, and they are not the bytes of any message. -/
structure Wrong (C : Collection) (m : Msg) (d : List Byte) : Prop where
  length : d.length = (frame C.envelope m).length
  id : d[1]? = some m.id
  noMsg : ∀ m', d ≠ frame C.envelope m'

/-- The messages `sent` are sent, the bytes `s` arrive, up to the bytes `e` at their end, and `got` are the messages that arrive
whole. Of the others the bytes may be wrong (`wrong`), the start code may be missing, any number of bytes may be missing or
added after the id (`moved`; an end code must not come to stand where the end code belongs), or nothing may arrive at all. Between messages
there may be further bytes. The end `e` is what arrives later, or nothing. -/
inductive Line (C : Collection) (e : List Byte) : (sent : List Msg) → (s : List Byte) → (got : List Msg) → Prop
  | nil : Line C e [] e []
  | whole {m : Msg} {sent got : List Msg} {s : List Byte} (hm : IsMsg C m) (h : Line C e sent s got) :
      Line C e (m :: sent) (frame C.envelope m ++ s) (m :: got)
  | wrong {m : Msg} {d : List Byte} {sent got : List Msg} {s : List Byte} (hm : IsMsg C m) (hd : Wrong C m d)
      (hno : ∀ i < d.length, 1 ≤ i → ¬ MayStart C (d ++ s) i) (h : Line C e sent s got) : Line C e (m :: sent) (d ++ s) got
  | lostStart {m : Msg} {sent got : List Msg} {s : List Byte} (hm : IsMsg C m)
      (hno : ∀ i < (frame C.envelope m).length, 1 ≤ i → ¬ MayStart C (frame C.envelope m ++ s) i) (h : Line C e sent s got) :
      Line C e (m :: sent) ((frame C.envelope m).eraseIdx 0 ++ s) got
  | moved {m : Msg} {d : List Byte} {b : Byte} {sent got : List Msg} {s : List Byte} (hm : IsMsg C m) (hid : d[1]? = some m.id)
      (hend : (d ++ s)[(frame C.envelope m).length - 1]? = some b) (hb : b ≠ 0x04)
      (hno : ∀ i < d.length, 1 ≤ i → ¬ MayStart C (d ++ s) i) (h : Line C e sent s got) : Line C e (m :: sent) (d ++ s) got
  | gone {m : Msg} {sent got : List Msg} {s : List Byte} (hm : IsMsg C m) (h : Line C e sent s got) : Line C e (m :: sent) s got
  | noise {b : Byte} {sent got : List Msg} {s : List Byte} (hno : ¬ MayStart C (b :: s) 0) (h : Line C e sent s got) :
      Line C e sent (b :: s) got

theorem mayStart_cons {b : Byte} {s : List Byte} {i : Nat} (h : MayStart C s i) : MayStart C (b :: s) (i + 1) := by
  obtain ⟨h1, h2, h3⟩ := h
  exact ⟨by simpa using h1, by simpa using h2, by simpa using h3⟩

theorem run_quiet {s r : List Byte} {ms : List Msg} (h : Run C s ms r) : ∀ {d : List Byte},
    (∀ i < d.length, ¬ MayStart C (d ++ s) i) → Run C (d ++ s) ms r := by
  intro d
  induction d with
  | nil => intro _; exact h
  | cons b d ih =>
    intro hno
    obtain ⟨n1, n2⟩ := skip_of_no_start (hno 0 (by simp))
    exact Run.skip n1 n2 (ih fun i hi hm => hno (i + 1) (by simpa using hi) (mayStart_cons hm))

/-- The first of the bytes is given up, and then all others. -/
theorem run_givenUp {s r : List Byte} {ms : List Msg} (h : Run C s ms r) {d : List Byte} (h1 : ¬ Starts C (d ++ s))
    (h2 : ¬ Waiting C (d ++ s)) (hno : ∀ i < d.length, 1 ≤ i → ¬ MayStart C (d ++ s) i) : Run C (d ++ s) ms r := by
  cases d with
  | nil => exact h
  | cons b d =>
    refine Run.skip h1 h2 (run_quiet h fun i hi hm => hno (i + 1) (by simpa using hi) (by omega) (mayStart_cons hm))

/-- Where no end code is in the place of that of a message, no message of its type can be. -/
theorem moved_not_start {m : Msg} (hm : IsMsg C m) {x : List Byte} (hid : x[1]? = some m.id) {b : Byte}
    (hend : x[(frame C.envelope m).length - 1]? = some b) (hb : b ≠ 0x04) : ¬ Starts C x ∧ ¬ Waiting C x := by
  have h5 := announced_ge hm.announced
  have hl : (frame C.envelope m).length - 1 < x.length := (List.getElem?_eq_some_iff.mp hend).1
  constructor
  · refine not_starts_of_end hid hm.announced ?_
    rw [hend]
    simpa using hb
  · exact not_waiting_of_length hid hm.announced (by omega) (by omega)

/-- The loss of one byte. -/
theorem Line.lost {m : Msg} {j : Nat} {sent got : List Msg} {b : Byte} {s e : List Byte} (hm : IsMsg C m) (hj : 2 ≤ j)
    (hjl : j < (frame C.envelope m).length) (hb : b ≠ 0x04)
    (hno : ∀ i < (frame C.envelope m).length - 1, 1 ≤ i → ¬ MayStart C ((frame C.envelope m).eraseIdx j ++ b :: s) i)
    (h : Line C e sent (b :: s) got) : Line C e (m :: sent) ((frame C.envelope m).eraseIdx j ++ b :: s) got := by
  have hlen : ((frame C.envelope m).eraseIdx j).length = (frame C.envelope m).length - 1 := List.length_eraseIdx_of_lt hjl
  refine .moved hm ?_ (b := b) ?_ hb (by rw [hlen]; exact hno) h
  · rw [List.getElem?_eraseIdx_of_lt (by omega)]
    have := frame_id C.envelope m []
    simpa using this
  · rw [List.getElem?_append_right (by omega), hlen]
    simp

theorem Line.run {sent got : List Msg} {s e : List Byte} (h : Line C e sent s got) : Run C s got e := by
  induction h with
  | nil => exact Run.refl _
  | whole hm _ ih => exact Run.take hm ih
  | @wrong m d _ _ s hm hd hno _ ih =>
    obtain ⟨n1, n2⟩ := not_start_of hm hd.length hd.id hd.noMsg s
    exact run_givenUp ih n1 n2 hno
  | @lostStart m _ _ s hm hno _ ih =>
    obtain ⟨f, hf⟩ := frame_cons C.envelope m
    rw [hf] at hno ⊢
    refine run_quiet ih fun i hi hm => hno (i + 1) ?_ (by omega) (mayStart_cons hm)
    simpa using hi
  | moved hm hid hend hb hno _ ih =>
    obtain ⟨n1, n2⟩ := moved_not_start hm (by rw [List.getElem?_append_left (List.getElem?_eq_some_iff.mp hid).1]; exact hid) hend hb
    exact run_givenUp ih n1 n2 hno
  | gone _ _ ih => exact ih
  | noise hno _ ih =>
    obtain ⟨n1, n2⟩ := skip_of_no_start hno
    exact Run.skip n1 n2 ih

/-- C136. Any number of messages may be damaged, by wrong, missing or additional bytes, or be lost: exactly those that arrive whole are
delivered, in order, and nothing is left over. -/
theorem C136_unharmed (S : Setting C B user) (hn : NeverThrows user) {ops : List Op} {w : World C} {os : List Obs}
    (h : Reached B user fuel (ops ++ [.process]) w os) (hh : w.rx.hasHandler = true) {sent got : List Msg}
    (hl : Line C [] sent w.fed got) : delivered w = got.map (meaning C) ∧ buffered w = [] :=
  polled_eq S hn h hh ⟨hl.run, Or.inl rfl⟩

/-- Of two scans of the same bytes one continues the other. -/
theorem run_compare {s r : List Byte} {ms : List Msg} (h : Run C s ms r) : ∀ {got : List Msg} {e : List Byte}, Run C s got e →
    (∃ es, got = ms ++ es ∧ Run C r es e) ∨ ∃ es, ms = got ++ es ∧ Run C e es r := by
  induction h with
  | refl => intro got e h'; exact Or.inl ⟨got, rfl, h'⟩
  | take hm h ih =>
    rename_i m s0 r0 ms0
    intro got e h'
    generalize hs : frame C.envelope m ++ s0 = s at h'
    cases h' with
    | refl => subst hs; exact Or.inr ⟨_, rfl, Run.take hm h⟩
    | take hm' h' =>
      obtain ⟨rfl, rfl⟩ := frame_append_inj hm hm' hs
      rcases ih h' with ⟨es, rfl, hr⟩ | ⟨es, rfl, hr⟩
      · exact Or.inl ⟨es, rfl, hr⟩
      · exact Or.inr ⟨es, rfl, hr⟩
    | skip a b h' =>
      rw [← hs] at a
      exact absurd (starts_frame hm _) a
  | skip a b h ih =>
    rename_i b0 s0 r0 ms0
    intro got e h'
    generalize hs : b0 :: s0 = s at h'
    cases h' with
    | refl => subst hs; exact Or.inr ⟨_, rfl, Run.skip a b h⟩
    | take hm' h' =>
      rw [hs] at a
      exact absurd (starts_frame hm' _) a
    | skip a' b' h' =>
      simp at hs
      obtain ⟨rfl, rfl⟩ := hs
      exact ih h'

/-- A scan that stops before the end of what another has scanned has found the first ones of its messages. -/
theorem run_before_end {x e r t : List Byte} {ms got : List Msg} (h : Run C x ms r) (hg : Run C (x ++ (t ++ e)) got e) : ms <+: got := by
  rcases run_compare (h.append (t ++ e)) hg with ⟨es, rfl, _⟩ | ⟨es, rfl, h3⟩
  · exact List.prefix_append _ _
  · have := h3.total_le
    cases es with
    | nil => simp
    | cons m es =>
      obtain ⟨f, hf⟩ := frame_cons C.envelope m
      rw [frames_cons] at this
      simp [hf] at this
      omega

/-- C136. At any time, while only a part has arrived or been processed: the first ones of them. -/
theorem C136_any_time (S : Setting C B user) (hn : NeverThrows user) {ops : List Op} {w : World C} {os : List Obs}
    (h : Reached B user fuel ops w os) {sent got : List Msg} {x e : List Byte} (hl : Line C e sent (x ++ e) got) (hf : w.fed <+: x) :
    delivered w <+: got.map (meaning C) := by
  obtain ⟨ms, h1, h2⟩ := h.partly S hn
  obtain ⟨t, rfl⟩ := hf
  rw [h2]
  have := hl.run
  rw [List.append_assoc] at this
  exact (run_before_end h1 this).map _

/-- C136. They are among those sent, in the order sent. -/
theorem C136_sublist {sent got : List Msg} {s e : List Byte} (h : Line C e sent s got) : got.Sublist sent := by
  induction h with
  | nil => exact .slnil
  | whole _ _ ih => exact ih.cons_cons _
  | wrong _ _ _ _ ih => exact ih.cons _
  | lostStart _ _ _ ih => exact ih.cons _
  | moved _ _ _ _ _ _ ih => exact ih.cons _
  | gone _ _ ih => exact ih.cons _
  | noise _ _ ih => exact ih

/-! ### Which wrong bytes are noticed -/

/-- C136. With a checksum: any of at most eight bits in a row, except in the id. -/
theorem C136_burst (hE : C.envelope = .basicChecksum) {m : Msg} {msb : Bool} {n : Nat} (hn : n ≤ 8) {d : List Byte}
    (hb : Burst msb n (frame C.envelope m) d) (hne : d ≠ frame C.envelope m) (hid : d[1]? = some m.id) : Wrong C m d := by
  refine ⟨hb.1, hid, fun m' e => ?_⟩
  subst e
  rw [hE] at hb hne
  exact hne (burst_frame hn m m' hb)

/-- The places of the codes in the bytes of a message. -/
def IsCode (E : Envelope) (m : Msg) (j : Nat) : Prop :=
  j = 0 ∨ j = 2 ∨ j = 3 + m.payload.length ∨ j + 1 = (frame E m).length

/-- C136. With both envelopes: any number of other bytes, if one of the four codes is wrong and the id is not. -/
theorem C136_code {m : Msg} {d : List Byte} (hl : d.length = (frame C.envelope m).length) (hid : d[1]? = some m.id) {j : Nat}
    (hj : IsCode C.envelope m j) (hne : d[j]? ≠ (frame C.envelope m)[j]?) : Wrong C m d := by
  refine ⟨hl, hid, ?_⟩
  rintro m' rfl
  apply hne
  have hp : m'.payload.length = m.payload.length := by
    rw [frame_length, frame_length] at hl
    omega
  have etx : ∀ x : Msg, (frame C.envelope x)[3 + x.payload.length]? = some 0x03 := by
    intro x
    have e : frame C.envelope x = (0x01 :: x.id :: 0x02 :: x.payload) ++ 0x03 :: (frame C.envelope x).drop (4 + x.payload.length) := by
      cases C.envelope <;> simp [frame, Nat.add_comm 4]
    rw [e, List.getElem?_append_right (by simp; omega)]
    simp [Nat.add_comm 3]
  obtain ⟨f, hf⟩ := frame_cons C.envelope m
  obtain ⟨f', hf'⟩ := frame_cons C.envelope m'
  rcases hj with rfl | rfl | rfl | hj
  · rw [hf, hf']; rfl
  · rw [hf, hf']; rfl
  · rw [etx m, ← hp, etx m']
  · have e1 := frame_last C.envelope m
    have e2 := frame_last C.envelope m'
    rw [hl] at e2
    rw [show j = (frame C.envelope m).length - 1 by omega, e1, e2]

/-- C136. What is not noticed is another message of the same type. -/
theorem C136_unnoticed {m : Msg} (hm : IsMsg C m) {d : List Byte} (hl : d.length = (frame C.envelope m).length)
    (hid : d[1]? = some m.id) (hw : ¬ Wrong C m d) : ∃ p, d = frame C.envelope ⟨m.id, p⟩ ∧ IsMsg C ⟨m.id, p⟩ := by
  have : ∃ m', d = frame C.envelope m' := Classical.byContradiction fun hc => hw ⟨hl, hid, fun m' e => hc ⟨m', e⟩⟩
  obtain ⟨⟨i, p⟩, rfl⟩ := this
  have hi : i = m.id := by
    have := frame_id C.envelope ⟨i, p⟩ []
    rw [List.append_nil, hid] at this
    exact (Option.some.inj this).symm
  subst hi
  refine ⟨p, rfl, ?_⟩
  obtain ⟨ty, hty, e⟩ := hm
  refine ⟨ty, hty, ?_⟩
  rw [frame_length, frame_length] at hl
  simp only at hl ⊢
  omega

/-! ### The conditions are needed -/

/-- Two damages side by side can forge a message, in spite of the checksum: a message that has lost a byte, with an end code in
place of the start code of the next one, is taken for another message. -/
theorem C136_end_code_witness : ∃ (w : World Sample.checked) (os : List Obs),
    Reached Sample.dbg Sample.passive 50 ([.setHandler Sample.h0, .append
      ((frame .basicChecksum ⟨2, [2, 249, 0, 0, 0, 0, 0]⟩).eraseIdx 3 ++ (frame .basicChecksum ⟨0, []⟩).set 0 4)] ++ [.process]) w os ∧
    delivered w = [meaning Sample.checked ⟨2, [249, 0, 0, 0, 0, 0, 3]⟩] := by
  obtain ⟨w, os, h, hp⟩ := Sample.reached (C := Sample.checked) (B := Sample.dbg) (user := Sample.passive) (fuel := 50)
    (ops := [.setHandler Sample.h0, .append
      ((frame .basicChecksum ⟨2, [2, 249, 0, 0, 0, 0, 0]⟩).eraseIdx 3 ++ (frame .basicChecksum ⟨0, []⟩).set 0 4)] ++ [.process])
    (fun w _ => decide (delivered w = [meaning Sample.checked ⟨2, [249, 0, 0, 0, 0, 0, 3]⟩])) (by decide +kernel)
  exact ⟨w, os, h, by simpa using hp⟩

/-- The contents of a message with a wrong code may be delivered as a message nobody sent. -/
theorem C136_inside_witness : ∃ (w : World Sample.basic) (os : List Obs),
    Wrong Sample.basic ⟨2, [1, 0, 2, 3, 4, 9, 9]⟩ ((frame .basic ⟨2, [1, 0, 2, 3, 4, 9, 9]⟩).set 2 6) ∧
    Reached Sample.dbg Sample.passive 50 ([.setHandler Sample.h0, .append
      ((frame .basic ⟨2, [1, 0, 2, 3, 4, 9, 9]⟩).set 2 6)] ++ [.process]) w os ∧
    delivered w = [meaning Sample.basic ⟨0, []⟩] := by
  obtain ⟨w, os, h, hp⟩ := Sample.reached (C := Sample.basic) (B := Sample.dbg) (user := Sample.passive) (fuel := 50)
    (ops := [.setHandler Sample.h0, .append ((frame .basic ⟨2, [1, 0, 2, 3, 4, 9, 9]⟩).set 2 6)] ++ [.process])
    (fun w _ => decide (delivered w = [meaning Sample.basic ⟨0, []⟩])) (by decide +kernel)
  exact ⟨w, os, C136_code (by decide +kernel) (by decide +kernel) (j := 2) (Or.inr (Or.inl rfl)) (by decide +kernel), h,
    by simpa using hp⟩

/-! ### Examples -/

/-- A message whose STX is lost, one that has lost its start code, an intact one that contains start codes, one with wrong bits
in two bytes, bytes between messages, one with a wrong end code, and an intact one. -/
example : ∃ (w : World Sample.checked) (os : List Obs),
    Reached Sample.dbg Sample.passive 60 ([.setHandler Sample.h0,
      .append ((frame .basicChecksum ⟨1, [42]⟩).eraseIdx 2), .append ((frame .basicChecksum ⟨0, []⟩).eraseIdx 0), .process,
      .append (frame .basicChecksum Sample.mPose), .process,
      .append ((frame .basicChecksum ⟨2, [5, 6, 7, 8, 9, 10, 11]⟩).set 3 0xF5 |>.set 4 0x09), .process,
      .append [1, 9], .append ((frame .basicChecksum ⟨0, []⟩).set 5 0xFF), .process,
      .append (frame .basicChecksum ⟨1, [7]⟩)] ++ [.process]) w os ∧
    delivered w = [meaning Sample.checked Sample.mPose, meaning Sample.checked ⟨1, [7]⟩] := by
  obtain ⟨w, os, h, hp⟩ := Sample.reached (C := Sample.checked) (B := Sample.dbg) (user := Sample.passive) (fuel := 60)
    (ops := [.setHandler Sample.h0,
      .append ((frame .basicChecksum ⟨1, [42]⟩).eraseIdx 2), .append ((frame .basicChecksum ⟨0, []⟩).eraseIdx 0), .process,
      .append (frame .basicChecksum Sample.mPose), .process,
      .append ((frame .basicChecksum ⟨2, [5, 6, 7, 8, 9, 10, 11]⟩).set 3 0xF5 |>.set 4 0x09), .process,
      .append [1, 9], .append ((frame .basicChecksum ⟨0, []⟩).set 5 0xFF), .process,
      .append (frame .basicChecksum ⟨1, [7]⟩)] ++ [.process])
    (fun w _ => w.rx.hasHandler) (by decide +kernel)
  have hf := C25_fed_is_chunks Sample.setting_checked Sample.passive_quiet (by simp) h
  have l1 : Line Sample.checked [] [⟨1, [7]⟩] (frame .basicChecksum ⟨1, [7]⟩ ++ []) [⟨1, [7]⟩] :=
    .whole (by decide +kernel) .nil
  have l2 := Line.wrong (m := ⟨0, []⟩) (d := (frame .basicChecksum ⟨0, []⟩).set 5 0xFF) (by decide +kernel)
    (C136_code (C := Sample.checked) (by decide +kernel) (by decide +kernel) (j := 5) (by right; right; right; decide +kernel)
      (by decide +kernel)) (by decide +kernel) l1
  have l3 := Line.noise (b := 1) (by decide +kernel) (Line.noise (b := 9) (by decide +kernel) l2)
  have l4 := Line.wrong (m := ⟨2, [5, 6, 7, 8, 9, 10, 11]⟩)
    (d := (frame .basicChecksum ⟨2, [5, 6, 7, 8, 9, 10, 11]⟩).set 3 0xF5 |>.set 4 0x09) (by decide +kernel)
    (C136_burst (C := Sample.checked) rfl (msb := false) (n := 8) (by decide) (burst_of 28 (by decide +kernel) (by decide +kernel))
      (by decide +kernel) (by decide +kernel)) (by decide +kernel) l3
  have l5 := Line.whole (m := Sample.mPose) (by decide +kernel) l4
  have l6 := Line.lostStart (m := ⟨0, []⟩) (by decide +kernel) (by decide +kernel) l5
  have l7 := Line.lost (m := ⟨1, [42]⟩) (j := 2) (b := 0) (by decide +kernel) (by decide) (by decide +kernel) (by decide)
    (by decide +kernel) l6
  have hl : w.fed = _ := hf
  exact ⟨w, os, h, (C136_unharmed (got := [Sample.mPose, ⟨1, [7]⟩]) Sample.setting_checked Sample.passive_neverThrows h hp
    (by rw [hl]; exact l7)).1⟩

/-- A message that breaks off after its first four bytes, one of which nothing arrives, one with a byte added to its contents and an
intact one. -/
example : ∃ (w : World Sample.checked) (os : List Obs),
    Reached Sample.dbg Sample.passive 60 ([.setHandler Sample.h0, .append ((frame .basicChecksum Sample.mPose).take 4), .process,
      .append [1, 1, 2, 42, 43, 3, 42, 4], .append (frame .basicChecksum ⟨1, [7]⟩)] ++ [.process]) w os ∧
    Line Sample.checked [] [Sample.mPose, ⟨0, []⟩, ⟨1, [42]⟩, ⟨1, [7]⟩] w.fed [⟨1, [7]⟩] ∧
    delivered w = [meaning Sample.checked ⟨1, [7]⟩] ∧ buffered w = [] := by
  obtain ⟨w, os, h, hp⟩ := Sample.reached (C := Sample.checked) (B := Sample.dbg) (user := Sample.passive) (fuel := 60)
    (ops := [.setHandler Sample.h0, .append ((frame .basicChecksum Sample.mPose).take 4), .process,
      .append [1, 1, 2, 42, 43, 3, 42, 4], .append (frame .basicChecksum ⟨1, [7]⟩)] ++ [.process])
    (fun w _ => w.rx.hasHandler) (by decide +kernel)
  have hf := C25_fed_is_chunks Sample.setting_checked Sample.passive_quiet (by simp) h
  have l1 : Line Sample.checked [] [⟨1, [7]⟩] (frame .basicChecksum ⟨1, [7]⟩ ++ []) [⟨1, [7]⟩] :=
    .whole (by decide +kernel) .nil
  have l2 := Line.moved (m := ⟨1, [42]⟩) (d := [1, 1, 2, 42, 43, 3, 42, 4]) (b := 42) (by decide +kernel) rfl (by decide +kernel)
    (by decide) (by decide +kernel) l1
  have l3 := Line.gone (m := ⟨0, []⟩) (by decide +kernel) l2
  have l4 := Line.moved (m := Sample.mPose) (d := (frame .basicChecksum Sample.mPose).take 4) (b := 1) (by decide +kernel) rfl
    (by decide +kernel) (by decide) (by decide +kernel) l3
  have hl : w.fed = _ := hf
  have h4 : Line Sample.checked [] [Sample.mPose, ⟨0, []⟩, ⟨1, [42]⟩, ⟨1, [7]⟩] w.fed [⟨1, [7]⟩] := by rw [hl]; exact l4
  exact ⟨w, os, h, h4, C136_unharmed Sample.setting_checked Sample.passive_neverThrows h hp h4⟩

/-- The conditions of `C136_unnoticed`: contents are exchanged, the sum stays. -/
example : ∃ p, (frame Sample.checked.envelope ⟨2, [5, 6, 0, 0, 0, 0, 0]⟩).set 3 6 |>.set 4 5 |> fun d =>
    d = frame Sample.checked.envelope ⟨2, p⟩ ∧ IsMsg Sample.checked ⟨2, p⟩ :=
  C136_unnoticed (m := ⟨2, [5, 6, 0, 0, 0, 0, 0]⟩) (by decide +kernel) (by decide +kernel) (by decide +kernel)
    fun hw => hw.noMsg ⟨2, [6, 5, 0, 0, 0, 0, 0]⟩ (by decide +kernel)

end TT.Properties
