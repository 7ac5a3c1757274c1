import Verif.Properties.ByteMap

/-!
# Property C128: a line that keeps some byte values for itself
-/

namespace TT.Properties
open Spec

variable {C : Collection} {B : Build} {user : UserCode} {fuel : Nat}

/-- What comes out of a line that keeps the bytes `gone` for itself. -/
def without (gone : Byte → Bool) (s : List Byte) : List Byte := s.filter fun b => !gone b

/-- The line passes on the four codes. -/
def PassesCodes (gone : Byte → Bool) : Prop :=
  gone 0x01 = false ∧ gone 0x02 = false ∧ gone 0x03 = false ∧ gone 0x04 = false

theorem without_length (gone : Byte → Bool) (s : List Byte) : (without gone s).length + s.countP gone = s.length := by
  induction s with
  | nil => rfl
  | cons b s ih =>
    unfold without at ih ⊢
    cases hb : gone b <;> simp [hb] <;> omega

theorem without_id {gone : Byte → Bool} {s : List Byte} (h : s.countP gone = 0) : without gone s = s := by
  unfold without
  rw [List.filter_eq_self]
  intro b hb
  rw [List.countP_eq_zero] at h
  simpa using h b hb

theorem frame_without {gone : Byte → Bool} (hg : PassesCodes gone) (E : Envelope) {m : Msg} (hid : gone m.id = false) :
    ∃ t, without gone (frame E m) = 0x01 :: m.id :: 0x02 :: t ∧ (∃ u, 0x02 :: t = u ++ [0x04]) ∧
      ∀ b ∈ t, b ∈ (frame E m).drop 1 := by
  obtain ⟨g1, g2, g3, g4⟩ := hg
  cases E with
  | basic =>
    refine ⟨without gone (m.payload ++ [0x03]) ++ [0x04], ?_, ⟨0x02 :: without gone (m.payload ++ [0x03]), by simp⟩, ?_⟩
    · simp [without, frame, g1, g2, g3, g4, hid]
    · intro b hb
      simp only [without, List.mem_append, List.mem_filter, List.mem_cons, List.not_mem_nil, or_false] at hb
      simp only [frame, List.cons_append, List.nil_append, List.drop_succ_cons, List.drop_zero, List.mem_cons,
        List.mem_append, List.not_mem_nil, or_false]
      rcases hb with ⟨h | h, _⟩ | h <;> simp [h]
  | basicChecksum =>
    refine ⟨without gone (m.payload ++ [0x03, byteSum ([0x01, m.id, 0x02] ++ m.payload ++ [0x03])]) ++ [0x04], ?_,
      ⟨0x02 :: without gone (m.payload ++ [0x03, byteSum ([0x01, m.id, 0x02] ++ m.payload ++ [0x03])]), by simp⟩, ?_⟩
    · simp only [without, frame, List.cons_append, List.nil_append, List.append_assoc, List.filter_cons, g1, g2, hid,
        List.filter_append, g3, g4]
      simp
      split <;> rfl
    · intro b hb
      simp only [without, List.mem_append, List.mem_filter, List.mem_cons, List.not_mem_nil, or_false] at hb
      simp only [frame, List.cons_append, List.nil_append, List.drop_succ_cons, List.drop_zero, List.mem_cons,
        List.mem_append, List.not_mem_nil, or_false, List.append_assoc]
      rcases hb with ⟨h | h | h, _⟩ | h
      · simp [h]
      · simp [h]
      · right; right; right; right; left
        simpa using h
      · simp [h]

theorem frame_end (E : Envelope) (m : Msg) :
    (E = .basic → (frame E m)[(frame E m).length - 2]? = some 0x03) ∧
    (E = .basicChecksum → (frame E m)[(frame E m).length - 3]? = some 0x03) := by
  constructor
  · rintro rfl
    rw [frame_length, show overhead .basic + m.payload.length - 2 = m.payload.length + 3 by simp [overhead]; omega]
    simp [frame]
  · rintro rfl
    rw [frame_length, show overhead .basicChecksum + m.payload.length - 3 = m.payload.length + 3 by simp [overhead]; omega]
    simp [frame]

/-- How many bytes a message may lose: four, or three with a checksum. -/
def mayLose : Envelope → Nat
  | .basic => 4
  | .basicChecksum => 3

/-- With no more missing bytes than that: the message is not taken for another, if another one follows. -/
theorem not_starts_short {m : Msg} {x s : List Byte} {k : Nat} {id : Byte} (hm : IsMsg C m)
    (h1 : ∀ v, (0x01 :: x ++ v)[1]? = some m.id) (hx : ∃ u, x = u ++ [0x04])
    (hlen : (0x01 :: x).length + k = (frame C.envelope m).length) (hk : 0 < k) (hk3 : k ≤ mayLose C.envelope) :
    ¬ Starts C (0x01 :: (x ++ 0x01 :: id :: 0x02 :: s)) := by
  rintro ⟨m', v, hm', e⟩
  have hid : m'.id = m.id := by
    have a := h1 (0x01 :: id :: 0x02 :: s)
    rw [List.cons_append, e, frame_id] at a
    exact Option.some.inj a
  have hl : (frame C.envelope m').length = (frame C.envelope m).length := by
    have a := hm'.announced
    rw [hid, hm.announced] at a
    exact (Option.some.inj a).symm
  obtain ⟨u, rfl⟩ := hx
  simp only [List.length_cons, List.length_append, List.length_nil] at hlen
  have hpos : 0 < (frame C.envelope m').length := by omega
  -- the byte at the place of the end
  have g : ∀ i, i < (frame C.envelope m').length →
      (0x01 :: (u ++ [0x04] ++ 0x01 :: id :: 0x02 :: s))[i]? = (frame C.envelope m')[i]? := by
    intro i hi
    rw [e, List.getElem?_append_left hi]
  have g1 := g _ (Nat.sub_lt hpos Nat.one_pos)
  rw [frame_last] at g1
  have q : ∀ j, (0x01 :: (u ++ [0x04] ++ 0x01 :: id :: 0x02 :: s))[u.length + 1 + j]? =
      (0x04 :: 0x01 :: id :: 0x02 :: s)[j]? := by
    intro j
    rw [List.append_assoc, Nat.add_right_comm, List.getElem?_cons_succ,
      List.getElem?_append_right (Nat.le_add_right _ _), Nat.add_sub_cancel_left]
    rfl
  have hn : (frame C.envelope m').length = u.length + 1 + 1 + k := by omega
  rw [hn, show u.length + 1 + 1 + k - 1 = u.length + 1 + k by omega, q] at g1
  obtain ⟨b1, b2⟩ := frame_end C.envelope m'
  cases hE : C.envelope with
  | basic =>
    have g2 := g ((frame C.envelope m').length - 2) (by omega)
    rw [b1 hE, hn, show u.length + 1 + 1 + k - 2 = u.length + 1 + (k - 1) by omega, q] at g2
    rw [hE] at hk3
    match k, hk, hk3 with
    | 1, _, _ => simp at g1
    | 2, _, _ => simp at g2
    | 3, _, _ => simp at g1
    | 4, _, _ => simp at g2
  | basicChecksum =>
    have g2 := g ((frame C.envelope m').length - 3) (by omega)
    rw [hE] at hk3
    match k, hk, hk3 with
    | 1, _, _ => simp at g1
    | 2, _, _ =>
      rw [b2 hE, hn, show u.length + 1 + 1 + 2 - 3 = u.length + 1 + 0 by omega, q] at g2
      simp at g2
    | 3, _, _ => simp at g1

theorem run_without {gone : Byte → Bool} (hg : PassesCodes gone) (ms : List Msg) (hms : ∀ m ∈ ms, IsMsg C m)
    (hid : ∀ m ∈ ms, gone m.id = false) (hp : ∀ m ∈ ms, Plain C.envelope m)
    (hk : ∀ m ∈ ms, (frame C.envelope m).countP gone ≤ mayLose C.envelope) :
    ∃ r, Run C (without gone (frames C.envelope ms)) (ms.filter fun m => (frame C.envelope m).countP gone == 0) r ∧
      Final C r := by
  induction ms with
  | nil => exact ⟨[], Run.refl _, Or.inl rfl⟩
  | cons m ms ih =>
    obtain ⟨r, ih, hr⟩ := ih (fun m' h' => hms m' (by simp [h'])) (fun m' h' => hid m' (by simp [h']))
      (fun m' h' => hp m' (by simp [h'])) (fun m' h' => hk m' (by simp [h']))
    have hm := hms m (by simp)
    have hsplit : without gone (frames C.envelope (m :: ms)) =
        without gone (frame C.envelope m) ++ without gone (frames C.envelope ms) := by
      rw [frames_cons]
      exact List.filter_append _ _
    rw [hsplit]
    by_cases h0 : (frame C.envelope m).countP gone = 0
    · rw [List.filter_cons_of_pos (by simpa using h0), without_id h0]
      exact ⟨r, Run.take hm ih, hr⟩
    · rw [List.filter_cons_of_neg (by simpa using h0)]
      obtain ⟨t, et, hu, ht⟩ := frame_without hg C.envelope (hid m (by simp))
      have hlen := without_length gone (frame C.envelope m)
      have hk0 := hk m (by simp)
      cases ms with
      | nil =>
        refine ⟨without gone (frame C.envelope m), ?_, Or.inr (Or.inr (Or.inr ⟨m.id, t, _, hm.announced, et, ?_⟩))⟩
        · show Run C (without gone (frame C.envelope m) ++ []) [] _
          rw [List.append_nil]
          exact Run.refl _
        · have hl := congrArg List.length et
          simp only [List.length_cons] at hl ⊢
          omega
      | cons m2 ms =>
        refine ⟨r, ?_, hr⟩
        obtain ⟨t2, et2, ⟨u2, hu2⟩, _⟩ := frame_without hg C.envelope (hid m2 (by simp))
        have es : without gone (frames C.envelope (m2 :: ms)) =
            0x01 :: m2.id :: 0x02 :: (t2 ++ without gone (frames C.envelope ms)) := by
          rw [frames_cons]
          unfold without at et2 ⊢
          rw [List.filter_append, et2]
          rfl
        rw [et] at hlen ⊢
        show Run C (0x01 :: ((m.id :: 0x02 :: t) ++ _)) _ _
        refine run_giveUp ?_ ?_ ?_ ih
        · rw [es]
          obtain ⟨u, hu⟩ := hu
          exact not_starts_short hm (fun v => rfl) ⟨m.id :: u, by rw [hu]; rfl⟩ hlen (by omega) hk0
        · refine not_waiting_of_length (by rfl) hm.announced ?_ ?_
          · simp
          · rw [es]
            have h4 : mayLose C.envelope ≤ 4 := by cases C.envelope <;> decide
            have h5 : 0 < t2.length := by
              cases t2 with
              | nil =>
                have := congrArg List.getLast? hu2
                simp at this
              | cons => simp
            simp only [List.length_cons, List.length_append] at hlen ⊢
            omega
        · intro b hb
          refine hp m (by simp) b ?_
          simp only [List.mem_cons] at hb
          obtain ⟨t', et'⟩ := frame_cons C.envelope m
          rcases hb with rfl | rfl | hb
          · rw [et']; simp
          · rw [et']; simp
          · exact ht b hb

/-- C128. A line keeps some byte values for itself, none of the codes or ids, and no message loses more than four bytes,
or three with a checksum. Then exactly the messages without such bytes are delivered. -/
theorem C128_delivered (S : Setting C B user) (hn : NeverThrows user) {ops : List Op} {w : World C} {os : List Obs}
    (h : Reached B user fuel (ops ++ [.process]) w os) (hh : w.rx.hasHandler = true) {gone : Byte → Bool}
    (hg : PassesCodes gone) {ms : List Msg} (hms : ∀ m ∈ ms, IsMsg C m) (hid : ∀ m ∈ ms, gone m.id = false)
    (hp : ∀ m ∈ ms, Plain C.envelope m) (hk : ∀ m ∈ ms, (frame C.envelope m).countP gone ≤ mayLose C.envelope)
    (hfed : w.fed = without gone (frames C.envelope ms)) :
    delivered w = (ms.filter fun m => (frame C.envelope m).countP gone == 0).map (meaning C) := by
  obtain ⟨r, hr, hf⟩ := run_without hg ms hms hid hp hk
  exact (polled_eq S hn h hh ⟨by rw [hfed]; exact hr, hf⟩).1

/-- The codes of software flow control. -/
def xonXoff (b : Byte) : Bool := b == 0x11 || b == 0x13

/-- C128. With software flow control on the line and no message with more than four of its codes in it, or three with a
checksum, exactly the messages without them arrive. -/
theorem C128_flow_control (S : Setting C B user) (hn : NeverThrows user) {ops : List Op} {w : World C} {os : List Obs}
    (h : Reached B user fuel (ops ++ [.process]) w os) (hh : w.rx.hasHandler = true)
    {ms : List Msg} (hms : ∀ m ∈ ms, IsMsg C m) (hid : ∀ m ∈ ms, m.id ≠ 0x11 ∧ m.id ≠ 0x13)
    (hp : ∀ m ∈ ms, Plain C.envelope m) (hk : ∀ m ∈ ms, (frame C.envelope m).countP xonXoff ≤ mayLose C.envelope)
    (hfed : w.fed = without xonXoff (frames C.envelope ms)) :
    delivered w = (ms.filter fun m => decide (∀ b ∈ frame C.envelope m, b ≠ 0x11 ∧ b ≠ 0x13)).map (meaning C) := by
  rw [C128_delivered S hn h hh (by unfold PassesCodes; decide) hms (fun m hm => by simpa [xonXoff] using hid m hm) hp hk hfed]
  congr 1
  apply List.filter_congr
  intro m _
  rw [Bool.eq_iff_iff, beq_iff_eq, List.countP_eq_zero, decide_eq_true_iff]
  simp [xonXoff]

/-- The message `m`, followed by `n`, is taken for the message `m'`. -/
def TakenOnTheWay (C : Collection) (gone : Byte → Bool) (m n m' : Msg) : Prop :=
  (IsMsg C m ∧ Plain C.envelope m) ∧ (IsMsg C n ∧ Plain C.envelope n ∧ (frame C.envelope n).countP gone = 0) ∧
  (IsMsg C m' ∧ m' ≠ m ∧ m' ≠ n) ∧ ∃ u, without gone (frames C.envelope [m, n]) = frame C.envelope m' ++ u

/-- C128. The limits are sharp: with one byte more, a message can be taken for another, with both envelopes. -/
theorem C128_tight (E : Envelope) : ∃ (C : Collection) (m n m' : Msg), C.envelope = E ∧
    (frame C.envelope m).countP xonXoff = mayLose E + 1 ∧ TakenOnTheWay C xonXoff m n m' := by
  cases E with
  | basic =>
    exact ⟨⟨[⟨0, [.pod 0 5]⟩, ⟨1, []⟩, ⟨2, []⟩], .basic⟩, ⟨0, [0x11, 0x13, 0x11, 0x13, 0x11]⟩, ⟨2, []⟩, ⟨0, [3, 4, 1, 2, 2]⟩,
      rfl, by decide, ⟨⟨_, rfl, rfl⟩, by decide⟩, ⟨⟨_, rfl, rfl⟩, by decide, by decide⟩, ⟨⟨_, rfl, rfl⟩, by decide, by decide⟩,
      [], by decide⟩
  | basicChecksum =>
    exact ⟨⟨[⟨0, [.pod 0 5]⟩, ⟨1, []⟩, ⟨2, []⟩, ⟨3, [.uint8]⟩], .basicChecksum⟩, ⟨0, [0x55, 0x11, 0x11, 0x11, 0x11]⟩, ⟨3, [4]⟩,
      ⟨0, [0x55, 3, 0x9F, 4, 1]⟩,
      rfl, by decide, ⟨⟨_, rfl, rfl⟩, by decide⟩, ⟨⟨_, rfl, rfl⟩, by decide, by decide⟩, ⟨⟨_, rfl, rfl⟩, by decide, by decide⟩,
      [3, 0x0D, 4], by decide⟩

/-- It happens: the second message loses two bytes. -/
example : ∃ (w : World Sample.checked) (os : List Obs),
    Reached Sample.dbg Sample.passive 50
      ([.setHandler Sample.h0, .append [1, 0, 2, 3, 6, 4, 1, 2, 2, 0, 9, 0, 0, 0, 3, 0x35, 4, 1, 0], .process,
        .append [2, 3, 6, 4]] ++ [.process]) w os ∧
    delivered w = ([⟨0, []⟩, ⟨0, []⟩] : List Msg).map (meaning Sample.checked) := by
  obtain ⟨w, os, h, hp⟩ := Sample.reached (C := Sample.checked) (B := Sample.dbg) (user := Sample.passive) (fuel := 50)
    (ops := [.setHandler Sample.h0, .append [1, 0, 2, 3, 6, 4, 1, 2, 2, 0, 9, 0, 0, 0, 3, 0x35, 4, 1, 0], .process,
        .append [2, 3, 6, 4]] ++ [.process])
    (fun w _ => w.rx.hasHandler) (by decide +kernel)
  have hf := C25_fed_is_chunks Sample.setting_checked Sample.passive_quiet (by simp) h
  exact ⟨w, os, h, C128_flow_control Sample.setting_checked Sample.passive_neverThrows h hp
    (ms := [⟨0, []⟩, ⟨2, [0, 9, 0x11, 0x13, 0, 0, 0]⟩, ⟨0, []⟩])
    (by
      intro m hm
      simp only [List.mem_cons, List.not_mem_nil, or_false] at hm
      rcases hm with rfl | rfl | rfl
      · exact ⟨Sample.ping, by decide, by decide⟩
      · exact ⟨Sample.pose, by decide, by decide⟩
      · exact ⟨Sample.ping, by decide, by decide⟩)
    (by decide) (by decide) (by decide) (by rw [hf]; decide +kernel)⟩

end TT.Properties
