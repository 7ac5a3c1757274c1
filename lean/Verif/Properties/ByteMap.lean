import Verif.Properties.Recovery

/-!
# Property C126: a line that changes bytes systematically
-/

namespace TT.Properties
open Spec

variable {C : Collection} {B : Build} {user : UserCode} {fuel : Nat}

/-! ### Streams that lack a code -/

theorem frame_has_codes (E : Envelope) (m : Msg) {c : Byte} (hc : c ∈ ([0x01, 0x02, 0x03, 0x04] : List Byte)) :
    c ∈ frame E m := by
  simp only [List.mem_cons, List.not_mem_nil, or_false] at hc
  rcases hc with rfl | rfl | rfl | rfl <;> cases E <;> simp [frame]

/-- C126. Bytes among which one of the four codes does not occur cause no call: a line stuck at one value, a line that
only alternates, text. -/
theorem C126_lacking (S : Setting C B user) (hn : NeverThrows user) {ops : List Op} {w : World C} {os : List Obs}
    (h : Reached B user fuel ops w os) {c : Byte} (hc : c ∈ ([0x01, 0x02, 0x03, 0x04] : List Byte)) (hl : c ∉ w.fed) :
    delivered w = [] := by
  obtain ⟨ms, h1, h2⟩ := h.partly S hn
  rw [h2]
  cases ms with
  | nil => rfl
  | cons m ms =>
    obtain ⟨pre, post, e⟩ := h1.piece m (by simp)
    exact absurd (by rw [e]; simp [frame_has_codes C.envelope m hc]) hl

/-! ### Bytes changed one by one -/

/-- A message each of whose bytes was changed. -/
def changed (φ : Byte → Byte) (m : Msg) : Msg := ⟨φ m.id, m.payload.map φ⟩

/-- A change that leaves the four codes alone. -/
def KeepsCodes (φ : Byte → Byte) : Prop := φ 0x01 = 0x01 ∧ φ 0x02 = 0x02 ∧ φ 0x03 = 0x03 ∧ φ 0x04 = 0x04

/-- The sum of the bytes a checksum is made of. -/
def sentSum (m : Msg) : Byte := byteSum ([0x01, m.id, 0x02] ++ m.payload ++ [0x03])

/-- The changed checksum is the checksum of the changed message. -/
def StaysRight (φ : Byte → Byte) (E : Envelope) (m : Msg) : Prop := E = .basicChecksum → φ (sentSum m) = sentSum (changed φ m)

instance (φ : Byte → Byte) (E : Envelope) (m : Msg) : Decidable (StaysRight φ E m) := by
  unfold StaysRight; exact inferInstance

theorem frame_changed {φ : Byte → Byte} (hφ : KeepsCodes φ) {E : Envelope} {m : Msg} (h : StaysRight φ E m) :
    (frame E m).map φ = frame E (changed φ m) := by
  obtain ⟨h1, h2, h3, h4⟩ := hφ
  cases E with
  | basic => simp [frame, changed, h1, h2, h3, h4]
  | basicChecksum =>
    have := h rfl
    unfold sentSum at this
    simp only [frame, List.map_append, List.map_cons, List.map_nil, h1, h2, h3, h4, this]
    rfl

theorem isMsg_changed {φ : Byte → Byte} {m : Msg} (hm : IsMsg C m) (hid : φ m.id = m.id) : IsMsg C (changed φ m) := by
  obtain ⟨t, ht, hl⟩ := hm
  exact ⟨t, by simpa [changed, hid] using ht, by simpa [changed] using hl⟩

/-- C126. The Basic envelope cannot notice that a line changes bytes systematically: if the codes and the ids are left
alone, every message is delivered, with the changed contents. -/
theorem C126_basic (hE : C.envelope = .basic) (S : Setting C B user) (hn : NeverThrows user) {ops : List Op} {w : World C}
    {os : List Obs} (h : Reached B user fuel (ops ++ [.process]) w os) (hh : w.rx.hasHandler = true) {φ : Byte → Byte}
    (hφ : KeepsCodes φ) {ms : List Msg} (hms : ∀ m ∈ ms, IsMsg C m) (hid : ∀ m ∈ ms, φ m.id = m.id)
    (hfed : w.fed = (frames C.envelope ms).map φ) :
    delivered w = (ms.map (changed φ)).map (meaning C) ∧ buffered w = [] := by
  refine polled_eq S hn h hh ⟨?_, Or.inl rfl⟩
  have e : (frames C.envelope ms).map φ = frames C.envelope (ms.map (changed φ)) := by
    unfold frames
    rw [List.map_flatten, List.map_map, List.map_map]
    congr 1
    refine List.map_congr_left fun m _ => ?_
    exact frame_changed hφ (fun hc => by rw [hE] at hc; exact absurd hc (by decide))
  rw [hfed, e]
  have := run_frames (C := C) (ms := ms.map (changed φ)) (by
    intro m hm
    obtain ⟨m0, h0, rfl⟩ := List.mem_map.mp hm
    exact isMsg_changed (hms m0 h0) (hid m0 h0)) []
  rwa [List.append_nil] at this

/-- After the change, the only start code is the first byte. -/
def PlainAfter (φ : Byte → Byte) (E : Envelope) (m : Msg) : Prop := ∀ b ∈ (frame E m).tail, φ b ≠ 0x01

theorem run_changed {φ : Byte → Byte} (hφ : KeepsCodes φ) (ms : List Msg) (hms : ∀ m ∈ ms, IsMsg C m)
    (hid : ∀ m ∈ ms, φ m.id = m.id) (hp : ∀ m ∈ ms, PlainAfter φ C.envelope m) :
    Run C ((frames C.envelope ms).map φ) ((ms.filter fun m => decide (StaysRight φ C.envelope m)).map (changed φ)) [] := by
  induction ms with
  | nil => exact Run.refl _
  | cons m ms ih =>
    have hm := hms m (by simp)
    have hi := hid m (by simp)
    have ih := ih (fun m' h' => hms m' (by simp [h'])) (fun m' h' => hid m' (by simp [h'])) (fun m' h' => hp m' (by simp [h']))
    rw [frames_cons, List.map_append]
    by_cases hs : StaysRight φ C.envelope m
    · rw [frame_changed hφ hs, List.filter_cons_of_pos (by simpa using hs)]
      exact Run.take (isMsg_changed hm hi) ih
    · rw [List.filter_cons_of_neg (by simpa using hs)]
      have hE : C.envelope = .basicChecksum := by
        apply Decidable.byContradiction
        intro hne
        exact hs fun hc => absurd hc hne
      have hlen : ((frame C.envelope m).map φ).length = (frame C.envelope m).length := List.length_map ..
      obtain ⟨tl, etl⟩ : ∃ tl, frame C.envelope m = 0x01 :: tl :=
        let ⟨t, e⟩ := frame_cons C.envelope m; ⟨_, e⟩
      have hplain : ∀ b ∈ tl.map φ, b ≠ 0x01 := by
        intro b hb
        obtain ⟨b0, h0, rfl⟩ := List.mem_map.mp hb
        exact hp m (by simp) b0 (by rw [etl]; exact h0)
      have e0 : (frame C.envelope m).map φ ++ (frames C.envelope ms).map φ =
          0x01 :: (tl.map φ ++ (frames C.envelope ms).map φ) := by
        rw [etl, List.map_cons, hφ.1]; rfl
      have h1 : ∀ u : List Byte, ((frame C.envelope m).map φ ++ u)[1]? = some m.id := by
        intro u
        have : ((frame C.envelope m).map φ)[1]? = some m.id := by
          rw [List.getElem?_map]
          have := frame_id C.envelope m []
          rw [List.append_nil] at this
          rw [this, Option.map_some, hi]
        rw [List.getElem?_append_left (List.getElem?_eq_some_iff.mp this).1, this]
      rw [e0]
      refine run_giveUp ?_ ?_ hplain ih
      · rw [← e0]
        rintro ⟨m', u, hm', e⟩
        have hid' : m'.id = m.id := by
          have a := h1 ((frames C.envelope ms).map φ)
          rw [e, frame_id] at a
          exact Option.some.inj a
        have hll : (frame C.envelope m').length = (frame C.envelope m).length := by
          have a := hm'.announced
          rw [hid', hm.announced] at a
          exact (Option.some.inj a).symm
        have hf := (List.append_inj e (by rw [hlen, hll])).1
        have hpl : m'.payload.length = m.payload.length := by
          rw [frame_length, frame_length] at hll
          omega
        apply hs
        intro _
        rw [hE] at hf
        simp only [frame, List.map_append, List.map_cons, List.map_nil, hφ.1, hφ.2.1, hφ.2.2.1, hφ.2.2.2, hi, hid',
          List.append_assoc, List.cons_append, List.nil_append, List.cons.injEq, true_and] at hf
        obtain ⟨hpp, hrest⟩ := List.append_inj hf (by simp [hpl])
        simp only [List.cons.injEq, true_and, and_true] at hrest
        simp only [sentSum, changed, hi, hpp, List.cons_append, List.nil_append]
        exact hrest
      · rw [← e0]
        refine not_waiting_of_length (h1 _) hm.announced ?_ ?_
        · rw [List.length_append, hlen, frame_length]
          cases C.envelope <;> simp [overhead] <;> omega
        · rw [List.length_append, hlen]; omega

/-- C126. With a checksum, exactly those messages are delivered, with the changed contents, whose changed checksum is the
checksum of the changed message; the others are lost, if after the change there are no further start codes. -/
theorem C126_checksum (S : Setting C B user) (hn : NeverThrows user) {ops : List Op} {w : World C}
    {os : List Obs} (h : Reached B user fuel (ops ++ [.process]) w os) (hh : w.rx.hasHandler = true) {φ : Byte → Byte}
    (hφ : KeepsCodes φ) {ms : List Msg} (hms : ∀ m ∈ ms, IsMsg C m) (hid : ∀ m ∈ ms, φ m.id = m.id)
    (hp : ∀ m ∈ ms, PlainAfter φ C.envelope m) (hfed : w.fed = (frames C.envelope ms).map φ) :
    delivered w = ((ms.filter fun m => decide (StaysRight φ C.envelope m)).map (changed φ)).map (meaning C) ∧
      buffered w = [] := by
  refine polled_eq S hn h hh ⟨?_, Or.inl rfl⟩
  rw [hfed]
  exact run_changed hφ ms hms hid hp

/-! ### Lines with seven bits -/

/-- The line has no eighth bit. -/
def sevenBits (b : Byte) : Byte := b &&& 0x7F

theorem sevenBits_keeps : KeepsCodes sevenBits := by unfold KeepsCodes; decide

theorem sevenBits_small : ∀ b : Byte, b < 0x80 ↔ sevenBits b = b := by
  intro b
  constructor
  · intro h
    apply UInt8.toNat_inj.mp
    unfold sevenBits
    rw [UInt8.toNat_and]
    have : b.toNat < 128 := h
    show b.toNat &&& 127 = _
    rw [show (127 : Nat) = 2 ^ 7 - 1 by decide, Nat.and_two_pow_sub_one_eq_mod, Nat.mod_eq_of_lt this]
  · intro h
    rw [← h]
    show (sevenBits b).toNat < 128
    unfold sevenBits
    rw [UInt8.toNat_and]
    exact Nat.lt_of_le_of_lt Nat.and_le_right (by decide)

/-- C126. On a line with seven bits, messages all of whose contents are below 128 pass the Basic envelope unchanged. With a
checksum, those of them are lost whose checksum is 128 or more, and only those. -/
theorem C126_seven_bits (S : Setting C B user) (hn : NeverThrows user) {ops : List Op} {w : World C}
    {os : List Obs} (h : Reached B user fuel (ops ++ [.process]) w os) (hh : w.rx.hasHandler = true)
    {ms : List Msg} (hms : ∀ m ∈ ms, IsMsg C m) (hid : ∀ m ∈ ms, m.id < 0x80) (hlow : ∀ m ∈ ms, ∀ b ∈ m.payload, b < 0x80)
    (hp : ∀ m ∈ ms, PlainAfter sevenBits C.envelope m) (hfed : w.fed = (frames C.envelope ms).map sevenBits) :
    delivered w = (ms.filter fun m => decide (C.envelope = .basicChecksum → sentSum m < 0x80)).map (meaning C) ∧
      buffered w = [] := by
  have hch : ∀ m ∈ ms, changed sevenBits m = m := by
    intro m hm
    have : m.payload.map sevenBits = m.payload := by
      conv => rhs; rw [← List.map_id m.payload]
      exact List.map_congr_left fun b hb => (sevenBits_small b).mp (hlow m hm b hb)
    unfold changed
    rw [this, (sevenBits_small m.id).mp (hid m hm)]
  obtain ⟨h1, h2⟩ := C126_checksum S hn h hh sevenBits_keeps hms (fun m hm => (sevenBits_small m.id).mp (hid m hm)) hp hfed
  refine ⟨?_, h2⟩
  rw [h1]
  congr 1
  have e : ms.filter (fun m => decide (StaysRight sevenBits C.envelope m)) =
      ms.filter fun m => decide (C.envelope = .basicChecksum → sentSum m < 0x80) := by
    refine List.filter_congr fun m hm => ?_
    rw [decide_eq_decide]
    unfold StaysRight
    rw [hch m hm, sevenBits_small]
  rw [e]
  conv => rhs; rw [← List.map_id (ms.filter _)]
  exact List.map_congr_left fun m hm => hch m (List.mem_filter.mp hm).1

/-! ### The hypotheses can be met -/

instance (φ : Byte → Byte) (E : Envelope) (m : Msg) : Decidable (PlainAfter φ E m) := by unfold PlainAfter; infer_instance

/-- A stuck line. -/
example : ∃ (w : World Sample.basic) (os : List Obs),
    Reached Sample.dbg Sample.passive 50
      ([.setHandler Sample.h0, .append (List.replicate 20 0x01), .process, .append (List.replicate 20 0x01), .process]) w os ∧
    delivered w = [] := by
  obtain ⟨w, os, h, _⟩ := Sample.reached (C := Sample.basic) (B := Sample.dbg) (user := Sample.passive) (fuel := 50)
    (ops := [.setHandler Sample.h0, .append (List.replicate 20 0x01), .process, .append (List.replicate 20 0x01), .process])
    (fun w _ => w.rx.hasHandler) (by decide +kernel)
  have hf := C25_fed_is_chunks Sample.setting_basic Sample.passive_quiet (by simp) h
  exact ⟨w, os, h, C126_lacking Sample.setting_basic Sample.passive_neverThrows h (c := 0x02) (by decide)
    (by rw [hf]; decide +kernel)⟩

/-- A line with seven bits: `0xB5` arrives as `0x35`. -/
example : ∃ (w : World Sample.basic) (os : List Obs),
    Reached Sample.dbg Sample.passive 50
      ([.setHandler Sample.h0, .append [1, 1, 2, 0x35, 3, 4, 1, 0], .process, .append [2, 3, 4]] ++ [.process]) w os ∧
    delivered w = ([⟨1, [0x35]⟩, ⟨0, []⟩] : List Msg).map (meaning Sample.basic) := by
  obtain ⟨w, os, h, hp⟩ := Sample.reached (C := Sample.basic) (B := Sample.dbg) (user := Sample.passive) (fuel := 50)
    (ops := [.setHandler Sample.h0, .append [1, 1, 2, 0x35, 3, 4, 1, 0], .process, .append [2, 3, 4]] ++ [.process])
    (fun w _ => w.rx.hasHandler) (by decide +kernel)
  have hf := C25_fed_is_chunks Sample.setting_basic Sample.passive_quiet (by simp) h
  exact ⟨w, os, h, (C126_basic rfl Sample.setting_basic Sample.passive_neverThrows h hp sevenBits_keeps
    (ms := [⟨1, [0xB5]⟩, ⟨0, []⟩])
    (by
      intro m hm
      simp only [List.mem_cons, List.not_mem_nil, or_false] at hm
      rcases hm with rfl | rfl
      · exact ⟨Sample.level, by decide, by decide⟩
      · exact ⟨Sample.ping, by decide, by decide⟩)
    (by decide) (by rw [hf]; decide +kernel)).1⟩

/-- With a checksum: the checksum of the second message is `0x87`, it is lost. -/
example : ∃ (w : World Sample.checked) (os : List Obs),
    Reached Sample.dbg Sample.passive 50
      ([.setHandler Sample.h0, .append [1, 0, 2, 3, 6, 4, 1, 2, 2, 0x7F, 0, 0, 0, 0, 0, 0, 3, 7, 4, 1, 0], .process,
        .append [2, 3, 6, 4]] ++ [.process]) w os ∧
    delivered w = ([⟨0, []⟩, ⟨0, []⟩] : List Msg).map (meaning Sample.checked) := by
  obtain ⟨w, os, h, hp⟩ := Sample.reached (C := Sample.checked) (B := Sample.dbg) (user := Sample.passive) (fuel := 50)
    (ops := [.setHandler Sample.h0, .append [1, 0, 2, 3, 6, 4, 1, 2, 2, 0x7F, 0, 0, 0, 0, 0, 0, 3, 7, 4, 1, 0], .process,
        .append [2, 3, 6, 4]] ++ [.process])
    (fun w _ => w.rx.hasHandler) (by decide +kernel)
  have hf := C25_fed_is_chunks Sample.setting_checked Sample.passive_quiet (by simp) h
  exact ⟨w, os, h, (C126_seven_bits Sample.setting_checked Sample.passive_neverThrows h hp
    (ms := [⟨0, []⟩, ⟨2, [0x7F, 0, 0, 0, 0, 0, 0]⟩, ⟨0, []⟩])
    (by
      intro m hm
      simp only [List.mem_cons, List.not_mem_nil, or_false] at hm
      rcases hm with rfl | rfl | rfl
      · exact ⟨Sample.ping, by decide, by decide⟩
      · exact ⟨Sample.pose, by decide, by decide⟩
      · exact ⟨Sample.ping, by decide, by decide⟩)
    (by decide) (by decide) (by decide) (by rw [hf]; decide +kernel)).1⟩

end TT.Properties
