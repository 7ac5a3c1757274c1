import Verif.Properties.ByteMap
import Verif.Properties.Repetition

/-!
# Property C127: a line that replaces bytes by several
-/

namespace TT.Properties
open Spec

variable {C : Collection} {B : Build} {user : UserCode} {fuel : Nat}

/-- What comes out of a line that puts `ψ b` in place of each byte `b`. -/
def through (ψ : Byte → List Byte) (s : List Byte) : List Byte := s.flatMap ψ

/-- What comes out for the message `m` begins with the message `m'`. -/
def TakenFor (C : Collection) (ψ : Byte → List Byte) (m m' : Msg) : Prop :=
  IsMsg C m' ∧ ∃ u, through ψ (frame C.envelope m) = frame C.envelope m' ++ u

/-- Each message is replaced by what it is taken for, or left out if it is taken for none. -/
inductive Passed (C : Collection) (ψ : Byte → List Byte) : List Msg → List Msg → Prop where
  | nil : Passed C ψ [] []
  | taken {m m' : Msg} {ms ms' : List Msg} : TakenFor C ψ m m' → Passed C ψ ms ms' → Passed C ψ (m :: ms) (m' :: ms')
  | lost {m : Msg} {ms ms' : List Msg} : (¬ ∃ m', TakenFor C ψ m m') → Passed C ψ ms ms' → Passed C ψ (m :: ms) ms'

/-- The start of a message comes out as it is, and no byte disappears; behind the start there are no start codes. -/
structure OrderlyLine (ψ : Byte → List Byte) (E : Envelope) (m : Msg) : Prop where
  start : ψ 0x01 = [0x01] ∧ ψ m.id = [m.id]
  grows : ∀ b, ψ b ≠ []
  plain : ∀ b ∈ (frame E m).tail, 0x01 ∉ ψ b

theorem through_length {ψ : Byte → List Byte} (h : ∀ b, ψ b ≠ []) (s : List Byte) : s.length ≤ (through ψ s).length := by
  induction s with
  | nil => simp
  | cons b s ih =>
    have : 0 < (ψ b).length := List.length_pos_iff.mpr (h b)
    simp only [through, List.flatMap_cons, List.length_append, List.length_cons] at ih ⊢
    omega

theorem run_through {ψ : Byte → List Byte} {ms ms' : List Msg} (hms : ∀ m ∈ ms, IsMsg C m)
    (ho : ∀ m ∈ ms, OrderlyLine ψ C.envelope m) (h : Passed C ψ ms ms') :
    Run C (through ψ (frames C.envelope ms)) ms' [] := by
  induction h with
  | nil => exact Run.refl _
  | @taken m m' ms ms' ht _ ih =>
    have ih := ih (fun m' h' => hms m' (by simp [h'])) (fun m' h' => ho m' (by simp [h']))
    obtain ⟨hm', u, e⟩ := ht
    have hsplit : through ψ (frames C.envelope (m :: ms)) =
        frame C.envelope m' ++ (u ++ through ψ (frames C.envelope ms)) := by
      rw [frames_cons]
      unfold through at e ⊢
      rw [List.flatMap_append, e, List.append_assoc]
    rw [hsplit]
    refine Run.take hm' (run_noise ?_ ih)
    intro b hb
    obtain ⟨t, et⟩ := frame_cons C.envelope m
    obtain ⟨t', et'⟩ := frame_cons C.envelope m'
    have hb' : b ∈ through ψ (m.id :: 0x02 :: t) := by
      have e' := e
      rw [et, et'] at e'
      unfold through at e' ⊢
      rw [List.flatMap_cons, (ho m (by simp)).start.1] at e'
      simp only [List.cons_append, List.nil_append, List.cons.injEq, true_and] at e'
      rw [e']
      simp [hb]
    obtain ⟨b0, h0, h1⟩ := List.mem_flatMap.mp hb'
    intro h2
    exact (ho m (by simp)).plain b0 (by rw [et]; exact h0) (h2 ▸ h1)
  | @lost m ms ms' hn _ ih =>
    have ih := ih (fun m' h' => hms m' (by simp [h'])) (fun m' h' => ho m' (by simp [h']))
    have hm := hms m (by simp)
    have o := ho m (by simp)
    obtain ⟨t, et⟩ := frame_cons C.envelope m
    have hsplit : through ψ (frames C.envelope (m :: ms)) =
        through ψ (frame C.envelope m) ++ through ψ (frames C.envelope ms) := by
      rw [frames_cons]
      unfold through
      rw [List.flatMap_append]
    have hX : through ψ (frame C.envelope m) = 0x01 :: through ψ (m.id :: 0x02 :: t) := by
      rw [et]
      unfold through
      rw [List.flatMap_cons, o.start.1]
      rfl
    have h1 : ∀ v, (through ψ (frame C.envelope m) ++ v)[1]? = some m.id := by
      intro v
      rw [hX]
      unfold through
      rw [List.flatMap_cons, o.start.2]
      rfl
    have hlen := through_length o.grows (frame C.envelope m)
    rw [hsplit]
    have hX' : through ψ (frame C.envelope m) ++ through ψ (frames C.envelope ms) =
        0x01 :: (through ψ (m.id :: 0x02 :: t) ++ through ψ (frames C.envelope ms)) := by
      rw [hX]; rfl
    rw [hX']
    refine run_giveUp ?_ ?_ ?_ ih
    · rw [← hX']
      rintro ⟨m', v, hm', e⟩
      have hid : m'.id = m.id := by
        have a := h1 (through ψ (frames C.envelope ms))
        rw [e, frame_id] at a
        exact Option.some.inj a
      have hl : (frame C.envelope m').length = (frame C.envelope m).length := by
        have a := hm'.announced
        rw [hid, hm.announced] at a
        exact (Option.some.inj a).symm
      refine hn ⟨m', hm', (through ψ (frame C.envelope m)).drop (frame C.envelope m').length, ?_⟩
      have h2 := congrArg (List.take (frame C.envelope m').length) e
      rw [List.take_append_of_le_length (by omega), List.take_left] at h2
      exact ((congrArg (· ++ _) h2).symm.trans (List.take_append_drop _ _)).symm
    · rw [← hX']
      refine not_waiting_of_length (h1 _) hm.announced ?_ ?_
      · have : 3 ≤ (frame C.envelope m).length := by rw [et]; simp
        rw [List.length_append]; omega
      · rw [List.length_append]; omega
    · intro b hb
      obtain ⟨b0, h0, h3⟩ := List.mem_flatMap.mp hb
      intro h2
      exact o.plain b0 (by rw [et]; exact h0) (h2 ▸ h3)

/-- C127. A line puts other bytes in place of each byte, at least one, but leaves starts of messages alone and makes no new
ones. Then each message is judged for itself: if what comes out for it begins with a message, that one is delivered, and
otherwise nothing; its neighbours do not suffer. -/
theorem C127_each (S : Setting C B user) (hn : NeverThrows user) {ops : List Op} {w : World C} {os : List Obs}
    (h : Reached B user fuel (ops ++ [.process]) w os) (hh : w.rx.hasHandler = true) {ψ : Byte → List Byte}
    {ms ms' : List Msg} (hms : ∀ m ∈ ms, IsMsg C m) (ho : ∀ m ∈ ms, OrderlyLine ψ C.envelope m) (hp : Passed C ψ ms ms')
    (hfed : w.fed = through ψ (frames C.envelope ms)) :
    delivered w = ms'.map (meaning C) ∧ buffered w = [] :=
  polled_eq S hn h hh ⟨by rw [hfed]; exact run_through hms ho hp, Or.inl rfl⟩

/-! ### Text mode -/

/-- A line feed comes out as a carriage return and a line feed. -/
def textMode (b : Byte) : List Byte := if b = 0x0A then [0x0D, 0x0A] else [b]

theorem textMode_id {s : List Byte} (h : ∀ b ∈ s, b ≠ 0x0A) : through textMode s = s := by
  induction s with
  | nil => rfl
  | cons b s ih =>
    unfold through at ih ⊢
    rw [List.flatMap_cons, ih fun b' hb => h b' (by simp [hb]), textMode, if_neg (h b (by simp))]
    rfl

theorem textMode_orderly {E : Envelope} {m : Msg} (hid : m.id ≠ 0x0A) (hp : Plain E m) : OrderlyLine textMode E m := by
  refine ⟨⟨by decide, if_neg hid⟩, ?_, ?_⟩
  · intro b
    unfold textMode
    split <;> simp
  · intro b hb
    have h1 : b ≠ 0x01 := hp b (by rw [List.drop_one]; exact hb)
    unfold textMode
    split
    · decide
    · simpa using fun e => h1 e.symm

/-- C127. On a line in text mode, messages without line feeds come through. -/
theorem C127_text_without {m : Msg} (hm : IsMsg C m) (h : ∀ b ∈ frame C.envelope m, b ≠ 0x0A) :
    TakenFor C textMode m m := ⟨hm, [], by rw [textMode_id h, List.append_nil]⟩

/-- C127. A message with one line feed, in its contents, is lost, with both envelopes. -/
theorem C127_text_one {m : Msg} {a b : List Byte} (he : m.payload = a ++ 0x0A :: b) (hid : m.id ≠ 0x0A)
    (ha : ∀ x ∈ a, x ≠ 0x0A) (hb : ∀ x ∈ b, x ≠ 0x0A)
    (hs : C.envelope = .basicChecksum → byteSum ([0x01, m.id, 0x02] ++ m.payload ++ [0x03]) ≠ 0x0A) (hm : IsMsg C m) :
    ¬ ∃ m', TakenFor C textMode m m' := by
  rintro ⟨m', hm', u, e⟩
  have hA : a.flatMap textMode = a := textMode_id ha
  have hB : b.flatMap textMode = b := textMode_id hb
  have hI : textMode m.id = [m.id] := if_neg hid
  have hids : m'.id = m.id ∧ m'.payload.length = m.payload.length := by
    have h1 : (through textMode (frame C.envelope m))[1]? = some m.id := by
      cases C.envelope <;> simp [frame, through, hI, show textMode 1 = [1] by decide]
    rw [e, frame_id] at h1
    have h2 := Option.some.inj h1
    refine ⟨h2, ?_⟩
    have h3 := hm'.announced
    rw [h2, hm.announced, frame_length, frame_length] at h3
    have := Option.some.inj h3
    omega
  obtain ⟨hid', hlen⟩ := hids
  have h1 : textMode 1 = [1] := by decide
  have h2 : textMode 2 = [2] := by decide
  have h3 : textMode 3 = [3] := by decide
  have h4 : textMode 4 = [4] := by decide
  have hL : textMode 0x0A = [0x0D, 0x0A] := by decide
  rw [he] at hlen
  simp only [List.length_append, List.length_cons] at hlen
  cases hE : C.envelope with
  | basic =>
    rw [hE] at e
    simp only [frame, through, he, hA, hB, hI, h1, h2, h3, h4, hL, hid', List.flatMap_append, List.flatMap_cons,
      List.flatMap_nil, List.append_assoc, List.cons_append, List.nil_append, List.append_nil, List.cons.injEq,
      true_and] at e
    -- the end of the message stands at the end of the text
    have h5 := congrArg (fun l => l[m'.payload.length + 1]?) e
    simp only [List.getElem?_append_right (Nat.le_add_right _ _), Nat.add_sub_cancel_left] at h5
    have h6 : (a ++ 0x0D :: 0x0A :: (b ++ [0x03, 0x04]))[m'.payload.length + 1]? = some 0x03 := by
      rw [List.getElem?_append_right (by omega), show m'.payload.length + 1 - a.length = b.length + 1 + 1 by omega]
      simp
    rw [h6] at h5
    exact absurd h5 (by simp)
  | basicChecksum =>
    have hs := hs hE
    have hS : textMode (byteSum ([0x01, m.id, 0x02] ++ m.payload ++ [0x03])) =
        [byteSum ([0x01, m.id, 0x02] ++ m.payload ++ [0x03])] := if_neg hs
    rw [hE] at e
    generalize hck : byteSum ([0x01, m.id, 0x02] ++ m.payload ++ [0x03]) = ck at hS
    generalize hck' : byteSum ([0x01, m'.id, 0x02] ++ m'.payload ++ [0x03]) = ck'
    simp only [frame, hck, hck'] at e
    simp only [through, he, hA, hB, hI, h1, h2, h3, h4, hL, hS, hid', List.flatMap_append, List.flatMap_cons,
      List.flatMap_nil, List.append_assoc, List.cons_append, List.nil_append, List.append_nil, List.cons.injEq,
      true_and] at e
    -- the last byte of the contents would be the end of the text
    cases hb' : b.reverse with
    | nil =>
      rw [List.reverse_eq_nil_iff] at hb'
      subst hb'
      have h5 := congrArg (fun l => l[m'.payload.length]?) e
      simp only [List.getElem?_append_right (Nat.le_refl _), Nat.sub_self] at h5
      have h6 : (a ++ 0x0D :: 0x0A :: ([] ++ [0x03, ck, 0x04]))[m'.payload.length]? = some 0x0A := by
        rw [List.getElem?_append_right (by omega), show m'.payload.length - a.length = 1 by simp at hlen; omega]
        simp
      simp only [List.nil_append] at h5 h6
      rw [h6] at h5
      exact absurd h5 (by simp)
    | cons l r =>
      have hbr : b = r.reverse ++ [l] := by
        have := congrArg List.reverse hb'
        simpa using this
      have e2 : m'.payload ++ (0x03 :: ck' :: 0x04 :: u) = (a ++ 0x0D :: 0x0A :: r.reverse) ++ (l :: 0x03 :: ck :: [0x04]) := by
        rw [hbr] at e
        simpa using e.symm
      have hl2 : m'.payload.length = (a ++ 0x0D :: 0x0A :: r.reverse).length := by
        rw [hbr] at hlen
        simp at hlen ⊢
        omega
      obtain ⟨e3, e4⟩ := List.append_inj e2 hl2
      simp only [List.cons.injEq] at e4
      obtain ⟨e5, e6, e7, _⟩ := e4
      -- the sums do not fit together
      rw [he, hbr] at hck
      rw [e3, hid'] at hck'
      simp only [byteSum_append, byteSum] at hck hck'
      rw [← e5] at hck
      rw [← e7] at hck
      rw [e6] at hck'
      generalize byteSum a = x at hck hck'
      generalize byteSum r.reverse = y at hck hck'
      generalize m.id = i at hck hck'
      have : (4 : Byte) + 0x0D = 3 + 3 := by
        rw [← hck]
        conv => rhs; lhs; rw [← hck']
        grind
      exact absurd this (by decide)

/-- C127. With more line feeds a message can come out as another one: here the contents 0A 0A 03 04 as 0D 0A 0D 0A. -/
theorem C127_text_forged_witness : ∃ (C : Collection) (m m' : Msg), C.envelope = .basic ∧ IsMsg C m ∧ Plain C.envelope m ∧
    m' ≠ m ∧ TakenFor C textMode m m' :=
  ⟨four, ⟨0, [0x0A, 0x0A, 0x03, 0x04]⟩, ⟨0, [0x0D, 0x0A, 0x0D, 0x0A]⟩, rfl, ⟨_, rfl, rfl⟩, by decide, by decide,
    ⟨_, rfl, rfl⟩, [0x03, 0x04], rfl⟩

/-- At most one line feed, and that in the contents. -/
def FewLines (E : Envelope) (m : Msg) : Prop :=
  m.id ≠ 0x0A ∧ (E = .basicChecksum → sentSum m ≠ 0x0A) ∧ m.payload.count 0x0A ≤ 1

instance (E : Envelope) (m : Msg) : Decidable (FewLines E m) := by unfold FewLines; infer_instance

theorem passed_text {ms : List Msg} (hms : ∀ m ∈ ms, IsMsg C m) (hf : ∀ m ∈ ms, FewLines C.envelope m) :
    Passed C textMode ms (ms.filter fun m => !m.payload.contains 0x0A) := by
  induction ms with
  | nil => exact .nil
  | cons m ms ih =>
    have ih := ih (fun m' h' => hms m' (by simp [h'])) (fun m' h' => hf m' (by simp [h']))
    have hm := hms m (by simp)
    obtain ⟨hid, hs, hc⟩ := hf m (by simp)
    by_cases hl : (0x0A : Byte) ∈ m.payload
    · rw [List.filter_cons_of_neg (by simpa using hl)]
      refine .lost ?_ ih
      obtain ⟨a, b, he⟩ := List.append_of_mem hl
      rw [he, List.count_append, List.count_cons_self] at hc
      refine C127_text_one he hid ?_ ?_ hs hm
      · rintro x hx rfl
        have := List.count_pos_iff.mpr hx
        omega
      · rintro x hx rfl
        have := List.count_pos_iff.mpr hx
        omega
    · rw [List.filter_cons_of_pos (by simpa using hl)]
      refine .taken (C127_text_without hm ?_) ih
      intro b hb
      revert hs
      cases hE : C.envelope with
      | basic =>
        intro _
        rw [hE] at hb
        simp only [frame, List.mem_append, List.mem_cons, List.not_mem_nil, or_false] at hb
        rcases hb with ((rfl | rfl | rfl) | h) | rfl | rfl
        · decide
        · exact hid
        · decide
        · exact fun e => hl (e ▸ h)
        · decide
        · decide
      | basicChecksum =>
        intro hs
        rw [hE] at hb
        simp only [frame, List.mem_append, List.mem_cons, List.not_mem_nil, or_false] at hb
        rcases hb with (((rfl | rfl | rfl) | h) | rfl) | rfl | rfl
        · decide
        · exact hid
        · decide
        · exact fun e => hl (e ▸ h)
        · decide
        · have := hs rfl
          simpa [sentSum] using this
        · decide

/-- C127. On a line in text mode, messages with at most one line feed in them: exactly those without come through. -/
theorem C127_text (S : Setting C B user) (hn : NeverThrows user) {ops : List Op} {w : World C} {os : List Obs}
    (h : Reached B user fuel (ops ++ [.process]) w os) (hh : w.rx.hasHandler = true)
    {ms : List Msg} (hms : ∀ m ∈ ms, IsMsg C m) (hp : ∀ m ∈ ms, Plain C.envelope m) (hf : ∀ m ∈ ms, FewLines C.envelope m)
    (hfed : w.fed = through textMode (frames C.envelope ms)) :
    delivered w = (ms.filter fun m => !m.payload.contains 0x0A).map (meaning C) ∧ buffered w = [] :=
  C127_each S hn h hh hms (fun m hm => textMode_orderly (hf m hm).1 (hp m hm)) (passed_text hms hf) hfed

/-- It happens: the middle message has a line feed in it. -/
example : ∃ (w : World Sample.checked) (os : List Obs),
    Reached Sample.dbg Sample.passive 50
      ([.setHandler Sample.h0, .append [1, 0, 2, 3, 6, 4, 1, 2, 2, 0, 0x0D, 0x0A, 0, 0, 0, 0, 0, 3, 0x12, 4, 1, 0], .process,
        .append [2, 3, 6, 4]] ++ [.process]) w os ∧
    delivered w = ([⟨0, []⟩, ⟨0, []⟩] : List Msg).map (meaning Sample.checked) := by
  obtain ⟨w, os, h, hp⟩ := Sample.reached (C := Sample.checked) (B := Sample.dbg) (user := Sample.passive) (fuel := 50)
    (ops := [.setHandler Sample.h0, .append [1, 0, 2, 3, 6, 4, 1, 2, 2, 0, 0x0D, 0x0A, 0, 0, 0, 0, 0, 3, 0x12, 4, 1, 0], .process,
        .append [2, 3, 6, 4]] ++ [.process])
    (fun w _ => w.rx.hasHandler) (by decide +kernel)
  have hf := C25_fed_is_chunks Sample.setting_checked Sample.passive_quiet (by simp) h
  exact ⟨w, os, h, (C127_text Sample.setting_checked Sample.passive_neverThrows h hp
    (ms := [⟨0, []⟩, ⟨2, [0, 0x0A, 0, 0, 0, 0, 0]⟩, ⟨0, []⟩])
    (by
      intro m hm
      simp only [List.mem_cons, List.not_mem_nil, or_false] at hm
      rcases hm with rfl | rfl | rfl
      · exact ⟨Sample.ping, by decide, by decide⟩
      · exact ⟨Sample.pose, by decide, by decide⟩
      · exact ⟨Sample.ping, by decide, by decide⟩)
    (by decide) (by decide) (by rw [hf]; decide +kernel)).1⟩

end TT.Properties
