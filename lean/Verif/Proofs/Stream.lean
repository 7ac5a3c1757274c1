import Verif.Spec.Stream

/-!
# Helper lemmas about the stream specification
-/

namespace TT.Spec

variable {C : Collection}

theorem byteSum_append (a b : List Byte) : byteSum (a ++ b) = byteSum a + byteSum b := by
  induction a with
  | nil => simp [byteSum]
  | cons x xs ih => simp [byteSum, ih, UInt8.add_assoc]

theorem frame_length (E : Envelope) (m : Msg) :
    (frame E m).length = overhead E + m.payload.length := by
  cases E <;> simp [frame, overhead] <;> omega

theorem frame_cons (E : Envelope) (m : Msg) :
    ∃ rest, frame E m = 0x01 :: m.id :: 0x02 :: rest := by
  cases E <;> simp [frame]

theorem frame_ne_nil (E : Envelope) (m : Msg) : frame E m ≠ [] := by
  obtain ⟨rest, h⟩ := frame_cons E m
  simp [h]

theorem IsMsg.announced {m : Msg} (h : IsMsg C m) :
    Spec.announced C m.id = some (frame C.envelope m).length := by
  obtain ⟨t, ht, hl⟩ := h
  simp [Spec.announced, ht, frame_length, hl]

theorem frame_inj {E : Envelope} {m m' : Msg} (h : frame E m = frame E m') : m = m' := by
  have hl := congrArg List.length h
  rw [frame_length, frame_length] at hl
  have hl' : m.payload.length = m'.payload.length := by omega
  cases m with | mk i p =>
  cases m' with | mk i' p' =>
  cases E
  · simp [frame] at h
    simp [h.1, h.2]
  · simp [frame] at h
    have := List.append_inj h.2 hl'
    simp [h.1, this.1]

theorem frame_append_inj {m m' : Msg} {s s' : List Byte} (h : IsMsg C m) (h' : IsMsg C m')
    (e : frame C.envelope m ++ s = frame C.envelope m' ++ s') : m = m' ∧ s = s' := by
  obtain ⟨r, hr⟩ := frame_cons C.envelope m
  obtain ⟨r', hr'⟩ := frame_cons C.envelope m'
  have hid : m.id = m'.id := by
    rw [hr, hr'] at e
    simp at e
    exact e.1
  have hl : (frame C.envelope m).length = (frame C.envelope m').length := by
    have h1 := h.announced
    rw [hid, h'.announced] at h1
    simpa using h1.symm
  have := List.append_inj e hl
  exact ⟨frame_inj this.1, this.2⟩

theorem not_waiting_frame {m : Msg} (h : IsMsg C m) (s : List Byte) :
    ¬ Waiting C (frame C.envelope m ++ s) := by
  obtain ⟨rest, hr⟩ := frame_cons C.envelope m
  intro hw
  have ha := h.announced
  rw [hr] at hw ha
  rcases hw with hw | ⟨id, _, hw⟩ | ⟨id, rest', n, hn, hw, hlt⟩
  · simp at hw
  · simp at hw
  · simp at hw
    rw [← hw.1, ha] at hn
    simp at hn hlt
    omega

theorem not_waiting_nil : ¬ Waiting C [] := by
  rintro (h | ⟨id, _, h⟩ | ⟨id, rest, n, _, h, _⟩) <;> simp at h

theorem starts_frame {m : Msg} (h : IsMsg C m) (s : List Byte) :
    Starts C (frame C.envelope m ++ s) := ⟨m, s, h, rfl⟩

theorem not_starts_nil : ¬ Starts C [] := by
  rintro ⟨m, t, _, h⟩
  have := frame_ne_nil C.envelope m
  simp at h
  exact this h.1

theorem Starts.not_waiting {s : List Byte} (h : Starts C s) : ¬ Waiting C s := by
  obtain ⟨m, t, hm, rfl⟩ := h
  exact not_waiting_frame hm t

theorem Starts.append {s : List Byte} (h : Starts C s) (t : List Byte) : Starts C (s ++ t) := by
  obtain ⟨m, u, hm, rfl⟩ := h
  exact ⟨m, u ++ t, hm, by simp⟩

theorem Waiting.of_append {s t : List Byte} (hs : s ≠ []) (h : Waiting C (s ++ t)) :
    Waiting C s := by
  rcases h with h | ⟨id, hv, h⟩ | ⟨id, rest, n, hn, h, hlt⟩
  · left
    cases s with
    | nil => exact absurd rfl hs
    | cons a s => simp at h; simp [h]
  · cases s with
    | nil => exact absurd rfl hs
    | cons a s =>
      cases s with
      | nil => left; simp at h; simp [h]
      | cons b s =>
        simp at h
        obtain ⟨rfl, rfl, rfl, _⟩ := h
        exact Or.inr (Or.inl ⟨_, hv, rfl⟩)
  · cases s with
    | nil => exact absurd rfl hs
    | cons a s =>
      cases s with
      | nil => left; simp at h; simp [h]
      | cons b s =>
        cases s with
        | nil =>
          simp at h
          obtain ⟨rfl, rfl, _⟩ := h
          refine Or.inr (Or.inl ⟨_, ?_, rfl⟩)
          intro h0
          simp [announced, h0] at hn
        | cons c s =>
          simp only [List.cons_append, List.cons.injEq] at h
          obtain ⟨rfl, rfl, rfl, _⟩ := h
          refine Or.inr (Or.inr ⟨_, _, n, hn, rfl, ?_⟩)
          simp at *
          omega

theorem Starts.of_append {s t : List Byte} (hs : s ≠ []) (h : Starts C (s ++ t)) :
    Starts C s ∨ Waiting C s := by
  obtain ⟨m, u, hm, e⟩ := h
  by_cases hle : (frame C.envelope m).length ≤ s.length
  · left
    refine ⟨m, s.drop (frame C.envelope m).length, hm, ?_⟩
    have h1 := congrArg (List.take (frame C.envelope m).length) e
    rw [List.take_append_of_le_length hle, List.take_left] at h1
    conv => lhs; rw [← List.take_append_drop (frame C.envelope m).length s]
    rw [h1]
  · right
    -- `s` is a proper prefix of the frame
    have hpre : s = (frame C.envelope m).take s.length := by
      have h1 := congrArg (List.take s.length) e
      rw [List.take_left, List.take_append_of_le_length (by omega)] at h1
      exact h1
    have ha := hm.announced
    obtain ⟨rest, hr⟩ := frame_cons C.envelope m
    cases s with
    | nil => exact absurd rfl hs
    | cons a s =>
      cases s with
      | nil => rw [hr] at hpre; left; simpa using hpre
      | cons b s =>
        cases s with
        | nil =>
          rw [hr] at hpre
          simp at hpre
          refine Or.inr (Or.inl ⟨m.id, ?_, by simp [hpre]⟩)
          intro h0
          simp [announced, h0] at ha
        | cons c s =>
          rw [hr] at hpre
          simp at hpre
          obtain ⟨rfl, rfl, rfl, _⟩ := hpre
          exact Or.inr (Or.inr ⟨m.id, s, _, ha, rfl, by omega⟩)

/-- A byte that is skipped stays skippable whatever follows. -/
theorem skip_stable {b : Byte} {s : List Byte} (h1 : ¬ Starts C (b :: s))
    (h2 : ¬ Waiting C (b :: s)) (t : List Byte) :
    ¬ Starts C (b :: s ++ t) ∧ ¬ Waiting C (b :: s ++ t) := by
  refine ⟨fun h => ?_, fun h => h2 (h.of_append (by simp))⟩
  rcases h.of_append (by simp) with h | h
  · exact h1 h
  · exact h2 h

theorem Run.trans {s r q : List Byte} {ms ns : List Msg} (h : Run C s ms r) (h' : Run C r ns q) :
    Run C s (ms ++ ns) q := by
  induction h with
  | refl => simpa using h'
  | take hm _ ih => exact Run.take hm (ih h')
  | skip a b _ ih => exact Run.skip a b (ih h')

/-- The scan of a longer stream starts like the scan of the shorter one. -/
theorem Run.append {s r : List Byte} {ms : List Msg} (h : Run C s ms r) (t : List Byte) :
    Run C (s ++ t) ms (r ++ t) := by
  induction h with
  | refl => exact Run.refl _
  | take hm _ ih => rw [List.append_assoc]; exact Run.take hm ih
  | skip a b _ ih =>
    obtain ⟨a', b'⟩ := skip_stable a b t
    exact Run.skip a' b' ih

theorem Run.length_le {s r : List Byte} {ms : List Msg} (h : Run C s ms r) :
    r.length ≤ s.length := by
  induction h with
  | refl => exact Nat.le_refl _
  | take _ _ ih => simp; omega
  | skip _ _ _ ih => simp; omega

theorem Run.isMsg {s r : List Byte} {ms : List Msg} (h : Run C s ms r) :
    ∀ m ∈ ms, IsMsg C m := by
  induction h with
  | refl => simp
  | take hm _ ih =>
    intro m h
    rcases List.mem_cons.mp h with rfl | h
    · exact hm
    · exact ih _ h
  | skip _ _ _ ih => exact ih

theorem Final.no_step {r q : List Byte} {ms : List Msg} (hf : Final C r) (h : Run C r ms q) :
    ms = [] ∧ q = r := by
  cases h with
  | refl => exact ⟨rfl, rfl⟩
  | take hm h =>
    rcases hf with hf | hf
    · have := frame_ne_nil C.envelope (by assumption)
      simp at hf
      exact absurd hf.1 this
    · exact absurd hf (not_waiting_frame hm _)
  | skip a b h =>
    rcases hf with hf | hf
    · simp at hf
    · exact absurd hf b

/-- Any partial scan can be continued to the complete one. -/
theorem Run.confluent {s r : List Byte} {ms : List Msg} (h : Run C s ms r) :
    ∀ {ms' : List Msg} {r' : List Byte}, Run C s ms' r' → Final C r' →
      ∃ ns, ms' = ms ++ ns ∧ Run C r ns r' := by
  induction h with
  | refl => intro ms' r' h' _; exact ⟨ms', rfl, h'⟩
  | take hm h ih =>
    rename_i m s0 r0 ms0
    intro ms' r' h' hf
    generalize hs : frame C.envelope m ++ s0 = s at h'
    cases h' with
    | refl =>
      subst hs
      rcases hf with hf | hf
      · have := frame_ne_nil C.envelope m
        simp at hf
        exact absurd hf.1 this
      · exact absurd hf (not_waiting_frame hm _)
    | take hm' h' =>
      obtain ⟨rfl, rfl⟩ := frame_append_inj hm hm' hs
      obtain ⟨ns, rfl, hr⟩ := ih h' hf
      exact ⟨ns, rfl, hr⟩
    | skip a b h' =>
      rw [← hs] at a
      exact absurd (starts_frame hm _) a
  | skip a b h ih =>
    rename_i b0 s0 r0 ms0
    intro ms' r' h' hf
    generalize hs : b0 :: s0 = s at h'
    cases h' with
    | refl =>
      subst hs
      rcases hf with hf | hf
      · simp at hf
      · exact absurd hf b
    | take hm' h' =>
      rw [hs] at a
      exact absurd (starts_frame hm' _) a
    | skip a' b' h' =>
      simp at hs
      obtain ⟨rfl, rfl⟩ := hs
      exact ih h' hf

theorem Decodes.unique {s r r' : List Byte} {ms ms' : List Msg} (h : Decodes C s ms r)
    (h' : Decodes C s ms' r') : ms = ms' ∧ r = r' := by
  obtain ⟨ns, rfl, hr⟩ := h.1.confluent h'.1 h'.2
  obtain ⟨rfl, rfl⟩ := h.2.no_step hr
  simp

theorem decodes_exists (C : Collection) (s : List Byte) : ∃ ms r, Decodes C s ms r := by
  generalize hn : s.length = n
  induction n using Nat.strongRecOn generalizing s with
  | ind n ih =>
    cases s with
    | nil => exact ⟨[], [], Run.refl _, Or.inl rfl⟩
    | cons b s =>
      by_cases hs : Starts C (b :: s)
      · obtain ⟨m, t, hm, e⟩ := hs
        have hpos := List.length_pos_iff.mpr (frame_ne_nil C.envelope m)
        have hl := congrArg List.length e
        simp only [List.length_append] at hl
        obtain ⟨ms, r, hr, hf⟩ := ih t.length (by omega) t rfl
        exact ⟨m :: ms, r, e ▸ Run.take hm hr, hf⟩
      · by_cases hw : Waiting C (b :: s)
        · exact ⟨[], b :: s, Run.refl _, Or.inr hw⟩
        · simp at hn
          obtain ⟨ms, r, hr, hf⟩ := ih s.length (by omega) s rfl
          exact ⟨ms, r, Run.skip hs hw hr, hf⟩

theorem frames_cons (E : Envelope) (m : Msg) (ms : List Msg) :
    frames E (m :: ms) = frame E m ++ frames E ms := rfl

theorem frames_append (E : Envelope) (ms ns : List Msg) :
    frames E (ms ++ ns) = frames E ms ++ frames E ns := by
  simp [frames]

theorem run_frames {ms : List Msg} (h : ∀ m ∈ ms, IsMsg C m) (s : List Byte) :
    Run C (frames C.envelope ms ++ s) ms s := by
  induction ms with
  | nil => exact Run.refl _
  | cons m ms ih =>
    rw [frames_cons, List.append_assoc]
    exact Run.take (h m (by simp)) (ih fun m' hm' => h m' (by simp [hm']))

end TT.Spec
