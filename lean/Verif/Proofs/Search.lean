import Verif.Proofs.Machine

/-!
# Helper lemmas about scanning particular streams (specification level only)
-/

namespace TT.Spec

variable {C : Collection}

/-- Bytes taken by messages never exceed the stream. -/
theorem Run.total_le {s r : List Byte} {ms : List Msg} (h : Run C s ms r) :
    (frames C.envelope ms).length + r.length ≤ s.length := by
  induction h with
  | refl => simp [frames]
  | take _ _ ih => rw [frames_cons]; simp only [List.length_append]; omega
  | skip _ _ _ ih => simp only [List.length_cons]; omega

/-- Every message taken is a contiguous piece. -/
theorem Run.piece {s r : List Byte} {ms : List Msg} (h : Run C s ms r) :
    ∀ m ∈ ms, ∃ pre post, s = pre ++ frame C.envelope m ++ post := by
  induction h with
  | refl => simp
  | @take m0 s r ms hm _ ih =>
    intro m hmem
    rcases List.mem_cons.mp hmem with rfl | hmem
    · exact ⟨[], s, by simp⟩
    · obtain ⟨pre, post, e⟩ := ih m hmem
      exact ⟨frame C.envelope m0 ++ pre, post, by rw [e]; simp⟩
  | @skip b s r ms _ _ _ ih =>
    intro m hmem
    obtain ⟨pre, post, e⟩ := ih m hmem
    exact ⟨b :: pre, post, by rw [e]; simp⟩

/-- The rest of a scan is a suffix. -/
theorem Run.suffix {s r : List Byte} {ms : List Msg} (h : Run C s ms r) : ∃ pre, s = pre ++ r := by
  induction h with
  | refl => exact ⟨[], rfl⟩
  | @take m s r ms _ _ ih =>
    obtain ⟨pre, e⟩ := ih
    exact ⟨frame C.envelope m ++ pre, by rw [e]; simp⟩
  | @skip b s r ms _ _ _ ih =>
    obtain ⟨pre, e⟩ := ih
    exact ⟨b :: pre, by rw [e]; rfl⟩

theorem not_starts_of_ne {b : Byte} (hb : b ≠ 0x01) (s : List Byte) : ¬ Starts C (b :: s) := by
  rintro ⟨m, t, _, e⟩
  obtain ⟨rest, hr⟩ := frame_cons C.envelope m
  rw [hr] at e
  simp at e
  exact hb e.1

theorem not_waiting_of_ne {b : Byte} (hb : b ≠ 0x01) (s : List Byte) : ¬ Waiting C (b :: s) := by
  rintro (e | ⟨id, _, e⟩ | ⟨id, rest, n, _, e, _⟩) <;> simp at e <;> exact hb e.1

/-- Bytes other than the start code are skipped. -/
theorem run_noise {noise : List Byte} (h : ∀ b ∈ noise, b ≠ 0x01) {s r : List Byte}
    {ms : List Msg} (hr : Run C s ms r) : Run C (noise ++ s) ms r := by
  induction noise with
  | nil => exact hr
  | cons b bs ih =>
    have hb := h b (by simp)
    exact Run.skip (not_starts_of_ne hb _) (not_waiting_of_ne hb _)
      (ih fun b' hb' => h b' (by simp [hb']))

/-- A proper prefix of a message is stuck. -/
theorem final_prefix {m : Msg} (hm : IsMsg C m) {k : Nat} (hk : k < (frame C.envelope m).length) :
    Final C ((frame C.envelope m).take k) := by
  by_cases h0 : (frame C.envelope m).take k = []
  · exact Or.inl h0
  · right
    have hs : Starts C ((frame C.envelope m).take k ++ (frame C.envelope m).drop k) := by
      rw [List.take_append_drop]
      exact ⟨m, [], hm, by simp⟩
    rcases hs.of_append h0 with h | h
    · exfalso
      obtain ⟨m', t, hm', e⟩ := h
      have e2 : frame C.envelope m' ++ (t ++ (frame C.envelope m).drop k) =
          frame C.envelope m ++ [] := by
        rw [← List.append_assoc, ← e, List.take_append_drop, List.append_nil]
      obtain ⟨rfl, _⟩ := frame_append_inj hm' hm e2
      have := congrArg List.length e
      simp only [List.length_take, List.length_append] at this
      omega
    · exact h

theorem final_length_lt {r : List Byte} (hne : C.messages ≠ []) (h : Final C r) :
    r.length < maxLen C := by
  obtain ⟨t, ht⟩ := List.exists_mem_of_ne_nil _ hne
  have hmax : ∀ t ∈ C.messages, overhead C.envelope + payloadSize t ≤ maxLen C := by
    intro t ht
    unfold maxLen
    generalize C.messages = l at ht
    induction l with
    | nil => simp at ht
    | cons a l ih =>
      simp only [List.map_cons, List.foldr_cons]
      rcases List.mem_cons.mp ht with rfl | h
      · exact Nat.le_max_left _ _
      · exact Nat.le_trans (ih h) (Nat.le_max_right _ _)
  have h5 := overhead_pos C.envelope
  have h6 := hmax t ht
  rcases h with rfl | rfl | ⟨id, _, rfl⟩ | ⟨id, rest, n, hn, _, hlt⟩
  · simp; omega
  · simp; omega
  · simp; omega
  · unfold announced at hn
    cases ht' : typeOf C id with
    | none => simp [ht'] at hn
    | some t' =>
      simp [ht'] at hn
      have := hmax t' (List.mem_of_getElem? ht')
      omega

/-- Resynchronisation. -/
theorem run_garbage (hne : C.messages ≠ []) (g rest : List Byte)
    (hin : ∀ i < g.length, ∀ m t, IsMsg C m → (g ++ rest).drop i = frame C.envelope m ++ t →
      i + (frame C.envelope m).length ≤ g.length)
    (hlen : maxLen C ≤ rest.length + 1) :
    ∃ gs, Run C (g ++ rest) gs rest := by
  generalize hn : g.length = n
  induction n using Nat.strongRecOn generalizing g with
  | ind n ih =>
    cases g with
    | nil => exact ⟨[], Run.refl _⟩
    | cons b g =>
      by_cases hs : Starts C (b :: g ++ rest)
      · obtain ⟨m, t, hm, e⟩ := hs
        have hle := hin 0 (by simp) m t hm (by simpa using e)
        have hpos := List.length_pos_iff.mpr (frame_ne_nil C.envelope m)
        obtain ⟨g', hg'⟩ : ∃ g', b :: g = frame C.envelope m ++ g' := by
          refine ⟨(b :: g).drop (frame C.envelope m).length, ?_⟩
          have h1 := congrArg (List.take (frame C.envelope m).length) e
          rw [List.take_append_of_le_length (by omega), List.take_left] at h1
          conv => lhs; rw [← List.take_append_drop (frame C.envelope m).length (b :: g)]
          rw [h1]
        have hl := congrArg List.length hg'
        simp only [List.length_append] at hl
        obtain ⟨gs, hgs⟩ := ih g'.length (by omega) g' (by
          intro i hi m' t' hm' e'
          have := hin ((frame C.envelope m).length + i) (by omega) m' t' hm' (by
            rw [hg', List.append_assoc, List.drop_length_add_append]
            exact e')
          omega) rfl
        exact ⟨m :: gs, by rw [hg', List.append_assoc]; exact Run.take hm hgs⟩
      · have hw : ¬ Waiting C (b :: g ++ rest) := by
          intro hw
          have := final_length_lt hne (Or.inr hw)
          simp only [List.length_append, List.length_cons] at this
          omega
        simp only [List.length_cons] at hn
        obtain ⟨gs, hgs⟩ := ih g.length (by omega) g (by
          intro i hi m' t' hm' e'
          have := hin (i + 1) (by simp; omega) m' t' hm' (by simpa using e')
          simp only [List.length_cons] at this
          omega) rfl
        exact ⟨gs, Run.skip hs hw hgs⟩

/-! ### Checksums -/

theorem byteSum_set {l : List Byte} {j : Nat} (hj : j < l.length) (b : Byte) :
    byteSum (l.set j b) + l[j] = byteSum l + b := by
  induction l generalizing j with
  | nil => simp at hj
  | cons x xs ih =>
    cases j with
    | zero =>
      simp only [List.set_cons_zero, byteSum, List.getElem_cons_zero]
      ac_rfl
    | succ j =>
      simp only [List.set_cons_succ, byteSum, List.getElem_cons_succ]
      have := ih (by simpa using hj)
      rw [UInt8.add_assoc, this]
      ac_rfl

/-- The byte before the last is the sum of those before it and the last one is EOT. -/
def Sealed (f : List Byte) : Prop :=
  f[f.length - 2]? = some (byteSum (f.take (f.length - 2))) ∧ f[f.length - 1]? = some 0x04

theorem sealed_frame (m : Msg) : Sealed (frame .basicChecksum m) := by
  have hf : frame .basicChecksum m = ([0x01, m.id, 0x02] ++ m.payload ++ [0x03]) ++
      [byteSum ([0x01, m.id, 0x02] ++ m.payload ++ [0x03]), 0x04] := by simp [frame]
  generalize [0x01, m.id, 0x02] ++ m.payload ++ [0x03] = body at hf
  rw [hf]
  constructor
  · rw [List.getElem?_append_right (by simp)]
    simp
  · rw [List.getElem?_append_right (by simp)]
    simp

theorem Sealed.set_ne {f f' : List Byte} (h6 : 6 ≤ f.length) (h : Sealed f) (h' : Sealed f')
    {j : Nat} {b x : Byte} (hx : f[j]? = some x) (hb : b ≠ x) : f.set j b ≠ f' := by
  rintro rfl
  obtain ⟨c1, c2⟩ := h
  obtain ⟨c1', c2'⟩ := h'
  obtain ⟨hj, hxj⟩ := List.getElem?_eq_some_iff.mp hx
  simp only [List.length_set] at c1' c2'
  by_cases h1 : j = f.length - 1
  · subst h1
    rw [List.getElem?_set_self hj] at c2'
    rw [hx] at c2
    simp at c2 c2'
    exact hb (c2'.trans c2.symm)
  · by_cases h2 : j = f.length - 2
    · subst h2
      rw [List.getElem?_set_self hj, List.take_set_of_le (by omega)] at c1'
      rw [hx, ← c1'] at c1
      simp at c1
      exact hb c1.symm
    · have hlt : j < f.length - 2 := by omega
      rw [List.getElem?_set_ne h2, c1, List.take_set] at c1'
      have := byteSum_set (l := f.take (f.length - 2)) (j := j) (by simp; omega) b
      simp only [Option.some.injEq] at c1'
      rw [← c1', List.getElem_take, hxj, UInt8.add_right_inj] at this
      exact hb this.symm

/-- One changed byte never gives another checksummed frame. -/
theorem set_ne_frame (m m' : Msg) {j : Nat} {b x : Byte}
    (hx : (frame .basicChecksum m)[j]? = some x) (hb : b ≠ x) :
    (frame .basicChecksum m).set j b ≠ frame .basicChecksum m' :=
  (sealed_frame m).set_ne (by rw [frame_length]; simp [overhead]) (sealed_frame m') hx hb

end TT.Spec
