import Verif.Proofs.CustomEnvelope
import Verif.Proofs.Search

/-!
# Helper lemmas: the shipped envelopes as programs over the buffer's interface
-/

namespace TT
open Spec

variable {C : Collection}

theorem asCustom_typeAt (id : Byte) : typeAt C.asCustom id = typeOf C id := rfl

theorem asCustom_lengthAt (id : Byte) : lengthAt C.asCustom id = announced C id := by
  simp only [lengthAt, announced, asCustom_typeAt, ← overheadSize_eq]
  rfl

theorem asCustom_capacity : customCapacity C.asCustom = capacity C := by
  simp [customCapacity, capacity, maxLen, Collection.asCustom, overheadSize_eq]

theorem effect_skipTo (k : EnvCode) (xs : List Byte) : ∀ (fuel : Nat) (cur : Option Byte),
    xs.length ≤ fuel → effect C.asCustom (.skipTo fuel k) xs cur =
      effect C.asCustom k (xs.dropWhile (· != 0x01)) cur := by
  induction xs with
  | nil =>
    intro fuel cur _
    cases fuel with
    | zero => rfl
    | succ fuel => simp [EnvCode.skipTo, effect]
  | cons x xs ih =>
    intro fuel cur hf
    cases fuel with
    | zero => simp at hf
    | succ fuel =>
      by_cases hx : x = 0x01
      · simp [EnvCode.skipTo, effect, hx, SOH]
      · rw [List.dropWhile_cons_of_pos (by simpa using hx)]
        have hx' : x ≠ SOH := hx
        simp [EnvCode.skipTo, effect, hx', ih fuel cur (by simpa using hf)]

theorem effect_sum (k : Byte → EnvCode) (xs : List Byte) (cur : Option Byte) (n : Nat) :
    ∀ (ck : Byte) (i : Nat), i + n ≤ xs.length →
    effect C.asCustom (.sum ck i k n) xs cur =
      effect C.asCustom (k (ck + byteSum ((xs.drop i).take n))) xs cur := by
  induction n with
  | zero => intro ck i _; simp [EnvCode.sum, byteSum]
  | succ n ih =>
    intro ck i hle
    have hi : i < xs.length := by omega
    simp only [EnvCode.sum, effect, List.getElem?_eq_getElem hi]
    rw [ih _ _ (by omega), List.drop_eq_getElem_cons hi, List.take_succ_cons]
    simp [byteSum, UInt8.add_assoc]

/-- Where a check ends: at a message, with its id set, or where the scan is stuck. -/
structure StopsAt (C : Collection) (xs ys : List Byte) (cur : Option Byte) (found : Bool) : Prop where
  run : Run C xs [] ys
  hit : found = true → ∃ m t, IsMsg C m ∧ ys = frame C.envelope m ++ t ∧ cur = some m.id
  miss : found = false → Final C ys

theorem effect_shipped (k : Nat) : ∀ (xs : List Byte) (cur : Option Byte) (d : Nat), xs.length ≤ k →
    xs.length < d → ∃ ys cur' found,
      effect C.asCustom (.shipped C.envelope d) xs cur = some (ys, cur', found) ∧
      StopsAt C xs ys cur' found := by
  induction k with
  | zero =>
    intro xs cur d hk hd
    have : xs = [] := List.length_eq_zero_iff.mp (by omega)
    subst this
    obtain ⟨d, rfl⟩ : ∃ n, d = n + 1 := ⟨d - 1, by simp at hd; omega⟩
    refine ⟨[], cur, false, ?_, Run.refl _, by simp, fun _ => Or.inl rfl⟩
    unfold EnvCode.shipped
    rw [effect_skipTo _ _ _ _ (by simp)]
    simp [effect]
  | succ k ih =>
    intro xs cur d hk hd
    obtain ⟨d, rfl⟩ : ∃ n, d = n + 1 := ⟨d - 1, by omega⟩
    unfold EnvCode.shipped
    rw [effect_skipTo _ _ _ _ (by omega)]
    have hrun := run_dropWhile (C := C) xs
    have hlen := hrun.length_le
    have hhead : ∀ b bs, xs.dropWhile (· != 0x01) = b :: bs → b = 0x01 := by
      intro b bs e
      have := List.head?_dropWhile_not (fun b : Byte => b != 0x01) xs
      rw [e] at this
      simpa using this
    generalize xs.dropWhile (· != 0x01) = ys at *
    have retry : ∀ (zs : List Byte) (cur : Option Byte), ys = 0x01 :: zs → ¬ Starts C (0x01 :: zs) →
        ¬ Waiting C (0x01 :: zs) → ∃ ws cur' found,
          effect C.asCustom (.pop 1 (.shipped C.envelope d)) (0x01 :: zs) cur = some (ws, cur', found) ∧
          StopsAt C xs ws cur' found := by
      intro zs cur hys hns hnw
      rw [hys] at hrun hlen
      simp only [List.length_cons] at hlen
      obtain ⟨ws, cur', found, e, hr, ht, hf⟩ := ih zs cur d (by omega) (by omega)
      exact ⟨ws, cur', found, by simpa [effect] using e, hrun.trans (Run.skip hns hnw hr), ht, hf⟩
    cases ys with
    | nil =>
      exact ⟨[], cur, false, by simp [effect], hrun, by simp, fun _ => Or.inl rfl⟩
    | cons b ys =>
      obtain rfl := hhead b ys rfl
      cases ys with
      | nil =>
        exact ⟨[0x01], cur, false, by simp [effect], hrun, by simp, fun _ => Or.inr (Or.inl rfl)⟩
      | cons id ys =>
        cases ht : typeOf C id with
        | none =>
          obtain ⟨ws, cur', found, e, h⟩ := retry (id :: ys) none rfl
            (by
              rintro ⟨m, t, ⟨ty, hty, _⟩, e⟩
              obtain ⟨rest, hr⟩ := frame_cons C.envelope m
              rw [hr] at e
              simp at e
              rw [← e.1, ht] at hty
              simp at hty)
            (by
              rintro (e | ⟨i, hi, e⟩ | ⟨i, rest, n, hn, e, _⟩)
              · simp at e
              · simp at e
                rw [← e.1] at hi
                exact hi ht
              · simp at e
                rw [← e.1] at hn
                simp [announced, ht] at hn)
          refine ⟨ws, cur', found, ?_, h⟩
          rw [← e]
          simp [effect, asCustom_typeAt, ht, show ¬ ys.length + 1 + 1 < 2 by omega]
        | some ty =>
          have ha : announced C id = some (overhead C.envelope + payloadSize ty) := by
            simp [announced, ht]
          generalize overhead C.envelope + payloadSize ty = n at ha
          cases ys with
          | nil =>
            refine ⟨[0x01, id], some id, false, by simp [effect, asCustom_typeAt, ht], hrun, by simp,
              fun _ => Or.inr (Or.inr (Or.inl ⟨id, by simp [ht], rfl⟩))⟩
          | cons c ys =>
            by_cases hstx : c = 0x02
            · subst hstx
              by_cases hlt : ys.length + 3 < n
              · refine ⟨0x01 :: id :: 0x02 :: ys, some id, false, ?_, hrun, by simp,
                  fun _ => Or.inr (Or.inr (Or.inr ⟨id, ys, n, ha, rfl, by simpa using hlt⟩))⟩
                have : ys.length + 1 + 1 + 1 < n := by omega
                simp [effect, asCustom_typeAt, ht, STX, asCustom_lengthAt, ha, this,
                  show ¬ ys.length + 1 + 1 + 1 < 2 by omega, show ¬ ys.length + 1 + 1 + 1 < 3 by omega]
              · have hnlt : ¬ ys.length + 1 + 1 + 1 < n := by omega
                have hge := announced_ge ha
                have miss : ¬ Starts C (0x01 :: id :: 0x02 :: ys) → ∃ ws cur' found,
                    effect C.asCustom (.pop 1 (.shipped C.envelope d)) (0x01 :: id :: 0x02 :: ys) (some id)
                      = some (ws, cur', found) ∧ StopsAt C xs ws cur' found := by
                  intro hns
                  refine retry (id :: 0x02 :: ys) (some id) rfl hns ?_
                  rintro (e | ⟨i, hi, e⟩ | ⟨i, rest, n', hn, e, hlt'⟩)
                  · simp at e
                  · simp at e
                  · simp only [List.cons.injEq, true_and] at e
                    rw [← e.1, ha] at hn
                    simp at hn hlt'
                    omega
                have hit : Starts C (0x01 :: id :: 0x02 :: ys) →
                    StopsAt C xs (0x01 :: id :: 0x02 :: ys) (some id) true := by
                  rintro ⟨m, t, hm, e⟩
                  refine ⟨hrun, fun _ => ⟨m, t, hm, e, ?_⟩, by simp⟩
                  obtain ⟨rest, hr⟩ := frame_cons C.envelope m
                  rw [hr] at e
                  simp at e
                  rw [e.1]
                cases hE : C.envelope with
                | basic =>
                  have hiff := starts_iff_basic hE ha (by omega) (rest := ys)
                  rw [hE] at hge miss
                  simp only [overhead] at hge
                  have hl : n ≤ (0x01 :: id :: 0x02 :: ys).length := by simp; omega
                  simp only [effect, List.length_cons, List.getElem?_cons_succ, List.getElem?_cons_zero,
                    asCustom_typeAt, ht, Option.isSome_some, if_true, Bool.not_true, Bool.false_eq_true,
                    if_false, STX, ne_eq, not_true_eq_false, Option.bind_some, asCustom_lengthAt, ha,
                    hnlt, show ¬ ys.length + 1 + 1 + 1 < 2 by omega,
                    show ¬ ys.length + 1 + 1 + 1 < 3 by omega]
                  generalize (0x01 :: id :: 0x02 :: ys) = zs at *
                  rw [List.getElem?_eq_getElem (by omega), List.getElem?_eq_getElem (by omega)] at hiff
                  rw [List.getElem?_eq_getElem (by omega)]
                  simp only [Option.some.injEq, ETX, EOT] at hiff ⊢
                  by_cases h3 : zs[n - 2] = 0x03
                  · by_cases h4 : zs[n - 1] = 0x04
                    · refine ⟨zs, some id, true, ?_, hit (hiff.mpr ⟨h3, h4⟩)⟩
                      simp only [h3, not_true_eq_false, if_false, effect]
                      rw [List.getElem?_eq_getElem (by omega)]
                      simp [h4, effect]
                    · obtain ⟨ws, cur', found, e, h⟩ := miss (fun h => h4 (hiff.mp h).2)
                      refine ⟨ws, cur', found, ?_, h⟩
                      rw [← e]
                      simp only [h3, not_true_eq_false, if_false, effect]
                      rw [List.getElem?_eq_getElem (by omega)]
                      simp [h4, effect]
                  · obtain ⟨ws, cur', found, e, h⟩ := miss (fun h => h3 (hiff.mp h).1)
                    refine ⟨ws, cur', found, ?_, h⟩
                    rw [← e]
                    simp [h3, effect]
                | basicChecksum =>
                  have hiff := starts_iff_checksum hE ha (by omega) (rest := ys)
                  rw [hE] at hge miss
                  simp only [overhead] at hge
                  have hl : n ≤ (0x01 :: id :: 0x02 :: ys).length := by simp; omega
                  simp only [effect, List.length_cons, List.getElem?_cons_succ, List.getElem?_cons_zero,
                    asCustom_typeAt, ht, Option.isSome_some, if_true, Bool.not_true, Bool.false_eq_true,
                    if_false, STX, ne_eq, not_true_eq_false, Option.bind_some, asCustom_lengthAt, ha,
                    hnlt, show ¬ ys.length + 1 + 1 + 1 < 2 by omega,
                    show ¬ ys.length + 1 + 1 + 1 < 3 by omega]
                  generalize (0x01 :: id :: 0x02 :: ys) = zs at *
                  rw [List.getElem?_eq_getElem (by omega), List.getElem?_eq_getElem (by omega),
                    List.getElem?_eq_getElem (by omega)] at hiff
                  rw [List.getElem?_eq_getElem (by omega)]
                  simp only [Option.some.injEq, ETX, EOT] at hiff ⊢
                  by_cases h3 : zs[n - 3] = 0x03
                  · by_cases h4 : zs[n - 1] = 0x04
                    · by_cases h5 : zs[n - 2] = byteSum (zs.take (n - 2))
                      · refine ⟨zs, some id, true, ?_, hit (hiff.mpr ⟨h3, h4, h5⟩)⟩
                        simp only [h3, not_true_eq_false, if_false, effect]
                        rw [List.getElem?_eq_getElem (by omega)]
                        simp only [h4, not_true_eq_false, if_false]
                        rw [effect_sum _ _ _ _ _ _ (by omega)]
                        simp only [effect]
                        rw [List.getElem?_eq_getElem (by omega)]
                        simp [h5, effect]
                      · obtain ⟨ws, cur', found, e, h⟩ := miss (fun h => h5 (hiff.mp h).2.2)
                        refine ⟨ws, cur', found, ?_, h⟩
                        rw [← e]
                        simp only [h3, not_true_eq_false, if_false, effect]
                        rw [List.getElem?_eq_getElem (by omega)]
                        simp only [h4, not_true_eq_false, if_false]
                        rw [effect_sum _ _ _ _ _ _ (by omega)]
                        simp only [effect]
                        rw [List.getElem?_eq_getElem (by omega)]
                        simp [Ne.symm h5, effect]
                    · obtain ⟨ws, cur', found, e, h⟩ := miss (fun h => h4 (hiff.mp h).2.1)
                      refine ⟨ws, cur', found, ?_, h⟩
                      rw [← e]
                      simp only [h3, not_true_eq_false, if_false, effect]
                      rw [List.getElem?_eq_getElem (by omega)]
                      simp [h4, effect]
                  · obtain ⟨ws, cur', found, e, h⟩ := miss (fun h => h3 (hiff.mp h).1)
                    refine ⟨ws, cur', found, ?_, h⟩
                    rw [← e]
                    simp [h3, effect]
            · obtain ⟨ws, cur', found, e, h⟩ := retry (id :: c :: ys) (some id) rfl
                (by
                  rintro ⟨m, t, _, e⟩
                  obtain ⟨rest, hr⟩ := frame_cons C.envelope m
                  rw [hr] at e
                  simp at e
                  exact hstx e.2.1)
                (by
                  rintro (e | ⟨i, hi, e⟩ | ⟨i, rest, n', hn, e, hlt'⟩)
                  · simp at e
                  · simp at e
                  · simp only [List.cons.injEq, true_and] at e
                    exact hstx e.2.1)
              refine ⟨ws, cur', found, ?_, h⟩
              rw [← e]
              simp [effect, asCustom_typeAt, ht, STX, hstx,
                show ¬ ys.length + 1 + 1 + 1 < 2 by omega, show ¬ ys.length + 1 + 1 + 1 < 3 by omega]

/-! ### The scan of a shipped envelope -/

/-- A scan from which nothing is delivered ends in one place only. -/
theorem stop_unique {xs ys ys' : List Byte} {ms : List Msg} (h : Run C xs ms ys) : ms = [] →
    Starts C ys ∨ Final C ys → Run C xs [] ys' → Starts C ys' ∨ Final C ys' → ys = ys' := by
  have stuck : ∀ {b : Byte} {s : List Byte}, ¬ Starts C (b :: s) → ¬ Waiting C (b :: s) →
      ¬ (Starts C (b :: s) ∨ Final C (b :: s)) := by
    rintro b s h1 h2 (h | h | h)
    · exact h1 h
    · cases h
    · exact h2 h
  induction h with
  | refl s =>
    intro _ hs h' _
    generalize hm : ([] : List Msg) = ms at h'
    cases h' with
    | refl => rfl
    | take => cases hm
    | skip h1 h2 _ => exact absurd hs (stuck h1 h2)
  | take => intro h; cases h
  | @skip b s r ms h1 h2 _ ih =>
    intro hm hs h' hs'
    generalize hn : ([] : List Msg) = ns at h'
    generalize hx : b :: s = xs at h'
    cases h' with
    | refl => subst hx; exact absurd hs' (stuck h1 h2)
    | take => cases hn
    | skip _ _ h' => cases hx; subst hn; exact ih hm hs h' hs'

/-- Where the first scan of `xs` ends, and the id of the message there. -/
def FirstStop (C : Collection) (xs ys : List Byte) (id : Option Byte) : Prop :=
  Run C xs [] ys ∧
    match id with
    | some id => ∃ m t, IsMsg C m ∧ ys = frame C.envelope m ++ t ∧ m.id = id
    | none => Final C ys

theorem StopsAt.first {xs ys : List Byte} {cur : Option Byte} {found : Bool}
    (h : StopsAt C xs ys cur found) : FirstStop C xs ys (if found then cur else none) := by
  refine ⟨h.run, ?_⟩
  cases found with
  | true =>
    obtain ⟨m, t, hm, e, hc⟩ := h.hit rfl
    simp only [if_true, hc]
    exact ⟨m, t, hm, e, rfl⟩
  | false => exact h.miss rfl

theorem FirstStop.stop {xs ys : List Byte} {id : Option Byte} (h : FirstStop C xs ys id) :
    Starts C ys ∨ Final C ys := by
  cases id with
  | some id =>
    obtain ⟨_, m, t, hm, e, _⟩ := h
    exact Or.inl ⟨m, t, hm, e⟩
  | none => exact Or.inr h.2

theorem final_not_starts {ys : List Byte} (hf : Final C ys) : ¬ Starts C ys := by
  intro hs
  rcases hf with rfl | hw
  · exact not_starts_nil hs
  · exact hs.not_waiting hw

theorem FirstStop.unique {xs ys ys' : List Byte} {id id' : Option Byte} (h : FirstStop C xs ys id)
    (h' : FirstStop C xs ys' id') : ys = ys' ∧ id = id' := by
  obtain rfl := stop_unique h.1 rfl h.stop h'.1 h'.stop
  refine ⟨rfl, ?_⟩
  cases id with
  | some id =>
    obtain ⟨_, m, t, hm, e, rfl⟩ := h
    cases id' with
    | some id' =>
      obtain ⟨_, m', t', hm', e', rfl⟩ := h'
      rw [e] at e'
      rw [(frame_append_inj hm hm' e').1]
    | none => exact absurd ⟨m, t, hm, e⟩ (final_not_starts h'.2)
  | none =>
    cases id' with
    | some id' =>
      obtain ⟨_, m, t, hm, e, _⟩ := h'
      exact absurd ⟨m, t, hm, e⟩ (final_not_starts h.2)
    | none => rfl

theorem firstStop_exists (C : Collection) (xs : List Byte) :
    ∃ p : List Byte × Option Byte, FirstStop C xs p.1 p.2 := by
  obtain ⟨ys, cur, found, _, h⟩ := effect_shipped (C := C) xs.length xs none (xs.length + 1)
    (Nat.le_refl _) (by omega)
  exact ⟨(ys, _), h.first⟩

/-- The scan of a shipped envelope. -/
noncomputable def shippedScan (C : Collection) : Scan := fun xs =>
  (xs.length - (Classical.choose (firstStop_exists C xs)).1.length,
    (Classical.choose (firstStop_exists C xs)).2)

theorem drop_suffix {pre r : List Byte} : (pre ++ r).drop ((pre ++ r).length - r.length) = r := by
  rw [List.length_append, Nat.add_sub_cancel, List.drop_left]

theorem shippedScan_spec (C : Collection) (xs : List Byte) :
    FirstStop C xs (xs.drop (shippedScan C xs).1) (shippedScan C xs).2 ∧
      (shippedScan C xs).1 ≤ xs.length := by
  have h := Classical.choose_spec (firstStop_exists C xs)
  obtain ⟨pre, e⟩ := h.1.suffix
  have : xs.drop (shippedScan C xs).1 = (Classical.choose (firstStop_exists C xs)).1 := by
    unfold shippedScan
    simp only
    generalize (Classical.choose (firstStop_exists C xs)).1 = r at *
    rw [e]
    exact drop_suffix
  rw [this]
  exact ⟨h, by unfold shippedScan; simp⟩

theorem shippedScan_eq {xs : List Byte} {n : Nat} {id : Option Byte} (hn : n ≤ xs.length)
    (h : FirstStop C xs (xs.drop n) id) : shippedScan C xs = (n, id) := by
  obtain ⟨hs, hl⟩ := shippedScan_spec C xs
  obtain ⟨h1, h2⟩ := hs.unique h
  have := congrArg List.length h1
  simp at this
  exact Prod.ext (by simp; omega) h2

theorem shipped_implements (C : Collection) : Implements C.asCustom (shippedScan C) := by
  intro xs cur _
  obtain ⟨ys, cur', found, e, h⟩ := effect_shipped (C := C) xs.length xs cur (xs.length + 1)
    (Nat.le_refl _) (by omega)
  obtain ⟨hs, hl⟩ := shippedScan_spec C xs
  obtain ⟨h1, h2⟩ := hs.unique h.first
  refine ⟨cur', ?_, ?_⟩
  · rw [h1, h2]
    show effect C.asCustom (.shipped C.envelope (xs.length + 1)) xs cur = _
    rw [e]
    cases found with
    | true =>
      obtain ⟨m, t, _, _, hc⟩ := h.hit rfl
      simp [hc]
    | false => rfl
  · rw [h2]
    cases found with
    | true => intro _; rfl
    | false => simp

theorem shipped_proper (C : Collection) : Proper C.asCustom (shippedScan C) where
  overhead := by
    have := overhead_ge C.envelope
    rw [← overheadSize_eq] at this
    show 0 < C.envelope.overheadSize
    omega
  offset := by
    have := overhead_ge C.envelope
    rw [← overheadSize_eq] at this
    show C.envelope.dataOffset ≤ C.envelope.overheadSize
    rw [dataOffset_eq]
    omega
  within := fun xs => (shippedScan_spec C xs).2
  whole := by
    intro xs n id hx
    obtain ⟨⟨_, hs⟩, hl⟩ := shippedScan_spec C xs
    rw [hx] at hs hl
    obtain ⟨m, t, hm, e, rfl⟩ := hs
    refine ⟨_, by rw [asCustom_lengthAt]; exact hm.announced, ?_⟩
    have := congrArg List.length e
    simp at this hl
    omega

theorem shipped_settled (C : Collection) : Settled (shippedScan C) := by
  intro xs n id hx
  obtain ⟨⟨hr, hs⟩, hl⟩ := shippedScan_spec C xs
  rw [hx] at hs
  exact shippedScan_eq (by omega) ⟨by simpa using Run.refl _, by simpa using hs⟩

theorem shipped_online (C : Collection) : Online (shippedScan C) where
  found := by
    intro xs ys n id hx
    obtain ⟨⟨hr, hs⟩, hl⟩ := shippedScan_spec C xs
    rw [hx] at hs hr hl
    simp only at hl
    refine shippedScan_eq (by simp; omega) ?_
    rw [List.drop_append_of_le_length hl]
    obtain ⟨m, t, hm, e, hid⟩ := hs
    exact ⟨hr.append ys, m, t ++ ys, hm, by rw [e]; simp, hid⟩
  skipped := by
    intro xs ys n hx
    obtain ⟨⟨hr, hs⟩, hl⟩ := shippedScan_spec C xs
    rw [hx] at hs hr hl
    simp only at hl hr
    obtain ⟨⟨hr', hs'⟩, hl'⟩ := shippedScan_spec C (xs.drop n ++ ys)
    simp only [List.length_append, List.length_drop] at hl'
    have hd : (xs ++ ys).drop (n + (shippedScan C (xs.drop n ++ ys)).1) =
        (xs.drop n ++ ys).drop (shippedScan C (xs.drop n ++ ys)).1 := by
      rw [← List.drop_drop, List.drop_append_of_le_length hl]
    refine shippedScan_eq (by simp; omega) ?_
    rw [hd]
    exact ⟨(hr.append ys).trans hr', hs'⟩

/-- Scanning again and again is the decoding of the specification. -/
theorem shipped_decodes {s r : List Byte} {ms : List Msg}
    (h : Parses C.asCustom (shippedScan C) s ms r) : Decodes C s ms r := by
  induction h with
  | @stop s n hx =>
    obtain ⟨⟨hr, hs⟩, hl⟩ := shippedScan_spec C s
    rw [hx] at hr hs
    exact ⟨hr, hs⟩
  | @take s r n id t ms hx ht _ ih =>
    obtain ⟨⟨hr, hs⟩, hl⟩ := shippedScan_spec C s
    rw [hx] at hr hs hl
    obtain ⟨m, u, hm, e, rfl⟩ := hs
    simp only at hr hl e
    have hty : typeOf C m.id = some t := ht
    obtain ⟨t', ht', hlen⟩ := id hm
    rw [hty] at ht'
    cases ht'
    obtain ⟨tail, htail⟩ := frame_split C.envelope m
    have hoff : C.asCustom.dataOffset = 3 := dataOffset_eq _
    have hov : C.asCustom.overhead = overhead C.envelope := overheadSize_eq _
    have hpay : (s.drop (n + C.asCustom.dataOffset)).take (payloadSize t) = m.payload := by
      rw [← List.drop_drop, e, htail, hoff, ← hlen]
      simp
    have hrest : s.drop (n + (C.asCustom.overhead + payloadSize t)) = u := by
      rw [← List.drop_drop, e, hov, ← hlen, ← frame_length]
      simp
    rw [hpay]
    rw [hrest] at ih
    refine ⟨?_, ih.2⟩
    rw [e] at hr
    exact hr.trans (Run.take hm ih.1)

theorem shipped_parses {s r : List Byte} {ms : List Msg} :
    Parses C.asCustom (shippedScan C) s ms r ↔ Decodes C s ms r := by
  refine ⟨shipped_decodes, fun h => ?_⟩
  obtain ⟨ms', r', h'⟩ := Custom.parses_exists (shipped_proper C) s
  obtain ⟨rfl, rfl⟩ := h.unique (shipped_decodes h')
  exact h'

/-- The program does to the buffer what the shipped envelope does. -/
theorem shipped_check (hc : recvBufferSize C < 2 ^ 64) {e : ERB C} {xs : List Byte} (h : e.Holds xs) :
    ∃ e' found b cur, (∀ B, e.checkBufferForMessage B = .ok (e', found)) ∧
      (∀ B, (⟨e.currentMessageId, e.buf⟩ : CBuf (recvBufferSize C)).exec B C.messages.length
        (getMessageLength C) C.asCustom.code = .ok (⟨cur, b⟩, found)) ∧
      (∃ ys, e'.Holds ys ∧ b.Holds ys) ∧ (found = true → cur = e'.currentMessageId) := by
  obtain ⟨e', found, ys, h1, _, hh, hr, _, ht, hf⟩ := check_spec hc h
  obtain ⟨ys', cur, found', he, hst⟩ := effect_shipped (C := C) xs.length xs e.currentMessageId
    (xs.length + 1) (Nat.le_refl _) (by omega)
  have hag : Custom.Agrees C.asCustom C.messages.length (getMessageLength C) :=
    ⟨rfl, fun id n hn => getMessageLength_eq (maxMessageLength_lt hc)
      (by rw [← asCustom_lengthAt]; exact hn)⟩
  obtain ⟨b, eb, hb⟩ := Custom.exec_ok (cap := recvBufferSize C) hc hag C.asCustom.code
    (r := ⟨e.currentMessageId, e.buf⟩) (xs := xs) h he
  have hst' : StopsAt C xs ys e'.currentMessageId found := ⟨hr, ht, hf⟩
  obtain ⟨e1, e2⟩ := hst.first.unique hst'.first
  subst e1
  have hfound : found' = found := by
    cases found <;> cases found'
    · rfl
    · obtain ⟨m, t, _, _, hc⟩ := hst.hit rfl
      simp [hc] at e2
    · obtain ⟨m, t, _, _, hc⟩ := ht rfl
      simp [hc] at e2
    · rfl
  subst hfound
  exact ⟨e', found', b, cur, h1, eb, ⟨ys', hh, hb⟩, fun h => by simpa [h] using e2⟩

end TT
