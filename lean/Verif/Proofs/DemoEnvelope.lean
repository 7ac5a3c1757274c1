import Verif.Proofs.ShippedEnvelope

/-!
# A small envelope to test the statements about envelopes with

A message is a sync byte 0xAA, the id and the payload. Two variants show mistakes: `strip` removes the sync
byte when it reports a message, `hasty` gives up on a message that is not complete yet.
-/

namespace TT.Demo
open Spec

/-- The program. -/
def code (strip hasty : Bool) : Nat → EnvCode
  | 0 => .done false
  | d + 1 =>
    .size fun n => if n = 0 then .done false else
    .byte 0 fun c => if c ≠ 0xAA then .pop 1 (code strip hasty d) else
    if n < 2 then .done false else
    .byte 1 fun id => .setId id <| .hasId fun valid =>
    if !valid then .pop 1 (code strip hasty d) else
    .length fun len =>
    if n < len + strip.toNat then (if hasty then .pop 1 (code strip hasty d) else .done false) else
    if strip then .pop 1 (.done true) else .done true

/-- The envelope with two message types. -/
def demo (strip hasty : Bool) : Custom where
  messages := [⟨0, [.uint8]⟩, ⟨1, [.uint8, .pod 0 2]⟩]
  overhead := if strip then 1 else 2
  dataOffset := if strip then 1 else 2
  code := .size fun n => code strip hasty (n + 1)

/-- One byte more skipped. -/
def bump (p : Nat × Option Byte) : Nat × Option Byte := (p.1 + 1, p.2)

/-- How it looks for messages. -/
def scan (strip hasty : Bool) : Scan
  | [] => (0, none)
  | b :: s =>
    if b ≠ 0xAA then bump (scan strip hasty s) else
    match s.head? with
    | none => (0, none)
    | some id =>
      match lengthAt (demo strip hasty) id with
      | none => bump (scan strip hasty s)
      | some k =>
        if s.length + 1 < k + strip.toNat then
          (if hasty then bump (scan strip hasty s) else (0, none))
        else (strip.toNat, some id)

variable {strip hasty : Bool}

theorem effect_code (xs : List Byte) : ∀ (cur : Option Byte) (d : Nat), xs.length < d →
    ∃ cur', effect (demo strip hasty) (code strip hasty d) xs cur =
        some (xs.drop (scan strip hasty xs).1, cur', (scan strip hasty xs).2.isSome) ∧
      ((scan strip hasty xs).2.isSome = true → cur' = (scan strip hasty xs).2) := by
  induction xs with
  | nil =>
    intro cur d hd
    obtain ⟨d, rfl⟩ : ∃ n, d = n + 1 := ⟨d - 1, by simp at hd; omega⟩
    exact ⟨cur, by simp [code, effect, scan], by simp [scan]⟩
  | cons b s ih =>
    intro cur d hd
    obtain ⟨d, rfl⟩ : ∃ n, d = n + 1 := ⟨d - 1, by simp at hd; omega⟩
    simp only [List.length_cons, Nat.add_lt_add_iff_right] at hd
    by_cases hb : b = 0xAA
    · subst hb
      cases s with
      | nil => exact ⟨cur, by simp [code, effect, scan], by simp [scan]⟩
      | cons id s =>
        have h2 : ¬ s.length + 1 + 1 < 2 := by omega
        cases ht : typeAt (demo strip hasty) id with
        | none =>
          have hl : lengthAt (demo strip hasty) id = none := by simp [lengthAt, ht]
          obtain ⟨cur', e, hc⟩ := ih none d hd
          have hsc : scan strip hasty (0xAA :: id :: s) = bump (scan strip hasty (id :: s)) := by
            rw [scan]; simp [hl]
          rw [hsc]
          refine ⟨cur', ?_, hc⟩
          simp only [code, effect, List.length_cons, Nat.add_eq_zero_iff, Nat.one_ne_zero, and_false,
            if_false, List.getElem?_cons_zero, List.getElem?_cons_succ, ne_eq, not_true_eq_false, h2, ht,
            Option.isSome_none, Bool.not_false, if_true, reduceCtorEq, not_false_eq_true, true_and,
            Bool.false_eq_true, List.drop_succ_cons, List.drop_zero, bump]
          rw [if_pos (by omega)]
          exact e
        | some t =>
          have hl : lengthAt (demo strip hasty) id =
              some ((demo strip hasty).overhead + payloadSize t) := by simp [lengthAt, ht]
          generalize (demo strip hasty).overhead + payloadSize t = k at hl
          have hsc : scan strip hasty (0xAA :: id :: s) =
              if s.length + 1 + 1 < k + strip.toNat then
                (if hasty then bump (scan strip hasty (id :: s)) else (0, none))
              else (strip.toNat, some id) := by
            rw [scan]; simp [hl]
          have heff : effect (demo strip hasty) (code strip hasty (d + 1)) (0xAA :: id :: s) cur =
              effect (demo strip hasty) (if s.length + 1 + 1 < k + strip.toNat then
                (if hasty then .pop 1 (code strip hasty d) else .done false) else
                if strip then .pop 1 (.done true) else .done true) (0xAA :: id :: s) (some id) := by
            simp only [code, effect, List.length_cons, Nat.add_eq_zero_iff, Nat.one_ne_zero, and_false,
              if_false, List.getElem?_cons_zero, List.getElem?_cons_succ, ne_eq, not_true_eq_false, h2, ht,
              Option.isSome_some, Bool.not_true, Bool.false_eq_true, if_true, Option.bind_some, hl]
          rw [heff, hsc]
          by_cases hlt : s.length + 1 + 1 < k + strip.toNat
          · rw [if_pos hlt, if_pos hlt]
            cases hasty with
            | true =>
              obtain ⟨cur', e, hc⟩ := ih (some id) d hd
              refine ⟨cur', ?_, hc⟩
              simp only [if_true, effect, bump, List.drop_succ_cons]
              rw [if_pos (by simp)]
              simpa using e
            | false => exact ⟨some id, by simp [effect], by simp⟩
          · rw [if_neg hlt, if_neg hlt]
            cases strip with
            | true => exact ⟨some id, by simp [effect], by simp⟩
            | false => exact ⟨some id, by simp [effect], by simp⟩
    · obtain ⟨cur', e, hc⟩ := ih cur d hd
      have hsc : scan strip hasty (b :: s) = bump (scan strip hasty s) := by
        rw [scan]; simp [hb]
      rw [hsc]
      refine ⟨cur', ?_, hc⟩
      simp only [code, effect, List.length_cons, Nat.add_eq_zero_iff, Nat.one_ne_zero, and_false,
        if_false, List.getElem?_cons_zero, ne_eq, hb, not_false_eq_true, if_true, reduceCtorEq, true_and,
        List.drop_succ_cons, List.drop_zero, bump]
      rw [if_pos (by omega)]
      exact e

theorem implements_ : Implements (demo strip hasty) (scan strip hasty) := by
  intro xs cur _
  exact effect_code xs cur (xs.length + 1) (by omega)

theorem scan_cases (b : Byte) (s : List Byte) :
    scan strip hasty (b :: s) = bump (scan strip hasty s) ∨ scan strip hasty (b :: s) = (0, none) ∨
    ∃ id k, s.head? = some id ∧ b = 0xAA ∧ lengthAt (demo strip hasty) id = some k ∧
      k + strip.toNat ≤ s.length + 1 ∧ scan strip hasty (b :: s) = (strip.toNat, some id) := by
  rw [scan]
  split
  · exact Or.inl rfl
  · rename_i hb
    split
    · exact Or.inr (Or.inl rfl)
    · rename_i id hid
      split
      · exact Or.inl rfl
      · rename_i k hk
        split
        · split
          · exact Or.inl rfl
          · exact Or.inr (Or.inl rfl)
        · exact Or.inr (Or.inr ⟨id, k, hid, by simpa using hb, hk, by omega, rfl⟩)

theorem proper : Proper (demo strip hasty) (scan strip hasty) where
  overhead := by cases strip <;> simp [demo]
  offset := by cases strip <;> simp [demo]
  within := by
    intro xs
    induction xs with
    | nil => simp [scan]
    | cons b s ih =>
      rcases scan_cases (strip := strip) (hasty := hasty) b s with h | h | ⟨_, _, _, _, _, _, h⟩
      · rw [h]; simpa [bump] using ih
      · rw [h]; simp
      · rw [h]; cases strip <;> simp
  whole := by
    intro xs
    induction xs with
    | nil => intro n id h; simp [scan] at h
    | cons b s ih =>
      intro n id h
      rcases scan_cases (strip := strip) (hasty := hasty) b s with h' | h' | ⟨id', k, _, _, hk, hle, h'⟩
      · rw [h'] at h
        simp only [bump, Prod.mk.injEq] at h
        obtain ⟨k, hk, hle⟩ := ih (scan strip hasty s).1 id (Prod.ext rfl h.2)
        exact ⟨k, hk, by simp; omega⟩
      · rw [h'] at h; cases h
      · rw [h'] at h
        cases h
        exact ⟨k, hk, by simp; omega⟩

theorem settled : Settled (scan false hasty) := by
  intro xs
  induction xs with
  | nil => intro n id h; simp [scan] at h
  | cons b s ih =>
    intro n id h
    rcases scan_cases (strip := false) (hasty := hasty) b s with h' | h' | ⟨id', k, _, _, hk, hle, h'⟩
    · rw [h'] at h
      simp only [bump, Prod.mk.injEq] at h
      rw [← h.1]
      simpa using ih (scan false hasty s).1 id (Prod.ext rfl h.2)
    · rw [h'] at h; cases h
    · rw [h'] at h
      cases h
      simpa using h'

theorem online : Online (scan strip false) where
  found := by
    intro xs ys
    induction xs with
    | nil => intro n id h; simp [scan] at h
    | cons b s ih =>
      intro n id h
      rw [scan] at h
      rw [List.cons_append, scan]
      split at h
      · rename_i hb
        rw [if_pos hb]
        simp only [bump, Prod.mk.injEq] at h
        have := ih (scan strip false s).1 id (Prod.ext rfl h.2)
        rw [this, bump, ← h.1]
      · rename_i hb
        rw [if_neg hb]
        cases s with
        | nil => simp at h
        | cons i s =>
          simp only [List.head?_cons, List.cons_append] at h ⊢
          split at h
          · simp only [bump, Prod.mk.injEq] at h
            have := ih (scan strip false (i :: s)).1 id (Prod.ext rfl h.2)
            rw [List.cons_append] at this
            simp only [this, bump, ← h.1]
          · simp only [Bool.false_eq_true, if_false] at h ⊢
            split at h
            · cases h
            · rw [if_neg (by simp at *; omega), h]
  skipped := by
    intro xs ys
    induction xs with
    | nil => intro n h; simp [scan] at h; simp [← h]
    | cons b s ih =>
      intro n h
      have hstop : ∀ {n : Nat}, ((0, none) : Nat × Option Byte) = (n, none) →
          scan strip false (b :: s ++ ys) =
            (n + (scan strip false ((b :: s).drop n ++ ys)).1,
              (scan strip false ((b :: s).drop n ++ ys)).2) := by
        intro n h
        cases h
        simp
      have hskip : scan strip false (b :: s ++ ys) = bump (scan strip false (s ++ ys)) →
          bump (scan strip false s) = (n, none) →
          scan strip false (b :: s ++ ys) =
            (n + (scan strip false ((b :: s).drop n ++ ys)).1,
              (scan strip false ((b :: s).drop n ++ ys)).2) := by
        intro hsc h
        simp only [bump, Prod.mk.injEq] at h
        have := ih (scan strip false s).1 (Prod.ext rfl h.2)
        rw [hsc, this, bump, ← h.1]
        simp only [List.drop_succ_cons, Prod.mk.injEq, and_true]
        omega
      rw [scan] at h
      split at h
      · rename_i hb
        exact hskip (by rw [List.cons_append, scan, if_pos hb]) h
      · rename_i hb
        cases s with
        | nil => exact hstop (by simpa using h)
        | cons i s =>
          simp only [List.head?_cons] at h
          split at h
          · rename_i hl
            refine hskip ?_ h
            rw [List.cons_append, scan, if_neg hb]
            simp only [List.cons_append, List.head?_cons, hl]
          · simp only [Bool.false_eq_true, if_false] at h
            split at h
            · exact hstop h
            · cases h

theorem encodes {m : Msg} {t : MsgType} (ht : typeAt (demo false false) m.id = some t)
    (hl : m.payload.length = payloadSize t) :
    Encodes (demo false false) (scan false false) (fun m => 0xAA :: m.id :: m.payload) m where
  found := by
    intro ys
    have hk : lengthAt (demo false false) m.id = some (2 + payloadSize t) := by
      simp [lengthAt, ht]; rfl
    simp only [List.cons_append]
    rw [scan]
    simp [hk]
    omega
  length := by
    simp [lengthAt, ht, hl]
    show 2 + payloadSize t = _
    omega
  payload := by
    show ((0xAA :: m.id :: m.payload).drop 2).take _ = _
    simp
  size := ⟨t, ht, hl⟩

end TT.Demo
