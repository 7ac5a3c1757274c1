import Verif.Model.ApplyAt
import Verif.Properties.Send

/-!
# Property about `util::apply_at` and `util::find_index`: C119
-/

namespace TT.Properties
open Spec

variable {α F W : Type}

/-! ### C119 -/

/-- What a call of `apply_at` has to do: call a copy of the functor with the type at position `k`, if there is one. -/
def appliedTo (seq : List α) (k : Nat) (op : OnType α F W) (f : F) (w : W) : F × W × Bool :=
  match seq[k]? with
  | none => (f, w, false)
  | some t => (f, (op f w t).2)

theorem intToTypeFrom_eq (seq : List α) (i : Nat) (op : OnType α F W) (n : Nat) : ∀ (c : Nat) (a : Applied F W),
    seq.length - c = n → c ≤ seq.length →
    intToTypeFrom seq i op c a =
      if c ≤ i then
        match seq[i]? with
        | none => { a with compared := a.compared + n }
        | some t => { functor := (op a.functor a.world t).1, world := (op a.functor a.world t).2.1, threw := (op a.functor a.world t).2.2, compared := a.compared + (i - c + 1) }
      else { a with compared := a.compared + n } := by
  induction n with
  | zero =>
    intro c a hn hc
    rw [intToTypeFrom]
    have h0 : seq[c]? = none := List.getElem?_eq_none (by omega)
    split
    · split
      · rw [List.getElem?_eq_none (by omega)]; rfl
      · rfl
    · rename_i h; rw [h0] at h; cases h
  | succ n ih =>
    intro c a hn hc
    rw [intToTypeFrom]
    split
    · rename_i h; have := List.getElem?_eq_none_iff.mp h; omega
    · rename_i m h
      by_cases he : c = i
      · subst he
        simp [h]
      · simp only [if_neg he]
        rw [ih (c + 1) _ (by omega) (by omega)]
        by_cases h1 : c ≤ i
        · rw [if_pos h1, if_pos (by omega)]
          split
          · simp only [Applied.mk.injEq, true_and]; omega
          · simp only [Applied.mk.injEq, true_and]; omega
        · rw [if_neg h1, if_neg (by omega)]
          simp only [Applied.mk.injEq, true_and]
          omega

/-- C119. `apply_at` with an index of any integer type: the index is reduced to the smallest unsigned type that can hold the
number of types, and the type at that position, if there is one, is the only one the functor is called with, once. The
functor of the caller stays as it is; only what it refers to can change, and an exception reaches the caller. -/
theorem C119_any_index (seq : List α) (i : Int) (op : OnType α F W) (f : F) (w : W) :
    applyAtCaller seq i op f w = appliedTo seq (indexOf seq.length i) op f w := by
  unfold applyAtCaller applyAtAny appliedTo
  rw [intToTypeFrom_eq _ _ _ _ _ _ rfl (Nat.zero_le _)]
  simp only [Nat.zero_le, if_true]
  cases seq[indexOf seq.length i]? <;> rfl

theorem indexOf_small {n : Nat} {i : Nat} (h : i < 2 ^ leastBits n) : indexOf n (i : Int) = i := by
  unfold indexOf
  have h1 : (i : Int) < ((2 ^ leastBits n : Nat) : Int) := Int.ofNat_lt.mpr h
  rw [Int.emod_eq_of_lt (Int.natCast_nonneg _) h1, Int.toNat_natCast]

theorem lt_leastBits {n : Nat} (h : n < 2 ^ 64) : n < 2 ^ leastBits n := by
  unfold leastBits
  split
  · assumption
  · split
    · assumption
    · split
      · assumption
      · exact h

/-- C119 (in range). An index smaller than the number of types selects the type at that position. -/
theorem C119_in_range {seq : List α} (hs : seq.length < 2 ^ 64) {i : Nat} (hi : i < seq.length) (op : OnType α F W) (f : F)
    (w : W) : applyAtCaller seq i op f w = (f, (op f w seq[i]).2) := by
  have := lt_leastBits hs
  rw [C119_any_index, indexOf_small (by omega), appliedTo, List.getElem?_eq_getElem hi]

/-- C119 (out of range). An index that is too large, but has a value of the index type, calls nothing. -/
theorem C119_out_of_range {seq : List α} {i : Nat} (hi : seq.length ≤ i) (hb : i < 2 ^ leastBits seq.length)
    (op : OnType α F W) (f : F) (w : W) : applyAtCaller seq i op f w = (f, w, false) := by
  rw [C119_any_index, indexOf_small hb, appliedTo, List.getElem?_eq_none hi]

/-- Remember the types a functor was called with: one log in the functor, one it refers to. -/
def remember : OnType Nat (List Nat) (List Nat) := fun f w t => (f ++ [t], w ++ [t], t == 30)

example : applyAtCaller [10, 20, 30] (1 : Nat) remember [] [] = ([], [20], false) :=
  C119_in_range (by decide) (by decide) remember [] []

example : applyAtCaller [10, 20, 30] (255 : Nat) remember [] [] = ([], [], false) :=
  C119_out_of_range (by decide) (by decide) remember [] []

/-- C119 (witness). The reduction shows: 256 selects the first of three types, -254 the third; but with 256 types instead of
three, 256 selects nothing. -/
theorem C119_reduced_witness :
    applyAtCaller [10, 20, 30] 256 remember [] [] = ([], [10], false) ∧
    applyAtCaller [10, 20, 30] (-254) remember [] [] = ([], [30], true) ∧
    ∀ w, applyAtCaller (List.range 256) 256 remember [] w = ([], w, false) := by
  refine ⟨(C119_any_index ..).trans (by decide), (C119_any_index ..).trans (by decide), fun w => ?_⟩
  exact C119_out_of_range (i := 256) (by simp) (by simp [leastBits]) remember [] w

/-- C119 (work). The number of comparisons: one for each type up to the selected one, or for all if none is selected. -/
theorem C119_comparisons (seq : List α) (i : Int) (op : OnType α F W) (f : F) (w : W) :
    (applyAtAny seq i op f w).compared = min (indexOf seq.length i + 1) seq.length := by
  unfold applyAtAny
  rw [intToTypeFrom_eq _ _ _ _ _ _ rfl (Nat.zero_le _)]
  simp only [Nat.zero_le, if_true, Nat.sub_zero, Nat.zero_add]
  split
  · rename_i h; have := List.getElem?_eq_none_iff.mp h; simp only; omega
  · rename_i h; obtain ⟨h, _⟩ := List.getElem?_eq_some_iff.mp h; simp only; omega

example : (applyAtAny [10, 20, 30] 1 remember [] []).compared = 2 := (C119_comparisons ..).trans (by decide)

/-- C119 (another start). With another starting point, types before it are not found. -/
theorem C119_start (seq : List α) {s : Nat} (hs : s ≤ seq.length) (i : Nat) (op : OnType α F W) (f : F) (w : W) :
    let a := intToTypeFrom seq i op s { functor := f, world := w, threw := false, compared := 0 }
    (a.world, a.threw) = if s ≤ i then (appliedTo seq i op f w).2 else (w, false) := by
  intro a
  have : a = _ := intToTypeFrom_eq seq i op _ s _ rfl hs
  rw [this]
  by_cases h : s ≤ i
  · simp only [if_pos h, appliedTo]
    cases seq[i]? <;> rfl
  · simp only [if_neg h]

example : (intToTypeFrom [10, 20, 30] 0 remember 1 ⟨[], [], false, 0⟩).world = [] :=
  congrArg (·.1) (C119_start [10, 20, 30] (s := 1) (by decide) 0 remember [] [])

/-- `find_index`. -/
theorem findIndexAny_spec [DecidableEq α] (seq : List α) (t : α) (k : Nat) :
    findIndexAny seq t = some k ↔ seq[k]? = some t ∧ ∀ j < k, seq[j]? ≠ some t := by
  induction seq generalizing k with
  | nil => simp [findIndexAny]
  | cons m ms ih =>
    unfold findIndexAny
    by_cases h : m = t
    · subst h
      simp only [if_true, Option.some.injEq]
      constructor
      · rintro rfl; simp
      · rintro ⟨_, h2⟩
        cases k with
        | zero => rfl
        | succ k => exact absurd (by simp) (h2 0 (by omega))
    · simp only [if_neg h, Option.map_eq_some_iff]
      constructor
      · rintro ⟨k', e, rfl⟩
        obtain ⟨h1, h2⟩ := (ih k').mp e
        refine ⟨by simpa using h1, fun j hj => ?_⟩
        cases j with
        | zero => simpa using h
        | succ j => simpa using h2 j (by omega)
      · rintro ⟨h1, h2⟩
        cases k with
        | zero => simp at h1; exact absurd h1 h
        | succ k =>
          refine ⟨k, (ih k).mpr ⟨by simpa using h1, fun j hj => ?_⟩, rfl⟩
          simpa using h2 (j + 1) (by omega)

/-- C119 (`find_index`). It compiles exactly for the types of the sequence, and `apply_at` at the index it gives calls the
functor with that type. -/
theorem C119_find_index [DecidableEq α] {seq : List α} (hs : seq.length < 2 ^ 64) (t : α) :
    (t ∈ seq ↔ (findIndexAny seq t).isSome = true) ∧
    ∀ k, findIndexAny seq t = some k →
      (∀ j < k, seq[j]? ≠ some t) ∧
      ∀ (op : OnType α F W) (f : F) (w : W), applyAtCaller seq k op f w = (f, (op f w t).2) := by
  constructor
  · induction seq with
    | nil => simp [findIndexAny]
    | cons m ms ih =>
      simp only [List.length_cons] at hs
      unfold findIndexAny
      by_cases h : m = t
      · simp [h]
      · have h' : t ≠ m := fun e => h e.symm
        simp [h, h', ih (by omega)]
  · intro k hk
    obtain ⟨h1, h2⟩ := (findIndexAny_spec seq t k).mp hk
    obtain ⟨h3, h4⟩ := List.getElem?_eq_some_iff.mp h1
    refine ⟨h2, fun op f w => ?_⟩
    rw [C119_in_range hs h3, h4]

example : findIndexAny [10, 20, 30, 20] 20 = some 1 ∧
    applyAtCaller [10, 20, 30, 20] (1 : Nat) remember [5] [6] = ([5], [6, 20], false) :=
  ⟨rfl, ((C119_find_index (by decide) 20).2 1 rfl).2 remember [5] [6]⟩

/-- C119 (in the library). The dispatch on message ids is `apply_at` on the message types, with a functor that stores its
result where it refers to. -/
theorem C119_library {β : Type} (seq : List MsgType) (id : Byte) (op : MsgType → β) (d : β) :
    applyAt seq id op d = (applyAtCaller seq (id.toNat : Int) (fun (_ : Unit) _ t => ((), op t, false)) () d).2.1 := by
  have hb : id.toNat < 2 ^ leastBits seq.length := by
    have h1 := id.toNat_lt
    unfold leastBits
    split
    · exact h1
    · split
      · exact Nat.lt_trans h1 (by decide)
      · split
        · exact Nat.lt_trans h1 (by decide)
        · exact Nat.lt_trans h1 (by decide)
  rw [C119_any_index, indexOf_small hb, applyAt_eq]
  unfold appliedTo
  cases seq[id.toNat]? <;> rfl

example : applyAt Sample.basic.messages 1 (fun t => t.fields.length) 9 = 1 := by
  rw [C119_library, C119_any_index]; decide

end TT.Properties
