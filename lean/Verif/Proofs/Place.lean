import Verif.Spec.Place
import Verif.Proofs.RB

/-!
# Where the elements of a receive buffer are
-/

namespace TT.RB
open Spec

variable {cap : Nat}

theorem Holds.ensureSpace_place {B : Build} {b b' : RB cap} {xs : List Byte} (ha : Arith B cap)
    (h : b.Holds xs) {n : Nat} (hn : xs.length + n ≤ cap) (e : b.ensureSpace B n = .ok b') :
    b'.begin_ = placeFor cap b.begin_ xs n := by
  have h1 := h.pastEnd_le
  have h2 := h.pe
  unfold placeFor
  by_cases hx : xs = []
  · subst hx
    rw [if_pos (Or.inl rfl)]
    unfold ensureSpace at e
    simp only [h.empty_eq, List.isEmpty_nil, if_true] at e
    simp at hn
    have hp : promAdd B cap 0 n = n := by
      rcases Nat.eq_zero_or_pos n with h0 | h0
      · subst h0; simp [promAdd]
      · rw [promAdd_of_lt ha (by omega)]; simp
    rw [hp, if_pos hn] at e
    cases e
    rfl
  · have hpos : 0 < xs.length := List.length_pos_iff.mpr hx
    have he : xs.isEmpty = false := by simpa using hx
    unfold ensureSpace at e
    simp only [h.empty_eq, he, Bool.false_eq_true, if_false] at e
    rw [promAdd_of_lt ha (by omega)] at e
    by_cases hle : b.pastEnd + n ≤ cap
    · rw [if_pos hle] at e
      rw [if_neg (by simp only [hx, false_or]; omega)]
      cases e
      rfl
    · rw [if_neg hle, h.size_eq ha.lt64, promAdd_of_lt ha (by omega), assertMsg_of (by simpa using hn)] at e
      rw [if_pos (by simp only [hx, false_or]; omega)]
      obtain ⟨b2, e2, _, hb2⟩ := h.slide_ok ha.lt64 (Or.inl (by omega))
      simp only [ok_bind, e2, Except.ok.injEq] at e
      rw [← e, hb2]

theorem Holds.pushBackRange_place {B : Build} {b b' : RB cap} {xs : List Byte} (ha : Arith B cap)
    (h : b.Holds xs) {ys : List Byte} (hn : xs.length + ys.length ≤ cap)
    (e : b.pushBackRange B ys = .ok b') : b'.begin_ = placeFor cap b.begin_ xs ys.length := by
  obtain ⟨b1, e1, hh1, hs1⟩ := h.ensureSpace_ok ha.lt64 hn
  have hp := h.ensureSpace_place ha hn (e1 B ha)
  obtain ⟨l, e2, hh2⟩ := hh1.writeAt_pastEnd ha.lt64 hs1 (Nat.le_refl ys.length)
  unfold pushBackRange at e
  rw [trunc_of_le ha.lt64 (by omega)] at e
  simp only [e1 B ha, ok_bind, e2, hh2.verifyInvariants_ok, pure_eq_ok, Except.ok.injEq] at e
  rw [← e]
  exact hp

theorem set_place {B : Build} {b b' : RB cap} {i : Nat} {x : Byte} (e : b.set B i x = .ok b') :
    b'.begin_ = b.begin_ := by
  unfold set at e
  cases h : assertMsg B (decide (i < b.size)) with
  | error f => rw [h] at e; cases e
  | ok u =>
    rw [h] at e
    simp only [ok_bind] at e
    cases h2 : rawSet b.contents (b.adjustedIndex i) x with
    | error f => rw [h2] at e; cases e
    | ok l => rw [h2] at e; cases e; rfl

theorem Holds.pushBack_place {B : Build} {b b' : RB cap} {xs : List Byte} (ha : Arith B cap)
    (h : b.Holds xs) {x : Byte} (hn : xs.length + 1 ≤ cap)
    (e : b.pushBack B x = .ok b') : b'.begin_ = placeFor cap b.begin_ xs 1 := by
  obtain ⟨b1, e1, hh1, hs1⟩ := h.ensureSpace_ok ha.lt64 hn
  have hp := h.ensureSpace_place ha hn (e1 B ha)
  unfold pushBack incrementPastEnd at e
  simp only [e1 B ha, ok_bind] at e
  rw [trunc_of_le ha.lt64 (by omega), assertMsg_of (by simpa using hs1)] at e
  simp only [ok_bind, pure_eq_ok] at e
  rw [set_place e]
  exact hp

theorem Holds.erase_place {B : Build} {b b' : RB cap} {xs : List Byte} (hc : cap < 2 ^ 64)
    (h : b.Holds xs) {i j : Nat} (hij : i < j) (hj : j ≤ xs.length) {p : Nat}
    (e : b.erase B (b.begin_ + i) (b.begin_ + j) = .ok (b', p)) :
    b'.begin_ = if i = 0 then b.begin_ + j else b.begin_ := by
  have h1 := h.pastEnd_le
  have h2 := h.pe
  have es : ∀ k, k ≤ xs.length → subT cap (b.begin_ + k) b.begin_ = k := by
    intro k hk
    rw [subT_of_le hc (by omega) (by omega)]
    omega
  unfold erase at e
  simp only [es i (by omega), es j hj] at e
  rw [assertMsg_of (by simp; omega), subT_of_le hc (by omega) (by omega)] at e
  simp only [ok_bind] at e
  rw [if_neg (by omega), h.size_eq hc, assertMsg_of (by simp; omega)] at e
  simp only [ok_bind] at e
  have loop : ∀ n (c c' : RB cap), popBackLoop B c n = .ok c' → c'.begin_ = c.begin_ := by
    intro n
    induction n with
    | zero => intro c c' h; cases h; rfl
    | succ n ih =>
      intro c c' h
      unfold popBackLoop decrementPastEnd at h
      cases ha : assertMsg B (decide (c.pastEnd > c.begin_)) with
      | error f => rw [ha] at h; cases h
      | ok u =>
        rw [ha] at h
        simp only [ok_bind, pure_eq_ok] at h
        exact (ih _ _ h).trans rfl
  by_cases hi0 : i = 0
  · subst hi0
    rw [if_pos rfl] at e ⊢
    cases xs with
    | nil => simp at hj; omega
    | cons x xs =>
      obtain ⟨e2, _⟩ := h.popFront_ok hc (n := j - 0) (by simpa using hj)
      simp only [e2 B, ok_bind, pure_eq_ok, Except.ok.injEq, Prod.mk.injEq] at e
      rw [← e.1]
      rfl
  · rw [if_neg hi0] at e ⊢
    by_cases hlast : b.begin_ + j = b.pastEnd
    · rw [if_pos hlast] at e
      unfold popBack at e
      cases hb : b.back B with
      | error f => rw [hb] at e; cases e
      | ok v =>
        rw [hb] at e
        simp only [ok_bind] at e
        cases hl : popBackLoop B b (j - i) with
        | error f => rw [hl] at e; cases e
        | ok c =>
          rw [hl] at e
          simp only [ok_bind, pure_eq_ok, Except.ok.injEq, Prod.mk.injEq] at e
          rw [← e.1]
          exact loop _ _ _ hl
    · rw [if_neg hlast, assertMsg_of (by simp; omega), assertMsg_of (by simp; omega)] at e
      simp only [ok_bind] at e
      cases hcw : copyWithin b.contents (b.begin_ + j) b.pastEnd (b.begin_ + i) with
      | error f => rw [hcw] at e; cases e
      | ok l =>
        rw [hcw] at e
        simp only [ok_bind] at e
        cases hl : popBackLoop B { b with contents := l } (j - i) with
        | error f => rw [hl] at e; cases e
        | ok c =>
          rw [hl] at e
          simp only [ok_bind, pure_eq_ok, Except.ok.injEq, Prod.mk.injEq] at e
          rw [← e.1]
          have := loop _ _ _ hl
          exact this

/-! ### Copying a range of the buffer behind itself -/

/-- Copying to a place behind the source. -/
theorem copyLoop_behind (n : Nat) : ∀ (l : List Byte) (src dst : Nat), src + n ≤ dst → dst + n ≤ l.length →
    copyLoop l src dst n = .ok (l.take dst ++ (l.drop src).take n ++ l.drop (dst + n)) := by
  induction n with
  | zero => intro l src dst _ _; simp [copyLoop]
  | succ n ih =>
    intro l src dst h1 h2
    have hs : src < l.length := by omega
    have hd : dst < l.length := by omega
    unfold copyLoop
    simp only [rawGet, List.getElem?_eq_getElem hs, ok_bind, rawSet, if_pos hd]
    rw [ih (l.set dst l[src]) (src + 1) (dst + 1) (by omega) (by simp; omega)]
    congr 1
    have e1 : (l.set dst l[src]).take (dst + 1) = l.take dst ++ [l[src]] := by
      rw [List.take_set, List.take_succ_eq_append_getElem hd,
        List.set_append_right _ _ (by simp; omega), List.length_take, Nat.min_eq_left (by omega), Nat.sub_self]
      rfl
    have e2 : ((l.set dst l[src]).drop (src + 1)).take n = (l.drop (src + 1)).take n := by
      apply List.ext_getElem?
      intro j
      simp only [List.getElem?_take, List.getElem?_drop, List.getElem?_set]
      by_cases hj : j < n
      · rw [if_pos hj, if_pos hj, if_neg (by omega)]
      · rw [if_neg hj, if_neg hj]
    have e3 : (l.set dst l[src]).drop (dst + 1 + n) = l.drop (dst + (n + 1)) := by
      rw [List.drop_set_of_lt (by omega), show dst + 1 + n = dst + (n + 1) by omega]
    have e4 : (l.drop src).take (n + 1) = l[src] :: (l.drop (src + 1)).take n := by
      rw [List.drop_eq_getElem_cons hs, List.take_succ_cons]
    rw [e1, e2, e3, e4]
    simp

theorem Holds.slide_eq {b : RB cap} {xs : List Byte} (hc : cap < 2 ^ 64) (h : b.Holds xs)
    (hb : 0 < b.begin_) (hx : xs ≠ []) :
    b.slideContentsForward = .ok ⟨0, xs.length, xs ++ b.contents.drop xs.length⟩ := by
  have h1 := h.pastEnd_le
  have h2 := h.pe
  have h3 := h.len
  have hpos : 0 < xs.length := List.length_pos_iff.mpr hx
  unfold slideContentsForward copyWithin
  rw [if_neg (by omega), if_neg (by omega), copyLoop_ok _ _ _ _ hb (by omega)]
  simp only [ok_bind, pure_eq_ok, h.size_eq hc, List.take_zero, List.nil_append]
  have e : b.pastEnd - b.begin_ = xs.length := by omega
  rw [e]
  congr 3
  · obtain ⟨pre, post, hs, hp⟩ := h.split
    rw [hs, ← hp]
    simp
  · rw [Nat.zero_add]

end TT.RB
