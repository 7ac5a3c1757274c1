import Verif.Model.AnyBuffer
import Verif.Proofs.RB

/-!
# Helper lemmas: buffers of any element type, whose copies may throw
-/

namespace TT.GB
variable {α : Type} {cap : Nat} {B : Build}

/-- `b` is a valid buffer whose elements, front to back, are `xs`. -/
structure Holds (b : GB α cap) (xs : List α) : Prop where
  pe : b.pastEnd = b.begin_ + xs.length
  len : b.contents.length = cap
  le : b.pastEnd ≤ cap
  at_ : ∀ i, i < xs.length → b.contents[b.begin_ + i]? = xs[i]?

theorem bind_some {β γ : Type} {m : Code α cap β} {k : β → Code α cap γ} {s s' : State α cap} {v : β}
    (h : m s = .ok (s', some v)) : (m >>= k) s = k v s' := by
  simp only [bind, h]

theorem bind_none {β γ : Type} {m : Code α cap β} {k : β → Code α cap γ} {s s' : State α cap}
    (h : m s = .ok (s', none)) : (m >>= k) s = .ok (s', none) := by
  simp only [bind, h]

@[simp] theorem this_bind {γ : Type} (k : GB α cap → Code α cap γ) (s : State α cap) : (this >>= k) s = k s.buf s := rfl

@[simp] theorem change_bind {γ : Type} (b : GB α cap) (k : Unit → Code α cap γ) (s : State α cap) :
    (change b >>= k) s = k () { s with buf := b } := rfl

@[simp] theorem lift_ok_bind {β γ : Type} (v : β) (k : β → Code α cap γ) (s : State α cap) :
    (lift (.ok v) >>= k) s = k v s := rfl

@[simp] theorem pure_app {β : Type} (v : β) (s : State α cap) : (pure v : Code α cap β) s = .ok (s, some v) := rfl

theorem holds_new (cap : Nat) (d : α) : (GB.new cap d).Holds [] := ⟨rfl, by simp [GB.new], by simp [GB.new], by simp⟩

theorem holds_unique {b : GB α cap} {xs ys : List α} (h : b.Holds xs) (h' : b.Holds ys) : xs = ys := by
  have hl : xs.length = ys.length := by
    have := h.pe
    have := h'.pe
    omega
  apply List.ext_getElem? 
  intro i
  by_cases hi : i < xs.length
  · rw [← h.at_ i hi, h'.at_ i (by omega)]
  · rw [List.getElem?_eq_none (by omega), List.getElem?_eq_none (by omega)]

theorem Holds.size_eq {b : GB α cap} {xs : List α} (hc : cap < 2 ^ 64) (h : b.Holds xs) : b.size = xs.length := by
  unfold size
  rw [subT_of_le hc h.le (by have := h.pe; omega), h.pe]
  omega

theorem Holds.length_le {b : GB α cap} {xs : List α} (h : b.Holds xs) : xs.length ≤ cap := by
  have := h.pe
  have := h.le
  omega

theorem Holds.empty_eq {b : GB α cap} {xs : List α} (h : b.Holds xs) : b.empty = xs.isEmpty := by
  unfold empty
  rw [h.pe]
  cases xs <;> simp

theorem Holds.get_ok {b : GB α cap} {xs : List α} (hc : cap < 2 ^ 64) (h : b.Holds xs) {i : Nat} {v : α}
    (hi : xs[i]? = some v) : b.get B i = .ok v := by
  have hlt : i < xs.length := (List.getElem?_eq_some_iff.mp hi).1
  have := h.le
  have := h.pe
  unfold get place adjustedIndex
  rw [h.size_eq hc, assertMsg_of (by simpa using hlt), trunc_of_le hc (by omega)]
  simp [rawGet, h.at_ i hlt, hi]

/-! ### Element copies -/

/-- How many of `n` copies are made. -/
def made : Option Nat → Nat → Nat
  | none, n => n
  | some k, n => min k n

/-- The array with `ys` stored from index `d` on. -/
def splice (l : List α) (d : Nat) (ys : List α) : List α := l.take d ++ ys ++ l.drop (d + ys.length)

theorem splice_nil (l : List α) (d : Nat) : splice l d [] = l := by simp [splice]

theorem splice_length {l ys : List α} {d : Nat} (h : d + ys.length ≤ l.length) : (splice l d ys).length = l.length := by
  simp [splice]
  omega

theorem splice_get {l ys : List α} {d i : Nat} (h : d + ys.length ≤ l.length) :
    (splice l d ys)[i]? = if i < d then l[i]? else if i < d + ys.length then ys[i - d]? else l[i]? := by
  unfold splice
  by_cases h1 : i < d
  · rw [List.append_assoc, List.getElem?_append_left (by simp; omega)]
    simp [h1]
  · rw [if_neg h1]
    by_cases h2 : i < d + ys.length
    · rw [if_pos h2, List.append_assoc, List.getElem?_append_right (by simp; omega),
        List.getElem?_append_left (by simp; omega)]
      simp only [List.length_take]
      congr 1
      omega
    · rw [if_neg h2, List.getElem?_append_right (by simp; omega), List.getElem?_drop]
      congr 1
      simp only [List.length_append, List.length_take]
      omega

theorem splice_set {l ys : List α} {d : Nat} {v : α} (h : d < l.length) :
    splice (l.set d v) (d + 1) ys = splice l d (v :: ys) := by
  unfold splice
  rw [List.drop_set_of_lt (by omega)]
  have : (l.set d v).take (d + 1) = l.take d ++ [v] := by
    apply List.ext_getElem?
    intro i
    rw [List.getElem?_take, List.getElem?_append]
    simp only [List.getElem?_set, List.length_take, List.getElem?_take]
    by_cases h1 : i < d
    · rw [if_pos (by omega), if_neg (by omega), if_pos (by omega), if_pos h1]
    · by_cases h2 : i = d
      · subst h2
        simp [h]
        rw [Nat.min_eq_left (by omega)]
        simp
      · rw [if_neg (by omega), if_neg (by omega), List.getElem?_eq_none (by simp; omega)]
  rw [this]
  simp
  congr 1
  omega

/-- The state after `m` more copies. -/
def State.after (s : State α cap) (l : List α) (m : Nat) : State α cap :=
  ⟨{ s.buf with contents := l }, s.budget.map (· - m)⟩

theorem assignAt_ok {s : State α cap} {i : Nat} {v : α} (hi : i < s.buf.contents.length) :
    assignAt i v s = .ok (if s.budget = some 0 then (s, none) else (s.after (s.buf.contents.set i v) 1, some ())) := by
  unfold assignAt
  simp only [this_bind, hi, if_true]
  obtain ⟨b, k⟩ := s
  cases k with
  | none => rfl
  | some k => cases k <;> rfl

theorem writeAt_ok : ∀ {xs : List α} {i : Nat} {s : State α cap}, i + xs.length ≤ s.buf.contents.length →
    writeAt i xs s = .ok (s.after (splice s.buf.contents i (xs.take (made s.budget xs.length))) (made s.budget xs.length),
      if made s.budget xs.length = xs.length then some () else none) := by
  intro xs
  induction xs with
  | nil =>
    intro i s _
    obtain ⟨b, k⟩ := s
    cases k <;> simp [writeAt, made, State.after, splice_nil]
  | cons x xs ih =>
    intro i s h
    simp only [List.length_cons] at h
    have ha := assignAt_ok (s := s) (v := x) (show i < s.buf.contents.length by omega)
    unfold writeAt
    by_cases hb : s.budget = some 0
    · rw [if_pos hb] at ha
      rw [bind_none ha]
      obtain ⟨b, k⟩ := s
      simp only at hb
      subst hb
      simp [made, State.after, splice_nil]
    · rw [if_neg hb] at ha
      rw [bind_some ha, ih (by simp [State.after]; omega)]
      obtain ⟨b, k⟩ := s
      simp only [State.after] at h ⊢
      cases k with
      | none => simp [made, splice_set (show i < b.contents.length by omega)]
      | some k =>
        obtain ⟨k, rfl⟩ : ∃ j, k = j + 1 := ⟨k - 1, by
          have : k ≠ 0 := fun h => hb (by simp [h])
          omega⟩
        simp only [made, Option.map_some, Nat.add_sub_cancel, List.length_cons, Nat.add_min_add_right, Nat.add_right_cancel_iff,
          List.take_succ_cons, splice_set (show i < b.contents.length by omega), Nat.add_sub_add_right]

theorem copyLoop_ok : ∀ {n src dst : Nat} {s : State α cap}, src + n ≤ s.buf.contents.length → dst ≤ src →
    copyLoop src dst n s = .ok (s.after (splice s.buf.contents dst ((s.buf.contents.drop src).take (made s.budget n)))
      (made s.budget n), if made s.budget n = n then some () else none) := by
  intro n
  induction n with
  | zero =>
    intro src dst s _ _
    obtain ⟨b, k⟩ := s
    cases k <;> simp [copyLoop, made, State.after, splice_nil]
  | succ n ih =>
    intro src dst s h hd
    obtain ⟨v, hv⟩ : ∃ v, s.buf.contents[src]? = some v := ⟨_, List.getElem?_eq_getElem (by omega)⟩
    have ha := assignAt_ok (s := s) (v := v) (show dst < s.buf.contents.length by omega)
    have hdrop : s.buf.contents.drop src = v :: s.buf.contents.drop (src + 1) := by
      rw [List.drop_eq_getElem_cons (by omega)]
      congr 1
      rw [List.getElem?_eq_getElem (by omega)] at hv
      simpa using hv
    unfold copyLoop
    simp only [this_bind, rawGet, hv, lift_ok_bind]
    by_cases hb : s.budget = some 0
    · rw [if_pos hb] at ha
      rw [bind_none ha]
      obtain ⟨b, k⟩ := s
      simp only at hb
      subst hb
      simp [made, State.after, splice_nil]
    · rw [if_neg hb] at ha
      rw [bind_some ha, ih (by simp [State.after]; omega) (by omega), hdrop]
      obtain ⟨b, k⟩ := s
      simp only [State.after] at h ⊢
      rw [List.drop_set_of_lt (by omega)]
      cases k with
      | none => simp [made, splice_set (show dst < b.contents.length by omega)]
      | some k =>
        obtain ⟨k, rfl⟩ : ∃ j, k = j + 1 := ⟨k - 1, by
          have : k ≠ 0 := fun h => hb (by simp [h])
          omega⟩
        simp only [made, Option.map_some, Nat.add_sub_cancel, Nat.add_min_add_right, Nat.add_right_cancel_iff,
          List.take_succ_cons, splice_set (show dst < b.contents.length by omega), Nat.add_sub_add_right]

theorem made_le (b : Option Nat) (n : Nat) : made b n ≤ n := by cases b <;> simp [made]; omega

theorem made_ne {b : Option Nat} {n : Nat} (h : made b n ≠ n) : b ≠ none := by
  intro e
  subst e
  exact h rfl

/-! ### The calls -/

/-- What is left of `xs` if moving it to the front of the array throws: some elements at the front are overwritten with
elements from further back. -/
def Moved (xs zs : List α) : Prop :=
  zs = xs ∨ ∃ d k, 0 < d ∧ 0 < k ∧ d + k < xs.length ∧ zs = (xs.drop d).take k ++ xs.drop k

theorem slide_ok (hc : cap < 2 ^ 64) {s : State α cap} {xs : List α} (h : s.buf.Holds xs) (h0 : 0 < s.buf.begin_) :
    ∃ s' r, slideContentsForward s = .ok (s', r) ∧
      ((r = some () ∧ s'.buf.Holds xs ∧ s'.buf.begin_ = 0 ∧ (s.budget = none → s'.budget = none)) ∨ (r = none ∧ s.budget ≠ none ∧ ∃ zs, Moved xs zs ∧ s'.buf.Holds zs)) := by
  have hpe := h.pe
  have hle := h.le
  have hlen := h.len
  have hw : copyWithin s.buf.begin_ s.buf.pastEnd 0 s = copyLoop s.buf.begin_ 0 xs.length s := by
    unfold copyWithin
    rw [if_neg (by omega), if_neg (by omega), hpe, Nat.add_sub_cancel_left]
  have hl := copyLoop_ok (n := xs.length) (src := s.buf.begin_) (dst := 0) (s := s) (by omega) (by omega)
  have hsl : ∀ m, m ≤ xs.length → (s.buf.contents.drop s.buf.begin_).take m = xs.take m := by
    intro m hm
    apply List.ext_getElem?
    intro i
    simp only [List.getElem?_take, List.getElem?_drop]
    by_cases hi : i < m
    · rw [if_pos hi, if_pos hi, h.at_ i (by omega)]
    · rw [if_neg hi, if_neg hi]
  have hm := made_le s.budget xs.length
  rw [hsl _ hm] at hl
  unfold slideContentsForward
  simp only [this_bind]
  by_cases hall : made s.budget xs.length = xs.length
  · rw [if_pos hall] at hl
    rw [bind_some (hw.trans hl)]
    refine ⟨_, some (), rfl, .inl ⟨rfl, ?_, rfl, fun e => by simp [State.after, e]⟩⟩
    rw [hall, List.take_length]
    have hsz := h.size_eq hc
    simp only [size] at hsz
    refine ⟨by simp [State.after, size, hsz], ?_, by simp [State.after, size, hsz]; omega, ?_⟩
    · simp only [State.after]
      rw [splice_length (by omega), hlen]
    · intro i hi
      simp only [State.after, Nat.zero_add]
      rw [splice_get (by omega), if_neg (by omega), if_pos (by omega), Nat.sub_zero]
  · rw [if_neg hall] at hl
    rw [bind_none (hw.trans hl)]
    refine ⟨_, none, rfl, .inr ⟨rfl, made_ne hall, ?_⟩⟩
    generalize made s.budget xs.length = m at hl hm hall
    have hholds : ∀ zs : List α, zs.length = xs.length →
        (∀ i, i < xs.length → (if s.buf.begin_ + i < m then xs[s.buf.begin_ + i]? else xs[i]?) = zs[i]?) →
        (s.after (splice s.buf.contents 0 (xs.take m)) m).buf.Holds zs := by
      intro zs hz hat
      refine ⟨by simp [State.after, hpe, hz], ?_, by simp [State.after, hle], ?_⟩
      · simp only [State.after]
        rw [splice_length (by simp; omega), hlen]
      · intro i hi
        simp only [State.after]
        rw [splice_get (by simp; omega), if_neg (by omega), ← hat i (by omega)]
        by_cases h1 : s.buf.begin_ + i < m
        · rw [if_pos (by simp; omega), if_pos h1, Nat.sub_zero, List.getElem?_take, if_pos h1]
        · rw [if_neg (by simp; omega), if_neg h1, h.at_ i (by omega)]
    by_cases hmb : m ≤ s.buf.begin_
    · exact ⟨xs, .inl rfl, hholds xs rfl fun i _ => by rw [if_neg (by omega)]⟩
    · refine ⟨(xs.drop s.buf.begin_).take (m - s.buf.begin_) ++ xs.drop (m - s.buf.begin_),
        .inr ⟨s.buf.begin_, m - s.buf.begin_, h0, by omega, by omega, rfl⟩, hholds _ (by simp; omega) ?_⟩
      intro i hi
      rw [List.getElem?_append]
      simp only [List.length_take, List.length_drop, List.getElem?_take, List.getElem?_drop]
      by_cases h1 : s.buf.begin_ + i < m
      · rw [if_pos h1, if_pos (by omega), if_pos (by omega)]
      · rw [if_neg h1, if_neg (by omega)]
        congr 1
        omega

theorem ensureSpace_ok (ha : Arith B cap) {s : State α cap} {xs : List α} {n : Nat} (h : s.buf.Holds xs)
    (hn : xs.length + n ≤ cap) :
    ∃ s' r, ensureSpace B n s = .ok (s', r) ∧
      ((r = some () ∧ s'.buf.Holds xs ∧ s'.buf.pastEnd + n ≤ cap ∧ (s.budget = none → s'.budget = none)) ∨
        (r = none ∧ s.budget ≠ none ∧ s.buf.pastEnd + n > cap ∧ ∃ zs, Moved xs zs ∧ s'.buf.Holds zs)) := by
  have hc := ha.lt64
  have hpe := h.pe
  have hle := h.le
  unfold ensureSpace
  simp only [this_bind, change_bind]
  generalize hb : (if s.buf.empty = true then { s.buf with begin_ := 0, pastEnd := 0 } else s.buf) = b
  have hbh : b.Holds xs ∧ b.pastEnd ≤ s.buf.pastEnd ∧ (xs = [] → b.begin_ = 0) := by
    rw [h.empty_eq] at hb
    cases xs with
    | nil =>
      simp only [List.isEmpty_nil, if_true] at hb
      subst hb
      exact ⟨⟨rfl, h.len, by simp, by simp⟩, by simp, fun _ => rfl⟩
    | cons x xs =>
      simp only [List.isEmpty_cons, Bool.false_eq_true, if_false] at hb
      subst hb
      exact ⟨h, Nat.le_refl _, by simp⟩
  obtain ⟨hbh, hbl, hb0⟩ := hbh
  have hbpe := hbh.pe
  have hble := hbh.le
  by_cases hfit : b.pastEnd + n ≤ cap
  · by_cases hz : cap = 0
    · subst hz
      have : promAdd B 0 b.pastEnd n = 0 := by
        rw [show b.pastEnd = 0 by omega, show n = 0 by omega]
        simp [promAdd]
      rw [this, if_pos (by omega)]
      exact ⟨_, some (), rfl, .inl ⟨rfl, hbh, hfit, id⟩⟩
    · rw [promAdd_of_lt ha (by omega), if_pos hfit]
      exact ⟨_, some (), rfl, .inl ⟨rfl, hbh, hfit, id⟩⟩
  · have hz : b.pastEnd + n < 2 * cap := by
      cases xs with
      | nil =>
        have := hb0 rfl
        simp only [List.length_nil] at hbpe hn
        omega
      | cons x xs => simp only [List.length_cons] at hn; omega
    rw [promAdd_of_lt ha hz, if_neg hfit, hbh.size_eq hc, promAdd_of_lt ha (by omega), assertMsg_of (by simpa using hn)]
    simp only [lift_ok_bind]
    obtain ⟨s', r, h1, h2⟩ := slide_ok hc (s := ⟨b, s.budget⟩) hbh (by simp only; omega)
    refine ⟨s', r, h1, ?_⟩
    rcases h2 with ⟨rfl, h3, h4, h5⟩ | ⟨rfl, h3, h4⟩
    · have := h3.pe
      exact .inl ⟨rfl, h3, by omega, h5⟩
    · exact .inr ⟨rfl, h3, by omega, h4⟩

theorem pushBackRange_ok (ha : Arith B cap) {s : State α cap} {xs ys : List α} (h : s.buf.Holds xs)
    (hn : xs.length + ys.length ≤ cap) :
    ∃ s' r, pushBackRange B ys s = .ok (s', r) ∧
      ((r = some () ∧ s'.buf.Holds (xs ++ ys)) ∨
        (r = none ∧ s.budget ≠ none ∧ ∃ zs, Moved xs zs ∧ (s.buf.pastEnd + ys.length ≤ cap → zs = xs) ∧ s'.buf.Holds zs)) := by
  have hc := ha.lt64
  unfold pushBackRange
  rw [trunc_of_le hc (by omega)]
  obtain ⟨s1, r1, h1, h2⟩ := ensureSpace_ok ha h hn
  rcases h2 with ⟨rfl, h3, h4, h5⟩ | ⟨rfl, h3, h4, zs, h5, h6⟩
  · rw [bind_some h1]
    simp only [this_bind]
    have hpe := h3.pe
    have hlen := h3.len
    have hw := writeAt_ok (xs := ys) (i := s1.buf.pastEnd) (s := s1) (by omega)
    have hm := made_le s1.budget ys.length
    by_cases hall : made s1.budget ys.length = ys.length
    · rw [if_pos hall, hall, List.take_length] at hw
      rw [bind_some hw]
      simp only [this_bind, change_bind, verifyInvariants, State.after]
      rw [trunc_of_le hc (by omega), assertMsg_of (by simp; omega), assertMsg_of (by simp; omega)]
      refine ⟨_, some (), rfl, .inl ⟨rfl, ?_⟩⟩
      refine ⟨by simp [hpe]; omega, ?_, by simp only; omega, ?_⟩
      · simp only
        rw [splice_length (by omega), hlen]
      · intro i hi
        simp only [List.length_append] at hi ⊢
        rw [splice_get (by omega), List.getElem?_append]
        by_cases h6 : i < xs.length
        · rw [if_pos (by omega), if_pos h6, h3.at_ i h6]
        · rw [if_neg (by omega), if_pos (by omega), if_neg h6]
          congr 1
          omega
    · rw [if_neg hall] at hw
      rw [bind_none hw]
      refine ⟨_, none, rfl, .inr ⟨rfl, ?_, xs, .inl rfl, fun _ => rfl, ?_⟩⟩
      · exact fun e => made_ne hall (h5 e)
      · refine ⟨by simp [State.after, hpe], ?_, by simp only [State.after]; exact h3.le, ?_⟩
        · simp only [State.after]
          rw [splice_length (by simp; omega), hlen]
        · intro i hi
          simp only [State.after]
          rw [splice_get (by simp; omega), if_pos (by omega), h3.at_ i hi]
  · rw [bind_none h1]
    exact ⟨s1, none, rfl, .inr ⟨rfl, h3, zs, h5, fun hle => by omega, h6⟩⟩

theorem pushBack_ok (ha : Arith B cap) {s : State α cap} {xs : List α} {x : α} (h : s.buf.Holds xs)
    (hn : xs.length + 1 ≤ cap) :
    ∃ s' r, pushBack B x s = .ok (s', r) ∧
      ((r = some () ∧ s'.buf.Holds (xs ++ [x])) ∨
        (r = none ∧ s.budget ≠ none ∧ ((∃ zs, Moved xs zs ∧ s.buf.pastEnd + 1 > cap ∧ s'.buf.Holds zs) ∨
          ∃ y, s'.buf.Holds (xs ++ [y])))) := by
  have hc := ha.lt64
  unfold pushBack incrementPastEnd
  obtain ⟨s1, r1, h1, h2⟩ := ensureSpace_ok ha h hn
  rcases h2 with ⟨rfl, h3, h4, h5⟩ | ⟨rfl, h3, h4, zs, h5, h6⟩
  · have hpe := h3.pe
    have hlen := h3.len
    have hinc : ((do
        ensureSpace B 1
        let b ← this
        let b := { b with pastEnd := trunc cap (b.pastEnd + 1) }
        change b
        lift (assertMsg B (decide (b.pastEnd ≤ cap)))) : Code α cap Unit) s =
        .ok (⟨{ s1.buf with pastEnd := s1.buf.pastEnd + 1 }, s1.budget⟩, some ()) := by
      rw [bind_some h1]
      simp only [this_bind, change_bind]
      rw [trunc_of_le hc (by omega), assertMsg_of (by simp; omega)]
      rfl
    rw [bind_some hinc]
    obtain ⟨y, hy⟩ : ∃ y, s1.buf.contents[s1.buf.begin_ + xs.length]? = some y :=
      ⟨_, List.getElem?_eq_getElem (by omega)⟩
    have hh : Holds (⟨s1.buf.begin_, s1.buf.pastEnd + 1, s1.buf.contents⟩ : GB α cap) (xs ++ [y]) := by
      refine ⟨by simp; omega, hlen, by simp only; omega, ?_⟩
      intro i hi
      simp only [List.length_append, List.length_singleton] at hi
      rw [List.getElem?_append]
      by_cases h6 : i < xs.length
      · rw [if_pos h6, h3.at_ i h6]
      · rw [if_neg h6, show i = xs.length by omega, hy]
        simp
    have hsz := hh.size_eq hc
    simp only [List.length_append, List.length_singleton] at hsz
    simp only [this_bind, place, adjustedIndex]
    rw [hsz, subT_of_le hc (by omega) (by omega), Nat.add_sub_cancel, assertMsg_of (by simp), trunc_of_le hc (by omega)]
    simp only [ok_bind, pure_eq_ok, lift_ok_bind]
    rw [assignAt_ok (by simp only; omega)]
    by_cases hb : s1.budget = some 0
    · simp only [hb, if_true]
      exact ⟨_, none, rfl, .inr ⟨rfl, fun e => (by rw [h5 e] at hb; cases hb), .inr ⟨y, hh⟩⟩⟩
    · simp only [hb, if_false]
      refine ⟨_, some (), rfl, .inl ⟨rfl, ?_⟩⟩
      refine ⟨by simp [State.after]; omega, by simp [State.after, hlen], by simp only [State.after]; omega, ?_⟩
      intro i hi
      simp only [List.length_append, List.length_singleton] at hi
      simp only [State.after, List.getElem?_set]
      rw [List.getElem?_append]
      by_cases h6 : i < xs.length
      · rw [if_neg (by omega), if_pos h6, h3.at_ i h6]
      · rw [if_pos (by omega), if_pos (by omega), if_neg h6, show i - xs.length = 0 by omega]
        rfl
  · have hinc : ((do
        ensureSpace B 1
        let b ← this
        let b := { b with pastEnd := trunc cap (b.pastEnd + 1) }
        change b
        lift (assertMsg B (decide (b.pastEnd ≤ cap)))) : Code α cap Unit) s = .ok (s1, none) := bind_none h1
    rw [bind_none hinc]
    exact ⟨s1, none, rfl, .inr ⟨rfl, h3, .inl ⟨zs, h5, h4, h6⟩⟩⟩

theorem incrementLoop_ok (hc : cap < 2 ^ 64) : ∀ {n : Nat} {s : State α cap} {xs : List α}, s.buf.Holds xs → n ≤ xs.length →
    ∃ s', incrementLoop B n s = .ok (s', some ()) ∧ s'.buf.Holds (xs.drop n) ∧ s'.buf.contents = s.buf.contents := by
  intro n
  induction n with
  | zero => intro s xs h _; exact ⟨s, rfl, h, rfl⟩
  | succ n ih =>
    intro s xs h hn
    have hpe := h.pe
    have hle := h.le
    unfold incrementLoop
    simp only [this_bind]
    rw [assertMsg_of (by simp; omega), trunc_of_le hc (by omega)]
    simp only [lift_ok_bind, change_bind]
    obtain ⟨s', h1, h2, h3⟩ := ih (s := ⟨⟨s.buf.begin_ + 1, s.buf.pastEnd, s.buf.contents⟩, s.budget⟩) (xs := xs.drop 1)
      ⟨by simp; omega, h.len, hle, fun i hi => by
        simp only [List.length_drop] at hi
        rw [List.getElem?_drop, ← h.at_ (1 + i) (by omega), Nat.add_assoc]⟩ (by simp; omega)
    exact ⟨s', h1, by simpa [Nat.add_comm] using h2, h3⟩

theorem decrementLoop_ok (hc : cap < 2 ^ 64) : ∀ {n : Nat} {s : State α cap} {xs : List α}, s.buf.Holds xs → n ≤ xs.length →
    ∃ s', decrementLoop B n s = .ok (s', some ()) ∧ s'.buf.Holds (xs.take (xs.length - n)) ∧
      s'.buf.contents = s.buf.contents := by
  intro n
  induction n with
  | zero => intro s xs h _; exact ⟨s, rfl, by simpa using h, rfl⟩
  | succ n ih =>
    intro s xs h hn
    have hpe := h.pe
    have hle := h.le
    unfold decrementLoop
    simp only [this_bind]
    rw [assertMsg_of (by simp; omega), subT_of_le hc (by omega) (by omega)]
    simp only [lift_ok_bind, change_bind]
    obtain ⟨s', h1, h2, h3⟩ := ih (s := ⟨⟨s.buf.begin_, s.buf.pastEnd - 1, s.buf.contents⟩, s.budget⟩)
      (xs := xs.take (xs.length - 1))
      ⟨by simp; omega, h.len, by simp only; omega, fun i hi => by
        simp only [List.length_take] at hi
        rw [List.getElem?_take, if_pos (by omega), ← h.at_ i (by omega)]⟩ (by simp; omega)
    refine ⟨s', h1, ?_, h3⟩
    rw [List.take_take, List.length_take] at h2
    rw [show min (min (xs.length - 1) xs.length - n) (xs.length - 1) = xs.length - (n + 1) by omega] at h2
    exact h2

theorem copyElement_cases (s : State α cap) :
    (s.budget = some 0 ∧ copyElement s = .ok (s, none)) ∨ ∃ k, copyElement s = .ok (⟨s.buf, k⟩, some ()) := by
  obtain ⟨b, k⟩ := s
  cases k with
  | none => exact .inr ⟨none, rfl⟩
  | some k =>
    cases k with
    | zero => exact .inl ⟨rfl, rfl⟩
    | succ k => exact .inr ⟨some k, rfl⟩

theorem popFront_ok (hc : cap < 2 ^ 64) {s : State α cap} {xs : List α} {n : Nat} (h : s.buf.Holds xs) {v : α}
    (hv : xs.head? = some v) (hn : n ≤ xs.length) :
    ∃ s' r, popFront B n s = .ok (s', r) ∧ s'.buf.contents = s.buf.contents ∧
      ((r = some v ∧ s'.buf.Holds (xs.drop n)) ∨ (r = none ∧ s.budget ≠ none ∧ s' = s)) := by
  unfold popFront
  simp only [this_bind]
  rw [h.get_ok hc (by rw [← List.head?_eq_getElem?, hv])]
  simp only [lift_ok_bind]
  rcases copyElement_cases s with ⟨h0, h1⟩ | ⟨k, h1⟩
  · rw [bind_none h1]
    exact ⟨s, none, rfl, rfl, .inr ⟨rfl, by simp [h0], rfl⟩⟩
  · rw [bind_some h1]
    obtain ⟨s', h2, h3, h4⟩ := incrementLoop_ok (B := B) hc (s := ⟨s.buf, k⟩) h hn
    rw [bind_some h2]
    exact ⟨s', some v, rfl, h4, .inl ⟨rfl, h3⟩⟩

theorem popBack_ok (hc : cap < 2 ^ 64) {s : State α cap} {xs : List α} {n : Nat} (h : s.buf.Holds xs) {v : α}
    (hv : xs.getLast? = some v) (hn : n ≤ xs.length) :
    ∃ s' r, popBack B n s = .ok (s', r) ∧ s'.buf.contents = s.buf.contents ∧
      ((r = some v ∧ s'.buf.Holds (xs.take (xs.length - n))) ∨ (r = none ∧ s.budget ≠ none ∧ s' = s)) := by
  have hpos : 0 < xs.length := by
    cases xs with
    | nil => simp at hv
    | cons _ _ => simp
  have hle := h.length_le
  unfold popBack
  simp only [this_bind]
  rw [h.size_eq hc, subT_of_le hc (by omega) (by omega),
    h.get_ok hc (by rw [← List.getLast?_eq_getElem?, hv])]
  simp only [lift_ok_bind]
  rcases copyElement_cases s with ⟨h0, h1⟩ | ⟨k, h1⟩
  · rw [bind_none h1]
    exact ⟨s, none, rfl, rfl, .inr ⟨rfl, by simp [h0], rfl⟩⟩
  · rw [bind_some h1]
    obtain ⟨s', h2, h3, h4⟩ := decrementLoop_ok (B := B) hc (s := ⟨s.buf, k⟩) h hn
    rw [bind_some h2]
    exact ⟨s', some v, rfl, h4, .inl ⟨rfl, h3⟩⟩

theorem erase_ok (hc : cap < 2 ^ 64) {s : State α cap} {xs : List α} {i j : Nat} (h : s.buf.Holds xs) (hij : i < j)
    (hj : j ≤ xs.length) :
    ∃ s' r, erase B (s.buf.begin_ + i) (s.buf.begin_ + j) s = .ok (s', r) ∧
      ((r = some (s'.buf.begin_ + i) ∧ s'.buf.Holds (xs.take i ++ xs.drop j)) ∨
        (r = none ∧ s.budget ≠ none ∧ ∃ k, (k = 0 ∨ j + k < xs.length) ∧ (i = 0 → k = 0) ∧
          s'.buf.Holds (xs.take i ++ (xs.drop j).take k ++ xs.drop (i + k)))) := by
  have hpe := h.pe
  have hle := h.le
  have hlen := h.len
  unfold erase
  simp only [this_bind]
  rw [subT_of_le (a := s.buf.begin_ + i) hc (by omega) (by omega),
    subT_of_le (a := s.buf.begin_ + j) hc (by omega) (by omega), Nat.add_sub_cancel_left,
    Nat.add_sub_cancel_left, assertMsg_of (by simp; omega), subT_of_le hc (by omega) (by omega)]
  simp only [lift_ok_bind]
  rw [if_neg (by omega), assertMsg_of (by simp [h.size_eq hc]; omega)]
  simp only [lift_ok_bind]
  by_cases hi : i = 0
  · subst hi
    simp only [if_true]
    obtain ⟨v, hv⟩ : ∃ v, xs.head? = some v := by
      cases xs with
      | nil => simp at hj; omega
      | cons x xs => exact ⟨x, rfl⟩
    obtain ⟨s', r, h1, _, h2⟩ := popFront_ok (B := B) hc h hv (n := j) (by omega)
    rw [Nat.sub_zero]
    rcases h2 with ⟨rfl, h2⟩ | ⟨rfl, h2, rfl⟩
    · rw [bind_some h1]
      exact ⟨s', _, rfl, .inl ⟨rfl, by simpa using h2⟩⟩
    · rw [bind_none h1]
      exact ⟨_, none, rfl, .inr ⟨rfl, h2, 0, .inl rfl, fun _ => rfl, by simpa using h⟩⟩
  · rw [if_neg hi]
    by_cases hl : j = xs.length
    · rw [if_pos (by omega)]
      obtain ⟨v, hv⟩ : ∃ v, xs.getLast? = some v := by
        cases hg : xs.getLast? with
        | some v => exact ⟨v, rfl⟩
        | none =>
          rw [List.getLast?_eq_none_iff] at hg
          subst hg
          simp at hj
          omega
      obtain ⟨s', r, h1, _, h2⟩ := popBack_ok (B := B) hc h hv (n := j - i) (by omega)
      rcases h2 with ⟨rfl, h2⟩ | ⟨rfl, h2, rfl⟩
      · rw [bind_some h1]
        refine ⟨s', _, rfl, .inl ⟨rfl, ?_⟩⟩
        rw [hl, List.drop_length, List.append_nil]
        rw [show xs.length - (j - i) = i by omega] at h2
        exact h2
      · rw [bind_none h1]
        exact ⟨_, none, rfl, .inr ⟨rfl, h2, 0, .inl rfl, fun _ => rfl, by simpa using h⟩⟩
    · rw [if_neg (by omega), assertMsg_of (by simp; omega), assertMsg_of (by simp [h.size_eq hc]; omega)]
      simp only [lift_ok_bind]
      have hw : copyWithin (s.buf.begin_ + j) s.buf.pastEnd (s.buf.begin_ + i) s =
          copyLoop (s.buf.begin_ + j) (s.buf.begin_ + i) (xs.length - j) s := by
        unfold copyWithin
        rw [if_neg (by omega), if_neg (by omega), hpe]
        congr 1
        omega
      have hcl := copyLoop_ok (n := xs.length - j) (src := s.buf.begin_ + j) (dst := s.buf.begin_ + i) (s := s) (by omega)
        (by omega)
      have hm := made_le s.budget (xs.length - j)
      have hholds : ∀ m, m ≤ xs.length - j →
          (s.after (splice s.buf.contents (s.buf.begin_ + i) ((s.buf.contents.drop (s.buf.begin_ + j)).take m)) m).buf.Holds
            (xs.take i ++ (xs.drop j).take m ++ xs.drop (i + m)) := by
        intro m hm
        have hz : (xs.take i ++ (xs.drop j).take m ++ xs.drop (i + m)).length = xs.length := by simp; omega
        refine ⟨by rw [hz]; simp [State.after, hpe], ?_, by simp only [State.after]; exact hle, ?_⟩
        · simp only [State.after]
          rw [splice_length (by simp; omega), hlen]
        · intro n hn
          rw [hz] at hn
          simp only [State.after]
          have l1 : ((xs.drop j).take m).length = m := by simp; omega
          have l2 : ((s.buf.contents.drop (s.buf.begin_ + j)).take m).length = m := by simp; omega
          have e : xs.take i ++ (xs.drop j).take m ++ xs.drop (i + m) = splice xs i ((xs.drop j).take m) := by
            rw [splice, l1]
          rw [e, splice_get (by omega), splice_get (by omega), l1, l2]
          by_cases h1 : n < i
          · rw [if_pos (by omega), if_pos h1, h.at_ n hn]
          · rw [if_neg (by omega), if_neg h1]
            by_cases h2 : n < i + m
            · rw [if_pos (by omega), if_pos h2]
              simp only [List.getElem?_take, List.getElem?_drop]
              rw [if_pos (by omega), if_pos (by omega), Nat.add_assoc, h.at_ _ (by omega)]
              congr 1
              omega
            · rw [if_neg (by omega), if_neg h2, h.at_ n hn]
      by_cases hall : made s.budget (xs.length - j) = xs.length - j
      · rw [if_pos hall, hall] at hcl
        rw [bind_some (hw.trans hcl)]
        obtain ⟨s', h1, h2, _⟩ := decrementLoop_ok (B := B) hc (hholds (xs.length - j) (Nat.le_refl _)) (n := j - i) (by simp; omega)
        rw [bind_some h1]
        refine ⟨s', _, rfl, .inl ⟨rfl, ?_⟩⟩
        rw [List.take_of_length_le (l := xs.drop j) (by simp)] at h2
        rw [List.take_append_of_le_length (by simp; omega), List.take_of_length_le (by simp; omega)] at h2
        exact h2
      · rw [if_neg hall] at hcl
        rw [bind_none (hw.trans hcl)]
        exact ⟨_, none, rfl, .inr ⟨rfl, made_ne hall, _, .inr (by omega), fun e => absurd e hi, hholds _ hm⟩⟩

theorem assign_ok (hc : cap < 2 ^ 64) {s : State α cap} {src : GB α cap} {xs ys : List α} (h : s.buf.Holds ys)
    (hs : src.Holds xs) :
    ∃ s' r, assign src s = .ok (s', r) ∧
      ((r = some () ∧ s'.buf.Holds xs) ∨
        (r = none ∧ s.budget ≠ none ∧ ∃ d k, k < xs.length ∧
          s'.buf.Holds (((xs.take k).drop d).take ys.length ++ ys.drop (k - d)))) := by
  have hpe := h.pe
  have hle := h.le
  have hlen := h.len
  have hpe' := hs.pe
  have hle' := hs.le
  have hlen' := hs.len
  have hxs : (src.contents.drop src.begin_).take (src.pastEnd - src.begin_) = xs := by
    apply List.ext_getElem?
    intro i
    simp only [List.getElem?_take, List.getElem?_drop]
    by_cases hi : i < xs.length
    · rw [if_pos (by omega), hs.at_ i hi]
    · rw [if_neg (by omega), List.getElem?_eq_none (by omega)]
  unfold assign
  rw [if_neg (by omega), hxs]
  have hw := writeAt_ok (xs := xs) (i := 0) (s := s) (by omega)
  have hm := made_le s.budget xs.length
  by_cases hall : made s.budget xs.length = xs.length
  · rw [if_pos hall, hall, List.take_length] at hw
    rw [bind_some hw]
    refine ⟨_, some (), rfl, .inl ⟨rfl, ?_⟩⟩
    refine ⟨by simp [hs.size_eq hc], ?_, by simp only [hs.size_eq hc]; exact hs.length_le, ?_⟩
    · simp only [State.after]
      rw [splice_length (by omega), hlen]
    · intro i hi
      simp only [State.after, Nat.zero_add]
      rw [splice_get (by omega), if_neg (by omega), if_pos (by omega), Nat.sub_zero]
  · rw [if_neg hall] at hw
    rw [bind_none hw]
    refine ⟨_, none, rfl, .inr ⟨rfl, made_ne hall, s.buf.begin_, made s.budget xs.length, by omega, ?_⟩⟩
    generalize made s.budget xs.length = m at hw hm hall
    have hz : (((xs.take m).drop s.buf.begin_).take ys.length ++ ys.drop (m - s.buf.begin_)).length = ys.length := by
      simp; omega
    refine ⟨by rw [hz]; simp [State.after, hpe], ?_, by simp only [State.after]; exact hle, ?_⟩
    · simp only [State.after]
      rw [splice_length (by simp; omega), hlen]
    · intro i hi
      rw [hz] at hi
      simp only [State.after]
      rw [splice_get (by simp; omega), if_neg (by omega), List.getElem?_append]
      simp only [List.length_take, List.length_drop, List.getElem?_take, List.getElem?_drop]
      by_cases h1 : s.buf.begin_ + i < m
      · rw [if_pos (by omega), if_pos (by omega), if_pos hi, if_pos h1, if_pos (by omega), Nat.sub_zero]
      · rw [if_neg (by omega), if_neg (by omega), h.at_ i hi]
        congr 1
        omega

end TT.GB
