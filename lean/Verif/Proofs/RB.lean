import Verif.Model.ReceiveBuffer
import Verif.Spec.Arith

/-!
# Helper lemmas: `ReceiveBuffer` refines a list
-/

namespace TT

theorem lt_two_pow_leastBits {n : Nat} (h : n < 2 ^ 64) : n < 2 ^ leastBits n := by
  unfold leastBits
  split
  · assumption
  · split
    · assumption
    · split <;> assumption

theorem trunc_of_le {n x : Nat} (h : n < 2 ^ 64) (hx : x ≤ n) : trunc n x = x :=
  Nat.mod_eq_of_lt (Nat.lt_of_le_of_lt hx (lt_two_pow_leastBits h))

theorem subT_of_le {n a b : Nat} (h : n < 2 ^ 64) (ha : a ≤ n) (hb : b ≤ a) :
    subT n a b = a - b := by
  have hlt := lt_two_pow_leastBits h
  unfold subT
  rw [Nat.mod_eq_of_lt (show b < 2 ^ leastBits n by omega)]
  have : a + (2 ^ leastBits n - b) = (a - b) + 2 ^ leastBits n := by omega
  rw [this, Nat.add_mod_right]
  exact Nat.mod_eq_of_lt (by omega)

theorem promAdd_of_lt {B : Build} {n a b : Nat} (h : Arith B n) (hab : a + b < 2 * n) :
    promAdd B n a b = a + b :=
  Nat.mod_eq_of_lt (Nat.lt_of_lt_of_le hab h.dbl)

@[simp] theorem assertMsg_true (B : Build) : assertMsg B true = .ok () := by
  simp [assertMsg]

theorem assertMsg_of {B : Build} {p : Bool} (h : p = true) : assertMsg B p = .ok () := by
  simp [h]

@[simp] theorem ok_bind {α β : Type} (a : α) (f : α → Res β) :
    ((Except.ok a : Res α) >>= f) = f a := rfl

@[simp] theorem error_bind {α β : Type} (e : Fault) (f : α → Res β) :
    ((Except.error e : Res α) >>= f) = .error e := rfl

@[simp] theorem pure_eq_ok {α : Type} (a : α) : (pure a : Res α) = .ok a := rfl

namespace RB

/-- `b` is a valid buffer whose elements, front to back, are `xs`. -/
structure Holds {cap : Nat} (b : RB cap) (xs : List Byte) : Prop where
  split : ∃ pre post, b.contents = pre ++ xs ++ post ∧ pre.length = b.begin_
  pe : b.pastEnd = b.begin_ + xs.length
  len : b.contents.length = cap

variable {cap : Nat}

theorem Holds.pastEnd_le {b : RB cap} {xs : List Byte} (h : b.Holds xs) : b.pastEnd ≤ cap := by
  obtain ⟨pre, post, hs, hp⟩ := h.split
  have := h.len
  have := h.pe
  rw [hs] at *
  simp at *
  omega

theorem Holds.length_le {b : RB cap} {xs : List Byte} (h : b.Holds xs) : xs.length ≤ cap := by
  have := h.pastEnd_le
  have := h.pe
  omega

theorem Holds.getElem? {b : RB cap} {xs : List Byte} (h : b.Holds xs) {i : Nat}
    (hi : i < xs.length) : b.contents[b.begin_ + i]? = some xs[i] := by
  obtain ⟨pre, post, hs, hp⟩ := h.split
  rw [hs, ← hp, List.append_assoc, List.getElem?_append_right (by omega),
    Nat.add_sub_cancel_left, List.getElem?_append_left hi, List.getElem?_eq_getElem hi]

theorem holds_unique {b : RB cap} {xs ys : List Byte} (h : b.Holds xs) (h' : b.Holds ys) :
    xs = ys := by
  have hl : xs.length = ys.length := by
    have := h.pe
    have := h'.pe
    omega
  apply List.ext_getElem hl
  intro i h1 h2
  have e1 := h.getElem? h1
  have e2 := h'.getElem? h2
  rw [e1] at e2
  simpa using e2

theorem holds_new (cap : Nat) : (RB.new cap).Holds [] :=
  ⟨⟨[], List.replicate cap 0, by simp [RB.new], rfl⟩, rfl, by simp [RB.new]⟩

theorem Holds.size_eq {b : RB cap} {xs : List Byte} (hc : cap < 2 ^ 64) (h : b.Holds xs) :
    b.size = xs.length := by
  unfold size
  rw [subT_of_le hc h.pastEnd_le (by have := h.pe; omega), h.pe]
  omega

theorem Holds.empty_eq {b : RB cap} {xs : List Byte} (h : b.Holds xs) :
    b.empty = xs.isEmpty := by
  unfold empty
  rw [h.pe]
  cases xs <;> simp

theorem Holds.get_ok {b : RB cap} {xs : List Byte} (hc : cap < 2 ^ 64) (h : b.Holds xs)
    (B : Build) {i : Nat} (hi : i < xs.length) : b.get B i = .ok xs[i] := by
  unfold get adjustedIndex
  rw [h.size_eq hc, assertMsg_of (by simpa using hi)]
  have := h.pastEnd_le
  have := h.pe
  rw [trunc_of_le hc (by omega)]
  simp [rawGet, h.getElem? hi]

theorem Holds.front_ok {b : RB cap} {x : Byte} {xs : List Byte} (hc : cap < 2 ^ 64)
    (h : b.Holds (x :: xs)) (B : Build) : b.front B = .ok x := by
  unfold front
  rw [h.get_ok hc B (by simp)]
  rfl

theorem Holds.back_ok {b : RB cap} {x : Byte} {xs : List Byte} (hc : cap < 2 ^ 64)
    (h : b.Holds (xs ++ [x])) (B : Build) : b.back B = .ok x := by
  unfold back
  have := h.length_le
  rw [h.size_eq hc, subT_of_le hc (by omega) (by simp), h.get_ok hc B (by simp)]
  simp

theorem Holds.set_ok {b : RB cap} {xs : List Byte} (hc : cap < 2 ^ 64) (h : b.Holds xs)
    {i : Nat} (hi : i < xs.length) (v : Byte) :
    ∃ b' : RB cap, (∀ B, b.set B i v = .ok b') ∧ b'.Holds (xs.set i v) ∧ b'.begin_ = b.begin_ ∧
      b'.pastEnd = b.pastEnd := by
  have h1 := h.pastEnd_le
  have h2 := h.pe
  have h3 := h.len
  refine ⟨{ b with contents := b.contents.set (b.begin_ + i) v }, fun B => ?_,
    ⟨?_, by simpa using h2, by simpa using h3⟩, rfl, rfl⟩
  · unfold set adjustedIndex
    rw [h.size_eq hc, assertMsg_of (by simpa using hi), trunc_of_le hc (by omega)]
    simp only [rawSet, ok_bind]
    rw [if_pos (by omega)]
    rfl
  obtain ⟨pre, post, hs, hp⟩ := h.split
  refine ⟨pre, post, ?_, hp⟩
  simp only [hs]
  rw [List.append_assoc, List.set_append_right _ _ (by omega), List.set_append_left _ _ (by omega),
    ← List.append_assoc]
  congr 3
  omega

theorem holds_clear {b : RB cap} {xs : List Byte} (h : b.Holds xs) : b.clear.Holds [] :=
  ⟨⟨[], b.contents, by simp [clear], rfl⟩, rfl, h.len⟩

/-! ### Element copies -/

theorem copyLoop_ok (n : Nat) : ∀ (l : List Byte) (src dst : Nat), dst < src →
    src + n ≤ l.length →
    copyLoop l src dst n = .ok (l.take dst ++ (l.drop src).take n ++ l.drop (dst + n)) := by
  induction n with
  | zero => intro l src dst _ _; simp [copyLoop]
  | succ n ih =>
    intro l src dst hlt hle
    have hsrc : src < l.length := by omega
    have hdst : dst < l.length := by omega
    simp only [copyLoop, rawGet, List.getElem?_eq_getElem hsrc, ok_bind, rawSet, hdst, if_true]
    rw [ih _ _ _ (by omega) (by simp; omega)]
    congr 1
    rw [List.take_succ_eq_append_getElem (by simp; omega), List.drop_set_of_lt (by omega),
      List.drop_set_of_lt (by omega), List.take_set_of_le (by omega)]
    simp only [List.getElem_set_self]
    rw [List.drop_eq_getElem_cons hsrc, List.take_succ_cons,
      show dst + 1 + n = dst + (n + 1) by omega]
    simp

theorem writeAt_ok (xs : List Byte) : ∀ (l : List Byte) (i : Nat), i + xs.length ≤ l.length →
    writeAt l i xs = .ok (l.take i ++ xs ++ l.drop (i + xs.length)) := by
  induction xs with
  | nil => intro l i _; simp [writeAt]
  | cons x xs ih =>
    intro l i hle
    simp only [List.length_cons] at hle
    have hi : i < l.length := by omega
    simp only [writeAt, rawSet, hi, if_true, ok_bind]
    rw [ih _ _ (by simp; omega)]
    congr 1
    rw [List.take_succ_eq_append_getElem (by simp; omega), List.drop_set_of_lt (by omega),
      List.take_set_of_le (by omega)]
    simp only [List.getElem_set_self, List.append_assoc, List.cons_append, List.nil_append,
      List.length_cons]
    rw [show i + 1 + xs.length = i + (xs.length + 1) by omega]

theorem writeAt_ub (xs : List Byte) : ∀ (l : List Byte) (i : Nat), xs ≠ [] →
    l.length < i + xs.length → writeAt l i xs = .error .ub := by
  induction xs with
  | nil => intro l i h; exact absurd rfl h
  | cons x xs ih =>
    intro l i _ hlt
    simp only [writeAt, rawSet]
    split
    · simp only [ok_bind]
      cases xs with
      | nil => simp at hlt; omega
      | cons y ys => exact ih _ _ (by simp) (by simp at *; omega)
    · rfl

/-! ### Moving the contents -/

theorem Holds.slide_ok {b : RB cap} {xs : List Byte} (hc : cap < 2 ^ 64) (h : b.Holds xs)
    (hb : 0 < b.begin_ ∨ xs = []) :
    ∃ b' : RB cap, b.slideContentsForward = .ok b' ∧ b'.Holds xs ∧ b'.begin_ = 0 := by
  have h1 := h.pastEnd_le
  have h2 := h.pe
  have h3 := h.len
  unfold slideContentsForward copyWithin
  rw [if_neg (by omega)]
  by_cases hx : xs = []
  · subst hx
    simp at h2
    rw [if_neg (by omega), h2, Nat.sub_self]
    refine ⟨_, rfl, ⟨⟨[], b.contents, by simp, rfl⟩, ?_, h3⟩, rfl⟩
    simp [h.size_eq hc]
  · have hb0 : 0 < b.begin_ := by
      rcases hb with hb | hb
      · exact hb
      · exact absurd hb hx
    rw [if_neg (by omega), copyLoop_ok _ _ _ _ hb0 (by omega)]
    refine ⟨_, rfl, ⟨⟨[], b.contents.drop (0 + (b.pastEnd - b.begin_)), ?_, rfl⟩, ?_, ?_⟩, rfl⟩
    · obtain ⟨pre, post, hs, hp⟩ := h.split
      simp only [List.take_zero, List.nil_append]
      congr 1
      rw [h2, hs, ← hp]
      simp
    · simp [h.size_eq hc]
    · simp; omega

theorem holds_idealContentsCopy {s d : RB cap} {xs : List Byte} (hc : cap < 2 ^ 64)
    (h : s.Holds xs) (hd : d.contents.length = cap) :
    ∃ b' : RB cap, idealContentsCopy s d = .ok b' ∧ b'.Holds xs ∧ b'.begin_ = 0 := by
  have h1 := h.pastEnd_le
  have h2 := h.pe
  have h3 := h.len
  have hx : (s.contents.drop s.begin_).take (s.pastEnd - s.begin_) = xs := by
    obtain ⟨pre, post, hs, hp⟩ := h.split
    rw [h2, hs, ← hp]
    simp
  unfold idealContentsCopy
  rw [if_neg (by omega), hx, writeAt_ok _ _ _ (by omega)]
  refine ⟨_, rfl, ⟨⟨[], d.contents.drop (0 + xs.length), by simp, rfl⟩, ?_, ?_⟩, rfl⟩
  · simp [h.size_eq hc]
  · simp; omega

theorem Holds.copyConstruct_ok {s : RB cap} {xs : List Byte} (hc : cap < 2 ^ 64)
    (h : s.Holds xs) : ∃ b' : RB cap, s.copyConstruct = .ok b' ∧ b'.Holds xs ∧ b'.begin_ = 0 :=
  holds_idealContentsCopy hc h (by simp)

/-! ### Growing

The successor state does not depend on the build (debug/release, width of `int`). -/

theorem Holds.ensureSpace_ok {b : RB cap} {xs : List Byte} (hc : cap < 2 ^ 64)
    (h : b.Holds xs) {n : Nat} (hn : xs.length + n ≤ cap) :
    ∃ b' : RB cap, (∀ B, Arith B cap → b.ensureSpace B n = .ok b') ∧ b'.Holds xs ∧
      b'.pastEnd + n ≤ cap := by
  by_cases hx : xs = []
  · subst hx
    refine ⟨b.clear, fun B ha => ?_, holds_clear h, by simpa [clear] using hn⟩
    unfold ensureSpace
    simp only [h.empty_eq, List.isEmpty_nil, if_true]
    simp at hn
    have hp : promAdd B cap 0 n = n := by
      rcases Nat.eq_zero_or_pos n with h0 | h0
      · subst h0; simp [promAdd]
      · rw [promAdd_of_lt ha (by omega)]; simp
    rw [hp, if_pos hn]
    rfl
  · have hpos : 0 < xs.length := List.length_pos_iff.mpr hx
    have h1 := h.pastEnd_le
    have h2 := h.pe
    have he : xs.isEmpty = false := by simpa using hx
    by_cases hle : b.pastEnd + n ≤ cap
    · refine ⟨b, fun B ha => ?_, h, hle⟩
      unfold ensureSpace
      simp only [h.empty_eq, he, Bool.false_eq_true, if_false]
      rw [promAdd_of_lt ha (by omega), if_pos hle]
    · obtain ⟨b', e, hh, hb⟩ := h.slide_ok hc (Or.inl (by omega))
      refine ⟨b', fun B ha => ?_, hh, ?_⟩
      · unfold ensureSpace
        simp only [h.empty_eq, he, Bool.false_eq_true, if_false]
        rw [promAdd_of_lt ha (by omega), if_neg hle, h.size_eq hc, promAdd_of_lt ha (by omega),
          assertMsg_of (by simpa using hn)]
        simpa using e
      · rw [hh.pe, hb]
        omega

theorem Holds.verifyInvariants_ok {B : Build} {b : RB cap} {xs : List Byte} (h : b.Holds xs) :
    b.verifyInvariants B = .ok () := by
  have h1 := h.pastEnd_le
  have h2 := h.pe
  unfold verifyInvariants
  rw [assertMsg_of (by simp; omega), assertMsg_of (by simpa using h1)]
  rfl

theorem Holds.writeAt_pastEnd {b : RB cap} {xs ys : List Byte} (hc : cap < 2 ^ 64)
    (h : b.Holds xs) (hn : b.pastEnd + ys.length ≤ cap) {k : Nat} (hk : k ≤ ys.length) :
    ∃ l, writeAt b.contents b.pastEnd ys = .ok l ∧
      ({ begin_ := b.begin_, pastEnd := trunc cap (b.pastEnd + k), contents := l } : RB cap).Holds
        (xs ++ ys.take k) := by
  have h2 := h.pe
  have h3 := h.len
  refine ⟨_, writeAt_ok _ _ _ (by omega), ⟨?_, ?_, ?_⟩⟩
  · obtain ⟨pre, post, hs, hp⟩ := h.split
    refine ⟨pre, ys.drop k ++ b.contents.drop (b.pastEnd + ys.length), ?_, hp⟩
    have ht : b.contents.take b.pastEnd = pre ++ xs := by
      rw [hs, h2, ← hp]
      apply List.take_left'
      simp
    simp only [ht, List.append_assoc]
    rw [← List.append_assoc (ys.take k), List.take_append_drop]
  · simp only [List.length_append, List.length_take]
    rw [trunc_of_le hc (by omega)]
    omega
  · simp; omega

theorem Holds.pushBackRange_ok {b : RB cap} {xs : List Byte} (hc : cap < 2 ^ 64)
    (h : b.Holds xs) {ys : List Byte} (hn : xs.length + ys.length ≤ cap) :
    ∃ b' : RB cap, (∀ B, Arith B cap → b.pushBackRange B ys = .ok b') ∧ b'.Holds (xs ++ ys) := by
  obtain ⟨b1, e1, hh1, hs1⟩ := h.ensureSpace_ok hc hn
  obtain ⟨l, e2, hh2⟩ := hh1.writeAt_pastEnd hc hs1 (Nat.le_refl ys.length)
  rw [List.take_length] at hh2
  refine ⟨_, fun B ha => ?_, hh2⟩
  unfold pushBackRange
  rw [trunc_of_le hc (by omega)]
  simp only [e1 B ha, e2, ok_bind, hh2.verifyInvariants_ok, pure_eq_ok]

theorem Holds.pushBack_ok {b : RB cap} {xs : List Byte} (hc : cap < 2 ^ 64)
    (h : b.Holds xs) {x : Byte} (hn : xs.length + 1 ≤ cap) :
    ∃ b' : RB cap, (∀ B, Arith B cap → b.pushBack B x = .ok b') ∧ b'.Holds (xs ++ [x]) := by
  obtain ⟨b1, e1, hh1, hs1⟩ := h.ensureSpace_ok hc hn
  have h1 := hh1.pastEnd_le
  have h2 := hh1.pe
  have h3 := hh1.len
  -- one element has been added whose value is whatever the array held there
  have hlt : b1.pastEnd < b1.contents.length := by omega
  have hh : ({ begin_ := b1.begin_, pastEnd := b1.pastEnd + 1, contents := b1.contents } :
      RB cap).Holds (xs ++ [b1.contents[b1.pastEnd]]) := by
    refine ⟨?_, by simp; omega, h3⟩
    obtain ⟨pre, post, hs, hp⟩ := hh1.split
    refine ⟨pre, b1.contents.drop (b1.pastEnd + 1), ?_, hp⟩
    have ht : b1.contents.take b1.pastEnd = pre ++ xs := by
      rw [hs, h2, ← hp]
      apply List.take_left'
      simp
    simp only
    rw [← List.append_assoc pre, ← ht, ← List.take_succ_eq_append_getElem hlt,
      List.take_append_drop]
  obtain ⟨b', e, hb, _, _⟩ := hh.set_ok hc (i := (xs ++ [b1.contents[b1.pastEnd]]).length - 1)
    (by simp) x
  refine ⟨b', fun B ha => ?_, by simpa using hb⟩
  unfold pushBack incrementPastEnd
  simp only [e1 B ha, ok_bind]
  rw [trunc_of_le hc (by omega), assertMsg_of (by simpa using hs1)]
  simp only [ok_bind, pure_eq_ok]
  rw [hh.size_eq hc, subT_of_le hc hh.length_le (by simp)]
  exact e B

/-- What is offered to an external functor when `xs` is buffered and `n` bytes are requested. -/
def offer (cap : Nat) (xs : List Byte) (n : Nat) : Nat := min n (cap - xs.length)

theorem Holds.functor_ok {b : RB cap} {xs : List Byte} (hc : cap < 2 ^ 64)
    (h : b.Holds xs) {n : Nat} {f : Byte → DeviceReply}
    (hw : (f (UInt8.ofNat (offer cap xs n))).written.length ≤ offer cap xs n)
    (hr : (f (UInt8.ofNat (offer cap xs n))).ret.toNat ≤
      (f (UInt8.ofNat (offer cap xs n))).written.length) :
    ∃ b' : RB cap, (∀ B, Arith B cap → b.bufferFromExternalFunctorRef B f n =
      .ok (b', (f (UInt8.ofNat (offer cap xs n))).ret.toNat)) ∧
      b'.Holds (xs ++ (f (UInt8.ofNat (offer cap xs n))).written.take
        (f (UInt8.ofNat (offer cap xs n))).ret.toNat) := by
  have hl := h.length_le
  have ho : xs.length + offer cap xs n ≤ cap := by unfold offer; omega
  obtain ⟨b1, e1, hh1, hs1⟩ := h.ensureSpace_ok hc ho
  obtain ⟨l, e2, hh2⟩ := hh1.writeAt_pastEnd hc
    (ys := (f (UInt8.ofNat (offer cap xs n))).written) (by omega) hr
  refine ⟨_, fun B ha => ?_, hh2⟩
  unfold bufferFromExternalFunctorRef
  simp only [h.size_eq hc]
  rw [subT_of_le hc (Nat.le_refl _) hl]
  rw [show min n (cap - xs.length) = offer cap xs n from rfl]
  simp only [e1 B ha, e2, ok_bind, hh2.verifyInvariants_ok, pure_eq_ok]

/-! ### Shrinking -/

theorem Holds.incrementBegin_ok {b : RB cap} {x : Byte} {xs : List Byte}
    (hc : cap < 2 ^ 64) (h : b.Holds (x :: xs)) :
    (∀ B, b.incrementBegin B = .ok { b with begin_ := b.begin_ + 1 }) ∧
      ({ b with begin_ := b.begin_ + 1 } : RB cap).Holds xs := by
  have h1 := h.pastEnd_le
  have h2 := h.pe
  simp only [List.length_cons] at h2
  refine ⟨fun B => ?_, ⟨?_, ?_, h.len⟩⟩
  · unfold incrementBegin
    rw [assertMsg_of (by simp; omega), trunc_of_le hc (by omega)]
    rfl
  · obtain ⟨pre, post, hs, hp⟩ := h.split
    exact ⟨pre ++ [x], post, by simp [hs], by simp [hp]⟩
  · simp; omega

theorem Holds.popFrontLoop_ok (hc : cap < 2 ^ 64) (n : Nat) :
    ∀ {b : RB cap} {xs : List Byte}, b.Holds xs → n ≤ xs.length →
    (∀ B, popFrontLoop B b n = .ok { b with begin_ := b.begin_ + n }) ∧
      ({ b with begin_ := b.begin_ + n } : RB cap).Holds (xs.drop n) := by
  induction n with
  | zero => intro b xs h _; exact ⟨fun _ => rfl, by simpa using h⟩
  | succ n ih =>
    intro b xs h hn
    cases xs with
    | nil => simp at hn
    | cons x xs =>
      obtain ⟨e1, hh1⟩ := h.incrementBegin_ok hc
      obtain ⟨e2, hh2⟩ := ih hh1 (by simpa using hn)
      have e : b.begin_ + 1 + n = b.begin_ + (n + 1) := by omega
      simp only [e] at e2 hh2
      exact ⟨fun B => by simp [popFrontLoop, e1, e2], by simpa using hh2⟩

theorem Holds.popFront_ok {b : RB cap} {x : Byte} {xs : List Byte} (hc : cap < 2 ^ 64)
    (h : b.Holds (x :: xs)) {n : Nat} (hn : n ≤ xs.length + 1) :
    (∀ B, b.popFront B n = .ok ({ b with begin_ := b.begin_ + n }, x)) ∧
      ({ b with begin_ := b.begin_ + n } : RB cap).Holds ((x :: xs).drop n) := by
  obtain ⟨e, hh⟩ := Holds.popFrontLoop_ok hc n h (by simpa using hn)
  exact ⟨fun B => by simp [popFront, h.front_ok hc, e], hh⟩

theorem Holds.decrementPastEnd_ok {b : RB cap} {x : Byte} {xs : List Byte}
    (hc : cap < 2 ^ 64) (h : b.Holds (xs ++ [x])) :
    ∃ b' : RB cap, (∀ B, b.decrementPastEnd B = .ok b') ∧ b'.Holds xs ∧
      b'.begin_ = b.begin_ := by
  have h1 := h.pastEnd_le
  have h2 := h.pe
  simp at h2
  refine ⟨{ b with pastEnd := b.pastEnd - 1 }, fun B => ?_, ⟨?_, ?_, h.len⟩, rfl⟩
  · unfold decrementPastEnd
    rw [assertMsg_of (by simp; omega), subT_of_le hc h1 (by omega)]
    rfl
  · obtain ⟨pre, post, hs, hp⟩ := h.split
    exact ⟨pre, x :: post, by simp [hs], hp⟩
  · simp; omega

theorem Holds.popBackLoop_ok (hc : cap < 2 ^ 64) (n : Nat) :
    ∀ {b : RB cap} {xs : List Byte}, b.Holds xs → n ≤ xs.length →
    ∃ b' : RB cap, (∀ B, popBackLoop B b n = .ok b') ∧ b'.Holds (xs.take (xs.length - n)) ∧
      b'.begin_ = b.begin_ := by
  induction n with
  | zero => intro b xs h _; exact ⟨b, fun _ => rfl, by simpa using h, rfl⟩
  | succ n ih =>
    intro b xs h hn
    rcases List.eq_nil_or_concat xs with hx | ⟨ys, y, hx⟩
    · subst hx; simp at hn
    · subst hx
      simp only [List.concat_eq_append, List.length_append, List.length_singleton] at *
      obtain ⟨b1, e1, hh1, hb1⟩ := h.decrementPastEnd_ok hc
      obtain ⟨b2, e2, hh2, hb2⟩ := ih hh1 (by omega)
      refine ⟨b2, fun B => by simp [popBackLoop, e1, e2], ?_, by omega⟩
      rw [List.take_append_of_le_length (by omega)]
      have : ys.length + 1 - (n + 1) = ys.length - n := by omega
      rw [this]
      exact hh2

theorem Holds.popBack_ok {b : RB cap} {x : Byte} {xs : List Byte} (hc : cap < 2 ^ 64)
    (h : b.Holds (xs ++ [x])) {n : Nat} (hn : n ≤ xs.length + 1) :
    ∃ b' : RB cap, (∀ B, b.popBack B n = .ok (b', x)) ∧
      b'.Holds ((xs ++ [x]).take (xs.length + 1 - n)) ∧ b'.begin_ = b.begin_ := by
  obtain ⟨b', e, hh, hb⟩ := Holds.popBackLoop_ok hc n h (by simpa using hn)
  exact ⟨b', fun B => by simp [popBack, h.back_ok hc, e], by simpa using hh, hb⟩

theorem Holds.erase_ok {b : RB cap} {xs : List Byte} (hc : cap < 2 ^ 64)
    (h : b.Holds xs) {i j : Nat} (hij : i < j) (hj : j ≤ xs.length) :
    ∃ b' : RB cap, (∀ B, b.erase B (b.begin_ + i) (b.begin_ + j) = .ok (b', b'.begin_ + i)) ∧
      b'.Holds (xs.take i ++ xs.drop j) := by
  have h1 := h.pastEnd_le
  have h2 := h.pe
  have h3 := h.len
  have es : ∀ k, k ≤ xs.length → subT cap (b.begin_ + k) b.begin_ = k := by
    intro k hk
    rw [subT_of_le hc (by omega) (by omega)]
    omega
  -- the part of `erase` before the three-way branch
  have pre : ∀ B, b.erase B (b.begin_ + i) (b.begin_ + j) =
      (if i = 0 then do
        let (b, _) ← b.popFront B (j - i)
        return (b, b.begin_ + i)
      else if b.begin_ + j = b.pastEnd then do
        let (b, _) ← b.popBack B (j - i)
        return (b, b.begin_ + i)
      else do
        assertMsg B (decide (0 < i))
        assertMsg B (decide (j < b.size))
        let l ← copyWithin b.contents (b.begin_ + j) b.pastEnd (b.begin_ + i)
        let b ← popBackLoop B { b with contents := l } (j - i)
        return (b, b.begin_ + i)) := by
    intro B
    unfold erase
    simp only [es i (by omega), es j hj]
    rw [assertMsg_of (by simp; omega), subT_of_le hc (by omega) (by omega)]
    simp only [ok_bind]
    rw [if_neg (by omega), h.size_eq hc, assertMsg_of (by simp; omega)]
    simp only [ok_bind]
  by_cases hi0 : i = 0
  · -- erase at the front
    subst hi0
    cases xs with
    | nil => simp at hj; omega
    | cons x xs =>
      obtain ⟨e, hh⟩ := h.popFront_ok hc (n := j - 0) (by simpa using hj)
      exact ⟨_, fun B => by rw [pre, if_pos rfl, e]; rfl, by simpa using hh⟩
  · by_cases hlast : b.begin_ + j = b.pastEnd
    · -- erase at the back
      rcases List.eq_nil_or_concat xs with hx | ⟨ys, y, hx⟩
      · subst hx; simp at hj; omega
      · subst hx
        simp only [List.concat_eq_append, List.length_append, List.length_singleton] at *
        obtain ⟨b', e, hh, hb⟩ := h.popBack_ok hc (n := j - i) (by omega)
        refine ⟨b', fun B => by rw [pre, if_neg hi0, if_pos hlast, e]; rfl, ?_⟩
        have e1 : ys.length + 1 - (j - i) = i := by omega
        rw [e1] at hh
        rw [List.drop_eq_nil_of_le (by simp; omega), List.append_nil]
        exact hh
    · -- erase in the middle
      have hjl : j < xs.length := by omega
      obtain ⟨pre', post, hs, hp⟩ := h.split
      have hdrop : (b.contents.drop (b.begin_ + j)).take (b.pastEnd - (b.begin_ + j))
          = xs.drop j := by
        rw [hs, ← hp, List.append_assoc, List.drop_length_add_append,
          List.drop_append_of_le_length hj, List.take_left']
        simp; omega
      have htake : b.contents.take (b.begin_ + i) = pre' ++ xs.take i := by
        rw [hs, ← hp, List.append_assoc, List.take_length_add_append,
          List.take_append_of_le_length (by omega)]
      have hmid : (RB.mk b.begin_ b.pastEnd (b.contents.take (b.begin_ + i) ++
            (b.contents.drop (b.begin_ + j)).take (b.pastEnd - (b.begin_ + j)) ++
            b.contents.drop (b.begin_ + i + (b.pastEnd - (b.begin_ + j)))) : RB cap).Holds
          (xs.take i ++ xs.drop j ++
            (b.contents.drop (b.begin_ + i + (b.pastEnd - (b.begin_ + j)))).take (j - i)) := by
        refine ⟨⟨pre', (b.contents.drop (b.begin_ + i + (b.pastEnd - (b.begin_ + j)))).drop (j - i),
          ?_, hp⟩, ?_, ?_⟩
        · simp only [hdrop, htake, List.append_assoc, List.take_append_drop]
        · simp; omega
        · simp; omega
      obtain ⟨b', e, hh, hb⟩ := Holds.popBackLoop_ok hc (j - i) hmid (by simp; omega)
      refine ⟨b', fun B => ?_, ?_⟩
      · rw [pre, if_neg hi0, if_neg hlast, assertMsg_of (by simp; omega), h.size_eq hc,
          assertMsg_of (by simpa using hjl)]
        simp only [ok_bind]
        unfold copyWithin
        rw [if_neg (by omega), if_neg (by omega), copyLoop_ok _ _ _ _ (by omega) (by omega)]
        simp only [ok_bind, e, pure_eq_ok]
      · rw [List.take_left'] at hh
        · exact hh
        · simp; omega

end RB
end TT
