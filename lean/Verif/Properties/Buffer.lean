import Verif.Properties.Samples
import Verif.Spec.Buffer
import Verif.Proofs.RB
import Verif.Proofs.Process

/-!
# Properties of the receive buffer: C10, C13, C14, C15, C16, C17, C35, C50
-/

namespace TT.Properties
open Spec

/-- Everything a user can see of a buffer is as for the list `xs`: `size`, `empty`, free space, every
index, `front`, `back`, and the range from `begin()` to `end()`. -/
structure Shows {cap : Nat} (B : Build) (b : RB cap) (xs : List Byte) : Prop where
  size : b.size = xs.length
  free : b.maxSize = cap ∧ b.size ≤ b.maxSize
  empty : b.empty = decide (xs = [])
  index : ∀ i x, xs[i]? = some x → b.get B i = .ok x
  front : ∀ x, xs.head? = some x → b.front B = .ok x
  back : ∀ x, xs.getLast? = some x → b.back B = .ok x
  range : b.begin_ ≤ b.pastEnd ∧ b.pastEnd ≤ b.contents.length ∧
    (b.contents.drop b.begin_).take (b.pastEnd - b.begin_) = xs

theorem shows_of_holds {cap : Nat} (hc : cap < 2 ^ 64) {b : RB cap} {xs : List Byte}
    (h : b.Holds xs) (B : Build) : Shows B b xs := by
  have hl := h.length_le
  have hp := h.pe
  refine ⟨h.size_eq hc, ⟨rfl, ?_⟩, ?_, ?_, ?_, ?_, by omega, ?_, ?_⟩
  · rw [h.size_eq hc]; exact hl
  · rw [h.empty_eq]; cases xs <;> simp
  · intro i x hx
    obtain ⟨hi, e⟩ := List.getElem?_eq_some_iff.mp hx
    rw [h.get_ok hc B hi, e]
  · intro x hx
    cases xs with
    | nil => simp at hx
    | cons y ys => simp at hx; subst hx; exact h.front_ok hc B
  · intro x hx
    obtain ⟨ys, rfl⟩ := List.getLast?_eq_some_iff.mp hx
    exact h.back_ok hc B
  · rw [h.len]; exact h.pastEnd_le
  · obtain ⟨pre, post, hs, hq⟩ := h.split
    rw [hp, hs, ← hq]
    simp

/-- One call on the modelled buffer. -/
def runCall {cap : Nat} (B : Build) (b : RB cap) : BufCall → Res (RB cap × BufRet)
  | .pushBack x => do return (← b.pushBack B x, .unit)
  | .pushRange xs => do return (← b.pushBackRange B xs, .unit)
  | .popFront n => do let r ← b.popFront B n; return (r.1, .elem r.2)
  | .popBack n => do let r ← b.popBack B n; return (r.1, .elem r.2)
  | .erase i j => do
    let r ← b.erase B (b.begin_ + i) (b.begin_ + j)
    return (r.1, .pos (r.2 - r.1.begin_))
  | .eraseOne i => do
    let r ← b.eraseOne B (b.begin_ + i)
    return (r.1, .pos (r.2 - r.1.begin_))
  | .clear => .ok (b.clear, .unit)
  | .ensureSpace n => do return (← b.ensureSpace B n, .unit)
  | .set i x => do return (← b.set B i x, .unit)
  | .copy => do return (← b.copyConstruct, .unit)
  | .assignTo former => do
    let target ← RB.fromRange B former
    return (← target.assign b, .unit)

/-- A sequence of calls on the modelled buffer. -/
def runCalls {cap : Nat} (B : Build) (b : RB cap) :
    List BufCall → Res (RB cap × List BufRet)
  | [] => .ok (b, [])
  | c :: cs => do
    let r ← runCall B b c
    let r' ← runCalls B r.1 cs
    return (r'.1, r.2 :: r'.2)

theorem runCall_ok {cap : Nat} (hc : cap < 2 ^ 64) {b : RB cap} {xs ys : List Byte}
    (h : b.Holds xs) {c : BufCall} {r : BufRet} (hs : c.spec cap xs = some (ys, r)) :
    ∃ b' : RB cap, (∀ B, Arith B cap → runCall B b c = .ok (b', r)) ∧ b'.Holds ys := by
  cases c with
  | pushBack x =>
    simp only [BufCall.spec] at hs
    split at hs <;> simp at hs
    obtain ⟨rfl, rfl⟩ := hs
    obtain ⟨b', e, hh⟩ := h.pushBack_ok hc (x := x) (by omega)
    exact ⟨b', fun B ha => by simp [runCall, e B ha], hh⟩
  | pushRange zs =>
    simp only [BufCall.spec] at hs
    split at hs <;> simp at hs
    obtain ⟨rfl, rfl⟩ := hs
    obtain ⟨b', e, hh⟩ := h.pushBackRange_ok hc (ys := zs) (by omega)
    exact ⟨b', fun B ha => by simp [runCall, e B ha], hh⟩
  | popFront n =>
    simp only [BufCall.spec] at hs
    cases xs with
    | nil => simp at hs
    | cons x xs =>
      simp only [List.head?_cons] at hs
      split at hs <;> simp only [Option.some.injEq, Prod.mk.injEq, reduceCtorEq] at hs
      obtain ⟨rfl, rfl⟩ := hs
      obtain ⟨e, hh⟩ := h.popFront_ok hc (n := n) (by simpa using ‹_›)
      exact ⟨_, fun B _ => by simp [runCall, e B], hh⟩
  | popBack n =>
    simp only [BufCall.spec] at hs
    rcases List.eq_nil_or_concat xs with hx | ⟨zs, z, hx⟩
    · subst hx; simp at hs
    · rw [List.concat_eq_append] at hx
      subst hx
      simp only [List.getLast?_concat] at hs
      split at hs <;> simp only [Option.some.injEq, Prod.mk.injEq, reduceCtorEq] at hs
      obtain ⟨rfl, rfl⟩ := hs
      rename_i hn
      obtain ⟨b', e, hh, _⟩ := h.popBack_ok hc (n := n) (by simpa using hn)
      exact ⟨b', fun B _ => by simp [runCall, e B], by simpa using hh⟩
  | erase i j =>
    simp only [BufCall.spec] at hs
    split at hs <;> simp only [Option.some.injEq, Prod.mk.injEq, reduceCtorEq] at hs
    obtain ⟨rfl, rfl⟩ := hs
    rename_i hij
    obtain ⟨b', e, hh⟩ := h.erase_ok hc hij.1 hij.2
    exact ⟨b', fun B _ => by simp [runCall, e B], hh⟩
  | eraseOne i =>
    simp only [BufCall.spec] at hs
    split at hs <;> simp only [Option.some.injEq, Prod.mk.injEq, reduceCtorEq] at hs
    obtain ⟨rfl, rfl⟩ := hs
    rename_i hi
    obtain ⟨b', e, hh⟩ := h.erase_ok hc (Nat.lt_succ_self i) hi
    refine ⟨b', fun B _ => ?_, by rw [List.eraseIdx_eq_take_drop_succ]; exact hh⟩
    have e' := e B
    rw [show b.begin_ + i.succ = b.begin_ + i + 1 from rfl] at e'
    simp [runCall, RB.eraseOne, e']
  | clear =>
    simp only [BufCall.spec, Option.some.injEq, Prod.mk.injEq] at hs
    obtain ⟨rfl, rfl⟩ := hs
    exact ⟨_, fun _ _ => rfl, RB.holds_clear h⟩
  | ensureSpace n =>
    simp only [BufCall.spec] at hs
    split at hs <;> simp at hs
    obtain ⟨rfl, rfl⟩ := hs
    obtain ⟨b', e, hh, _⟩ := h.ensureSpace_ok hc (n := n) (by omega)
    exact ⟨b', fun B ha => by simp [runCall, e B ha], hh⟩
  | set i x =>
    simp only [BufCall.spec] at hs
    split at hs <;> simp at hs
    obtain ⟨rfl, rfl⟩ := hs
    obtain ⟨b', e, hh, _⟩ := h.set_ok hc ‹_› x
    exact ⟨b', fun B ha => by simp [runCall, e B], hh⟩
  | copy =>
    simp only [BufCall.spec, Option.some.injEq, Prod.mk.injEq] at hs
    obtain ⟨rfl, rfl⟩ := hs
    obtain ⟨b', e, hh, _⟩ := h.copyConstruct_ok hc
    exact ⟨b', fun B ha => by simp [runCall, e], hh⟩
  | assignTo former =>
    simp only [BufCall.spec] at hs
    split at hs <;> simp at hs
    obtain ⟨rfl, rfl⟩ := hs
    obtain ⟨t, e, ht⟩ := (RB.holds_new cap).pushBackRange_ok hc (ys := former) (by simpa using ‹_›)
    obtain ⟨b', e2, hh, _⟩ := RB.holds_idealContentsCopy hc h ht.len
    exact ⟨b', fun B ha => by simp [runCall, RB.fromRange, e B ha, RB.assign, e2], hh⟩

theorem runCalls_ok {cap : Nat} (hc : cap < 2 ^ 64) (cs : List BufCall) :
    ∀ {b : RB cap} {xs ys : List Byte}, b.Holds xs → ∀ {rs : List BufRet},
    specCalls cap xs cs = some (ys, rs) →
    ∃ b' : RB cap, (∀ B, Arith B cap → runCalls B b cs = .ok (b', rs)) ∧ b'.Holds ys := by
  induction cs with
  | nil =>
    intro b xs ys h rs hs
    simp only [specCalls, Option.some.injEq, Prod.mk.injEq] at hs
    obtain ⟨rfl, rfl⟩ := hs
    exact ⟨b, fun _ _ => rfl, h⟩
  | cons c cs ih =>
    intro b xs ys h rs hs
    simp only [specCalls] at hs
    split at hs
    · simp at hs
    · rename_i zs r hz
      split at hs
      · simp at hs
      · rename_i ws rs' hw
        simp only [Option.some.injEq, Prod.mk.injEq] at hs
        obtain ⟨rfl, rfl⟩ := hs
        obtain ⟨b1, e1, hh1⟩ := runCall_ok hc h hz
        obtain ⟨b2, e2, hh2⟩ := ih hh1 hw
        exact ⟨b2, fun B ha => by simp [runCalls, e1 B ha, e2 B ha], hh2⟩

/-- C13. Any sequence of calls in contract, on a default-constructed buffer, behaves as the same
calls on a plain list: same return values, same observable contents. -/
theorem C13_refines_list (B : Build) (cap : Nat) (ha : Arith B cap) (cs : List BufCall)
    (xs : List Byte) (rs : List BufRet) (h : specCalls cap [] cs = some (xs, rs)) :
    ∃ b : RB cap, runCalls B (RB.new cap) cs = .ok (b, rs) ∧ Shows B b xs := by
  obtain ⟨b, e, hh⟩ := runCalls_ok ha.lt64 cs (RB.holds_new cap) h
  exact ⟨b, e B ha, shows_of_holds ha.lt64 hh B⟩

/-- C13 for the range constructor: the buffer built from a range shows that range. -/
theorem C13_from_range (B : Build) (cap : Nat) (ha : Arith B cap) (xs : List Byte)
    (h : xs.length ≤ cap) : ∃ b : RB cap, RB.fromRange B xs = .ok b ∧ Shows B b xs := by
  obtain ⟨b, e, hh⟩ := (RB.holds_new cap).pushBackRange_ok ha.lt64 (ys := xs) (by simpa using h)
  exact ⟨b, e B ha, shows_of_holds ha.lt64 (by simpa using hh) B⟩

/-- C13 for the pointer-and-length constructor: the first `len` elements are shown if they exist and
fit; there is no check. -/
theorem C13_from_array (B : Build) (cap : Nat) (hc : cap < 2 ^ 64) (v : List Byte) (len : Nat) :
    (len ≤ v.length → len ≤ cap →
      ∃ b : RB cap, RB.fromArray v len = .ok b ∧ Shows B b (v.take len)) ∧
    (v.length < len ∨ cap < len → (RB.fromArray v len : Res (RB cap)) = .error .ub) := by
  constructor
  · intro h1 h2
    unfold RB.fromArray
    rw [if_neg (by omega), RB.writeAt_ok _ _ _ (by simp; omega)]
    refine ⟨_, rfl, shows_of_holds hc ⟨⟨[], List.drop (0 + (v.take len).length)
      (List.replicate cap 0), by simp, rfl⟩, ?_, ?_⟩ B⟩
    · simp; omega
    · simp; omega
  · intro h
    unfold RB.fromArray
    by_cases hv : v.length < len
    · rw [if_pos hv]
    · rw [if_neg hv, RB.writeAt_ub]
      · rfl
      · intro he
        have := congrArg List.length he
        rw [List.length_take, List.length_nil] at this
        omega
      · simp; omega

/-- A sequence of calls that slides the contents, erases in the middle, copies and assigns. -/
def sampleCalls : List BufCall :=
  [.pushRange [1, 2, 3, 4, 5, 6], .popFront 4, .pushRange [7, 8, 9], .pushBack 10, .erase 1 3,
   .eraseOne 0, .set 0 99, .copy, .assignTo [5, 5, 5, 5], .ensureSpace 3, .popBack 1]

example := C13_refines_list Sample.dbg 7 ⟨by decide, by decide⟩ sampleCalls [99, 9]
  [.unit, .elem 1, .unit, .unit, .pos 1, .pos 0, .unit, .unit, .unit, .unit, .elem 10] (by decide)
example := C13_from_range Sample.dbg 7 ⟨by decide, by decide⟩ [1, 2, 3] (by decide)
example := (C13_from_array Sample.dbg 7 (by decide) [1, 2, 3] 2).1 (by decide) (by decide)
example := (C13_from_array Sample.dbg 2 (by decide) [1, 2, 3] 3).2 (by decide)

/-- C14. In contract no call faults, and all builds (assertions on or off, any width of `int` that
satisfies C50) go through the same buffer contents and return values. -/
theorem C14_no_fault (cap : Nat) (hc : cap < 2 ^ 64) (cs : List BufCall)
    (h : specCalls cap [] cs ≠ none) :
    ∃ r : RB cap × List BufRet, ∀ B, Arith B cap → runCalls B (RB.new cap) cs = .ok r := by
  match hs : specCalls cap [] cs with
  | none => exact absurd hs h
  | some (xs, rs) =>
    obtain ⟨b, e, _⟩ := runCalls_ok hc cs (RB.holds_new cap) hs
    exact ⟨_, e⟩

example := C14_no_fault 7 (by decide) sampleCalls (by decide)

/-! ### C15 -/

/-- C15. Whatever calls produced the source and the target, a copy or an assigned target shows what
the source shows, and has all its capacity usable without moving anything. -/
theorem C15_copy_assign (B : Build) (cap : Nat) (ha : Arith B cap) (cs ct : List BufCall)
    (xs ys : List Byte) (rs rt : List BufRet)
    (hs : specCalls cap [] cs = some (xs, rs)) (ht : specCalls cap [] ct = some (ys, rt)) :
    ∃ (s t c d : RB cap),
      runCalls B (RB.new cap) cs = .ok (s, rs) ∧ runCalls B (RB.new cap) ct = .ok (t, rt) ∧
      s.copyConstruct = .ok c ∧ Shows B c xs ∧ c.pastEnd = xs.length ∧
      t.assign s = .ok d ∧ Shows B d xs ∧ d.pastEnd = xs.length := by
  have hc := ha.lt64
  obtain ⟨s, e1, hs1⟩ := runCalls_ok hc cs (RB.holds_new cap) hs
  obtain ⟨t, e2, ht1⟩ := runCalls_ok hc ct (RB.holds_new cap) ht
  obtain ⟨c, e3, hc3, b3⟩ := hs1.copyConstruct_ok hc
  obtain ⟨d, e4, hd4, b4⟩ := RB.holds_idealContentsCopy hc hs1 ht1.len
  refine ⟨s, t, c, d, e1 B ha, e2 B ha, e3, shows_of_holds hc hc3 B, ?_, e4,
    shows_of_holds hc hd4 B, ?_⟩
  · rw [hc3.pe, b3]; omega
  · rw [hd4.pe, b4]; omega

/-- C15. Self-assignment keeps the contents if they do not start at the front of the array or there
are none; otherwise it is undefined. -/
theorem C15_self_assign (B : Build) (cap : Nat) (ha : Arith B cap) (cs : List BufCall)
    (xs : List Byte) (rs : List BufRet) (hs : specCalls cap [] cs = some (xs, rs)) :
    ∃ s : RB cap, runCalls B (RB.new cap) cs = .ok (s, rs) ∧
      ((0 < s.begin_ ∨ xs = []) → ∃ d, s.selfAssign = .ok d ∧ Shows B d xs) ∧
      (s.begin_ = 0 ∧ xs ≠ [] → s.selfAssign = .error .ub) := by
  have hc := ha.lt64
  obtain ⟨s, e1, hs1⟩ := runCalls_ok hc cs (RB.holds_new cap) hs
  refine ⟨s, e1 B ha, ?_, ?_⟩
  · intro h
    obtain ⟨d, e, hh, _⟩ := hs1.slide_ok hc h
    exact ⟨d, e, shows_of_holds hc hh B⟩
  · rintro ⟨h0, hx⟩
    have hp := hs1.pe
    have hpos : 0 < xs.length := List.length_pos_iff.mpr hx
    unfold RB.selfAssign RB.slideContentsForward RB.copyWithin
    rw [if_neg (by omega), if_pos (by omega)]
    rfl

example := C15_copy_assign Sample.dbg 7 ⟨by decide, by decide⟩ sampleCalls
  [.pushRange [1, 2, 3, 4, 5, 6, 7], .popFront 6] [99, 9] [7]
  [.unit, .elem 1, .unit, .unit, .pos 1, .pos 0, .unit, .unit, .unit, .unit, .elem 10]
  [.unit, .elem 1] (by decide) (by decide)
/-- both cases of self-assignment are reachable -/
example : ∃ s t : RB 4, runCalls Sample.dbg (RB.new 4) [.pushRange [1, 2, 3]] = .ok (s, [.unit]) ∧
    s.selfAssign = .error .ub ∧
    runCalls Sample.dbg (RB.new 4) [.pushRange [1, 2, 3], .popFront 1] = .ok (t, [.unit, .elem 1]) ∧
    t.selfAssign = .ok ⟨0, 2, [2, 3, 3, 0]⟩ :=
  ⟨⟨0, 3, [1, 2, 3, 0]⟩, ⟨1, 3, [1, 2, 3, 0]⟩, by decide, by decide, by decide, by decide⟩

/-! ### C16 -/

/-- C16. `erase(begin() + i, begin() + j)` of a non-empty range in the buffer removes exactly the
range and returns the position of the element after it. -/
theorem C16_erase (B : Build) (cap : Nat) (ha : Arith B cap) (cs : List BufCall)
    (pre mid post : List Byte) (rs : List BufRet)
    (hs : specCalls cap [] cs = some (pre ++ mid ++ post, rs)) (hm : mid ≠ []) :
    ∃ s t : RB cap, runCalls B (RB.new cap) cs = .ok (s, rs) ∧
      s.erase B (s.begin_ + pre.length) (s.begin_ + pre.length + mid.length) =
        .ok (t, t.begin_ + pre.length) ∧
      Shows B t (pre ++ post) := by
  have hc := ha.lt64
  obtain ⟨s, e1, hs1⟩ := runCalls_ok hc cs (RB.holds_new cap) hs
  have hpos : 0 < mid.length := List.length_pos_iff.mpr hm
  obtain ⟨t, e2, ht⟩ := hs1.erase_ok hc (i := pre.length) (j := pre.length + mid.length)
    (by omega) (by simp)
  refine ⟨s, t, e1 B ha, ?_, shows_of_holds hc ?_ B⟩
  · rw [Nat.add_assoc]; exact e2 B
  · rw [List.append_assoc, List.take_left', ← List.append_assoc, List.drop_left'] at ht
    · exact ht
    · simp
    · rfl

/-- C16. Erasing the empty range at any position aborts in debug builds and does nothing in release
builds. -/
theorem C16_erase_empty (B : Build) (cap : Nat) (ha : Arith B cap) (cs : List BufCall)
    (xs : List Byte) (rs : List BufRet)
    (hs : specCalls cap [] cs = some (xs, rs)) (i : Nat) (hi : i ≤ xs.length) :
    ∃ s : RB cap, runCalls B (RB.new cap) cs = .ok (s, rs) ∧
      s.erase B (s.begin_ + i) (s.begin_ + i) =
        if B.debug then .error .abort else .ok (s, s.begin_ + i) := by
  have hc := ha.lt64
  obtain ⟨s, e1, hs1⟩ := runCalls_ok hc cs (RB.holds_new cap) hs
  refine ⟨s, e1 B ha, ?_⟩
  have h1 := hs1.pastEnd_le
  have h2 := hs1.pe
  unfold RB.erase
  simp only [Nat.lt_irrefl, decide_false]
  rw [subT_of_le hc (a := s.begin_ + i) (by omega) (by omega)]
  rw [subT_of_le hc (a := s.begin_ + i - s.begin_) (by omega) (by omega)]
  cases hd : B.debug <;> simp [assertMsg, hd]

example := C16_erase Sample.dbg 7 ⟨by decide, by decide⟩ [.pushRange [1, 2, 3, 4, 5]]
  [1] [2, 3] [4, 5] [.unit] (by decide) (by decide)
example := C16_erase_empty Sample.rel16 7 ⟨by decide, by decide⟩ [.pushRange [1, 2, 3, 4, 5]]
  [1, 2, 3, 4, 5] [.unit] (by decide) 2 (by decide)

/-! ### C17 -/

/-- C17. With fewer than 256 bytes on offer, the functor is told the minimum of the request and the
free space; if it keeps that limit and returns how many bytes it wrote, exactly those are appended
and their number returned. -/
theorem C17_external_functor (B : Build) (cap : Nat) (ha : Arith B cap) (cs : List BufCall)
    (xs : List Byte) (rs : List BufRet) (hs : specCalls cap [] cs = some (xs, rs))
    (f : Byte → RB.DeviceReply) (n : Nat) (h256 : min n (cap - xs.length) < 256)
    (hlim : ∀ limit, (f limit).written.length ≤ limit.toNat)
    (hret : ∀ limit, (f limit).ret.toNat = (f limit).written.length) :
    ∃ (s t : RB cap) (limit : Byte), runCalls B (RB.new cap) cs = .ok (s, rs) ∧
      limit.toNat = min n (cap - xs.length) ∧
      s.bufferFromExternalFunctorRef B f n = .ok (t, (f limit).written.length) ∧
      Shows B t (xs ++ (f limit).written) := by
  have hc := ha.lt64
  obtain ⟨s, e1, hs1⟩ := runCalls_ok hc cs (RB.holds_new cap) hs
  have hl : (UInt8.ofNat (RB.offer cap xs n)).toNat = min n (cap - xs.length) := by
    unfold RB.offer
    rw [UInt8.toNat_ofNat', Nat.mod_eq_of_lt h256]
  have h1 := hlim (UInt8.ofNat (RB.offer cap xs n))
  have h2 := hret (UInt8.ofNat (RB.offer cap xs n))
  obtain ⟨t, e2, ht⟩ := hs1.functor_ok hc (n := n) (f := f) (by rw [hl] at h1; exact h1)
    (by omega)
  rw [h2, List.take_length] at ht
  refine ⟨s, t, _, e1 B ha, hl, ?_, shows_of_holds hc ht B⟩
  rw [e2 B ha, h2]

/-- C17, the limit is told modulo 256: with a multiple of 256 bytes on offer the functor is told 0. -/
theorem C17_limit_mod_256 (B : Build) (cap : Nat) (ha : Arith B cap) (cs : List BufCall)
    (xs : List Byte) (rs : List BufRet) (hs : specCalls cap [] cs = some (xs, rs))
    (f : Byte → RB.DeviceReply) (n : Nat)
    (hlim : ∀ limit, (f limit).written.length ≤ limit.toNat)
    (hret : ∀ limit, (f limit).ret.toNat = (f limit).written.length) :
    ∃ (s t : RB cap) (limit : Byte), runCalls B (RB.new cap) cs = .ok (s, rs) ∧
      limit.toNat = min n (cap - xs.length) % 256 ∧
      s.bufferFromExternalFunctorRef B f n = .ok (t, (f limit).written.length) ∧
      Shows B t (xs ++ (f limit).written) := by
  have hc := ha.lt64
  obtain ⟨s, e1, hs1⟩ := runCalls_ok hc cs (RB.holds_new cap) hs
  have hl : (UInt8.ofNat (RB.offer cap xs n)).toNat = min n (cap - xs.length) % 256 := by
    unfold RB.offer
    rw [UInt8.toNat_ofNat']
  have hle := Nat.mod_le (min n (cap - xs.length)) 256
  have h1 := hlim (UInt8.ofNat (RB.offer cap xs n))
  have h2 := hret (UInt8.ofNat (RB.offer cap xs n))
  rw [hl] at h1
  obtain ⟨t, e2, ht⟩ := hs1.functor_ok hc (n := n) (f := f) (by
    exact Nat.le_trans h1 hle) (by omega)
  rw [h2, List.take_length] at ht
  refine ⟨s, t, _, e1 B ha, hl, ?_, shows_of_holds hc ht B⟩
  rw [e2 B ha, h2]

/-- A device that has three bytes to give. -/
def threeBytes : Byte → RB.DeviceReply := fun limit =>
  ⟨[7, 8, 9].take limit.toNat, UInt8.ofNat (min limit.toNat 3)⟩

theorem threeBytes_limit (limit : Byte) :
    (threeBytes limit).written.length ≤ limit.toNat ∧
      (threeBytes limit).ret.toNat = (threeBytes limit).written.length := by
  simp only [threeBytes, List.length_take, List.length_cons, List.length_nil]
  refine ⟨by omega, ?_⟩
  rw [UInt8.toNat_ofNat', Nat.mod_eq_of_lt (by omega)]

example := C17_external_functor Sample.dbg 7 ⟨by decide, by decide⟩ sampleCalls [99, 9]
  [.unit, .elem 1, .unit, .unit, .pos 1, .pos 0, .unit, .unit, .unit, .unit, .elem 10] (by decide)
  threeBytes 200 (by decide) (fun l => (threeBytes_limit l).1) (fun l => (threeBytes_limit l).2)
example := C17_limit_mod_256 Sample.dbg 300 ⟨by decide, by decide⟩ [] [] [] (by decide)
  threeBytes 256 (fun l => (threeBytes_limit l).1) (fun l => (threeBytes_limit l).2)

/-! ### C35 -/

/-- Appending more than the free space, in any state. -/
theorem overfull_holds {B : Build} {cap : Nat} (ha : Arith B cap) {s : RB cap} {xs ys : List Byte} (hs1 : s.Holds xs)
    (hover : cap - xs.length < ys.length) :
    (s.pushBackRange B ys = .error .ub ∨
      (B.debug = true ∧ s.pushBackRange B ys = .error .abort)) ∧
    (cap + 2 ^ leastBits cap ≤ 2 ^ max (leastBits cap) B.intBits →
      s.pushBackRange B ys =
        if B.debug = true ∧ cap < xs.length + ys.length % 2 ^ leastBits cap
        then .error .abort else .error .ub) := by
  have hc := ha.lt64
  have hxl := hs1.length_le
  have hys : ys ≠ [] := by rintro rfl; simp at hover
  have hklt : ys.length % 2 ^ leastBits cap < 2 ^ leastBits cap :=
    Nat.mod_lt _ (Nat.two_pow_pos _)
  -- the buffer after the reset of an empty buffer
  obtain ⟨s0, hs0, hh0, hx0⟩ : ∃ s0 : RB cap,
      (if s.empty then { s with begin_ := 0, pastEnd := 0 } else s) = s0 ∧ s0.Holds xs ∧
      (xs = [] → s0.pastEnd = 0) := by
    refine ⟨_, rfl, ?_, ?_⟩
    · rw [hs1.empty_eq]
      cases xs with
      | nil => exact RB.holds_clear hs1
      | cons _ _ => exact hs1
    · rintro rfl
      rw [hs1.empty_eq]
      rfl
  have hpe := hh0.pe
  have hlen := hh0.len
  have main : s.pushBackRange B ys =
      if promAdd B cap s0.pastEnd (trunc cap ys.length) ≤ cap then .error .ub
      else if B.debug = true ∧ cap < promAdd B cap xs.length (trunc cap ys.length)
        then .error .abort else .error .ub := by
    unfold RB.pushBackRange RB.ensureSpace
    simp only [hs0]
    by_cases hle : promAdd B cap s0.pastEnd (trunc cap ys.length) ≤ cap
    · rw [if_pos hle, if_pos hle]
      simp only [ok_bind]
      rw [RB.writeAt_ub _ _ _ hys (by omega)]
      rfl
    · rw [if_neg hle, if_neg hle, hh0.size_eq hc]
      by_cases hab : B.debug = true ∧ cap < promAdd B cap xs.length (trunc cap ys.length)
      · rw [if_pos hab, decide_eq_false (by omega)]
        simp [assertMsg, hab.1]
      · rw [if_neg hab]
        have hok : assertMsg B (decide (promAdd B cap xs.length (trunc cap ys.length) ≤ cap)) =
            .ok () := by
          cases hd : B.debug
          · simp [assertMsg, hd]
          · rw [decide_eq_true (by simp [hd] at hab; omega)]
            simp
        rw [hok]
        simp only [ok_bind]
        by_cases hb : 0 < s0.begin_ ∨ xs = []
        · obtain ⟨d, e, hd, hb0⟩ := hh0.slide_ok hc hb
          rw [e]
          simp only [ok_bind]
          have := hd.pe
          have := hd.len
          rw [RB.writeAt_ub _ _ _ hys (by omega)]
          rfl
        · have hx : 0 < xs.length := by
            cases xs with
            | nil => simp at hb
            | cons _ _ => simp
          unfold RB.slideContentsForward RB.copyWithin
          rw [if_neg (by omega), if_pos (by omega)]
          rfl
  refine ⟨?_, ?_⟩
  · rw [main]
    split
    · exact Or.inl rfl
    · split
      · rename_i h; exact Or.inr ⟨h.1, rfl⟩
      · exact Or.inl rfl
  · intro hw
    rw [main]
    unfold trunc
    have h1 := hh0.pastEnd_le
    rw [show promAdd B cap s0.pastEnd (ys.length % 2 ^ leastBits cap) =
        s0.pastEnd + ys.length % 2 ^ leastBits cap from Nat.mod_eq_of_lt (by omega),
      show promAdd B cap xs.length (ys.length % 2 ^ leastBits cap) =
        xs.length + ys.length % 2 ^ leastBits cap from Nat.mod_eq_of_lt (by omega)]
    split
    · rw [if_neg (by omega)]
    · rfl

/-- C35. Appending more than the free space never succeeds: undefined in every release build, and
in debug builds either a failed assertion or undefined. -/
theorem C35_overfull (B : Build) (cap : Nat) (ha : Arith B cap) (cs : List BufCall)
    (xs ys : List Byte) (rs : List BufRet) (hs : specCalls cap [] cs = some (xs, rs))
    (hover : cap - xs.length < ys.length) :
    ∃ s : RB cap, runCalls B (RB.new cap) cs = .ok (s, rs) ∧
      (s.pushBackRange B ys = .error .ub ∨
        (B.debug = true ∧ s.pushBackRange B ys = .error .abort)) ∧
      (cap + 2 ^ leastBits cap ≤ 2 ^ max (leastBits cap) B.intBits →
        s.pushBackRange B ys =
          if B.debug = true ∧ cap < xs.length + ys.length % 2 ^ leastBits cap
          then .error .abort else .error .ub) := by
  obtain ⟨s, e1, hs1⟩ := runCalls_ok ha.lt64 cs (RB.holds_new cap) hs
  exact ⟨s, e1 B ha, overfull_holds ha hs1 hover⟩

/-- C35. A concrete append that evades the assertion: 256 bytes into an empty 8-byte buffer of a
debug build. -/
theorem C35_witness : (RB.new 8).pushBackRange Sample.dbg (List.replicate 256 0) = .error .ub := by
  decide +kernel

example := C35_overfull Sample.dbg 7 ⟨by decide, by decide⟩ [.pushRange [1, 2, 3, 4, 5]]
  [1, 2, 3, 4, 5] [6, 7, 8] [.unit] (by decide) (by decide)
example : (RB.new 8).pushBackRange Sample.dbg (List.replicate 9 0) = .error .abort := by
  decide +kernel

/-! ### C50 -/

/-- C50. The arithmetic bound holds for capacities up to `2^31` with a 32-bit (or wider) `int`, and
for capacities below 256 (8-bit sizes) with an `int` of at least 16 bits. -/
theorem C50_bound (B : Build) (cap : Nat)
    (h : (32 ≤ B.intBits ∧ cap ≤ 2 ^ 31) ∨ (16 ≤ B.intBits ∧ cap < 2 ^ 8)) : Arith B cap := by
  rcases h with ⟨hi, hc⟩ | ⟨hi, hc⟩
  · refine ⟨by omega, ?_⟩
    have : 2 ^ 32 ≤ 2 ^ max (leastBits cap) B.intBits :=
      Nat.pow_le_pow_right (by omega) (by omega)
    omega
  · refine ⟨by omega, ?_⟩
    have : 2 ^ 16 ≤ 2 ^ max (leastBits cap) B.intBits :=
      Nat.pow_le_pow_right (by omega) (by omega)
    omega

/-- C50. Within the bound every push that fits is carried out correctly (C13); beyond it, in every
build and for every capacity of at least two, there is a push that fits but is placed out of bounds:
fill the buffer, remove all but one element, push `cap - 1` elements. -/
theorem C50_exact (B : Build) (cap : Nat) (hc : cap < 2 ^ 64) (h2 : 2 ≤ cap)
    (hbeyond : 2 ^ max (leastBits cap) B.intBits < 2 * cap) :
    ∃ b1 b2 : RB cap,
      (RB.new cap).pushBackRange B (List.replicate cap 7) = .ok b1 ∧
      b1.popFront B (cap - 1) = .ok (b2, 7) ∧ Shows B b2 [7] ∧
      b2.pushBackRange B (List.replicate (cap - 1) 8) = .error .ub := by
  have hlt := lt_two_pow_leastBits hc
  have hM : cap < 2 ^ max (leastBits cap) B.intBits :=
    Nat.lt_of_lt_of_le hlt (Nat.pow_le_pow_right (by omega) (by omega))
  have hh1 : (⟨0, cap, List.replicate cap 7⟩ : RB cap).Holds (List.replicate cap 7) :=
    ⟨⟨[], [], by simp, rfl⟩, by simp, by simp⟩
  have e1 : (RB.new cap).pushBackRange B (List.replicate cap 7) =
      .ok ⟨0, cap, List.replicate cap 7⟩ := by
    unfold RB.pushBackRange RB.ensureSpace
    have hp : promAdd B cap 0 cap = cap := by
      unfold promAdd; rw [Nat.zero_add, Nat.mod_eq_of_lt hM]
    simp only [RB.new, RB.empty, BEq.rfl, if_true, List.length_replicate]
    rw [trunc_of_le hc (Nat.le_refl _), hp, if_pos (Nat.le_refl _)]
    simp only [ok_bind]
    rw [RB.writeAt_ok _ _ _ (by simp)]
    simp only [ok_bind, List.take_zero, List.nil_append, List.length_replicate, Nat.zero_add,
      List.drop_replicate, Nat.sub_self, List.replicate_zero, List.append_nil]
    rw [trunc_of_le hc (Nat.le_refl _), hh1.verifyInvariants_ok]
    rfl
  obtain ⟨n, rfl⟩ : ∃ n, cap = n + 2 := ⟨cap - 2, by omega⟩
  have hh1' := hh1
  rw [List.replicate_succ] at hh1'
  obtain ⟨e2, hh2⟩ := hh1'.popFront_ok hc (n := n + 2 - 1) (by simp)
  have hx : List.drop (n + 2 - 1) ((7 : Byte) :: List.replicate (n + 1) 7) = [7] := by
    rw [← List.replicate_succ, List.drop_replicate]
    rw [show n + 1 + 1 - (n + 2 - 1) = 1 by omega]
    rfl
  rw [hx] at hh2
  refine ⟨_, _, e1, e2 B, shows_of_holds hc hh2 B, ?_⟩
  unfold RB.pushBackRange RB.ensureSpace
  rw [hh2.empty_eq]
  simp only [List.isEmpty_cons, Bool.false_eq_true, if_false, List.length_replicate]
  rw [trunc_of_le hc (by omega)]
  have hp : promAdd B (n + 2) (n + 2) (n + 2 - 1) ≤ n + 2 := by
    unfold promAdd
    have : n + 2 + (n + 2 - 1) = (n + 1 - (2 ^ max (leastBits (n + 2)) B.intBits - (n + 2)))
        + 2 ^ max (leastBits (n + 2)) B.intBits := by omega
    rw [this, Nat.add_mod_right, Nat.mod_eq_of_lt (by omega)]
    omega
  rw [if_pos hp]
  simp only [ok_bind]
  rw [RB.writeAt_ub _ _ _ (by simp) (by simp)]
  rfl

/-- C50, a platform where it happens: a 40000-byte buffer with 16-bit `int`. -/
example := C50_exact Sample.rel16 40000 (by decide) (by decide) (by decide)
example := C50_bound Sample.dbg (3 * 700000000) (Or.inl ⟨by decide, by decide⟩)

/-! ### C53 -/

/-- The end of `push_back`: one element more, then it is overwritten by `y`. -/
theorem push_tail {cap : Nat} (hc : cap < 2 ^ 64) {b : RB cap} {xs : List Byte} (h : b.Holds xs)
    (hs : b.pastEnd + 1 ≤ cap) (y : Byte) :
    ∃ b' : RB cap, b'.Holds (xs ++ [y]) ∧ ∀ B,
      RB.set B (RB.mk b.begin_ (b.pastEnd + 1) b.contents : RB cap)
        (subT cap (RB.mk b.begin_ (b.pastEnd + 1) b.contents : RB cap).size 1) y = .ok b' := by
  have h2 := h.pe
  have h3 := h.len
  have hlt : b.pastEnd < b.contents.length := by omega
  have hh : (RB.mk b.begin_ (b.pastEnd + 1) b.contents : RB cap).Holds
      (xs ++ [b.contents[b.pastEnd]]) := by
    refine ⟨?_, by simp; omega, h3⟩
    obtain ⟨pre, post, hs, hp⟩ := h.split
    refine ⟨pre, b.contents.drop (b.pastEnd + 1), ?_, hp⟩
    have ht : b.contents.take b.pastEnd = pre ++ xs := by
      rw [hs, h2, ← hp]
      apply List.take_left'
      simp
    simp only
    rw [← List.append_assoc pre, ← ht, ← List.take_succ_eq_append_getElem hlt,
      List.take_append_drop]
  obtain ⟨b', e, hb, _, _⟩ := hh.set_ok hc (i := (xs ++ [b.contents[b.pastEnd]]).length - 1)
    (by simp) y
  refine ⟨b', by simpa using hb, fun B => ?_⟩
  rw [hh.size_eq hc, subT_of_le hc hh.length_le (by simp)]
  exact e B

/-- C53. Pushing a reference to an element of the buffer itself: correct while the contents need not
be moved, otherwise the value pushed is whatever stands at the element's former place. -/
theorem C53_push_own_element (B : Build) (cap : Nat) (ha : Arith B cap) (cs : List BufCall)
    (xs : List Byte) (rs : List BufRet) (hs : specCalls cap [] cs = some (xs, rs))
    (hfit : xs.length < cap) (i : Nat) (x : Byte) (hx : xs[i]? = some x) :
    ∃ s : RB cap, runCalls B (RB.new cap) cs = .ok (s, rs) ∧
      (s.pastEnd < cap → ∃ t, s.pushBackAlias B i = .ok t ∧ Shows B t (xs ++ [x])) ∧
      (s.pastEnd = cap → ∃ t y, s.pushBackAlias B i = .ok t ∧ Shows B t (xs ++ [y]) ∧
        y = (xs[s.begin_ + i]?).getD x) := by
  have hc := ha.lt64
  obtain ⟨s, e1, h⟩ := runCalls_ok hc cs (RB.holds_new cap) hs
  refine ⟨s, e1 B ha, ?_⟩
  obtain ⟨hi, hxi⟩ := List.getElem?_eq_some_iff.mp hx
  have h1 := h.pastEnd_le
  have h2 := h.pe
  have h3 := h.len
  have he : xs.isEmpty = false := by cases xs <;> simp at *
  have hget := h.getElem? hi
  have start : s.pushBackAlias B i = (do
      let b ← s.incrementPastEnd B
      let x ← RB.rawGet b.contents (s.begin_ + i)
      b.set B (subT cap b.size 1) x) := by
    unfold RB.pushBackAlias RB.adjustedIndex
    rw [h.size_eq hc, assertMsg_of (by simpa using hi), trunc_of_le hc (by omega)]
    rfl
  constructor
  · intro hp
    obtain ⟨t, ht, e⟩ := push_tail hc h (by omega) x
    refine ⟨t, ?_, shows_of_holds hc ht B⟩
    rw [start]
    unfold RB.incrementPastEnd RB.ensureSpace
    rw [h.empty_eq, he]
    simp only [Bool.false_eq_true, if_false]
    rw [promAdd_of_lt ha (by omega), if_pos (by omega)]
    simp only [ok_bind]
    rw [trunc_of_le hc (by omega), assertMsg_of (by simp; omega)]
    simp only [ok_bind, pure_eq_ok, RB.rawGet, hget, hxi]
    exact e B
  · intro hp
    have hxs : (s.contents.drop s.begin_).take (s.pastEnd - s.begin_) = xs := by
      obtain ⟨pre, post, hs, hq⟩ := h.split
      rw [h2, hs, ← hq]
      simp
    have hsl : s.slideContentsForward =
        .ok ⟨0, xs.length, xs ++ s.contents.drop xs.length⟩ := by
      unfold RB.slideContentsForward RB.copyWithin
      rw [if_neg (by omega), if_neg (by omega), RB.copyLoop_ok _ _ _ _ (by omega) (by omega), hxs,
        h.size_eq hc]
      simp only [ok_bind, pure_eq_ok, List.take_zero, List.nil_append]
      rw [show 0 + (s.pastEnd - s.begin_) = xs.length by omega]
    have hh : (⟨0, xs.length, xs ++ s.contents.drop xs.length⟩ : RB cap).Holds xs :=
      ⟨⟨[], s.contents.drop xs.length, by simp, rfl⟩, by simp, by simp; omega⟩
    obtain ⟨t, ht, e⟩ := push_tail hc hh (by simp only; omega) ((xs[s.begin_ + i]?).getD x)
    refine ⟨t, _, ?_, shows_of_holds hc ht B, rfl⟩
    rw [start]
    unfold RB.incrementPastEnd RB.ensureSpace
    rw [h.empty_eq, he]
    simp only [Bool.false_eq_true, if_false]
    rw [promAdd_of_lt ha (by omega), if_neg (by omega), h.size_eq hc, promAdd_of_lt ha (by omega),
      assertMsg_of (by simp; omega), hsl]
    simp only [ok_bind]
    rw [trunc_of_le hc (by omega), assertMsg_of (by simp; omega)]
    simp only [ok_bind, pure_eq_ok]
    have hraw : RB.rawGet (xs ++ s.contents.drop xs.length) (s.begin_ + i) =
        .ok ((xs[s.begin_ + i]?).getD x) := by
      unfold RB.rawGet
      by_cases hlt : s.begin_ + i < xs.length
      · rw [List.getElem?_append_left hlt, List.getElem?_eq_getElem hlt]
        rfl
      · rw [List.getElem?_append_right (by omega), List.getElem?_drop,
          show xs.length + (s.begin_ + i - xs.length) = s.begin_ + i by omega, hget,
          List.getElem?_eq_none (by omega)]
        simp [hxi]
    rw [hraw]
    simp only [ok_bind]
    exact e B

/-- C53, a wrong value: the buffer holds 2 3 4 5 (after 1 was removed), `buf.push_back(buf[0])`
pushes 3. -/
theorem C53_witness : ∃ s t : RB 5,
    runCalls Sample.dbg (RB.new 5) [.pushRange [1, 2, 3, 4, 5], .popFront 1] =
      .ok (s, [.unit, .elem 1]) ∧
    s.get Sample.dbg 0 = .ok 2 ∧ s.pushBackAlias Sample.dbg 0 = .ok t ∧
    Shows Sample.dbg t [2, 3, 4, 5, 3] :=
  ⟨⟨1, 5, [1, 2, 3, 4, 5]⟩, ⟨0, 5, [2, 3, 4, 5, 3]⟩, by decide, by decide, by decide,
    shows_of_holds (by decide) ⟨⟨[], [], rfl, rfl⟩, rfl, rfl⟩ _⟩

example := C53_push_own_element Sample.dbg 5 ⟨by decide, by decide⟩
  [.pushRange [1, 2, 3, 4, 5], .popFront 1] [2, 3, 4, 5] [.unit, .elem 1] (by decide) (by decide)
  0 2 rfl

/-! ### C10 -/

/-- C10. The maximum message length is attained and bounds every message's length; the receive
buffer is three times as long, and a new receiver offers all of it. -/
theorem C10_max_length (C : Collection) (hne : C.messages ≠ []) (hc : recvBufferSize C < 2 ^ 64) :
    (∃ t ∈ C.messages, maxMessageLength C = payloadSize t + overhead C.envelope) ∧
    (∀ t ∈ C.messages, payloadSize t + overhead C.envelope ≤ maxMessageLength C) ∧
    recvBufferSize C = 3 * maxMessageLength C ∧
    (Receiver.new C).getBufferAvailableSpace = 3 * maxMessageLength C ∧
    ∀ h, (Receiver.newWith C h).getBufferAvailableSpace = 3 * maxMessageLength C := by
  have h3 : recvBufferSize C = 3 * maxMessageLength C := by
    simp [recvBufferSize, messageBufferSizeScale, Nat.mul_comm]
  have hsp : (Receiver.new C).getBufferAvailableSpace = recvBufferSize C := by
    have hn := (RB.holds_new (recvBufferSize C)).size_eq hc
    simp only [Receiver.getBufferAvailableSpace, Receiver.new, ERB.new, ERB.bufferAvailableSpace,
      RB.maxSize, hn]
    rw [subT_of_le hc (Nat.le_refl _) (by simp)]
    simp
  obtain ⟨t, ht, e⟩ := maxMessageLength_attained C hne
  refine ⟨⟨t, ht, ?_⟩, ?_, h3, ?_, ?_⟩
  · rw [sizeofBound_eq] at e; omega
  · intro t ht
    have := le_maxMessageLength C ht
    rw [sizeofBound_eq] at this
    omega
  · rw [hsp, h3]
  · intro h
    rw [← h3, ← hsp]
    rfl

example := C10_max_length Sample.basic (by decide) (by decide)
example : maxMessageLength Sample.basic = 12 ∧ maxMessageLength Sample.checked = 13 := by decide

end TT.Properties
