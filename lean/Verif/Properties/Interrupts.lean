import Verif.Proofs.InterruptsSame
import Verif.Properties.Sessions

/-!
# Property C93: bytes that arrive in interrupts while messages are processed
-/

namespace TT.Properties
open Spec

variable {C : Collection} {B : Build} {h : Handler}

/-- The sizes of the interrupts are at most one byte, or the bytes `L` on the line are messages without noise (the last
one perhaps not complete). -/
def BytewiseOrClean (C : Collection) (L : List Byte) (rounds : List (List Nat)) : Prop :=
  (∀ r ∈ rounds, ∀ n ∈ r, n ≤ 1) ∨ ∃ ms, (∀ m ∈ ms, IsMsg C m) ∧ L <+: frames C.envelope ms

theorem BytewiseOrClean.calm {L : List Byte} {rounds : List (List Nat)} (H : BytewiseOrClean C L rounds) :
    ∃ P, Calm C L P ∧ ∀ r ∈ rounds, ∀ n ∈ r, P n := by
  rcases H with H | H
  · exact ⟨(· ≤ 1), Or.inl fun _ h => h, H⟩
  · exact ⟨fun _ => True, Or.inr H, fun _ _ _ _ => trivial⟩

theorem good_observed {L : List Byte} {P : Nat → Prop} {s : IWorld C} {c : List Byte} {ms : List Msg}
    (g : Good L P h (ms.map (callOf C h)) s c ms) :
    buffered s.w = c ∧ delivered s.w = ms.map (meaning C) := by
  refine ⟨?_, ?_⟩
  · obtain ⟨pre, post, hs, hp⟩ := g.holds.split
    have := g.holds.pe
    unfold buffered
    rw [this, hs, ← hp]
    simp
  · unfold delivered
    rw [g.trace, List.map_map]
    rfl

/-- C93. Bytes arrive in interrupts, at any places between the calls that `processMessages` makes on its buffer, any
number of times, while a program calls `processMessages` again and again. If they arrive one at a time, or if there is
no noise on the line, then nothing is undefined, no assertion fails, no byte is lost, and the calls of the handler are
those for messages that a scan of the bytes arrived so far finds, the buffer holding the rest. -/
theorem C93_between (ha : Arith B (recvBufferSize C)) (L : List Byte) (rounds : List (List Nat))
    (H : BytewiseOrClean C L rounds) :
    ∃ s, IWorld.serve B false rounds (IWorld.start C h L) = .ok s ∧ s.w.fed ++ s.line = L ∧
      ∃ ms, Run C s.w.fed ms (buffered s.w) ∧ delivered s.w = ms.map (meaning C) := by
  obtain ⟨P, hP, hr⟩ := H.calm
  obtain ⟨s, c, ms, e, g⟩ := serve_ok ha hP rounds hr (good_start h L P)
  obtain ⟨h1, h2⟩ := good_observed g
  exact ⟨s, e, g.total, ms, by rw [h1]; exact g.run, h2⟩

/-- C93, in the end. When all bytes have arrived and `processMessages` has run once more undisturbed, the handler has
been called for exactly the messages in the stream, and the buffer holds its undecided end: interrupts made no
difference. -/
theorem C93_complete (ha : Arith B (recvBufferSize C)) (L : List Byte) (rounds : List (List Nat))
    (H : BytewiseOrClean C L rounds) {s : IWorld C}
    (hs : IWorld.serve B false rounds (IWorld.start C h L) = .ok s) (hl : s.line = []) :
    ∃ s', IWorld.serve B false (rounds ++ [[]]) (IWorld.start C h L) = .ok s' ∧
      ∃ ms, Decodes C L ms (buffered s'.w) ∧ delivered s'.w = ms.map (meaning C) := by
  obtain ⟨P, hP, hr⟩ := H.calm
  obtain ⟨s1, c, ms, e, g⟩ := serve_ok ha hP rounds hr (good_start h L P)
  obtain rfl : s1 = s := by rw [hs] at e; exact (Except.ok.inj e).symm
  have g1 : Good L P h (ms.map (callOf C h)) { s1 with ints := [] } c ms :=
    ⟨g.holds, g.run, g.total, g.invoker, g.functor, g.trace, by simp⟩
  obtain ⟨s2, c2, ms2, e2, g2, k2, f2⟩ := processI_ok ha hP g1
  obtain ⟨h1, h2⟩ := good_observed g2
  have hl2 : s2.line = [] := by
    apply List.length_eq_zero_iff.mp
    have : s2.line.length ≤ s1.line.length := k2
    rw [hl] at this
    simpa using this
  have hfed : s2.w.fed = L := by
    have := g2.total
    rwa [hl2, List.append_nil] at this
  refine ⟨s2, ?_, ms2, ⟨?_, ?_⟩, h2⟩
  · rw [serve_append, hs]
    simp [IWorld.serve, e2]
  · rw [h1, ← hfed]
    exact g2.run
  · rw [h1]
    exact f2 rfl

/-- C93, what was sent is what is delivered: messages sent without noise, arriving in interrupts of any sizes between
the calls of `processMessages` on its buffer, are delivered, all of them, once and in order. -/
theorem C93_delivers (ha : Arith B (recvBufferSize C)) (ms : List Msg) (hm : ∀ m ∈ ms, IsMsg C m)
    (rounds : List (List Nat)) {s : IWorld C}
    (hs : IWorld.serve B false rounds (IWorld.start C h (frames C.envelope ms)) = .ok s)
    (hl : s.line = []) :
    ∃ s', IWorld.serve B false (rounds ++ [[]]) (IWorld.start C h (frames C.envelope ms)) = .ok s' ∧
      buffered s'.w = [] ∧ delivered s'.w = ms.map (meaning C) := by
  obtain ⟨s', e, ms', hd, h2⟩ := C93_complete ha _ rounds (Or.inr ⟨ms, hm, List.prefix_refl _⟩) hs hl
  have h0 : Decodes C (frames C.envelope ms) ms [] := ⟨by simpa using run_frames hm [], Or.inl rfl⟩
  obtain ⟨rfl, hb⟩ := h0.unique hd
  exact ⟨s', e, hb.symm, h2⟩

/-- C93, without interrupts: when nothing is on the line, `processMessages` as modelled for interrupts is the
`processMessages` of the other properties, with a handler that leaves the receiver alone. The two end alike in every state
of the receiver, whether they end well or in a fault. -/
theorem C93_undisturbed (late : Bool) (w : World C) :
    IWorld.processMessages B late { w := w, line := [], ints := [] } =
      (w.processMessages B (fun _ _ => ⟨[], false⟩) (w.rx.recv.bufferSize + 1)).map
        fun p => { w := p.1, line := [], ints := [] } :=
  IWorld.calmed_processMessages late w

/-- A message after a byte of noise, in a debug build. -/
example : ((IWorld.start Sample.basic Sample.h0 []).w.append Sample.dbg [9, 1, 0, 2, 3, 4] >>= fun w =>
    IWorld.processMessages Sample.dbg false { w := w, line := [], ints := [] }).map (fun s => delivered s.w) =
    .ok [(Sample.ping, [])] := by decide +kernel

theorem served {α : Type} {r : Res (IWorld C)} {f : IWorld C → α} {a : α} (h : r.map f = .ok a) :
    ∃ s, r = .ok s ∧ f s = a := by
  cases r with
  | error e => cases h
  | ok s => exact ⟨s, rfl, Except.ok.inj h⟩

/-- Interrupts of up to 7 bytes at many places. -/
def busy : List (List Nat) :=
  [[0, 3, 0, 0, 1, 7, 0, 2], List.replicate 60 1, [5, 0, 0, 4, 7, 7, 1, 1, 1, 1, 1, 1, 1, 1, 1], []]

/-- Four different `pose` messages. -/
def poses : List Msg :=
  [⟨2, [10, 11, 12, 13, 14, 15, 16]⟩, ⟨2, [20, 21, 22, 23, 24, 25, 26]⟩,
   ⟨2, [30, 31, 32, 33, 34, 35, 36]⟩, ⟨2, [40, 41, 42, 43, 44, 45, 46]⟩]

theorem poses_isMsg : ∀ m ∈ poses, IsMsg Sample.basic m := by
  intro m hm
  simp only [poses, List.mem_cons, List.not_mem_nil, or_false] at hm
  rcases hm with rfl | rfl | rfl | rfl <;> exact ⟨Sample.pose, rfl, rfl⟩

example : ∃ s, IWorld.serve Sample.dbg false (busy ++ [[]])
      (IWorld.start Sample.basic Sample.h0 (frames .basic poses)) = .ok s ∧
    buffered s.w = [] ∧ delivered s.w = poses.map (meaning Sample.basic) := by
  obtain ⟨s, e, hl⟩ := served (f := (·.line)) (show (IWorld.serve Sample.dbg false busy
    (IWorld.start Sample.basic Sample.h0 (frames .basic poses))).map (·.line) = .ok [] by
      decide +kernel)
  exact C93_delivers Sample.setting_basic.arith poses poses_isMsg busy e hl

/-- Noise with single bytes arriving in interrupts. -/
example : BytewiseOrClean Sample.checked [1, 9, 1, 0, 2, 7] [[1, 0, 1, 1], [1, 1, 1, 1]] := Or.inl (by decide)

example := C93_between (h := Sample.h0) Sample.setting_checked.arith [1, 9, 1, 0, 2, 7] [[1, 0, 1, 1], [1, 1, 1, 1]]
  (Or.inl (by decide))

/-! ### What goes wrong otherwise -/

/-! ### What goes wrong otherwise -/

/-- C93, noise and longer interrupts: the loop that looks for a start code ends with the buffer empty, then five bytes
arrive before its size is read. A release build delivers a message although none is in the stream, because the first
byte is not looked at any more; a debug build stops at the assertion of `popMessage`. -/
theorem C93_noise_witness :
    Decodes Sample.basic [9, 7, 0, 2, 3, 4] [] [] ∧
    (∃ s, IWorld.serve Sample.rel16 false [[1, 0, 0, 0, 5]]
        (IWorld.start Sample.basic Sample.h0 [9, 7, 0, 2, 3, 4]) = .ok s ∧
      delivered s.w = [(Sample.ping, [])]) ∧
    IWorld.serve Sample.dbg false [[1, 0, 0, 0, 5]]
        (IWorld.start Sample.basic Sample.h0 [9, 7, 0, 2, 3, 4]) = .error .abort := by
  refine ⟨⟨?_, Or.inl rfl⟩, served (f := fun s => delivered s.w) (by decide +kernel), by decide +kernel⟩
  simpa using run_dropWhile (C := Sample.basic) [9, 7, 0, 2, 3, 4]

/-- C93, an interrupt after `getDataIterator()` and before the fields have been read. There is no noise; all four
messages are found. The second call of the handler gets the contents of the third message, because the interrupt moved
the contents of the buffer away from under the iterator. -/
theorem C93_iterator_witness :
    ∃ s, IWorld.serve Sample.rel16 true [36 :: List.replicate 21 0 ++ [12], []]
        (IWorld.start Sample.basic Sample.h0 (frames .basic poses)) = .ok s ∧
      delivered s.w = [meaning Sample.basic poses[0], meaning Sample.basic poses[2],
        meaning Sample.basic poses[2], meaning Sample.basic poses[3]] :=
  served (f := fun s => delivered s.w) (by decide +kernel)

/-- With the same interrupts, one place earlier, nothing goes wrong. -/
example : ∃ s, IWorld.serve Sample.rel16 true [36 :: List.replicate 20 0 ++ [12], []]
        (IWorld.start Sample.basic Sample.h0 (frames .basic poses)) = .ok s ∧
      delivered s.w = poses.map (meaning Sample.basic) :=
  served (f := fun s => delivered s.w) (by decide +kernel)

/-! ### Interrupts inside members of `ReceiveBuffer` -/

section
variable {cap : Nat} {b : RB cap} {xs ys : List Byte}

/-- C93, `pop_front` of several elements: an interrupt between two of its increments does no harm. -/
theorem C93_pop_between (ha : Arith B cap) (hb : b.Holds xs) (hf : xs.length + ys.length ≤ cap) {k n : Nat}
    (hk : 0 < xs.length) (hkn : k + n ≤ xs.length) :
    ∃ b', b.popBetween B k n ys = .ok b' ∧ b'.Holds ((xs ++ ys).drop (k + n)) := by
  have hc := ha.lt64
  obtain ⟨x, t, rfl⟩ : ∃ x t, xs = x :: t := by
    cases xs with
    | nil => simp at hk
    | cons x t => exact ⟨x, t, rfl⟩
  obtain ⟨e1, h1⟩ := RB.Holds.popFrontLoop_ok hc k hb (by omega)
  obtain ⟨b2, e2, h2⟩ := RB.Holds.pushBackRange_ok hc h1 (ys := ys) (by simp at hf ⊢; omega)
  obtain ⟨e3, h3⟩ := RB.Holds.popFrontLoop_ok hc n h2 (by simp at hkn ⊢; omega)
  refine ⟨{ b2 with begin_ := b2.begin_ + n }, ?_, ?_⟩
  · simp only [RB.popBetween, RB.Holds.front_ok hc hb, e1, e2 B ha, e3, ok_bind]
  · rw [← List.drop_append_of_le_length (by omega), List.drop_drop] at h3
    exact h3

/-- C93, `size()` interrupted between its two reads. It is right if the interrupt did not move the contents; if it did,
the result is too large by the number of elements that had been popped since the contents were last moved
(`b.begin_`). -/
theorem C93_size (ha : Arith B cap) (hb : b.Holds xs) (hf : xs.length + ys.length ≤ cap) :
    ∃ b', b.sizeInterrupted B ys = .ok (b', if xs ≠ [] ∧ b.begin_ + xs.length + ys.length ≤ cap then xs.length
        else b.begin_ + xs.length) ∧ b'.Holds (xs ++ ys) := by
  have hc := ha.lt64
  obtain ⟨b', e, h', hb'⟩ := RB.Holds.pushBackRange_begin hc hb hf
  refine ⟨b', ?_, h'⟩
  have h1 := hb.pe
  have h2 := hb.pastEnd_le
  simp only [RB.sizeInterrupted, e B ha, ok_bind, pure_eq_ok]
  congr 2
  rw [hb']
  split
  · rw [subT_of_le hc h2 (by omega)]; omega
  · rw [subT_of_le hc h2 (by omega)]; omega

/-- C93, reading an element interrupted between the computation of its place and the access. It is right if the
interrupt did not move the contents; if it did, the element read is the one `b.begin_` places further on. -/
theorem C93_get (ha : Arith B cap) (hb : b.Holds xs) (hf : xs.length + ys.length ≤ cap) {i : Nat}
    (hi : i < xs.length) :
    (b.begin_ + xs.length + ys.length ≤ cap → ∃ b', b.getInterrupted B i ys = .ok (b', xs[i])) ∧
    (cap < b.begin_ + xs.length + ys.length → ∀ v, (xs ++ ys)[b.begin_ + i]? = some v →
      ∃ b', b.getInterrupted B i ys = .ok (b', v)) := by
  have hc := ha.lt64
  obtain ⟨b', e, h', hb'⟩ := RB.Holds.pushBackRange_begin hc hb hf
  have h1 := hb.pe
  have h2 := hb.pastEnd_le
  have hsz : decide (i < b.size) = true := by rw [hb.size_eq hc]; simpa using hi
  have hne : xs ≠ [] := by rintro rfl; simp at hi
  have hadj : b.adjustedIndex i = b.begin_ + i := by
    unfold RB.adjustedIndex
    rw [trunc_of_le hc (by omega)]
  obtain ⟨pre, post, hs, hp⟩ := h'.split
  refine ⟨fun hle => ⟨b', ?_⟩, fun hgt v hv => ⟨b', ?_⟩⟩
  · rw [if_pos ⟨hne, hle⟩] at hb'
    simp only [RB.getInterrupted, hsz, assertMsg_of, ok_bind, e B ha, hadj, RB.rawGet, hs]
    rw [hb'] at hp
    rw [List.append_assoc, List.getElem?_append_right (by omega), hp]
    simp [List.getElem?_append_left hi, List.getElem?_eq_getElem hi, List.append_assoc]
  · rw [if_neg (by omega)] at hb'
    simp only [RB.getInterrupted, hsz, assertMsg_of, ok_bind, e B ha, hadj, RB.rawGet, hs]
    rw [hb'] at hp
    have : pre = [] := List.length_eq_zero_iff.mp hp
    subst this
    rw [List.nil_append, List.getElem?_append_left (by
      have := (List.getElem?_eq_some_iff.mp hv).1; exact this), hv]
    rfl

/-- C93, `_begin++` interrupted between the read and the write. If the interrupt did not move the contents, one element
is popped as it should; if it did, `b.begin_` more elements are lost. -/
theorem C93_increment (ha : Arith B cap) (hb : b.Holds xs) (hf : xs.length + ys.length ≤ cap) (hx : xs ≠ []) :
    (b.begin_ + xs.length + ys.length ≤ cap →
      ∃ b', b.incrementInterrupted B ys = .ok b' ∧ b'.Holds ((xs ++ ys).drop 1)) ∧
    (cap < b.begin_ + xs.length + ys.length → b.begin_ + 1 ≤ (xs ++ ys).length →
      ∃ b', b.incrementInterrupted B ys = .ok b' ∧ b'.Holds ((xs ++ ys).drop (b.begin_ + 1))) := by
  have hc := ha.lt64
  obtain ⟨b', e, h', hb'⟩ := RB.Holds.pushBackRange_begin hc hb hf
  have h1 := hb.pe
  have h2 := hb.pastEnd_le
  have hpos := List.length_pos_iff.mpr hx
  have hlt : decide (b.begin_ < b.pastEnd) = true := by simp; omega
  have heq : b.incrementInterrupted B ys = .ok { b' with begin_ := b.begin_ + 1 } := by
    simp only [RB.incrementInterrupted, hlt, assertMsg_of, ok_bind, e B ha]
    rw [trunc_of_le hc (by omega)]
    rfl
  refine ⟨fun hle => ⟨_, heq, ?_⟩, fun hgt hl => ⟨_, heq, ?_⟩⟩
  · rw [if_pos ⟨hx, hle⟩] at hb'
    have := (RB.Holds.popFrontLoop_ok hc 1 h' (by simp; omega)).2
    rwa [hb'] at this
  · rw [if_neg (by omega)] at hb'
    have := (RB.Holds.popFrontLoop_ok hc (b.begin_ + 1) h' hl).2
    rwa [hb', Nat.zero_add] at this

/-- A buffer for ten elements, four of them popped, five held. -/
def worn : RB 10 := ⟨4, 9, [1, 2, 3, 4, 5, 6, 7, 8, 9, 0]⟩

theorem worn_holds : worn.Holds [5, 6, 7, 8, 9] := ⟨⟨[1, 2, 3, 4], [0], rfl, rfl⟩, rfl, rfl⟩

theorem arith_worn : Arith Sample.dbg 10 := ⟨by decide, by decide⟩

example : ∃ b', worn.incrementInterrupted Sample.dbg [10, 11] = .ok b' ∧ b'.Holds [10, 11] :=
  (C93_increment arith_worn worn_holds (by decide) (by decide)).2 (by decide) (by decide)

example := C93_pop_between arith_worn worn_holds (ys := [10, 11]) (by decide) (k := 1) (n := 2) (by decide) (by decide)

example : ∃ b', worn.sizeInterrupted Sample.dbg [10, 11] = .ok (b', 9) ∧ b'.Holds [5, 6, 7, 8, 9, 10, 11] := by
  simpa [worn] using C93_size arith_worn worn_holds (ys := [10, 11]) (by decide)

example : ∃ b', worn.getInterrupted Sample.dbg 0 [10, 11] = .ok (b', 9) :=
  (C93_get arith_worn worn_holds (by decide) (by decide)).2 (by decide) 9 (by decide)

end

end TT.Properties
