import Verif.Model.Interrupts
import Verif.Spec.History
import Verif.Proofs.CheckSpec
import Verif.Proofs.Process

/-!
# Helper lemmas: `processMessages` with interrupts between its steps
-/

namespace TT
open Spec

variable {C : Collection}

/-- Either bytes come one at a time (`P` bounds the sizes of the interrupts), or `L` is what was
sent, without noise, up to some point. -/
def Calm (C : Collection) (L : List Byte) (P : Nat → Prop) : Prop :=
  (∀ n, P n → n ≤ 1) ∨ ∃ ms, (∀ m ∈ ms, IsMsg C m) ∧ L <+: frames C.envelope ms

/-- The state of the program: the buffer holds `c`, `ms` have been taken from what was fed. -/
structure Good (L : List Byte) (P : Nat → Prop) (h : Handler) (tr : List Invocation)
    (s : IWorld C) (c : List Byte) (ms : List Msg) : Prop where
  holds : s.w.rx.recv.Holds c
  run : Run C s.w.fed ms c
  total : s.w.fed ++ s.line = L
  invoker : s.w.rx.invoker = some h.kind
  functor : s.w.rx.functorPointer = some h.obj
  trace : s.w.trace = tr
  ints : ∀ n ∈ s.ints, P n

/-- From `s`, which holds `c`, to `s'`, which holds `c'`: bytes arrived, bytes were skipped. -/
structure Moved (s : IWorld C) (c : List Byte) (s' : IWorld C) (c' : List Byte) : Prop where
  grew : ∃ x, s'.w.fed = s.w.fed ++ x ∧ s.line = x ++ s'.line ∧ Run C (c ++ x) [] c' ∧
    (s.ints = [] → x = [])
  calm : s.ints = [] → s'.ints = []

theorem Moved.refl (s : IWorld C) (c : List Byte) : Moved s c s c :=
  ⟨⟨[], by simp, by simp, by simpa using Run.refl c, fun _ => rfl⟩, id⟩

theorem Moved.setRecv (s : IWorld C) (e : ERB C) (c : List Byte) : Moved s c (s.setRecv e) c :=
  ⟨⟨[], by simp [IWorld.setRecv], by simp [IWorld.setRecv], by simpa using Run.refl c,
    fun _ => rfl⟩, fun e => e⟩

theorem Moved.trans {s s' s'' : IWorld C} {c c' c'' : List Byte} (h : Moved s c s' c')
    (h' : Moved s' c' s'' c'') : Moved s c s'' c'' := by
  obtain ⟨⟨x, f, l, r, q⟩, i⟩ := h
  obtain ⟨⟨x', f', l', r', q'⟩, i'⟩ := h'
  refine ⟨⟨x ++ x', by rw [f', f, List.append_assoc], by rw [l, l', List.append_assoc], ?_,
    fun e => by simp [q e, q' (i e)]⟩, fun e => i' (i e)⟩
  have := (r.append x').trans r'
  simpa using this

theorem Moved.le {s s' : IWorld C} {c c' : List Byte} (h : Moved s c s' c') :
    c'.length + s'.line.length ≤ c.length + s.line.length := by
  obtain ⟨⟨x, _, l, r, _⟩, _⟩ := h
  have := r.length_le
  rw [l]
  simp at this ⊢
  omega

theorem Moved.line_le {s s' : IWorld C} {c c' : List Byte} (h : Moved s c s' c') :
    s'.line.length ≤ s.line.length := by
  obtain ⟨⟨x, _, l, _, _⟩, _⟩ := h
  rw [l]
  simp

/-- What may arrive while the buffer is empty. -/
def Front (x : List Byte) : Prop := x.length ≤ 1 ∨ ∃ t, x = 0x01 :: t

theorem frames_cons (E : Envelope) (m : Msg) (ms : List Msg) :
    frames E (m :: ms) = frame E m ++ frames E ms := by simp [frames]

theorem clean_front {ms0 : List Msg} (h0 : ∀ m ∈ ms0, IsMsg C m) {p r : List Byte}
    {ms : List Msg} (h : Run C p ms r) (hp : p <+: frames C.envelope ms0) :
    r = [] ∨ ∃ t, r = 0x01 :: t := by
  induction h generalizing ms0 with
  | refl s =>
    cases s with
    | nil => exact Or.inl rfl
    | cons b s =>
      right
      obtain ⟨t, ht⟩ := hp
      cases ms0 with
      | nil => simp [frames] at ht
      | cons m ms0 =>
        obtain ⟨rest, hr⟩ := frame_cons C.envelope m
        rw [frames_cons, hr] at ht
        simp at ht
        exact ⟨s, by rw [ht.1]⟩
  | take hm _ ih =>
    rename_i m s r ms _
    obtain ⟨t, ht⟩ := hp
    cases ms0 with
    | nil =>
      simp [frames] at ht
      exact absurd ht.1 (frame_ne_nil _ _)
    | cons m0 ms0 =>
      rw [frames_cons, List.append_assoc] at ht
      obtain ⟨_, e⟩ := frame_append_inj hm (h0 m0 (by simp)) ht
      exact ih (fun m h => h0 m (by simp [h])) ⟨t, e⟩
  | skip h1 h2 _ _ =>
    rename_i b s r ms _ _
    obtain ⟨t, ht⟩ := hp
    cases ms0 with
    | nil => simp [frames] at ht
    | cons m0 ms0 =>
      rw [frames_cons] at ht
      have : Starts C (b :: s ++ t) := ⟨m0, _, h0 m0 (by simp), ht⟩
      rcases this.of_append (by simp) with h | h
      · exact absurd h h1
      · exact absurd h h2

section
variable {B : Build} {L : List Byte} {P : Nat → Prop} {h : Handler} {tr : List Invocation}
  {s : IWorld C} {c : List Byte} {ms : List Msg}

theorem Good.total_eq (hc : recvBufferSize C < 2 ^ 64) (g : Good L P h tr s c ms) :
    s.total = c.length + s.line.length := by
  rw [IWorld.total, g.holds.size_eq hc]

theorem Good.congr {s' : IWorld C} (g : Good L P h tr s c ms) (h1 : s'.w.rx.recv.Holds c)
    (h2 : s'.w.fed = s.w.fed) (h3 : s'.line = s.line) (h4 : s'.w.rx.invoker = s.w.rx.invoker)
    (h5 : s'.w.rx.functorPointer = s.w.rx.functorPointer) (h6 : s'.w.trace = s.w.trace)
    (h7 : s'.ints = s.ints) : Good L P h tr s' c ms :=
  ⟨h1, by rw [h2]; exact g.run, by rw [h2, h3]; exact g.total, by rw [h4]; exact g.invoker,
    by rw [h5]; exact g.functor, by rw [h6]; exact g.trace, by rw [h7]; exact g.ints⟩

theorem tick_ok (ha : Arith B (recvBufferSize C)) (H : Calm C L P)
    (g : Good L P h tr s c ms) :
    ∃ s' x, s.tick B = .ok s' ∧ Good L P h tr s' (c ++ x) ms ∧ Moved s c s' (c ++ x) ∧
      s'.w.rx.recv.currentMessageId = s.w.rx.recv.currentMessageId ∧ (c = [] → Front x) := by
  have hc := ha.lt64
  unfold IWorld.tick
  cases hi : s.ints with
  | nil =>
    exact ⟨s, [], rfl, by simpa using g, by simpa using Moved.refl s c, rfl,
      fun _ => Or.inl (by simp)⟩
  | cons n ns =>
    have hl : c.length ≤ recvBufferSize C := RB.Holds.length_le g.holds
    have hsp : s.w.rx.getBufferAvailableSpace = recvBufferSize C - c.length := by
      unfold Receiver.getBufferAvailableSpace ERB.bufferAvailableSpace RB.maxSize
      rw [RB.Holds.size_eq hc g.holds, subT_of_le hc (Nat.le_refl _) hl]
    simp only []
    generalize hk : min n s.w.rx.getBufferAvailableSpace = k
    have hkl : (s.line.take k).length ≤ k := List.length_take_le _ _
    obtain ⟨b, hb, hh⟩ := RB.Holds.pushBackRange_ok hc g.holds (ys := s.line.take k) (by omega)
    have hrun := g.run.append (s.line.take k)
    have hL : s.w.fed ++ s.line.take k ++ s.line.drop k = L := by
      rw [List.append_assoc, List.take_append_drop, g.total]
    refine ⟨{ w := { s.w with rx := { s.w.rx with recv := { s.w.rx.recv with buf := b } },
                              fed := s.w.fed ++ s.line.take k },
              line := s.line.drop k, ints := ns }, s.line.take k, ?_,
      ⟨hh, hrun, hL, g.invoker, g.functor, g.trace,
        fun m hm => g.ints m (by rw [hi]; exact List.mem_cons_of_mem _ hm)⟩,
      ⟨⟨s.line.take k, rfl, by simp, Run.refl _, by simp [hi]⟩, by simp [hi]⟩, rfl, ?_⟩
    · simp [World.append, Receiver.appendReceived, ERB.bufferAppend, hb B ha]
    · rintro rfl
      rcases H with H | ⟨ms0, h0, hp⟩
      · have := H n (g.ints n (by rw [hi]; simp))
        exact Or.inl (by omega)
      · have hpre : s.w.fed ++ s.line.take k <+: frames C.envelope ms0 := by
          refine List.IsPrefix.trans ?_ hp
          exact ⟨s.line.drop k, hL⟩
        rcases clean_front h0 hrun hpre with h | h
        · have h' : s.line.take k = [] := h
          exact Or.inl (by simp [h'])
        · exact Or.inr h

theorem ask_ok {α : Type} {s' : IWorld C} {f : ERB C → Res α} {a : α} (h1 : s.tick B = .ok s')
    (h2 : f s'.w.rx.recv = .ok a) : s.ask B f = .ok (s', a) := by
  simp [IWorld.ask, h1, h2]

theorem size_ok (ha : Arith B (recvBufferSize C)) (H : Calm C L P) (g : Good L P h tr s c ms) :
    ∃ s' x, s.size B = .ok (s', (c ++ x).length) ∧ Good L P h tr s' (c ++ x) ms ∧
      Moved s c s' (c ++ x) ∧ s'.w.rx.recv.currentMessageId = s.w.rx.recv.currentMessageId ∧
      (c = [] → Front x) := by
  obtain ⟨s', x, h1, g', m', i', f'⟩ := tick_ok ha H g
  exact ⟨s', x, ask_ok h1 (by rw [g'.holds.size_eq ha.lt64]), g', m', i', f'⟩

theorem empty_ok (ha : Arith B (recvBufferSize C)) (H : Calm C L P) (g : Good L P h tr s c ms) :
    ∃ s' x, s.empty B = .ok (s', (c ++ x).isEmpty) ∧ Good L P h tr s' (c ++ x) ms ∧
      Moved s c s' (c ++ x) ∧ s'.w.rx.recv.currentMessageId = s.w.rx.recv.currentMessageId := by
  obtain ⟨s', x, h1, g', m', i', _⟩ := tick_ok ha H g
  exact ⟨s', x, ask_ok h1 (by rw [g'.holds.empty_eq]), g', m', i'⟩

theorem at_ok (ha : Arith B (recvBufferSize C)) (H : Calm C L P) (g : Good L P h tr s c ms)
    {i : Nat} (hi : i < c.length) :
    ∃ s' x, s.at' B i = .ok (s', c[i]) ∧ Good L P h tr s' (c ++ x) ms ∧
      Moved s c s' (c ++ x) ∧ s'.w.rx.recv.currentMessageId = s.w.rx.recv.currentMessageId := by
  obtain ⟨s', x, h1, g', m', i', _⟩ := tick_ok ha H g
  refine ⟨s', x, ask_ok h1 ?_, g', m', i'⟩
  unfold ERB.buffer
  rw [RB.Holds.get_ok ha.lt64 g'.holds B (by simp; omega)]
  simp [List.getElem_append_left hi]

theorem front_ok {b : Byte} {t : List Byte} (ha : Arith B (recvBufferSize C)) (H : Calm C L P)
    (g : Good L P h tr s (b :: t) ms) :
    ∃ s' x, s.front B = .ok (s', b) ∧ Good L P h tr s' (b :: t ++ x) ms ∧
      Moved s (b :: t) s' (b :: t ++ x) ∧
      s'.w.rx.recv.currentMessageId = s.w.rx.recv.currentMessageId := by
  obtain ⟨s', x, h1, g', m', i', _⟩ := tick_ok ha H g
  refine ⟨s', x, ask_ok h1 ?_, g', m', i'⟩
  exact RB.Holds.front_ok ha.lt64 g'.holds B

theorem pop_ok {b : Byte} {t : List Byte} (ha : Arith B (recvBufferSize C)) (H : Calm C L P)
    (g : Good L P h tr s (b :: t) ms) (h1 : ¬ Starts C (b :: t)) (h2 : ¬ Waiting C (b :: t)) :
    ∃ s' c', s.pop B 1 = .ok s' ∧ Good L P h tr s' c' ms ∧ Moved s (b :: t) s' c' ∧
      c'.length + s'.line.length < t.length + 1 + s.line.length := by
  obtain ⟨s', x, e1, g', m', i', _⟩ := tick_ok ha H g
  obtain ⟨e, e2, hh, _, _⟩ := g'.holds.pop_ok ha.lt64 (n := 1) (by simp)
  obtain ⟨a1, a2⟩ := skip_stable h1 h2 x
  have hrun : Run C (b :: t ++ x) [] (t ++ x) := Run.skip a1 a2 (Run.refl _)
  have hm : Moved s' (b :: t ++ x) (s'.setRecv e) (t ++ x) :=
    ⟨⟨[], by simp [IWorld.setRecv], by simp [IWorld.setRecv], by simpa using hrun, fun _ => rfl⟩,
      id⟩
  refine ⟨s'.setRecv e, t ++ x, ?_, ⟨(by simpa using hh : e.Holds (t ++ x)), ?_, g'.total,
    g'.invoker, g'.functor, g'.trace, g'.ints⟩, m'.trans hm, ?_⟩
  · simp [IWorld.pop, e1, e2 B]
  · have := g'.run.trans hrun
    exact (by simpa using this : Run C s'.w.fed ms (t ++ x))
  · have := m'.le
    simp [IWorld.setRecv] at this ⊢
    omega

theorem retryI_ok {b : Byte} {t : List Byte} (ha : Arith B (recvBufferSize C)) (H : Calm C L P)
    (g : Good L P h tr s (b :: t) ms) (h1 : ¬ Starts C (b :: t)) (h2 : ¬ Waiting C (b :: t)) :
    ∃ s' c', (∀ f, s.popAndRetry B f = f s') ∧ Good L P h tr s' c' ms ∧ Moved s (b :: t) s' c' ∧
      c'.length + s'.line.length < t.length + 1 + s.line.length := by
  have step : ∃ s1 x, (if B.debug then do
      let (s, isEmpty) ← s.empty B
      assertMsg B (!isEmpty)
      return s
    else (.ok s : Res (IWorld C))) = .ok s1 ∧ Good L P h tr s1 (b :: t ++ x) ms ∧
      Moved s (b :: t) s1 (b :: t ++ x) := by
    by_cases hd : B.debug
    · obtain ⟨s1, x, e1, g1, m1, _⟩ := empty_ok ha H g
      exact ⟨s1, x, by simp [hd, e1, assertMsg], g1, m1⟩
    · exact ⟨s, [], by simp [hd], by simpa using g, by simpa using Moved.refl s (b :: t)⟩
  obtain ⟨s1, x1, e1, g1, m1⟩ := step
  obtain ⟨s2, x2, e2, g2, m2, _⟩ := empty_ok ha H g1
  obtain ⟨a1, a2⟩ := skip_stable h1 h2 x1
  obtain ⟨b1, b2⟩ := skip_stable a1 a2 x2
  obtain ⟨s3, c3, e3, g3, m3, l3⟩ := pop_ok ha H g2 b1 b2
  refine ⟨s3, c3, fun f => ?_, g3, (m1.trans m2).trans m3, ?_⟩
  · unfold IWorld.popAndRetry
    rw [e1]
    simp [e2, e3]
  · have := (m1.trans m2).le
    simp at this l3 ⊢
    omega

theorem skipI_ok (ha : Arith B (recvBufferSize C)) (H : Calm C L P) (fuel : Nat) :
    ∀ {s : IWorld C} {c : List Byte}, Good L P h tr s c ms → c.length + s.line.length < fuel →
    ∃ s' c', IWorld.skip B fuel s = .ok s' ∧ Good L P h tr s' c' ms ∧ Moved s c s' c' ∧
      (c' = [] ∨ ∃ t, c' = 0x01 :: t) := by
  induction fuel with
  | zero => intro s c _ hf; omega
  | succ fuel ih =>
    intro s c g hf
    obtain ⟨s1, x1, e1, g1, m1, _⟩ := empty_ok ha H g
    unfold IWorld.skip
    generalize c ++ x1 = c1 at *
    cases c1 with
    | nil => exact ⟨s1, [], by simp [e1], g1, m1, Or.inl rfl⟩
    | cons b t =>
      obtain ⟨s2, x2, e2, g2, m2, _⟩ := front_ok ha H g1
      by_cases hb : b = 0x01
      · subst hb
        exact ⟨s2, _, by simp [e1, e2, SOH], g2, m1.trans m2, Or.inr ⟨_, rfl⟩⟩
      · obtain ⟨s3, c3, e3, g3, m3, l3⟩ := pop_ok ha H g2 (not_starts_of_ne hb)
          (not_waiting_of_ne hb)
        have hle := (m1.trans m2).le
        obtain ⟨s4, c4, e4, g4, m4, f4⟩ := ih g3 (by simp at hle l3 ⊢; omega)
        refine ⟨s4, c4, ?_, g4, ((m1.trans m2).trans m3).trans m4, f4⟩
        have hb' : b ≠ SOH := hb
        simp [e1, e2, hb', e3, e4]

theorem checksumI_ok (ha : Arith B (recvBufferSize C)) (H : Calm C L P) (k : Nat) :
    ∀ {s : IWorld C} {c : List Byte} (i : Nat) (ck : Byte), Good L P h tr s c ms →
    i + k ≤ c.length →
    ∃ s' x, IWorld.checksum B k i s ck = .ok (s', ck + byteSum ((c.drop i).take k)) ∧
      Good L P h tr s' (c ++ x) ms ∧ Moved s c s' (c ++ x) ∧
      s'.w.rx.recv.currentMessageId = s.w.rx.recv.currentMessageId := by
  induction k with
  | zero =>
    intro s c i ck g _
    exact ⟨s, [], by simp [IWorld.checksum, byteSum], by simpa using g,
      by simpa using Moved.refl s c, rfl⟩
  | succ k ih =>
    intro s c i ck g hle
    have hi : i < c.length := by omega
    obtain ⟨s1, x1, e1, g1, m1, i1⟩ := at_ok ha H g hi
    obtain ⟨s2, x2, e2, g2, m2, i2⟩ := ih (i + 1) (ck + c[i]) g1 (by simp; omega)
    refine ⟨s2, x1 ++ x2, ?_, by simpa using g2, by simpa using m1.trans m2, i2.trans i1⟩
    simp only [IWorld.checksum, e1, ok_bind, checksumComputer]
    rw [List.drop_append_of_le_length (by omega),
      List.take_append_of_le_length (by simp; omega)] at e2
    rw [e2, List.drop_eq_getElem_cons hi, List.take_succ_cons]
    simp [byteSum, UInt8.add_assoc]

theorem atEnd_ok (ha : Arith B (recvBufferSize C)) (H : Calm C L P) (g : Good L P h tr s c ms)
    {n k : Nat} (hn : n ≤ c.length) (hk : 0 < k) (hkn : k ≤ n) :
    ∃ s' x, s.at' B (subT (recvBufferSize C) n k) = .ok (s', c[n - k]'(by omega)) ∧
      Good L P h tr s' (c ++ x) ms ∧ Moved s c s' (c ++ x) ∧
      s'.w.rx.recv.currentMessageId = s.w.rx.recv.currentMessageId := by
  have hl : c.length ≤ recvBufferSize C := RB.Holds.length_le g.holds
  rw [subT_of_le ha.lt64 (by omega) hkn]
  exact at_ok ha H g (by omega)

theorem ending_ok (ha : Arith B (recvBufferSize C)) (H : Calm C L P) {id : Byte}
    {rest : List Byte} {n : Nat} (g : Good L P h tr s (0x01 :: id :: 0x02 :: rest) ms)
    (hann : announced C id = some n) (hn : n ≤ rest.length + 3) :
    ∃ s' x good, s.ending B n = .ok (s', good) ∧
      Good L P h tr s' (0x01 :: id :: 0x02 :: rest ++ x) ms ∧
      Moved s (0x01 :: id :: 0x02 :: rest) s' (0x01 :: id :: 0x02 :: rest ++ x) ∧
      s'.w.rx.recv.currentMessageId = s.w.rx.recv.currentMessageId ∧
      (good = true ↔ Starts C (0x01 :: id :: 0x02 :: rest)) := by
  have hge := announced_ge hann
  cases hE : C.envelope with
  | basic =>
    rw [starts_iff_basic hE hann hn]
    have h5 : 5 ≤ n := by rw [hE] at hge; exact hge
    have hl' : n ≤ (0x01 :: id :: 0x02 :: rest).length := by simp; omega
    generalize 0x01 :: id :: 0x02 :: rest = c at *
    obtain ⟨s1, x1, e1, g1, m1, i1⟩ := atEnd_ok ha H g hl' (k := 2) (by omega) (by omega)
    unfold IWorld.ending
    rw [hE]
    simp only [e1, ok_bind]
    rw [List.getElem?_eq_getElem (show n - 2 < c.length by omega),
      List.getElem?_eq_getElem (show n - 1 < c.length by omega)]
    by_cases h2 : c[n - 2]'(by omega) = 0x03
    · obtain ⟨s2, x2, e2, g2, m2, i2⟩ := atEnd_ok ha H g1 (n := n) (by simp; omega) (k := 1)
        (by omega) (by omega)
      rw [List.getElem_append_left (by omega)] at e2
      refine ⟨s2, x1 ++ x2, decide (c[n - 1]'(by omega) = 0x04), ?_, by simpa using g2,
        by simpa using m1.trans m2, i2.trans i1, by simp [h2]⟩
      simp [h2, e2, ETX, EOT]
      rfl
    · refine ⟨s1, x1, false, ?_, g1, m1, i1, by simp [h2]⟩
      have h2' : c[n - 2]'(by omega) ≠ ETX := h2
      simp [h2']
  | basicChecksum =>
    rw [starts_iff_checksum hE hann hn]
    have h6 : 6 ≤ n := by rw [hE] at hge; exact hge
    have hl' : n ≤ (0x01 :: id :: 0x02 :: rest).length := by simp; omega
    generalize 0x01 :: id :: 0x02 :: rest = c at *
    obtain ⟨s1, x1, e1, g1, m1, i1⟩ := atEnd_ok ha H g hl' (k := 3) (by omega) (by omega)
    unfold IWorld.ending
    rw [hE]
    simp only [e1, ok_bind]
    rw [List.getElem?_eq_getElem (show n - 3 < c.length by omega),
      List.getElem?_eq_getElem (show n - 2 < c.length by omega),
      List.getElem?_eq_getElem (show n - 1 < c.length by omega)]
    by_cases h3 : c[n - 3]'(by omega) = 0x03
    · obtain ⟨s2, x2, e2, g2, m2, i2⟩ := atEnd_ok ha H g1 (n := n) (by simp; omega) (k := 1)
        (by omega) (by omega)
      rw [List.getElem_append_left (by omega)] at e2
      by_cases h1 : c[n - 1]'(by omega) = 0x04
      · obtain ⟨s3, x3, e3, g3, m3, i3⟩ := checksumI_ok ha H (n - 2) 0 checksumInit g2
          (by simp; omega)
        obtain ⟨s4, x4, e4, g4, m4, i4⟩ := atEnd_ok ha H g3 (n := n) (by simp; omega) (k := 2)
          (by omega) (by omega)
        rw [List.getElem_append_left (by simp; omega), List.getElem_append_left (by simp; omega),
          List.getElem_append_left (by omega)] at e4
        rw [List.drop_zero, List.take_append_of_le_length (by simp; omega),
          List.take_append_of_le_length (by omega)] at e3
        refine ⟨s4, x1 ++ x2 ++ x3 ++ x4,
          decide (checksumInit + byteSum (c.take (n - 2)) = c[n - 2]'(by omega)), ?_,
          by simpa using g4, by simpa using ((m1.trans m2).trans m3).trans m4,
          ((i4.trans i3).trans i2).trans i1, ?_⟩
        · simp [h3, e2, h1, e3, e4, ETX, EOT]
        · simp [h3, h1, checksumInit, eq_comm]
      · refine ⟨s2, x1 ++ x2, false, ?_, by simpa using g2, by simpa using m1.trans m2,
          i2.trans i1, by simp [h1]⟩
        have h1' : c[n - 1]'(by omega) ≠ EOT := h1
        simp [h3, e2, h1', ETX]
    · refine ⟨s1, x1, false, ?_, g1, m1, i1, by simp [h3]⟩
      have h3' : c[n - 3]'(by omega) ≠ ETX := h3
      simp [h3']

/-- The recursion of `checkBufferForMessage` with interrupts in between. -/
theorem checkI_ok (ha : Arith B (recvBufferSize C)) (H : Calm C L P) (d : Nat) :
    ∀ {s : IWorld C} {c : List Byte}, Good L P h tr s c ms → c.length + s.line.length < d →
    ∃ s' c' found, IWorld.check B d s = .ok (s', found) ∧ Good L P h tr s' c' ms ∧
      Moved s c s' c' ∧
      (found = true → ∃ m t, IsMsg C m ∧ c' = frame C.envelope m ++ t ∧
        s'.w.rx.recv.currentMessageId = some m.id) ∧
      (found = false → ¬ Starts C c' ∧ (s.ints = [] → Final C c')) := by
  induction d with
  | zero => intro s c _ hd; omega
  | succ d ih =>
    intro s c g hd
    have hc := ha.lt64
    obtain ⟨s1, c1, e1, g1, m1, f1⟩ := skipI_ok ha H (s.total + 1) g (by rw [g.total_eq hc]; omega)
    obtain ⟨s2, x2, e2, g2, m2, _, f2⟩ := size_ok ha H g1
    unfold IWorld.check
    simp only [e1, e2, ok_bind]
    -- the front of the buffer once its size has been read
    have hfront : (c1 ++ x2).length < 2 ∨ ∃ t, c1 ++ x2 = 0x01 :: t := by
      rcases f1 with rfl | ⟨t, rfl⟩
      · rcases f2 rfl with h | ⟨t, rfl⟩
        · left; simp; omega
        · right; exact ⟨t, rfl⟩
      · right; exact ⟨t ++ x2, rfl⟩
    have hcalm : s.ints = [] → x2 = [] := by
      intro e
      obtain ⟨⟨y, p1, p2, p3, p4⟩, _⟩ := m2
      have hy := p4 (m1.calm e)
      subst hy
      have := p3.length_le
      simp at this
      exact List.length_eq_zero_iff.mp (by omega)
    by_cases hn2 : (c1 ++ x2).length < 2
    · refine ⟨s2, c1 ++ x2, false, if_pos hn2, g2, m1.trans m2, by simp, fun _ => ⟨?_, ?_⟩⟩
      · rintro ⟨m, t, _, e⟩
        obtain ⟨rest, hr⟩ := frame_cons C.envelope m
        rw [e, hr] at hn2
        simp at hn2
        omega
      · intro e
        have hx := hcalm e
        subst hx
        rcases f1 with rfl | ⟨t, rfl⟩
        · exact Or.inl rfl
        · have : t = [] := List.length_eq_zero_iff.mp (by simp at hn2; omega)
          subst this
          exact Or.inr (Or.inl rfl)
    simp only [hn2, if_false]
    obtain ⟨t, ht⟩ := hfront.resolve_left hn2
    obtain ⟨id, rest, hrest⟩ : ∃ id rest, t = id :: rest := by
      cases t with
      | nil => rw [ht] at hn2; simp at hn2
      | cons a b => exact ⟨a, b, rfl⟩
    subst hrest
    rw [ht] at g2 m2
    have m2' := m1.trans m2
    clear hn2 hfront f1 f2 ht e2 e1 hcalm m1 m2 g1
    obtain ⟨s3, x3, e3, g3, m3, _⟩ := at_ok ha H g2 (i := 1) (by simp)
    simp only [e3, ok_bind, List.getElem_cons_succ, List.getElem_cons_zero]
    have m3' := m2'.trans m3
    -- the retry branches
    have hretry : ∀ {s4 : IWorld C} {t4 : List Byte}, Good L P h tr s4 (0x01 :: t4) ms →
        Moved s c s4 (0x01 :: t4) → ¬ Starts C (0x01 :: t4) → ¬ Waiting C (0x01 :: t4) →
        ∃ s' c' found, s4.popAndRetry B (IWorld.check B d) = .ok (s', found) ∧
          Good L P h tr s' c' ms ∧ Moved s c s' c' ∧
          (found = true → ∃ m t, IsMsg C m ∧ c' = frame C.envelope m ++ t ∧
            s'.w.rx.recv.currentMessageId = some m.id) ∧
          (found = false → ¬ Starts C c' ∧ (s.ints = [] → Final C c')) := by
      intro s4 t4 g4 m4 n1 n2
      obtain ⟨s5, c5, e5, g5, m5, l5⟩ := retryI_ok ha H g4 n1 n2
      have := m4.le
      simp at this
      obtain ⟨s6, c6, found, e6, g6, m6, p6, q6⟩ := ih g5 (by omega)
      exact ⟨s6, c6, found, by rw [e5, e6], g6, (m4.trans m5).trans m6, p6,
        fun hf => ⟨(q6 hf).1, fun e => (q6 hf).2 ((m4.trans m5).calm e)⟩⟩
    cases hty : typeOf C id with
    | none =>
      have hv : isIdValid C id = false := by
        cases hv : isIdValid C id with
        | false => rfl
        | true => exact absurd hty ((isIdValid_iff C id).mp hv)
      have hann : announced C id = none := by simp [announced, hty]
      have hset : s3.w.rx.recv.setCurrentMessageId id =
          { s3.w.rx.recv with currentMessageId := none } := by
        simp [ERB.setCurrentMessageId, hv]
      rw [hset]
      have hg : Good L P h tr (s3.setRecv { s3.w.rx.recv with currentMessageId := none })
          (0x01 :: (id :: rest ++ x3)) ms := g3.congr g3.holds rfl rfl rfl rfl rfl rfl
      have := hretry hg (m3'.trans (Moved.setRecv _ _ _)) ?_ ?_
      · simpa [ERB.isCurrentMessageIdValid, IWorld.setRecv] using this
      · rintro ⟨m, u, hm, e⟩
        obtain ⟨r, hr⟩ := frame_cons C.envelope m
        rw [hr] at e
        simp at e
        obtain ⟨ty, h1, _⟩ := hm
        rw [← e.1, hty] at h1
        simp at h1
      · rintro (e | ⟨id', h', e⟩ | ⟨id', r', n', h', e, _⟩)
        · simp at e
        · simp at e; exact h' (by rw [← e.1]; exact hty)
        · simp at e; rw [← e.1, hann] at h'; simp at h'
    | some ty =>
      have hv : isIdValid C id = true := (isIdValid_iff C id).mpr (by simp [hty])
      obtain ⟨n, hann⟩ : ∃ n, announced C id = some n := by simp [announced, hty]
      have hset : s3.w.rx.recv.setCurrentMessageId id =
          { s3.w.rx.recv with currentMessageId := some id } := by
        simp [ERB.setCurrentMessageId, hv]
      rw [hset]
      have hg : Good L P h tr (s3.setRecv { s3.w.rx.recv with currentMessageId := some id })
          (0x01 :: id :: (rest ++ x3)) ms := g3.congr g3.holds rfl rfl rfl rfl rfl rfl
      have hm : Moved s c (s3.setRecv { s3.w.rx.recv with currentMessageId := some id })
          (0x01 :: id :: (rest ++ x3)) := m3'.trans (Moved.setRecv _ _ _)
      have hi : (s3.setRecv { s3.w.rx.recv with currentMessageId := some id }
        ).w.rx.recv.currentMessageId = some id := rfl
      generalize s3.setRecv { s3.w.rx.recv with currentMessageId := some id } = s4 at *
      have hval : s4.w.rx.recv.isCurrentMessageIdValid = true := by
        simp [ERB.isCurrentMessageIdValid, hi]
      clear hset hv g3 m3' m3 e3 g2 m2'
      generalize rest ++ x3 = rest at *
      obtain ⟨s5, x5, e5, g5, m5, i5, _⟩ := size_ok ha H hg
      simp only [hval, Bool.not_true, Bool.false_eq_true, if_false, e5, ok_bind]
      have m5' := hm.trans m5
      cases hr : rest ++ x5 with
      | nil =>
        have hr' : 0x01 :: id :: rest ++ x5 = [0x01, id] := by simp [List.cons_append, hr]
        rw [hr'] at g5 m5'
        have hw : Waiting C [0x01, id] := Or.inr (Or.inl ⟨id, by simp [hty], rfl⟩)
        refine ⟨s5, _, false, ?_, g5, m5', by simp, fun _ => ⟨?_, fun _ => Or.inr hw⟩⟩
        · rw [hr']
          rfl
        · exact fun hs => hs.not_waiting hw
      | cons c2 rest' =>
        have hr' : 0x01 :: id :: rest ++ x5 = 0x01 :: id :: c2 :: rest' := by
          simp [List.cons_append, hr]
        rw [hr'] at g5 m5' ⊢
        rw [if_neg (by simp)]
        obtain ⟨s6, x6, e6, g6, m6, i6⟩ := at_ok ha H g5 (i := 2) (by simp)
        simp only [e6, ok_bind, List.getElem_cons_succ, List.getElem_cons_zero]
        have m6' := m5'.trans m6
        by_cases h2 : c2 = 0x02
        · subst h2
          rw [if_neg (by simp [STX]), getMessageLength_ok ha.lt64 (by rw [i6, i5, hi]) hann]
          simp only [ok_bind]
          obtain ⟨s7, x7, e7, g7, m7, i7, _⟩ := size_ok ha H g6
          have m7' := m6'.trans m7
          simp only [e7, ok_bind]
          have hshape : 0x01 :: id :: 0x02 :: rest' ++ x6 ++ x7 =
            0x01 :: id :: 0x02 :: (rest' ++ x6 ++ x7) := rfl
          rw [hshape] at g7 m7' ⊢
          generalize rest' ++ x6 ++ x7 = rest7 at *
          by_cases hlt : (0x01 :: id :: 0x02 :: rest7).length < n
          · have hw : Waiting C (0x01 :: id :: 0x02 :: rest7) :=
              Or.inr (Or.inr ⟨id, rest7, n, hann, rfl, hlt⟩)
            exact ⟨s7, _, false, if_pos hlt, g7, m7', by simp,
              fun _ => ⟨fun hs => hs.not_waiting hw, fun _ => Or.inr hw⟩⟩
          · rw [if_neg hlt]
            have hle : n ≤ rest7.length + 3 := by simp at hlt; omega
            obtain ⟨s8, x8, good, e8, g8, m8, i8, hgood⟩ := ending_ok ha H g7 hann hle
            simp only [e8, ok_bind]
            have m8' := m7'.trans m8
            cases hgd : good with
            | true =>
              obtain ⟨m, t, hm', e⟩ := hgood.mp hgd
              refine ⟨s8, _, true, rfl, g8, m8', fun _ => ⟨m, t ++ x8, hm', ?_, ?_⟩, by simp⟩
              · rw [e, List.append_assoc]
              · obtain ⟨r, hr⟩ := frame_cons C.envelope m
                rw [hr] at e
                simp at e
                rw [i8, i7, i6, i5, hi, e.1]
            | false =>
              have hns : ¬ Starts C (0x01 :: id :: 0x02 :: rest7) := fun hs => by
                rw [← hgood, hgd] at hs; simp at hs
              have hnw : ¬ Waiting C (0x01 :: id :: 0x02 :: rest7) := by
                rintro (e | ⟨id', h', e⟩ | ⟨id', r', n', h', e, hl⟩)
                · simp at e
                · simp at e
                · simp at e
                  rw [← e.1, hann] at h'
                  simp at h'
                  exact hlt (h' ▸ hl)
              obtain ⟨a1, a2⟩ := skip_stable hns hnw x8
              exact hretry g8 m8' a1 a2
        · rw [if_pos (show c2 ≠ STX from h2)]
          have hns : ¬ Starts C (0x01 :: id :: c2 :: rest') := by
            rintro ⟨m, u, _, e⟩
            obtain ⟨r, hr⟩ := frame_cons C.envelope m
            rw [hr] at e
            simp at e
            exact h2 e.2.1
          have hnw : ¬ Waiting C (0x01 :: id :: c2 :: rest') := by
            rintro (e | ⟨id', h', e⟩ | ⟨id', r', n', h', e, hl⟩)
            · simp at e
            · simp at e
            · simp at e; exact h2 e.2.1
          obtain ⟨a1, a2⟩ := skip_stable hns hnw x6
          exact hretry g6 m6' a1 a2

/-- The check when a message is at the front. -/
theorem checkI_at_frame (ha : Arith B (recvBufferSize C)) (H : Calm C L P) {m : Msg}
    {t : List Byte} (hm : IsMsg C m) (g : Good L P h tr s (frame C.envelope m ++ t) ms) :
    ∃ s' x, s.checkBufferForMessage B = .ok (s', true) ∧
      Good L P h tr s' (frame C.envelope m ++ t ++ x) ms ∧
      Moved s (frame C.envelope m ++ t) s' (frame C.envelope m ++ t ++ x) ∧
      s'.w.rx.recv.currentMessageId = some m.id := by
  obtain ⟨s', c', found, e, g', m', p, q⟩ :=
    checkI_ok ha H (s.total + 1) g (by rw [g.total_eq ha.lt64]; omega)
  obtain ⟨⟨x, h1, h2, hr, h3⟩, h4⟩ := m'
  have hc' : c' = frame C.envelope m ++ t ++ x := by
    have hs : Starts C (frame C.envelope m ++ t ++ x) := (starts_frame hm t).append x
    generalize frame C.envelope m ++ t ++ x = xs at hr hs
    generalize hms : ([] : List Msg) = ns at hr
    cases hr with
    | refl => rfl
    | take _ _ => simp at hms
    | skip h1 _ _ => exact absurd hs h1
  subst hc'
  cases found with
  | false => exact absurd ((starts_frame hm t).append x) (q rfl).1
  | true =>
    obtain ⟨m1, t1, hm1, e1, i1⟩ := p rfl
    obtain ⟨rfl, _⟩ := frame_append_inj hm hm1 (by rw [← e1, List.append_assoc])
    exact ⟨s', x, e, g', ⟨⟨x, h1, h2, hr, h3⟩, h4⟩, i1⟩

theorem popMessageI_ok (ha : Arith B (recvBufferSize C)) (H : Calm C L P) {m : Msg}
    {t : List Byte} (hm : IsMsg C m) (g : Good L P h tr s (frame C.envelope m ++ t) ms)
    (hi : s.w.rx.recv.currentMessageId = some m.id) :
    ∃ s' x, s.popMessage B = .ok s' ∧ Good L P h tr s' (t ++ x) (ms ++ [m]) ∧
      (t ++ x).length + s'.line.length < (frame C.envelope m ++ t).length + s.line.length ∧
      s'.line.length ≤ s.line.length ∧ (s.ints = [] → s'.ints = []) := by
  have step : ∃ s1 x, (if B.debug then do
      let (s, ok) ← s.checkBufferForMessage B
      assertMsg B ok
      return s
    else (.ok s : Res (IWorld C))) = .ok s1 ∧
      Good L P h tr s1 (frame C.envelope m ++ t ++ x) ms ∧
      Moved s (frame C.envelope m ++ t) s1 (frame C.envelope m ++ t ++ x) ∧
      s1.w.rx.recv.currentMessageId = some m.id := by
    by_cases hd : B.debug
    · obtain ⟨s1, x, e1, g1, m1, i1⟩ := checkI_at_frame ha H hm g
      exact ⟨s1, x, by simp [hd, e1, assertMsg], g1, m1, i1⟩
    · exact ⟨s, [], by simp [hd], by simpa using g, by simpa using Moved.refl s _, hi⟩
  obtain ⟨s1, x1, e1, g1, m1, i1⟩ := step
  obtain ⟨s2, x2, e2, g2, m2, i2, _⟩ := tick_ok ha H g1
  have hlen := getMessageLength_ok ha.lt64 i1 hm.announced B
  have hcons : ∃ b u, frame C.envelope m ++ t ++ x1 ++ x2 = b :: u := by
    obtain ⟨r, hr⟩ := frame_cons C.envelope m
    exact ⟨_, _, by rw [hr]; rfl⟩
  obtain ⟨b, u, hbu⟩ := hcons
  have hh := g2.holds
  rw [hbu] at hh
  have hle : (frame C.envelope m).length ≤ u.length + 1 := by
    have := congrArg List.length hbu
    simp at this
    omega
  obtain ⟨e, e3, hh3, _, _⟩ := hh.pop_ok ha.lt64 hle
  rw [← hbu, List.append_assoc, List.append_assoc, List.drop_left] at hh3
  refine ⟨(s2.setRecv e).setRecv { e with currentMessageId := none }, x1 ++ x2, ?_,
    ⟨hh3, ?_, g2.total, g2.invoker, g2.functor, g2.trace, g2.ints⟩, ?_, ?_,
    fun e => m2.calm (m1.calm e)⟩
  · unfold IWorld.popMessage
    rw [e1]
    simp only [ok_bind, hlen, IWorld.pop, e2, e3 B, pure_eq_ok]
    rfl
  · have : Run C (frame C.envelope m ++ t ++ x1 ++ x2) [m] (t ++ (x1 ++ x2)) := by
      rw [List.append_assoc, List.append_assoc]
      exact Run.take hm (Run.refl _)
    exact g2.run.trans this
  · have := (m1.trans m2).le
    have := List.length_pos_iff.mpr (frame_ne_nil C.envelope m)
    simp [IWorld.setRecv] at *
    omega
  · exact (m1.trans m2).line_le

/-- The loop of `processMessages`. -/
theorem loopI_ok (ha : Arith B (recvBufferSize C)) (H : Calm C L P) (fuel : Nat) :
    ∀ {s : IWorld C} {c : List Byte} {ms : List Msg}, Good L P h (ms.map (callOf C h)) s c ms →
    c.length + s.line.length < fuel →
    ∃ s' c' ms', IWorld.loop B false fuel s = .ok s' ∧
      Good L P h (ms'.map (callOf C h)) s' c' ms' ∧ s'.line.length ≤ s.line.length ∧
      (s.ints = [] → Final C c') := by
  induction fuel with
  | zero => intro s c ms _ hf; omega
  | succ fuel ih =>
    intro s c ms g hf
    obtain ⟨s1, c1, found, e1, g1, m1, p1, q1⟩ :=
      checkI_ok ha H (s.total + 1) g (by rw [g.total_eq ha.lt64]; omega)
    unfold IWorld.loop IWorld.checkBufferForMessage
    rw [e1]
    cases found with
    | false => exact ⟨s1, c1, ms, rfl, g1, m1.line_le, (q1 rfl).2⟩
    | true =>
      obtain ⟨m, t, hm, rfl, i1⟩ := p1 rfl
      have hid : s1.w.rx.recv.getCurrentMessageId B = .ok m.id := by
        simp [ERB.getCurrentMessageId, i1]
      simp only [ok_bind, Bool.not_true, Bool.false_eq_true, if_false, hid]
      have g2 : Good L P h (ms.map (callOf C h))
          { s1 with w := { s1.w with rx := { s1.w.rx with lastMessageId := some m.id } } }
          (frame C.envelope m ++ t) ms := g1.congr g1.holds rfl rfl rfl rfl rfl rfl
      obtain ⟨s3, x3, e3, g3, m3, i3, _⟩ := tick_ok ha H g2
      have hinv : s3.w.rx.invoke m.id = .ok (some (callOf C h m)) := by
        have := g3.holds
        rw [List.append_assoc] at this
        exact invoke_ok (k := h.kind) (o := h.obj) hm this g3.invoker g3.functor
      unfold IWorld.invoke
      rw [e3]
      simp only [ok_bind, Bool.false_eq_true, if_false, hinv, pure_eq_ok, Option.toList_some]
      have g4 : Good L P h ((ms ++ [m]).map (callOf C h))
          { s3 with w := { s3.w with trace := s3.w.trace ++ [callOf C h m] } }
          (frame C.envelope m ++ (t ++ x3)) ms := by
        refine ⟨?_, ?_, g3.total, g3.invoker, g3.functor, by simp [g3.trace], g3.ints⟩
        · have := g3.holds
          rw [List.append_assoc] at this
          exact this
        · have := g3.run
          rw [List.append_assoc] at this
          exact this
      obtain ⟨s5, x5, e5, g5, l5, k5, c5⟩ := popMessageI_ok ha H hm g4 (by rw [← i1, ← i3])
      rw [e5]
      simp only [ok_bind]
      have l1 := m1.le
      have l3 := m3.le
      have k1 := m1.line_le
      have k3 := m3.line_le
      obtain ⟨s6, c6, ms6, e6, g6, k6, f6⟩ := ih g5 (by simp at *; omega)
      refine ⟨s6, c6, ms6, e6, g6, ?_, fun e => f6 (c5 (m3.calm (m1.calm e)))⟩
      simp only at k3 k5
      omega

theorem processI_ok (ha : Arith B (recvBufferSize C)) (H : Calm C L P)
    (g : Good L P h (ms.map (callOf C h)) s c ms) :
    ∃ s' c' ms', s.processMessages B false = .ok s' ∧
      Good L P h (ms'.map (callOf C h)) s' c' ms' ∧ s'.line.length ≤ s.line.length ∧
      (s.ints = [] → Final C c') := by
  have hh : s.w.rx.hasHandler = true := by simp [Receiver.hasHandler, g.functor]
  obtain ⟨s', c', ms', e, g', k, f⟩ :=
    loopI_ok ha H (s.total + 1) g (by rw [g.total_eq ha.lt64]; omega)
  exact ⟨s', c', ms', by simp [IWorld.processMessages, hh, e], g', k, f⟩

theorem serve_ok (ha : Arith B (recvBufferSize C)) (H : Calm C L P) (rounds : List (List Nat))
    (hP : ∀ r ∈ rounds, ∀ n ∈ r, P n) :
    ∀ {s : IWorld C} {c : List Byte} {ms : List Msg}, Good L P h (ms.map (callOf C h)) s c ms →
    ∃ s' c' ms', IWorld.serve B false rounds s = .ok s' ∧
      Good L P h (ms'.map (callOf C h)) s' c' ms' := by
  induction rounds with
  | nil => intro s c ms g; exact ⟨s, c, ms, rfl, g⟩
  | cons r rs ih =>
    intro s c ms g
    have g1 : Good L P h (ms.map (callOf C h)) { s with ints := r } c ms :=
      ⟨g.holds, g.run, g.total, g.invoker, g.functor, g.trace, hP r (by simp)⟩
    obtain ⟨s2, c2, ms2, e2, g2, _, _⟩ := processI_ok ha H g1
    obtain ⟨s3, c3, ms3, e3, g3⟩ := ih (fun r hr => hP r (by simp [hr])) g2
    exact ⟨s3, c3, ms3, by simp [IWorld.serve, e2, e3], g3⟩

theorem good_start (h : Handler) (L : List Byte) (P : Nat → Prop) :
    Good L P h ([].map (callOf C h)) (IWorld.start C h L) [] [] :=
  ⟨RB.holds_new _, Run.refl _, rfl, rfl, rfl, rfl, by simp [IWorld.start]⟩

theorem serve_append (late : Bool) (rs rs' : List (List Nat)) : ∀ s : IWorld C,
    IWorld.serve B late (rs ++ rs') s =
      (IWorld.serve B late rs s >>= fun s => IWorld.serve B late rs' s) := by
  induction rs with
  | nil => intro s; rfl
  | cons r rs ih =>
    intro s
    simp only [List.cons_append, IWorld.serve]
    cases IWorld.processMessages B late { s with ints := r } with
    | error _ => rfl
    | ok s' => simp [ih]

end

/-- Where `push_back` of a range puts the first element. -/
theorem RB.Holds.pushBackRange_begin {cap : Nat} {b : RB cap} {xs ys : List Byte} (hc : cap < 2 ^ 64)
    (h : b.Holds xs) (hn : xs.length + ys.length ≤ cap) :
    ∃ b' : RB cap, (∀ B, Arith B cap → b.pushBackRange B ys = .ok b') ∧ b'.Holds (xs ++ ys) ∧
      b'.begin_ = if xs ≠ [] ∧ b.begin_ + xs.length + ys.length ≤ cap then b.begin_ else 0 := by
  have henough : ∃ b1 : RB cap, (∀ B, Arith B cap → b.ensureSpace B ys.length = .ok b1) ∧ b1.Holds xs ∧
      b1.pastEnd + ys.length ≤ cap ∧
      b1.begin_ = if xs ≠ [] ∧ b.begin_ + xs.length + ys.length ≤ cap then b.begin_ else 0 := by
    by_cases hx : xs = []
    · subst hx
      refine ⟨b.clear, fun B ha => ?_, holds_clear h, by simpa [clear] using hn, by simp [clear]⟩
      unfold ensureSpace
      simp only [h.empty_eq, List.isEmpty_nil, if_true]
      simp at hn
      have hp : promAdd B cap 0 ys.length = ys.length := by
        rcases Nat.eq_zero_or_pos ys.length with h0 | h0
        · rw [h0]; simp [promAdd]
        · rw [promAdd_of_lt ha (by omega)]; simp
      rw [hp, if_pos hn]
      rfl
    · have hpos : 0 < xs.length := List.length_pos_iff.mpr hx
      have h1 := h.pastEnd_le
      have h2 := h.pe
      have he : xs.isEmpty = false := by simpa using hx
      by_cases hle : b.pastEnd + ys.length ≤ cap
      · refine ⟨b, fun B ha => ?_, h, hle, by rw [if_pos ⟨hx, by omega⟩]⟩
        unfold ensureSpace
        simp only [h.empty_eq, he, Bool.false_eq_true, if_false]
        rw [promAdd_of_lt ha (by omega), if_pos hle]
      · obtain ⟨b', e, hh, hb⟩ := h.slide_ok hc (Or.inl (by omega))
        refine ⟨b', fun B ha => ?_, hh, ?_, by rw [if_neg (by omega), hb]⟩
        · unfold ensureSpace
          simp only [h.empty_eq, he, Bool.false_eq_true, if_false]
          rw [promAdd_of_lt ha (by omega), if_neg hle, h.size_eq hc, promAdd_of_lt ha (by omega),
            assertMsg_of (by simpa using hn)]
          simpa using e
        · rw [hh.pe, hb]
          omega
  obtain ⟨b1, e1, hh1, hs1, hb1⟩ := henough
  obtain ⟨l, e2, hh2⟩ := hh1.writeAt_pastEnd hc hs1 (Nat.le_refl ys.length)
  rw [List.take_length] at hh2
  refine ⟨_, fun B ha => ?_, hh2, hb1⟩
  unfold pushBackRange
  rw [trunc_of_le hc (by omega)]
  simp only [e1 B ha, e2, ok_bind, hh2.verifyInvariants_ok, pure_eq_ok]

end TT
