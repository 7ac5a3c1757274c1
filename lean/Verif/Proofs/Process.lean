import Verif.Spec.Machine
import Verif.Proofs.CheckSpec
import Verif.Proofs.Machine

/-!
# Helper lemmas: `processMessages` refines the abstract machine
-/

namespace TT
open Spec

variable {C : Collection}

/-! ### Deserialization -/

theorem deserialize_ok (fs : List FieldType) : ∀ (pre p post : List Byte)
    (acc : List (List Byte)), p.length = (fs.map fieldSize).sum →
    deserialize (pre ++ p ++ post) pre.length fs acc = .ok (acc ++ splitFields fs p) := by
  induction fs with
  | nil => intro pre p post acc _; simp [deserialize, splitFields]
  | cons f fs ih =>
    intro pre p post acc hl
    simp only [List.map_cons, List.sum_cons] at hl
    have hp : p = p.take (fieldSize f) ++ p.drop (fieldSize f) := (List.take_append_drop _ _).symm
    have hlt : (p.take (fieldSize f)).length = fieldSize f := by simp; omega
    have key : ∀ v it, unbuffer (pre ++ p ++ post) pre.length f = .ok (v, it) →
        v = p.take (fieldSize f) → it = pre.length + fieldSize f →
        deserialize (pre ++ p ++ post) pre.length (f :: fs) acc =
          .ok (acc ++ splitFields (f :: fs) p) := by
      intro v it hu hv hit
      subst hv
      subst hit
      simp only [deserialize, hu, ok_bind, splitFields]
      have := ih (pre ++ p.take (fieldSize f)) (p.drop (fieldSize f)) post
        (acc ++ [p.take (fieldSize f)]) (by simp; omega)
      rw [List.append_assoc pre, ← hp, List.length_append, hlt] at this
      rw [this]
      simp
    cases f with
    | uint8 =>
      simp only [fieldSize] at *
      cases p with
      | nil => simp at hl; omega
      | cons b p =>
        refine key [b] (pre.length + 1) ?_ (by simp) rfl
        simp [unbuffer, RB.rawGet]
    | pod ty n =>
      simp only [fieldSize] at *
      refine key (p.take n) (pre.length + n) ?_ rfl rfl
      simp only [unbuffer]
      rw [if_pos (by simp; omega), List.append_assoc, List.drop_left,
        List.take_append_of_le_length (by omega)]

theorem dataOffset_eq (E : Envelope) : E.dataOffset = 3 := by cases E <;> rfl

theorem frame_split (E : Envelope) (m : Msg) :
    ∃ tail, frame E m = [0x01, m.id, 0x02] ++ m.payload ++ tail := by
  cases E
  · refine ⟨[0x03, 0x04], ?_⟩; simp [frame]
  · refine ⟨[0x03] ++ [byteSum ([0x01, m.id, 0x02] ++ m.payload ++ [0x03]), 0x04], ?_⟩
    simp [frame]

theorem invoke_ok {rx : Receiver C} {m : Msg} {t : List Byte} {k : HandlerKind} {o : Nat}
    (hm : IsMsg C m) (h : rx.recv.Holds (frame C.envelope m ++ t)) (hi : rx.invoker = some k)
    (hf : rx.functorPointer = some o) : rx.invoke m.id = .ok (some (callOf C ⟨k, o⟩ m)) := by
  obtain ⟨ty, hty, hl⟩ := hm
  unfold Receiver.invoke
  rw [hi, hf]
  simp only
  rw [applyAt_eq]
  have hty' : C.messages[m.id.toNat]? = some ty := hty
  rw [hty']
  simp only
  obtain ⟨pre, post, hs, hp⟩ := h.split
  obtain ⟨tail, htail⟩ := frame_split C.envelope m
  have hcont : rx.recv.buf.contents =
      (pre ++ [0x01, m.id, 0x02]) ++ m.payload ++ (tail ++ t ++ post) := by
    rw [hs, htail]; simp
  have hit : rx.recv.getDataIterator = (pre ++ [0x01, m.id, 0x02]).length := by
    simp [ERB.getDataIterator, dataOffset_eq, hp]
  rw [hcont, hit, deserialize_ok ty.fields _ _ _ _ hl]
  simp [callOf, hty]

/-! ### Capacity -/

theorem foldr_max_eq (C : Collection) (l : List MsgType) : ∀ b,
    max (sizeofBound C b) ((l.map fun t => overhead C.envelope + payloadSize t).foldr max 0) =
      sizeofBound C (maxElement C b l) := by
  induction l with
  | nil => intro b; simp [maxElement]
  | cons t l ih =>
    intro b
    simp only [List.map_cons, List.foldr_cons, maxElement]
    rw [← ih, ← sizeofBound_eq]
    split <;> omega

theorem maxLen_eq (C : Collection) : maxLen C = maxMessageLength C := by
  unfold maxLen maxMessageLength
  split
  · rename_i h; simp [h]
  · rename_i m ms h
    rw [h, ← foldr_max_eq, List.map_cons, List.foldr_cons, sizeofBound_eq]

theorem capacity_eq (C : Collection) : capacity C = recvBufferSize C := by
  simp [capacity, recvBufferSize, messageBufferSizeScale, maxLen_eq, Nat.mul_comm]

theorem userCall_eq (i : Invocation) : userCall i = dispatch i := rfl

/-! ### The abstraction relation -/

/-- `w` is a valid concrete state representing the abstract state `s`. -/
structure Abs (w : World C) (s : AState) : Prop where
  buf : w.rx.recv.Holds s.buf
  invoker : w.rx.invoker = s.handler.map (·.kind)
  functor : w.rx.functorPointer = s.handler.map (·.obj)
  last : w.rx.lastMessageId = s.last
  trace : w.trace = s.trace
  fed : w.fed = s.fed

theorem Abs.hasHandler {w : World C} {s : AState} (h : Abs w s) :
    w.rx.hasHandler = s.handler.isSome := by
  unfold Receiver.hasHandler
  rw [h.functor]
  cases s.handler <;> rfl

theorem Abs.space {w : World C} {s : AState} (hc : recvBufferSize C < 2 ^ 64) (h : Abs w s) :
    w.rx.getBufferAvailableSpace = capacity C - s.buf.length := by
  unfold Receiver.getBufferAvailableSpace ERB.bufferAvailableSpace RB.maxSize
  have hl := RB.Holds.length_le h.buf
  rw [RB.Holds.size_eq hc h.buf, subT_of_le hc (Nat.le_refl _) hl, capacity_eq]

theorem append_ok (hc : recvBufferSize C < 2 ^ 64) {w : World C} {s : AState} (h : Abs w s)
    {xs : List Byte} (hl : s.buf.length + xs.length ≤ capacity C) :
    ∃ w' : World C, (∀ B, Arith B (recvBufferSize C) → w.append B xs = .ok w') ∧
      Abs w' { s with buf := s.buf ++ xs, fed := s.fed ++ xs } ∧
      w'.rx.recv.currentMessageId = w.rx.recv.currentMessageId := by
  rw [capacity_eq] at hl
  obtain ⟨b, hb, hh⟩ := RB.Holds.pushBackRange_ok hc h.buf hl
  refine ⟨{ w with rx := { w.rx with recv := { w.rx.recv with buf := b } }, fed := w.fed ++ xs },
    fun B ha => ?_, ⟨hh, h.invoker, h.functor, h.last, h.trace, by simp [h.fed]⟩, rfl⟩
  simp [World.append, Receiver.appendReceived, ERB.bufferAppend, hb B ha]

theorem runActs_ok (hc : recvBufferSize C < 2 ^ 64) (acts : List Act) :
    ∀ {w : World C} {s : AState}, Abs w s → Benign acts (capacity C - s.buf.length) →
    ∃ w' : World C, (∀ B nested, Arith B (recvBufferSize C) →
        World.runActs B nested w acts = .ok (w', false)) ∧
      Abs w' { s with buf := s.buf ++ appended acts, fed := s.fed ++ appended acts,
                      handler := handlerAfter s.handler acts } ∧
      w'.rx.recv.currentMessageId = w.rx.recv.currentMessageId := by
  induction acts with
  | nil =>
    intro w s h _
    exact ⟨w, fun B nested _ => rfl, by simpa [appended, handlerAfter] using h, rfl⟩
  | cons a acts ih =>
    intro w s h hb
    obtain ⟨hb1, hb2⟩ := hb
    have hbt : ∀ a ∈ acts, a ≠ .clearHandler ∧ a ≠ .process := fun a ha => hb1 a (by simp [ha])
    cases a with
    | append xs =>
      simp only [appended, List.length_append] at hb2
      have hle : s.buf.length ≤ capacity C := by
        rw [capacity_eq]; exact RB.Holds.length_le h.buf
      obtain ⟨w1, h1, ha1, hi1⟩ := append_ok hc h (xs := xs) (by omega)
      obtain ⟨w2, h2, ha2, hi2⟩ := ih ha1 ⟨hbt, by simp; omega⟩
      refine ⟨w2, fun B nested hA => ?_, ?_, hi2.trans hi1⟩
      · simp [World.runActs, h1 B hA, h2 B nested hA]
      · simpa [appended, handlerAfter] using ha2
    | setHandler hd =>
      have ha1 : Abs { w with rx := w.rx.setHandler hd } { s with handler := some hd } :=
        ⟨h.buf, rfl, rfl, h.last, h.trace, h.fed⟩
      obtain ⟨w2, h2, ha2, hi2⟩ := ih ha1 ⟨hbt, hb2⟩
      exact ⟨w2, fun B nested hA => by simp [World.runActs, h2 B nested hA], ha2, hi2⟩
    | clearHandler => exact absurd rfl (hb1 .clearHandler (by simp)).1
    | process => exact absurd rfl (hb1 .process (by simp)).2

theorem handlerAfter_isSome (acts : List Act) (free : Nat) :
    ∀ h : Handler, Benign acts free → ∃ h', handlerAfter (some h) acts = some h' := by
  induction acts with
  | nil => intro h _; exact ⟨h, rfl⟩
  | cons a acts ih =>
    intro h hb
    obtain ⟨hb1, hb2⟩ := hb
    have hbt : ∀ a ∈ acts, a ≠ .clearHandler ∧ a ≠ .process := fun a ha => hb1 a (by simp [ha])
    cases a with
    | append xs =>
      simp only [appended, List.length_append] at hb2
      exact ih h ⟨hbt, by omega⟩
    | setHandler hd => exact ih hd ⟨hbt, hb2⟩
    | clearHandler => exact absurd rfl (hb1 .clearHandler (by simp)).1
    | process => exact absurd rfl (hb1 .process (by simp)).2

/-! ### One call of the handler -/

theorem reaction_benign_from {user : UserCode} {n : Nat} (hu : BenignFrom user n)
    {tr : List Invocation} (hn : n ≤ (tr.filterMap userCall).length) (i : Invocation) (free : Nat) :
    Benign (reaction user tr i free).acts free := by
  unfold reaction
  split
  · exact ⟨by simp, by simp [appended]⟩
  · rename_i c hc
    exact hu _ _ (by rw [List.filterMap_append, List.filterMap_cons_some hc]; simp; omega)

theorem callHandler_from (hc : recvBufferSize C < 2 ^ 64) {user : UserCode} {n0 : Nat}
    (hu : BenignFrom user n0) {w : World C} {s : AState} {h : Handler} {m : Msg} {t : List Byte} (hw : Abs w s)
    (hn : n0 ≤ (s.trace.filterMap userCall).length)
    (hh : s.handler = some h) (hbuf : s.buf = frame C.envelope m ++ t)
    (hlast : s.last = some m.id) :
    ∃ w' : World C, (∀ B nested, Arith B (recvBufferSize C) →
        World.callHandler B user nested w (callOf C h m) =
          .ok (w', (afterCall C user s h m t).2)) ∧
      Abs w' (afterCall C user s h m t).1 ∧
      w'.rx.recv.currentMessageId = w.rx.recv.currentMessageId := by
  have hw1 : Abs { w with trace := w.trace ++ [callOf C h m] }
      { s with trace := s.trace ++ [callOf C h m] } :=
    ⟨hw.buf, hw.invoker, hw.functor, hw.last, by simp [hw.trace], hw.fed⟩
  have hsp := hw1.space hc
  simp only at hsp
  have huc : ({ w with trace := w.trace ++ [callOf C h m] } : World C).userCalls =
      (s.trace ++ [callOf C h m]).filterMap userCall := by
    unfold World.userCalls
    simp only [hw.trace]
    rfl
  cases hd : userCall (callOf C h m) with
  | none =>
    have hd' : dispatch (callOf C h m) = none := hd
    refine ⟨{ w with trace := w.trace ++ [callOf C h m] }, fun B nested hA => ?_, ?_, rfl⟩
    · unfold World.callHandler
      simp only [hd']
      simp [afterCall, reaction, hd]
    · simp only [afterCall, reaction, hd, appended, List.append_nil, handlerAfter]
      rw [← hbuf, ← hlast, ← hh]
      exact hw1
  | some c =>
    have hd' : dispatch (callOf C h m) = some c := hd
    obtain ⟨w2, h2, ha2, hi2⟩ := runActs_ok hc
      (user ((s.trace ++ [callOf C h m]).filterMap userCall) (capacity C - s.buf.length)).acts
      hw1 (hu _ _ (by rw [List.filterMap_append, List.filterMap_cons_some hd]; simp; omega))
    refine ⟨w2, fun B nested hA => ?_, ?_, hi2⟩
    · unfold World.callHandler
      simp only [hd']
      rw [huc, hsp, h2 B nested hA]
      simp [afterCall, reaction, hd, hbuf]
    · simp only [afterCall, reaction, hd]
      simp only [hbuf, hlast, hh] at ha2
      exact ha2

/-! ### The loop -/

/-- The loop either runs out of fuel (exactly if there are that many messages to handle) or does what
the abstract machine does; the build does not matter. -/
theorem processLoop_from (hc : recvBufferSize C < 2 ^ 64) {user : UserCode} {n0 : Nat}
    (hu : BenignFrom user n0) (fuel : Nat) : ∀ (w : World C) (s : AState) (n : Byte),
    Abs w s → s.handler.isSome → n0 ≤ (s.trace.filterMap userCall).length →
    (Keeps C user fuel s ∧
      ∀ B, Arith B (recvBufferSize C) → World.processLoop B user fuel w n = .error .diverge) ∨
    ∃ (w' : World C) (s' : AState) (ms : List Msg) (thrown : Bool),
      (∀ B, Arith B (recvBufferSize C) → World.processLoop B user fuel w n =
        .ok (w', if thrown then .threw else .returned (n + UInt8.ofNat ms.length))) ∧
      Abs w' s' ∧ Proc C user s ms s' thrown ∧ s'.handler.isSome ∧ ms.length < fuel := by
  induction fuel with
  | zero => intro w s n _ _ _; exact Or.inl ⟨Keeps.zero _, fun B _ => rfl⟩
  | succ fuel ih =>
    intro w s n hw hh hn0
    obtain ⟨h, hh⟩ := Option.isSome_iff_exists.mp hh
    obtain ⟨e1, found, ys, h1, _, hh1, hr1, _, ht1, hf1⟩ := check_spec hc hw.buf
    cases found with
    | false =>
      right
      refine ⟨{ w with rx := { w.rx with recv := e1 } }, { s with buf := ys }, [], false,
        fun B hA => ?_, ⟨hh1, hw.invoker, hw.functor, hw.last, hw.trace, hw.fed⟩,
        Proc.done ⟨hr1, hf1 rfl⟩, by simp [hh], by simp⟩
      unfold World.processLoop
      simp [h1 B]
    | true =>
      obtain ⟨m, t, hm, rfl, hid⟩ := ht1 rfl
      -- state just before the handler is called
      let w1 : World C := { w with rx := { w.rx with recv := e1, lastMessageId := some m.id } }
      let s1 : AState := { s with buf := frame C.envelope m ++ t, last := some m.id }
      have hw1 : Abs w1 s1 := ⟨hh1, hw.invoker, hw.functor, rfl, hw.trace, hw.fed⟩
      have hinv : w1.rx.invoke m.id = .ok (some (callOf C h m)) :=
        invoke_ok (k := h.kind) (o := h.obj) hm hh1 (by simp [w1, hw.invoker, hh])
          (by simp [w1, hw.functor, hh])
      obtain ⟨w2, h2, ha2, hi2⟩ := callHandler_from hc hu hw1 (h := h) (m := m)
        (t := t) hn0 hh rfl rfl
      have hs1 : afterCall C user s1 h m t = afterCall C user s h m t := rfl
      rw [hs1] at h2 ha2
      have step : ∀ B, Arith B (recvBufferSize C) → World.processLoop B user (fuel + 1) w n =
          (if (afterCall C user s h m t).2 then .ok (w2, .threw)
          else do
            let e ← w2.rx.recv.popMessage B
            World.processLoop B user fuel { w2 with rx := { w2.rx with recv := e } } (n + 1)) := by
        intro B hA
        conv => lhs; unfold World.processLoop
        simp only [h1 B, ok_bind, Bool.not_true, Bool.false_eq_true, if_false,
          ERB.getCurrentMessageId, hid, Option.isSome_some, assertMsg_true]
        change (do
          let i? ← w1.rx.invoke m.id
          _) = _
        rw [hinv]
        simp only [ok_bind]
        change (do
          let __discr ← World.callHandler B user _ w1 (callOf C h m)
          _) = _
        rw [h2 B _ hA]
        simp
      by_cases hthrow : (afterCall C user s h m t).2 = true
      · right
        refine ⟨w2, (afterCall C user s h m t).1, [], true, fun B hA => ?_, ha2,
          Proc.throw hm hr1 hh hthrow, ?_, by simp⟩
        · rw [step B hA]; simp [hthrow]
        · obtain ⟨h', e'⟩ := handlerAfter_isSome
            (reaction user s.trace (callOf C h m)
              (capacity C - (frame C.envelope m ++ t).length)).acts
            (capacity C - (frame C.envelope m ++ t).length) h
            (reaction_benign_from hu hn0 _ _)
          simp only [afterCall, e', Option.isSome_some]
      · have hthrow' : (afterCall C user s h m t).2 = false := by simpa using hthrow
        have hb2 : w2.rx.recv.Holds (frame C.envelope m ++ (t ++
            appended (reaction user s.trace (callOf C h m)
              (capacity C - (frame C.envelope m ++ t).length)).acts)) := by
          have := ha2.buf
          simp only [afterCall, List.append_assoc] at this
          exact this
        obtain ⟨e3, h3, hh3, _⟩ := popMessage_ok hc hm hb2 (by rw [hi2]; exact hid)
        have ha3 : Abs { w2 with rx := { w2.rx with recv := e3 } }
            { (afterCall C user s h m t).1 with
              buf := (afterCall C user s h m t).1.buf.drop (frame C.envelope m).length } := by
          refine ⟨?_, ha2.invoker, ha2.functor, ha2.last, ha2.trace, ha2.fed⟩
          simp only [afterCall, List.append_assoc, List.drop_left]
          exact hh3
        have hsome : ({ (afterCall C user s h m t).1 with
              buf := (afterCall C user s h m t).1.buf.drop (frame C.envelope m).length } :
              AState).handler.isSome := by
          obtain ⟨h', e'⟩ := handlerAfter_isSome
            (reaction user s.trace (callOf C h m)
              (capacity C - (frame C.envelope m ++ t).length)).acts
            (capacity C - (frame C.envelope m ++ t).length) h
            (reaction_benign_from hu hn0 _ _)
          simp only [afterCall, e', Option.isSome_some]
        have hn1 : n0 ≤ ((s.trace ++ [callOf C h m]).filterMap userCall).length := by
          rw [List.filterMap_append, List.length_append]; omega
        rcases ih _ _ (n + 1) ha3 hsome hn1 with ⟨hk, hdiv⟩ | ⟨w4, s4, ms, thrown, h4, ha4, hp4, hs4, hlt⟩
        · left
          refine ⟨Keeps.succ hm hr1 hh hthrow' hk, fun B hA => ?_⟩
          rw [step B hA]
          simp [hthrow', h3 B, hdiv B hA]
        · right
          refine ⟨w4, s4, m :: ms, thrown, fun B hA => ?_, ha4, Proc.msg hm hr1 hh hthrow' hp4, hs4,
            by simp; omega⟩
          rw [step B hA]
          simp only [hthrow', Bool.false_eq_true, if_false, h3 B, ok_bind, h4 B hA,
            List.length_cons]
          rw [UInt8.add_assoc, UInt8.add_comm 1, UInt8.ofNat_add]
          rfl

theorem processLoop_spec (hc : recvBufferSize C < 2 ^ 64) {user : UserCode}
    (hu : BenignUser user) (fuel : Nat) (w : World C) (s : AState) (n : Byte) (hw : Abs w s)
    (hh : s.handler.isSome) :
    (Keeps C user fuel s ∧
      ∀ B, Arith B (recvBufferSize C) → World.processLoop B user fuel w n = .error .diverge) ∨
    ∃ (w' : World C) (s' : AState) (ms : List Msg) (thrown : Bool),
      (∀ B, Arith B (recvBufferSize C) → World.processLoop B user fuel w n =
        .ok (w', if thrown then .threw else .returned (n + UInt8.ofNat ms.length))) ∧
      Abs w' s' ∧ Proc C user s ms s' thrown ∧ s'.handler.isSome ∧ ms.length < fuel :=
  processLoop_from hc (n0 := 0) (fun calls free _ => hu calls free) fuel w s n hw hh
    (Nat.zero_le _)

/-- A check that finds a message, and the loop iteration it starts. -/
theorem processLoop_hit (hc : recvBufferSize C < 2 ^ 64) {w : World C} {s : AState} (hw : Abs w s)
    {m : Msg} {t : List Byte} (hm : IsMsg C m) (hr : Run C s.buf [] (frame C.envelope m ++ t)) :
    ∃ w1 : World C, Abs w1 { s with buf := frame C.envelope m ++ t, last := some m.id } ∧
      w1.rx.recv.currentMessageId = some m.id ∧
      ∀ B user fuel n, World.processLoop B user (fuel + 1) w n = (do
        let i? ← w1.rx.invoke m.id
        let (w, thrown) ← (match i? with
          | none => (.ok (w1, false) : Res (World C × Bool))
          | some i => World.callHandler B user
              (fun w => if !w.rx.hasHandler then .ok (w, .returned 0)
                        else World.processLoop B user fuel w 0) w1 i)
        if thrown then return (w, .threw)
        else
          let e ← w.rx.recv.popMessage B
          World.processLoop B user fuel { w with rx := { w.rx with recv := e } } (n + 1)) := by
  obtain ⟨e1, found, ys, h1, _, hh1, hr1, _, ht1, hf1⟩ := check_spec hc hw.buf
  cases found with
  | false => exact (Decodes.no_first hm ⟨hr1, hf1 rfl⟩ hr).elim
  | true =>
    obtain ⟨m', t', hm', rfl, hid⟩ := ht1 rfl
    obtain ⟨rfl, rfl⟩ := first_unique hm hm' hr hr1
    refine ⟨{ w with rx := { w.rx with recv := e1, lastMessageId := some m.id } },
      ⟨hh1, hw.invoker, hw.functor, rfl, hw.trace, hw.fed⟩, hid, ?_⟩
    intro B user fuel n
    conv => lhs; unfold World.processLoop
    simp only [h1 B, ok_bind, Bool.not_true, Bool.false_eq_true, if_false,
      ERB.getCurrentMessageId, hid, Option.isSome_some, assertMsg_true]
    all_goals rfl

/-- A check that finds nothing ends the loop. -/
theorem processLoop_miss (hc : recvBufferSize C < 2 ^ 64) {w : World C} {s : AState} (hw : Abs w s)
    {r : List Byte} (hd : Decodes C s.buf [] r) :
    ∃ w1 : World C, Abs w1 { s with buf := r } ∧
      ∀ B user fuel n, World.processLoop B user (fuel + 1) w n = .ok (w1, .returned n) := by
  obtain ⟨e1, found, ys, h1, _, hh1, hr1, _, ht1, hf1⟩ := check_spec hc hw.buf
  cases found with
  | true =>
    obtain ⟨m', t', hm', rfl, hid⟩ := ht1 rfl
    exact (hd.no_first hm' hr1).elim
  | false =>
    obtain ⟨_, rfl⟩ := hd.unique ⟨hr1, hf1 rfl⟩
    refine ⟨{ w with rx := { w.rx with recv := e1 } },
      ⟨hh1, hw.invoker, hw.functor, hw.last, hw.trace, hw.fed⟩, ?_⟩
    intro B user fuel n
    unfold World.processLoop
    simp [h1 B]

end TT
