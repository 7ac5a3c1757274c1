import Verif.Model.AssertHandler
import Verif.Spec.AssertHandler
import Verif.Proofs.History
import Verif.Proofs.Search

/-!
# Helper lemmas: failed assertions that throw leave the receiver in order
-/

namespace TT
open Spec

variable {C : Collection} {B : Build} {user : UserCode}
  {caught : List UserCall → List Act → Bool}

/-- The throwing variant does what the aborting one does, up to the way failure is reported. -/
theorem pushBackRangeT_eq {cap : Nat} (hd : B.debug = true) (b : RB cap) (xs : List Byte) :
    b.pushBackRange B xs = match b.pushBackRangeT B xs with
      | .ok (b', false) => .ok b'
      | .ok (_, true) => .error .abort
      | .error e => .error e := by
  unfold RB.pushBackRange RB.pushBackRangeT RB.ensureSpace RB.ensureSpaceT RB.verifyInvariants assertMsg
  simp only [hd, Bool.true_and]
  have hwrite : ∀ b : RB cap, (do
        let l ← RB.writeAt b.contents b.pastEnd xs
        let b := { b with pastEnd := trunc cap (b.pastEnd + xs.length), contents := l }
        (do
          (if (!decide (b.begin_ ≤ b.pastEnd)) = true then (.error .abort : Res Unit) else .ok ())
          if (!decide (b.pastEnd ≤ cap)) = true then .error .abort else .ok ())
        return b : Res (RB cap)) =
      match ((do
        let l ← RB.writeAt b.contents b.pastEnd xs
        let b := { b with pastEnd := trunc cap (b.pastEnd + xs.length), contents := l }
        return (b, !(decide (b.begin_ ≤ b.pastEnd) && decide (b.pastEnd ≤ cap)))) :
          Res (RB cap × Bool)) with
      | .ok (b', false) => .ok b'
      | .ok (_, true) => .error .abort
      | .error e => .error e := by
    intro b
    cases RB.writeAt b.contents b.pastEnd xs with
    | error e => rfl
    | ok l =>
      simp only [ok_bind, pure_eq_ok]
      by_cases h1 : b.begin_ ≤ trunc cap (b.pastEnd + xs.length) <;>
        by_cases h2 : trunc cap (b.pastEnd + xs.length) ≤ cap <;> simp [h1, h2]
  generalize (if b.empty = true then ({ b with begin_ := 0, pastEnd := 0 } : RB cap) else b) = b0
  by_cases h1 : promAdd B cap b0.pastEnd (trunc cap xs.length) ≤ cap
  · simp only [h1, if_true, ok_bind]
    exact hwrite b0
  · simp only [h1, if_false]
    by_cases h2 : promAdd B cap b0.size (trunc cap xs.length) ≤ cap
    · simp only [h2, if_true]
      cases b0.slideContentsForward with
      | error e => simp
      | ok b1 =>
        simp only [ok_bind, decide_true, Bool.not_true, Bool.false_eq_true, if_false, pure_eq_ok]
        exact hwrite b1
    · simp [h2]

/-- The append that fits. -/
theorem appendT_fits (A : Arith B (recvBufferSize C)) (hd : B.debug = true) {w : World C} {s : AState}
    (h : Abs w s) {xs : List Byte} (hl : s.buf.length + xs.length ≤ capacity C) :
    ∃ w' : World C, w.appendT B xs = .ok (w', false) ∧
      Abs w' { s with buf := s.buf ++ xs, fed := s.fed ++ xs } := by
  rw [capacity_eq] at hl
  obtain ⟨b, hb, hh⟩ := RB.Holds.pushBackRange_ok A.lt64 h.buf hl
  have e := pushBackRangeT_eq hd w.rx.recv.buf xs
  rw [hb B A] at e
  unfold World.appendT
  cases hr : w.rx.recv.buf.pushBackRangeT B xs with
  | error e' => rw [hr] at e; cases e
  | ok r =>
    obtain ⟨b', t⟩ := r
    rw [hr] at e
    cases t with
    | true => cases e
    | false =>
      cases e
      exact ⟨_, rfl, hh, h.invoker, h.functor, h.last, h.trace, by simp [h.fed]⟩

/-- The append that does not fit throws and changes nothing that matters. -/
theorem appendT_rejected (A : Arith B (recvBufferSize C)) {w : World C} {s : AState} (h : Abs w s)
    {xs : List Byte} (ht : Tellable C B xs) (hl : capacity C < s.buf.length + xs.length) :
    ∃ w' : World C, w.appendT B xs = .ok (w', true) ∧ Abs w' s := by
  obtain ⟨t1, t2⟩ := ht
  rw [capacity_eq] at *
  have hlen := RB.Holds.length_le h.buf
  have htr : trunc (recvBufferSize C) xs.length = xs.length := Nat.mod_eq_of_lt t1
  have hpe := RB.Holds.pastEnd_le h.buf
  have hpe' : w.rx.recv.buf.pastEnd = w.rx.recv.buf.begin_ + s.buf.length := h.buf.pe
  have hpa : ∀ a, a ≤ recvBufferSize C →
      promAdd B (recvBufferSize C) a xs.length = a + xs.length :=
    fun a ha => Nat.mod_eq_of_lt (by omega)
  have hsz := RB.Holds.size_eq A.lt64 h.buf
  have key : ∃ b : RB (recvBufferSize C), w.rx.recv.buf.pushBackRangeT B xs = .ok (b, true) ∧
      b.Holds s.buf := by
    unfold RB.pushBackRangeT RB.ensureSpaceT
    rw [htr, RB.Holds.empty_eq h.buf]
    by_cases hx : s.buf = []
    · refine ⟨w.rx.recv.buf.clear, ?_, by rw [hx]; exact RB.holds_clear h.buf⟩
      have hz : ({ w.rx.recv.buf with begin_ := 0, pastEnd := 0 } : RB (recvBufferSize C)).size = 0 := by
        have := RB.Holds.size_eq A.lt64 (RB.holds_clear h.buf)
        simpa [RB.clear] using this
      rw [hx] at hl
      simp only [hx, List.isEmpty_nil, if_true]
      rw [hz, hpa 0 (by omega)]
      simp at hl
      rw [if_neg (by omega), if_neg (by omega)]
      rfl
    · refine ⟨w.rx.recv.buf, ?_, h.buf⟩
      have he : s.buf.isEmpty = false := by simpa using hx
      simp only [he, Bool.false_eq_true, if_false]
      rw [hpa _ hpe, hsz, hpa _ hlen, if_neg (by omega), if_neg (by omega)]
      rfl
  obtain ⟨b, hb, hh⟩ := key
  refine ⟨{ w with rx := { w.rx with recv := { w.rx.recv with buf := b } } }, ?_,
    ⟨hh, h.invoker, h.functor, h.last, h.trace, h.fed⟩⟩
  simp [World.appendT, hb]

/-- Appending keeps order. -/
theorem Spec.InOrder.append {fed buf : List Byte} {trace : List Invocation}
    (h : InOrder C fed buf trace) {xs : List Byte} (hl : buf.length + xs.length ≤ capacity C) :
    InOrder C (fed ++ xs) (buf ++ xs) trace := by
  obtain ⟨past, hp⟩ := h.suffix
  refine ⟨by simpa using hl, ⟨past, by rw [hp]; simp⟩, fun i hi => ?_⟩
  obtain ⟨h', m, p, r, hm, hf, e⟩ := h.genuine i hi
  exact ⟨h', m, p, r ++ xs, hm, by rw [hf]; simp, e⟩

/-- Dropping bytes from the front keeps order. -/
theorem Spec.InOrder.drop {fed buf buf' : List Byte} {trace : List Invocation}
    (h : InOrder C fed buf trace) {pre : List Byte} (hb : buf = pre ++ buf') :
    InOrder C fed buf' trace := by
  obtain ⟨past, hp⟩ := h.suffix
  have := h.fits
  rw [hb] at this hp
  simp at this
  exact ⟨by omega, ⟨past ++ pre, by rw [hp]; simp⟩, h.genuine⟩

/-- A call for the message in front keeps order. -/
theorem Spec.InOrder.call {fed t : List Byte} {trace : List Invocation} {m : Msg} (hd : Handler)
    (h : InOrder C fed (frame C.envelope m ++ t) trace) (hm : IsMsg C m) :
    InOrder C fed (frame C.envelope m ++ t) (trace ++ [callOf C hd m]) := by
  obtain ⟨past, hp⟩ := h.suffix
  refine ⟨h.fits, h.suffix, fun i hi => ?_⟩
  rcases List.mem_append.mp hi with hi | hi
  · exact h.genuine i hi
  · rw [List.mem_singleton.mp hi]
    exact ⟨hd, m, past, t, hm, by rw [hp]; simp, rfl⟩

/-- The state is a valid one in order, with a handler. -/
def Armed (w : World C) : Prop :=
  ∃ s : AState, Abs w s ∧ InOrder C s.fed s.buf s.trace ∧ s.handler.isSome

/-- The call ends in such a state or runs out of fuel. -/
def EndsArmed {α : Type} (r : Res (World C × α)) : Prop :=
  r = .error .diverge ∨ ∃ w a, r = .ok (w, a) ∧ Armed w

theorem Armed.appendT (A : Arith B (recvBufferSize C)) (hd : B.debug = true) {w : World C}
    (h : Armed w) {xs : List Byte} (ht : Tellable C B xs) :
    ∃ w' t, w.appendT B xs = .ok (w', t) ∧ Armed w' := by
  obtain ⟨s, ha, ho, hh⟩ := h
  rcases Nat.lt_or_ge (capacity C) (s.buf.length + xs.length) with hl | hl
  · obtain ⟨w', e, ha'⟩ := appendT_rejected A ha ht hl
    exact ⟨w', true, e, s, ha', ho, hh⟩
  · obtain ⟨w', e, ha'⟩ := appendT_fits A hd ha hl
    exact ⟨w', false, e, _, ha', ho.append hl, hh⟩

theorem Armed.runActsT (A : Arith B (recvBufferSize C)) (hd : B.debug = true)
    {nested : World C → Res (World C × Outcome)}
    (hn : ∀ w, Armed w → EndsArmed (nested w)) (acts : List Act)
    (hacts : ∀ a ∈ acts, match a with
      | .clearHandler => False
      | .append xs => Tellable C B xs
      | _ => True) :
    ∀ {w : World C}, Armed w → EndsArmed (w.runActsT B nested caught acts) := by
  induction acts with
  | nil => intro w h; exact Or.inr ⟨w, false, rfl, h⟩
  | cons a acts ih =>
    intro w h
    have ih := @ih fun a ha => hacts a (by simp [ha])
    have h1 := hacts a (by simp)
    cases a with
    | append xs =>
      obtain ⟨w', t, e, h'⟩ := h.appendT A hd h1
      unfold World.runActsT
      simp only [e, ok_bind]
      split
      · exact Or.inr ⟨w', true, rfl, h'⟩
      · exact ih h'
    | setHandler hd' =>
      unfold World.runActsT
      obtain ⟨s, ha, ho, hh⟩ := h
      exact ih ⟨{ s with handler := some hd' },
        ⟨ha.buf, rfl, rfl, ha.last, ha.trace, ha.fed⟩, ho, rfl⟩
    | clearHandler => exact absurd h1 id
    | process =>
      unfold World.runActsT
      rcases hn w h with e | ⟨w', o, e, h'⟩
      · left; rw [e]; rfl
      · simp only [e, ok_bind]
        split
        · exact Or.inr ⟨w', true, rfl, h'⟩
        · exact ih h'

theorem Armed.callHandlerT (A : Arith B (recvBufferSize C)) (hd : B.debug = true)
    (hu : Bold C B user) {nested : World C → Res (World C × Outcome)}
    (hn : ∀ w, Armed w → EndsArmed (nested w)) {w : World C} {i : Invocation}
    (h : Armed { w with trace := w.trace ++ [i] }) :
    EndsArmed (w.callHandlerT B user caught nested i) := by
  unfold World.callHandlerT
  simp only
  cases dispatch i with
  | none => exact Or.inr ⟨_, false, rfl, h⟩
  | some c =>
    simp only
    rcases h.runActsT (caught := caught) A hd hn _ (hu ({ w with trace := w.trace ++ [i] } : World C).userCalls
      w.rx.getBufferAvailableSpace) with e | ⟨w', t, e, h'⟩
    · left; rw [e]; rfl
    · right; rw [e]; exact ⟨w', _, rfl, h'⟩

/-- Removing the message: throws if there is none, and is in order in any case. -/
theorem popMessageT_ok (hc : recvBufferSize C < 2 ^ 64) {e : ERB C} {xs : List Byte} (h : e.Holds xs) :
    ∃ (e' : ERB C) (t : Bool) (pre ys : List Byte), (∀ B : Build, e.popMessageT B = .ok (e', t)) ∧
      e'.Holds ys ∧ xs = pre ++ ys := by
  obtain ⟨e1, found, ys, h1, _, hh, hr, _, hf, _⟩ := check_spec hc h
  obtain ⟨pre, hpre⟩ := hr.suffix
  cases found with
  | false =>
    refine ⟨e1, true, pre, ys, fun B => ?_, hh, hpre⟩
    simp [ERB.popMessageT, h1 B]
  | true =>
    obtain ⟨m, t, hm, rfl, hid⟩ := hf rfl
    obtain ⟨e2, h2, hh2, _⟩ := popMessage_ok hc hm hh hid
    refine ⟨e2, false, pre ++ frame C.envelope m, t, fun B => ?_, hh2, by rw [hpre]; simp⟩
    have hself : ({ e1 with currentMessageId := some m.id } : ERB C) = e1 := by
      cases e1; simp only at hid; rw [hid]
    unfold ERB.popMessageT
    simp only [h1 B, ok_bind, Bool.not_true, Bool.false_eq_true, if_false]
    have h3 : e1.getMessageLength B >>= (fun n => e1.bufferPopFront B n >>= fun r =>
        (.ok { r with currentMessageId := none } : Res (ERB C))) = .ok e2 := by
      have h3 := h2 ⟨true, B.intBits⟩
      have hsame : e1.getMessageLength B = e1.getMessageLength ⟨true, B.intBits⟩ := by
        unfold ERB.getMessageLength ERB.isCurrentMessageIdValid ERB.getCurrentMessageId
        rw [hid]
        simp [assertMsg_of]
      unfold ERB.popMessage at h2
      have h4 := h2 B
      by_cases hd : B.debug = true
      · rw [if_pos hd, check_at_frame hc hm hh, hself] at h4
        simpa using h4
      · rw [if_neg hd] at h4
        simpa using h4
    cases hg : e1.getMessageLength B with
    | error x => rw [hg] at h3; cases h3
    | ok n =>
      rw [hg] at h3
      simp only [ok_bind] at h3 ⊢
      cases hp : e1.bufferPopFront B n with
      | error x => rw [hp] at h3; cases h3
      | ok r =>
        rw [hp] at h3
        simp only [ok_bind, Except.ok.injEq] at h3 ⊢
        simp [h3]

theorem Armed.processLoopT (A : Arith B (recvBufferSize C)) (hd : B.debug = true)
    (hu : Bold C B user) (fuel : Nat) : ∀ (w : World C) (n : Byte), Armed w →
    EndsArmed (w.processLoopT B user caught fuel n) := by
  have hc := A.lt64
  induction fuel with
  | zero => intro w n _; exact Or.inl rfl
  | succ fuel ih =>
    intro w n h
    obtain ⟨s, ha, ho, hh⟩ := h
    obtain ⟨e1, found, ys, h1, _, hh1, hr, _, hf, _⟩ := check_spec hc ha.buf
    obtain ⟨pre, hpre⟩ := hr.suffix
    unfold World.processLoopT
    simp only [h1 B, ok_bind]
    cases found with
    | false =>
      refine Or.inr ⟨_, _, rfl, { s with buf := ys }, ⟨hh1, ha.invoker, ha.functor, ha.last, ha.trace,
        ha.fed⟩, ho.drop hpre, hh⟩
    | true =>
      obtain ⟨m, t, hm, rfl, hid⟩ := hf rfl
      obtain ⟨hdl, hhdl⟩ := Option.isSome_iff_exists.mp hh
      simp only [Bool.not_true, Bool.false_eq_true, if_false]
      have hgid : e1.getCurrentMessageId B = .ok m.id := by
        unfold ERB.getCurrentMessageId
        rw [hid]
        simp
      simp only [hgid, ok_bind]
      have hinv := invoke_ok (rx := { w.rx with recv := e1, lastMessageId := some m.id }) hm hh1
        (k := hdl.kind) (o := hdl.obj) (by rw [show _ = w.rx.invoker from rfl, ha.invoker, hhdl]; rfl)
        (by rw [show _ = w.rx.functorPointer from rfl, ha.functor, hhdl]; rfl)
      simp only [hinv, ok_bind]
      have harm : Armed ({ w with
          rx := { w.rx with recv := e1, lastMessageId := some m.id },
          trace := w.trace ++ [callOf C hdl m] } : World C) :=
        ⟨⟨frame C.envelope m ++ t, some hdl, some m.id, s.trace ++ [callOf C hdl m], s.fed⟩,
          ⟨hh1, by rw [← hhdl]; exact ha.invoker, by rw [← hhdl]; exact ha.functor, rfl,
            by simp [ha.trace], ha.fed⟩, (ho.drop hpre).call hdl hm, rfl⟩
      have hnest : ∀ w : World C, Armed w → EndsArmed
          (if !w.rx.hasHandler then (.ok (w, .returned 0) : Res (World C × Outcome))
            else w.processLoopT B user caught fuel 0) := by
        intro w hw
        split
        · exact Or.inr ⟨_, _, rfl, hw⟩
        · exact ih w 0 hw
      have := Armed.callHandlerT (caught := caught) (w := { w with
          rx := { w.rx with recv := e1, lastMessageId := some m.id } }) A hd hu hnest harm
      rcases this with e | ⟨w', th, e, hw'⟩
      · left; simp only [e, error_bind]
      · simp only [e, ok_bind]
        cases th with
        | true => exact Or.inr ⟨_, _, rfl, hw'⟩
        | false =>
          simp only [Bool.false_eq_true, if_false]
          obtain ⟨s', ha', ho', hh'⟩ := hw'
          obtain ⟨e2, t2, pre2, ys2, h2, hh2, hp2⟩ := popMessageT_ok hc ha'.buf
          simp only [h2 B, ok_bind]
          have harm' : Armed ({ w' with rx := { w'.rx with recv := e2 } } : World C) :=
            ⟨{ s' with buf := ys2 }, ⟨hh2, ha'.invoker, ha'.functor, ha'.last, ha'.trace, ha'.fed⟩,
              ho'.drop hp2, hh'⟩
          cases t2 with
          | true => exact Or.inr ⟨_, _, rfl, harm'⟩
          | false => exact ih _ _ harm'

/-- The state is a valid one in order. -/
def Sound (w : World C) : Prop := ∃ s : AState, Abs w s ∧ InOrder C s.fed s.buf s.trace

theorem sound_new (C : Collection) : Sound (World.new C) :=
  ⟨AState.new, abs_new C, by simp [AState.new, capacity], ⟨[], rfl⟩, by simp [AState.new]⟩

theorem Sound.stepT (A : Arith B (recvBufferSize C)) (hd : B.debug = true) (hu : Bold C B user)
    (fuel : Nat) {w : World C} (h : Sound w) {op : Op} (hop : BoldOp C B op) :
    w.stepT B user caught fuel op = .error .diverge ∨
      ∃ w' o, w.stepT B user caught fuel op = .ok (w', o) ∧ Sound w' := by
  have hc := A.lt64
  obtain ⟨s, ha, ho⟩ := h
  cases op with
  | append xs =>
    right
    rcases Nat.lt_or_ge (capacity C) (s.buf.length + xs.length) with hl | hl
    · obtain ⟨w', e, ha'⟩ := appendT_rejected A ha hop hl
      exact ⟨w', none, by simp [World.stepT, e], s, ha', ho⟩
    · obtain ⟨w', e, ha'⟩ := appendT_fits A hd ha hl
      exact ⟨w', some .unit, by simp [World.stepT, e], _, ha', ho.append hl⟩
  | receiveFrom avail rcv =>
    right
    have hlim : (UInt8.ofNat (min avail.toNat (capacity C - s.buf.length))).toNat =
        min avail.toNat (capacity C - s.buf.length) := by
      rw [UInt8.toNat_ofNat']
      have := UInt8.toNat_lt avail
      exact Nat.mod_eq_of_lt (by omega)
    have hg := hop (UInt8.ofNat (min avail.toNat (capacity C - s.buf.length)))
    rw [hlim] at hg
    obtain ⟨r, h1, ha1⟩ := receiveFrom_ok hc ha rfl hg
    refine ⟨_, some (.count (rcv (UInt8.ofNat (min avail.toNat (capacity C - s.buf.length)))).written.length), ?_, _, ha1, ho.append ?_⟩
    · simp only [World.stepT, World.step, h1 B A, ha.space hc, ok_bind, pure_eq_ok]
      rw [hg.2, List.take_length]
    · have := hg.1
      have := ho.fits
      omega
  | process =>
    simp only [World.stepT, World.processMessagesT, ha.hasHandler]
    cases hh : s.handler.isSome with
    | false => right; exact ⟨w, _, rfl, s, ha, ho⟩
    | true =>
      simp only [Bool.not_true, Bool.false_eq_true, if_false]
      rcases Armed.processLoopT (caught := caught) A hd hu fuel w 0 ⟨s, ha, ho, hh⟩ with
        e | ⟨w', o, e, s', ha', ho', _⟩
      · left; rw [e]; rfl
      · right; rw [e]; exact ⟨w', _, rfl, s', ha', ho'⟩
  | setHandler h =>
    right
    exact ⟨_, _, rfl, { s with handler := some h }, ⟨ha.buf, rfl, rfl, ha.last, ha.trace, ha.fed⟩, ho⟩
  | clearHandler =>
    right
    exact ⟨_, _, rfl, { s with handler := none }, ⟨ha.buf, rfl, rfl, ha.last, ha.trace, ha.fed⟩, ho⟩
  | copy =>
    right
    obtain ⟨r, h1, h2, _⟩ := copy_ok hc ha
    exact ⟨{ w with rx := r }, some .unit, by simp [World.stepT, World.step, h1], s, h2, ho⟩

theorem Sound.runT (A : Arith B (recvBufferSize C)) (hd : B.debug = true) (hu : Bold C B user)
    (fuel : Nat) (ops : List Op) (hops : ∀ op ∈ ops, BoldOp C B op) : ∀ {w : World C}, Sound w →
    w.runT B user caught fuel ops = .error .diverge ∨
      ∃ w' os, w.runT B user caught fuel ops = .ok (w', os) ∧ Sound w' := by
  induction ops with
  | nil => intro w h; exact Or.inr ⟨w, [], rfl, h⟩
  | cons op ops ih =>
    intro w h
    unfold World.runT
    rcases h.stepT (caught := caught) A hd hu fuel (hops op (by simp)) with e | ⟨w1, o, e, h1⟩
    · left; rw [e]; rfl
    · rw [e]
      simp only [ok_bind]
      rcases ih (fun op hop => hops op (by simp [hop])) h1 with e2 | ⟨w2, os, e2, h2⟩
      · left; rw [e2]; rfl
      · right; rw [e2]; exact ⟨w2, _, rfl, h2⟩

/-! ### Where no assertion fails -/

theorem appendT_of_append (hd : B.debug = true) {w w' : World C} {xs : List Byte}
    (h : w.append B xs = .ok w') : w.appendT B xs = .ok (w', false) := by
  unfold World.append Receiver.appendReceived ERB.bufferAppend at h
  have e := pushBackRangeT_eq hd w.rx.recv.buf xs
  unfold World.appendT
  cases hr : w.rx.recv.buf.pushBackRangeT B xs with
  | error f => rw [hr] at e; simp [e] at h
  | ok r =>
    obtain ⟨b, t⟩ := r
    rw [hr] at e
    cases t with
    | true => simp [e] at h
    | false => simp [e] at h; simp [← h]

theorem popMessageT_of_popMessage (hd : B.debug = true) {r r' : ERB C}
    (h : r.popMessage B = .ok r') : r.popMessageT B = .ok (r', false) := by
  unfold ERB.popMessage at h
  unfold ERB.popMessageT
  rw [if_pos hd] at h
  cases hc : r.checkBufferForMessage B with
  | error f => simp [hc] at h
  | ok x =>
    obtain ⟨e, ok⟩ := x
    cases ok with
    | false => simp [hc, assertMsg, hd] at h
    | true =>
      simp only [hc, ok_bind, assertMsg, Bool.not_true, Bool.and_false, Bool.false_eq_true, if_false,
        pure_eq_ok] at h ⊢
      cases hg : e.getMessageLength B with
      | error f => simp [hg] at h
      | ok n =>
        simp only [hg, ok_bind] at h ⊢
        cases hp : e.bufferPopFront B n with
        | error f => simp [hp] at h
        | ok e2 => simp only [hp, ok_bind, Except.ok.injEq] at h ⊢; simp [h]

theorem runActsT_of_runActs (hd : B.debug = true) (hn : ∀ calls acts, caught calls acts = false)
    {n1 n2 : World C → Res (World C × Outcome)} (hnest : ∀ w r, n1 w = .ok r → n2 w = .ok r)
    (acts : List Act) : ∀ {w : World C} {r : World C × Bool}, World.runActs B n1 w acts = .ok r →
    World.runActsT B n2 caught w acts = .ok r := by
  induction acts with
  | nil => intro w r h; exact h
  | cons a acts ih =>
    intro w r h
    cases a with
    | append xs =>
      unfold World.runActs at h
      unfold World.runActsT
      cases ha : w.append B xs with
      | error f => simp [ha] at h
      | ok w1 =>
        simp only [ha, ok_bind] at h
        simp only [appendT_of_append hd ha, ok_bind, Bool.false_and, Bool.false_eq_true, if_false]
        exact ih h
    | setHandler _ => unfold World.runActs at h; unfold World.runActsT; exact ih h
    | clearHandler => unfold World.runActs at h; unfold World.runActsT; exact ih h
    | process =>
      unfold World.runActs at h
      unfold World.runActsT
      cases ha : n1 w with
      | error f => simp [ha] at h
      | ok x =>
        obtain ⟨w1, o⟩ := x
        simp only [ha, ok_bind] at h
        simp only [hnest _ _ ha, ok_bind, hn, Bool.not_false, Bool.and_true]
        cases o with
        | threw => simpa using h
        | returned k => simpa using ih h

theorem callHandlerT_of_callHandler (hd : B.debug = true) (hn : ∀ calls acts, caught calls acts = false)
    {n1 n2 : World C → Res (World C × Outcome)} (hnest : ∀ w r, n1 w = .ok r → n2 w = .ok r)
    {w : World C} {i : Invocation} {x : World C × Bool} (h : w.callHandler B user n1 i = .ok x) :
    w.callHandlerT B user caught n2 i = .ok x := by
  unfold World.callHandler at h
  unfold World.callHandlerT
  simp only at h ⊢
  cases hdi : dispatch i with
  | none => rw [hdi] at h; exact h
  | some c =>
    rw [hdi] at h
    simp only at h ⊢
    generalize (user ({ w with trace := w.trace ++ [i] } : World C).userCalls
      w.rx.getBufferAvailableSpace) = re at h ⊢
    cases hra : World.runActs B n1 ({ w with trace := w.trace ++ [i] } : World C) re.acts with
    | error f => rw [hra] at h; cases h
    | ok y =>
      rw [hra] at h
      rw [runActsT_of_runActs hd hn hnest _ hra]
      exact h

theorem processLoopT_of_processLoop (hd : B.debug = true) (hn : ∀ calls acts, caught calls acts = false)
    (fuel : Nat) : ∀ {w : World C} {n : Byte} {r : World C × Outcome},
    World.processLoop B user fuel w n = .ok r → World.processLoopT B user caught fuel w n = .ok r := by
  induction fuel with
  | zero => intro w n r h; cases h
  | succ fuel ih =>
    intro w n r h
    unfold World.processLoop at h
    unfold World.processLoopT
    cases hc : w.rx.recv.checkBufferForMessage B with
    | error f => simp [hc] at h
    | ok x =>
      obtain ⟨e, found⟩ := x
      cases found with
      | false => simpa [hc] using h
      | true =>
        simp only [hc, ok_bind, Bool.not_true, Bool.false_eq_true, if_false] at h ⊢
        cases hg : e.getCurrentMessageId B with
        | error f => simp [hg] at h
        | ok id =>
          simp only [hg, ok_bind] at h ⊢
          cases hi : ({ w.rx with recv := e, lastMessageId := some id } : Receiver C).invoke id with
          | error f => simp [hi] at h
          | ok i =>
            simp only [hi, ok_bind] at h ⊢
            have hnest : ∀ (w : World C) (r : World C × Outcome),
                (if !w.rx.hasHandler then (.ok (w, .returned 0) : Res (World C × Outcome))
                  else World.processLoop B user fuel w 0) = .ok r →
                (if !w.rx.hasHandler then (.ok (w, .returned 0) : Res (World C × Outcome))
                  else World.processLoopT B user caught fuel w 0) = .ok r := by
              intro w r h
              split
              · rename_i hb; rw [if_pos hb] at h; exact h
              · rename_i hb; rw [if_neg hb] at h; exact ih h
            have hwhole : ∀ (w : World C) (x : World C × Bool),
                (match i with
                | none => (.ok (w, false) : Res (World C × Bool))
                | some i => w.callHandler B user (fun w => if !w.rx.hasHandler then .ok (w, .returned 0)
                      else World.processLoop B user fuel w 0) i) = .ok x →
                (match i with
                | none => (.ok (w, false) : Res (World C × Bool))
                | some i => w.callHandlerT B user caught
                    (fun w => if !w.rx.hasHandler then .ok (w, .returned 0)
                      else World.processLoopT B user caught fuel w 0) i) = .ok x := by
              intro w x hx
              cases i with
              | none => exact hx
              | some i => exact callHandlerT_of_callHandler hd hn hnest hx
            have hsplit : ∀ (a : Res (World C × Bool)) (k : World C × Bool → Res (World C × Outcome)),
                a >>= k = .ok r → ∃ x, a = .ok x ∧ k x = .ok r := by
              intro a k hk
              cases a with
              | error f => cases hk
              | ok x => exact ⟨x, rfl, hk⟩
            obtain ⟨⟨w1, th⟩, hcall, hrest⟩ := hsplit _ _ h
            refine (congrArg (· >>= _) (hwhole _ _ hcall)).trans ?_
            simp only [ok_bind] at hrest ⊢
            cases th with
            | true => exact hrest
            | false =>
              simp only [Bool.false_eq_true, if_false] at hrest ⊢
              cases hp : w1.rx.recv.popMessage B with
              | error f => simp [hp] at hrest
              | ok e2 =>
                simp only [hp, ok_bind] at hrest
                simp only [popMessageT_of_popMessage hd hp, ok_bind, Bool.false_eq_true, if_false]
                exact ih hrest

theorem runT_of_run (hd : B.debug = true) (hn : ∀ calls acts, caught calls acts = false) {fuel : Nat}
    (ops : List Op) : ∀ {w w' : World C} {os : List Obs}, w.run B user fuel ops = .ok (w', os) →
    w.runT B user caught fuel ops = .ok (w', os.map some) := by
  induction ops with
  | nil => intro w w' os h; simp [World.run] at h; simp [World.runT, h]
  | cons op ops ih =>
    intro w w' os h
    unfold World.run at h
    unfold World.runT
    cases hs : w.step B user fuel op with
    | error f => simp [hs] at h
    | ok x =>
      obtain ⟨w1, o⟩ := x
      have hst : w.stepT B user caught fuel op = .ok (w1, some o) := by
        cases op with
        | append xs =>
          unfold World.step at hs
          unfold World.stepT
          cases ha : w.append B xs with
          | error f => simp [ha] at hs
          | ok w2 =>
            simp [ha] at hs
            simp [appendT_of_append hd ha, hs]
        | process =>
          simp only [World.step, World.processMessages] at hs
          simp only [World.stepT, World.processMessagesT]
          cases hb : w.rx.hasHandler with
          | false => simp [hb] at hs; simp [hs]
          | true =>
            cases hl : World.processLoop B user fuel w 0 with
            | error f => simp [hb, hl] at hs
            | ok y => simp [hb, hl] at hs; simp [processLoopT_of_processLoop hd hn fuel hl, hs]
        | receiveFrom a r => simp only [World.stepT, hs]; rfl
        | setHandler _ => simp only [World.stepT, hs]; rfl
        | clearHandler => simp only [World.stepT, hs]; rfl
        | copy => simp only [World.stepT, hs]; rfl
      simp only [hs, ok_bind] at h
      cases hr : w1.run B user fuel ops with
      | error f => simp [hr] at h
      | ok y =>
        obtain ⟨w2, os2⟩ := y
        simp [hr] at h
        simp [hst, ih hr, ← h.1, ← h.2]

/-- What one call does to the bytes waiting, whatever went before. -/
theorem Spec.Step.since {s s' : AState} {op : Op} {ms : List Msg} {o : Obs}
    (h : Step C user s op ms s' o) :
    ∃ new, s'.fed = s.fed ++ new ∧ Run C (s.buf ++ new) ms s'.buf := by
  cases h with
  | append _ => exact ⟨_, rfl, Run.refl _⟩
  | receive _ _ => exact ⟨_, rfl, Run.refl _⟩
  | setHandler => exact ⟨[], (List.append_nil _).symm, by simpa using Run.refl _⟩
  | clearHandler => exact ⟨[], (List.append_nil _).symm, by simpa using Run.refl _⟩
  | copy => exact ⟨[], (List.append_nil _).symm, by simpa using Run.refl _⟩
  | idle _ => exact ⟨[], (List.append_nil _).symm, by simpa using Run.refl _⟩
  | process _ hp =>
    obtain ⟨app, _, _, h1, _, h3, _⟩ := hp.sound
    exact ⟨app, h1, h3⟩
  | thrown _ hp =>
    obtain ⟨app, _, _, h1, _, h3, _⟩ := hp.sound
    exact ⟨app, h1, h3⟩

/-- What a history does to the bytes waiting, whatever went before. -/
theorem Spec.Exec.since {s s' : AState} {ops : List Op} {ms : List Msg} {os : List Obs}
    (h : Exec C user s ops ms s' os) :
    ∃ new, s'.fed = s.fed ++ new ∧ Run C (s.buf ++ new) ms s'.buf := by
  induction h with
  | nil s => exact ⟨[], by simp, by simpa using Run.refl _⟩
  | cons hs _ ih =>
    obtain ⟨n2, f2, r2⟩ := ih
    obtain ⟨n1, f1, r1⟩ := hs.since
    refine ⟨n1 ++ n2, by rw [f2, f1]; simp, ?_⟩
    have := r1.append n2
    rw [List.append_assoc] at this
    exact this.trans r2

end TT
