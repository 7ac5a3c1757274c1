import Verif.Model.Asserts
import Verif.Proofs.History

/-!
# Proofs about single assertions

`Le x y`: if `x` has a value then `y` has the same. The model with all assertions on is below every model with some of
them on, except for `popMessage`, whose assertion has side effects.
-/

namespace TT
open Spec

/-- If `x` has a value, `y` has the same. -/
def Le {α : Type} (x y : Res α) : Prop := ∀ a, x = .ok a → y = .ok a

namespace Le
variable {α β : Type}

theorem refl (x : Res α) : Le x x := fun _ h => h

theorem error (f : Fault) (y : Res α) : Le (.error f) y := fun _ h => by cases h

theorem bind {x y : Res α} {f g : α → Res β} (h : Le x y) (h' : ∀ a, Le (f a) (g a)) : Le (x >>= f) (y >>= g) := by
  intro b hb
  cases hx : x with
  | error e => rw [hx] at hb; cases hb
  | ok a => rw [hx] at hb; rw [h a hx]; exact h' a b hb

theorem ite {c : Prop} [Decidable c] {x y x' y' : Res α} (h : Le x x') (h' : Le y y') :
    Le (if c then x else y) (if c then x' else y') := by
  split
  · exact h
  · exact h'

end Le

variable {A : Asserts} {cap : Nat} {C : Collection}

/-- The build with all assertions on. -/
def Asserts.full (A : Asserts) : Build := { debug := true, intBits := A.intBits }

theorem Asserts.promAdd_full (A : Asserts) (n a b : Nat) : promAdd A.full n a b = promAdd A.build n a b := rfl

theorem le_assert (s : Site) (p : Bool) : Le (assertMsg A.full p) (assertAt A s p) := by
  intro u h
  cases p with
  | true => simp [assertAt]
  | false => simp [assertMsg, Asserts.full] at h

namespace RB

theorem le_get (b : RB cap) (i : Nat) : Le (b.get A.full i) (b.getA A i) :=
  .bind (le_assert _ _) fun _ => .refl _

theorem le_set (b : RB cap) (i : Nat) (x : Byte) : Le (b.set A.full i x) (b.setA A i x) :=
  .bind (le_assert _ _) fun _ => .refl _

theorem le_front (b : RB cap) : Le (b.front A.full) (b.frontA A) := le_get _ _

theorem le_back (b : RB cap) : Le (b.back A.full) (b.backA A) := le_get _ _

theorem le_ensureSpace (b : RB cap) (n : Nat) : Le (b.ensureSpace A.full n) (b.ensureSpaceA A n) :=
  .ite (.refl _) (.bind (le_assert _ _) fun _ => .refl _)

theorem le_verifyInvariants (b : RB cap) : Le (b.verifyInvariants A.full) (b.verifyInvariantsA A) :=
  .bind (le_assert _ _) fun _ => le_assert _ _

theorem le_incrementPastEnd (b : RB cap) : Le (b.incrementPastEnd A.full) (b.incrementPastEndA A) :=
  .bind (le_ensureSpace _ _) fun _ => .bind (le_assert _ _) fun _ => .refl _

theorem le_decrementPastEnd (b : RB cap) : Le (b.decrementPastEnd A.full) (b.decrementPastEndA A) :=
  .bind (le_assert _ _) fun _ => .refl _

theorem le_incrementBegin (b : RB cap) : Le (b.incrementBegin A.full) (b.incrementBeginA A) :=
  .bind (le_assert _ _) fun _ => .refl _

theorem le_pushBack (b : RB cap) (x : Byte) : Le (b.pushBack A.full x) (b.pushBackA A x) :=
  .bind (le_incrementPastEnd _) fun _ => le_set _ _ _

theorem le_pushBackRange (b : RB cap) (xs : List Byte) : Le (b.pushBackRange A.full xs) (b.pushBackRangeA A xs) :=
  .bind (le_ensureSpace _ _) fun _ => .bind (.refl _) fun _ => .bind (le_verifyInvariants _) fun _ => .refl _

theorem le_fromRange (xs : List Byte) : Le (RB.fromRange A.full xs : Res (RB cap)) (RB.fromRangeA A xs) :=
  le_pushBackRange _ _

theorem le_external (b : RB cap) (f : Byte → DeviceReply) (n : Nat) :
    Le (b.bufferFromExternalFunctorRef A.full f n) (b.bufferFromExternalFunctorRefA A f n) :=
  .bind (le_ensureSpace _ _) fun _ => .bind (.refl _) fun _ => .bind (le_verifyInvariants _) fun _ => .refl _

theorem le_popFrontLoop (n : Nat) : ∀ b : RB cap, Le (popFrontLoop A.full b n) (popFrontLoopA A b n) := by
  induction n with
  | zero => exact fun b => .refl _
  | succ n ih => exact fun b => .bind (le_incrementBegin _) fun b => ih b

theorem le_popFront (b : RB cap) (n : Nat) : Le (b.popFront A.full n) (b.popFrontA A n) :=
  .bind (le_front _) fun _ => .bind (le_popFrontLoop _ _) fun _ => .refl _

theorem le_popBackLoop (n : Nat) : ∀ b : RB cap, Le (popBackLoop A.full b n) (popBackLoopA A b n) := by
  induction n with
  | zero => exact fun b => .refl _
  | succ n ih => exact fun b => .bind (le_decrementPastEnd _) fun b => ih b

theorem le_popBack (b : RB cap) (n : Nat) : Le (b.popBack A.full n) (b.popBackA A n) :=
  .bind (le_back _) fun _ => .bind (le_popBackLoop _ _) fun _ => .refl _

theorem le_erase (b : RB cap) (i j : Nat) : Le (b.erase A.full i j) (b.eraseA A i j) :=
  .bind (le_assert _ _) fun _ => .ite (.refl _) <| .bind (le_assert _ _) fun _ =>
    .ite (.bind (le_popFront _ _) fun _ => .refl _) <| .ite (.bind (le_popBack _ _) fun _ => .refl _) <|
    .bind (le_assert _ _) fun _ => .bind (le_assert _ _) fun _ => .bind (.refl _) fun _ =>
    .bind (le_popBackLoop _ _) fun _ => .refl _

theorem le_eraseOne (b : RB cap) (i : Nat) : Le (b.eraseOne A.full i) (b.eraseOneA A i) := le_erase _ _ _

end RB

namespace ERB

theorem le_bufferAppend (r : ERB C) (xs : List Byte) : Le (r.bufferAppend A.full xs) (r.bufferAppendA A xs) :=
  .bind (RB.le_pushBackRange _ _) fun _ => .refl _

theorem le_bufferFront (r : ERB C) : Le (r.bufferFront A.full) (r.bufferFrontA A) := RB.le_front _

theorem le_bufferPopFront (r : ERB C) (n : Nat) : Le (r.bufferPopFront A.full n) (r.bufferPopFrontA A n) :=
  .bind (RB.le_popFront _ _) fun _ => .refl _

theorem le_buffer (r : ERB C) (i : Nat) : Le (r.buffer A.full i) (r.bufferA A i) := RB.le_get _ _

theorem le_bufferFromFunctorRef (r : ERB C) (f : Byte → RB.DeviceReply) (n : Nat) :
    Le (r.bufferFromFunctorRef A.full f n) (r.bufferFromFunctorRefA A f n) :=
  .bind (RB.le_external _ _ _) fun _ => .refl _

theorem le_getCurrentMessageId (r : ERB C) : Le (r.getCurrentMessageId A.full) (r.getCurrentMessageIdA A) :=
  .bind (le_assert _ _) fun _ => .refl _

theorem le_getMessageLength (r : ERB C) : Le (r.getMessageLength A.full) (r.getMessageLengthA A) :=
  .bind (le_assert _ _) fun _ => .bind (le_getCurrentMessageId _) fun _ => .refl _

end ERB

theorem le_skipToSOH (n : Nat) : ∀ r : ERB C, Le (skipToSOH A.full n r) (skipToSOHA A n r) := by
  induction n with
  | zero => exact fun r => .refl _
  | succ n ih =>
    exact fun r => .ite (.refl _) <| .bind (ERB.le_bufferFront _) fun _ =>
      .ite (.bind (ERB.le_bufferPopFront _ _) fun r => ih r) (.refl _)

theorem le_popAndRetry {f g : ERB C → Res (ERB C × Bool)} (h : ∀ r, Le (f r) (g r)) (r : ERB C) :
    Le (popAndRetry A.full f r) (popAndRetryA A g r) :=
  .bind (le_assert _ _) fun _ => .ite (.refl _) <| .bind (ERB.le_bufferPopFront _ _) fun r => h r

theorem le_checkBasic (n : Nat) : ∀ r : ERB C, Le (checkBasic A.full n r) (checkBasicA A n r) := by
  induction n with
  | zero => exact fun r => .refl _
  | succ n ih =>
    exact fun r => .bind (le_skipToSOH _ _) fun r => .ite (.refl _) <| .bind (ERB.le_buffer _ _) fun _ =>
      .ite (le_popAndRetry ih _) <| .ite (.refl _) <| .bind (ERB.le_buffer _ _) fun _ =>
      .ite (le_popAndRetry ih _) <| .bind (ERB.le_getMessageLength _) fun _ => .ite (.refl _) <|
      .bind (ERB.le_buffer _ _) fun _ => .bind (.ite (.refl _) (.bind (ERB.le_buffer _ _) fun _ => .refl _)) fun _ =>
      .ite (le_popAndRetry ih _) (.refl _)

theorem le_checksumLoop (r : ERB C) (n : Nat) : ∀ (ck : Byte) (i : Nat),
    Le (checksumLoop A.full r ck i n) (checksumLoopA A r ck i n) := by
  induction n with
  | zero => exact fun ck i => .refl _
  | succ n ih => exact fun ck i => .bind (ERB.le_buffer _ _) fun _ => .bind (.refl _) fun _ => ih _ _

theorem le_checkChecksum (n : Nat) : ∀ r : ERB C, Le (checkChecksum A.full n r) (checkChecksumA A n r) := by
  induction n with
  | zero => exact fun r => .refl _
  | succ n ih =>
    exact fun r => .bind (le_skipToSOH _ _) fun r => .ite (.refl _) <| .bind (ERB.le_buffer _ _) fun _ =>
      .ite (le_popAndRetry ih _) <| .ite (.refl _) <| .bind (ERB.le_buffer _ _) fun _ =>
      .ite (le_popAndRetry ih _) <| .bind (ERB.le_getMessageLength _) fun _ => .ite (.refl _) <|
      .bind (ERB.le_buffer _ _) fun _ => .bind (.ite (.refl _) (.bind (ERB.le_buffer _ _) fun _ => .refl _)) fun _ =>
      .ite (le_popAndRetry ih _) <| .bind (le_checksumLoop _ _ _ _) fun _ => .bind (ERB.le_buffer _ _) fun _ =>
      .ite (le_popAndRetry ih _) (.refl _)

theorem ERB.le_check (r : ERB C) : Le (r.checkBufferForMessage A.full) (r.checkBufferForMessageA A) := by
  unfold ERB.checkBufferForMessage ERB.checkBufferForMessageA ERB.checkDepth ERB.checkDepthA
  cases C.envelope with
  | basic => exact le_checkBasic _ _
  | basicChecksum => exact le_checkChecksum _ _

/-- `popMessage` where it is called in `processMessages`: a message is in front. -/
theorem popMessageA_ok (hc : recvBufferSize C < 2 ^ 64) {e e' : ERB C} {m : Msg} {t : List Byte}
    (hm : IsMsg C m) (h : e.Holds (frame C.envelope m ++ t)) (hid : e.currentMessageId = some m.id)
    (hp : ∀ B, e.popMessage B = .ok e') : e.popMessageA A = .ok e' := by
  have he : { e with currentMessageId := some m.id } = e := by rw [← hid]
  have hcheck : e.checkBufferForMessageA A = .ok (e, true) :=
    ERB.le_check e _ (by rw [check_at_frame hc hm h, he])
  have hrest : Le (do
      let n ← e.getMessageLength A.full
      let r ← e.bufferPopFront A.full n
      return { r with currentMessageId := none }) (do
      let n ← e.getMessageLengthA A
      let r ← e.bufferPopFrontA A n
      return { r with currentMessageId := none }) :=
    .bind (ERB.le_getMessageLength _) fun _ => .bind (ERB.le_bufferPopFront _ _) fun _ => .refl _
  have hb := hp A.full
  unfold ERB.popMessage at hb
  rw [check_at_frame hc hm h, he] at hb
  simp only [ok_bind, assertMsg_true, pure_eq_ok, ite_self] at hb
  unfold ERB.popMessageA
  rw [hcheck]
  simp only [ok_bind, assertAt, Bool.true_eq_false, and_false, if_false, pure_eq_ok, ite_self]
  exact hrest _ hb

namespace World
variable {user : UserCode}

theorem le_append (w : World C) (xs : List Byte) : Le (w.append A.full xs) (w.appendA A xs) :=
  .bind (.bind (ERB.le_bufferAppend _ _) fun _ => .refl _) fun _ => .refl _

theorem le_receiveFrom (r : Receiver C) (d : Receiver.Device) : Le (r.receiveFrom A.full d) (r.receiveFromA A d) :=
  .bind (ERB.le_bufferFromFunctorRef _ _ _) fun _ => .refl _

theorem le_runActs {f g : World C → Res (World C × Outcome)} (acts : List Act) : ∀ w : World C,
    (∀ a ∈ acts, a ≠ .process) → Le (runActs A.full f w acts) (runActsA A g w acts) := by
  induction acts with
  | nil => exact fun w _ => .refl _
  | cons a acts ih =>
    intro w hno
    have hno' : ∀ a ∈ acts, a ≠ Act.process := fun a ha => hno a (by simp [ha])
    cases a with
    | append xs => exact .bind (le_append _ _) fun w => ih w hno'
    | setHandler h => exact ih _ hno'
    | clearHandler => exact ih _ hno'
    | process => exact absurd rfl (hno .process (by simp))

theorem le_callHandler (hu : BenignUser user) {f g : World C → Res (World C × Outcome)} (w : World C) (i : Invocation) :
    Le (callHandler A.full user f w i) (callHandlerA A user g w i) := by
  unfold callHandler callHandlerA
  cases dispatch i with
  | none => exact .refl _
  | some c => exact .bind (le_runActs _ _ fun a ha => ((hu _ _).1 a ha).2) fun _ => .refl _

theorem processLoopA_ok (hA : Arith A.full (recvBufferSize C)) (hu : BenignUser user) (fuel : Nat) :
    ∀ (w : World C) (s : AState) (n : Byte), Abs w s → s.handler.isSome →
    Le (processLoop A.full user fuel w n) (processLoopA A user fuel w n) := by
  have hc := hA.lt64
  have hu0 : BenignFrom user 0 := fun calls free _ => hu calls free
  induction fuel with
  | zero => exact fun w s n _ _ => .refl _
  | succ fuel ih =>
    intro w s n hw hh
    obtain ⟨h, hh⟩ := Option.isSome_iff_exists.mp hh
    obtain ⟨e1, found, ys, h1, _, hh1, hr1, _, ht1, hf1⟩ := check_spec hc hw.buf
    have h1A : w.rx.recv.checkBufferForMessageA A = .ok (e1, found) := ERB.le_check _ _ (h1 _)
    cases found with
    | false =>
      unfold processLoop processLoopA
      rw [h1 A.full, h1A]
      simp only [ok_bind, Bool.not_false, if_true]
      exact .refl _
    | true =>
      obtain ⟨m, t, hm, rfl, hid⟩ := ht1 rfl
      let w1 : World C := { w with rx := { w.rx with recv := e1, lastMessageId := some m.id } }
      let s1 : AState := { s with buf := frame C.envelope m ++ t, last := some m.id }
      have hw1 : Abs w1 s1 := ⟨hh1, hw.invoker, hw.functor, rfl, hw.trace, hw.fed⟩
      have hinv : w1.rx.invoke m.id = .ok (some (callOf C h m)) :=
        invoke_ok (k := h.kind) (o := h.obj) hm hh1 (by simp [w1, hw.invoker, hh]) (by simp [w1, hw.functor, hh])
      obtain ⟨w2, h2, ha2, hi2⟩ := callHandler_from hc hu0 hw1 (h := h) (m := m) (t := t) (Nat.zero_le _) hh rfl rfl
      have step : processLoop A.full user (fuel + 1) w n =
          (if (afterCall C user s1 h m t).2 then .ok (w2, .threw)
          else do
            let e ← w2.rx.recv.popMessage A.full
            processLoop A.full user fuel { w2 with rx := { w2.rx with recv := e } } (n + 1)) := by
        conv => lhs; unfold processLoop
        simp only [h1 A.full, ok_bind, Bool.not_true, Bool.false_eq_true, if_false,
          ERB.getCurrentMessageId, hid, Option.isSome_some, assertMsg_true]
        change (do
          let i? ← w1.rx.invoke m.id
          _) = _
        rw [hinv]
        simp only [ok_bind]
        change (do
          let __discr ← callHandler A.full user _ w1 (callOf C h m)
          _) = _
        rw [h2 A.full _ hA]
        simp
      have stepA : processLoopA A user (fuel + 1) w n =
          (if (afterCall C user s1 h m t).2 then .ok (w2, .threw)
          else do
            let e ← w2.rx.recv.popMessageA A
            processLoopA A user fuel { w2 with rx := { w2.rx with recv := e } } (n + 1)) := by
        conv => lhs; unfold processLoopA
        simp only [h1A, ok_bind, Bool.not_true, Bool.false_eq_true, if_false,
          ERB.getCurrentMessageIdA, hid, Option.isSome_some, assertAt, Bool.true_eq_false, and_false]
        change (do
          let i? ← w1.rx.invoke m.id
          _) = _
        rw [hinv]
        simp only [ok_bind]
        change (do
          let __discr ← callHandlerA A user _ w1 (callOf C h m)
          _) = _
        rw [le_callHandler (f := fun w => .ok (w, .returned 0)) hu _ _ _ (h2 A.full _ hA)]
        simp
      rw [step, stepA]
      refine .ite (.refl _) ?_
      have hb2 : w2.rx.recv.Holds (frame C.envelope m ++ (t ++
          appended (reaction user s1.trace (callOf C h m)
            (capacity C - (frame C.envelope m ++ t).length)).acts)) := by
        have := ha2.buf
        simp only [afterCall, List.append_assoc] at this
        exact this
      obtain ⟨e3, h3, hh3, _⟩ := popMessage_ok hc hm hb2 (by rw [hi2]; exact hid)
      have ha3 : Abs { w2 with rx := { w2.rx with recv := e3 } }
          { (afterCall C user s1 h m t).1 with
            buf := (afterCall C user s1 h m t).1.buf.drop (frame C.envelope m).length } := by
        refine ⟨?_, ha2.invoker, ha2.functor, ha2.last, ha2.trace, ha2.fed⟩
        simp only [afterCall, List.append_assoc, List.drop_left]
        exact hh3
      rw [h3 A.full, popMessageA_ok hc hm hb2 (by rw [hi2]; exact hid) h3]
      refine ih _ _ _ ha3 ?_
      obtain ⟨h', e'⟩ := handlerAfter_isSome
        (reaction user s1.trace (callOf C h m) (capacity C - (frame C.envelope m ++ t).length)).acts
        (capacity C - (frame C.envelope m ++ t).length) h (reaction_benign_from hu0 (Nat.zero_le _) _ _)
      simp only [afterCall, e', Option.isSome_some]

theorem stepA_ok (hA : Arith A.full (recvBufferSize C)) (hu : BenignUser user) (fuel : Nat) {w : World C} {s : AState}
    (hw : Abs w s) (op : Op) : Le (w.step A.full user fuel op) (w.stepA A user fuel op) := by
  cases op with
  | append xs => exact .bind (le_append _ _) fun _ => .refl _
  | receiveFrom avail rcv => exact .bind (le_receiveFrom _ _) fun _ => .refl _
  | process =>
    refine .bind ?_ fun _ => .refl _
    unfold processMessages processMessagesA
    cases hh : w.rx.hasHandler with
    | false =>
      simp only [Bool.not_false, if_true]
      exact .refl _
    | true =>
      simp only [Bool.not_true, Bool.false_eq_true, if_false]
      exact processLoopA_ok hA hu fuel w s 0 hw (by rw [← hw.hasHandler, hh])
  | setHandler h => exact .refl _
  | clearHandler => exact .refl _
  | copy => exact .refl _

theorem runA_ok (hA : Arith A.full (recvBufferSize C)) (hu : BenignUser user) (fuel : Nat) (ops : List Op) :
    ∀ {w : World C} {s : AState}, Abs w s → Legal A.full user fuel w ops →
    Le (w.run A.full user fuel ops) (w.runA A user fuel ops) := by
  induction ops with
  | nil => intro w s _ _; exact .refl _
  | cons op ops ih =>
    intro w s hw hl r hr
    obtain ⟨hl1, hl2⟩ := hl
    rcases step_ok hA.lt64 hu fuel hw hl1 with ⟨_, _, hd⟩ | ⟨w1, s1, ms1, o1, h1, ha1, _⟩
    · simp [World.run, hd _ hA] at hr
    · have h1A := stepA_ok hA hu fuel hw op _ (h1 _ hA)
      simp only [World.run, h1 _ hA, ok_bind] at hr
      simp only [World.runA, h1A, ok_bind]
      exact Le.bind (ih ha1 (hl2 _ _ (h1 _ hA))) (fun _ => .refl _) r hr

end World
end TT
