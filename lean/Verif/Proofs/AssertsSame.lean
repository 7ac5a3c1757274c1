import Verif.Proofs.Asserts

/-!
# All assertions on, or none

If all assertions stop the program, or none does and the one with side effects is off, the model with single assertions
is the model with all or none.
-/

namespace TT
open Spec

/-- The assertions of `A` are those of the build `B`. -/
structure Same (A : Asserts) (B : Build) : Prop where
  assert : ∀ (s : Site) (p : Bool), assertMsg B p = assertAt A s p
  pop : B.debug = true ↔ A.mode .pop ≠ .off
  sums : promAdd B = promAdd A.build

theorem same_full (A : Asserts) (h : ∀ s, A.mode s = .stop) : Same A A.full :=
  ⟨fun s p => by cases p <;> simp [assertMsg, assertAt, Asserts.full, h], by simp [Asserts.full, h], rfl⟩

theorem same_none (A : Asserts) (h : ∀ s, A.mode s ≠ .stop) (hp : A.mode .pop = .off) : Same A A.build :=
  ⟨fun s p => by simp [assertMsg, assertAt, Asserts.build, h], by simp [Asserts.build, hp], rfl⟩

theorem bindEq {α β : Type} {x y : Res α} {f g : α → Res β} (h : x = y) (h' : ∀ a, f a = g a) :
    (x >>= f) = (y >>= g) := by
  rw [h, funext h']

theorem iteEq {α : Type} {c : Prop} [Decidable c] {x y x' y' : α} (h : x = x') (h' : y = y') :
    (if c then x else y) = (if c then x' else y') := by
  rw [h, h']

variable {A : Asserts} {B : Build} {cap : Nat} {C : Collection}

namespace RB

theorem eq_get (S : Same A B) (b : RB cap) (i : Nat) : b.get B i = b.getA A i :=
  bindEq (S.assert _ _) fun _ => rfl

theorem eq_set (S : Same A B) (b : RB cap) (i : Nat) (x : Byte) : b.set B i x = b.setA A i x :=
  bindEq (S.assert _ _) fun _ => rfl

theorem eq_front (S : Same A B) (b : RB cap) : b.front B = b.frontA A := eq_get S _ _

theorem eq_back (S : Same A B) (b : RB cap) : b.back B = b.backA A := eq_get S _ _

theorem eq_ensureSpace (S : Same A B) (b : RB cap) (n : Nat) : b.ensureSpace B n = b.ensureSpaceA A n := by
  unfold ensureSpace ensureSpaceA
  simp only [S.sums]
  exact iteEq rfl (bindEq (S.assert _ _) fun _ => rfl)

theorem eq_verifyInvariants (S : Same A B) (b : RB cap) : b.verifyInvariants B = b.verifyInvariantsA A :=
  bindEq (S.assert _ _) fun _ => S.assert _ _

theorem eq_incrementPastEnd (S : Same A B) (b : RB cap) : b.incrementPastEnd B = b.incrementPastEndA A :=
  bindEq (eq_ensureSpace S _ _) fun _ => bindEq (S.assert _ _) fun _ => rfl

theorem eq_decrementPastEnd (S : Same A B) (b : RB cap) : b.decrementPastEnd B = b.decrementPastEndA A :=
  bindEq (S.assert _ _) fun _ => rfl

theorem eq_incrementBegin (S : Same A B) (b : RB cap) : b.incrementBegin B = b.incrementBeginA A :=
  bindEq (S.assert _ _) fun _ => rfl

theorem eq_pushBack (S : Same A B) (b : RB cap) (x : Byte) : b.pushBack B x = b.pushBackA A x :=
  bindEq (eq_incrementPastEnd S _) fun _ => eq_set S _ _ _

theorem eq_pushBackRange (S : Same A B) (b : RB cap) (xs : List Byte) : b.pushBackRange B xs = b.pushBackRangeA A xs :=
  bindEq (eq_ensureSpace S _ _) fun _ => bindEq rfl fun _ => bindEq (eq_verifyInvariants S _) fun _ => rfl

theorem eq_fromRange (S : Same A B) (xs : List Byte) : (RB.fromRange B xs : Res (RB cap)) = RB.fromRangeA A xs :=
  eq_pushBackRange S _ _

theorem eq_external (S : Same A B) (b : RB cap) (f : Byte → DeviceReply) (n : Nat) :
    b.bufferFromExternalFunctorRef B f n = b.bufferFromExternalFunctorRefA A f n :=
  bindEq (eq_ensureSpace S _ _) fun _ => bindEq rfl fun _ => bindEq (eq_verifyInvariants S _) fun _ => rfl

theorem eq_popFrontLoop (S : Same A B) (n : Nat) : ∀ b : RB cap, popFrontLoop B b n = popFrontLoopA A b n := by
  induction n with
  | zero => exact fun b => rfl
  | succ n ih => exact fun b => bindEq (eq_incrementBegin S _) fun b => ih b

theorem eq_popFront (S : Same A B) (b : RB cap) (n : Nat) : b.popFront B n = b.popFrontA A n :=
  bindEq (eq_front S _) fun _ => bindEq (eq_popFrontLoop S _ _) fun _ => rfl

theorem eq_popBackLoop (S : Same A B) (n : Nat) : ∀ b : RB cap, popBackLoop B b n = popBackLoopA A b n := by
  induction n with
  | zero => exact fun b => rfl
  | succ n ih => exact fun b => bindEq (eq_decrementPastEnd S _) fun b => ih b

theorem eq_popBack (S : Same A B) (b : RB cap) (n : Nat) : b.popBack B n = b.popBackA A n :=
  bindEq (eq_back S _) fun _ => bindEq (eq_popBackLoop S _ _) fun _ => rfl

theorem eq_erase (S : Same A B) (b : RB cap) (i j : Nat) : b.erase B i j = b.eraseA A i j :=
  bindEq (S.assert _ _) fun _ => iteEq rfl <| bindEq (S.assert _ _) fun _ =>
    iteEq (bindEq (eq_popFront S _ _) fun _ => rfl) <| iteEq (bindEq (eq_popBack S _ _) fun _ => rfl) <|
    bindEq (S.assert _ _) fun _ => bindEq (S.assert _ _) fun _ => bindEq rfl fun _ =>
    bindEq (eq_popBackLoop S _ _) fun _ => rfl

theorem eq_eraseOne (S : Same A B) (b : RB cap) (i : Nat) : b.eraseOne B i = b.eraseOneA A i := eq_erase S _ _ _

end RB

namespace ERB

theorem eq_bufferAppend (S : Same A B) (r : ERB C) (xs : List Byte) : r.bufferAppend B xs = r.bufferAppendA A xs :=
  bindEq (RB.eq_pushBackRange S _ _) fun _ => rfl

theorem eq_bufferFront (S : Same A B) (r : ERB C) : r.bufferFront B = r.bufferFrontA A := RB.eq_front S _

theorem eq_bufferPopFront (S : Same A B) (r : ERB C) (n : Nat) : r.bufferPopFront B n = r.bufferPopFrontA A n :=
  bindEq (RB.eq_popFront S _ _) fun _ => rfl

theorem eq_buffer (S : Same A B) (r : ERB C) (i : Nat) : r.buffer B i = r.bufferA A i := RB.eq_get S _ _

theorem eq_bufferFromFunctorRef (S : Same A B) (r : ERB C) (f : Byte → RB.DeviceReply) (n : Nat) :
    r.bufferFromFunctorRef B f n = r.bufferFromFunctorRefA A f n :=
  bindEq (RB.eq_external S _ _ _) fun _ => rfl

theorem eq_getCurrentMessageId (S : Same A B) (r : ERB C) : r.getCurrentMessageId B = r.getCurrentMessageIdA A :=
  bindEq (S.assert _ _) fun _ => rfl

theorem eq_getMessageLength (S : Same A B) (r : ERB C) : r.getMessageLength B = r.getMessageLengthA A :=
  bindEq (S.assert _ _) fun _ => bindEq (eq_getCurrentMessageId S _) fun _ => rfl

end ERB

theorem eq_skipToSOH (S : Same A B) (n : Nat) : ∀ r : ERB C, skipToSOH B n r = skipToSOHA A n r := by
  induction n with
  | zero => exact fun r => rfl
  | succ n ih =>
    exact fun r => iteEq rfl <| bindEq (ERB.eq_bufferFront S _) fun _ =>
      iteEq (bindEq (ERB.eq_bufferPopFront S _ _) fun r => ih r) rfl

theorem eq_popAndRetry (S : Same A B) {f g : ERB C → Res (ERB C × Bool)} (h : ∀ r, f r = g r) (r : ERB C) :
    popAndRetry B f r = popAndRetryA A g r :=
  bindEq (S.assert _ _) fun _ => iteEq rfl <| bindEq (ERB.eq_bufferPopFront S _ _) fun r => h r

theorem eq_checkBasic (S : Same A B) (n : Nat) : ∀ r : ERB C, checkBasic B n r = checkBasicA A n r := by
  induction n with
  | zero => exact fun r => rfl
  | succ n ih =>
    exact fun r => bindEq (eq_skipToSOH S _ _) fun r => iteEq rfl <| bindEq (ERB.eq_buffer S _ _) fun _ =>
      iteEq (eq_popAndRetry S ih _) <| iteEq rfl <| bindEq (ERB.eq_buffer S _ _) fun _ =>
      iteEq (eq_popAndRetry S ih _) <| bindEq (ERB.eq_getMessageLength S _) fun _ => iteEq rfl <|
      bindEq (ERB.eq_buffer S _ _) fun _ => bindEq (iteEq rfl (bindEq (ERB.eq_buffer S _ _) fun _ => rfl)) fun _ =>
      iteEq (eq_popAndRetry S ih _) rfl

theorem eq_checksumLoop (S : Same A B) (r : ERB C) (n : Nat) : ∀ (ck : Byte) (i : Nat),
    checksumLoop B r ck i n = checksumLoopA A r ck i n := by
  induction n with
  | zero => exact fun ck i => rfl
  | succ n ih => exact fun ck i => bindEq (ERB.eq_buffer S _ _) fun _ => bindEq rfl fun _ => ih _ _

theorem eq_checkChecksum (S : Same A B) (n : Nat) : ∀ r : ERB C, checkChecksum B n r = checkChecksumA A n r := by
  induction n with
  | zero => exact fun r => rfl
  | succ n ih =>
    exact fun r => bindEq (eq_skipToSOH S _ _) fun r => iteEq rfl <| bindEq (ERB.eq_buffer S _ _) fun _ =>
      iteEq (eq_popAndRetry S ih _) <| iteEq rfl <| bindEq (ERB.eq_buffer S _ _) fun _ =>
      iteEq (eq_popAndRetry S ih _) <| bindEq (ERB.eq_getMessageLength S _) fun _ => iteEq rfl <|
      bindEq (ERB.eq_buffer S _ _) fun _ => bindEq (iteEq rfl (bindEq (ERB.eq_buffer S _ _) fun _ => rfl)) fun _ =>
      iteEq (eq_popAndRetry S ih _) <| bindEq (eq_checksumLoop S _ _ _ _) fun _ => bindEq (ERB.eq_buffer S _ _) fun _ =>
      iteEq (eq_popAndRetry S ih _) rfl

theorem ERB.eq_check (S : Same A B) (r : ERB C) : r.checkBufferForMessage B = r.checkBufferForMessageA A := by
  unfold ERB.checkBufferForMessage ERB.checkBufferForMessageA ERB.checkDepth ERB.checkDepthA
  cases C.envelope with
  | basic => exact eq_checkBasic S _ _
  | basicChecksum => exact eq_checkChecksum S _ _

theorem ERB.eq_popMessage (S : Same A B) (r : ERB C) : r.popMessage B = r.popMessageA A := by
  unfold ERB.popMessage ERB.popMessageA
  refine bindEq ?_ fun _ => bindEq (ERB.eq_getMessageLength S _) fun _ => bindEq (ERB.eq_bufferPopFront S _ _) fun _ => rfl
  by_cases h : B.debug = true
  · rw [if_pos h, if_pos (S.pop.1 h)]
    exact bindEq (ERB.eq_check S _) fun _ => bindEq (S.assert _ _) fun _ => rfl
  · rw [if_neg h, if_neg fun h' => h (S.pop.2 h')]

namespace World
variable {user : UserCode}

theorem eq_append (S : Same A B) (w : World C) (xs : List Byte) : w.append B xs = w.appendA A xs :=
  bindEq (bindEq (ERB.eq_bufferAppend S _ _) fun _ => rfl) fun _ => rfl

theorem eq_receiveFrom (S : Same A B) (r : Receiver C) (d : Receiver.Device) : r.receiveFrom B d = r.receiveFromA A d :=
  bindEq (ERB.eq_bufferFromFunctorRef S _ _ _) fun _ => rfl

theorem eq_runActs (S : Same A B) {f g : World C → Res (World C × Outcome)} (h : ∀ w, f w = g w) (acts : List Act) :
    ∀ w : World C, runActs B f w acts = runActsA A g w acts := by
  induction acts with
  | nil => exact fun w => rfl
  | cons a acts ih =>
    intro w
    cases a with
    | append xs => exact bindEq (eq_append S _ _) fun w => ih w
    | setHandler h => exact ih _
    | clearHandler => exact ih _
    | process =>
      refine bindEq (h _) ?_
      rintro ⟨w, o⟩
      cases o with
      | threw => rfl
      | returned n => exact ih _

theorem eq_callHandler (S : Same A B) {f g : World C → Res (World C × Outcome)} (h : ∀ w, f w = g w) (w : World C)
    (i : Invocation) : callHandler B user f w i = callHandlerA A user g w i := by
  unfold callHandler callHandlerA
  cases dispatch i with
  | none => rfl
  | some c => exact bindEq (eq_runActs S h _ _) fun _ => rfl

theorem eq_processLoop (S : Same A B) (fuel : Nat) : ∀ (w : World C) (n : Byte),
    processLoop B user fuel w n = processLoopA A user fuel w n := by
  induction fuel with
  | zero => exact fun w n => rfl
  | succ fuel ih =>
    intro w n
    refine bindEq (ERB.eq_check S _) fun q => iteEq rfl <| bindEq (ERB.eq_getCurrentMessageId S _) fun _ =>
      bindEq rfl fun c => bindEq ?_ fun _ => iteEq rfl <| bindEq (ERB.eq_popMessage S _) fun _ => ih _ _
    cases c with
    | none => rfl
    | some c => exact eq_callHandler S (fun w => iteEq rfl (ih _ _)) _ _

theorem eq_step (S : Same A B) (fuel : Nat) (w : World C) (op : Op) : w.step B user fuel op = w.stepA A user fuel op := by
  cases op with
  | append xs => exact bindEq (eq_append S _ _) fun _ => rfl
  | receiveFrom avail rcv => exact bindEq (eq_receiveFrom S _ _) fun _ => rfl
  | process => exact bindEq (iteEq rfl (eq_processLoop S _ _ _)) fun _ => rfl
  | setHandler h => rfl
  | clearHandler => rfl
  | copy => rfl

theorem eq_run (S : Same A B) (fuel : Nat) (ops : List Op) : ∀ w : World C,
    w.run B user fuel ops = w.runA A user fuel ops := by
  induction ops with
  | nil => exact fun w => rfl
  | cons op ops ih => exact fun w => bindEq (eq_step S fuel w op) fun _ => bindEq (ih _) fun _ => rfl

end World
end TT
