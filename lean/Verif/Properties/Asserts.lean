import Verif.Proofs.AssertsSame
import Verif.Properties.Stream
import Verif.Properties.Buffer

/-!
# Assertions one by one: C97
-/

namespace TT.Properties
open Spec

variable {C : Collection} {B : Build} {user : UserCode} {fuel : Nat}

theorem legal_build {B' : Build} (hB : Arith B (recvBufferSize C)) (hB' : Arith B' (recvBufferSize C))
    (hu : BenignUser user) (ops : List Op) : ∀ {w : World C} {s : AState}, Abs w s →
    Legal B user fuel w ops → Legal B' user fuel w ops := by
  induction ops with
  | nil => exact fun _ _ => trivial
  | cons op ops ih =>
    intro w s hw ⟨hl1, hl2⟩
    refine ⟨hl1, fun w' o h' => ?_⟩
    rcases step_ok hB.lt64 hu fuel hw hl1 with ⟨_, _, hd⟩ | ⟨w1, s1, ms1, o1, h1, ha1, _⟩
    · rw [hd _ hB'] at h'
      cases h'
    · rw [h1 _ hB'] at h'
      cases h'
      exact ih ha1 (hl2 _ _ (h1 _ hB))

/-- C97. A program that keeps to the contract in some build does the same whichever assertions are compiled in, and
whether a failed one stops the program or calls a function that returns. -/
theorem C97_receiver (S : Setting C B user) {ops : List Op} {w : World C} {os : List Obs}
    (h : Reached B user fuel ops w os) (A : Asserts) (hA : Arith A.build (recvBufferSize C)) :
    (World.new C).runA A user fuel ops = .ok (w, os) := by
  have hF : Arith A.full (recvBufferSize C) := ⟨hA.lt64, hA.dbl⟩
  refine World.runA_ok hF S.benign fuel ops (abs_new C) ?_ _ ?_
  · exact legal_build S.arith hF S.benign ops (abs_new C) h.legal
  · rw [C22_builds_agree S ops h.legal A.full hF, h.run]

/-- The same in particular for two programs that differ in one assertion. -/
theorem C97_one_assertion (S : Setting C B user) {ops : List Op} {w : World C} {os : List Obs}
    (h : Reached B user fuel ops w os) (A : Asserts) (hA : Arith A.build (recvBufferSize C)) (s : Site) (m : AssertMode) :
    (World.new C).runA { A with mode := fun t => if t = s then m else A.mode t } user fuel ops =
      (World.new C).runA A user fuel ops :=
  (C97_receiver S h ⟨fun t => if t = s then m else A.mode t, A.intBits⟩ hA).trans (C97_receiver S h A hA).symm

/-- One call on the buffer with single assertions. -/
def runCallA {cap : Nat} (A : Asserts) (b : RB cap) : BufCall → Res (RB cap × BufRet)
  | .pushBack x => do return (← b.pushBackA A x, .unit)
  | .pushRange xs => do return (← b.pushBackRangeA A xs, .unit)
  | .popFront n => do let r ← b.popFrontA A n; return (r.1, .elem r.2)
  | .popBack n => do let r ← b.popBackA A n; return (r.1, .elem r.2)
  | .erase i j => do
    let r ← b.eraseA A (b.begin_ + i) (b.begin_ + j)
    return (r.1, .pos (r.2 - r.1.begin_))
  | .eraseOne i => do
    let r ← b.eraseOneA A (b.begin_ + i)
    return (r.1, .pos (r.2 - r.1.begin_))
  | .clear => .ok (b.clear, .unit)
  | .ensureSpace n => do return (← b.ensureSpaceA A n, .unit)
  | .set i x => do return (← b.setA A i x, .unit)
  | .copy => do return (← b.copyConstruct, .unit)
  | .assignTo former => do
    let target ← RB.fromRangeA A former
    return (← target.assign b, .unit)

/-- A sequence of calls on the buffer with single assertions. -/
def runCallsA {cap : Nat} (A : Asserts) (b : RB cap) : List BufCall → Res (RB cap × List BufRet)
  | [] => .ok (b, [])
  | c :: cs => do
    let r ← runCallA A b c
    let r' ← runCallsA A r.1 cs
    return (r'.1, r.2 :: r'.2)

theorem le_runCall {cap : Nat} {A : Asserts} (b : RB cap) (c : BufCall) :
    Le (runCall A.full b c) (runCallA A b c) := by
  cases c with
  | pushBack x => exact .bind (RB.le_pushBack _ _) fun _ => .refl _
  | pushRange xs => exact .bind (RB.le_pushBackRange _ _) fun _ => .refl _
  | popFront n => exact .bind (RB.le_popFront _ _) fun _ => .refl _
  | popBack n => exact .bind (RB.le_popBack _ _) fun _ => .refl _
  | erase i j => exact .bind (RB.le_erase _ _ _) fun _ => .refl _
  | eraseOne i => exact .bind (RB.le_eraseOne _ _) fun _ => .refl _
  | clear => exact .refl _
  | ensureSpace n => exact .bind (RB.le_ensureSpace _ _) fun _ => .refl _
  | set i x => exact .bind (RB.le_set _ _ _) fun _ => .refl _
  | copy => exact .refl _
  | assignTo former => exact .bind (RB.le_fromRange _) fun _ => .refl _

theorem le_runCalls {cap : Nat} {A : Asserts} (cs : List BufCall) : ∀ b : RB cap,
    Le (runCalls A.full b cs) (runCallsA A b cs) := by
  induction cs with
  | nil => exact fun _ => .refl _
  | cons c cs ih => exact fun b => .bind (le_runCall b c) fun _ => .bind (ih _) fun _ => .refl _

/-- C97 for the buffer by itself: calls in contract behave as on a plain list, and the elements are those of the list,
whichever assertions are compiled in. -/
theorem C97_buffer (A : Asserts) (cap : Nat) (ha : Arith A.build cap) (cs : List BufCall) (xs : List Byte)
    (rs : List BufRet) (h : specCalls cap [] cs = some (xs, rs)) :
    ∃ b : RB cap, runCallsA A (RB.new cap) cs = .ok (b, rs) ∧ b.size = xs.length ∧
      (∀ i x, xs[i]? = some x → b.getA A i = .ok x) ∧
      (∀ x, xs.head? = some x → b.frontA A = .ok x) ∧ (∀ x, xs.getLast? = some x → b.backA A = .ok x) := by
  obtain ⟨b, e, hb⟩ := C13_refines_list A.full cap ⟨ha.lt64, ha.dbl⟩ cs xs rs h
  exact ⟨b, le_runCalls cs _ _ e, hb.size, fun i x hx => RB.le_get _ _ _ (hb.index i x hx),
    fun x hx => RB.le_front _ _ (hb.front x hx), fun x hx => RB.le_back _ _ (hb.back x hx)⟩

theorem eq_runCall {cap : Nat} {A : Asserts} (S : Same A B) (b : RB cap) (c : BufCall) :
    runCall B b c = runCallA A b c := by
  cases c with
  | pushBack x => exact bindEq (RB.eq_pushBack S _ _) fun _ => rfl
  | pushRange xs => exact bindEq (RB.eq_pushBackRange S _ _) fun _ => rfl
  | popFront n => exact bindEq (RB.eq_popFront S _ _) fun _ => rfl
  | popBack n => exact bindEq (RB.eq_popBack S _ _) fun _ => rfl
  | erase i j => exact bindEq (RB.eq_erase S _ _ _) fun _ => rfl
  | eraseOne i => exact bindEq (RB.eq_eraseOne S _ _) fun _ => rfl
  | clear => rfl
  | ensureSpace n => exact bindEq (RB.eq_ensureSpace S _ _) fun _ => rfl
  | set i x => exact bindEq (RB.eq_set S _ _ _) fun _ => rfl
  | copy => rfl
  | assignTo former => exact bindEq (RB.eq_fromRange S _) fun _ => rfl

theorem eq_runCalls {cap : Nat} {A : Asserts} (S : Same A B) (cs : List BufCall) : ∀ b : RB cap,
    runCalls B b cs = runCallsA A b cs := by
  induction cs with
  | nil => exact fun _ => rfl
  | cons c cs ih => exact fun b => bindEq (eq_runCall S b c) fun _ => bindEq (ih _) fun _ => rfl

/-- All assertions stop the program: this is the debug build, also for programs that break the contract. -/
theorem C97_all_on (A : Asserts) (h : ∀ s, A.mode s = .stop) :
    (∀ (C : Collection) (user : UserCode) (fuel : Nat) (w : World C) (ops : List Op),
      w.runA A user fuel ops = w.run ⟨true, A.intBits⟩ user fuel ops) ∧
    ∀ (cap : Nat) (b : RB cap) (cs : List BufCall), runCallsA A b cs = runCalls ⟨true, A.intBits⟩ b cs :=
  ⟨fun _ _ fuel w ops => (World.eq_run (same_full A h) fuel ops w).symm,
    fun _ b cs => (eq_runCalls (same_full A h) cs b).symm⟩

/-- No assertion stops the program, and the one that looks for a message is not evaluated: this is the release build,
also for programs that break the contract. -/
theorem C97_all_off (A : Asserts) (h : ∀ s, A.mode s ≠ .stop) (hp : A.mode .pop = .off) :
    (∀ (C : Collection) (user : UserCode) (fuel : Nat) (w : World C) (ops : List Op),
      w.runA A user fuel ops = w.run ⟨false, A.intBits⟩ user fuel ops) ∧
    ∀ (cap : Nat) (b : RB cap) (cs : List BufCall), runCallsA A b cs = runCalls ⟨false, A.intBits⟩ b cs :=
  ⟨fun _ _ fuel w ops => (World.eq_run (same_none A h hp) fuel ops w).symm,
    fun _ b cs => (eq_runCalls (same_none A h hp) cs b).symm⟩

/-- The macros a program is compiled with: those of util/BoostAssertMsg.h:44,48, and what `BOOST_ASSERT` of the Boost
library (not in /repo) is. -/
structure Macros where
  disableAsserts : Bool
  ndebug : Bool
  enableHandler : Bool
  boostAssert : AssertMode
deriving DecidableEq, Repr

/-- `BOOST_ASSERT_MSG` if Boost does not define it; the handler returns. Models util/BoostAssertMsg.h:44-96. -/
def Macros.assertMsg (m : Macros) : AssertMode :=
  if m.disableAsserts || m.ndebug then .off else if m.enableHandler then .goOn else .stop

/-- The assertions of a program compiled with these macros. `BOOST_ASSERT` is used in
detail/types/EnvelopeReceiveBuffer.h:201 and in `boost::optional`. -/
def Macros.asserts (m : Macros) (intBits : Nat) : Asserts :=
  { mode := fun s => if s = .length ∨ s = .optional then m.boostAssert else m.assertMsg, intBits := intBits }

/-- Whatever macros are defined, a program that keeps to the contract does the same. -/
theorem C97_macros (S : Setting C B user) {ops : List Op} {w : World C} {os : List Obs}
    (h : Reached B user fuel ops w os) (m : Macros) :
    (World.new C).runA (m.asserts B.intBits) user fuel ops = .ok (w, os) :=
  C97_receiver S h _ ⟨S.arith.lt64, S.arith.dbl⟩

/-- Without macros all assertions stop the program if `BOOST_ASSERT` does; with `NDEBUG` or `BOOST_DISABLE_ASSERTS` this
is the release build if `BOOST_ASSERT` does not. -/
theorem C97_macros_build (m : Macros) (intBits : Nat) :
    (m.disableAsserts = false → m.ndebug = false → m.enableHandler = false → m.boostAssert = .stop →
      ∀ (C : Collection) (user : UserCode) (fuel : Nat) (w : World C) (ops : List Op),
      w.runA (m.asserts intBits) user fuel ops = w.run ⟨true, intBits⟩ user fuel ops) ∧
    (m.disableAsserts = true ∨ m.ndebug = true → m.boostAssert ≠ .stop →
      ∀ (C : Collection) (user : UserCode) (fuel : Nat) (w : World C) (ops : List Op),
      w.runA (m.asserts intBits) user fuel ops = w.run ⟨false, intBits⟩ user fuel ops) := by
  constructor
  · intro h1 h2 h3 h4
    exact (C97_all_on (m.asserts intBits) fun s => by simp [Macros.asserts, Macros.assertMsg, h1, h2, h3, h4]).1
  · intro h1 h2
    have h3 : m.assertMsg = .off := by rcases h1 with h | h <;> simp [Macros.assertMsg, h]
    refine (C97_all_off (m.asserts intBits) (fun s => ?_) ?_).1
    · simp only [Macros.asserts]
      split
      · exact h2
      · simp [h3]
    · simp [Macros.asserts, h3]

/-! ### Programs that break the contract -/

/-- Only the named assertions, with 16-bit `int`. -/
def only (l : List (Site × AssertMode)) : Asserts := { mode := fun s => (l.lookup s).getD .off, intBits := 16 }

/-- At its first call the handler processes the messages and then appends another one. -/
def nestsThenAppends : UserCode := fun calls _ =>
  ⟨if calls.length = 1 then [.process, .append (frame .basic Sample.mLevel)] else [], false⟩

/-- One message is received and processed. -/
def nestedProgram : List Op := [.setHandler Sample.h0, .append (frame .basic Sample.mPing), .process]

/-- What a run ends with: the number of calls of handlers, or the fault. -/
def summary {C : Collection} (r : Res (World C × List Obs)) : Except Fault Nat := r.map fun p => p.1.trace.length

/-- C97 needs the contract. A handler that processes messages itself: with all assertions off the behaviour is
undefined; with the assertion in `getMessageLength` the program stops; with the assertion in `popMessage`, which looks for
a message, the program goes on and drops a message. -/
theorem C97_contract_witness :
    summary ((World.new Sample.basic).runA (only []) nestsThenAppends 50 nestedProgram) = .error .ub ∧
    summary ((World.new Sample.basic).runA (only [(.length, .stop)]) nestsThenAppends 50 nestedProgram) = .error .abort ∧
    summary ((World.new Sample.basic).runA (only [(.pop, .goOn)]) nestsThenAppends 50 nestedProgram) = .ok 2 ∧
    summary ((World.new Sample.basic).runA (only [(.pop, .stop), (.length, .stop)]) nestsThenAppends 50 nestedProgram) =
      .ok 2 := by
  decide +kernel

/-- Calls on a buffer that break the contract: which assertions stop the program, and what happens without them. -/
theorem C97_buffer_witness :
    (runCallsA (only []) (RB.new 3) [.pushRange [1, 2, 3], .erase 1 1]).isOk = true ∧
    runCallsA (only [(.eraseOrder, .stop)]) (RB.new 3) [.pushRange [1, 2, 3], .erase 1 1] = .error .abort ∧
    (runCallsA (only [(.eraseOrder, .goOn)]) (RB.new 3) [.pushRange [1, 2, 3], .erase 1 1]).isOk = true ∧
    (runCallsA (only [(.index, .stop)]) (RB.new 3) [.pushRange [1, 2], .popBack 3]).isOk = true ∧
    runCallsA (only [(.endDown, .stop)]) (RB.new 3) [.pushRange [1, 2], .popBack 3] = .error .abort ∧
    runCallsA (only [(.endDown, .stop)]) (RB.new 3) [.pushRange [1, 2], .set 3 1] = .error .ub ∧
    runCallsA (only [(.index, .stop)]) (RB.new 3) [.pushRange [1, 2], .set 3 1] = .error .abort := by
  decide +kernel

example : ∃ (w : World Sample.basic) (os : List Obs), delivered w ≠ [] ∧
    (World.new Sample.basic).runA (only [(.length, .stop), (.space, .goOn)]) Sample.passive 50 session1 = .ok (w, os) := by
  obtain ⟨w, os, h, hp⟩ := session1_reached
  simp only [Bool.and_eq_true, decide_eq_true_eq] at hp
  exact ⟨w, os, by rw [hp.1.2]; simp, C97_receiver Sample.setting_basic h _ ⟨by decide, by decide⟩⟩
example : ∃ (w : World Sample.basic) (os : List Obs), delivered w ≠ [] ∧
    (World.new Sample.basic).runA (Macros.asserts ⟨false, true, true, .goOn⟩ 32) Sample.passive 50 session1 =
      .ok (w, os) := by
  obtain ⟨w, os, h, hp⟩ := session1_reached
  simp only [Bool.and_eq_true, decide_eq_true_eq] at hp
  exact ⟨w, os, by rw [hp.1.2]; simp, C97_macros Sample.setting_basic h _⟩
example := C97_buffer (only [(.index, .stop), (.eraseOrder, .goOn)]) 7 ⟨by decide, by decide⟩ sampleCalls [99, 9]
  [.unit, .elem 1, .unit, .unit, .pos 1, .pos 0, .unit, .unit, .unit, .unit, .elem 10] (by decide)
example := C97_all_on ⟨fun _ => .stop, 16⟩ fun _ => rfl
example := C97_all_off ⟨fun s => if s = .pop then .off else .goOn, 16⟩ (fun s => by cases s <;> decide) rfl
example := (C97_macros_build ⟨false, false, false, .stop⟩ 32).1 rfl rfl rfl rfl
example := (C97_macros_build ⟨false, true, true, .goOn⟩ 32).2 (.inr rfl) (by decide)

end TT.Properties
