import Verif.Properties.Reentrancy
import Verif.Proofs.AssertHandler

/-!
# Property about assertion handlers that throw: C81
-/

namespace TT.Properties
open Spec

variable {C : Collection} {B : Build} {user user' : UserCode} {fuel fuel' : Nat}
  {caught : List UserCall → List Act → Bool}

/-- C81. With an assertion handler that throws, a program that catches and goes on, may append too much,
call `processMessages` in a handler, catch or not catch there, and throw, keeps the receiver in order:
nothing is undefined, no other assertion fails, the bytes waiting are the last of those accepted, and every
call was for a message that arrived. -/
theorem C81_safe (A : Arith B (capacity C)) (hd : B.debug = true) (hu : Bold C B user)
    {ops : List Op} (hops : ∀ op ∈ ops, BoldOp C B op) :
    (World.new C).runT B user caught fuel ops = .error .diverge ∨
    ∃ (w : World C) (os : List (Option Obs)),
      (World.new C).runT B user caught fuel ops = .ok (w, os) ∧
      InOrder C w.fed (buffered w) w.trace := by
  rw [capacity_eq] at A
  rcases (sound_new C).runT (caught := caught) A hd hu fuel ops hops with h | ⟨w, os, h, s, ha, ho⟩
  · exact Or.inl h
  · refine Or.inr ⟨w, os, h, ?_⟩
    rw [ha.fed, ha.buffered, ha.trace]
    exact ho

/-- C81, rejected appends. In every state so reached `appendReceived` throws exactly if the bytes do not fit,
and then has changed nothing that can be observed; otherwise the bytes are added. -/
theorem C81_rejected (A : Arith B (capacity C)) (hd : B.debug = true) (hu : Bold C B user)
    {ops : List Op} (hops : ∀ op ∈ ops, BoldOp C B op) {w : World C} {os : List (Option Obs)}
    (hr : (World.new C).runT B user caught fuel ops = .ok (w, os)) {xs : List Byte}
    (ht : Tellable C B xs) :
    (capacity C < (buffered w).length + xs.length →
      ∃ w', w.stepT B user caught fuel (.append xs) = .ok (w', none) ∧
        buffered w' = buffered w ∧ w'.fed = w.fed ∧ w'.trace = w.trace ∧
        currentHandler w' = currentHandler w ∧ w'.rx.lastMessageId = w.rx.lastMessageId) ∧
    ((buffered w).length + xs.length ≤ capacity C →
      ∃ w', w.stepT B user caught fuel (.append xs) = .ok (w', some .unit) ∧
        buffered w' = buffered w ++ xs ∧ w'.fed = w.fed ++ xs ∧ w'.trace = w.trace ∧
        currentHandler w' = currentHandler w ∧ w'.rx.lastMessageId = w.rx.lastMessageId) := by
  rw [capacity_eq] at A
  rcases (sound_new C).runT (caught := caught) A hd hu fuel ops hops with h | ⟨w1, os1, h, s, ha, _⟩
  · rw [h] at hr; cases hr
  · rw [h] at hr
    cases hr
    rw [ha.buffered]
    constructor
    · intro hl
      obtain ⟨w', e, ha'⟩ := appendT_rejected A ha ht hl
      refine ⟨w', by simp [World.stepT, e], ha'.buffered, ?_⟩
      rw [ha'.fed, ha.fed, ha'.trace, ha.trace, currentHandler_abs ha', currentHandler_abs ha, ha'.last,
        ha.last]
      exact ⟨rfl, rfl, rfl, rfl⟩
    · intro hl
      obtain ⟨w', e, ha'⟩ := appendT_fits A hd ha hl
      refine ⟨w', by simp [World.stepT, e], ha'.buffered, ?_⟩
      rw [ha'.fed, ha.fed, ha'.trace, ha.trace, currentHandler_abs ha', currentHandler_abs ha, ha'.last,
        ha.last]
      exact ⟨rfl, rfl, rfl, rfl⟩

/-- C81, going on. Whatever a program did before, from then on a program that keeps the rules gets what it
would get from a receiver holding the same bytes: exactly the messages in the bytes then waiting and those fed
since. -/
theorem C81_recovers (A : Arith B (capacity C)) (hd : B.debug = true) (hu : Bold C B user)
    {ops : List Op} (hops : ∀ op ∈ ops, BoldOp C B op) {w : World C} {os : List (Option Obs)}
    (hr : (World.new C).runT B user caught fuel ops = .ok (w, os))
    (hu' : BenignUser user') (hq : Quiet user') (ht : NeverThrows user') {ops' : List Op}
    (hl : Legal B user' fuel' w ops') (hf : capacity C < fuel') :
    ∃ (w' : World C) (os' : List Obs) (new : List Byte) (ms : List Msg),
      w.runT B user' (fun _ _ => false) fuel' ops' = .ok (w', os'.map some) ∧
      w'.fed = w.fed ++ new ∧ Run C (buffered w ++ new) ms (buffered w') ∧
      delivered w' = delivered w ++ ms.map (meaning C) := by
  rw [capacity_eq] at A
  rcases (sound_new C).runT (caught := caught) A hd hu fuel ops hops with h | ⟨w1, os1, h, s, ha, _⟩
  · rw [h] at hr; cases hr
  · rw [h] at hr
    cases hr
    obtain ⟨w', os', he⟩ := run_total A.lt64 hu' hq hf A ha hl
    obtain ⟨s', ms, ha', hx⟩ := run_exec A.lt64 hu' A ha hl he
    obtain ⟨new, h1, h2⟩ := hx.since
    obtain ⟨calls, h3, h4⟩ := hx.calls ht
    refine ⟨w', os', new, ms, runT_of_run hd (fun _ _ => rfl) _ he, ?_, ?_, ?_⟩
    · rw [ha'.fed, ha.fed, h1]
    · rw [ha.buffered, ha'.buffered]; exact h2
    · rw [ha'.delivered, ha.delivered, h3]; simp [h4]

/-- C81, no difference otherwise. A history in which no assertion fails is the same with such an assertion
handler. -/
theorem C81_agrees (hd : B.debug = true) (hn : ∀ calls acts, caught calls acts = false) {ops : List Op}
    {w w' : World C} {os : List Obs} (h : w.run B user fuel ops = .ok (w', os)) :
    w.runT B user caught fuel ops = .ok (w', os.map some) :=
  runT_of_run hd hn ops h

/-! ### Programs that break the rules -/

/-- A handler that processes messages itself on the first call and does nothing later. -/
def nestsFirst : UserCode := fun calls _ => if calls.length = 1 then ⟨[.process], false⟩ else ⟨[], false⟩

/-- A handler that appends too much on the first call. -/
def overfills : UserCode := fun calls _ =>
  if calls.length = 1 then ⟨[.append (List.replicate 200 0), .append [7]], false⟩ else ⟨[], false⟩

/-- A handler that clears the handler. -/
def clears : UserCode := fun _ _ => ⟨[.clearHandler], false⟩

theorem nestsFirst_bold : Bold Sample.basic Sample.dbg nestsFirst := by
  intro calls free a ha
  unfold nestsFirst at ha
  split at ha <;> simp at ha
  subst ha
  trivial

theorem overfills_bold : Bold Sample.basic Sample.dbg overfills := by
  intro calls free a ha
  unfold overfills at ha
  split at ha <;> simp at ha
  rcases ha with rfl | rfl
  · exact ⟨by decide +kernel, by decide +kernel⟩
  · exact ⟨by decide, by decide⟩

/-- A message in the bytes waiting, processed by the nested call and removed by it, and another: the outer
call ends by exception, nothing is lost, and the next call goes on. -/
def nestOps : List Op :=
  [.setHandler Sample.h0, .append (frames .basic [Sample.mLevel, Sample.mPose]), .process,
   .append (List.replicate 100 1), .append (frames .basic [Sample.mLevel]), .process]

theorem nestOps_bold : ∀ op ∈ nestOps, BoldOp Sample.basic Sample.dbg op := by
  intro op h
  simp only [nestOps, List.mem_cons, List.not_mem_nil, or_false] at h
  rcases h with rfl | rfl | rfl | rfl | rfl | rfl
  · trivial
  · exact ⟨by decide, by decide⟩
  · trivial
  · exact ⟨by decide +kernel, by decide +kernel⟩
  · exact ⟨by decide, by decide⟩
  · trivial

example : ((World.new Sample.basic).runT Sample.dbg nestsFirst (fun _ _ => false) 100 nestOps).toOption.map
    (fun r => (r.2, delivered r.1)) =
    some ([some .unit, some .unit, some (.processed .threw), none, some .unit,
      some (.processed (.returned 1))],
      [Sample.mLevel, Sample.mLevel, Sample.mPose, Sample.mLevel].map (meaning Sample.basic)) := by
  decide +kernel

/-- The same is an abort without the assertion handler. -/
example : (World.new Sample.basic).run Sample.dbg nestsFirst 100 (nestOps.take 3) = .error .abort := by
  have : (match (World.new Sample.basic).run Sample.dbg nestsFirst 100 (nestOps.take 3) with
        | .error .abort => true | _ => false) = true := by decide +kernel
  revert this
  generalize (World.new Sample.basic).run Sample.dbg nestsFirst 100 (nestOps.take 3) = x
  intro h
  match x, h with
  | .error .abort, _ => rfl

example : (∀ op ∈ nestOps, BoldOp Sample.basic Sample.dbg op) ∧ Bold Sample.basic Sample.dbg nestsFirst ∧
    Arith Sample.dbg (capacity Sample.basic) ∧ Sample.dbg.debug = true :=
  ⟨nestOps_bold, nestsFirst_bold, ⟨by decide, by decide⟩, rfl⟩

/-- A handler that appends too much: not caught there, the message stays and is delivered again by the next
call; caught there, the handler goes on. -/
example : ((World.new Sample.basic).runT Sample.dbg overfills (fun _ _ => false) 100
      [.setHandler Sample.h0, .append (frame .basic Sample.mLevel), .process, .process]).toOption.map
    (fun r => (r.2, buffered r.1, delivered r.1)) =
    some ([some .unit, some .unit, some (.processed .threw), some (.processed (.returned 1))], [],
      [Sample.mLevel, Sample.mLevel].map (meaning Sample.basic)) ∧
    ((World.new Sample.basic).runT Sample.dbg overfills (fun _ _ => true) 100
      [.setHandler Sample.h0, .append (frame .basic Sample.mLevel), .process, .process]).toOption.map
    (fun r => (r.2, delivered r.1)) =
    some ([some .unit, some .unit, some (.processed (.returned 1)), some (.processed (.returned 0))],
      [Sample.mLevel].map (meaning Sample.basic)) ∧
    ((World.new Sample.basic).runT Sample.dbg overfills (fun _ _ => true) 100
      [.setHandler Sample.h0, .append (frame .basic Sample.mLevel), .process, .process]).toOption.map
    (fun r => r.1.fed) = some (frame .basic Sample.mLevel ++ [7]) := by
  refine ⟨?_, ?_, ?_⟩ <;> decide +kernel

example : Bold Sample.basic Sample.dbg overfills := overfills_bold

/-- C81, a rule that no assertion guards: a handler that clears the handler while another message waits. -/
theorem C81_clear_witness :
    (World.new Sample.basic).runT Sample.dbg clears (fun _ _ => false) 100
      [.setHandler Sample.h0, .append (frames .basic [Sample.mLevel, Sample.mLevel]), .process] =
      .error .ub := by
  have : (match (World.new Sample.basic).runT Sample.dbg clears (fun _ _ => false) 100
      [.setHandler Sample.h0, .append (frames .basic [Sample.mLevel, Sample.mLevel]), .process] with
        | .error .ub => true | _ => false) = true := by decide +kernel
  revert this
  generalize (World.new Sample.basic).runT Sample.dbg clears (fun _ _ => false) 100 _ = x
  intro h
  match x, h with
  | .error .ub, _ => rfl

/-- C81, a rule that the assertion cannot check: an append whose length wraps to one that fits. -/
theorem C81_wrap_witness :
    ¬ Tellable Sample.basic Sample.dbg (List.replicate 256 1) ∧
    (World.new Sample.basic).runT Sample.dbg clears (fun _ _ => false) 100
      [.append (List.replicate 256 1)] = .error .ub := by
  refine ⟨fun h => absurd h.1 (by decide +kernel), ?_⟩
  have : (match (World.new Sample.basic).runT Sample.dbg clears (fun _ _ => false) 100
      [.append (List.replicate 256 1)] with
        | .error .ub => true | _ => false) = true := by decide +kernel
  revert this
  generalize (World.new Sample.basic).runT Sample.dbg clears (fun _ _ => false) 100 _ = x
  intro h
  match x, h with
  | .error .ub, _ => rfl

end TT.Properties
