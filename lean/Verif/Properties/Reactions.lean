import Verif.Properties.Receiver

/-!
# Properties about what handlers do, and about handler kinds: C40, C41, C43, C45, C47
-/

namespace TT.Properties
open Spec

variable {C : Collection} {B : Build} {user : UserCode} {fuel : Nat}

/-! ### C40 -/

theorem hasHandler_of_threw {w w' : World C} (hp : w.processMessages B user fuel = .ok (w', .threw)) :
    w.rx.hasHandler = true := by
  cases hh : w.rx.hasHandler with
  | true => rfl
  | false => rw [C36_no_handler w hh] at hp; simp at hp

/-- C40. When a handler throws: the calls made are for messages `ms` and then `m`; `ms` are removed,
`m` is still at the front of the buffer (what was buffered before and what handlers appended is
otherwise untouched), and the receiver is in a state reached by a legal history. -/
theorem C40_throw (S : Setting C B user) {ops : List Op} {w w' : World C} {os : List Obs}
    (h : Reached B user fuel ops w os)
    (hp : w.processMessages B user fuel = .ok (w', .threw)) :
    ∃ ms m t app, IsMsg C m ∧ delivered w' = delivered w ++ (ms ++ [m]).map (meaning C) ∧
      buffered w' = frame C.envelope m ++ t ∧ w'.fed = w.fed ++ app ∧
      Run C (buffered w ++ app) ms (buffered w') ∧ w'.rx.hasHandler = true ∧
      Reached B user fuel (ops ++ [.process]) w' (os ++ [.processed .threw]) := by
  obtain ⟨s, s', ms, th, ha, ha', hproc, hsome, ho⟩ := process_abs S h (hasHandler_of_threw hp) hp
  have ht := threw_iff ho
  obtain ⟨app, calls, cms, h1, h2, h3, h4, h5, h6, _, h8⟩ := hproc.sound
  obtain ⟨m, t, hm, hb, e⟩ := h8 ht
  refine ⟨ms, m, t, app, hm, ?_, by rw [ha'.buffered, hb], by rw [ha'.fed, ha.fed, h1],
    by rw [ha.buffered, ha'.buffered]; exact h3, by rw [ha'.hasHandler]; exact hsome, h.process hp⟩
  rw [ha'.delivered, ha.delivered, h2, List.map_append, h4, e]

theorem someThrows_append {past a b : List Invocation} :
    SomeThrows user past (a ++ b) ↔ SomeThrows user past a ∨ SomeThrows user (past ++ a) b := by
  constructor
  · rintro ⟨pre, i, post, e, ht⟩
    rcases List.append_eq_append_iff.1 e with ⟨c, rfl, hb⟩ | ⟨c, ha, hb⟩
    · exact .inr ⟨c, i, post, hb, by simpa using ht⟩
    · cases c with
      | nil =>
        have e1 : a = pre := by simpa using ha
        have e2 : b = i :: post := by simpa using hb.symm
        exact .inr ⟨[], i, post, e2, by simpa [e1] using ht⟩
      | cons j c =>
        simp only [List.cons_append, List.cons.injEq] at hb
        obtain ⟨rfl, -⟩ := hb
        exact .inl ⟨pre, i, c, ha, ht⟩
  · rintro (⟨pre, i, post, rfl, ht⟩ | ⟨pre, i, post, rfl, ht⟩)
    · exact ⟨pre, i, post ++ b, by simp, ht⟩
    · exact ⟨a ++ pre, i, post, by simp, by simpa using ht⟩

theorem userCall_eq_dispatch : userCall = dispatch := by
  funext i; rfl

theorem not_someThrows_nil {past : List Invocation} : ¬ SomeThrows user past [] := by
  rintro ⟨pre, i, post, e, -⟩
  cases pre <;> cases e

theorem someThrows_single {past : List Invocation} {i : Invocation} :
    SomeThrows user past [i] ↔ (reaction user past i 0).throws = true := by
  constructor
  · rintro ⟨pre, j, post, e, ht⟩
    cases pre with
    | nil => cases e; simpa using ht
    | cons _ pre => cases pre <;> cases e
  · exact fun h => ⟨[], i, [], rfl, by simpa using h⟩

theorem runActs_throws {nested : World C → Res (World C × Outcome)}
    (hn : ∀ w w' o, nested w = .ok (w', o) → ∃ calls, w'.trace = w.trace ++ calls ∧
      (o = .threw ↔ SomeThrows user w.trace calls)) :
    ∀ (as : List Act) (w w' : World C) (th : Bool), World.runActs B nested w as = .ok (w', th) →
      ∃ calls, w'.trace = w.trace ++ calls ∧ (th = true ↔ SomeThrows user w.trace calls)
  | [], w, w', th, e => by
    cases e
    exact ⟨[], by simp, by simp [not_someThrows_nil]⟩
  | .append xs :: as, w, w', th, e => by
    simp only [World.runActs, World.append] at e
    cases e1 : w.rx.appendReceived B xs with
    | error f => simp [e1, bind, Except.bind] at e
    | ok r =>
      simp only [e1, bind, Except.bind, pure, Except.pure] at e
      exact runActs_throws hn as { w with rx := r, fed := w.fed ++ xs } _ _ e
  | .setHandler h :: as, w, w', th, e => runActs_throws hn as { w with rx := w.rx.setHandler h } _ _ e
  | .clearHandler :: as, w, w', th, e => runActs_throws hn as { w with rx := w.rx.clearHandler } _ _ e
  | .process :: as, w, w', th, e => by
    simp only [World.runActs] at e
    cases e1 : nested w with
    | error f => simp [e1, bind, Except.bind] at e
    | ok x =>
      obtain ⟨w1, o⟩ := x
      obtain ⟨calls, ht, ho⟩ := hn w w1 o e1
      simp only [e1, bind, Except.bind] at e
      cases o with
      | threw =>
        cases e
        exact ⟨calls, ht, by simpa using ho⟩
      | returned n =>
        obtain ⟨calls', ht', ho'⟩ := runActs_throws hn as _ _ _ e
        refine ⟨calls ++ calls', by rw [ht', ht, List.append_assoc], ?_⟩
        rw [someThrows_append, ← ho, ← ht, ho']
        simp

theorem callHandler_throws (hu : ThrowsByCalls user) {nested : World C → Res (World C × Outcome)}
    (hn : ∀ w w' o, nested w = .ok (w', o) → ∃ calls, w'.trace = w.trace ++ calls ∧
      (o = .threw ↔ SomeThrows user w.trace calls)) {w w1 : World C} {i : Invocation} {th : Bool}
    (ec : World.callHandler B user nested w i = .ok (w1, th)) :
    ∃ calls, w1.trace = w.trace ++ calls ∧ (th = true ↔ SomeThrows user w.trace calls) := by
  simp only [World.callHandler] at ec
  cases ed : dispatch i with
  | none =>
    rw [ed] at ec
    cases ec
    refine ⟨[i], rfl, ?_⟩
    rw [someThrows_single]
    simp [reaction, userCall_eq_dispatch, ed]
  | some c =>
    rw [ed] at ec
    simp only at ec
    generalize hw0 : ({ w with trace := w.trace ++ [i] } : World C) = w0 at ec
    have htr : w0.trace = w.trace ++ [i] := by rw [← hw0]
    cases ea : World.runActs B nested w0 (user w0.userCalls w.rx.getBufferAvailableSpace).acts with
    | error f => simp [ea, bind, Except.bind] at ec
    | ok y =>
      obtain ⟨w2, th2⟩ := y
      simp only [ea, bind, Except.bind] at ec
      cases ec
      obtain ⟨calls, h1, h2⟩ := runActs_throws (user := user) hn _ _ _ _ ea
      refine ⟨[i] ++ calls, by rw [h1, htr, List.append_assoc], ?_⟩
      rw [someThrows_append, someThrows_single, ← htr, ← h2]
      have hre : (reaction user w.trace i 0).throws =
          (user w0.userCalls w.rx.getBufferAvailableSpace).throws := by
        simp only [reaction, userCall_eq_dispatch, ed, World.userCalls, htr]
        exact hu _ _ _
      rw [hre, Bool.or_eq_true]
      exact or_comm

theorem processLoop_throws (hu : ThrowsByCalls user) :
    ∀ (fuel : Nat) (w w' : World C) (n : Byte) (o : Outcome), World.processLoop B user fuel w n = .ok (w', o) →
      ∃ calls, w'.trace = w.trace ++ calls ∧ (o = .threw ↔ SomeThrows user w.trace calls)
  | 0, _, _, _, _, e => by cases e
  | fuel + 1, w, w', n, o, e => by
    rw [World.processLoop] at e
    cases e1 : w.rx.recv.checkBufferForMessage B with
    | error f => simp [e1, bind, Except.bind] at e
    | ok x =>
      obtain ⟨b, found⟩ := x
      simp only [e1, bind, Except.bind] at e
      cases found with
      | false =>
        cases e
        exact ⟨[], by simp, by simp [not_someThrows_nil]⟩
      | true =>
        simp only [Bool.not_true, Bool.false_eq_true, if_false] at e
        cases e2 : ERB.getCurrentMessageId B b with
        | error f => simp [e2] at e
        | ok id =>
          simp only [e2] at e
          split at e
          · cases e
          · rename_i i? e3
            have hnest : ∀ (v v' : World C) (o' : Outcome),
                (if (!v.rx.hasHandler) = true then .ok (v, .returned 0) else World.processLoop B user fuel v 0 :
                  Res (World C × Outcome)) = .ok (v', o') →
                ∃ calls, v'.trace = v.trace ++ calls ∧ (o' = .threw ↔ SomeThrows user v.trace calls) := by
              intro v v' o' ev
              split at ev
              · cases ev
                exact ⟨[], by simp, by simp [not_someThrows_nil]⟩
              · exact processLoop_throws hu fuel v v' 0 o' ev
            -- the call, if any
            have hcall : ∀ w1 th, (match i? with
                | none => (.ok ({ w with rx := { w.rx with recv := b, lastMessageId := some id } }, false) :
                    Res (World C × Bool))
                | some i => World.callHandler B user
                    (fun w => if !w.rx.hasHandler then .ok (w, .returned 0) else World.processLoop B user fuel w 0)
                    { w with rx := { w.rx with recv := b, lastMessageId := some id } } i) = .ok (w1, th) →
                ∃ calls, w1.trace = w.trace ++ calls ∧ (th = true ↔ SomeThrows user w.trace calls) := by
              intro w1 th ec
              cases i? with
              | none =>
                cases ec
                exact ⟨[], by simp, by simp [not_someThrows_nil]⟩
              | some i =>
                exact callHandler_throws hu hnest
                  (w := { w with rx := { w.rx with recv := b, lastMessageId := some id } }) ec
            split at e
            · cases e
            · rename_i y e4
              obtain ⟨w1, th⟩ := y
              obtain ⟨calls, h1, h2⟩ := hcall w1 th e4
              cases th with
              | true =>
                cases e
                exact ⟨calls, h1, by simpa using h2⟩
              | false =>
                simp only [Bool.false_eq_true, if_false] at e
                split at e
                · cases e
                · obtain ⟨calls', h3, h4⟩ := processLoop_throws hu fuel _ _ _ _ e
                  refine ⟨calls ++ calls', by rw [h3]; simp [h1], ?_⟩
                  rw [someThrows_append, ← h2]
                  simp only [h1] at h4
                  simpa using h4

/-- C40. `processMessages` ends with an exception exactly if user code threw in one of the calls made, be it called
directly or from a nested `processMessages`: no exception is lost and none appears from nowhere. This needs no legal
history and nothing of the user code, except that whether it throws does not depend on the free space. -/
theorem C40_propagates (hu : ThrowsByCalls user) {w w' : World C} {out : Outcome}
    (hp : w.processMessages B user fuel = .ok (w', out)) :
    ∃ calls, w'.trace = w.trace ++ calls ∧ (out = .threw ↔ SomeThrows user w.trace calls) := by
  rw [World.processMessages] at hp
  by_cases hh : w.rx.hasHandler
  · simp only [hh, Bool.not_true, Bool.false_eq_true, if_false] at hp
    exact processLoop_throws hu fuel w w' 0 out hp
  · simp only [hh, Bool.not_false, if_true] at hp
    cases hp
    exact ⟨[], by simp, by simp [not_someThrows_nil]⟩

/-- C40. The message whose handler threw comes first in the next `processMessages`, whatever other
API calls are made in between (as long as a handler is set). -/
theorem C40_redelivered (S : Setting C B user) {ops ops' : List Op} {w w' w1 w2 : World C}
    {os os' : List Obs} {out : Outcome}
    (h : Reached B user fuel ops w os)
    (hp : w.processMessages B user fuel = .ok (w', .threw))
    (hbetween : Op.process ∉ ops')
    (h1 : Reached B user fuel (ops ++ [.process] ++ ops') w1 os')
    (hh : w1.rx.hasHandler = true)
    (hp2 : w1.processMessages B user fuel = .ok (w2, out)) :
    ∃ last rest, (delivered w').getLast? = some last ∧
      delivered w2 = delivered w' ++ last :: rest := by
  obtain ⟨ms, m, t, app, hm, hd, hb, _, _, _, hr⟩ := C40_throw S h hp
  obtain ⟨w'', osa, osb, ha1, ha2, _⟩ := run_append h1.run
  rw [hr.run] at ha1
  simp only [Except.ok.injEq, Prod.mk.injEq] at ha1
  obtain ⟨rfl, rfl⟩ := ha1
  obtain ⟨s', _, habs', _⟩ := hr.exec S
  have hleg : Legal B user fuel w' ops' := Legal.drop _ h1.legal hr.run
  obtain ⟨s1, ms1, habs1, hexec⟩ := run_exec S.arith.lt64 S.benign S.arith habs' hleg ha2
  obtain ⟨htr, _, _, app', hbuf, _⟩ := hexec.no_process hbetween
  obtain ⟨sa, sb, ms2, th, hsa, hsb, hproc, _, _⟩ := process_abs S h1 hh hp2
  rw [hsa.unique habs1] at hproc
  have hs1 : s1.handler.isSome := by rw [← habs1.hasHandler]; exact hh
  obtain ⟨hdl, hdl'⟩ := Option.isSome_iff_exists.mp hs1
  obtain ⟨rest, hrest⟩ := hproc.first hm (t := t ++ app')
    (by rw [hbuf, ← habs'.buffered, hb, List.append_assoc]) hdl'
  refine ⟨meaning C m, rest.map seen, by rw [hd]; simp, ?_⟩
  rw [hsb.delivered, hrest, htr, habs'.delivered]
  simp [seen_callOf]

/-- User code that throws in the second call only. -/
def throwsOnce : UserCode := fun calls _ => ⟨[], decide (calls.length = 2)⟩

theorem throwsOnce_setting : Setting Sample.basic Sample.dbg throwsOnce :=
  ⟨⟨by decide, by decide⟩, fun _ _ => ⟨by simp [throwsOnce], by simp [throwsOnce, appended]⟩⟩

example : ThrowsByCalls throwsOnce := fun _ _ _ => rfl

/-- User code that calls `processMessages` in the first call and throws in the second, which is made by that nested
`processMessages`. -/
def nestsAndThrows : UserCode := fun calls _ => ⟨if calls.length = 1 then [.process] else [], decide (calls.length = 2)⟩

/-- The exception arrives at the outer `processMessages`. -/
example : ThrowsByCalls nestsAndThrows ∧ (∃ (w w' : World Sample.basic) (os : List Obs),
    Reached Sample.dbg nestsAndThrows 50 [.setHandler Sample.h0, .append (frames .basic [Sample.mPing])] w os ∧
    w.processMessages Sample.dbg nestsAndThrows 50 = .ok (w', .threw) ∧
    decide (delivered w' = [Sample.mPing, Sample.mPing].map (meaning Sample.basic)) = true) :=
  ⟨fun _ _ _ => rfl, Sample.processes .threw
    (fun _ w' => decide (delivered w' = [Sample.mPing, Sample.mPing].map (meaning Sample.basic))) (by decide +kernel)⟩

/-- Three messages; the second call throws, and the second message is delivered twice. -/
example : (∃ (w w' : World Sample.basic) (os : List Obs),
    Reached Sample.dbg throwsOnce 50 [.setHandler Sample.h0,
      .append (frames .basic [Sample.mPing, Sample.mLevel, Sample.mPose])] w os ∧
    w.processMessages Sample.dbg throwsOnce 50 = .ok (w', .threw) ∧ true = true) ∧
    ∃ (w1 w2 : World Sample.basic) (os' : List Obs),
    Reached Sample.dbg throwsOnce 50 ([.setHandler Sample.h0,
      .append (frames .basic [Sample.mPing, Sample.mLevel, Sample.mPose])] ++ [.process] ++
      [.setHandler Sample.h1, .append [7]]) w1 os' ∧
    w1.processMessages Sample.dbg throwsOnce 50 = .ok (w2, .returned 2) ∧
    (w1.rx.hasHandler && decide (delivered w2 =
      [Sample.mPing, Sample.mLevel, Sample.mLevel, Sample.mPose].map (meaning Sample.basic))) =
      true :=
  ⟨Sample.processes .threw (fun _ _ => true) (by decide +kernel),
    Sample.processes (.returned 2) (fun w1 w2 => w1.rx.hasHandler && decide (delivered w2 =
      [Sample.mPing, Sample.mLevel, Sample.mLevel, Sample.mPose].map (meaning Sample.basic)))
      (by decide +kernel)⟩

/-! ### C41 -/

/-- C41. A `processMessages` that returns: with `calls` the handler calls it made (each with the free
space it saw), the bytes those calls appended come after all buffered ones, and the calls are
exactly the messages of the complete decoding of both together. -/
theorem C41_append_inside (S : Setting C B user) {ops : List Op} {w w' : World C}
    {os : List Obs} {n : Byte} (h : Reached B user fuel ops w os) (hh : w.rx.hasHandler = true)
    (hp : w.processMessages B user fuel = .ok (w', .returned n)) :
    ∃ (calls : List (Invocation × Nat)) (ms : List Msg),
      w'.trace = w.trace ++ calls.map (·.1) ∧
      w'.fed = w.fed ++ appendedBy user w.trace calls ∧
      Decodes C (buffered w ++ appendedBy user w.trace calls) ms (buffered w') ∧
      calls.map (seen ·.1) = ms.map (meaning C) := by
  obtain ⟨s, s', ms, th, ha, ha', hproc, _, ho⟩ := process_abs S h hh hp
  obtain ⟨rfl, hn⟩ := returned_iff ho
  obtain ⟨app, calls', cms, h1, h2, h3, h4, h5, h6, h7, _⟩ := hproc.sound
  obtain ⟨calls, a, b, _⟩ := hproc.follows
  have e1 : app = appendedBy user s.trace calls := List.append_cancel_left (h1.symm.trans b)
  have e2 : calls' = calls.map (·.1) := List.append_cancel_left (h2.symm.trans a)
  refine ⟨calls, ms, by rw [ha'.trace, ha.trace, a], by rw [ha'.fed, ha.fed, b, ha.trace], ?_, ?_⟩
  · rw [ha.buffered, ha'.buffered, ha.trace, ← e1]
    exact ⟨h3, (h7 rfl).1⟩
  · rw [← (h7 rfl).2, ← h4, e2, List.map_map]
    rfl

/-- User code that appends a `level` message whenever a `ping` arrives and there is room. -/
def relay : UserCode := fun calls free =>
  match calls.getLast? with
  | some c => if c.msg = Sample.ping ∧ 6 ≤ free then
      ⟨[.append (frame .basic Sample.mLevel)], false⟩ else ⟨[], false⟩
  | none => ⟨[], false⟩

theorem relay_benign : BenignUser relay := by
  intro calls free
  unfold relay
  split
  · split
    · rename_i h
      refine ⟨by simp, ?_⟩
      simp only [appended, List.append_nil]
      exact Nat.le_trans (by decide) h.2
    · exact ⟨by simp, by simp [appended]⟩
  · exact ⟨by simp, by simp [appended]⟩

/-- The appended message is delivered by the same call, after those already buffered, although the
buffer was nearly full (so that its contents had to be moved). -/
example : Setting Sample.basic Sample.dbg relay ∧ ∃ (w w' : World Sample.basic) (os : List Obs),
    Reached Sample.dbg relay 50 [.setHandler Sample.h0,
      .append ([7, 7, 7, 7, 7, 7, 7, 7, 7, 7, 7] ++
        frames .basic [Sample.mPing, Sample.mPose, Sample.mLevel])] w os ∧
    w.processMessages Sample.dbg relay 50 = .ok (w', .returned 4) ∧
    (w.rx.hasHandler && decide (delivered w' = [Sample.mPing, Sample.mPose, Sample.mLevel,
      Sample.mLevel].map (meaning Sample.basic))) = true :=
  ⟨⟨⟨by decide, by decide⟩, relay_benign⟩, Sample.processes (.returned 4)
    (fun w w' => w.rx.hasHandler && decide (delivered w' = [Sample.mPing, Sample.mPose,
      Sample.mLevel, Sample.mLevel].map (meaning Sample.basic))) (by decide +kernel)⟩

/-! ### C43 -/

/-- The handler object that would get the next call. -/
def currentHandler (w : World C) : Option Handler :=
  match w.rx.invoker, w.rx.functorPointer with
  | some k, some o => some ⟨k, o⟩
  | _, _ => none

theorem currentHandler_abs {w : World C} {s : AState} (h : Abs w s) :
    currentHandler w = s.handler := by
  unfold currentHandler
  rw [h.invoker, h.functor]
  cases s.handler <;> rfl

/-- C43. In one `processMessages` the first call goes to the handler set before, and every later one
to the handler that the call before it left set. -/
theorem C43_next_message (S : Setting C B user) {ops : List Op} {w w' : World C}
    {os : List Obs} {out : Outcome} (h : Reached B user fuel ops w os)
    (hp : w.processMessages B user fuel = .ok (w', out)) :
    ∃ calls : List (Invocation × Nat), w'.trace = w.trace ++ calls.map (·.1) ∧
      Follows user (currentHandler w') (currentHandler w) w.trace calls := by
  cases hh : w.rx.hasHandler with
  | false =>
    rw [C36_no_handler w hh] at hp
    simp only [Except.ok.injEq, Prod.mk.injEq] at hp
    obtain ⟨rfl, _⟩ := hp
    exact ⟨[], by simp, rfl⟩
  | true =>
    obtain ⟨s, s', ms, th, ha, ha', hproc, _, _⟩ := process_abs S h hh hp
    obtain ⟨calls, a, _, c⟩ := hproc.follows
    refine ⟨calls, by rw [ha'.trace, ha.trace, a], ?_⟩
    rw [currentHandler_abs ha, currentHandler_abs ha', ha.trace]
    exact c

/-- C43. If every handler call switches to handler `b`, the first call of a `processMessages` goes to
the old handler `a` and all others to `b`. -/
theorem C43_switch (S : Setting C B user) (b : Handler)
    (hset : ∀ calls free h, handlerAfter h (user calls free).acts = some b)
    {ops : List Op} {w w' : World C} {os : List Obs} {out : Outcome} {a : Handler}
    (h : Reached B user fuel ops w os) (ha : currentHandler w = some a)
    (hka : ∃ o, a = ⟨.functor, o⟩ ∨ a = ⟨.parameterBase, o⟩)
    (hkb : ∃ o, b = ⟨.functor, o⟩ ∨ b = ⟨.parameterBase, o⟩)
    (hp : w.processMessages B user fuel = .ok (w', out)) :
    w'.trace = w.trace ∨ ∃ i calls, w'.trace = w.trace ++ i :: calls ∧ i.handler = a ∧
      (∀ j ∈ calls, j.handler = b) ∧ currentHandler w' = some b := by
  obtain ⟨calls, h1, h2⟩ := C43_next_message S h hp
  have reaches : ∀ (i : Invocation), (∃ o, i.handler = ⟨.functor, o⟩ ∨
      i.handler = ⟨.parameterBase, o⟩) → ∀ past free x,
      handlerAfter x (reaction user past i free).acts = some b := by
    intro i hi past free x
    have : ∃ c, userCall i = some c := by
      obtain ⟨o, hi | hi⟩ := hi <;> exact ⟨_, by unfold userCall; rw [hi]⟩
    obtain ⟨c, hc⟩ := this
    unfold reaction
    rw [hc]
    exact hset _ _ _
  have rest : ∀ (calls : List (Invocation × Nat)) (past : List Invocation) (h' : Option Handler),
      Follows user h' (some b) past calls → (∀ j ∈ calls.map (·.1), j.handler = b) ∧ h' = some b := by
    intro calls
    induction calls with
    | nil => intro past h' hf; exact ⟨by simp, hf⟩
    | cons c calls ih =>
      intro past h' hf
      obtain ⟨i, free⟩ := c
      obtain ⟨e, hf⟩ := hf
      simp only [Option.some.injEq] at e
      rw [reaches i (by rw [← e]; exact hkb)] at hf
      obtain ⟨h3, h4⟩ := ih _ _ hf
      refine ⟨?_, h4⟩
      intro j hj
      rcases List.mem_cons.mp hj with rfl | hj
      · exact e.symm
      · exact h3 j hj
  cases calls with
  | nil => left; simpa using h1
  | cons c calls =>
    right
    obtain ⟨i, free⟩ := c
    obtain ⟨e, hf⟩ := h2
    rw [ha] at e
    simp only [Option.some.injEq] at e
    rw [reaches i (by rw [← e]; exact hka)] at hf
    obtain ⟨h3, h4⟩ := rest _ _ _ hf
    exact ⟨i, calls.map (·.1), by simpa using h1, e.symm, h3, h4⟩

/-- User code that always switches to `h1`. -/
def switcher : UserCode := fun _ _ => ⟨[.setHandler Sample.h1], false⟩

theorem switcher_benign : BenignUser switcher := fun _ _ =>
  ⟨by simp [switcher], by simp [switcher, appended]⟩

example : (∀ calls free h, handlerAfter h (switcher calls free).acts = some Sample.h1) ∧
    Setting Sample.basic Sample.dbg switcher ∧ ∃ (w w' : World Sample.basic) (os : List Obs),
    Reached Sample.dbg switcher 50 [.setHandler Sample.h0,
      .append (frames .basic [Sample.mPing, Sample.mPose, Sample.mLevel])] w os ∧
    w.processMessages Sample.dbg switcher 50 = .ok (w', .returned 3) ∧
    (decide (currentHandler w = some Sample.h0) &&
      decide (w'.trace.map (·.handler) = [Sample.h0, Sample.h1, Sample.h1])) = true :=
  ⟨fun _ _ _ => rfl, ⟨⟨by decide, by decide⟩, switcher_benign⟩, Sample.processes (.returned 3)
    (fun w w' => decide (currentHandler w = some Sample.h0) &&
      decide (w'.trace.map (·.handler) = [Sample.h0, Sample.h1, Sample.h1])) (by decide +kernel)⟩

/-! ### C45 -/

/-- C45. With a handler built on `PartialHandlerBase` that has overloads for the types `ts`: all
messages are decoded, removed and counted, and user code is called exactly for those of the types
`ts`, in order, with the fields as separate parameters. -/
theorem C45_partial_base (S : Setting C B user) (hk : KeepsHandler user) {ops : List Op}
    {w w' : World C} {os : List Obs} {n : Byte} {ts : List MsgType} {obj : Nat}
    (h : Reached B user fuel ops w os) (hc : currentHandler w = some ⟨.partialBase ts, obj⟩)
    (hp : w.processMessages B user fuel = .ok (w', .returned n)) :
    ∃ app ms, w'.fed = w.fed ++ app ∧ Decodes C (buffered w ++ app) ms (buffered w') ∧
      n = UInt8.ofNat ms.length ∧
      w'.userCalls = w.userCalls ++ ((ms.map (meaning C)).filter (fun c => decide (c.1 ∈ ts))).map
        (fun c => ⟨obj, c.1, c.2, true⟩) := by
  obtain ⟨s0, _, ha0, _⟩ := h.exec S
  have hs0 : s0.handler = some ⟨.partialBase ts, obj⟩ := by rw [← currentHandler_abs ha0, hc]
  have hh : w.rx.hasHandler = true := by rw [ha0.hasHandler, hs0]; rfl
  obtain ⟨s, s', ms, th, ha, ha', hproc, _, ho⟩ := process_abs S h hh hp
  obtain ⟨rfl, hn⟩ := returned_iff ho
  obtain ⟨app, calls, cms, h1, h2, h3, h4, h5, h6, h7, _⟩ := hproc.sound
  obtain ⟨_, calls', h8, h9⟩ := hproc.handlers hk
  have e : calls' = calls := List.append_cancel_left (h8.symm.trans h2)
  subst e
  rw [(h7 rfl).2] at h4
  refine ⟨app, ms, by rw [ha'.fed, ha.fed, h1], ?_, hn, ?_⟩
  · rw [ha.buffered, ha'.buffered]; exact ⟨h3, (h7 rfl).1⟩
  · unfold World.userCalls
    rw [ha'.trace, ha.trace, h2, List.filterMap_append, ← h4]
    congr 1
    have hall : ∀ i ∈ calls', i.handler = ⟨.partialBase ts, obj⟩ := by
      intro i hi
      have := h9 i hi
      rw [ha.unique ha0, hs0] at this
      simpa using this.symm
    clear h8 h9 h2 h4
    induction calls' with
    | nil => rfl
    | cons i calls ih =>
      have hi := hall i (by simp)
      have := ih (fun j hj => hall j (by simp [hj]))
      by_cases hm : i.msg ∈ ts
      · have hd : dispatch i = some ⟨obj, i.msg, i.args, true⟩ := by
          unfold dispatch; rw [hi]; simp [hm]
        rw [List.filterMap_cons_some hd, this]
        simp [seen, hm]
      · have hd : dispatch i = none := by
          unfold dispatch; rw [hi]; simp [hm]
        rw [List.filterMap_cons_none hd, this]
        simp [seen, hm]

/-- C45. With a handler built on `ParameterHandlerBase` user code is called for every message, in
order, with the fields as separate parameters. -/
theorem C45_parameter (S : Setting C B user) (hk : KeepsHandler user) {ops : List Op}
    {w w' : World C} {os : List Obs} {n : Byte} {obj : Nat}
    (h : Reached B user fuel ops w os) (hc : currentHandler w = some ⟨.parameterBase, obj⟩)
    (hp : w.processMessages B user fuel = .ok (w', .returned n)) :
    ∃ app ms, w'.fed = w.fed ++ app ∧ Decodes C (buffered w ++ app) ms (buffered w') ∧
      n = UInt8.ofNat ms.length ∧
      w'.userCalls = w.userCalls ++ (ms.map (meaning C)).map (fun c => ⟨obj, c.1, c.2, true⟩) := by
  obtain ⟨s0, _, ha0, _⟩ := h.exec S
  have hs0 : s0.handler = some ⟨.parameterBase, obj⟩ := by rw [← currentHandler_abs ha0, hc]
  have hh : w.rx.hasHandler = true := by rw [ha0.hasHandler, hs0]; rfl
  obtain ⟨s, s', ms, th, ha, ha', hproc, _, ho⟩ := process_abs S h hh hp
  obtain ⟨rfl, hn⟩ := returned_iff ho
  obtain ⟨app, calls, cms, h1, h2, h3, h4, h5, h6, h7, _⟩ := hproc.sound
  obtain ⟨_, calls', h8, h9⟩ := hproc.handlers hk
  have e : calls' = calls := List.append_cancel_left (h8.symm.trans h2)
  subst e
  rw [(h7 rfl).2] at h4
  refine ⟨app, ms, by rw [ha'.fed, ha.fed, h1], ?_, hn, ?_⟩
  · rw [ha.buffered, ha'.buffered]; exact ⟨h3, (h7 rfl).1⟩
  · unfold World.userCalls
    rw [ha'.trace, ha.trace, h2, List.filterMap_append, ← h4]
    congr 1
    have hall : ∀ i ∈ calls', i.handler = ⟨.parameterBase, obj⟩ := by
      intro i hi
      have := h9 i hi
      rw [ha.unique ha0, hs0] at this
      simpa using this.symm
    clear h8 h9 h2 h4
    induction calls' with
    | nil => rfl
    | cons i calls ih =>
      have hi := hall i (by simp)
      have := ih (fun j hj => hall j (by simp [hj]))
      have hd : dispatch i = some ⟨obj, i.msg, i.args, true⟩ := by
        unfold dispatch; rw [hi]
      rw [List.filterMap_cons_some hd, this]
      simp [seen]

/-- A partial handler for `pose` only, and a parameter handler, fed three messages. -/
example : (∃ (w w' : World Sample.basic) (os : List Obs),
    Reached Sample.dbg Sample.passive 50 [.setHandler ⟨.partialBase [Sample.pose], 5⟩,
      .append (frames .basic [Sample.mPing, Sample.mPose, Sample.mLevel])] w os ∧
    w.processMessages Sample.dbg Sample.passive 50 = .ok (w', .returned 3) ∧
    (decide (currentHandler w = some ⟨.partialBase [Sample.pose], 5⟩) &&
    decide (w'.userCalls = [⟨5, Sample.pose, [[1], [1, 0, 2, 3], [3, 4]], true⟩])) = true) ∧
    ∃ (w w' : World Sample.basic) (os : List Obs),
    Reached Sample.dbg Sample.passive 50 [.setHandler ⟨.parameterBase, 5⟩,
      .append (frames .basic [Sample.mPing, Sample.mPose, Sample.mLevel])] w os ∧
    w.processMessages Sample.dbg Sample.passive 50 = .ok (w', .returned 3) ∧
    (decide (currentHandler w = some ⟨.parameterBase, 5⟩) &&
    decide (w'.userCalls = [⟨5, Sample.ping, [], true⟩,
      ⟨5, Sample.pose, [[1], [1, 0, 2, 3], [3, 4]], true⟩, ⟨5, Sample.level, [[0x2A]], true⟩])) =
      true :=
  ⟨Sample.processes (.returned 3) (fun w w' =>
    decide (currentHandler w = some ⟨.partialBase [Sample.pose], 5⟩) &&
    decide (w'.userCalls = [⟨5, Sample.pose, [[1], [1, 0, 2, 3], [3, 4]], true⟩]))
    (by decide +kernel),
   Sample.processes (.returned 3) (fun w w' =>
    decide (currentHandler w = some ⟨.parameterBase, 5⟩) &&
    decide (w'.userCalls = [⟨5, Sample.ping, [], true⟩,
      ⟨5, Sample.pose, [[1], [1, 0, 2, 3], [3, 4]], true⟩, ⟨5, Sample.level, [[0x2A]], true⟩]))
    (by decide +kernel)⟩

/-! ### C47 -/

/-- C47. A copy can always be made and agrees with the original in everything that can be queried. -/
theorem C47_copy (S : Setting C B user) {ops : List Op} {w : World C} {os : List Obs}
    (h : Reached B user fuel ops w os) :
    ∃ r : Receiver C, w.rx.copyConstruct = .ok r ∧
      buffered { w with rx := r } = buffered w ∧
      r.getBufferAvailableSpace = w.rx.getBufferAvailableSpace ∧
      r.hasHandler = w.rx.hasHandler ∧ r.getLastMessageId = w.rx.getLastMessageId ∧
      currentHandler { w with rx := r } = currentHandler w := by
  obtain ⟨s, _, ha, _⟩ := h.exec S
  obtain ⟨r, h1, h2, h3, h4, h5, h6⟩ := copy_ok S.arith.lt64 ha
  refine ⟨r, h1, by rw [h2.buffered, ha.buffered], ?_, ?_, ?_, ?_⟩
  · rw [ha.space S.arith.lt64]; exact h2.space S.arith.lt64
  · unfold Receiver.hasHandler; rw [h4]
  · unfold Receiver.getLastMessageId; rw [h5]
  · rw [currentHandler_abs h2, currentHandler_abs ha]

/-- Two receivers with the same abstract state react alike to every legal history. -/
theorem same_run (S : Setting C B user) (hc : recvBufferSize C < 2 ^ 64) :
    ∀ (ops : List Op) {w w2 w1 : World C} {s : AState} {os1 : List Obs}, Abs w s →
      Abs w2 s → Legal B user fuel w ops → w.run B user fuel ops = .ok (w1, os1) →
      Legal B user fuel w2 ops ∧ ∃ w3 s3, w2.run B user fuel ops = .ok (w3, os1) ∧
        Abs w1 s3 ∧ Abs w3 s3 := by
  intro ops
  induction ops with
  | nil =>
    intro w w2 w1 s os1 ha hb _ hr
    simp only [World.run, Except.ok.injEq, Prod.mk.injEq] at hr
    obtain ⟨rfl, rfl⟩ := hr
    exact ⟨trivial, w2, s, rfl, ha, hb⟩
  | cons op ops ih =>
    intro w w2 w1 s os1 ha hb hl hr
    simp only [World.run] at hr
    have hsp : w2.rx.getBufferAvailableSpace = w.rx.getBufferAvailableSpace := by
      rw [ha.space hc, hb.space hc]
    have hleg : OpLegal w2 op := by
      have := hl.1
      cases op <;> simp only [OpLegal, hsp] at this ⊢ <;> exact this
    rcases step_ok hc S.benign fuel ha hl.1 with ⟨_, _, hd⟩ | ⟨wa, sa, ms, o, e, haa, hst⟩
    · rw [hd B S.arith] at hr; simp at hr
    · rw [e B S.arith] at hr
      simp only [ok_bind] at hr
      cases hrest : wa.run B user fuel ops with
      | error f => simp [hrest] at hr
      | ok x =>
        obtain ⟨wx, osx⟩ := x
        simp only [hrest, ok_bind, pure_eq_ok, Except.ok.injEq, Prod.mk.injEq] at hr
        obtain ⟨rfl, rfl⟩ := hr
        rcases step_ok hc S.benign fuel hb hleg with ⟨hk, hop, hdv⟩ | ⟨wb, sb, ms', o', e', hbb, hst'⟩
        · exfalso
          subst hop
          cases hh : s.handler with
          | none =>
            have := hdv B S.arith
            simp [World.step, processMessages_none hb hh] at this
          | some x =>
            have := e B S.arith
            rw [World.step, processMessages_keeps hc S.benign ha (by simp [hh]) hk B
              S.arith] at this
            simp at this
        · obtain ⟨rfl, rfl, rfl⟩ := hst.unique hst'
          obtain ⟨hl2, w3, s3, h3, h4, h5⟩ := ih haa hbb (hl.2 _ _ (e B S.arith)) hrest
          refine ⟨⟨hleg, fun w' o' e2 => ?_⟩, w3, s3, ?_, h4, h5⟩
          · rw [e' B S.arith] at e2
            simp only [Except.ok.injEq, Prod.mk.injEq] at e2
            rw [← e2.1]; exact hl2
          · simp [World.run, e' B S.arith, h3]

/-- C47. From then on copy and original behave alike: the same later history gives, on either, the
same observations, calls, buffered bytes, last id and handler. (Model states are values, so what is
done to one cannot affect the other; in the code there is no shared state besides the handler
object.) -/
theorem C47_same_behaviour (S : Setting C B user) {ops ops' : List Op} {w w1 : World C}
    {os os1 : List Obs} {r : Receiver C} (h : Reached B user fuel ops w os)
    (hc : w.rx.copyConstruct = .ok r)
    (hl : Legal B user fuel w ops') (hr : w.run B user fuel ops' = .ok (w1, os1)) :
    Legal B user fuel { w with rx := r } ops' ∧
    ∃ w2 : World C, ({ w with rx := r } : World C).run B user fuel ops' = .ok (w2, os1) ∧
      w2.trace = w1.trace ∧ w2.fed = w1.fed ∧ buffered w2 = buffered w1 ∧
      w2.rx.getBufferAvailableSpace = w1.rx.getBufferAvailableSpace ∧
      w2.rx.getLastMessageId = w1.rx.getLastMessageId ∧ currentHandler w2 = currentHandler w1 := by
  obtain ⟨s, _, ha, _⟩ := h.exec S
  obtain ⟨r', h1, h2, _⟩ := copy_ok S.arith.lt64 ha
  rw [h1] at hc
  cases hc
  have hc := S.arith.lt64
  obtain ⟨hl2, w3, s3, h3, h4, h5⟩ := same_run S hc ops' ha h2 hl hr
  refine ⟨hl2, w3, h3, by rw [h5.trace, h4.trace], by rw [h5.fed, h4.fed],
    by rw [h5.buffered, h4.buffered], by rw [h5.space hc, h4.space hc], ?_, ?_⟩
  · unfold Receiver.getLastMessageId; rw [h5.last, h4.last]
  · rw [currentHandler_abs h5, currentHandler_abs h4]

/-- A receiver copied while it holds half a message: both go on to deliver it. -/
example : (∃ (w w' : World Sample.basic) (os : List Obs),
    Reached Sample.dbg Sample.passive 50 ([.setHandler Sample.h0, .append [7, 7, 1, 1], .process] ++
      [.append [2, 9, 3, 4]]) w os ∧
    w.processMessages Sample.dbg Sample.passive 50 = .ok (w', .returned 1) ∧
    decide (w'.trace.length = 1) = true) ∧
    ∃ (w w' : World Sample.basic) (os : List Obs),
    Reached Sample.dbg Sample.passive 50 ([.setHandler Sample.h0, .append [7, 7, 1, 1], .process] ++
      [.copy, .append [2, 9, 3, 4]]) w os ∧
    w.processMessages Sample.dbg Sample.passive 50 = .ok (w', .returned 1) ∧
    decide (w'.trace.length = 1) = true :=
  ⟨Sample.processes (.returned 1) (fun _ w' => decide (w'.trace.length = 1)) (by decide +kernel),
    Sample.processes (.returned 1) (fun _ w' => decide (w'.trace.length = 1)) (by decide +kernel)⟩

end TT.Properties
