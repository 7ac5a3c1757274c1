import Verif.Properties.EndToEnd

/-!
# Properties of `Receiver` histories: C33, C34, C36-C39
-/

namespace TT.Properties
open Spec

variable {C : Collection} {B : Build} {user : UserCode} {fuel : Nat}

/-- One `processMessages` call on a reached state with a handler, seen abstractly. -/
theorem process_abs (S : Setting C B user) {ops : List Op} {w w' : World C} {os : List Obs}
    {out : Outcome} (h : Reached B user fuel ops w os) (hh : w.rx.hasHandler = true)
    (hp : w.processMessages B user fuel = .ok (w', out)) :
    ∃ s s' ms th, Abs w s ∧ Abs w' s' ∧ Proc C user s ms s' th ∧ s'.handler.isSome ∧
      out = (if th then .threw else .returned (UInt8.ofNat ms.length)) := by
  obtain ⟨s, _, ha, _⟩ := h.exec S
  have hs : s.handler.isSome := by rw [← ha.hasHandler]; exact hh
  rcases processMessages_spec S.arith.lt64 S.benign fuel ha hs with
    ⟨_, hd⟩ | ⟨w1, s', ms, th, h1, h2, h3, h4, _⟩
  · rw [hd B S.arith] at hp; simp at hp
  · rw [h1 B S.arith] at hp
    simp only [Except.ok.injEq, Prod.mk.injEq] at hp
    obtain ⟨rfl, rfl⟩ := hp
    exact ⟨s, s', ms, th, ha, h2, h3, h4, rfl⟩

theorem returned_iff {ms : List Msg} {th : Bool} {n : Byte}
    (h : Outcome.returned n = (if th then .threw else .returned (UInt8.ofNat ms.length))) :
    th = false ∧ n = UInt8.ofNat ms.length := by
  cases th <;> simp at h
  exact ⟨rfl, h⟩

theorem threw_iff {ms : List Msg} {th : Bool}
    (h : Outcome.threw = (if th then .threw else .returned (UInt8.ofNat ms.length))) :
    th = true := by
  cases th <;> simp at h
  rfl

/-! ### C33 -/

/-- C33. When `processMessages` returns (a handler being set), the free space is at least twice the
longest message plus one byte. -/
theorem C33_space (S : Setting C B user) (hne : C.messages ≠ []) {ops : List Op} {w w' : World C}
    {os : List Obs} {n : Byte} (h : Reached B user fuel ops w os) (hh : w.rx.hasHandler = true)
    (hp : w.processMessages B user fuel = .ok (w', .returned n)) :
    2 * maxLen C + 1 ≤ w'.rx.getBufferAvailableSpace := by
  obtain ⟨s, s', ms, th, ha, ha', hproc, _, ho⟩ := process_abs S h hh hp
  obtain ⟨rfl, _⟩ := returned_iff ho
  obtain ⟨_, _, _, _, _, _, _, _, _, h7, _⟩ := hproc.sound
  have := final_length_lt hne (h7 rfl).1
  rw [ha'.space S.arith.lt64]
  unfold capacity
  omega

/-- One round of use: append a chunk, process. -/
def rounds (chunks : List (List Byte)) : List Op := chunks.flatMap fun xs => [.append xs, .process]

theorem rounds_legal (S : Setting C B user) (hn : NeverThrows user) (hne : C.messages ≠ [])
    (chunks : List (List Byte)) (hc : ∀ xs ∈ chunks, xs.length ≤ 2 * maxLen C + 1) :
    ∀ {w : World C} {s : AState}, Abs w s → s.handler.isSome → s.buf.length < maxLen C →
      Legal B user fuel w (rounds chunks) := by
  induction chunks with
  | nil => intro w s _ _ _; trivial
  | cons xs chunks ih =>
    intro w s ha hh hl
    have hx := hc xs (by simp)
    have hfit : s.buf.length + xs.length ≤ capacity C := by unfold capacity; omega
    show Legal B user fuel w (.append xs :: .process :: rounds chunks)
    refine ⟨?_, ?_⟩
    · show xs.length ≤ w.rx.getBufferAvailableSpace
      rw [ha.space S.arith.lt64]; omega
    · intro w1 o1 h1
      obtain ⟨w1', h1', ha1, _⟩ := append_ok S.arith.lt64 ha hfit
      simp only [World.step, h1' B S.arith, Except.ok.injEq, Prod.mk.injEq, bind, Except.bind, pure,
        Except.pure] at h1
      obtain ⟨rfl, _⟩ := h1
      refine ⟨trivial, ?_⟩
      intro w2 o2 h2
      rcases processMessages_spec S.arith.lt64 S.benign fuel ha1 hh with
        ⟨_, hd⟩ | ⟨w3, s', ms, th, h3, h4, h5, h6⟩
      · simp [World.step, hd B S.arith] at h2
      · simp [World.step, h3 B S.arith] at h2
        obtain ⟨rfl, _⟩ := h2
        have hth := h5.no_throw hn
        subst hth
        obtain ⟨_, _, _, _, _, _, _, _, _, h7, _⟩ := h5.sound
        exact ih (fun ys hy => hc ys (by simp [hy])) h4 h6.1 (final_length_lt hne (h7 rfl).1)

/-- C33. So a user who sets a handler and then alternates `appendReceived` of at most
`2 * maxLen + 1` bytes with `processMessages` always stays within the free space. -/
theorem C33_rounds_legal (S : Setting C B user) (hn : NeverThrows user) (hne : C.messages ≠ [])
    (hd : Handler) (chunks : List (List Byte)) (hc : ∀ xs ∈ chunks, xs.length ≤ 2 * maxLen C + 1) :
    Legal B user fuel (World.new C) (.setHandler hd :: rounds chunks) := by
  have hpos : 0 < maxLen C := by
    have := final_length_lt (C := C) hne (r := []) (Or.inl rfl)
    simpa using this
  refine ⟨trivial, ?_⟩
  intro w o hw
  simp only [World.step, Except.ok.injEq, Prod.mk.injEq] at hw
  obtain ⟨rfl, _⟩ := hw
  have ha : Abs ({ World.new C with rx := (World.new C).rx.setHandler hd })
      { AState.new with handler := some hd } :=
    ⟨(abs_new C).buf, rfl, rfl, rfl, rfl, rfl⟩
  exact rounds_legal S hn hne chunks hc ha rfl (by simpa [AState.new] using hpos)

/-- The bound is tight: a buffered prefix of `maxLen - 1` bytes leaves exactly that much. -/
example : ∃ (w : World Sample.basic) (os : List Obs),
    Reached Sample.dbg Sample.passive 50 [.setHandler Sample.h0,
      .append [1, 2, 2, 9, 9, 9, 9, 9, 9, 9, 3], .process] w os ∧
    decide (w.rx.getBufferAvailableSpace = 2 * maxLen Sample.basic + 1) = true :=
  Sample.reached (fun w _ => decide (w.rx.getBufferAvailableSpace = 2 * maxLen Sample.basic + 1))
    (by decide +kernel)

example : ∃ (w w' : World Sample.basic) (os : List Obs) (n : Byte),
    Reached Sample.dbg Sample.passive 50 (session1.dropLast) w os ∧ w.rx.hasHandler = true ∧
    w.processMessages Sample.dbg Sample.passive 50 = .ok (w', .returned n) ∧ n = 1 := by
  obtain ⟨w, os, h, hp⟩ := Sample.reached (C := Sample.basic) (B := Sample.dbg)
    (user := Sample.passive) (fuel := 50) (ops := session1.dropLast)
    (fun w _ => w.rx.hasHandler && (match w.processMessages Sample.dbg Sample.passive 50 with
      | .ok (_, .returned 1) => true | _ => false)) (by decide +kernel)
  simp only [Bool.and_eq_true] at hp
  obtain ⟨h1, h2⟩ := hp
  split at h2
  · rename_i w' e; exact ⟨w, w', os, 1, h, h1, e, rfl⟩
  · simp at h2

example : Legal Sample.dbg Sample.passive 50 (World.new Sample.basic)
    (.setHandler Sample.h0 :: rounds [List.replicate 25 1, List.replicate 25 7]) :=
  C33_rounds_legal Sample.setting_basic Sample.passive_neverThrows (by decide) _ _ (by decide)

/-! ### C34 -/

/-- C34. A legal history never has undefined behaviour or a failed assertion, in any build. -/
theorem C34_no_fault (S : Setting C B user) (ops : List Op)
    (hl : Legal B user fuel (World.new C) ops) :
    (World.new C).run B user fuel ops ≠ .error .ub ∧
    (World.new C).run B user fuel ops ≠ .error .abort := by
  rcases run_ok S.arith.lt64 S.benign fuel S.arith ops (abs_new C) hl with
    ⟨hd, _⟩ | ⟨w, s, ms, os, h, _, _⟩
  · rw [hd B S.arith]; simp
  · rw [h B S.arith]; simp

/-- C34. Without appends from handlers it also terminates, each `processMessages` after at most
`capacity` rounds of its loop. -/
theorem C34_terminates (S : Setting C B user) (hq : Quiet user) (hf : capacity C < fuel)
    (ops : List Op) (hl : Legal B user fuel (World.new C) ops) :
    ∃ w os, (World.new C).run B user fuel ops = .ok (w, os) :=
  run_total S.arith.lt64 S.benign hq hf S.arith (abs_new C) hl

/-- A handler that, as long as there is space, appends a message each time it is called. -/
def feedback : UserCode := fun _ free =>
  if 5 ≤ free then ⟨[.append [1, 0, 2, 3, 4]], false⟩ else ⟨[], false⟩

theorem feedback_benign : BenignUser feedback := by
  intro calls free
  unfold feedback
  split
  · exact ⟨by simp, by simpa [appended] using ‹5 ≤ free›⟩
  · exact ⟨by simp, by simp [appended]⟩

theorem feedback_keeps : ∀ n (s : AState), s.buf = [1, 0, 2, 3, 4] →
    s.handler = some Sample.h0 → Keeps Sample.basic feedback n s := by
  intro n
  induction n with
  | zero => intro s _ _; exact Keeps.zero s
  | succ n ih =>
    intro s hb hh
    have hf : frame Sample.basic.envelope Sample.mPing = [1, 0, 2, 3, 4] := by decide +kernel
    have hre : ∀ tr i, i.handler = Sample.h0 →
        reaction feedback tr i 31 = ⟨[.append [1, 0, 2, 3, 4]], false⟩ := by
      intro tr i hi
      unfold reaction userCall
      rw [hi]
      rfl
    have hfree : capacity Sample.basic - (frame Sample.basic.envelope Sample.mPing ++ []).length
        = 31 := by decide +kernel
    refine Keeps.succ (m := Sample.mPing) (t := []) (h := Sample.h0) (by decide +kernel)
      (by rw [hb, hf]; exact Run.refl _) hh ?_ (ih _ ?_ ?_)
    · simp only [afterCall, hfree]
      rw [hre _ _ rfl]
    · simp only [afterCall, hfree]
      rw [hre _ _ rfl, hf]
      rfl
    · simp only [afterCall, hfree]
      rw [hre _ _ rfl]
      rfl

/-- C34. With such a handler `processMessages` never returns, whatever the budget: the exclusion of
appending handlers is needed for termination. The history is legal, and nothing else goes wrong. -/
theorem C34_feedback_witness (fuel : Nat) :
    Legal Sample.dbg feedback fuel (World.new Sample.basic)
      [.setHandler Sample.h0, .append [1, 0, 2, 3, 4], .process] ∧
    (World.new Sample.basic).run Sample.dbg feedback fuel
      [.setHandler Sample.h0, .append [1, 0, 2, 3, 4], .process] = .error .diverge := by
  have hB : Arith Sample.dbg (recvBufferSize Sample.basic) := ⟨by decide, by decide⟩
  have hl : Legal Sample.dbg feedback fuel (World.new Sample.basic)
      [.setHandler Sample.h0, .append [1, 0, 2, 3, 4], .process] := by
    refine ⟨trivial, fun w o e => ?_⟩
    simp only [World.step, Except.ok.injEq, Prod.mk.injEq] at e
    obtain ⟨rfl, _⟩ := e
    refine ⟨?_, fun _ _ _ => ⟨trivial, fun _ _ _ => trivial⟩⟩
    simp only [OpLegal]
    decide +kernel
  refine ⟨hl, ?_⟩
  rcases run_ok hB.lt64 feedback_benign fuel hB _ (abs_new Sample.basic) hl with
    ⟨hd, _⟩ | ⟨w, s, ms, os, _, _, he⟩
  · exact hd _ hB
  · exfalso
    cases he with
    | cons h1 he =>
      cases h1
      cases he with
      | cons h2 he =>
        cases h2
        cases he with
        | cons h3 he =>
          cases h3 with
          | idle h => simp at h
          | process _ hp =>
            exact Nat.not_succ_le_self _ (hp.keeps_le (feedback_keeps _ _ rfl rfl))
          | thrown _ hp =>
            exact Nat.not_succ_le_self _ (hp.keeps_le (feedback_keeps _ _ rfl rfl))

example : ∃ (w : World Sample.checked) (os : List Obs),
    (World.new Sample.checked).run Sample.rel16 Sample.passive 40
      (.setHandler Sample.h0 :: rounds [List.replicate 25 1, List.replicate 25 7]) = .ok (w, os) :=
  C34_terminates ⟨⟨by decide, by decide⟩, Sample.passive_benign⟩ Sample.passive_quiet
    (by decide +kernel) _
    (C33_rounds_legal ⟨⟨by decide, by decide⟩, Sample.passive_benign⟩ Sample.passive_neverThrows
      (by decide) _ _ (by decide +kernel))

/-! ### C36 -/

/-- C36. Without a handler `processMessages` returns 0 and changes nothing. -/
theorem C36_no_handler (w : World C) (hh : w.rx.hasHandler = false) :
    w.processMessages B user fuel = .ok (w, .returned 0) := by
  simp [World.processMessages, hh]

/-- C36. As long as no handler was ever set: no calls, every fed byte still buffered, no last id,
and every `processMessages` returned 0. -/
theorem C36_waiting (S : Setting C B user) {ops : List Op} (hno : ∀ h, Op.setHandler h ∉ ops)
    {w : World C} {os : List Obs} (h : Reached B user fuel ops w os) :
    w.trace = [] ∧ buffered w = w.fed ∧ w.rx.getLastMessageId = none ∧
    ∀ o, Obs.processed o ∈ os → o = .returned 0 := by
  obtain ⟨s, ms, ha, he⟩ := h.exec S
  have key : ∀ {s0 s : AState} {ops ms os}, Exec C user s0 ops ms s os → s0.handler = none →
      s0.buf = s0.fed → (∀ h, Op.setHandler h ∉ ops) →
      s.trace = s0.trace ∧ s.buf = s.fed ∧ s.last = s0.last ∧
      ∀ o, Obs.processed o ∈ os → o = .returned 0 := by
    intro s0 s ops ms os he
    induction he with
    | nil => intro _ hb _; exact ⟨rfl, hb, rfl, by simp⟩
    | cons hs _ ih =>
      intro hh hb hno
      have hno' := fun h (hm : Op.setHandler h ∈ _) => hno h (List.mem_cons_of_mem _ hm)
      cases hs with
      | append _ =>
        obtain ⟨a, b, c, d⟩ := ih hh (by simp [hb]) hno'
        exact ⟨a, b, c, by simpa using d⟩
      | receive _ _ =>
        obtain ⟨a, b, c, d⟩ := ih hh (by simp [hb]) hno'
        exact ⟨a, b, c, by simpa using d⟩
      | @setHandler h => exact absurd (by simp) (hno h)
      | clearHandler =>
        obtain ⟨a, b, c, d⟩ := ih rfl hb hno'
        exact ⟨a, b, c, by simpa using d⟩
      | copy =>
        obtain ⟨a, b, c, d⟩ := ih hh hb hno'
        exact ⟨a, b, c, by simpa using d⟩
      | idle _ =>
        obtain ⟨a, b, c, d⟩ := ih hh hb hno'
        refine ⟨a, b, c, ?_⟩
        intro o ho
        rcases List.mem_cons.mp ho with e | ho
        · simpa using e
        · exact d o ho
      | process h _ => simp [hh] at h
      | thrown h _ => simp [hh] at h
  obtain ⟨a, b, c, d⟩ := key he rfl rfl hno
  refine ⟨by rw [ha.trace, a]; rfl, by rw [ha.buffered, ha.fed, b], ?_, d⟩
  unfold Receiver.getLastMessageId
  rw [ha.last, c]
  rfl

/-- C36. Setting a handler later and processing delivers everything the bytes decode to. -/
theorem C36_later (S : Setting C B user) (hn : NeverThrows user) {ops : List Op}
    (hd : Handler) {w : World C} {os : List Obs}
    (h : Reached B user fuel (ops ++ [.setHandler hd] ++ [.process]) w os)
    (hh : w.rx.hasHandler = true) :
    ∃ ms, Decodes C w.fed ms (buffered w) ∧ delivered w = ms.map (meaning C) :=
  h.polled S hn hh

example : ∃ (w : World Sample.basic) (os : List Obs),
    Reached Sample.dbg Sample.passive 50 [.append [1, 0, 2, 3, 4, 7], .process, .clearHandler,
      .copy, .append [1, 0, 2, 3, 4], .process] w os ∧
    w.trace = [] ∧ (buffered w).length = 11 := by
  obtain ⟨w, os, h, hp⟩ := Sample.reached (C := Sample.basic) (B := Sample.dbg)
    (user := Sample.passive) (fuel := 50) (ops := [.append [1, 0, 2, 3, 4, 7], .process,
      .clearHandler, .copy, .append [1, 0, 2, 3, 4], .process])
    (fun w _ => decide (w.fed.length = 11)) (by decide +kernel)
  obtain ⟨h1, h2, _⟩ := C36_waiting Sample.setting_basic (by simp) h
  exact ⟨w, os, h, h1, by rw [h2]; simpa using hp⟩

example : ∃ (w : World Sample.basic) (os : List Obs),
    Reached Sample.dbg Sample.passive 50 ([.append [1, 0, 2, 3, 4, 7], .process, .copy,
      .append [1, 0, 2, 3, 4]] ++ [.setHandler Sample.h0] ++ [.process]) w os ∧
    (w.rx.hasHandler && decide (w.trace.length = 2)) = true :=
  Sample.reached (fun w _ => w.rx.hasHandler && decide (w.trace.length = 2)) (by decide +kernel)

/-! ### C37 -/

/-- The handler a history of API calls leaves set: that of the last `setHandler` after which there is
no `clearHandler`. -/
def handlerOf : Option Handler → List Op → Option Handler
  | h, [] => h
  | _, .setHandler h' :: ops => handlerOf (some h') ops
  | _, .clearHandler :: ops => handlerOf none ops
  | h, _ :: ops => handlerOf h ops

theorem exec_handler (hk : KeepsHandler user) {s0 s : AState} {ops : List Op} {ms : List Msg}
    {os : List Obs} (he : Exec C user s0 ops ms s os) : s.handler = handlerOf s0.handler ops := by
  induction he with
  | nil => rfl
  | cons hs _ ih =>
    rw [ih]
    cases hs with
    | append _ => rfl
    | receive _ _ => rfl
    | setHandler => rfl
    | clearHandler => rfl
    | copy => rfl
    | idle _ => rfl
    | process _ hp => simp only [handlerOf]; rw [(hp.handlers hk).1]
    | thrown _ hp => simp only [handlerOf]; rw [(hp.handlers hk).1]

/-- C37. All calls made by a `processMessages` go to the handler object set last before it. -/
theorem C37_current_handler (S : Setting C B user) (hk : KeepsHandler user) {ops : List Op}
    {w w' : World C} {os : List Obs} {out : Outcome} (h : Reached B user fuel ops w os)
    (hp : w.processMessages B user fuel = .ok (w', out)) :
    ∃ calls, w'.trace = w.trace ++ calls ∧ ∀ i ∈ calls, handlerOf none ops = some i.handler := by
  cases hh : w.rx.hasHandler with
  | false =>
    rw [C36_no_handler w hh] at hp
    simp only [Except.ok.injEq, Prod.mk.injEq] at hp
    exact ⟨[], by simp [hp.1], by simp⟩
  | true =>
    obtain ⟨s1, ms1, ha1, he1⟩ := h.exec S
    obtain ⟨s, s', ms, th, ha, ha', hproc, _, _⟩ := process_abs S h hh hp
    obtain ⟨_, calls, h2, h3⟩ := hproc.handlers hk
    refine ⟨calls, by rw [ha'.trace, ha.trace, h2], ?_⟩
    intro i hi
    have e1 := exec_handler hk he1
    have e2 : s.handler = s1.handler := by rw [ha.unique ha1]
    have := h3 i hi
    rw [e2, e1] at this
    exact this

/-- C37. Changing handlers neither loses nor repeats messages: whatever handlers were set in between,
the messages delivered to all of them together are the decoding of the stream. -/
theorem C37_nothing_lost (S : Setting C B user) (hn : NeverThrows user) {ops : List Op}
    {w : World C} {os : List Obs} (h : Reached B user fuel (ops ++ [.process]) w os)
    (hh : w.rx.hasHandler = true) :
    ∃ ms, Decodes C w.fed ms (buffered w) ∧ delivered w = ms.map (meaning C) :=
  h.polled S hn hh

/-- Two messages, each to another handler. -/
example : ∃ (w : World Sample.basic) (os : List Obs),
    Reached Sample.dbg Sample.passive 50 ([.setHandler Sample.h0, .append [1, 0, 2, 3, 4],
      .process, .clearHandler, .process, .append [1, 0, 2, 3, 4], .setHandler Sample.h1] ++
      [.process]) w os ∧
    (w.rx.hasHandler && decide (w.trace.map (·.handler) = [Sample.h0, Sample.h1])) = true :=
  Sample.reached (fun w _ => w.rx.hasHandler &&
    decide (w.trace.map (·.handler) = [Sample.h0, Sample.h1])) (by decide +kernel)

/-! ### C38 -/

/-- C38. The value returned is the number of handler calls made, modulo 256. -/
theorem C38_count (S : Setting C B user) {ops : List Op} {w w' : World C} {os : List Obs}
    {n : Byte} (h : Reached B user fuel ops w os)
    (hp : w.processMessages B user fuel = .ok (w', .returned n)) :
    ∃ calls, w'.trace = w.trace ++ calls ∧ n.toNat = calls.length % 256 := by
  cases hh : w.rx.hasHandler with
  | false =>
    rw [C36_no_handler w hh] at hp
    simp only [Except.ok.injEq, Prod.mk.injEq, Outcome.returned.injEq] at hp
    exact ⟨[], by simp [hp.1], by simp [← hp.2]⟩
  | true =>
    obtain ⟨s, s', ms, th, ha, ha', hproc, _, ho⟩ := process_abs S h hh hp
    obtain ⟨rfl, hn⟩ := returned_iff ho
    obtain ⟨app, calls, cms, h1, h2, h3, h4, h5, h6, h7, _⟩ := hproc.sound
    refine ⟨calls, by rw [ha'.trace, ha.trace, h2], ?_⟩
    have hl := congrArg List.length h4
    rw [(h7 rfl).2] at hl
    simp at hl
    rw [hn, hl]
    simp [UInt8.toNat_ofNat']

/-- C38. The value is exact if 256 shortest messages do not fit in the buffer. -/
theorem C38_exact (S : Setting C B user) (hq : Quiet user) {ops : List Op} {w w' : World C}
    {os : List Obs} {n : Byte} (h : Reached B user fuel ops w os)
    (hp : w.processMessages B user fuel = .ok (w', .returned n))
    (shortest : Nat) (hs : ∀ t ∈ C.messages, shortest ≤ overhead C.envelope + payloadSize t)
    (hsmall : 3 * maxLen C < 256 * shortest) :
    ∃ calls, w'.trace = w.trace ++ calls ∧ n.toNat = calls.length := by
  cases hh : w.rx.hasHandler with
  | false =>
    rw [C36_no_handler w hh] at hp
    simp only [Except.ok.injEq, Prod.mk.injEq, Outcome.returned.injEq] at hp
    exact ⟨[], by simp [hp.1], by simp [← hp.2]⟩
  | true =>
    obtain ⟨s, s', ms, th, ha, ha', hproc, _, ho⟩ := process_abs S h hh hp
    obtain ⟨rfl, hn⟩ := returned_iff ho
    obtain ⟨app, calls, cms, h1, h2, h3, h4, h5, h6, h7, _⟩ := hproc.sound
    refine ⟨calls, by rw [ha'.trace, ha.trace, h2], ?_⟩
    have hl := congrArg List.length h4
    rw [(h7 rfl).2] at hl h5
    simp at hl
    have hfed := hproc.quiet hq
    rw [h1] at hfed
    have happ : app = [] := by simpa using hfed
    rw [happ, List.append_nil] at h3
    have htot := h3.total_le
    have hcap := RB.Holds.length_le ha.buf
    rw [← capacity_eq] at hcap
    have hmin : ∀ ms : List Msg, (∀ m ∈ ms, IsMsg C m) →
        shortest * ms.length ≤ (frames C.envelope ms).length := by
      intro ms
      induction ms with
      | nil => simp
      | cons m ms ih =>
        intro hall
        have := ih fun m' hm' => hall m' (by simp [hm'])
        obtain ⟨t, ht, hpl⟩ := hall m (by simp)
        have hmem : t ∈ C.messages := List.mem_of_getElem? ht
        have := hs t hmem
        rw [frames_cons, List.length_append, frame_length, hpl, List.length_cons, Nat.mul_succ]
        omega
    have := hmin ms h5
    have hlt : ms.length < 256 := by
      unfold capacity at hcap
      rcases Nat.lt_or_ge ms.length 256 with h | h
      · exact h
      · exfalso
        have : 256 * shortest ≤ shortest * ms.length := by
          rw [Nat.mul_comm]; exact Nat.mul_le_mul_left _ h
        omega
    rw [hn, hl]
    simp [UInt8.toNat_ofNat']
    omega

/-- A collection in which 256 of the short messages fit in the buffer. -/
def longShort : Collection := ⟨[⟨0, []⟩, ⟨1, [.pod 0 422]⟩], .basic⟩

def pings (n : Nat) : List Byte := frames .basic (List.replicate n Sample.mPing)

theorem pings_length (n : Nat) : (pings n).length = 5 * n := by
  induction n with
  | zero => rfl
  | succ n ih =>
    have : pings (n + 1) = frame .basic Sample.mPing ++ pings n := rfl
    rw [this, List.length_append, ih, frame_length]
    simp [overhead, Sample.mPing]
    omega

/-- `n` short messages appended at once are all delivered by one `processMessages`. -/
theorem pings_processed (k : Nat) (hk : 5 * k ≤ 1281) : ∃ (w w' : World longShort) (os : List Obs),
    Reached Sample.dbg Sample.passive 1282 [.setHandler Sample.h0, .append (pings k)] w os ∧
    w.processMessages Sample.dbg Sample.passive 1282 = .ok (w', .returned (UInt8.ofNat k)) ∧
    w.trace.length = 0 ∧ w'.trace.length = k := by
  have S : Setting longShort Sample.dbg Sample.passive :=
    ⟨⟨by decide +kernel, by decide +kernel⟩, Sample.passive_benign⟩
  have hcap : capacity longShort = 1281 := by decide +kernel
  have hl : Legal Sample.dbg Sample.passive 1282 (World.new longShort)
      [.setHandler Sample.h0, .append (pings k), .process] := by
    refine ⟨trivial, fun w o e => ?_⟩
    simp only [World.step, Except.ok.injEq, Prod.mk.injEq] at e
    obtain ⟨rfl, _⟩ := e
    refine ⟨?_, fun _ _ _ => ⟨trivial, fun _ _ _ => trivial⟩⟩
    simp only [OpLegal]
    have ha : Abs ({ World.new longShort with rx := (World.new longShort).rx.setHandler Sample.h0 })
        { AState.new with handler := some Sample.h0 } :=
      ⟨(abs_new longShort).buf, rfl, rfl, rfl, rfl, rfl⟩
    rw [ha.space S.arith.lt64, pings_length, hcap]
    show 5 * k ≤ 1281 - 0
    omega
  obtain ⟨w', os', hr⟩ := C34_terminates S Sample.passive_quiet (fuel := 1282)
    (by rw [hcap]; decide) _ hl
  have hreach : Reached Sample.dbg Sample.passive 1282
    ([.setHandler Sample.h0, .append (pings k)] ++ [.process]) w' os' := ⟨hl, hr⟩
  obtain ⟨w, os1, os2, h1, h2, e⟩ := run_append
    (ops := [.setHandler Sample.h0, .append (pings k)]) (ops' := [.process]) hr
  have hw : Reached Sample.dbg Sample.passive 1282 [.setHandler Sample.h0, .append (pings k)]
    w os1 := ⟨Legal.of_append (ops' := [.process]) hl, h1⟩
  simp only [World.run, World.step] at h2
  cases hp : w.processMessages Sample.dbg Sample.passive 1282 with
  | error f => simp [hp] at h2
  | ok r =>
    obtain ⟨w2, out⟩ := r
    simp [hp] at h2
    obtain ⟨rfl, _⟩ := h2
    have hh : w.rx.hasHandler = true := by
      obtain ⟨s, ms, ha, he⟩ := hw.exec S
      rw [ha.hasHandler, exec_handler Sample.passive_keepsHandler he]
      rfl
    have hh2 : w2.rx.hasHandler = true := by
      obtain ⟨s, ms, ha, he⟩ := hreach.exec S
      rw [ha.hasHandler, exec_handler Sample.passive_keepsHandler he]
      rfl
    have hf : w2.fed = frames longShort.envelope (List.replicate k Sample.mPing) := by
      have := C25_fed_is_chunks S Sample.passive_quiet (by simp) hreach
      rw [this]
      simp only [chunks, List.cons_append, List.nil_append, List.append_nil]
      rfl
    obtain ⟨ms, hd, e2⟩ := hreach.polled S Sample.passive_neverThrows hh2
    have hall : ∀ m ∈ List.replicate k Sample.mPing, IsMsg longShort m := by
      intro m hm
      rw [List.eq_of_mem_replicate hm]
      decide +kernel
    have hd' : Decodes longShort w2.fed (List.replicate k Sample.mPing) [] := by
      have := run_frames hall []
      rw [List.append_nil, ← hf] at this
      exact ⟨this, Or.inl rfl⟩
    have hlen : w2.trace.length = k := by
      have := congrArg List.length e2
      rw [(hd.unique hd').1] at this
      simpa [delivered] using this
    obtain ⟨ms0, hd0, e0⟩ := hw.partly S Sample.passive_neverThrows
    have hlen0 : w.trace.length = 0 := by
      obtain ⟨s, ms, ha, he⟩ := hw.exec S
      cases he with
      | cons hs1 he =>
        cases hs1
        cases he with
        | cons hs2 he =>
          cases hs2
          cases he
          rw [ha.trace]
          rfl
    cases out with
    | threw =>
      exfalso
      obtain ⟨s, s', ms, th, _, _, hproc, _, ho⟩ := process_abs S hw hh hp
      have := hproc.no_throw Sample.passive_neverThrows
      rw [this] at ho
      simp at ho
    | returned n =>
      obtain ⟨calls, hc1, hc2⟩ := C38_count S hw hp
      have : calls.length = k := by
        have := congrArg List.length hc1
        simp [hlen, hlen0] at this
        exact this.symm
      rw [this] at hc2
      have hn : n = UInt8.ofNat k := by
        apply UInt8.toNat_inj.mp
        simpa [UInt8.toNat_ofNat'] using hc2
      subst hn
      exact ⟨w, w2, os1, hw, hp, hlen0, hlen⟩

/-- C38. Witness: 256 messages are delivered and the value returned is 0. -/
theorem C38_wrap_witness : ∃ (w w' : World longShort) (os : List Obs),
    Reached Sample.dbg Sample.passive 1282 [.setHandler Sample.h0, .append (pings 256)] w os ∧
    w.processMessages Sample.dbg Sample.passive 1282 = .ok (w', .returned 0) ∧
    w.trace.length = 0 ∧ w'.trace.length = 256 :=
  pings_processed 256 (by decide)

/-- For the sample collections the value is exact. -/
example : (∀ t ∈ Sample.basic.messages, 5 ≤ overhead Sample.basic.envelope + payloadSize t) ∧
    3 * maxLen Sample.basic < 256 * 5 := by decide +kernel

/-! ### C39 -/

/-- C39. There is a list of messages, one for each handler call in order - well-formed frames with
the meaning of the call -, whose last id is what `getLastMessageId()` returns; with no calls it is
empty. This also holds after a handler threw, i.e. right inside its call. -/
theorem C39_last_id (S : Setting C B user) {ops : List Op} {w : World C} {os : List Obs}
    (h : Reached B user fuel ops w os) :
    ∃ cms : List Msg, (∀ m ∈ cms, IsMsg C m) ∧ delivered w = cms.map (meaning C) ∧
      w.rx.getLastMessageId = (cms.map (·.id)).getLast? := by
  obtain ⟨s, ms, ha, he⟩ := h.exec S
  have step : ∀ {s s' op ms o}, Step C user s op ms s' o → ∀ {cms : List Msg},
      (∀ m ∈ cms, IsMsg C m) → s.trace.map seen = cms.map (meaning C) →
      s.last = (cms.map (·.id)).getLast? →
      ∃ cms' : List Msg, (∀ m ∈ cms', IsMsg C m) ∧ s'.trace.map seen = cms'.map (meaning C) ∧
        s'.last = (cms'.map (·.id)).getLast? := by
    intro s s' op ms o hs cms h1 h2 h3
    have proc : ∀ {ms s' th}, Proc C user s ms s' th → ∃ cms' : List Msg,
        (∀ m ∈ cms', IsMsg C m) ∧ s'.trace.map seen = cms'.map (meaning C) ∧
        s'.last = (cms'.map (·.id)).getLast? := by
      intro ms s' th hp
      obtain ⟨app, calls, cms2, _, b, _, d, e, f, _, _⟩ := hp.sound
      refine ⟨cms ++ cms2, ?_, by rw [b]; simp [h2, d], ?_⟩
      · intro m hm
        rcases List.mem_append.mp hm with hm | hm
        · exact h1 m hm
        · exact e m hm
      · rw [f, h3, List.map_append, List.getLast?_append]
    cases hs with
    | append _ => exact ⟨cms, h1, h2, h3⟩
    | receive _ _ => exact ⟨cms, h1, h2, h3⟩
    | setHandler => exact ⟨cms, h1, h2, h3⟩
    | clearHandler => exact ⟨cms, h1, h2, h3⟩
    | copy => exact ⟨cms, h1, h2, h3⟩
    | idle _ => exact ⟨cms, h1, h2, h3⟩
    | process _ hp => exact proc hp
    | thrown _ hp => exact proc hp
  have key : ∀ {s0 s : AState} {ops ms os}, Exec C user s0 ops ms s os → ∀ {cms : List Msg},
      (∀ m ∈ cms, IsMsg C m) → s0.trace.map seen = cms.map (meaning C) →
      s0.last = (cms.map (·.id)).getLast? →
      ∃ cms' : List Msg, (∀ m ∈ cms', IsMsg C m) ∧ s.trace.map seen = cms'.map (meaning C) ∧
        s.last = (cms'.map (·.id)).getLast? := by
    intro s0 s ops ms os he
    induction he with
    | nil => intro cms h1 h2 h3; exact ⟨cms, h1, h2, h3⟩
    | cons hs _ ih =>
      intro cms h1 h2 h3
      obtain ⟨c, a1, a2, a3⟩ := step hs h1 h2 h3
      exact ih a1 a2 a3
  obtain ⟨cms, a, b, c⟩ := key he (cms := []) (by simp) rfl rfl
  refine ⟨cms, a, by rw [ha.delivered, b], ?_⟩
  unfold Receiver.getLastMessageId
  rw [ha.last, c]

/-- C39. When messages have distinct types the id is determined by the last call: it is the position
of that call's message type. -/
theorem C39_last_call (S : Setting C B user) (hnd : C.messages.Nodup) {ops : List Op} {w : World C}
    {os : List Obs} (h : Reached B user fuel ops w os) :
    w.rx.getLastMessageId = w.trace.getLast?.map fun i => UInt8.ofNat (C.messages.idxOf i.msg) := by
  obtain ⟨cms, h1, h2, h3⟩ := C39_last_id S h
  rw [h3]
  have h4 := congrArg List.getLast? h2
  unfold delivered at h4
  rw [List.getLast?_map, List.getLast?_map] at h4
  rw [List.getLast?_map]
  cases hc : cms.getLast? with
  | none =>
    rw [hc] at h4
    cases ht : w.trace.getLast? with
    | none => rfl
    | some i => simp [ht] at h4
  | some m =>
    rw [hc] at h4
    cases ht : w.trace.getLast? with
    | none => simp [ht] at h4
    | some i =>
      simp only [ht, Option.map_some, Option.some.injEq] at h4 ⊢
      obtain ⟨t, htt, _⟩ := h1 m (List.mem_of_getLast? hc)
      have e : i.msg = t := by
        have := congrArg Prod.fst h4
        simpa [seen, meaning, htt] using this
      rw [e]
      have hlt : m.id.toNat < C.messages.length := (List.getElem?_eq_some_iff.mp htt).1
      have hget : C.messages[m.id.toNat] = t := (List.getElem?_eq_some_iff.mp htt).2
      have : C.messages.idxOf t = m.id.toNat := by
        rw [← hget]
        exact hnd.idxOf_getElem _ hlt
      rw [this]
      simp

example : ∃ (w : World Sample.checked) (os : List Obs),
    Reached Sample.dbg Sample.passive 50 (session3 ++ [.process]) w os ∧
    Sample.checked.messages.Nodup ∧ decide (w.rx.getLastMessageId = some 1) = true := by
  obtain ⟨w, os, h, hp⟩ := Sample.reached (C := Sample.checked) (B := Sample.dbg)
    (user := Sample.passive) (fuel := 50) (ops := session3 ++ [.process])
    (fun w _ => decide (w.rx.getLastMessageId = some 1)) (by decide +kernel)
  exact ⟨w, os, h, by decide +kernel, hp⟩

end TT.Properties
