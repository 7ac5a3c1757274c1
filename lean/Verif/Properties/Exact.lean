import Verif.Properties.Reactions

/-!
# The receiver is exactly an abstract machine: C114
-/

namespace TT.Properties
open Spec

variable {C : Collection} {B : Build} {user : UserCode} {fuel : Nat}

/-! ### C114 -/

/-- A receiver looks like a state of the abstract machine: waiting bytes, free space, handler, last id, all calls made and all
bytes ever given to it. -/
structure LooksLike (w : World C) (s : AState) : Prop where
  bytes : buffered w = s.buf
  free : w.rx.getBufferAvailableSpace = capacity C - s.buf.length
  handler : currentHandler w = s.handler
  last : w.rx.getLastMessageId = s.last
  calls : w.trace = s.trace
  fed : w.fed = s.fed

/-- Calls for which the abstract machine has no rule: appending more than there is room for, and reading from an adapter that
writes more than it was allowed or returns another number. -/
inductive NoRule (C : Collection) (s : AState) : Op → Prop where
  | append {xs : List Byte} : capacity C < s.buf.length + xs.length → NoRule C s (.append xs)
  | receive {avail : Byte} {rcv : Byte → RB.DeviceReply} :
      ¬ GoodReply (min avail.toNat (capacity C - s.buf.length))
        (rcv (UInt8.ofNat (min avail.toNat (capacity C - s.buf.length)))) →
      NoRule C s (.receiveFrom avail rcv)

theorem looksLike_of_abs (hc : recvBufferSize C < 2 ^ 64) {w : World C} {s : AState} (h : Abs w s) : LooksLike w s :=
  ⟨h.buffered, h.space hc, currentHandler_abs h, h.last, h.trace, h.fed⟩

/-- C114 (every execution of the code is one of the machine). Whatever the code does in a legal history, the abstract machine
does as well, with the same results, and they look alike afterwards. -/
theorem C114_sound (S : Setting C B user) {ops : List Op} {w : World C} {os : List Obs} (h : Reached B user fuel ops w os) :
    ∃ ms s, Exec C user AState.new ops ms s os ∧ LooksLike w s := by
  obtain ⟨s, ms, ha, he⟩ := run_exec S.arith.lt64 S.benign S.arith (abs_new C) h.legal h.run
  exact ⟨ms, s, he, looksLike_of_abs S.arith.lt64 ha⟩

theorem legal_of_step (hc : recvBufferSize C < 2 ^ 64) {w : World C} {s s' : AState} {op : Op} {ms : List Msg} {o : Obs}
    (ha : Abs w s) (h : Step C user s op ms s' o) : OpLegal w op := by
  have hle : s.buf.length ≤ capacity C := by rw [capacity_eq]; exact RB.Holds.length_le ha.buf
  cases h with
  | append h => simp only [OpLegal, ha.space hc]; omega
  | receive e h => simp only [OpLegal, ha.space hc]; rw [← e]; exact h
  | _ => trivial

theorem step_complete (hc : recvBufferSize C < 2 ^ 64) (hu : BenignUser user) {w : World C} {s s' : AState} {op : Op}
    {ms : List Msg} {o : Obs} (ha : Abs w s) (h : Step C user s op ms s' o) (hf : ms.length < fuel) :
    ∃ w' : World C, (∀ B, Arith B (recvBufferSize C) → w.step B user fuel op = .ok (w', o)) ∧ Abs w' s' := by
  by_cases hi : op = .process ∧ s.handler = none
  · obtain ⟨rfl, hn⟩ := hi
    have hs : Step C user s .process [] s (.processed (.returned 0)) := Step.idle hn
    obtain ⟨rfl, rfl, rfl⟩ := h.unique hs
    exact ⟨w, fun B _ => by simp [World.step, processMessages_none ha hn], ha⟩
  rcases step_ok hc hu fuel ha (legal_of_step hc ha h) with ⟨hk, rfl, hd⟩ | ⟨w', s1, ms1, o1, e, ha', hs⟩
  · exfalso
    cases h with
    | idle hn => exact hi ⟨rfl, hn⟩
    | process _ hp => have := hp.keeps_le hk; omega
    | thrown _ hp => have := hp.keeps_le hk; omega
  · obtain ⟨rfl, rfl, rfl⟩ := h.unique hs
    exact ⟨w', e, ha'⟩

theorem exec_complete (hc : recvBufferSize C < 2 ^ 64) (hu : BenignUser user) {s s' : AState} {ops : List Op}
    {ms : List Msg} {os : List Obs} (h : Exec C user s ops ms s' os) (hf : ms.length < fuel) :
    ∀ w : World C, Abs w s → ∃ w' : World C, (∀ B, Arith B (recvBufferSize C) →
      Legal B user fuel w ops ∧ w.run B user fuel ops = .ok (w', os)) ∧ Abs w' s' := by
  induction h with
  | nil s => intro w ha; exact ⟨w, fun B _ => ⟨trivial, rfl⟩, ha⟩
  | cons hs he ih =>
    intro w ha
    simp only [List.length_append] at hf
    obtain ⟨w1, e1, ha1⟩ := step_complete (fuel := fuel) hc hu ha hs (by omega)
    obtain ⟨w2, e2, ha2⟩ := ih (by omega) w1 ha1
    refine ⟨w2, fun B hB => ⟨⟨legal_of_step hc ha hs, fun w' o e => ?_⟩, ?_⟩, ha2⟩
    · rw [e1 B hB] at e
      simp only [Except.ok.injEq, Prod.mk.injEq] at e
      rw [← e.1]; exact (e2 B hB).1
    · simp [World.run, e1 B hB, (e2 B hB).2]

/-- C114 (every execution of the machine is one of the code). Whatever the abstract machine can do, the code does, in every
build; a loop bound above the number of messages is enough. -/
theorem C114_complete (A : Arith B (recvBufferSize C)) (hu : BenignUser user) {ops : List Op} {ms : List Msg} {s : AState}
    {os : List Obs} (h : Exec C user AState.new ops ms s os) (hf : ms.length < fuel) :
    ∃ w : World C, Reached B user fuel ops w os ∧ LooksLike w s := by
  obtain ⟨w, e, ha⟩ := exec_complete A.lt64 hu h hf _ (abs_new C)
  exact ⟨w, ⟨(e B A).1, (e B A).2⟩, looksLike_of_abs A.lt64 ha⟩

/-- C114 (no choice). There is at most one way in which the machine can execute a history. -/
theorem C114_deterministic {s s1 s2 : AState} {ops : List Op} {ms1 ms2 : List Msg} {os1 os2 : List Obs}
    (h1 : Exec C user s ops ms1 s1 os1) (h2 : Exec C user s ops ms2 s2 os2) : ms1 = ms2 ∧ s1 = s2 ∧ os1 = os2 := by
  induction h1 generalizing ms2 s2 os2 with
  | nil s => cases h2; exact ⟨rfl, rfl, rfl⟩
  | cons hs _ ih =>
    cases h2 with
    | cons hs' he' =>
      obtain ⟨rfl, rfl, rfl⟩ := hs.unique hs'
      obtain ⟨rfl, rfl, rfl⟩ := ih he'
      exact ⟨rfl, rfl, rfl⟩

theorem exec_total (hc : recvBufferSize C < 2 ^ 64) (hu : BenignUser user) (ops : List Op) :
    ∀ (w : World C) (s : AState), Abs w s → (∃ ms s' os, Exec C user s ops ms s' os) ∨
      ∃ a op b ms s' os, ops = a ++ op :: b ∧ Exec C user s a ms s' os ∧
        (NoRule C s' op ∨ op = .process ∧ ∀ n, Keeps C user n s') := by
  induction ops with
  | nil => intro w s _; exact .inl ⟨[], s, [], Exec.nil s⟩
  | cons op ops ih =>
    intro w s ha
    by_cases hr : NoRule C s op
    · exact .inr ⟨[], op, ops, [], s, [], rfl, Exec.nil s, .inl hr⟩
    by_cases hk : op = .process ∧ ∀ n, Keeps C user n s
    · exact .inr ⟨[], op, ops, [], s, [], rfl, Exec.nil s, .inr hk⟩
    have hl : OpLegal w op := by
      have hle : s.buf.length ≤ capacity C := by rw [capacity_eq]; exact RB.Holds.length_le ha.buf
      cases op with
      | append xs =>
        simp only [OpLegal, ha.space hc]
        by_cases h : capacity C < s.buf.length + xs.length
        · exact (hr (.append h)).elim
        · omega
      | receiveFrom a r =>
        simp only [OpLegal, ha.space hc]
        by_cases h : GoodReply (min a.toNat (capacity C - s.buf.length))
            (r (UInt8.ofNat (min a.toNat (capacity C - s.buf.length))))
        · exact h
        · exact (hr (.receive h)).elim
      | _ => trivial
    have : ∃ fuel, ¬ (Keeps C user fuel s ∧ op = .process) := by
      by_cases hp : op = .process
      · obtain ⟨n, hn⟩ := Classical.not_forall.mp fun h => hk ⟨hp, h⟩
        exact ⟨n, fun h => hn h.1⟩
      · exact ⟨0, fun h => hp h.2⟩
    obtain ⟨fuel, hfuel⟩ := this
    rcases step_ok hc hu fuel ha hl with ⟨h1, h2, _⟩ | ⟨w1, s1, ms1, o1, -, ha1, hs⟩
    · exact (hfuel ⟨h1, h2⟩).elim
    rcases ih w1 s1 ha1 with ⟨ms, s', os, he⟩ | ⟨a, op', b, ms, s', os, rfl, he, h⟩
    · exact .inl ⟨_, _, _, Exec.cons hs he⟩
    · exact .inr ⟨op :: a, op', b, _, _, _, rfl, Exec.cons hs he, h⟩

/-- C114 (when it ends). For every list of calls the machine either executes all of them, or it gets to a call that breaks the
rules, or to a `processMessages` in which handlers append one message after the other for ever. -/
theorem C114_total (hc : capacity C < 2 ^ 64) (hu : BenignUser user) (ops : List Op) :
    (∃ ms s os, Exec C user AState.new ops ms s os) ∨
      ∃ a op b ms s os, ops = a ++ op :: b ∧ Exec C user AState.new a ms s os ∧
        (NoRule C s op ∨ op = .process ∧ ∀ n, Keeps C user n s) :=
  exec_total (by rwa [capacity_eq] at hc) hu ops _ _ (abs_new C)

theorem exec_diverges (hc : recvBufferSize C < 2 ^ 64) (hu : BenignUser user) (hB : Arith B (recvBufferSize C))
    {s s' : AState} {a b : List Op} {ms : List Msg} {os : List Obs} (h : Exec C user s a ms s' os)
    (hh : s'.handler.isSome) (hk : ∀ n, Keeps C user n s') :
    ∀ w : World C, Abs w s → w.run B user fuel (a ++ .process :: b) = .error .diverge := by
  induction h with
  | nil s =>
    intro w ha
    simp [World.run, World.step, processMessages_keeps hc hu ha hh (hk fuel) B hB]
  | cons hs he ih =>
    intro w ha
    rcases step_ok hc hu fuel ha (legal_of_step hc ha hs) with ⟨_, -, hd⟩ | ⟨w1, s1, ms1, o1, e, ha1, hs1⟩
    · simp [World.run, hd B hB]
    · obtain ⟨rfl, rfl, rfl⟩ := hs.unique hs1
      simp [World.run, e B hB, ih hh hk w1 ha1]

/-- C114 (the three cases exclude each other). Where the machine has no rule, or would go on for ever, no execution goes
further; in the latter case the code does not end either, in any build and with any loop bound. -/
theorem C114_exclusive {a b : List Op} {op : Op} {ms : List Msg} {s : AState} {os : List Obs}
    (he : Exec C user AState.new a ms s os) :
    (NoRule C s op → ¬ ∃ ms' s' os', Exec C user AState.new (a ++ op :: b) ms' s' os') ∧
    ((∀ n, Keeps C user n s) →
      (¬ ∃ ms' s' os', Exec C user AState.new (a ++ .process :: b) ms' s' os') ∧
      (BenignUser user → ∀ B fuel, Arith B (recvBufferSize C) →
        (World.new C).run B user fuel (a ++ .process :: b) = .error .diverge)) := by
  have key : ∀ op', (∃ ms' s' os', Exec C user AState.new (a ++ op' :: b) ms' s' os') →
      ∃ ms1 s1 o, Step C user s op' ms1 s1 o := by
    rintro op' ⟨ms', s', os', h⟩
    obtain ⟨s1, ms1, ms2, os1, os2, h1, h2, -, -⟩ := Exec.append_iff.mp h
    obtain ⟨-, rfl, -⟩ := C114_deterministic he h1
    cases h2 with
    | cons hs _ => exact ⟨_, _, _, hs⟩
  have handled : (∀ n, Keeps C user n s) → s.handler.isSome := by
    intro hk
    cases hk 1 with
    | succ _ _ hh _ _ => simp [hh]
  have nokeep : ∀ {ms1 s1 o}, (∀ n, Keeps C user n s) → ¬ Step C user s .process ms1 s1 o := by
    intro ms1 s1 o hk hs
    have hh := handled hk
    cases hs with
    | idle hn => simp [hn] at hh
    | process _ hp => have := hp.keeps_le (hk (ms1.length + 1)); omega
    | thrown _ hp => have := hp.keeps_le (hk (ms1.length + 1)); omega
  refine ⟨fun hr h => ?_, fun hk => ⟨fun h => ?_, fun hu B fuel hB => ?_⟩⟩
  · obtain ⟨ms1, s1, o, hs⟩ := key op h
    cases hr with
    | append hr => cases hs with | append h => omega
    | receive hr => cases hs with | receive e h => subst e; exact hr h
  · obtain ⟨ms1, s1, o, hs⟩ := key .process h
    exact nokeep hk hs
  · exact exec_diverges hB.lt64 hu hB he (handled hk) hk _ (abs_new C)

/-- A message and the beginning of another one. -/
example : ∃ ms s, Exec Sample.basic Sample.passive AState.new
    [.setHandler Sample.h0, .append [7, 1, 0, 2, 3, 4, 1, 2], .process] ms s [.unit, .unit, .processed (.returned 1)] ∧
    s.buf = [1, 2] ∧ s.last = some 0 := by
  obtain ⟨w, os, h, hp⟩ := Sample.reached (C := Sample.basic) (B := Sample.dbg) (user := Sample.passive) (fuel := 50)
    (ops := [.setHandler Sample.h0, .append [7, 1, 0, 2, 3, 4, 1, 2], .process])
    (fun w os => os == [.unit, .unit, .processed (.returned 1)] && buffered w == [1, 2] &&
      w.rx.getLastMessageId == some 0) (by decide +kernel)
  simp only [Bool.and_eq_true, beq_iff_eq] at hp
  obtain ⟨⟨rfl, h1⟩, h2⟩ := hp
  obtain ⟨ms, s, he, hl⟩ := C114_sound Sample.setting_basic h
  exact ⟨ms, s, he, by rw [← hl.bytes, h1], by rw [← hl.last, h2]⟩

/-- Three calls of the machine are made by the code as well. -/
example : ∃ w : World Sample.checked,
    Reached Sample.dbg Sample.passive 1 [.append [5, 6], .setHandler Sample.h1, .clearHandler] w [.unit, .unit, .unit] ∧
      LooksLike w ⟨[5, 6], none, none, [], [5, 6]⟩ :=
  C114_complete Sample.setting_checked.arith Sample.setting_checked.benign (ms := [])
    (Exec.cons (ms := []) (.append (by decide)) (Exec.cons (ms := []) .setHandler (Exec.cons (ms := []) .clearHandler
      (Exec.nil _)))) (by decide)

/-- Nothing else can have happened. -/
example {ms : List Msg} {s : AState} {os : List Obs}
    (h : Exec Sample.checked Sample.passive AState.new [.append [5, 6], .setHandler Sample.h1] ms s os) :
    s.buf = [5, 6] ∧ s.handler = some Sample.h1 := by
  obtain ⟨-, rfl, -⟩ := C114_deterministic h
    (Exec.cons (ms := []) (.append (by decide)) (Exec.cons (ms := []) .setHandler (Exec.nil _)))
  exact ⟨rfl, rfl⟩

/-- Handlers that send the message `ping` to themselves. -/
def echoes : UserCode := fun _ free => ⟨if 5 ≤ free then [.append [1, 0, 2, 3, 4]] else [], false⟩

theorem echoes_benign : BenignUser echoes := by
  intro calls free
  unfold echoes Benign
  by_cases h : 5 ≤ free <;> simp [h, appended]

theorem echoes_keeps : ∀ (n : Nat) (s : AState), s.buf = [1, 0, 2, 3, 4] → s.handler = some Sample.h0 →
    Keeps Sample.basic echoes n s := by
  intro n
  induction n with
  | zero => intro s _ _; exact Keeps.zero s
  | succ n ih =>
    intro s hb hh
    have hre : reaction echoes s.trace (callOf Sample.basic Sample.h0 Sample.mPing)
        (capacity Sample.basic - (frame Sample.basic.envelope Sample.mPing ++ []).length) =
        ⟨[.append [1, 0, 2, 3, 4]], false⟩ := rfl
    refine Keeps.succ (m := Sample.mPing) (t := []) (h := Sample.h0) (by decide) ?_ hh ?_ (ih _ ?_ ?_)
    · rw [hb]; exact Run.refl _
    · simp only [afterCall, hre]
    · simp only [afterCall, hre]; rfl
    · simp only [afterCall, hre]; rfl

/-- They never come to an end. -/
example (fuel : Nat) (ops : List Op) : (World.new Sample.basic).run Sample.dbg echoes fuel
    ([.setHandler Sample.h0, .append [1, 0, 2, 3, 4]] ++ .process :: ops) = .error .diverge :=
  ((C114_exclusive (op := .process) (Exec.cons (ms := []) .setHandler (Exec.cons (ms := []) (.append (by decide))
    (Exec.nil _)))).2 fun n => echoes_keeps n _ rfl rfl).2 echoes_benign _ _ Sample.setting_basic.arith

/-- Appending 37 bytes to a buffer with room for 36. -/
example : ¬ ∃ ms s os, Exec Sample.basic Sample.passive AState.new [.setHandler Sample.h0, .append (List.replicate 37 0)]
    ms s os :=
  (C114_exclusive (a := [.setHandler Sample.h0]) (b := []) (Exec.cons (ms := []) .setHandler (Exec.nil _))).1
    (.append (by decide))

example (ops : List Op) := C114_total (C := Sample.basic) (by decide) echoes_benign ops

end TT.Properties
