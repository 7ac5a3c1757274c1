import Verif.Proofs.Cost
import Verif.Properties.Depth

/-!
# The amount of work done by `processMessages`: C76

What is counted is said at the top of `Verif.Model.Cost`.
-/

namespace TT.Properties
open Spec Counted

variable {C : Collection} {B : Build} {user : UserCode} {fuel : Nat}

/-- The number of `processMessages` calls in a history. -/
def polls : List Op → Nat
  | [] => 0
  | .process :: ops => polls ops + 1
  | _ :: ops => polls ops

/-- A call that returns has searched once without removing a message, one that throws at most twice. -/
def unsuccessful : Outcome → Nat
  | .returned _ => 1
  | .threw => 2

/-- C76. Counting changes nothing: for every state, every user code (also one that faults or calls
`processMessages` from a handler) and every history, the counting history ends as the plain one does. -/
theorem C76_same (w : World C) (ops : List Op) :
    w.run B user fuel ops = ((w.runCounted B user fuel ops).run 0).map Prod.fst := by
  have h := run_erase B user fuel ops w
  cases hr : w.run B user fuel ops with
  | ok a =>
    obtain ⟨k, _, hk⟩ := h.1 a hr
    rw [hk 0]; rfl
  | error f => rw [h.2 f hr 0]; rfl

/-- C76. One `processMessages` call, in any state a legal history leads to: with `L` the length of the
longest message, the work is at most `L + 17` for each byte that the call removes from the buffer, plus
once `L + 17` (twice if a handler throws). -/
theorem C76_call (S : Setting C B user) {ops : List Op} {w w' : World C} {os : List Obs}
    (h : Reached B user fuel ops w os) {o : Outcome} {work : Nat}
    (hp : (w.processMessagesCounted B user fuel).run 0 = .ok ((w', o), work)) :
    ∃ removed, w.fed.length + (buffered w').length + removed = w'.fed.length + (buffered w).length ∧
      work ≤ (maxLen C + 17) * (removed + unsuccessful o) := by
  obtain ⟨s, ms, ha, _⟩ := h.exec S
  unfold World.processMessagesCounted at hp
  by_cases hh : w.rx.hasHandler = true
  · rw [hh] at hp
    simp only [Bool.not_true, Bool.false_eq_true, if_false] at hp
    have hs : s.handler.isSome := by rw [ha.hasHandler] at hh; exact hh
    have hl := loop_costs S.arith.lt64 S.arith S.benign fuel w s 0 ha hs
    cases hr : World.processLoop B user fuel w 0 with
    | error f => rw [hl.2 f hr 0] at hp; simp at hp
    | ok a =>
      obtain ⟨k, ⟨s', ha', hle, hk⟩, hrun⟩ := hl.1 a hr
      rw [hrun 0] at hp
      simp only [Except.ok.injEq, Prod.mk.injEq, Nat.zero_add] at hp
      obtain ⟨rfl, rfl⟩ := hp
      simp only at ha' hk
      rw [ha.buffered, ha'.buffered, ha.fed, ha'.fed]
      have hcons : s.fed.length + s'.buf.length ≤ s'.fed.length + s.buf.length := by
        rcases processMessages_spec S.arith.lt64 S.benign fuel ha hs with
          ⟨_, hd⟩ | ⟨w1, s1, ms1, th, e1, ha1, hpr, _⟩
        · have := hd B S.arith
          unfold World.processMessages at this
          rw [hh] at this
          simp only [Bool.not_true, Bool.false_eq_true, if_false] at this
          rw [this] at hr; simp at hr
        · have := e1 B S.arith
          unfold World.processMessages at this
          rw [hh] at this
          simp only [Bool.not_true, Bool.false_eq_true, if_false] at this
          rw [this] at hr
          simp only [Except.ok.injEq, Prod.mk.injEq] at hr
          obtain ⟨rfl, _⟩ := hr
          obtain ⟨app, _, _, hf, _, hrun', _⟩ := hpr.sound
          have hlen := hrun'.length_le
          have e3 : s1.buf.length = s'.buf.length := by
            have := ha1.buffered
            rw [ha'.buffered] at this
            rw [this]
          have e4 : s1.fed.length = s'.fed.length := by rw [← ha1.fed, ← ha'.fed]
          rw [hf] at e4
          simp only [List.length_append] at hlen e4
          omega
      obtain ⟨removed, hrem⟩ : ∃ r, s'.fed.length + s.buf.length = s.fed.length + s'.buf.length + r :=
        ⟨_, (Nat.add_sub_cancel' hcons).symm⟩
      refine ⟨removed, hrem.symm, ?_⟩
      rw [hrem, Nat.add_assoc (s.fed.length + s'.buf.length), Nat.mul_add _ (s.fed.length + s'.buf.length)]
        at hk
      cases o <;> simp only [unsuccessful] at hk ⊢ <;> omega
  · have hh' : w.rx.hasHandler = false := by simpa using hh
    rw [hh'] at hp
    simp only [Bool.not_false, if_true, run, call, Except.ok.injEq, Prod.mk.injEq] at hp
    obtain ⟨⟨rfl, rfl⟩, rfl⟩ := hp
    exact ⟨0, rfl, Nat.zero_le _⟩

theorem work_run (S : Setting C B user) (ops : List Op) : ∀ {w : World C} {s : AState}, Abs w s →
    Legal B user fuel w ops →
    Costs (w.runCounted B user fuel ops) (w.run B user fuel ops) (fun a k => ∃ s', Abs a.1 s' ∧
      k + (maxLen C + 17) * (s.fed.length + s'.buf.length) ≤
        (maxLen C + 17) * (s'.fed.length + s.buf.length + 2 * polls ops)) := by
  induction ops with
  | nil =>
    intro w s hw _
    exact costs_call _ _ (fun a ha => by cases ha; exact ⟨s, hw, by simp [polls]⟩)
  | cons op ops ih =>
    intro w s hw hl
    obtain ⟨hl1, hl2⟩ := hl
    unfold World.runCounted World.run
    refine Costs.bind (P := fun a k => ∃ s1, Abs a.1 s1 ∧
      k + (maxLen C + 17) * (s.fed.length + s1.buf.length) ≤
        (maxLen C + 17) * (s1.fed.length + s.buf.length + 2 * polls [op])) ?_ ?_
    · -- one call
      have other : ∀ {x : Res (World C × Obs)}, x = w.step B user fuel op →
          (∀ s1 ms o, Step C user s op ms s1 o →
            s.fed.length + s1.buf.length = s1.fed.length + s.buf.length) →
          op ≠ .process →
          Costs (call 0 x) x (fun a k => ∃ s1, Abs a.1 s1 ∧
            k + (maxLen C + 17) * (s.fed.length + s1.buf.length) ≤
              (maxLen C + 17) * (s1.fed.length + s.buf.length + 2 * polls [op])) := by
        intro x hx hlen hnp
        refine costs_call _ _ (fun a ha => ?_)
        rcases step_ok S.arith.lt64 S.benign fuel hw hl1 with ⟨_, e, _⟩ | ⟨w1, s1, ms1, o1, h1, ha1, hs1⟩
        · exact absurd e hnp
        · rw [hx, h1 B S.arith] at ha
          cases ha
          refine ⟨s1, ha1, ?_⟩
          rw [hlen s1 ms1 o1 hs1, Nat.zero_add]
          exact Nat.mul_le_mul_left _ (Nat.le_add_right _ _)
      cases op with
      | append xs =>
        refine other rfl (fun s1 ms o h => ?_) (by simp)
        cases h; simp; omega
      | receiveFrom a r =>
        refine other rfl (fun s1 ms o h => ?_) (by simp)
        cases h; simp; omega
      | setHandler h =>
        refine other rfl (fun s1 ms o h => ?_) (by simp)
        cases h; rfl
      | clearHandler =>
        refine other rfl (fun s1 ms o h => ?_) (by simp)
        cases h; rfl
      | copy =>
        refine other rfl (fun s1 ms o h => ?_) (by simp)
        cases h; rfl
      | process =>
        simp only [World.step]
        refine Costs.bind (P := fun a k => ∃ s1, Abs a.1 s1 ∧
          k + (maxLen C + 17) * (s.fed.length + s1.buf.length) ≤
            (maxLen C + 17) * (s1.fed.length + s.buf.length + 2)) ?_ ?_
        · unfold World.processMessagesCounted World.processMessages
          refine costs_ite (fun _ => costs_call _ _ (fun a ha => ?_)) (fun hh => ?_)
          · cases ha
            refine ⟨s, hw, ?_⟩
            rw [Nat.zero_add]
            exact Nat.mul_le_mul_left _ (Nat.le_add_right _ _)
          · have hs : s.handler.isSome := by
              rw [← hw.hasHandler]; simpa using hh
            refine (loop_costs S.arith.lt64 S.arith S.benign fuel w s 0 hw hs).mono
              (fun a k _ hP => ?_)
            obtain ⟨s', h1, _, h3⟩ := hP
            refine ⟨s', h1, Nat.le_trans h3 (Nat.mul_le_mul_left _ (Nat.add_le_add_left ?_ _))⟩
            split <;> omega
        · rintro ⟨w1, o⟩ k - ⟨s1, h1, h2⟩
          exact costs_call _ _ (fun a ha => by cases ha; exact ⟨s1, h1, by simpa [polls] using h2⟩)
    · rintro ⟨w1, o1⟩ k1 hstep ⟨s1, ha1, hk1⟩
      refine Costs.bind (ih ha1 (hl2 _ _ hstep)) ?_
      rintro ⟨w2, os⟩ k2 - ⟨s2, ha2, hk2⟩
      refine costs_call _ _ (fun a ha => ?_)
      cases ha
      refine ⟨s2, ha2, ?_⟩
      have hpolls : polls (op :: ops) = polls [op] + polls ops := by
        cases op <;> simp [polls] <;> omega
      rw [hpolls]
      have key : (maxLen C + 17) * (s2.fed.length + s.buf.length + 2 * (polls [op] + polls ops)) +
          (maxLen C + 17) * (s.fed.length + s1.buf.length) +
          (maxLen C + 17) * (s1.fed.length + s2.buf.length) =
          (maxLen C + 17) * (s1.fed.length + s.buf.length + 2 * polls [op]) +
          (maxLen C + 17) * (s2.fed.length + s1.buf.length + 2 * polls ops) +
          (maxLen C + 17) * (s.fed.length + s2.buf.length) := by
        simp only [← Nat.mul_add]
        congr 1
        omega
      omega

/-- C76. A whole history: however the bytes are cut into pieces and however often `processMessages` is
called, the total work is at most `L + 17` for each byte the receiver was given, plus twice `L + 17` for
each `processMessages` call. No input makes the work per byte grow with the length of the history. -/
theorem C76_history (S : Setting C B user) {ops : List Op} {w : World C} {os : List Obs}
    (h : Reached B user fuel ops w os) :
    ∃ work, ((World.new C).runCounted B user fuel ops).run 0 = .ok ((w, os), work) ∧
      work ≤ (maxLen C + 17) * (w.fed.length + 2 * polls ops) := by
  obtain ⟨k, ⟨s', ha', hk⟩, hrun⟩ := (work_run S ops (abs_new C) h.legal).1 _ h.run
  refine ⟨k, by rw [hrun 0, Nat.zero_add], ?_⟩
  simp only at ha' hk
  rw [ha'.fed]
  simp only [AState.new, List.length_nil, Nat.zero_add, Nat.add_zero] at hk
  exact Nat.le_trans (Nat.le_add_right _ _) hk

/-- C76. Polling is cheap: once a `processMessages` call has returned, a further call with nothing
received in between makes at most ten calls on the receive buffer, however long messages are and however
many bytes are waiting. -/
theorem C76_idle (S : Setting C B user) (hf : 0 < fuel) {ops : List Op} {w w1 : World C}
    {os : List Obs} (h : Reached B user fuel ops w os) (hh : w.rx.hasHandler = true) {n : UInt8}
    (hp : w.processMessages B user fuel = .ok (w1, .returned n)) :
    ∃ (w2 : World C) (work : Nat), work ≤ 10 ∧
      (w1.processMessagesCounted B user fuel).run 0 = .ok ((w2, .returned 0), work) := by
  obtain ⟨s, ms, ha, _⟩ := h.exec S
  rw [ha.hasHandler] at hh
  rcases processMessages_spec S.arith.lt64 S.benign fuel ha hh with
    ⟨_, hd⟩ | ⟨w1', s1, ms1, th, h1, ha1, hpr, hs1, _⟩
  · rw [hd B S.arith] at hp; simp at hp
  · rw [h1 B S.arith] at hp
    simp only [Except.ok.injEq, Prod.mk.injEq] at hp
    obtain ⟨rfl, hp⟩ := hp
    cases th with
    | true => simp at hp
    | false =>
      have hfin := proc_final hpr rfl
      have hh1 : w1'.rx.hasHandler = true := by rw [ha1.hasHandler]; exact hs1
      obtain ⟨fuel, rfl⟩ : ∃ f, fuel = f + 1 := ⟨fuel - 1, by omega⟩
      obtain ⟨e1, found, ys, hck, _, _, hr1, _, ht1, hf1⟩ := check_spec S.arith.lt64 ha1.buf
      have hnf : found = false := by
        cases found with
        | false => rfl
        | true =>
          obtain ⟨m, t, hm, rfl, _⟩ := ht1 rfl
          exact (Decodes.no_first hm ⟨Run.refl _, hfin⟩ hr1).elim
      subst hnf
      have hcost := check_costs_final S.arith.lt64 B ha1.buf hfin
      rw [← checkDepth_eq] at hcost
      obtain ⟨k, hk, hrun⟩ := hcost.1 _ (hck B)
      refine ⟨{ w1' with rx := { w1'.rx with recv := e1 } }, k, hk, ?_⟩
      unfold World.processMessagesCounted
      rw [hh1]
      simp only [Bool.not_true, Bool.false_eq_true, if_false]
      unfold World.processLoopCounted
      rw [run_bind, hrun 0]
      simp [Counted.run, call]

/-- A state in which the hypotheses of C76_idle and C76_call hold, ten bytes waiting afterwards. -/
example : ∃ (w w1 : World Sample.basic) (os : List Obs),
    Reached Sample.dbg Sample.passive 9
      [.setHandler ⟨.functor, 1⟩, .append (frame .basic Sample.mPing ++
        (frame .basic Sample.mPose).take 10)] w os ∧
    w.processMessages Sample.dbg Sample.passive 9 = .ok (w1, .returned 1) ∧
    (w.rx.hasHandler && (buffered w1).length == 10 &&
      (((w1.processMessagesCounted Sample.dbg Sample.passive 9).run 0).map Prod.snd == .ok 10)) =
      true :=
  Sample.processes (.returned 1) (fun w w1 => w.rx.hasHandler && (buffered w1).length == 10 &&
      (((w1.processMessagesCounted Sample.dbg Sample.passive 9).run 0).map Prod.snd == .ok 10))
    (by decide +kernel)

/-- The work of a history, evaluated: three messages in five pieces, with junk. -/
example : (((World.new Sample.checked).runCounted Sample.dbg Sample.passive 9
    [.setHandler Sample.h0, .append [0x01, 0x07, 0x01], .process,
     .append (frame .basicChecksum Sample.mPose), .process, .process,
     .append (frame .basicChecksum Sample.mPing ++ frame .basicChecksum Sample.mLevel), .process]).run
    0).map (fun a => (a.1.1.trace.length, a.2)) = .ok (3, 199) := by decide +kernel

end TT.Properties
