import Verif.Proofs.History
import Verif.Proofs.Search

/-!
# Helper lemmas: from histories to delivered messages
-/

namespace TT
open Spec

variable {C : Collection} {B : Build} {user : UserCode} {fuel : Nat}

theorem Abs.buffered {w : World C} {s : AState} (h : Abs w s) : buffered w = s.buf := by
  obtain ⟨pre, post, hs, hp⟩ := h.buf.split
  have := h.buf.pe
  unfold TT.buffered
  rw [this, hs, ← hp]
  simp

theorem Abs.delivered {w : World C} {s : AState} (h : Abs w s) :
    delivered w = s.trace.map seen := by
  unfold TT.delivered
  rw [h.trace]

theorem Abs.unique {w : World C} {s s' : AState} (h : Abs w s) (h' : Abs w s') : s = s' := by
  have e1 : s.buf = s'.buf := by rw [← h.buffered, h'.buffered]
  have e2 : s.handler = s'.handler := by
    have a1 := h.invoker
    have a2 := h.functor
    rw [h'.invoker] at a1
    rw [h'.functor] at a2
    cases hs : s.handler with
    | none => cases hs1 : s'.handler with
      | none => rfl
      | some x => simp [hs, hs1] at a1
    | some y => cases hs1 : s'.handler with
      | none => simp [hs, hs1] at a1
      | some x =>
        simp [hs, hs1] at a1 a2
        cases x; cases y
        simp_all
  have e3 : s.last = s'.last := by rw [← h.last, h'.last]
  have e4 : s.trace = s'.trace := by rw [← h.trace, h'.trace]
  have e5 : s.fed = s'.fed := by rw [← h.fed, h'.fed]
  cases s; cases s'
  simp_all

theorem Reached.exec (S : Setting C B user) {ops : List Op} {w : World C} {os : List Obs}
    (h : Reached B user fuel ops w os) :
    ∃ s ms, Abs w s ∧ Exec C user AState.new ops ms s os :=
  run_exec S.arith.lt64 S.benign S.arith (abs_new C) h.legal h.run

theorem Legal.of_append {w : World C} {ops ops' : List Op}
    (h : Legal B user fuel w (ops ++ ops')) : Legal B user fuel w ops := by
  induction ops generalizing w with
  | nil => trivial
  | cons op ops ih => exact ⟨h.1, fun w' o e => ih (h.2 w' o e)⟩

theorem run_append {w w1 : World C} {ops ops' : List Op} {os : List Obs}
    (h : w.run B user fuel (ops ++ ops') = .ok (w1, os)) :
    ∃ w' os1 os2, w.run B user fuel ops = .ok (w', os1) ∧
      w'.run B user fuel ops' = .ok (w1, os2) ∧ os = os1 ++ os2 := by
  induction ops generalizing w os with
  | nil => exact ⟨w, [], os, rfl, h, rfl⟩
  | cons op ops ih =>
    simp only [List.cons_append, World.run] at h
    cases hs : w.step B user fuel op with
    | error e => simp [hs] at h
    | ok r =>
      obtain ⟨w2, o⟩ := r
      simp only [hs, ok_bind] at h
      cases hr : w2.run B user fuel (ops ++ ops') with
      | error e => simp [hr] at h
      | ok r2 =>
        obtain ⟨w3, os3⟩ := r2
        simp only [hr, ok_bind, pure_eq_ok, Except.ok.injEq, Prod.mk.injEq] at h
        obtain ⟨rfl, rfl⟩ := h
        obtain ⟨w', os1, os2, h1, h2, rfl⟩ := ih hr
        exact ⟨w', o :: os1, os2, by simp [World.run, hs, h1], h2, rfl⟩

theorem run_append_ok {w w' w1 : World C} {ops ops' : List Op} {os1 os2 : List Obs}
    (h1 : w.run B user fuel ops = .ok (w', os1)) (h2 : w'.run B user fuel ops' = .ok (w1, os2)) :
    w.run B user fuel (ops ++ ops') = .ok (w1, os1 ++ os2) := by
  induction ops generalizing w os1 with
  | nil =>
    simp only [World.run, Except.ok.injEq, Prod.mk.injEq] at h1
    obtain ⟨rfl, rfl⟩ := h1
    exact h2
  | cons op ops ih =>
    simp only [World.run] at h1
    cases hs : w.step B user fuel op with
    | error e => simp [hs] at h1
    | ok r =>
      obtain ⟨w2, o⟩ := r
      simp only [hs, ok_bind] at h1
      cases hr : w2.run B user fuel ops with
      | error e => simp [hr] at h1
      | ok r2 =>
        obtain ⟨w3, os3⟩ := r2
        simp only [hr, ok_bind, pure_eq_ok, Except.ok.injEq, Prod.mk.injEq] at h1
        obtain ⟨rfl, rfl⟩ := h1
        simp [World.run, hs, ih hr]

theorem Legal.append {w w' : World C} {ops ops' : List Op} {os1 : List Obs}
    (h : Legal B user fuel w ops) (h1 : w.run B user fuel ops = .ok (w', os1))
    (h' : Legal B user fuel w' ops') : Legal B user fuel w (ops ++ ops') := by
  induction ops generalizing w os1 with
  | nil =>
    simp only [World.run, Except.ok.injEq, Prod.mk.injEq] at h1
    obtain ⟨rfl, rfl⟩ := h1
    exact h'
  | cons op ops ih =>
    simp only [World.run] at h1
    refine ⟨h.1, fun w2 o e => ?_⟩
    simp only [e, ok_bind] at h1
    cases hr : w2.run B user fuel ops with
    | error e => simp [hr] at h1
    | ok r2 =>
      obtain ⟨w3, os3⟩ := r2
      simp only [hr, ok_bind, pure_eq_ok, Except.ok.injEq, Prod.mk.injEq] at h1
      obtain ⟨rfl, rfl⟩ := h1
      exact ih (h.2 w2 o e) hr

/-- A `processMessages` call continues a legal history. -/
theorem Reached.process {ops : List Op} {w w' : World C} {os : List Obs}
    {out : Outcome} (h : Reached B user fuel ops w os)
    (hp : w.processMessages B user fuel = .ok (w', out)) :
    Reached B user fuel (ops ++ [.process]) w' (os ++ [.processed out]) := by
  refine ⟨h.legal.append h.run ⟨trivial, fun _ _ _ => trivial⟩, run_append_ok h.run ?_⟩
  simp [World.run, World.step, hp]

theorem Legal.drop {ops' : List Op} (opsa : List Op) : ∀ {w w1 : World C} {osa : List Obs},
    Legal B user fuel w (opsa ++ ops') → w.run B user fuel opsa = .ok (w1, osa) →
    Legal B user fuel w1 ops' := by
  induction opsa with
  | nil =>
    intro w w1 osa hl hr
    simp only [World.run, Except.ok.injEq, Prod.mk.injEq] at hr
    rw [← hr.1]; exact hl
  | cons op opsa ih =>
    intro w w1 osa hl hr
    simp only [World.run] at hr
    cases hs : w.step B user fuel op with
    | error e => simp [hs] at hr
    | ok r =>
      obtain ⟨w2, o⟩ := r
      simp only [hs, ok_bind] at hr
      cases hs2 : w2.run B user fuel opsa with
      | error e => simp [hs2] at hr
      | ok r2 =>
        obtain ⟨w3, os3⟩ := r2
        simp only [hs2, ok_bind, pure_eq_ok, Except.ok.injEq, Prod.mk.injEq] at hr
        rw [← hr.1]
        exact ih (hl.2 _ _ hs) hs2

/-- What holds after a history that ends with a poll on a receiver with a handler. -/
theorem Reached.polled (S : Setting C B user) (hn : NeverThrows user) {ops : List Op}
    {w : World C} {os : List Obs} (h : Reached B user fuel (ops ++ [.process]) w os)
    (hh : w.rx.hasHandler = true) :
    ∃ ms, Decodes C w.fed ms (buffered w) ∧ delivered w = ms.map (meaning C) := by
  obtain ⟨s, ms, ha, he⟩ := h.exec S
  have hr := he.sound (D := []) (Run.refl _)
  obtain ⟨calls, hc1, hc2⟩ := he.calls hn
  simp only [AState.new, List.nil_append] at hc1 hr
  refine ⟨ms, ⟨?_, ?_⟩, ?_⟩
  · rw [ha.buffered, ha.fed]; exact hr
  · obtain ⟨s1, ms1, ms2, os1, os2, h1, h2, _, _⟩ := Exec.append_iff.mp he
    rw [ha.hasHandler] at hh
    rw [ha.buffered]
    cases h2 with
    | cons hs hnil =>
      cases hnil
      cases hs with
      | idle hno => simp [hno] at hh
      | process _ hp =>
        obtain ⟨_, _, _, _, _, _, _, _, _, h7, _⟩ := hp.sound
        exact (h7 rfl).1
      | thrown _ hp => have := hp.no_throw hn; simp at this
  · rw [ha.delivered, hc1, hc2]

/-- What holds after any history, polled or not. -/
theorem Reached.partly (S : Setting C B user) (hn : NeverThrows user) {ops : List Op}
    {w : World C} {os : List Obs} (h : Reached B user fuel ops w os) :
    ∃ ms, Run C w.fed ms (buffered w) ∧ delivered w = ms.map (meaning C) := by
  obtain ⟨s, ms, ha, he⟩ := h.exec S
  have hr := he.sound (D := []) (Run.refl _)
  obtain ⟨calls, hc1, hc2⟩ := he.calls hn
  simp only [AState.new, List.nil_append] at hc1 hr
  exact ⟨ms, by rw [ha.buffered, ha.fed]; exact hr, by rw [ha.delivered, hc1, hc2]⟩

end TT
