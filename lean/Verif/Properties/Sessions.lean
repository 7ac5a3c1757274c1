import Verif.Properties.Samples
import Verif.Proofs.Deliver

/-!
# Concrete sessions used by the non-vacuity examples
-/

namespace TT.Sample
open Spec

variable {C : Collection}

instance (limit : Nat) (r : RB.DeviceReply) : Decidable (GoodReply limit r) := by
  unfold GoodReply; infer_instance

instance (w : World C) (op : Op) : Decidable (OpLegal w op) := by
  cases op <;> simp only [OpLegal] <;> infer_instance

/-- Run a history, checking that it is legal. -/
def session (B : Build) (user : UserCode) (fuel : Nat) :
    World C → List Op → Option (World C × List Obs)
  | w, [] => some (w, [])
  | w, op :: ops =>
    if OpLegal w op then
      match w.step B user fuel op with
      | .error _ => none
      | .ok (w', o) =>
        match session B user fuel w' ops with
        | none => none
        | some (w'', os) => some (w'', o :: os)
    else none

theorem session_ok {B : Build} {user : UserCode} {fuel : Nat} (ops : List Op) :
    ∀ {w w' : World C} {os : List Obs}, session B user fuel w ops = some (w', os) →
    Legal B user fuel w ops ∧ w.run B user fuel ops = .ok (w', os) := by
  induction ops with
  | nil =>
    intro w w' os h
    simp only [session, Option.some.injEq, Prod.mk.injEq] at h
    exact ⟨trivial, by simp [World.run, h.1, h.2]⟩
  | cons op ops ih =>
    intro w w' os h
    simp only [session] at h
    split at h
    · split at h
      · simp at h
      · rename_i hleg _ w1 o hs
        split at h
        · simp at h
        · rename_i w2 os2 hr
          simp only [Option.some.injEq, Prod.mk.injEq] at h
          obtain ⟨rfl, rfl⟩ := h
          obtain ⟨h1, h2⟩ := ih hr
          refine ⟨⟨hleg, fun w3 o3 e => ?_⟩, by simp [World.run, hs, h2]⟩
          rw [hs] at e
          simp only [Except.ok.injEq, Prod.mk.injEq] at e
          rw [← e.1]; exact h1
    · simp at h

/-- A session checked by computation is a reachable state. -/
theorem reached {B : Build} {user : UserCode} {fuel : Nat} {ops : List Op}
    (P : World C → List Obs → Bool)
    (h : (session B user fuel (World.new C) ops).any (fun r => P r.1 r.2) = true) :
    ∃ (w : World C) (os : List Obs), Reached B user fuel ops w os ∧ P w os = true := by
  cases hs : session B user fuel (World.new C) ops with
  | none => simp [hs] at h
  | some r =>
    obtain ⟨w, os⟩ := r
    simp only [hs, Option.any_some] at h
    obtain ⟨h1, h2⟩ := session_ok ops hs
    exact ⟨w, os, ⟨h1, h2⟩, h⟩

/-- A session followed by a `processMessages` call, checked by computation. -/
theorem processes {B : Build} {user : UserCode} {fuel : Nat} {ops : List Op} (out : Outcome)
    (P : World C → World C → Bool)
    (h : (session B user fuel (World.new C) ops).any (fun r =>
      match r.1.processMessages B user fuel with
      | .ok (w', o) => decide (o = out) && P r.1 w'
      | .error _ => false) = true) :
    ∃ (w w' : World C) (os : List Obs), Reached B user fuel ops w os ∧
      w.processMessages B user fuel = .ok (w', out) ∧ P w w' = true := by
  obtain ⟨w, os, h1, h2⟩ := reached (fun w _ =>
    match w.processMessages B user fuel with
      | .ok (w', o) => decide (o = out) && P w w'
      | .error _ => false) h
  cases e : w.processMessages B user fuel with
  | error f => simp [e] at h2
  | ok r =>
    obtain ⟨w', o⟩ := r
    simp only [e, Bool.and_eq_true, decide_eq_true_eq] at h2
    obtain ⟨rfl, h2⟩ := h2
    exact ⟨w, w', os, h1, e, h2⟩

theorem setting_basic : Setting basic dbg passive := ⟨⟨by decide, by decide⟩, passive_benign⟩
theorem setting_checked : Setting checked dbg passive := ⟨⟨by decide, by decide⟩, passive_benign⟩

/-- A message of each type, the payload of the last one full of control codes. -/
def mPing : Msg := ⟨0, []⟩
def mLevel : Msg := ⟨1, [0x2A]⟩
def mPose : Msg := ⟨2, [0x01, 0x01, 0x00, 0x02, 0x03, 0x03, 0x04]⟩

end TT.Sample
