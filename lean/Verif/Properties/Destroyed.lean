import Verif.Properties.Lifetime
import Verif.Proofs.Destroyed

/-!
# Property about receivers destroyed by their own handlers: C103
-/

namespace TT.Properties
open Spec

variable {C : Collection} {B : Build} {user : UserCode} {fuel : Nat} {destroys : List UserCall → Bool}

/-! ### C103 -/

/-- One of these calls, all that were ever made, reached a handler that is to destroy the receiver. -/
def Destructive (destroys : List UserCall → Bool) (calls : List Invocation) : Prop :=
  ∃ before i after, calls = before ++ i :: after ∧ dispatch i ≠ none ∧
    destroys ((before ++ [i]).filterMap dispatch) = true

theorem runX_ok {w w1 : World C} {op : Op} {o : Obs} {ops : List Op}
    (h : w.stepX B user destroys fuel op = .ok (w1, o, false)) :
    w.runX B user destroys fuel (op :: ops) =
      (w1.runX B user destroys fuel ops >>= fun x => .ok (x.1, o :: x.2.1, x.2.2)) := by
  rw [World.runX, h]
  rfl

theorem runX_ub {w : World C} {op : Op} {ops : List Op}
    (h : w.stepX B user destroys fuel op = .error .ub) : w.runX B user destroys fuel (op :: ops) = .error .ub := by
  rw [World.runX, h]
  rfl

theorem runX_gone {w w1 : World C} {op : Op} {o : Obs}
    (h : w.stepX B user destroys fuel op = .ok (w1, o, true)) (ops : List Op) :
    w.runX B user destroys fuel (op :: ops) = if ops = [] then .ok (w1, [o], true) else .error .ub := by
  rw [World.runX, h]
  cases ops <;> rfl

theorem run_cons {w w' : World C} {op : Op} {ops : List Op} {os : List Obs}
    (h : w.run B user fuel (op :: ops) = .ok (w', os)) :
    ∃ w1 o os1, w.step B user fuel op = .ok (w1, o) ∧ w1.run B user fuel ops = .ok (w', os1) ∧ os = o :: os1 := by
  rw [World.run] at h
  cases hs : w.step B user fuel op with
  | error f => simp [hs] at h
  | ok x =>
    obtain ⟨w1, o⟩ := x
    simp only [hs, ok_bind] at h
    cases hr : w1.run B user fuel ops with
    | error f => simp [hr] at h
    | ok y =>
      obtain ⟨w2, os2⟩ := y
      simp [hr] at h
      exact ⟨w1, o, os2, rfl, by rw [hr, h.1], h.2.symm⟩

/-- Everything at once, from any state. -/
theorem runX_gen (ops : List Op) : ∀ {w w' : World C} {os : List Obs}, w.run B user fuel ops = .ok (w', os) →
    ∃ new, w'.trace = w.trace ++ new ∧
      ((w.runX B user destroys fuel ops = .ok (w', os, false) ∧
          (Orderly user → ¬ Destroying destroys w.trace new) ∧
          (Exactly user destroys → Obs.processed .threw ∉ os)) ∨
       (w.runX B user destroys fuel ops = .ok (w', os, true) ∧ os.getLast? = some (.processed .threw) ∧
          Destroying destroys w.trace new ∧ ¬ NeverThrows user) ∨
       (w.runX B user destroys fuel ops = .error .ub ∧ Destroying destroys w.trace new ∧
          (Throwing user destroys → Obs.processed .threw ∈ os ∧ ∃ pre op rest w1 os1, ops = pre ++ op :: rest ∧
            w.runX B user destroys fuel pre = .ok (w1, os1, true)))) := by
  induction ops with
  | nil =>
    intro w w' os h
    cases h
    exact ⟨[], by simp, Or.inl ⟨rfl, fun _ => not_destroying_nil, fun _ => by simp⟩⟩
  | cons op ops ih =>
    intro w w' os h
    obtain ⟨w1, o, os1, hs, hr, rfl⟩ := run_cons h
    obtain ⟨n1, e1, hx, hd⟩ := stepX_fate (destroys := destroys) hs
    obtain ⟨n2, e2, hrest⟩ := ih hr
    rw [e1] at e2 hrest
    refine ⟨n1 ++ n2, by rw [e2]; simp, ?_⟩
    rcases hd with ⟨d, c, g⟩ | ⟨d, ho, c⟩ | ⟨d, c, s⟩
    · rw [runX_ok d]
      rcases hrest with ⟨r, c2, g2⟩ | ⟨r, hl, c2, hnt⟩ | ⟨r, c2, hT⟩
      · refine Or.inl ⟨by rw [r]; rfl, fun hnt h => h.split.elim (c hnt) (c2 hnt), fun hE h => ?_⟩
        rcases List.mem_cons.mp h with h | h
        · exact g hE h.symm
        · exact g2 hE h
      · refine Or.inr (Or.inl ⟨by rw [r]; rfl, ?_, c2.right, hnt⟩)
        cases os1 with
        | nil => simp at hl
        | cons x os1 => simpa using hl
      · refine Or.inr (Or.inr ⟨by rw [r]; rfl, c2.right, fun ht => ?_⟩)
        obtain ⟨hm, pre, op', rest, w2, os2, e, hp⟩ := hT ht
        exact ⟨List.mem_cons_of_mem _ hm, op :: pre, op', rest, w2, o :: os2, by rw [e]; rfl, by rw [runX_ok d, hp]; rfl⟩
    · rw [runX_gone d]
      subst ho
      cases ops with
      | nil =>
        cases hr
        exact Or.inr (Or.inl ⟨rfl, rfl, c.left, fun hnt => hx hnt rfl⟩)
      | cons op2 ops =>
        exact Or.inr (Or.inr ⟨rfl, c.left, fun _ => ⟨List.mem_cons_self, [op], op2, ops, w1, _, rfl, runX_gone d []⟩⟩)
    · rw [runX_ub d]
      exact Or.inr (Or.inr ⟨rfl, c.left, fun h => absurd h s⟩)

theorem destructive_iff {t : List Invocation} : Destroying destroys [] t ↔ Destructive destroys t := by
  unfold Destroying Destructive
  simp

/-- C103. If no handler that was called is to destroy the receiver, everything is as usual. -/
theorem C103_unused {ops : List Op} {w : World C} {os : List Obs}
    (h : (World.new C).run B user fuel ops = .ok (w, os)) (hd : ¬ Destructive destroys w.trace) :
    (World.new C).runX B user destroys fuel ops = .ok (w, os, false) := by
  obtain ⟨new, e, hx⟩ := runX_gen (destroys := destroys) ops h
  have e' : w.trace = new := e
  have : ¬ Destroying destroys (World.new C).trace new := by rw [← e']; exact fun h => hd (destructive_iff.mp h)
  rcases hx with hx | ⟨_, _, c, _⟩ | ⟨_, c, _⟩
  · exact hx.1
  · exact absurd c this
  · exact absurd c this

/-- C103. With handlers that return, destroying the receiver in a handler is undefined, always; so a program whose
handlers return is free of undefined behaviour if and only if none of the handlers called destroys the receiver. -/
theorem C103_returns (hn : NeverThrows user) {ops : List Op} {w : World C} {os : List Obs}
    (h : (World.new C).run B user fuel ops = .ok (w, os)) :
    (¬ Destructive destroys w.trace ∧ (World.new C).runX B user destroys fuel ops = .ok (w, os, false)) ∨
    (Destructive destroys w.trace ∧ (World.new C).runX B user destroys fuel ops = .error .ub) := by
  obtain ⟨new, e, hx⟩ := runX_gen (destroys := destroys) ops h
  have e' : w.trace = new := e
  rw [← e'] at hx
  rcases hx with ⟨d, c, _⟩ | ⟨_, _, _, c⟩ | ⟨d, c, _⟩
  · exact Or.inl ⟨fun h => c (Or.inl hn) (destructive_iff.mpr h), d⟩
  · exact absurd hn c
  · exact Or.inr ⟨destructive_iff.mp c, d⟩

/-- C103. Whatever handlers do: if a history in which handlers may destroy the receiver is defined at all, then all
calls had the results they have otherwise, and if the receiver is gone, it went in the last call, which was left by
an exception. -/
theorem C103_defined {ops : List Op} {w w' : World C} {os os' : List Obs} {gone : Bool}
    (h : (World.new C).run B user fuel ops = .ok (w, os))
    (hx : (World.new C).runX B user destroys fuel ops = .ok (w', os', gone)) :
    w' = w ∧ os' = os ∧ (gone = true → os.getLast? = some (.processed .threw) ∧ Destructive destroys w.trace) := by
  obtain ⟨new, e, hd⟩ := runX_gen (destroys := destroys) ops h
  have e' : w.trace = new := e
  rw [← e'] at hd
  rcases hd with ⟨d, _⟩ | ⟨d, hl, c, _⟩ | ⟨d, _⟩
  · rw [d] at hx; cases hx; exact ⟨rfl, rfl, by simp⟩
  · rw [d] at hx; cases hx; exact ⟨rfl, rfl, fun _ => ⟨hl, destructive_iff.mp c⟩⟩
  · rw [d] at hx; cases hx

/-- C103. Handlers that throw when they have destroyed the receiver are fine: the history is defined, with the
results it has otherwise, unless the program goes on calling members of the receiver that is gone. -/
theorem C103_throws (hT : ∀ calls space, destroys calls = true → (user calls space).throws = true)
    {ops : List Op} {w : World C} {os : List Obs} (h : (World.new C).run B user fuel ops = .ok (w, os)) :
    (∃ gone, (World.new C).runX B user destroys fuel ops = .ok (w, os, gone)) ∨
    (∃ pre op rest w1 os1, ops = pre ++ op :: rest ∧
      (World.new C).runX B user destroys fuel pre = .ok (w1, os1, true) ∧
      (World.new C).runX B user destroys fuel ops = .error .ub) := by
  obtain ⟨new, e, hd⟩ := runX_gen (destroys := destroys) ops h
  rcases hd with ⟨d, _⟩ | ⟨d, _⟩ | ⟨d, _, hp⟩
  · exact Or.inl ⟨_, d⟩
  · exact Or.inl ⟨_, d⟩
  · obtain ⟨_, pre, op, rest, w1, os1, e, hr⟩ := hp hT
    exact Or.inr ⟨pre, op, rest, w1, os1, e, hr, d⟩

/-- C103. With handlers that do not call `processMessages` themselves, a receiver that was to be destroyed is gone. -/
theorem C103_gone (hp : ∀ calls space, Act.process ∉ (user calls space).acts)
    (hT : ∀ calls space, destroys calls = true → (user calls space).throws = true)
    {ops : List Op} {w : World C} {os : List Obs} (h : (World.new C).run B user fuel ops = .ok (w, os))
    (hd : Destructive destroys w.trace) :
    (World.new C).runX B user destroys fuel ops = .ok (w, os, true) ∨
    (∃ pre op rest w1 os1, ops = pre ++ op :: rest ∧
      (World.new C).runX B user destroys fuel pre = .ok (w1, os1, true) ∧
      (World.new C).runX B user destroys fuel ops = .error .ub) := by
  obtain ⟨new, e, hx⟩ := runX_gen (destroys := destroys) ops h
  have e' : w.trace = new := e
  rw [← e'] at hx
  rcases hx with ⟨_, c, _⟩ | ⟨d, _⟩ | ⟨d, _, hpre⟩
  · exact absurd (destructive_iff.mpr hd) (c (Or.inr hp))
  · exact Or.inl d
  · obtain ⟨_, pre, op, rest, w1, os1, e, hr⟩ := hpre hT
    exact Or.inr ⟨pre, op, rest, w1, os1, e, hr, d⟩

/-- C103. Nested calls change nothing: if handlers throw exactly when they destroy the receiver, then as soon as
a `processMessages` call was left by an exception the receiver is gone, whatever calls it was nested in. -/
theorem C103_nested (hE : ∀ calls space, (user calls space).throws = destroys calls)
    {ops : List Op} {w : World C} {os : List Obs} (h : (World.new C).run B user fuel ops = .ok (w, os)) :
    (Obs.processed .threw ∉ os → (World.new C).runX B user destroys fuel ops = .ok (w, os, false)) ∧
    (Obs.processed .threw ∈ os →
      (World.new C).runX B user destroys fuel ops = .ok (w, os, true) ∨
      ∃ pre op rest w1 os1, ops = pre ++ op :: rest ∧
        (World.new C).runX B user destroys fuel pre = .ok (w1, os1, true) ∧
        (World.new C).runX B user destroys fuel ops = .error .ub) := by
  have hT : Throwing user destroys := fun calls space h => by rw [hE]; exact h
  obtain ⟨new, e, hx⟩ := runX_gen (destroys := destroys) ops h
  rcases hx with ⟨d, _, g⟩ | ⟨d, hl, _⟩ | ⟨d, _, hpre⟩
  · exact ⟨fun _ => d, fun h => absurd h (g hE)⟩
  · exact ⟨fun h => absurd (List.mem_of_getLast? hl) h, fun _ => Or.inl d⟩
  · obtain ⟨hm, pre, op, rest, w1, os1, e, hr⟩ := hpre hT
    refine ⟨fun hno => absurd hm hno, fun _ => Or.inr ⟨pre, op, rest, w1, os1, e, hr, d⟩⟩

/-- C103. Every member call on a receiver that is gone is undefined. -/
theorem C103_after {pre : List Op} {w0 w1 : World C} {os1 : List Obs}
    (h : w0.runX B user destroys fuel pre = .ok (w1, os1, true)) (op : Op) (rest : List Op) :
    w0.runX B user destroys fuel (pre ++ op :: rest) = .error .ub := by
  induction pre generalizing w0 os1 with
  | nil => cases h
  | cons p pre ih =>
    rw [List.cons_append]
    cases hs : w0.stepX B user destroys fuel p with
    | error f => rw [World.runX, hs] at h; cases h
    | ok x =>
      obtain ⟨w2, o, gone⟩ := x
      cases gone with
      | true => rw [runX_gone hs, if_neg (by simp)]
      | false =>
        rw [runX_ok hs] at h ⊢
        cases hr : w2.runX B user destroys fuel pre with
        | error f => rw [hr] at h; cases h
        | ok y =>
          obtain ⟨w3, os3, g⟩ := y
          rw [hr] at h
          cases h
          rw [ih hr]
          rfl

/-! ### Examples -/

/-- The second call of a handler destroys the receiver. -/
def destroysSecond : List UserCall → Bool := fun calls => decide (calls.length = 2)

/-- User code that throws in its second call. -/
def throwsSecond : UserCode := fun calls _ => ⟨[], decide (calls.length = 2)⟩

/-- Two messages at once. -/
def goodbyeOps : List Op :=
  [.setHandler Sample.h0, .append (frame .basic Sample.mLevel ++ frame .basic Sample.mPing), .process]

example : (match (World.new Sample.basic).runX Sample.dbg Sample.passive destroysSecond 50 goodbyeOps with
    | .error .ub => true
    | _ => false) = true := by decide +kernel

example : ((World.new Sample.basic).runX Sample.dbg throwsSecond destroysSecond 50 goodbyeOps).toOption.map
    (fun r => (delivered r.1, r.2)) =
    some ([Sample.mLevel, Sample.mPing].map (meaning Sample.basic), [.unit, .unit, .processed .threw], true) := by
  decide +kernel

/-- One call more. -/
example : (match (World.new Sample.basic).runX Sample.dbg throwsSecond destroysSecond 50 (goodbyeOps ++ [.process]) with
    | .error .ub => true
    | _ => false) = true := by decide +kernel

example : ∀ calls space, destroysSecond calls = true → (throwsSecond calls space).throws = true := fun _ _ h => h

/-- User code whose first call starts a nested `processMessages`, and that throws in its second call. -/
def nestedGoodbye : UserCode := fun calls _ =>
  if calls.length = 1 then ⟨[.process], false⟩ else ⟨[], decide (calls.length = 2)⟩

example : ∀ calls space, (nestedGoodbye calls space).throws = destroysSecond calls := by
  intro calls space
  unfold nestedGoodbye destroysSecond
  split <;> simp_all

example : ((World.new Sample.basic).runX Sample.dbg nestedGoodbye destroysSecond 50
    [.setHandler Sample.h0, .append (frame .basic Sample.mLevel ++ frame .basic Sample.mPing), .process]).toOption.map
    (fun r => r.2) = some ([.unit, .unit, .processed .threw], true) := by
  decide +kernel

/-- The hypotheses of `C103_returns`, with a handler that destroys the receiver. -/
example : ∃ (w : World Sample.basic) (os : List Obs),
    (World.new Sample.basic).run Sample.dbg Sample.passive 50 goodbyeOps = .ok (w, os) ∧ Destructive destroysSecond w.trace := by
  obtain ⟨w, os, h, hp⟩ := Sample.reached (C := Sample.basic) (B := Sample.dbg)
    (user := Sample.passive) (fuel := 50) (ops := goodbyeOps)
    (fun w _ => match w.trace with
      | [a, b] => dispatch b != none && destroysSecond (([a] ++ [b]).filterMap dispatch)
      | _ => false) (by decide +kernel)
  refine ⟨w, os, h.run, ?_⟩
  split at hp
  · rename_i a b e
    simp only [Bool.and_eq_true, bne_iff_ne] at hp
    exact ⟨[a], b, [], e, hp.1, hp.2⟩
  · cases hp

end TT.Properties
