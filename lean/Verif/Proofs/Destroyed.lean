import Verif.Model.Destroyed
import Verif.Proofs.Lifetime

/-!
# Helper lemmas: receivers destroyed by their handlers
-/

namespace TT
open Spec

variable {C : Collection} {B : Build} {user : UserCode} {destroys : List UserCall → Bool}

/-- One of the calls `new`, made after the calls `t`, reaches a handler that destroys the receiver. -/
def Destroying (destroys : List UserCall → Bool) (t new : List Invocation) : Prop :=
  ∃ a i b, new = a ++ i :: b ∧ dispatch i ≠ none ∧ destroys ((t ++ a ++ [i]).filterMap dispatch) = true

/-- A handler that destroys the receiver throws. -/
def Throwing (user : UserCode) (destroys : List UserCall → Bool) : Prop :=
  ∀ calls space, destroys calls = true → (user calls space).throws = true

theorem Destroying.left {t x y : List Invocation} (h : Destroying destroys t x) : Destroying destroys t (x ++ y) := by
  obtain ⟨a, i, b, e, h⟩ := h
  exact ⟨a, i, b ++ y, by rw [e]; simp, h⟩

theorem Destroying.right {t x y : List Invocation} (h : Destroying destroys (t ++ x) y) : Destroying destroys t (x ++ y) := by
  obtain ⟨a, i, b, e, h⟩ := h
  exact ⟨x ++ a, i, b, by rw [e]; simp, by rw [← List.append_assoc t x a]; exact h⟩

theorem Destroying.split {t x y : List Invocation} (h : Destroying destroys t (x ++ y)) :
    Destroying destroys t x ∨ Destroying destroys (t ++ x) y := by
  obtain ⟨a, i, b, e, h⟩ := h
  rcases List.append_eq_append_iff.mp e with ⟨c, e1, e2⟩ | ⟨c, e1, e2⟩
  · exact Or.inr ⟨c, i, b, e2, by rw [e1, ← List.append_assoc] at h; exact h⟩
  · cases c with
    | nil =>
      simp only [List.append_nil, List.nil_append] at e1 e2
      exact Or.inr ⟨[], i, b, e2.symm, by rw [List.append_nil, e1]; exact h⟩
    | cons j c =>
      simp only [List.cons_append, List.cons.injEq] at e2
      obtain ⟨rfl, e2⟩ := e2
      exact Or.inl ⟨a, i, c, e1, h⟩

theorem not_destroying_nil {t : List Invocation} : ¬ Destroying destroys t [] := by
  rintro ⟨a, i, b, e, _⟩; simp at e

/-- Handlers never throw, or never call `processMessages`. -/
def Orderly (user : UserCode) : Prop :=
  NeverThrows user ∨ ∀ calls space, Act.process ∉ (user calls space).acts

/-- A handler destroys the receiver exactly if it throws. -/
def Exactly (user : UserCode) (destroys : List UserCall → Bool) : Prop :=
  ∀ calls space, (user calls space).throws = destroys calls

/-- What is known of a variant `d` of a computation that ended in `w'` with `a`; `exc`: with an exception. -/
def Fate {α : Type} (user : UserCode) (destroys : List UserCall → Bool) (w w' : World C) (a : α) (exc : Prop)
    (d : Res (World C × α × Bool)) : Prop :=
  ∃ new, w'.trace = w.trace ++ new ∧ (NeverThrows user → ¬ exc) ∧
    ((d = .ok (w', a, false) ∧ (Orderly user → ¬ Destroying destroys w.trace new) ∧ (Exactly user destroys → ¬ exc)) ∨
     (d = .ok (w', a, true) ∧ exc ∧ Destroying destroys w.trace new) ∨
     (d = .error .ub ∧ Destroying destroys w.trace new ∧ ¬ Throwing user destroys))

theorem Fate.same {α : Type} {w w' : World C} {a : α} {exc : Prop} (h : w'.trace = w.trace)
    (hx : ¬ exc) : Fate user destroys w w' a exc (.ok (w', a, false)) :=
  ⟨[], by simp [h], fun _ => hx, Or.inl ⟨rfl, fun _ => not_destroying_nil, fun _ => hx⟩⟩

theorem Fate.of_trace {α : Type} {w w1 w' : World C} {a : α} {exc : Prop} {d : Res (World C × α × Bool)}
    (h : Fate user destroys w1 w' a exc d) (e : w1.trace = w.trace) : Fate user destroys w w' a exc d := by
  unfold Fate at h ⊢
  rw [← e]
  exact h

/-- First part done without an exception, then the second. -/
theorem Fate.bind {α β : Type} {w w1 w2 : World C} {a : α} {b : β} {exc1 exc2 : Prop}
    {d : Res (World C × α × Bool)} {k : World C × α × Bool → Res (World C × β × Bool)}
    (h1 : Fate user destroys w w1 a exc1 d) (hn : ¬ exc1)
    (h2 : Fate user destroys w1 w2 b exc2 (k (w1, a, false))) : Fate user destroys w w2 b exc2 (d >>= k) := by
  obtain ⟨n1, e1, _, h1⟩ := h1
  obtain ⟨n2, e2, x2, h2⟩ := h2
  rw [e1] at e2 h2
  refine ⟨n1 ++ n2, by rw [e2]; simp, x2, ?_⟩
  rcases h1 with ⟨d1, c1, _⟩ | ⟨_, hx, _⟩ | ⟨d1, c1, s1⟩
  · rw [d1]
    rcases h2 with ⟨d2, c2, g2⟩ | ⟨d2, hx, c2⟩ | ⟨d2, c2, s2⟩
    · exact Or.inl ⟨d2, fun hnt h => h.split.elim (c1 hnt) (c2 hnt), g2⟩
    · exact Or.inr (Or.inl ⟨d2, hx, c2.right⟩)
    · exact Or.inr (Or.inr ⟨d2, c2.right, s2⟩)
  · exact absurd hx hn
  · exact Or.inr (Or.inr ⟨by rw [d1]; rfl, c1.left, s1⟩)

theorem runActs_plain {n1 : World C → Res (World C × Outcome)} {acts : List Act} :
    ∀ {w w' : World C} {t : Bool}, Act.process ∉ acts → World.runActs B n1 w acts = .ok (w', t) → t = false := by
  induction acts with
  | nil => intro w w' t _ h; cases h; rfl
  | cons a acts ih =>
    intro w w' t hp h
    have hp' : Act.process ∉ acts := fun h => hp (List.mem_cons_of_mem _ h)
    cases a with
    | append xs =>
      unfold World.runActs at h
      cases ha : w.append B xs with
      | error f => simp [ha] at h
      | ok w1 => simp only [ha, ok_bind] at h; exact ih hp' h
    | setHandler _ => unfold World.runActs at h; exact ih hp' h
    | clearHandler => unfold World.runActs at h; exact ih hp' h
    | process => exact absurd List.mem_cons_self hp

theorem runActsX_fate {n1 : World C → Res (World C × Outcome)} {n2 : World C → Res (World C × Outcome × Bool)}
    (hnest : ∀ w w' o, n1 w = .ok (w', o) → Fate user destroys w w' o (o = .threw) (n2 w)) (acts : List Act) :
    ∀ {w w' : World C} {t : Bool}, World.runActs B n1 w acts = .ok (w', t) →
    Fate user destroys w w' t (t = true) (World.runActsX B n2 w acts) := by
  induction acts with
  | nil => intro w w' t h; cases h; exact Fate.same rfl (by simp)
  | cons a acts ih =>
    intro w w' t h
    cases a with
    | append xs =>
      unfold World.runActs at h
      unfold World.runActsX
      cases ha : w.append B xs with
      | error f => simp [ha] at h
      | ok w1 =>
        simp only [ha, ok_bind] at h ⊢
        exact (ih h).of_trace (append_trace ha)
    | setHandler _ => unfold World.runActs at h; unfold World.runActsX; exact (ih h).of_trace rfl
    | clearHandler => unfold World.runActs at h; unfold World.runActsX; exact (ih h).of_trace rfl
    | process =>
      unfold World.runActs at h
      unfold World.runActsX
      cases ha : n1 w with
      | error f => simp [ha] at h
      | ok x =>
        obtain ⟨w1, o⟩ := x
        simp only [ha, ok_bind] at h
        cases o with
        | returned k => exact (hnest _ _ _ ha).bind (by simp) (ih h)
        | threw =>
          cases h
          obtain ⟨new, e, hx, hd⟩ := hnest _ _ _ ha
          refine ⟨new, e, fun h => absurd rfl (hx h), ?_⟩
          rcases hd with ⟨d, c, g⟩ | ⟨d, _, c⟩ | ⟨d, c⟩
          · exact Or.inl ⟨by rw [d]; rfl, c, fun h => absurd rfl (g h)⟩
          · exact Or.inr (Or.inl ⟨by rw [d]; rfl, rfl, c⟩)
          · exact Or.inr (Or.inr ⟨by rw [d]; rfl, c⟩)

/-- As `Fate`, for a handler call: the receiver may be gone when the handler returns. -/
def CallFate (user : UserCode) (destroys : List UserCall → Bool) (w w' : World C) (t : Bool)
    (d : Res (World C × Bool × Bool)) : Prop :=
  Fate user destroys w w' t (t = true) d ∨
    ∃ new, w'.trace = w.trace ++ new ∧ t = false ∧ d = .ok (w', false, true) ∧ Destroying destroys w.trace new ∧
      ¬ Throwing user destroys

theorem callHandlerX_fate {n1 : World C → Res (World C × Outcome)} {n2 : World C → Res (World C × Outcome × Bool)}
    (hnest : ∀ w w' o, n1 w = .ok (w', o) → Fate user destroys w w' o (o = .threw) (n2 w))
    {w w' : World C} {i : Invocation} {t : Bool} (h : w.callHandler B user n1 i = .ok (w', t)) :
    CallFate user destroys w w' t (w.callHandlerX B user destroys n2 i) := by
  unfold World.callHandler at h
  unfold World.callHandlerX
  simp only at h ⊢
  cases hdi : dispatch i with
  | none =>
    rw [hdi] at h
    cases h
    refine Or.inl ⟨[i], rfl, by simp, Or.inl ⟨rfl, ?_, by simp⟩⟩
    rintro _ ⟨a, j, b, e, hd, _⟩
    cases a with
    | nil =>
      simp only [List.nil_append, List.cons.injEq] at e
      obtain ⟨rfl, _⟩ := e
      exact hd hdi
    | cons _ _ => simp at e
  | some c =>
    rw [hdi] at h
    simp only at h ⊢
    generalize hr : user ({ w with trace := w.trace ++ [i] } : World C).userCalls
      w.rx.getBufferAvailableSpace = reaction at h ⊢
    cases hra : World.runActs B n1 ({ w with trace := w.trace ++ [i] } : World C) reaction.acts with
    | error f => rw [hra] at h; cases h
    | ok y =>
      obtain ⟨w1, t1⟩ := y
      rw [hra] at h
      cases h
      obtain ⟨new, e, hx, hd⟩ := runActsX_fate hnest _ hra
      simp only at e hd
      have etr : w1.trace = w.trace ++ (i :: new) := by rw [e]; simp
      have hi : destroys ({ w with trace := w.trace ++ [i] } : World C).userCalls = true →
          Destroying destroys w.trace (i :: new) := fun h =>
        ⟨[], i, new, rfl, by rw [hdi]; simp, by rw [List.append_nil]; exact h⟩
      have hnew : Destroying destroys (w.trace ++ [i]) new → Destroying destroys w.trace (i :: new) :=
        fun h => Destroying.right (x := [i]) h
      have hno : Destroying destroys w.trace (i :: new) →
          destroys ({ w with trace := w.trace ++ [i] } : World C).userCalls = true ∨
            Destroying destroys (w.trace ++ [i]) new := by
        intro h
        rcases Destroying.split (x := [i]) h with ⟨a, j, b, e, hh⟩ | h
        · cases a with
          | nil =>
            simp only [List.nil_append, List.cons.injEq] at e
            obtain ⟨rfl, _⟩ := e
            rw [List.append_nil] at hh
            exact Or.inl hh.2
          | cons _ _ => simp at e
        · exact Or.inr h
      cases t1 with
      | true =>
        refine Or.inl ⟨i :: new, etr, fun h => absurd rfl (hx h), ?_⟩
        rcases hd with ⟨d, _, g⟩ | ⟨d, _, c⟩ | ⟨d, c, s⟩
        · refine Or.inl ⟨by rw [d]; rfl, fun h => ?_, fun h => absurd rfl (g h)⟩
          rcases h with h | h
          · exact absurd rfl (hx h)
          · exact absurd (runActs_plain (by rw [← hr]; exact h _ _) hra) (by simp)
        · exact Or.inr (Or.inl ⟨by rw [d]; rfl, rfl, hnew c⟩)
        · exact Or.inr (Or.inr ⟨by rw [d]; rfl, hnew c, s⟩)
      | false =>
        have hxt : NeverThrows user → ¬ ((false || reaction.throws) = true) := by
          intro hnt
          rw [← hr, hnt]
          simp
        rcases hd with ⟨d, c, _⟩ | ⟨_, hf, _⟩ | ⟨d, c, s⟩
        · rw [d]
          cases hde : destroys ({ w with trace := w.trace ++ [i] } : World C).userCalls with
          | false =>
            refine Or.inl ⟨i :: new, etr, hxt, Or.inl ⟨rfl, fun hnt h => ?_, fun hE h => ?_⟩⟩
            · rcases hno h with h | h
              · rw [hde] at h; cases h
              · exact c hnt h
            · have := hE ({ w with trace := w.trace ++ [i] } : World C).userCalls w.rx.getBufferAvailableSpace
              rw [hr, hde] at this
              simp [this] at h
          | true =>
            cases hth : reaction.throws with
            | true =>
              exact Or.inl ⟨i :: new, etr, fun hnt => by have := hxt hnt; rw [hth] at this; exact absurd rfl this, Or.inr (Or.inl ⟨rfl, rfl, hi hde⟩)⟩
            | false =>
              refine Or.inr ⟨i :: new, etr, rfl, rfl, hi hde, fun hT => ?_⟩
              have := hT _ w.rx.getBufferAvailableSpace hde
              rw [hr, hth] at this
              cases this
        · cases hf
        · exact Or.inl ⟨i :: new, etr, hxt, Or.inr (Or.inr ⟨by rw [d]; rfl, hnew c, s⟩)⟩

/-- What follows the handler call in the loop. -/
theorem CallFate.tail {w w1 w' : World C} {th : Bool} {o : Outcome} {X : Res (World C × Bool × Bool)}
    {k : World C × Bool × Bool → Res (World C × Outcome × Bool)} (hcf : CallFate user destroys w w1 th X)
    (ht : th = true → (∀ g, k (w1, true, g) = .ok (w1, .threw, g)) ∧ w' = w1 ∧ o = .threw)
    (hf : th = false → k (w1, false, true) = .error .ub ∧
      Fate user destroys w1 w' o (o = .threw) (k (w1, false, false))) :
    Fate user destroys w w' o (o = .threw) (X >>= k) := by
  cases th with
  | true =>
    obtain ⟨hk, rfl, rfl⟩ := ht rfl
    rcases hcf with ⟨new, et, hx, hd⟩ | ⟨_, _, hf, _⟩
    · refine ⟨new, et, fun h => absurd rfl (hx h), ?_⟩
      rcases hd with ⟨d, c, g⟩ | ⟨d, _, c⟩ | ⟨d, c⟩
      · exact Or.inl ⟨by rw [d]; exact hk _, c, fun h => absurd rfl (g h)⟩
      · exact Or.inr (Or.inl ⟨by rw [d]; exact hk _, rfl, c⟩)
      · exact Or.inr (Or.inr ⟨by rw [d]; rfl, c⟩)
    · cases hf
  | false =>
    obtain ⟨hk, h2⟩ := hf rfl
    rcases hcf with hcf | ⟨new, et, _, hd, hD, hT⟩
    · exact hcf.bind (by simp) h2
    · obtain ⟨new2, et2, hx2, _⟩ := h2
      exact ⟨new ++ new2, by rw [et2, et]; simp, hx2, Or.inr (Or.inr ⟨by rw [hd]; exact hk, hD.left, hT⟩)⟩

theorem processLoopX_fate (fuel : Nat) : ∀ {w w' : World C} {n : Byte} {o : Outcome},
    World.processLoop B user fuel w n = .ok (w', o) →
    Fate user destroys w w' o (o = .threw) (World.processLoopX B user destroys fuel w n) := by
  induction fuel with
  | zero => intro w w' n o h; cases h
  | succ fuel ih =>
    intro w w' n o h
    unfold World.processLoop at h
    unfold World.processLoopX
    cases hc : w.rx.recv.checkBufferForMessage B with
    | error f => simp [hc] at h
    | ok x =>
      obtain ⟨e, found⟩ := x
      cases found with
      | false =>
        simp only [hc, ok_bind, Bool.not_false, if_true, pure_eq_ok, Except.ok.injEq, Prod.mk.injEq] at h ⊢
        obtain ⟨rfl, rfl⟩ := h
        exact Fate.same rfl (by simp)
      | true =>
        simp only [hc, ok_bind, Bool.not_true, Bool.false_eq_true, if_false] at h ⊢
        cases hg : e.getCurrentMessageId B with
        | error f => simp [hg] at h
        | ok id =>
          simp only [hg, ok_bind] at h ⊢
          cases hi : ({ w.rx with recv := e, lastMessageId := some id } : Receiver C).invoke id with
          | error f => simp [hi] at h
          | ok i =>
            simp only [hi, ok_bind] at h ⊢
            have hnest : ∀ (w w' : World C) (o : Outcome),
                (if !w.rx.hasHandler then (.ok (w, .returned 0) : Res (World C × Outcome))
                  else World.processLoop B user fuel w 0) = .ok (w', o) →
                Fate user destroys w w' o (o = .threw)
                  (if !w.rx.hasHandler then (.ok (w, .returned 0, false) : Res (World C × Outcome × Bool))
                    else World.processLoopX B user destroys fuel w 0) := by
              intro w w' o h
              split
              · rename_i hb; rw [if_pos hb] at h; cases h; exact Fate.same rfl (by simp)
              · rename_i hb; rw [if_neg hb] at h; exact ih h
            have hsplit : ∀ (a : Res (World C × Bool)) (k : World C × Bool → Res (World C × Outcome)),
                a >>= k = .ok (w', o) → ∃ x, a = .ok x ∧ k x = .ok (w', o) := by
              intro a k hk
              cases a with
              | error f => cases hk
              | ok x => exact ⟨x, rfl, hk⟩
            obtain ⟨⟨w1, th⟩, hcall, hrest⟩ := hsplit _ _ h
            refine CallFate.tail (w1 := w1) (th := th) ?_ ?_ ?_
            · cases i with
              | none => cases hcall; exact Or.inl (Fate.same rfl (by simp))
              | some i => exact callHandlerX_fate (w := { w with rx := { w.rx with recv := e, lastMessageId := some id } }) hnest hcall
            · rintro rfl
              cases hrest
              exact ⟨fun g => rfl, rfl, rfl⟩
            · rintro rfl
              refine ⟨rfl, ?_⟩
              simp only [Bool.false_eq_true, if_false] at hrest ⊢
              cases hp : w1.rx.recv.popMessage B with
              | error f => simp [hp] at hrest
              | ok e2 =>
                simp only [hp, ok_bind] at hrest ⊢
                exact (ih hrest).of_trace rfl

theorem step_trace {fuel : Nat} {w w' : World C} {op : Op} {o : Obs} (h : w.step B user fuel op = .ok (w', o)) :
    ∃ new, w'.trace = w.trace ++ new := by
  obtain ⟨new, e, _⟩ := stepD_guarded (kills := fun _ => []) (dead := []) h
  exact ⟨new, e⟩

theorem stepX_fate {fuel : Nat} {w w' : World C} {op : Op} {o : Obs} (h : w.step B user fuel op = .ok (w', o)) :
    Fate user destroys w w' o (o = .processed .threw) (w.stepX B user destroys fuel op) := by
  cases op with
  | process =>
    simp only [World.step, World.processMessages] at h
    simp only [World.stepX, World.processMessagesX]
    cases hb : w.rx.hasHandler with
    | false =>
      simp only [hb, Bool.not_false, if_true, ok_bind, pure_eq_ok, Except.ok.injEq, Prod.mk.injEq] at h ⊢
      obtain ⟨rfl, rfl⟩ := h
      exact Fate.same rfl (by simp)
    | true =>
      simp only [hb, Bool.not_true, Bool.false_eq_true, if_false] at h ⊢
      cases hl : World.processLoop B user fuel w 0 with
      | error f => simp [hl] at h
      | ok y =>
        obtain ⟨w1, o1⟩ := y
        rw [hl] at h
        cases h
        obtain ⟨new, e, hx, hd⟩ := processLoopX_fate (destroys := destroys) fuel hl
        refine ⟨new, e, fun hnt hh => hx hnt (by injection hh), ?_⟩
        rcases hd with ⟨d, c, g⟩ | ⟨d, rfl, c⟩ | ⟨d, c⟩
        · exact Or.inl ⟨by rw [d]; rfl, c, fun h hh => g h (by injection hh)⟩
        · exact Or.inr (Or.inl ⟨by rw [d]; rfl, rfl, c⟩)
        · exact Or.inr (Or.inr ⟨by rw [d]; rfl, c⟩)
  | append xs =>
    have ht : w'.trace = w.trace := by
      simp only [World.step] at h
      cases ha : w.append B xs with
      | error f => simp [ha] at h
      | ok w1 => simp [ha] at h; rw [← h.1]; exact append_trace ha
    have ho : o = .unit := by
      simp only [World.step] at h
      cases ha : w.append B xs with
      | error f => simp [ha] at h
      | ok w1 => simp [ha] at h; exact h.2.symm
    simp only [World.stepX, h]
    exact Fate.same ht (by rw [ho]; simp)
  | receiveFrom a r =>
    have ht : w'.trace = w.trace := by
      simp only [World.step] at h
      cases ha : w.rx.receiveFrom B { numAvailable := a, receive := r } with
      | error f => simp [ha] at h
      | ok w1 => simp [ha] at h; rw [← h.1]
    have ho : ∃ n, o = .count n := by
      simp only [World.step] at h
      cases ha : w.rx.receiveFrom B { numAvailable := a, receive := r } with
      | error f => simp [ha] at h
      | ok w1 => simp [ha] at h; exact ⟨_, h.2.symm⟩
    simp only [World.stepX, h]
    exact Fate.same ht (by rw [ho.choose_spec]; simp)
  | setHandler _ =>
    have ht : w'.trace = w.trace := by simp [World.step] at h; rw [← h.1]
    have ho : o = .unit := by simp [World.step] at h; exact h.2.symm
    simp only [World.stepX, h]
    exact Fate.same ht (by rw [ho]; simp)
  | clearHandler =>
    have ht : w'.trace = w.trace := by simp [World.step] at h; rw [← h.1]
    have ho : o = .unit := by simp [World.step] at h; exact h.2.symm
    simp only [World.stepX, h]
    exact Fate.same ht (by rw [ho]; simp)
  | copy =>
    have ht : w'.trace = w.trace := by
      simp only [World.step] at h
      cases ha : w.rx.copyConstruct with
      | error f => simp [ha] at h
      | ok w1 => simp [ha] at h; rw [← h.1]
    have ho : o = .unit := by
      simp only [World.step] at h
      cases ha : w.rx.copyConstruct with
      | error f => simp [ha] at h
      | ok w1 => simp [ha] at h; exact h.2.symm
    simp only [World.stepX, h]
    exact Fate.same ht (by rw [ho]; simp)

end TT
