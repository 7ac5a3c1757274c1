import Verif.Spec.Lifetime
import Verif.Proofs.History

/-!
# Helper lemmas: calls on destroyed objects
-/

namespace TT
open Spec

variable {C : Collection} {B : Build} {user : UserCode} {kills : List Invocation → List Nat}
  {dead : List Nat}

/-- None of the calls `new`, made after the calls `t`, is on a dead object. -/
def Alive (kills : List Invocation → List Nat) (dead : List Nat) (t new : List Invocation) : Prop :=
  ∀ a i b, new = a ++ i :: b → i.handler.obj ∉ dead ∧ i.handler.obj ∉ kills (t ++ a)

theorem Alive.nil (t : List Invocation) : Alive kills dead t [] := by
  intro a i b h; simp at h

theorem alive_append {t x y : List Invocation} :
    Alive kills dead t (x ++ y) ↔ Alive kills dead t x ∧ Alive kills dead (t ++ x) y := by
  constructor
  · intro h
    refine ⟨fun a i b e => h a i (b ++ y) (by rw [e]; simp), fun a i b e => ?_⟩
    rw [List.append_assoc]
    exact h (x ++ a) i b (by rw [e]; simp)
  · rintro ⟨h1, h2⟩ a i b e
    rcases List.append_eq_append_iff.mp e with ⟨c, e1, e2⟩ | ⟨c, e1, e2⟩
    · rw [e1, ← List.append_assoc]
      exact h2 c i b e2
    · cases c with
      | nil =>
        simp only [List.append_nil, List.nil_append] at e1 e2
        have := h2 [] i b (by rw [← e2]; rfl)
        rw [List.append_nil, e1] at this
        exact this
      | cons j c =>
        simp only [List.cons_append, List.cons.injEq] at e2
        obtain ⟨rfl, e2⟩ := e2
        exact h1 a i c e1

/-- What is known of a variant `d` of a computation that ended in `w'` with `a`. -/
def Guarded {α : Type} (kills : List Invocation → List Nat) (dead : List Nat) (w w' : World C) (a : α)
    (d : Res (World C × α)) : Prop :=
  ∃ new, w'.trace = w.trace ++ new ∧
    ((Alive kills dead w.trace new ∧ d = .ok (w', a)) ∨ (¬ Alive kills dead w.trace new ∧ d = .error .ub))

theorem append_trace {w w' : World C} {xs : List Byte} (h : w.append B xs = .ok w') :
    w'.trace = w.trace := by
  unfold World.append at h
  cases hr : w.rx.appendReceived B xs with
  | error f => simp [hr] at h
  | ok r => simp [hr] at h; rw [← h]

/-- First part done, then the second. -/
theorem Guarded.bind {α β : Type} {w w1 w2 : World C} {a : α} {b : β} {d : Res (World C × α)}
    {k : World C × α → Res (World C × β)} (h1 : Guarded kills dead w w1 a d)
    (h2 : Guarded kills dead w1 w2 b (k (w1, a))) : Guarded kills dead w w2 b (d >>= k) := by
  obtain ⟨n1, e1, h1⟩ := h1
  obtain ⟨n2, e2, h2⟩ := h2
  rw [e1] at e2 h2
  refine ⟨n1 ++ n2, by rw [e2]; simp, ?_⟩
  rcases h1 with ⟨a1, d1⟩ | ⟨a1, d1⟩
  · rcases h2 with ⟨a2, d2⟩ | ⟨a2, d2⟩
    · exact Or.inl ⟨alive_append.mpr ⟨a1, a2⟩, by rw [d1]; exact d2⟩
    · exact Or.inr ⟨fun h => a2 (alive_append.mp h).2, by rw [d1]; exact d2⟩
  · exact Or.inr ⟨fun h => a1 (alive_append.mp h).1, by rw [d1]; rfl⟩

theorem Guarded.same {α : Type} {w w' : World C} {a : α} (h : w'.trace = w.trace) :
    Guarded kills dead w w' a (.ok (w', a)) :=
  ⟨[], by simp [h], Or.inl ⟨Alive.nil _, rfl⟩⟩

/-- Steps in between that leave the trace alone. -/
theorem Guarded.of_trace {α : Type} {w w1 w' : World C} {a : α} {d : Res (World C × α)}
    (h : Guarded kills dead w1 w' a d) (e : w1.trace = w.trace) : Guarded kills dead w w' a d := by
  unfold Guarded at h ⊢
  rw [← e]
  exact h

theorem Guarded.after {α : Type} {w w1 w' : World C} {a : α} {d : Res (World C × α)}
    (h : Guarded kills dead w w1 a d) (e : w'.trace = w1.trace)
    {d' : Res (World C × α)} (hd : d = .ok (w1, a) → d' = .ok (w', a)) (hu : d = .error .ub → d' = .error .ub) :
    Guarded kills dead w w' a d' := by
  obtain ⟨new, h1, h2⟩ := h
  refine ⟨new, by rw [e, h1], ?_⟩
  rcases h2 with ⟨x, y⟩ | ⟨x, y⟩
  · exact Or.inl ⟨x, hd y⟩
  · exact Or.inr ⟨x, hu y⟩

theorem runActsD_guarded {n1 n2 : World C → Res (World C × Outcome)}
    (hnest : ∀ w w' o, n1 w = .ok (w', o) → Guarded kills dead w w' o (n2 w)) (acts : List Act) :
    ∀ {w w' : World C} {t : Bool}, World.runActs B n1 w acts = .ok (w', t) →
    Guarded kills dead w w' t (World.runActsD B n2 w acts) := by
  induction acts with
  | nil => intro w w' t h; cases h; exact Guarded.same rfl
  | cons a acts ih =>
    intro w w' t h
    cases a with
    | append xs =>
      unfold World.runActs at h
      unfold World.runActsD
      cases ha : w.append B xs with
      | error f => simp [ha] at h
      | ok w1 =>
        simp only [ha, ok_bind] at h ⊢
        exact (ih h).of_trace (append_trace ha)
    | setHandler _ => unfold World.runActs at h; unfold World.runActsD; exact (ih h).of_trace rfl
    | clearHandler => unfold World.runActs at h; unfold World.runActsD; exact (ih h).of_trace rfl
    | process =>
      unfold World.runActs at h
      unfold World.runActsD
      cases ha : n1 w with
      | error f => simp [ha] at h
      | ok x =>
        obtain ⟨w1, o⟩ := x
        simp only [ha, ok_bind] at h
        refine (hnest _ _ _ ha).bind ?_
        cases o with
        | threw => cases h; exact Guarded.same rfl
        | returned k => exact ih h

theorem callHandlerD_guarded {n1 n2 : World C → Res (World C × Outcome)}
    (hnest : ∀ w w' o, n1 w = .ok (w', o) → Guarded kills dead w w' o (n2 w))
    {w w' : World C} {i : Invocation} {t : Bool} (h : w.callHandler B user n1 i = .ok (w', t)) :
    Guarded kills dead w w' t (w.callHandlerD B user kills dead n2 i) := by
  have h2 : Guarded kills dead ({ w with trace := w.trace ++ [i] } : World C) w' t
      (match dispatch i with
        | none => (.ok (({ w with trace := w.trace ++ [i] } : World C), false) : Res (World C × Bool))
        | some _ => World.runActsD B n2 ({ w with trace := w.trace ++ [i] } : World C)
            (user ({ w with trace := w.trace ++ [i] } : World C).userCalls w.rx.getBufferAvailableSpace).acts
            >>= fun x => .ok (x.1, x.2 || (user ({ w with trace := w.trace ++ [i] } : World C).userCalls
              w.rx.getBufferAvailableSpace).throws)) := by
    unfold World.callHandler at h
    simp only at h
    cases hdi : dispatch i with
    | none => rw [hdi] at h; cases h; exact Guarded.same rfl
    | some c =>
      rw [hdi] at h
      simp only at h ⊢
      cases hra : World.runActs B n1 ({ w with trace := w.trace ++ [i] } : World C)
          (user ({ w with trace := w.trace ++ [i] } : World C).userCalls
            w.rx.getBufferAvailableSpace).acts with
      | error f => rw [hra] at h; cases h
      | ok y =>
        obtain ⟨w1, t1⟩ := y
        rw [hra] at h
        cases h
        exact (runActsD_guarded hnest _ hra).bind (Guarded.same rfl)
  by_cases hd : i.handler.obj ∈ dead ∨ i.handler.obj ∈ kills w.trace
  · obtain ⟨new, e, _⟩ := h2
    refine ⟨i :: new, by rw [e]; simp, Or.inr ⟨fun ha => ?_, ?_⟩⟩
    · have := ha [] i new rfl
      rw [List.append_nil] at this
      rcases hd with hd | hd
      · exact this.1 hd
      · exact this.2 hd
    · unfold World.callHandlerD
      rw [if_pos hd]
  · obtain ⟨new, e, hn⟩ := h2
    have hone : Alive kills dead w.trace [i] := by
      intro a j b hx
      cases a with
      | nil =>
        simp only [List.nil_append, List.cons.injEq] at hx
        obtain ⟨rfl, _⟩ := hx
        rw [List.append_nil]
        exact ⟨fun x => hd (Or.inl x), fun x => hd (Or.inr x)⟩
      | cons _ _ => simp at hx
    have hsplit : Alive kills dead w.trace (i :: new) ↔ Alive kills dead (w.trace ++ [i]) new := by
      rw [show i :: new = [i] ++ new from rfl, alive_append]
      exact ⟨fun h => h.2, fun h => ⟨hone, h⟩⟩
    have hcall : w.callHandlerD B user kills dead n2 i = (match dispatch i with
        | none => (.ok (({ w with trace := w.trace ++ [i] } : World C), false) : Res (World C × Bool))
        | some _ => World.runActsD B n2 ({ w with trace := w.trace ++ [i] } : World C)
            (user ({ w with trace := w.trace ++ [i] } : World C).userCalls w.rx.getBufferAvailableSpace).acts
            >>= fun x => .ok (x.1, x.2 || (user ({ w with trace := w.trace ++ [i] } : World C).userCalls
              w.rx.getBufferAvailableSpace).throws)) := by
      unfold World.callHandlerD
      rw [if_neg hd]
      rfl
    refine ⟨i :: new, by rw [e]; simp, ?_⟩
    rw [hsplit, hcall]
    exact hn

theorem processLoopD_guarded (fuel : Nat) : ∀ {w w' : World C} {n : Byte} {o : Outcome},
    World.processLoop B user fuel w n = .ok (w', o) →
    Guarded kills dead w w' o (World.processLoopD B user kills dead fuel w n) := by
  induction fuel with
  | zero => intro w w' n o h; cases h
  | succ fuel ih =>
    intro w w' n o h
    unfold World.processLoop at h
    unfold World.processLoopD
    cases hc : w.rx.recv.checkBufferForMessage B with
    | error f => simp [hc] at h
    | ok x =>
      obtain ⟨e, found⟩ := x
      cases found with
      | false =>
        simp only [hc, ok_bind, Bool.not_false, if_true, pure_eq_ok, Except.ok.injEq, Prod.mk.injEq] at h ⊢
        obtain ⟨rfl, rfl⟩ := h
        exact Guarded.same rfl
      | true =>
        simp only [hc, ok_bind, Bool.not_true, Bool.false_eq_true, if_false] at h ⊢
        cases hg : e.getCurrentMessageId B with
        | error f => simp [hg] at h
        | ok id =>
          simp only [hg, ok_bind] at h ⊢
          cases hi : ({ w.rx with recv := e, lastMessageId := some id } : Receiver C).invoke id with
          | error f => simp [hi] at h
          | ok i =>
            simp only [hi, ok_bind] at h ⊢
            have hnest : ∀ (w w' : World C) (o : Outcome),
                (if !w.rx.hasHandler then (.ok (w, .returned 0) : Res (World C × Outcome))
                  else World.processLoop B user fuel w 0) = .ok (w', o) →
                Guarded kills dead w w' o
                  (if !w.rx.hasHandler then (.ok (w, .returned 0) : Res (World C × Outcome))
                    else World.processLoopD B user kills dead fuel w 0) := by
              intro w w' o h
              split
              · rename_i hb; rw [if_pos hb] at h; cases h; exact Guarded.same rfl
              · rename_i hb; rw [if_neg hb] at h; exact ih h
            have hsplit : ∀ (a : Res (World C × Bool)) (k : World C × Bool → Res (World C × Outcome)),
                a >>= k = .ok (w', o) → ∃ x, a = .ok x ∧ k x = .ok (w', o) := by
              intro a k hk
              cases a with
              | error f => cases hk
              | ok x => exact ⟨x, rfl, hk⟩
            obtain ⟨⟨w1, th⟩, hcall, hrest⟩ := hsplit _ _ h
            refine Guarded.bind (w1 := w1) (a := th) ?_ ?_
            · cases i with
              | none => cases hcall; exact Guarded.same rfl
              | some i =>
                exact (callHandlerD_guarded hnest hcall).of_trace rfl
            · cases th with
              | true => cases hrest; exact Guarded.same rfl
              | false =>
                simp only [Bool.false_eq_true, if_false] at hrest ⊢
                cases hp : w1.rx.recv.popMessage B with
                | error f => simp [hp] at hrest
                | ok e2 =>
                  simp only [hp, ok_bind] at hrest ⊢
                  exact (ih hrest).of_trace rfl

theorem stepD_guarded {fuel : Nat} {w w' : World C} {op : Op} {o : Obs}
    (h : w.step B user fuel op = .ok (w', o)) :
    Guarded kills dead w w' o (w.stepD B user kills dead fuel op) := by
  cases op with
  | process =>
    simp only [World.step, World.processMessages] at h
    simp only [World.stepD, World.processMessagesD]
    cases hb : w.rx.hasHandler with
    | false =>
      simp only [hb, Bool.not_false, if_true, ok_bind, pure_eq_ok, Except.ok.injEq, Prod.mk.injEq] at h ⊢
      obtain ⟨rfl, rfl⟩ := h
      exact Guarded.same rfl
    | true =>
      simp only [hb, Bool.not_true, Bool.false_eq_true, if_false] at h ⊢
      cases hl : World.processLoop B user fuel w 0 with
      | error f => simp [hl] at h
      | ok y =>
        obtain ⟨w1, o1⟩ := y
        rw [hl] at h
        cases h
        exact (processLoopD_guarded fuel hl).bind (Guarded.same rfl)
  | append xs =>
    have ht : w'.trace = w.trace := by
      simp only [World.step] at h
      cases ha : w.append B xs with
      | error f => simp [ha] at h
      | ok w1 => simp [ha] at h; rw [← h.1]; exact append_trace ha
    simp only [World.stepD, h]
    exact Guarded.same ht
  | receiveFrom a r =>
    have ht : w'.trace = w.trace := by
      simp only [World.step] at h
      cases ha : w.rx.receiveFrom B { numAvailable := a, receive := r } with
      | error f => simp [ha] at h
      | ok w1 => simp [ha] at h; rw [← h.1]
    simp only [World.stepD, h]
    exact Guarded.same ht
  | setHandler _ =>
    have ht : w'.trace = w.trace := by simp [World.step] at h; rw [← h.1]
    simp only [World.stepD, h]
    exact Guarded.same ht
  | clearHandler =>
    have ht : w'.trace = w.trace := by simp [World.step] at h; rw [← h.1]
    simp only [World.stepD, h]
    exact Guarded.same ht
  | copy =>
    have ht : w'.trace = w.trace := by
      simp only [World.step] at h
      cases ha : w.rx.copyConstruct with
      | error f => simp [ha] at h
      | ok w1 => simp [ha] at h; rw [← h.1]
    simp only [World.stepD, h]
    exact Guarded.same ht

end TT
