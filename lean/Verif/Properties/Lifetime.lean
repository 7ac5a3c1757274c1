import Verif.Properties.Reentrancy
import Verif.Proofs.Lifetime

/-!
# Property about the lifetime of handler objects: C83
-/

namespace TT.Properties
open Spec

variable {C : Collection} {B : Build} {user : UserCode} {fuel : Nat}
  {kills : List Invocation → List Nat}

/-! ### C83 -/

/-- Call number `j` of the history was on an object destroyed before: in `dead`, by a handler, or by the
program. -/
def OnDead (B : Build) (user : UserCode) (fuel : Nat) (kills : List Invocation → List Nat)
    (dead : List Nat) (w w' : World C) (ops : List LOp) : Prop :=
  ∃ j i, w.trace.length ≤ j ∧ w'.trace[j]? = some i ∧
    (i.handler.obj ∈ dead ∨ i.handler.obj ∈ kills (w'.trace.take j) ∨
      DestroyedBy B user fuel w ops j i.handler.obj)

theorem run_trace {ops : List Op} : ∀ {w w' : World C} {os : List Obs},
    w.run B user fuel ops = .ok (w', os) → ∃ new, w'.trace = w.trace ++ new := by
  induction ops with
  | nil => intro w w' os h; simp [World.run] at h; exact ⟨[], by simp [h.1]⟩
  | cons op ops ih =>
    intro w w' os h
    unfold World.run at h
    cases hs : w.step B user fuel op with
    | error f => simp [hs] at h
    | ok x =>
      obtain ⟨w1, o⟩ := x
      simp only [hs, ok_bind] at h
      cases hr : w1.run B user fuel ops with
      | error f => simp [hr] at h
      | ok y =>
        obtain ⟨w2, os2⟩ := y
        simp [hr] at h
        obtain ⟨n1, e1, _⟩ := stepD_guarded (kills := fun _ => []) (dead := []) hs
        obtain ⟨n2, e2⟩ := ih hr
        exact ⟨n1 ++ n2, by rw [← h.1, e2, e1]; simp⟩

theorem destroyedBy_destroy {w : World C} {o n x : Nat} {ops : List LOp} :
    DestroyedBy B user fuel w (.destroy o :: ops) n x ↔
      (x = o ∧ w.trace.length ≤ n) ∨ DestroyedBy B user fuel w ops n x := by
  constructor
  · rintro ⟨before, after, w1, os, e, hr, hl⟩
    cases before with
    | nil =>
      simp only [List.nil_append, List.cons.injEq, LOp.destroy.injEq] at e
      simp [callsOf, World.run] at hr
      exact Or.inl ⟨e.1.symm, by rw [hr.1]; exact hl⟩
    | cons b before =>
      simp only [List.cons_append, List.cons.injEq] at e
      obtain ⟨rfl, e⟩ := e
      exact Or.inr ⟨before, after, w1, os, e, by simpa [callsOf] using hr, hl⟩
  · rintro (⟨rfl, hl⟩ | ⟨before, after, w1, os, e, hr, hl⟩)
    · exact ⟨[], ops, w, [], rfl, rfl, hl⟩
    · exact ⟨.destroy o :: before, after, w1, os, by rw [e]; rfl, by simpa [callsOf] using hr, hl⟩

theorem destroyedBy_call {w w1 : World C} {n x : Nat} {op : Op} {o : Obs} {ops : List LOp}
    (hs : w.step B user fuel op = .ok (w1, o)) :
    DestroyedBy B user fuel w (.call op :: ops) n x ↔ DestroyedBy B user fuel w1 ops n x := by
  constructor
  · rintro ⟨before, after, w2, os, e, hr, hl⟩
    cases before with
    | nil => simp at e
    | cons b before =>
      simp only [List.cons_append, List.cons.injEq] at e
      obtain ⟨rfl, e⟩ := e
      have hc : callsOf (.call op :: before) = op :: callsOf before := rfl
      rw [hc] at hr
      unfold World.run at hr
      simp only [hs, ok_bind] at hr
      cases hr' : w1.run B user fuel (callsOf before) with
      | error f => simp [hr'] at hr
      | ok y =>
        simp [hr'] at hr
        exact ⟨before, after, y.1, y.2, e, hr', by rw [hr.1]; exact hl⟩
  · rintro ⟨before, after, w2, os, e, hr, hl⟩
    refine ⟨.call op :: before, after, w2, o :: os, by rw [e]; rfl, ?_, hl⟩
    have hc : callsOf (.call op :: before) = op :: callsOf before := rfl
    rw [hc]
    unfold World.run
    simp [hs, hr]

theorem DestroyedBy.le {w : World C} {n x : Nat} {ops : List LOp}
    (h : DestroyedBy B user fuel w ops n x) : w.trace.length ≤ n := by
  obtain ⟨_, _, w1, os, _, hr, hl⟩ := h
  obtain ⟨new, e⟩ := run_trace hr
  rw [e] at hl
  simp at hl
  omega

theorem lifetime_gen (ops : List LOp) : ∀ {w w' : World C} {os : List Obs} {dead : List Nat},
    w.run B user fuel (callsOf ops) = .ok (w', os) →
    (¬ OnDead B user fuel kills dead w w' ops ∧ w.runD B user kills fuel dead ops = .ok (w', os)) ∨
    (OnDead B user fuel kills dead w w' ops ∧ w.runD B user kills fuel dead ops = .error .ub) := by
  induction ops with
  | nil =>
    intro w w' os dead h
    simp [callsOf, World.run] at h
    left
    refine ⟨?_, by simp [World.runD, h]⟩
    rintro ⟨j, i, hj, hi, _⟩
    rw [← h.1, List.getElem?_eq_none hj] at hi
    cases hi
  | cons lop ops ih =>
    intro w w' os dead h
    cases lop with
    | destroy o =>
      have hb : OnDead B user fuel kills dead w w' (.destroy o :: ops) ↔
          OnDead B user fuel kills (o :: dead) w w' ops := by
        constructor
        · rintro ⟨j, i, hj, hi, h⟩
          refine ⟨j, i, hj, hi, ?_⟩
          rw [destroyedBy_destroy] at h
          rcases h with h | h | ⟨h, _⟩ | h
          · exact Or.inl (by simp [h])
          · exact Or.inr (Or.inl h)
          · exact Or.inl (by simp [h])
          · exact Or.inr (Or.inr h)
        · rintro ⟨j, i, hj, hi, h⟩
          refine ⟨j, i, hj, hi, ?_⟩
          rw [destroyedBy_destroy]
          rcases h with h | h | h
          · rcases List.mem_cons.mp h with h | h
            · exact Or.inr (Or.inr (Or.inl ⟨h, hj⟩))
            · exact Or.inl h
          · exact Or.inr (Or.inl h)
          · exact Or.inr (Or.inr (Or.inr h))
      rw [hb]
      exact ih h
    | call op =>
      have hc : callsOf (.call op :: ops) = op :: callsOf ops := rfl
      rw [hc] at h
      unfold World.run at h
      cases hs : w.step B user fuel op with
      | error f => simp [hs] at h
      | ok x =>
        obtain ⟨w1, o⟩ := x
        simp only [hs, ok_bind] at h
        cases hr : w1.run B user fuel (callsOf ops) with
        | error f => simp [hr] at h
        | ok y =>
          obtain ⟨w2, os2⟩ := y
          simp [hr] at h
          obtain ⟨rfl, rfl⟩ := h
          obtain ⟨n1, e1, hg⟩ := stepD_guarded (kills := kills) (dead := dead) hs
          obtain ⟨n2, e2⟩ := run_trace hr
          have hb : OnDead B user fuel kills dead w w2 (.call op :: ops) ↔
              ¬ Alive kills dead w.trace n1 ∨ OnDead B user fuel kills dead w1 w2 ops := by
            have hl1 : w1.trace.length = w.trace.length + n1.length := by rw [e1]; simp
            constructor
            · rintro ⟨j, i, hj, hi, h⟩
              rw [destroyedBy_call hs] at h
              by_cases hlt : j < w1.trace.length
              · left
                intro ha
                have hi1 : n1[j - w.trace.length]? = some i := by
                  rw [e2, List.getElem?_append_left hlt, e1, List.getElem?_append_right hj] at hi
                  exact hi
                obtain ⟨hk, hki⟩ := List.getElem?_eq_some_iff.mp hi1
                have hsplit : n1 = n1.take (j - w.trace.length) ++ i ::
                    n1.drop (j - w.trace.length + 1) := by
                  have h1 : n1 = n1.take (j - w.trace.length) ++ n1.drop (j - w.trace.length) := by simp
                  rw [List.drop_eq_getElem_cons hk, hki] at h1
                  exact h1
                have := ha _ _ _ hsplit
                have htake : w2.trace.take j = w.trace ++ n1.take (j - w.trace.length) := by
                  rw [e2, List.take_append_of_le_length (by omega), e1, List.take_append,
                    List.take_of_length_le hj]
                rcases h with h | h | h
                · exact this.1 h
                · rw [htake] at h; exact this.2 h
                · have := DestroyedBy.le h; omega
              · right
                exact ⟨j, i, by omega, hi, h⟩
            · rintro (h | ⟨j, i, hj, hi, h⟩)
              · by_cases hx : ∃ a i b, n1 = a ++ i :: b ∧
                    (i.handler.obj ∈ dead ∨ i.handler.obj ∈ kills (w.trace ++ a))
                · obtain ⟨a, i, b, hab, hx⟩ := hx
                  refine ⟨w.trace.length + a.length, i, by omega, ?_, ?_⟩
                  · rw [e2, e1, hab]; simp
                  · have : w2.trace.take (w.trace.length + a.length) = w.trace ++ a := by
                      rw [e2, e1, hab]; simp [List.take_append]; exact List.take_of_length_le (by omega)
                    rw [this]
                    rcases hx with hx | hx
                    · exact Or.inl hx
                    · exact Or.inr (Or.inl hx)
                · exact absurd (fun a i b hab =>
                    ⟨fun h1 => hx ⟨a, i, b, hab, Or.inl h1⟩, fun h1 => hx ⟨a, i, b, hab, Or.inr h1⟩⟩) h
              · refine ⟨j, i, by omega, hi, ?_⟩
                rw [destroyedBy_call hs]
                exact h
          rw [hb]
          unfold World.runD
          rcases hg with ⟨ha, hd⟩ | ⟨ha, hd⟩
          · rw [hd]
            rcases ih (dead := dead) hr with ⟨hi, hd2⟩ | ⟨hi, hd2⟩
            · left
              refine ⟨fun h => h.elim (fun h => h ha) hi, by simp [hd2]⟩
            · right
              exact ⟨Or.inr hi, by simp [hd2]⟩
          · right
            exact ⟨Or.inl ha, by rw [hd]; rfl⟩

/-- C83. A history that is free of faults as far as the receiver is concerned, by a program that destroys
objects: it has undefined behaviour exactly if some handler call is made on an object destroyed before, by a
handler or by the program; otherwise it is as if nothing had been destroyed. Calls on the receiver that make no
handler call never matter, whatever the receiver points to. -/
theorem C83_exact {ops : List LOp} {w w' : World C} {os : List Obs}
    (h : w.run B user fuel (callsOf ops) = .ok (w', os)) :
    (¬ (∃ j i, w.trace.length ≤ j ∧ w'.trace[j]? = some i ∧
        (i.handler.obj ∈ kills (w'.trace.take j) ∨ DestroyedBy B user fuel w ops j i.handler.obj)) →
      w.runD B user kills fuel [] ops = .ok (w', os)) ∧
    ((∃ j i, w.trace.length ≤ j ∧ w'.trace[j]? = some i ∧
        (i.handler.obj ∈ kills (w'.trace.take j) ∨ DestroyedBy B user fuel w ops j i.handler.obj)) →
      w.runD B user kills fuel [] ops = .error .ub) := by
  have hb : OnDead B user fuel kills [] w w' ops ↔
      (∃ j i, w.trace.length ≤ j ∧ w'.trace[j]? = some i ∧
        (i.handler.obj ∈ kills (w'.trace.take j) ∨ DestroyedBy B user fuel w ops j i.handler.obj)) := by
    unfold OnDead
    simp
  rw [← hb]
  rcases lifetime_gen (kills := kills) ops (dead := []) h with ⟨h1, h2⟩ | ⟨h1, h2⟩
  · exact ⟨fun _ => h2, fun h => absurd h h1⟩
  · exact ⟨fun h => absurd h1 h, fun _ => h2⟩

/-- C83. The handler may be gone while no message waits: `processMessages` then returns 0 as usual. -/
theorem C83_idle (S : Setting C B user) {ops : List Op} {w : World C} {os : List Obs}
    (h : Reached B user fuel ops w os) (dead : List Nat) {r : List Byte}
    (hd : Decodes C (buffered w) [] r) {fuel' : Nat} (hf : 0 < fuel') :
    ∃ w', w.processMessagesD B user kills dead fuel' = .ok (w', .returned 0) ∧ w'.trace = w.trace := by
  obtain ⟨s, _, ha, _⟩ := h.exec S
  have hc := S.arith.lt64
  rw [ha.buffered] at hd
  unfold World.processMessagesD
  cases hb : w.rx.hasHandler with
  | false => exact ⟨w, rfl, rfl⟩
  | true =>
    obtain ⟨f, rfl⟩ : ∃ f, fuel' = f + 1 := ⟨fuel' - 1, by omega⟩
    obtain ⟨e1, found, ys, h1, _, hh1, hr, _, hfd, _⟩ := check_spec hc ha.buf
    simp only [Bool.not_true, Bool.false_eq_true, if_false]
    unfold World.processLoopD
    simp only [h1 B, ok_bind]
    cases found with
    | false => exact ⟨_, rfl, rfl⟩
    | true =>
      obtain ⟨m, t, hm, rfl, _⟩ := hfd rfl
      have h2 : Run C s.buf [m] t := run_nil_trans hr (Run.take hm (Run.refl t))
      obtain ⟨ms2, r2, hd2⟩ := decodes_exists C t
      have := (hd.unique ⟨h2.trans hd2.1, hd2.2⟩).1
      simp at this

/-- C83. With a message waiting and the current handler destroyed, `processMessages` is undefined. -/
theorem C83_dead (S : Setting C B user) {ops : List Op} {w : World C} {os : List Obs}
    (h : Reached B user fuel ops w os) {hdl : Handler} (hcur : currentHandler w = some hdl)
    {dead : List Nat} (hdead : hdl.obj ∈ dead) {m : Msg} {ms : List Msg} {r : List Byte}
    (hd : Decodes C (buffered w) (m :: ms) r) {fuel' : Nat} (hf : 0 < fuel') :
    w.processMessagesD B user kills dead fuel' = .error .ub := by
  obtain ⟨s, _, ha, _⟩ := h.exec S
  have hh : s.handler = some hdl := by rw [← currentHandler_abs ha, hcur]
  have hc := S.arith.lt64
  rw [ha.buffered] at hd
  unfold World.processMessagesD
  rw [ha.hasHandler, hh]
  obtain ⟨f, rfl⟩ : ∃ f, fuel' = f + 1 := ⟨fuel' - 1, by omega⟩
  obtain ⟨e1, found, ys, h1, _, hh1, hr, _, hfd, hnf⟩ := check_spec hc ha.buf
  simp only [Option.isSome_some, Bool.not_true, Bool.false_eq_true, if_false]
  unfold World.processLoopD
  simp only [h1 B, ok_bind]
  cases found with
  | false =>
    have := (hd.unique ⟨hr, hnf rfl⟩).1
    simp at this
  | true =>
    obtain ⟨m, t, hm, rfl, hid⟩ := hfd rfl
    have hgid : e1.getCurrentMessageId B = .ok m.id := by
      unfold ERB.getCurrentMessageId
      rw [hid]
      simp
    have hinv := invoke_ok (rx := { w.rx with recv := e1, lastMessageId := some m.id }) hm hh1
      (k := hdl.kind) (o := hdl.obj) (by rw [show _ = w.rx.invoker from rfl, ha.invoker, hh]; rfl)
      (by rw [show _ = w.rx.functorPointer from rfl, ha.functor, hh]; rfl)
    simp only [Bool.not_true, Bool.false_eq_true, if_false, hgid, ok_bind, hinv]
    unfold World.callHandlerD
    have : (callOf C ⟨hdl.kind, hdl.obj⟩ m).handler.obj ∈ dead := hdead
    rw [if_pos (Or.inl this)]
    rfl

/-- C83. With the current handler alive and handlers that set no other, objects destroyed before make no
difference: it is enough that a handler is replaced or cleared before it is destroyed. -/
theorem C83_live (S : Setting C B user) (hk : KeepsHandler user) {ops : List Op} {w : World C} {os : List Obs}
    (h : Reached B user fuel ops w os) {hdl : Handler} (hcur : currentHandler w = some hdl)
    {dead : List Nat} (hlive : hdl.obj ∉ dead) (hkill : ∀ calls, hdl.obj ∉ kills calls) {fuel' : Nat}
    {w' : World C} {o : Outcome} (hp : w.processMessages B user fuel' = .ok (w', o)) :
    w.processMessagesD B user kills dead fuel' = .ok (w', o) := by
  obtain ⟨s, _, ha, _⟩ := h.exec S
  have hh : s.handler = some hdl := by rw [← currentHandler_abs ha, hcur]
  have hc := S.arith.lt64
  rcases processMessages_spec hc S.benign fuel' ha (by rw [hh]; rfl) with ⟨_, hx⟩ | ⟨w1, s1, ms, th, h1, ha1, hpr, _⟩
  · rw [hx B S.arith] at hp; cases hp
  · rw [h1 B S.arith] at hp
    have hw : w1 = w' := by cases hp; rfl
    subst hw
    obtain ⟨_, calls, htr, hcalls⟩ := hpr.handlers hk
    have hb : w.rx.hasHandler = true := by rw [ha.hasHandler, hh]; rfl
    have hp' := (h1 B S.arith).trans hp
    unfold World.processMessages at hp'
    unfold World.processMessagesD
    rw [hb] at hp' ⊢
    simp only [Bool.not_true, Bool.false_eq_true, if_false] at hp' ⊢
    obtain ⟨new, e, hg⟩ := processLoopD_guarded (kills := kills) (dead := dead) fuel' hp'
    rcases hg with ⟨_, hg⟩ | ⟨hna, _⟩
    · exact hg
    · have hnew : new = calls := by
        have : w.trace ++ new = w.trace ++ calls := by rw [← e, ha1.trace, htr, ha.trace]
        exact List.append_cancel_left this
      exact absurd (fun a i b hab => by
        have hi := hcalls i (by rw [← hnew, hab]; simp)
        rw [hh] at hi
        cases hi
        exact ⟨hlive, hkill _⟩) hna

/-! ### Examples -/

/-- The first handler is destroyed after being replaced; the second is destroyed during the second call and
never called again. -/
def replacedOps : List LOp :=
  [.call (.setHandler Sample.h0), .call (.append (frame .basic Sample.mLevel)), .call .process,
   .call (.setHandler Sample.h1), .destroy 0, .call (.append (frame .basic Sample.mPose)), .call .process,
   .call .process]

/-- Object 1 is destroyed in the course of the second call. -/
def killsSecond : List Invocation → List Nat := fun calls => if 2 ≤ calls.length then [1] else []

example : ((World.new Sample.basic).runD Sample.dbg Sample.passive killsSecond 100 [] replacedOps).toOption.map
    (fun r => delivered r.1) = some ([Sample.mLevel, Sample.mPose].map (meaning Sample.basic)) := by
  decide +kernel

/-- With another message for the second handler. -/
example : (match (World.new Sample.basic).runD Sample.dbg Sample.passive killsSecond 100 []
      (replacedOps ++ [.call (.append (frame .basic Sample.mPing)), .call .process]) with
    | .error .ub => true
    | _ => false) = true := by
  decide +kernel

/-- The hypotheses of `C83_dead` and, for the other object, of `C83_live`. -/
example : ∃ (w : World Sample.basic) (os : List Obs),
    Reached Sample.dbg Sample.passive 50
      [.setHandler Sample.h0, .append (frame .basic Sample.mLevel)] w os ∧
    currentHandler w = some Sample.h0 ∧ Sample.h0.obj ∈ [0] ∧ Sample.h0.obj ∉ [1] ∧
    Decodes Sample.basic (buffered w) [Sample.mLevel] [] := by
  obtain ⟨w, os, h, hp⟩ := Sample.reached (C := Sample.basic) (B := Sample.dbg)
    (user := Sample.passive) (fuel := 50)
    (ops := [.setHandler Sample.h0, .append (frame .basic Sample.mLevel)])
    (fun w _ => decide (currentHandler w = some Sample.h0) &&
      decide (buffered w = frame .basic Sample.mLevel)) (by decide +kernel)
  simp only [Bool.and_eq_true, decide_eq_true_eq] at hp
  refine ⟨w, os, h, hp.1, by decide, by decide, ?_⟩
  rw [hp.2]
  have hm : IsMsg Sample.basic Sample.mLevel := by decide +kernel
  have := Run.take hm (Run.refl (C := Sample.basic) [])
  rw [List.append_nil] at this
  exact ⟨this, Or.inl rfl⟩

end TT.Properties
