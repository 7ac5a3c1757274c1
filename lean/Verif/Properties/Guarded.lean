import Verif.Properties.Completion

/-!
# Property about handlers that switch message handling off while they work: C116
-/

namespace TT.Properties
open Spec

variable {C : Collection} {B : Build} {user : UserCode} {fuel : Nat}

/-! ### C116 -/

/-- The calls a handler makes are guarded: it calls `processMessages` only while there is no handler (`set = false`), and in
the end there is a handler, unless it throws. -/
def Guarded (throws : Bool) : Bool → List Act → Prop
  | set, [] => set = true ∨ throws = true
  | _, .setHandler _ :: as => Guarded throws true as
  | _, .clearHandler :: as => Guarded throws false as
  | set, .process :: as => set = false ∧ Guarded throws set as
  | set, .append _ :: as => Guarded throws set as

/-- User code that makes only guarded calls, and appends within the free space. -/
def GuardedUser (user : UserCode) : Prop :=
  ∀ calls free, Guarded (user calls free).throws true (user calls free).acts ∧
    (appended (user calls free).acts).length ≤ free

/-- The calls without `clearHandler` and `processMessages`. -/
def calmActs : List Act → List Act
  | [] => []
  | .setHandler h :: as => .setHandler h :: calmActs as
  | .append xs :: as => .append xs :: calmActs as
  | .clearHandler :: as => calmActs as
  | .process :: as => calmActs as

/-- User code that does the same without `clearHandler` and `processMessages`. -/
def calm (user : UserCode) : UserCode := fun calls free =>
  { acts := calmActs (user calls free).acts, throws := (user calls free).throws }

theorem appended_calm (as : List Act) : appended (calmActs as) = appended as := by
  induction as with
  | nil => rfl
  | cons a as ih => cases a <;> simp [calmActs, appended, ih]

theorem calm_mem (as : List Act) : ∀ a ∈ calmActs as, a ≠ .clearHandler ∧ a ≠ .process := by
  induction as with
  | nil => intro a h; cases h
  | cons b as ih =>
    intro a h
    cases b with
    | setHandler h' =>
      rcases List.mem_cons.mp h with rfl | h
      · simp
      · exact ih a h
    | append xs =>
      rcases List.mem_cons.mp h with rfl | h
      · simp
      · exact ih a h
    | clearHandler => exact ih a h
    | process => exact ih a h

theorem calm_benign (h : GuardedUser user) : BenignUser (calm user) := by
  intro calls free
  exact ⟨calm_mem _, by simpa [calm, appended_calm] using (h calls free).2⟩

/-- The world without a handler. -/
def off (w : World C) : World C := { w with rx := w.rx.clearHandler }

/-- The same world, if the handler is set; otherwise without its handler. -/
def offIf (set : Bool) (w : World C) : World C := if set then w else off w

theorem append_off (w : World C) (xs : List Byte) :
    (off w).append B xs = (w.append B xs).bind fun v => .ok (off v) := by
  unfold World.append Receiver.appendReceived off
  have : (w.rx.clearHandler).recv = w.rx.recv := rfl
  simp only [this]
  cases w.rx.recv.bufferAppend B xs <;> rfl

theorem append_offIf (set : Bool) (w : World C) (xs : List Byte) :
    (offIf set w).append B xs = (w.append B xs).bind fun v => .ok (offIf set v) := by
  cases set with
  | true =>
    simp only [offIf, if_true]
    cases w.append B xs <;> rfl
  | false =>
    simp only [offIf, Bool.false_eq_true, if_false]
    exact append_off w xs

/-- Guarded calls do what the calm ones do, except that they may leave the handler cleared. -/
theorem runActs_guarded {N N' : World C → Res (World C × Outcome)}
    (hN : ∀ w : World C, w.rx.hasHandler = false → N w = .ok (w, .returned 0)) (throws : Bool) (as : List Act) :
    ∀ (set : Bool) (w : World C), Guarded throws set as →
    (∃ f, World.runActs B N' w (calmActs as) = .error f ∧ World.runActs B N (offIf set w) as = .error f) ∨
    ∃ v set', World.runActs B N' w (calmActs as) = .ok (v, false) ∧
      World.runActs B N (offIf set w) as = .ok (offIf set' v, false) ∧ (set' = true ∨ throws = true) := by
  induction as with
  | nil => intro set w h; exact Or.inr ⟨w, set, rfl, rfl, h⟩
  | cons a as ih =>
    intro set w h
    cases a with
    | setHandler hd =>
      have : (offIf set w).rx.setHandler hd = w.rx.setHandler hd := by cases set <;> rfl
      have e : ({ offIf set w with rx := (offIf set w).rx.setHandler hd } : World C) =
          offIf true { w with rx := w.rx.setHandler hd } := by cases set <;> rfl
      simp only [World.runActs, calmActs, e]
      exact ih true _ h
    | clearHandler =>
      have e : ({ offIf set w with rx := (offIf set w).rx.clearHandler } : World C) = offIf false w := by
        cases set <;> rfl
      simp only [World.runActs, calmActs, e]
      exact ih false w h
    | process =>
      obtain ⟨rfl, h⟩ := h
      have e : N (offIf false w) = .ok (offIf false w, .returned 0) := hN _ rfl
      simp only [World.runActs, calmActs, e, ok_bind]
      exact ih false w h
    | append xs =>
      simp only [World.runActs, calmActs, append_offIf]
      cases hx : w.append B xs with
      | error f => exact Or.inl ⟨f, rfl, rfl⟩
      | ok v => exact ih set v h

/-- The results of two `processMessages`: the same, or both threw and the first left the handler cleared. -/
def SameButOff (a b : Res (World C × Outcome)) : Prop :=
  a = b ∨ ∃ v, b = .ok (v, .threw) ∧ a = .ok (off v, .threw)

theorem processLoop_guarded (hG : GuardedUser user) : ∀ (fuel : Nat) (w : World C) (n : Byte),
    SameButOff (World.processLoop B user fuel w n) (World.processLoop B (calm user) fuel w n) := by
  intro fuel
  induction fuel with
  | zero => intro w n; exact Or.inl rfl
  | succ fuel ih =>
    intro w n
    unfold World.processLoop
    cases hck : w.rx.recv.checkBufferForMessage B with
    | error f => exact Or.inl rfl
    | ok x =>
      obtain ⟨e, found⟩ := x
      simp only [ok_bind]
      cases found with
      | false => exact Or.inl rfl
      | true =>
        simp only [Bool.not_true, Bool.false_eq_true, if_false]
        cases hid : e.getCurrentMessageId B with
        | error f => exact Or.inl rfl
        | ok id =>
          simp only [ok_bind]
          cases hi : Receiver.invoke { w.rx with recv := e, lastMessageId := some id } id with
          | error f => exact Or.inl rfl
          | ok i? =>
            simp only [ok_bind]
            cases i? with
            | none =>
              simp only [ok_bind, Bool.false_eq_true, if_false]
              cases hp : e.popMessage B with
              | error f => exact Or.inl rfl
              | ok e' => simp only [ok_bind]; exact ih _ _
            | some i =>
              simp only [World.callHandler]
              cases hdis : dispatch i with
              | none =>
                simp only [pure_eq_ok, ok_bind, Bool.false_eq_true, if_false]
                cases hp : e.popMessage B with
                | error f => exact Or.inl rfl
                | ok e' => simp only [ok_bind]; exact ih _ _
              | some c =>
                simp only []
                generalize hw2 : ({ w with rx := { w.rx with recv := e, lastMessageId := some id }, trace := w.trace ++ [i] } : World C) = w2
                generalize Receiver.getBufferAvailableSpace
                  { w.rx with recv := e, lastMessageId := some id } = free
                obtain ⟨hg, _⟩ := hG w2.userCalls free
                rcases runActs_guarded (B := B)
                  (N := fun w => if !w.rx.hasHandler then .ok (w, .returned 0)
                    else World.processLoop B user fuel w 0)
                  (N' := fun w => if !w.rx.hasHandler then .ok (w, .returned 0)
                    else World.processLoop B (calm user) fuel w 0)
                  (fun w h => by simp [h]) _ _ true w2 hg with ⟨f, h1, h2⟩ | ⟨v, set', h1, h2, h3⟩
                · have h1' : World.runActs B (fun w => if !w.rx.hasHandler then .ok (w, .returned 0)
                    else World.processLoop B (calm user) fuel w 0) w2
                    (calm user w2.userCalls free).acts = .error f := h1
                  have h2' := h2
                  simp only [offIf, if_true] at h2'
                  rw [h1', h2']
                  exact Or.inl rfl
                · have h1' : World.runActs B (fun w => if !w.rx.hasHandler then .ok (w, .returned 0)
                    else World.processLoop B (calm user) fuel w 0) w2
                    (calm user w2.userCalls free).acts = .ok (v, false) := h1
                  have h2' := h2
                  simp only [offIf, if_true] at h2'
                  rw [h1', h2']
                  have hth : (calm user w2.userCalls free).throws =
                    (user w2.userCalls free).throws := rfl
                  simp only [ok_bind, pure_eq_ok, Bool.false_or, hth]
                  cases ht : (user w2.userCalls free).throws with
                  | true =>
                    simp only [if_true]
                    cases set' with
                    | true => exact Or.inl rfl
                    | false => exact Or.inr ⟨v, rfl, rfl⟩
                  | false =>
                    rcases h3 with rfl | h3
                    · simp only [Bool.false_eq_true, if_false, if_true]
                      cases hp : v.rx.recv.popMessage B with
                      | error f => exact Or.inl rfl
                      | ok e' => simp only [ok_bind]; exact ih _ _
                    · rw [ht] at h3; cases h3

/-- The history `ops'` is `ops` with some calls of `clearHandler` inserted, each directly after a `processMessages` that
threw; `os` and `os'` is what is observed. -/
inductive Inserted : List Op → List Obs → List Op → List Obs → Prop
  | nil : Inserted [] [] [] []
  | same {ops ops' os os'} (op : Op) (o : Obs) : Inserted ops os ops' os' → Inserted (op :: ops) (o :: os) (op :: ops') (o :: os')
  | cleared {ops ops' os os'} : Inserted ops os ops' os' →
      Inserted (.process :: ops) (.processed .threw :: os) (.process :: .clearHandler :: ops')
        (.processed .threw :: .unit :: os')

theorem step_guarded (hG : GuardedUser user) (w : World C) (op : Op) :
    w.step B user fuel op = w.step B (calm user) fuel op ∨
    op = .process ∧ ∃ v, w.step B (calm user) fuel op = .ok (v, .processed .threw) ∧
      w.step B user fuel op = .ok (off v, .processed .threw) := by
  cases op with
  | process =>
    simp only [World.step, World.processMessages]
    by_cases hh : w.rx.hasHandler = true
    · simp only [hh, Bool.not_true, Bool.false_eq_true, if_false]
      rcases processLoop_guarded hG fuel w 0 with h | ⟨v, h1, h2⟩
      · rw [h]; exact Or.inl rfl
      · rw [h1, h2]; exact Or.inr ⟨trivial, v, rfl, rfl⟩
    · have hh : w.rx.hasHandler = false := by simpa using hh
      simp only [hh]; exact Or.inl rfl
  | _ => exact Or.inl rfl

theorem run_guarded (hG : GuardedUser user) (ops : List Op) : ∀ (w : World C), Legal B user fuel w ops →
    ∃ ops', Legal B (calm user) fuel w ops' ∧
      ((∃ f, w.run B user fuel ops = .error f ∧ w.run B (calm user) fuel ops' = .error f) ∨
       ∃ w' os os', w.run B user fuel ops = .ok (w', os) ∧ w.run B (calm user) fuel ops' = .ok (w', os') ∧
         Inserted ops os ops' os') := by
  induction ops with
  | nil => intro w _; exact ⟨[], trivial, Or.inr ⟨w, [], [], rfl, rfl, .nil⟩⟩
  | cons op ops ih =>
    intro w hl
    obtain ⟨h1, h2⟩ := hl
    cases hs : w.step B user fuel op with
    | error f =>
      rcases step_guarded (B := B) (fuel := fuel) hG w op with h | ⟨_, v, _, h⟩
      · rw [h] at hs
        refine ⟨[op], ⟨h1, fun w' o e => trivial⟩, Or.inl ⟨f, ?_, ?_⟩⟩
        · unfold World.run; rw [h, hs]; rfl
        · unfold World.run; rw [hs]; rfl
      · rw [h] at hs; cases hs
    | ok x =>
      obtain ⟨w1, o⟩ := x
      obtain ⟨ops', hl', hr⟩ := ih w1 (h2 w1 o hs)
      rcases step_guarded (B := B) (fuel := fuel) hG w op with h | ⟨rfl, v, h, h'⟩
      · rw [hs] at h
        refine ⟨op :: ops', ⟨h1, fun w' o' e => ?_⟩, ?_⟩
        · rw [← h] at e
          simp only [Except.ok.injEq, Prod.mk.injEq] at e
          rw [← e.1]; exact hl'
        · rcases hr with ⟨f, r1, r2⟩ | ⟨w', os, os', r1, r2, r3⟩
          · refine Or.inl ⟨f, ?_, ?_⟩
            · unfold World.run; rw [hs]; simp only [ok_bind, r1]; rfl
            · unfold World.run; rw [← h]; simp only [ok_bind, r2]; rfl
          · refine Or.inr ⟨w', o :: os, o :: os', ?_, ?_, .same op o r3⟩
            · unfold World.run; rw [hs]; simp only [ok_bind, r1]; rfl
            · unfold World.run; rw [← h]; simp only [ok_bind, r2]; rfl
      · rw [hs] at h'
        simp only [Except.ok.injEq, Prod.mk.injEq] at h'
        obtain ⟨rfl, rfl⟩ := h'
        refine ⟨.process :: .clearHandler :: ops', ⟨trivial, fun w' o' e => ⟨trivial, fun w'' o'' e' => ?_⟩⟩, ?_⟩
        · rw [h] at e
          simp only [Except.ok.injEq, Prod.mk.injEq] at e
          obtain ⟨rfl, _⟩ := e
          simp only [World.step, Except.ok.injEq, Prod.mk.injEq] at e'
          rw [← e'.1]; exact hl'
        · have hclear : v.step B (calm user) fuel .clearHandler = .ok (off v, .unit) := rfl
          rcases hr with ⟨f, r1, r2⟩ | ⟨w', os, os', r1, r2, r3⟩
          · refine Or.inl ⟨f, ?_, ?_⟩
            · unfold World.run; rw [hs]; simp only [ok_bind, r1]; rfl
            · unfold World.run; rw [h]; simp only [ok_bind]; unfold World.run; rw [hclear]; simp only [ok_bind, r2]; rfl
          · refine Or.inr ⟨w', _ :: os, _ :: .unit :: os', ?_, ?_, .cleared r3⟩
            · unfold World.run; rw [hs]; simp only [ok_bind, r1]; rfl
            · unfold World.run; rw [h]; simp only [ok_bind]; unfold World.run; rw [hclear]; simp only [ok_bind, r2]; rfl

/-- A handler that switches handling off, appends and calls `processMessages`, and sets a handler again; if there is no
space, it switches handling off and throws. -/
def careful : UserCode := fun calls free =>
  if calls.length = 1 ∧ 5 ≤ free then
    ⟨[.clearHandler, .process, .append [1, 0, 2, 3, 4], .process, .setHandler Sample.h1], false⟩
  else if calls.length = 2 then ⟨[.clearHandler, .process], true⟩
  else ⟨[], false⟩

theorem careful_guarded : GuardedUser careful := by
  intro calls free
  unfold careful
  split
  · rename_i h; exact ⟨by simp [Guarded], by simpa [appended] using h.2⟩
  · split
    · exact ⟨by simp [Guarded], by simp [appended]⟩
    · exact ⟨by simp [Guarded], by simp [appended]⟩

/-- C116 (reduction). A history with guarded handlers ends in the same state as one in which the handlers make the same calls
without `clearHandler` and `processMessages`, except that after some of the `processMessages` calls that threw the program calls
`clearHandler`. These handlers are within the rules of all other properties. -/
theorem C116_reduces (hA : Arith B (recvBufferSize C)) (hG : GuardedUser user) {ops : List Op} {w : World C}
    {os : List Obs} (h : Reached B user fuel ops w os) :
    Setting C B (calm user) ∧
      ∃ ops' os', Inserted ops os ops' os' ∧ Reached B (calm user) fuel ops' w os' := by
  refine ⟨⟨hA, calm_benign hG⟩, ?_⟩
  obtain ⟨ops', hl, hr⟩ := run_guarded hG ops _ h.legal
  rcases hr with ⟨f, r1, _⟩ | ⟨w', os2, os', r1, r2, r3⟩
  · rw [h.run] at r1; cases r1
  · rw [h.run] at r1
    simp only [Except.ok.injEq, Prod.mk.injEq] at r1
    obtain ⟨rfl, rfl⟩ := r1
    exact ⟨ops', os', r3, hl, r2⟩

/-- Two messages and a poll, the second handler call throws without a handler set; then handling is switched on again. -/
def carefully : List Op :=
  [.setHandler Sample.h0, .append ([9] ++ frames .basic [Sample.mLevel, Sample.mPing]), .process, .process,
   .setHandler Sample.h0, .process]

example : ∃ (w : World Sample.basic) (os : List Obs), Reached Sample.dbg careful 50 carefully w os ∧
    os = [.unit, .unit, .processed .threw, .processed (.returned 0), .unit, .processed (.returned 2)] ∧
    delivered w = [meaning Sample.basic Sample.mLevel, meaning Sample.basic Sample.mPing,
      meaning Sample.basic Sample.mPing, meaning Sample.basic Sample.mPing] ∧
    ∃ ops' os', Inserted carefully os ops' os' ∧ Reached Sample.dbg (calm careful) 50 ops' w os' := by
  obtain ⟨w, os, h, hp⟩ := Sample.reached (C := Sample.basic) (B := Sample.dbg) (user := careful) (fuel := 50)
    (ops := carefully) (fun w os => decide (os = [.unit, .unit, .processed .threw, .processed (.returned 0), .unit,
        .processed (.returned 2)]) &&
      decide (delivered w = [meaning Sample.basic Sample.mLevel, meaning Sample.basic Sample.mPing,
        meaning Sample.basic Sample.mPing, meaning Sample.basic Sample.mPing])) (by decide +kernel)
  simp only [Bool.and_eq_true, decide_eq_true_eq] at hp
  exact ⟨w, os, h, hp.1, hp.2, (C116_reduces ⟨by decide, by decide⟩ careful_guarded h).2⟩

/-- C116 (safety). No legal history with guarded handlers has undefined behaviour or fails an assertion. -/
theorem C116_safe (hA : Arith B (recvBufferSize C)) (hG : GuardedUser user) {ops : List Op}
    (hl : Legal B user fuel (World.new C) ops) :
    (World.new C).run B user fuel ops ≠ .error .ub ∧ (World.new C).run B user fuel ops ≠ .error .abort := by
  obtain ⟨ops', hl', hr⟩ := run_guarded hG ops _ hl
  have := C34_no_fault (⟨hA, calm_benign hG⟩ : Setting C B (calm user)) ops' hl'
  rcases hr with ⟨f, r1, r2⟩ | ⟨w', os2, os', r1, r2, r3⟩
  · rw [r2] at this; rw [r1]; exact this
  · rw [r1]; simp

example : (World.new Sample.basic).run Sample.dbg careful 50 carefully ≠ .error .ub ∧
    (World.new Sample.basic).run Sample.dbg careful 50 carefully ≠ .error .abort :=
  C116_safe ⟨by decide, by decide⟩ careful_guarded
    (Sample.reached (fun _ _ => true) (by decide +kernel)).choose_spec.choose_spec.1.legal

/-- C116 (termination). Appending from such handlers is the only way for `processMessages` not to return. -/
theorem C116_returns (hA : Arith B (recvBufferSize C)) (hG : GuardedUser user) (hq : Quiet user)
    (hf : capacity C < fuel) {ops : List Op} (hl : Legal B user fuel (World.new C) ops) :
    ∃ w os, (World.new C).run B user fuel ops = .ok (w, os) := by
  obtain ⟨ops', hl', hr⟩ := run_guarded hG ops _ hl
  have hq' : Quiet (calm user) := fun calls free => by
    simpa [calm, appended_calm] using hq calls free
  obtain ⟨w, os, h⟩ := C34_terminates (⟨hA, calm_benign hG⟩ : Setting C B (calm user)) hq' hf ops' hl'
  rcases hr with ⟨f, r1, r2⟩ | ⟨w', os2, os', r1, r2, r3⟩
  · rw [h] at r2; cases r2
  · exact ⟨w', os2, r1⟩

/-- A handler that switches handling off while it works. -/
def whileOff : UserCode := fun _ _ => ⟨[.clearHandler, .process, .setHandler Sample.h0, .clearHandler, .process,
  .setHandler Sample.h1], false⟩

theorem whileOff_guarded : GuardedUser whileOff := fun _ _ => ⟨by simp [Guarded, whileOff], by simp [appended, whileOff]⟩

example : ∃ w os, (World.new Sample.basic).run Sample.dbg whileOff 50 carefully = .ok (w, os) :=
  C116_returns ⟨by decide, by decide⟩ whileOff_guarded (fun _ _ => rfl) (by decide)
    (Sample.reached (fun _ _ => true) (by decide +kernel)).choose_spec.choose_spec.1.legal

theorem Inserted.same_ops {ops ops' : List Op} {os os' : List Obs} (h : Inserted ops os ops' os')
    (hn : ∀ o ∈ os, o ≠ .processed .threw) : ops' = ops ∧ os' = os := by
  induction h with
  | nil => exact ⟨rfl, rfl⟩
  | same op o _ ih =>
    obtain ⟨h1, h2⟩ := ih fun o h => hn o (by simp [h])
    exact ⟨by rw [h1], by rw [h2]⟩
  | cleared _ _ => exact absurd rfl (hn _ (by simp))

/-- C116 (no exceptions). As long as no `processMessages` throws, the guarded calls of `clearHandler` and `processMessages`
make no difference at all. -/
theorem C116_same (hA : Arith B (recvBufferSize C)) (hG : GuardedUser user) {ops : List Op} {w : World C}
    {os : List Obs} (h : Reached B user fuel ops w os) (hn : ∀ o ∈ os, o ≠ .processed .threw) :
    Reached B (calm user) fuel ops w os := by
  obtain ⟨_, ops', os', hi, h'⟩ := C116_reduces hA hG h
  obtain ⟨rfl, rfl⟩ := hi.same_ops hn
  exact h'

example : ∃ (w : World Sample.basic) (os : List Obs),
    Reached Sample.dbg careful 50 [.setHandler Sample.h0, .append [1, 1, 2, 7, 3, 4, 1]] w os ∧
    Reached Sample.dbg (calm careful) 50 [.setHandler Sample.h0, .append [1, 1, 2, 7, 3, 4, 1]] w os := by
  obtain ⟨w, os, h, hp⟩ := Sample.reached (C := Sample.basic) (B := Sample.dbg) (user := careful) (fuel := 50)
    (ops := [.setHandler Sample.h0, .append [1, 1, 2, 7, 3, 4, 1]])
    (fun _ os => decide (∀ o ∈ os, o ≠ .processed .threw)) (by decide +kernel)
  exact ⟨w, os, h, C116_same ⟨by decide, by decide⟩ careful_guarded h (by simpa using hp)⟩

theorem Inserted.threw {ops ops' : List Op} {os os' : List Obs} (h : Inserted ops os ops' os')
    (hm : .processed .threw ∈ os) : .processed .threw ∈ os' := by
  induction h with
  | nil => exact hm
  | same op o _ ih =>
    rcases List.mem_cons.mp hm with h | h
    · simp [h]
    · exact List.mem_cons_of_mem _ (ih h)
  | cleared _ _ => simp

theorem Exec.not_threw (hu : NeverThrows user) {s s' : AState} {ops : List Op} {ms : List Msg} {os : List Obs}
    (h : Exec C user s ops ms s' os) : .processed .threw ∉ os := by
  induction h with
  | nil => simp
  | cons hs _ ih =>
    intro hm
    rcases List.mem_cons.mp hm with rfl | hm
    · cases hs with
      | thrown _ hp => have := hp.no_throw hu; simp at this
    · exact ih hm

/-- C116 (delivery). With guarded handlers that do not throw, exactly the messages in the bytes received are delivered. -/
theorem C116_decodes (hA : Arith B (recvBufferSize C)) (hG : GuardedUser user) (hn : NeverThrows user) {ops : List Op}
    {w : World C} {os : List Obs} (h : Reached B user fuel (ops ++ [.process]) w os) (hh : w.rx.hasHandler = true) :
    ∃ ms, Decodes C w.fed ms (buffered w) ∧ delivered w = ms.map (meaning C) := by
  obtain ⟨S, ops', os', hi, h'⟩ := C116_reduces hA hG h
  have hn' : NeverThrows (calm user) := fun calls free => hn calls free
  have : ∀ o ∈ os, o ≠ .processed .threw := by
    intro o ho e
    subst e
    obtain ⟨s', ms, _, he⟩ := run_exec S.arith.lt64 S.benign S.arith (abs_new C) h'.legal h'.run
    exact Exec.not_threw hn' he (hi.threw ho)
  obtain ⟨rfl, rfl⟩ := hi.same_ops this
  exact C20_greedy S hn' h' hh

example : ∃ (w : World Sample.basic) (os : List Obs) (ms : List Msg),
    Reached Sample.dbg whileOff 50 ([.setHandler Sample.h0,
      .append ([9] ++ frames .basic [Sample.mLevel, Sample.mPing])] ++ [.process]) w os ∧
    Decodes Sample.basic w.fed ms (buffered w) ∧ delivered w = ms.map (meaning Sample.basic) ∧ ms.length = 2 := by
  obtain ⟨w, os, h, hp⟩ := Sample.reached (C := Sample.basic) (B := Sample.dbg) (user := whileOff) (fuel := 50)
    (ops := [.setHandler Sample.h0, .append ([9] ++ frames .basic [Sample.mLevel, Sample.mPing])] ++ [.process])
    (fun w _ => w.rx.hasHandler && decide ((delivered w).length = 2)) (by decide +kernel)
  simp only [Bool.and_eq_true, decide_eq_true_eq] at hp
  obtain ⟨ms, h1, h2⟩ := C116_decodes ⟨by decide, by decide⟩ whileOff_guarded (fun _ _ => rfl) h hp.1
  exact ⟨w, os, ms, h, h1, h2, by have := hp.2; rw [h2] at this; simpa using this⟩

/-- A handler that switches handling off and returns. -/
def leavesOff : UserCode := fun _ _ => ⟨[.clearHandler, .process], false⟩

/-- C116 (witness). The rule about the end is needed: a handler that leaves handling switched off and returns breaks it, and
with two messages received there is undefined behaviour. -/
theorem C116_leaves_off_witness : ¬ GuardedUser leavesOff ∧
    (∀ calls free, ∃ as, Guarded false true ((leavesOff calls free).acts ++ as)) ∧
    (World.new Sample.basic).run Sample.dbg leavesOff 50 carefully = .error .ub := by
  refine ⟨fun h => ?_, fun calls free => ⟨[.setHandler Sample.h0], ?_⟩, by decide +kernel⟩
  · have := (h [] 0).1
    simp [Guarded, leavesOff] at this
  · simp [Guarded, leavesOff]

/-- A handler that calls `processMessages` before it switches handling off. -/
def tooEarly : UserCode := fun calls _ =>
  if calls.length = 1 then ⟨[.process, .clearHandler, .setHandler Sample.h0], false⟩ else ⟨[], false⟩

/-- C116 (witness). The rule about `processMessages` is needed: a handler that calls it while there is a handler makes an
assertion fail. -/
theorem C116_early_witness : ¬ GuardedUser tooEarly ∧
    (∀ calls free, Guarded false false (tooEarly calls free).acts ∨ (tooEarly calls free).acts = []) ∧
    (World.new Sample.basic).run Sample.dbg tooEarly 50
      [.setHandler Sample.h0, .append (frames .basic [Sample.mPing]), .process] = .error .abort := by
  refine ⟨fun h => ?_, fun calls free => ?_, by decide +kernel⟩
  · have := (h [⟨0, Sample.level, [], true⟩] 0).1
    simp [Guarded, tooEarly] at this
  · unfold tooEarly
    split
    · exact Or.inl (by simp [Guarded])
    · exact Or.inr rfl

end TT.Properties
