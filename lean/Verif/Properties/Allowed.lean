import Verif.Properties.Receiver
import Verif.Properties.Buffer

/-!
# Property C121: whatever does not fail has kept the rules
-/

namespace TT.Properties
open Spec

variable {C : Collection} {B : Build} {user : UserCode} {fuel : Nat}

/-- Handlers that call back only `appendReceived` (with as many bytes as they like) and `setHandler`. -/
def PlainUser (user : UserCode) : Prop := ∀ calls free, ∀ a ∈ (user calls free).acts, a ≠ .clearHandler ∧ a ≠ .process

/-- The same handlers, except that they do something else where they would append more than the free space. -/
def within (user alt : UserCode) : UserCode := fun calls free =>
  if (appended (user calls free).acts).length ≤ free then user calls free else alt calls free

/-- The program has failed: undefined behaviour, or (in a build with assertions) a failed assertion. -/
def Failed {α : Type} (B : Build) (r : Res α) : Prop := r = .error .ub ∨ (B.debug = true ∧ r = .error .abort)

/-- Devices that never write more than they are allowed to, and return the number of bytes written. -/
def GoodDevices (ops : List Op) : Prop :=
  ∀ avail rcv, Op.receiveFrom avail rcv ∈ ops → ∀ limit ≤ avail.toNat, GoodReply limit (rcv (UInt8.ofNat limit))

theorem within_benign {alt : UserCode} (hu : PlainUser user) (hb : BenignUser alt) : BenignUser (within user alt) := by
  intro calls free
  unfold within
  split
  · rename_i h; exact ⟨hu calls free, h⟩
  · exact hb calls free

theorem Failed.bind {α β : Type} {r : Res α} (h : Failed B r) (f : α → Res β) : Failed B (r >>= f) := by
  rcases h with rfl | ⟨hd, rfl⟩
  · exact Or.inl rfl
  · exact Or.inr ⟨hd, rfl⟩

theorem append_failed (ha : Arith B (recvBufferSize C)) {w : World C} {s : AState} (h : Abs w s) {xs : List Byte}
    (hl : capacity C < s.buf.length + xs.length) : Failed B (w.append B xs) := by
  rw [capacity_eq] at hl
  have hle := RB.Holds.length_le h.buf
  have : Failed B (w.rx.recv.buf.pushBackRange B xs) := (overfull_holds ha h.buf (by omega)).1
  exact ((this.bind _).bind _).bind _

theorem runActs_failed (ha : Arith B (recvBufferSize C)) (nested : World C → Res (World C × Outcome)) (acts : List Act) :
    ∀ {w : World C} {s : AState}, Abs w s → (∀ a ∈ acts, a ≠ .clearHandler ∧ a ≠ .process) →
    capacity C - s.buf.length < (appended acts).length → Failed B (World.runActs B nested w acts) := by
  have hc := ha.lt64
  induction acts with
  | nil => intro w s _ _ h; simp [appended] at h
  | cons a acts ih =>
    intro w s h hp hl
    have hpt : ∀ a ∈ acts, a ≠ .clearHandler ∧ a ≠ .process := fun a ha => hp a (by simp [ha])
    cases a with
    | append xs =>
      simp only [appended, List.length_append] at hl
      have hle : s.buf.length ≤ capacity C := by
        rw [capacity_eq]; exact RB.Holds.length_le h.buf
      by_cases hx : s.buf.length + xs.length ≤ capacity C
      · obtain ⟨w1, h1, ha1, _⟩ := append_ok hc h hx
        have := ih ha1 hpt (by simp; omega)
        simpa [World.runActs, h1 B ha] using this
      · exact (append_failed ha h (by omega)).bind _
    | setHandler hd =>
      have ha1 : Abs { w with rx := w.rx.setHandler hd } { s with handler := some hd } :=
        ⟨h.buf, rfl, rfl, h.last, h.trace, h.fed⟩
      have := ih ha1 hpt hl
      simpa [World.runActs] using this
    | clearHandler => exact absurd rfl (hp .clearHandler (by simp)).1
    | process => exact absurd rfl (hp .process (by simp)).2

/-- One call: the same as with `within user alt`, or a failure. -/
theorem callHandler_within (ha : Arith B (recvBufferSize C)) {alt : UserCode} (hu : PlainUser user)
    (nested nested' : World C → Res (World C × Outcome)) {w : World C} {s : AState} (hw : Abs w s) (i : Invocation) :
    World.callHandler B user nested w i = World.callHandler B (within user alt) nested' w i ∨
      Failed B (World.callHandler B user nested w i) := by
  have hc := ha.lt64
  have hw1 : Abs { w with trace := w.trace ++ [i] } { s with trace := s.trace ++ [i] } :=
    ⟨hw.buf, hw.invoker, hw.functor, hw.last, by simp [hw.trace], hw.fed⟩
  have hsp := hw1.space hc
  simp only at hsp
  unfold World.callHandler
  cases hd : dispatch i with
  | none => exact Or.inl rfl
  | some c =>
    simp only
    rw [hsp]
    by_cases hf : (appended (user ({ w with trace := w.trace ++ [i] } : World C).userCalls
        (capacity C - s.buf.length)).acts).length ≤ capacity C - s.buf.length
    · left
      have e : within user alt ({ w with trace := w.trace ++ [i] } : World C).userCalls (capacity C - s.buf.length) =
          user ({ w with trace := w.trace ++ [i] } : World C).userCalls (capacity C - s.buf.length) := by
        unfold within
        rw [if_pos hf]
      obtain ⟨w2, h2, _⟩ := runActs_ok hc _ hw1 ⟨hu ({ w with trace := w.trace ++ [i] } : World C).userCalls _, hf⟩
      rw [e, h2 B nested ha, h2 B nested' ha]
    · right
      exact (runActs_failed ha nested _ hw1 (hu _ _) (by simp only; omega)).bind _

theorem processLoop_within (ha : Arith B (recvBufferSize C)) {alt : UserCode} (hu : PlainUser user) (halt : BenignUser alt) (fuel : Nat) :
    ∀ (w : World C) (s : AState) (n : Byte), Abs w s → s.handler.isSome →
    World.processLoop B user fuel w n = World.processLoop B (within user alt) fuel w n ∨
      Failed B (World.processLoop B user fuel w n) := by
  have hc := ha.lt64
  have hb := within_benign hu halt
  induction fuel with
  | zero => intro w s n _ _; exact Or.inl rfl
  | succ fuel ih =>
    intro w s n hw hh
    obtain ⟨h, hh⟩ := Option.isSome_iff_exists.mp hh
    obtain ⟨e1, found, ys, h1, _, hh1, hr1, _, ht1, hf1⟩ := check_spec hc hw.buf
    cases found with
    | false =>
      left
      obtain ⟨w1, _, e⟩ := processLoop_miss hc hw ⟨hr1, hf1 rfl⟩
      rw [e B user, e B (within user alt)]
    | true =>
      obtain ⟨m, t, hm, rfl, hid⟩ := ht1 rfl
      obtain ⟨w1, hw1, hi1, step⟩ := processLoop_hit hc hw hm hr1
      have hinv : w1.rx.invoke m.id = .ok (some (callOf C h m)) :=
        invoke_ok (k := h.kind) (o := h.obj) hm hw1.buf (by simp [hw1.invoker, hh]) (by simp [hw1.functor, hh])
      obtain ⟨w2, h2, ha2, hi2⟩ := callHandler_from hc (n0 := 0) (fun calls free _ => hb calls free) hw1
        (h := h) (m := m) (t := t) (Nat.zero_le _) hh rfl rfl
      rw [step B user fuel n, step B (within user alt) fuel n, hinv]
      simp only [ok_bind]
      rcases callHandler_within ha hu (fun w => if !w.rx.hasHandler then .ok (w, .returned 0)
          else World.processLoop B user fuel w 0) (fun w => if !w.rx.hasHandler then .ok (w, .returned 0)
          else World.processLoop B (within user alt) fuel w 0) hw1 (callOf C h m) with e | e
      · rw [e, h2 B _ ha]
        simp only [ok_bind]
        by_cases hthrow : (afterCall C (within user alt) { s with buf := frame C.envelope m ++ t, last := some m.id } h m t).2 = true
        · left
          simp only [hthrow, if_true]
        · simp only [hthrow, if_false, Bool.false_eq_true]
          have hb2 : w2.rx.recv.Holds (frame C.envelope m ++ (t ++
              appended (reaction (within user alt) s.trace (callOf C h m)
                (capacity C - (frame C.envelope m ++ t).length)).acts)) := by
            have := ha2.buf
            simp only [afterCall, List.append_assoc] at this
            exact this
          obtain ⟨e3, h3, hh3, _⟩ := popMessage_ok hc hm hb2 (by rw [hi2]; exact hi1)
          rw [h3 B]
          simp only [ok_bind]
          refine ih _ { (afterCall C (within user alt) s h m t).1 with
              buf := (afterCall C (within user alt) s h m t).1.buf.drop (frame C.envelope m).length } _ ?_ ?_
          · refine ⟨?_, ha2.invoker, ha2.functor, ha2.last, ha2.trace, ha2.fed⟩
            simp only [afterCall, List.append_assoc, List.drop_left]
            exact hh3
          · obtain ⟨h', e'⟩ := handlerAfter_isSome
              (reaction (within user alt) s.trace (callOf C h m)
                (capacity C - (frame C.envelope m ++ t).length)).acts
              (capacity C - (frame C.envelope m ++ t).length) h
              (reaction_benign_from (n := 0) (fun calls free _ => hb calls free) (Nat.zero_le _) _ _)
            simp only [afterCall, e', Option.isSome_some]
      · exact Or.inr (e.bind _)

/-- One API call: legal and the same as with `within user alt`, or a failure. -/
theorem step_within (ha : Arith B (recvBufferSize C)) {alt : UserCode} (hu : PlainUser user) (halt : BenignUser alt) {w : World C} {s : AState} (hw : Abs w s)
    {op : Op} (hd : GoodDevices [op]) :
    (OpLegal w op ∧ w.step B user fuel op = w.step B (within user alt) fuel op) ∨ Failed B (w.step B user fuel op) := by
  have hc := ha.lt64
  have hsp := hw.space hc
  have hle : s.buf.length ≤ capacity C := by
    rw [capacity_eq]; exact RB.Holds.length_le hw.buf
  cases op with
  | append xs =>
    by_cases hx : s.buf.length + xs.length ≤ capacity C
    · exact Or.inl ⟨by simp only [OpLegal, hsp]; omega, rfl⟩
    · exact Or.inr ((append_failed ha hw (by omega)).bind _)
  | receiveFrom avail rcv =>
    exact Or.inl ⟨hd avail rcv (by simp) _ (Nat.min_le_left _ _), rfl⟩
  | process =>
    cases hh : s.handler with
    | none =>
      left
      refine ⟨trivial, ?_⟩
      simp [World.step, processMessages_none hw hh]
    | some h =>
      have hhas : w.rx.hasHandler = true := by rw [hw.hasHandler]; simp [hh]
      rcases processLoop_within ha hu halt fuel w s 0 hw (by simp [hh]) with e | e
      · left
        refine ⟨trivial, ?_⟩
        simp [World.step, World.processMessages, hhas, e]
      · right
        have : w.processMessages B user fuel = World.processLoop B user fuel w 0 := by
          simp [World.processMessages, hhas]
        exact (show Failed B (w.processMessages B user fuel) from this ▸ e).bind _
  | setHandler h => exact Or.inl ⟨trivial, rfl⟩
  | clearHandler => exact Or.inl ⟨trivial, rfl⟩
  | copy => exact Or.inl ⟨trivial, rfl⟩

theorem run_within (ha : Arith B (recvBufferSize C)) {alt : UserCode} (hu : PlainUser user) (halt : BenignUser alt) (ops : List Op) (hd : GoodDevices ops) :
    ∀ {w : World C} {s : AState}, Abs w s →
    (Legal B (within user alt) fuel w ops ∧ Legal B user fuel w ops ∧ w.run B user fuel ops = w.run B (within user alt) fuel ops) ∨
      Failed B (w.run B user fuel ops) := by
  have hc := ha.lt64
  have hb := within_benign hu halt
  induction ops with
  | nil => intro w s _; exact Or.inl ⟨trivial, trivial, rfl⟩
  | cons op ops ih =>
    intro w s hw
    have hd' : ∀ {w : World C} {s : AState}, Abs w s → _ := @ih fun avail rcv h => hd avail rcv (by simp [h])
    rcases step_within (fuel := fuel) ha hu halt hw (op := op)
      (fun avail rcv h => hd avail rcv (by simp at h; simp [h])) with ⟨hl, e⟩ | e
    · rcases step_ok hc hb fuel hw hl with ⟨_, _, hdv⟩ | ⟨w1, s1, ms1, o1, h1, ha1, _⟩
      · left
        rw [hdv B ha] at e
        refine ⟨⟨hl, fun w' o h => ?_⟩, ⟨hl, fun w' o h => ?_⟩, ?_⟩
        · rw [hdv B ha] at h; cases h
        · rw [e] at h; cases h
        · simp only [World.run]
          rw [e, hdv B ha]; rfl
      · rw [h1 B ha] at e
        rcases hd' ha1 with ⟨g1, g2, g3⟩ | g
        · left
          refine ⟨⟨hl, fun w' o h => ?_⟩, ⟨hl, fun w' o h => ?_⟩, ?_⟩
          · rw [h1 B ha] at h; cases h; exact g1
          · rw [e] at h; cases h; exact g2
          · simp only [World.run]
            rw [e, h1 B ha]
            simp only [ok_bind, g3]
        · right
          simp only [World.run]
          rw [e]
          exact g.bind _
    · right
      exact e.bind _

/-- Handlers that do nothing. -/
def doNothing : UserCode := fun _ _ => ⟨[], false⟩

theorem doNothing_benign : BenignUser doNothing := fun _ _ => ⟨by simp [doNothing], by simp [doNothing, appended]⟩

theorem legal_not_failed (S : Setting C B user) {ops : List Op} (hl : Legal B user fuel (World.new C) ops) :
    ¬ Failed B ((World.new C).run B user fuel ops) := by
  obtain ⟨h1, h2⟩ := C34_no_fault S ops hl
  rintro (h | ⟨_, h⟩)
  · exact h1 h
  · exact h2 h

/-- C121. A program whose handlers call back only `appendReceived`, with as many bytes as they like, and `setHandler`, does
not fail if and only if all its calls were legal, and what its handlers would have done where they append more than the
free space did not matter: whatever they did instead there, within the rules, the program would have gone the same way. -/
theorem C121_not_failed (ha : Arith B (recvBufferSize C)) (hu : PlainUser user) (ops : List Op) (hd : GoodDevices ops) :
    ¬ Failed B ((World.new C).run B user fuel ops) ↔
      Legal B user fuel (World.new C) ops ∧ ∀ alt, BenignUser alt → BenignUser (within user alt) ∧
        Legal B (within user alt) fuel (World.new C) ops ∧
        (World.new C).run B user fuel ops = (World.new C).run B (within user alt) fuel ops := by
  constructor
  · intro h
    refine ⟨?_, fun alt halt => ⟨within_benign hu halt, ?_⟩⟩
    · rcases run_within ha hu doNothing_benign ops hd (fuel := fuel) (abs_new C) with ⟨_, h2, _⟩ | h'
      · exact h2
      · exact absurd h' h
    · rcases run_within ha hu halt ops hd (fuel := fuel) (abs_new C) with ⟨h1, _, h3⟩ | h'
      · exact ⟨h1, h3⟩
      · exact absurd h' h
  · rintro ⟨_, h⟩
    obtain ⟨h1, h2, h3⟩ := h doNothing doNothing_benign
    rw [h3]
    exact legal_not_failed ⟨ha, h1⟩ h2

/-- C121. So whatever state a program gets to without failing is one that a program gets to that keeps all rules: the
other properties hold of it. If its handlers do not throw, neither do those of the other program. -/
theorem C121_kept (ha : Arith B (recvBufferSize C)) (hu : PlainUser user) {ops : List Op} (hd : GoodDevices ops)
    {w : World C} {os : List Obs} (h : (World.new C).run B user fuel ops = .ok (w, os)) :
    ∃ user', Setting C B user' ∧ (NeverThrows user → NeverThrows user') ∧ Reached B user' fuel ops w os ∧
      ∀ calls free, (appended (user calls free).acts).length ≤ free → user' calls free = user calls free := by
  have hnf : ¬ Failed B ((World.new C).run B user fuel ops) := by
    rw [h]
    rintro (h | ⟨_, h⟩) <;> cases h
  obtain ⟨_, h1⟩ := (C121_not_failed ha hu ops hd).mp hnf
  obtain ⟨h1, h2, h3⟩ := h1 doNothing doNothing_benign
  refine ⟨_, ⟨ha, h1⟩, fun hn calls free => ?_, ⟨h2, h3 ▸ h⟩, fun calls free hf => ?_⟩
  · unfold within
    split
    · exact hn calls free
    · rfl
  · unfold within
    rw [if_pos hf]

/-- C121. For handlers that keep the rules, the rules for the rest of the program are exact: it does not fail if and only if
no `appendReceived` is given more bytes than `getBufferAvailableSpace()` says. -/
theorem C121_exact (S : Setting C B user) (ops : List Op) (hd : GoodDevices ops) :
    ¬ Failed B ((World.new C).run B user fuel ops) ↔ Legal B user fuel (World.new C) ops :=
  ⟨fun h => ((C121_not_failed S.arith (fun calls free => (S.benign calls free).1) ops hd).mp h).1, legal_not_failed S⟩

/-- C121. Bytes that do not fit are never dropped silently, nor taken in part: `appendReceived` fails. -/
theorem C121_never_silent (S : Setting C B user) {ops : List Op} {w : World C} {os : List Obs}
    (h : Reached B user fuel ops w os) {xs : List Byte} (hx : w.rx.getBufferAvailableSpace < xs.length) :
    Failed B (w.append B xs) := by
  obtain ⟨s, _, ha, _⟩ := h.exec S
  refine append_failed S.arith ha ?_
  rw [ha.space S.arith.lt64] at hx
  omega

/-- A handler that appends ten more bytes whenever it is called. -/
def greedy : UserCode := fun _ _ => ⟨[.append (List.replicate 10 0)], false⟩

theorem greedy_plain : PlainUser greedy := by
  intro calls free a ha
  simp only [greedy, List.mem_singleton] at ha
  subst ha
  simp

/-- A handler that appends ten bytes is fine as long as there is room for them, and fails when there is not. -/
example : (∃ w os, (World.new Sample.basic).run Sample.dbg greedy 50
      [.setHandler Sample.h0, .append [1, 0, 2, 3, 4], .process] = .ok (w, os) ∧ (delivered w).length = 1) ∧
    Failed Sample.dbg ((World.new Sample.basic).run Sample.dbg greedy 50
      [.setHandler Sample.h0, .append ([1, 0, 2, 3, 4] ++ List.replicate (capacity Sample.basic - 5) 0), .process]) ∧
    GoodDevices [.setHandler Sample.h0, .append [1, 0, 2, 3, 4], .process] := by
  refine ⟨?_, ?_, ?_⟩
  · have : (match (World.new Sample.basic).run Sample.dbg greedy 50
        [.setHandler Sample.h0, .append [1, 0, 2, 3, 4], .process] with
      | .ok (w, _) => decide ((delivered w).length = 1)
      | .error _ => false) = true := by decide +kernel
    split at this
    · rename_i w os e
      exact ⟨w, os, e, by simpa using this⟩
    · cases this
  · exact Or.inr ⟨rfl, by decide +kernel⟩
  · intro avail rcv h
    simp at h

/-- Room for three bytes, four bytes do not fit. -/
example : ∃ (w : World Sample.basic) (os : List Obs), Reached Sample.dbg Sample.passive 50
    [.append (List.replicate (capacity Sample.basic - 3) 0)] w os ∧ w.rx.getBufferAvailableSpace < [1, 2, 3, 4].length := by
  obtain ⟨w, os, h, hp⟩ := Sample.reached (C := Sample.basic) (B := Sample.dbg)
    (user := Sample.passive) (fuel := 50) (ops := [.append (List.replicate (capacity Sample.basic - 3) 0)])
    (fun w _ => decide (w.rx.getBufferAvailableSpace < [1, 2, 3, 4].length)) (by decide +kernel)
  exact ⟨w, os, h, by simpa using hp⟩

end TT.Properties
