import Verif.Spec.History
import Verif.Proofs.Machine
import Verif.Proofs.Process

/-!
# Helper lemmas: histories of API calls refine the abstract machine
-/

namespace TT
open Spec

variable {C : Collection} {user : UserCode}

theorem abs_new (C : Collection) : Abs (World.new C) AState.new :=
  ⟨RB.holds_new _, rfl, rfl, rfl, rfl, rfl⟩

theorem processMessages_spec (hc : recvBufferSize C < 2 ^ 64) (hu : BenignUser user)
    (fuel : Nat) {w : World C} {s : AState} (hw : Abs w s) (hh : s.handler.isSome) :
    (Keeps C user fuel s ∧
      ∀ B, Arith B (recvBufferSize C) → w.processMessages B user fuel = .error .diverge) ∨
    ∃ (w' : World C) (s' : AState) (ms : List Msg) (thrown : Bool),
      (∀ B, Arith B (recvBufferSize C) → w.processMessages B user fuel =
        .ok (w', if thrown then .threw else .returned (UInt8.ofNat ms.length))) ∧
      Abs w' s' ∧ Proc C user s ms s' thrown ∧ s'.handler.isSome ∧ ms.length < fuel := by
  have := processLoop_spec hc hu fuel w s 0 hw hh
  unfold World.processMessages
  rw [hw.hasHandler, hh]
  simpa using this

/-- If the abstract machine finishes, so does the code, given enough fuel. -/
theorem processMessages_total (hc : recvBufferSize C < 2 ^ 64) (hu : BenignUser user)
    {fuel : Nat} {w : World C} {s s' : AState} {ms : List Msg} {th : Bool} (hw : Abs w s)
    (hh : s.handler.isSome) (hp : Proc C user s ms s' th) (hf : ms.length < fuel) :
    ∃ w' : World C, (∀ B, Arith B (recvBufferSize C) → w.processMessages B user fuel =
        .ok (w', if th then .threw else .returned (UInt8.ofNat ms.length))) ∧ Abs w' s' := by
  rcases processMessages_spec hc hu fuel hw hh with ⟨hk, _⟩ | ⟨w', s1, ms1, th1, h1, h2, h3, _⟩
  · have := hp.keeps_le hk; omega
  · obtain ⟨rfl, rfl, rfl⟩ := hp.unique h3
    exact ⟨w', h1, h2⟩

/-- If there are too many messages for the fuel, it runs out. -/
theorem processMessages_keeps (hc : recvBufferSize C < 2 ^ 64) (hu : BenignUser user)
    {fuel : Nat} {w : World C} {s : AState} (hw : Abs w s) (hh : s.handler.isSome)
    (hk : Keeps C user fuel s) (B : Build) (hB : Arith B (recvBufferSize C)) :
    w.processMessages B user fuel = .error .diverge := by
  rcases processMessages_spec hc hu fuel hw hh with ⟨_, h⟩ | ⟨w', s1, ms1, th1, _, _, h3, _, h5⟩
  · exact h B hB
  · have := h3.keeps_le hk; omega

theorem processMessages_none {w : World C} {s : AState} (hw : Abs w s) (hh : s.handler = none)
    (B : Build) (fuel : Nat) : w.processMessages B user fuel = .ok (w, .returned 0) := by
  unfold World.processMessages
  rw [hw.hasHandler, hh]
  rfl

theorem copy_ok (hc : recvBufferSize C < 2 ^ 64) {w : World C} {s : AState} (hw : Abs w s) :
    ∃ r : Receiver C, w.rx.copyConstruct = .ok r ∧ Abs { w with rx := r } s ∧
      r.invoker = w.rx.invoker ∧ r.functorPointer = w.rx.functorPointer ∧
      r.lastMessageId = w.rx.lastMessageId ∧
      r.recv.currentMessageId = w.rx.recv.currentMessageId := by
  obtain ⟨b, hb, hh, _⟩ := RB.Holds.copyConstruct_ok hc hw.buf
  refine ⟨{ w.rx with recv := { w.rx.recv with buf := b } }, ?_,
    ⟨hh, hw.invoker, hw.functor, hw.last, hw.trace, hw.fed⟩, rfl, rfl, rfl, rfl⟩
  simp [Receiver.copyConstruct, hb]

theorem receiveFrom_ok (hc : recvBufferSize C < 2 ^ 64) {w : World C} {s : AState} (hw : Abs w s)
    {avail : Byte} {rcv : Byte → RB.DeviceReply} {limit : Nat}
    (hl : limit = min avail.toNat (capacity C - s.buf.length))
    (hg : GoodReply limit (rcv (UInt8.ofNat limit))) :
    ∃ r : Receiver C, (∀ B, Arith B (recvBufferSize C) →
        w.rx.receiveFrom B { numAvailable := avail, receive := rcv } =
        .ok (r, (rcv (UInt8.ofNat limit)).written.length)) ∧
      Abs { w with rx := r, fed := w.fed ++ (rcv (UInt8.ofNat limit)).written }
        { s with buf := s.buf ++ (rcv (UInt8.ofNat limit)).written,
                 fed := s.fed ++ (rcv (UInt8.ofNat limit)).written } := by
  have ho : RB.offer (recvBufferSize C) s.buf avail.toNat = limit := by
    rw [hl, capacity_eq]; rfl
  obtain ⟨hg1, hg2⟩ := hg
  obtain ⟨b, hb, hh⟩ := RB.Holds.functor_ok hc hw.buf (n := avail.toNat) (f := rcv)
    (by rw [ho]; exact hg1) (by rw [ho]; omega)
  rw [ho] at hb hh
  rw [hg2] at hb hh
  rw [List.take_length] at hh
  refine ⟨{ w.rx with recv := { w.rx.recv with buf := b } }, fun B hA => ?_,
    ⟨hh, hw.invoker, hw.functor, hw.last, hw.trace, by simp [hw.fed]⟩⟩
  simp [Receiver.receiveFrom, ERB.bufferFromFunctorRef, hb B hA]

/-- One legal API call: out of fuel, or what the abstract machine does. -/
theorem step_ok (hc : recvBufferSize C < 2 ^ 64) (hu : BenignUser user) (fuel : Nat)
    {w : World C} {s : AState} (hw : Abs w s) {op : Op} (hl : OpLegal w op) :
    (Keeps C user fuel s ∧ op = .process ∧
      ∀ B, Arith B (recvBufferSize C) → w.step B user fuel op = .error .diverge) ∨
    ∃ (w' : World C) (s' : AState) (ms : List Msg) (o : Obs),
      (∀ B, Arith B (recvBufferSize C) → w.step B user fuel op = .ok (w', o)) ∧
      Abs w' s' ∧ Step C user s op ms s' o := by
  have hsp := hw.space hc
  have hle : s.buf.length ≤ capacity C := by
    rw [capacity_eq]; exact RB.Holds.length_le hw.buf
  cases op with
  | append xs =>
    right
    simp only [OpLegal, hsp] at hl
    have hl' : s.buf.length + xs.length ≤ capacity C := by omega
    obtain ⟨w1, h1, ha1, _⟩ := append_ok hc hw hl'
    exact ⟨w1, _, [], .unit, fun B hA => by simp [World.step, h1 B hA], ha1, Step.append hl'⟩
  | receiveFrom avail rcv =>
    right
    simp only [OpLegal, hsp] at hl
    obtain ⟨r, h1, ha1⟩ := receiveFrom_ok hc hw rfl hl
    refine ⟨_, _, [], _, fun B hA => ?_, ha1, Step.receive rfl hl⟩
    simp only [World.step, h1 B hA, hsp, ok_bind, pure_eq_ok]
    rw [hl.2, List.take_length]
  | process =>
    cases hh : s.handler with
    | none =>
      right
      exact ⟨w, s, [], _, fun B _ => by simp [World.step, processMessages_none hw hh], hw,
        Step.idle hh⟩
    | some h =>
      rcases processMessages_spec hc hu fuel hw (by simp [hh]) with
        ⟨hk, hd⟩ | ⟨w1, s1, ms, th, h1, h2, h3, _⟩
      · left
        exact ⟨hk, rfl, fun B hA => by simp [World.step, hd B hA]⟩
      · right
        cases th with
        | false => exact ⟨w1, s1, ms, _, fun B hA => by simp [World.step, h1 B hA], h2,
            Step.process (by simp [hh]) h3⟩
        | true => exact ⟨w1, s1, ms, _, fun B hA => by simp [World.step, h1 B hA], h2,
            Step.thrown (by simp [hh]) h3⟩
  | setHandler h =>
    right
    exact ⟨_, { s with handler := some h }, [], .unit, fun B _ => rfl,
      ⟨hw.buf, rfl, rfl, hw.last, hw.trace, hw.fed⟩, Step.setHandler⟩
  | clearHandler =>
    right
    exact ⟨_, { s with handler := none }, [], .unit, fun B _ => rfl,
      ⟨hw.buf, rfl, rfl, hw.last, hw.trace, hw.fed⟩, Step.clearHandler⟩
  | copy =>
    right
    obtain ⟨r, h1, h2, _⟩ := copy_ok hc hw
    exact ⟨_, s, [], .unit, fun B _ => by simp [World.step, h1], h2, Step.copy⟩

/-- A legal history: out of fuel, or what the abstract machine does; the build does not matter. -/
theorem run_ok (hc : recvBufferSize C < 2 ^ 64) (hu : BenignUser user) (fuel : Nat)
    {B0 : Build} (hB0 : Arith B0 (recvBufferSize C)) (ops : List Op) :
    ∀ {w : World C} {s : AState}, Abs w s → Legal B0 user fuel w ops →
    ((∀ B, Arith B (recvBufferSize C) → w.run B user fuel ops = .error .diverge) ∧
      ∃ s1, fuel * 5 ≤ s1 ∧ (Quiet user → s1 ≤ capacity C)) ∨
    ∃ (w' : World C) (s' : AState) (ms : List Msg) (os : List Obs),
      (∀ B, Arith B (recvBufferSize C) → w.run B user fuel ops = .ok (w', os)) ∧
      Abs w' s' ∧ Exec C user s ops ms s' os := by
  induction ops with
  | nil => intro w s hw _; exact Or.inr ⟨w, s, [], [], fun B _ => rfl, hw, Exec.nil s⟩
  | cons op ops ih =>
    intro w s hw hl
    obtain ⟨hl1, hl2⟩ := hl
    rcases step_ok hc hu fuel hw hl1 with ⟨hk, _, hd⟩ | ⟨w1, s1, ms1, o1, h1, ha1, hs1⟩
    · left
      refine ⟨fun B hA => by simp [World.run, hd B hA], fuel * 5, Nat.le_refl _, fun hq => ?_⟩
      have := hk.quiet_le hq
      have hle : s.buf.length ≤ capacity C := by
        rw [capacity_eq]; exact RB.Holds.length_le hw.buf
      omega
    · rcases ih ha1 (hl2 _ _ (h1 B0 hB0)) with ⟨hd, hq⟩ | ⟨w2, s2, ms2, os2, h2, ha2, hs2⟩
      · left
        exact ⟨fun B hA => by simp [World.run, h1 B hA, hd B hA], hq⟩
      · right
        exact ⟨w2, s2, _, _, fun B hA => by simp [World.run, h1 B hA, h2 B hA], ha2,
          Exec.cons hs1 hs2⟩

/-- A history that finished: what the abstract machine does. -/
theorem run_exec (hc : recvBufferSize C < 2 ^ 64) (hu : BenignUser user) {fuel : Nat}
    {B : Build} (hB : Arith B (recvBufferSize C)) {ops : List Op} {w w' : World C} {s : AState}
    {os : List Obs} (hw : Abs w s) (hl : Legal B user fuel w ops)
    (hr : w.run B user fuel ops = .ok (w', os)) :
    ∃ s' ms, Abs w' s' ∧ Exec C user s ops ms s' os := by
  rcases run_ok hc hu fuel hB ops hw hl with ⟨hd, _⟩ | ⟨w1, s1, ms, os1, h1, h2, h3⟩
  · rw [hd B hB] at hr; simp at hr
  · rw [h1 B hB] at hr
    simp at hr
    obtain ⟨rfl, rfl⟩ := hr
    exact ⟨s1, ms, h2, h3⟩

/-- With handlers that never append, enough fuel means the history finishes. -/
theorem run_total (hc : recvBufferSize C < 2 ^ 64) (hu : BenignUser user) (hq : Quiet user)
    {fuel : Nat} (hf : capacity C < fuel) {B : Build} (hB : Arith B (recvBufferSize C))
    {ops : List Op} {w : World C} {s : AState} (hw : Abs w s) (hl : Legal B user fuel w ops) :
    ∃ w' os, w.run B user fuel ops = .ok (w', os) := by
  rcases run_ok hc hu fuel hB ops hw hl with ⟨_, n, hn, hq'⟩ | ⟨w1, s1, ms, os1, h1, _, _⟩
  · have := hq' hq; omega
  · exact ⟨w1, os1, h1 B hB⟩

end TT
