import Verif.Proofs.Moves
import Verif.Properties.Depth
import Verif.Properties.Sessions

/-!
# How many bytes appending moves: C77

What is counted is said at the top of `Verif.Model.Moves`.
-/

namespace TT.Properties
open Spec

variable {C : Collection} {B : Build} {user : UserCode} {fuel : Nat}

/-- The number of bytes a history asks the receiver to take: the lengths of the ranges appended and the
numbers of bytes announced by adapters. -/
def requested : List Op → Nat
  | [] => 0
  | .append xs :: ops => xs.length + requested ops
  | .receiveFrom avail _ :: ops => avail.toNat + requested ops
  | _ :: ops => requested ops

theorem step_grown (S : Setting C B user) {w w' : World C} {s : AState} {o : Obs} (hw : Abs w s)
    {op : Op} (hl : OpLegal w op) (hs : w.step B user fuel op = .ok (w', o)) :
    (w.moves B op = 0 ∧ ((∃ h, op = .setHandler h) ∨ op = .clearHandler ∨ op = .copy ∨
      op = .process)) ∨
    ∃ n k, n ≤ requested [op] ∧ k ≤ requested [op] ∧
      w.moves B op = w.rx.recv.buf.movedBy B n ∧
      Grown B w.rx.recv.buf s.buf n k w'.rx.recv.buf ∧
      (buffered w').length = s.buf.length + k ∧ w'.fed.length = s.fed.length + k := by
  have hc := S.arith.lt64
  have hsp := hw.space hc
  have hle : s.buf.length ≤ capacity C := by
    rw [capacity_eq]; exact RB.Holds.length_le hw.buf
  cases op with
  | append xs =>
    right
    have hl' : s.buf.length + xs.length ≤ recvBufferSize C := by
      unfold OpLegal at hl
      rw [← capacity_eq]; omega
    obtain ⟨w1, e1, ha1, _⟩ := append_ok hc hw (xs := xs) (by rw [capacity_eq]; exact hl')
    simp only [World.step, e1 B S.arith, ok_bind, pure_eq_ok, Except.ok.injEq, Prod.mk.injEq] at hs
    obtain ⟨rfl, _⟩ := hs
    have e2 := e1 B S.arith
    unfold World.append Receiver.appendReceived ERB.bufferAppend at e2
    cases hp : w.rx.recv.buf.pushBackRange B xs with
    | error f => rw [hp] at e2; simp at e2
    | ok b =>
      rw [hp] at e2
      simp only [ok_bind, pure_eq_ok, Except.ok.injEq] at e2
      refine ⟨trunc (recvBufferSize C) xs.length, xs.length, ?_, ?_, rfl, ?_, ?_, ?_⟩
      · rw [trunc_of_le hc (by omega)]; simp [requested]
      · simp [requested]
      · rw [← e2]; exact pushBackRange_grown hc S.arith hw.buf hl' hp
      · rw [ha1.buffered]; simp
      · rw [ha1.fed]; simp
  | receiveFrom avail rcv =>
    right
    unfold OpLegal at hl
    rw [hsp] at hl
    obtain ⟨r, e1, ha1⟩ := receiveFrom_ok hc hw rfl hl
    have e2 := e1 B S.arith
    unfold Receiver.receiveFrom ERB.bufferFromFunctorRef at e2
    cases hp : w.rx.recv.buf.bufferFromExternalFunctorRef B rcv avail.toNat with
    | error f => rw [hp] at e2; simp at e2
    | ok x =>
      obtain ⟨b, k⟩ := x
      rw [hp] at e2
      simp only [ok_bind, pure_eq_ok, Except.ok.injEq, Prod.mk.injEq] at e2
      obtain ⟨rfl, e2⟩ := e2
      have hk : k ≤ avail.toNat := by
        have := hl.1
        omega
      have hw' : w'.rx.recv.buf = b ∧ (buffered w').length = s.buf.length + k ∧
          w'.fed.length = s.fed.length + k := by
        simp only [World.step, e1 B S.arith, hsp, ok_bind, pure_eq_ok, Except.ok.injEq,
          Prod.mk.injEq] at hs
        obtain ⟨rfl, _⟩ := hs
        have htake : (rcv (UInt8.ofNat (min avail.toNat (capacity C - s.buf.length)))).written.take
            (rcv (UInt8.ofNat (min avail.toNat (capacity C - s.buf.length)))).ret.toNat =
            (rcv (UInt8.ofNat (min avail.toNat (capacity C - s.buf.length)))).written := by
          rw [hl.2, List.take_length]
        refine ⟨rfl, ?_, ?_⟩
        · have := ha1.buffered
          simp only [buffered] at this ⊢
          rw [this]; simp [e2]
        · have := ha1.fed
          simp only [htake] at this ⊢
          rw [this]; simp [e2]
      refine ⟨min avail.toNat (subT (recvBufferSize C) (recvBufferSize C) w.rx.recv.buf.size), k,
        ?_, ?_, rfl, ?_, hw'.2⟩
      · simp only [requested]; omega
      · simpa [requested] using hk
      · rw [hw'.1]
        refine functor_grown hc S.arith hw.buf ?_ hp
        rw [← capacity_eq, hl.2]
        exact hl.1
  | setHandler h => exact .inl ⟨rfl, .inl ⟨h, rfl⟩⟩
  | clearHandler => exact .inl ⟨rfl, .inr (.inl rfl)⟩
  | copy => exact .inl ⟨rfl, .inr (.inr (.inl rfl))⟩
  | process => exact .inl ⟨rfl, .inr (.inr (.inr rfl))⟩

/-- C77. No call moves more bytes than are waiting in the buffer. -/
theorem C77_call (S : Setting C B user) {ops : List Op} {w w' : World C} {os : List Obs} {o : Obs}
    (h : Reached B user fuel ops w os) {op : Op} (hl : OpLegal w op)
    (hs : w.step B user fuel op = .ok (w', o)) : w.moves B op ≤ (buffered w).length := by
  obtain ⟨s, ms, ha, _⟩ := h.exec S
  rw [ha.buffered]
  rcases step_grown S ha hl hs with ⟨h0, _⟩ | ⟨n, k, _, _, he, hg, _⟩
  · omega
  · rw [he]
    rcases hg with ⟨h1, _⟩ | ⟨h1, _⟩ <;> omega

theorem length_le_of_final {w : World C} {s : AState} (ha : Abs w s) (hf : Final C s.buf) :
    s.buf.length ≤ maxLen C := by
  by_cases hne : C.messages = []
  · have h1 := RB.Holds.length_le ha.buf
    rw [← capacity_eq, capacity] at h1
    have : maxLen C = 0 := by simp [maxLen, hne]
    omega
  · exact Nat.le_of_lt (final_length_lt hne hf)

/-- C77. If `processMessages` has just returned, the next call moves fewer bytes than the longest message
has (or none). -/
theorem C77_polled (S : Setting C B user) {ops : List Op} {w w1 w2 : World C} {os : List Obs}
    {n : UInt8} {o : Obs} (h : Reached B user fuel ops w os) (hh : w.rx.hasHandler = true)
    (hp : w.processMessages B user fuel = .ok (w1, .returned n)) {op : Op} (hl : OpLegal w1 op)
    (hs : w1.step B user fuel op = .ok (w2, o)) :
    w1.moves B op ≤ maxLen C - 1 := by
  obtain ⟨s, ms, ha, _⟩ := h.exec S
  rw [ha.hasHandler] at hh
  rcases processMessages_spec S.arith.lt64 S.benign fuel ha hh with
    ⟨_, hd⟩ | ⟨w1', s1, ms1, th, h1, ha1, hpr, hs1, _⟩
  · rw [hd B S.arith] at hp; simp at hp
  · rw [h1 B S.arith] at hp
    simp only [Except.ok.injEq, Prod.mk.injEq] at hp
    obtain ⟨rfl, hp⟩ := hp
    cases th with
    | true => simp at hp
    | false =>
      have hfin := proc_final hpr rfl
      have hlen : s1.buf.length ≤ maxLen C - 1 := by
        by_cases hne : C.messages = []
        · have h1 := RB.Holds.length_le ha1.buf
          rw [← capacity_eq, capacity] at h1
          have : maxLen C = 0 := by simp [maxLen, hne]
          omega
        · have := final_length_lt hne hfin
          omega
      rcases step_grown S ha1 hl hs with ⟨h0, _⟩ | ⟨n, k, _, _, he, hg, _⟩
      · omega
      · rw [he]
        rcases hg with ⟨h1, _⟩ | ⟨h1, _⟩ <;> omega

theorem moves_run (S : Setting C B user) (hn : NeverAppends user) (ht : NeverThrows user)
    (ops : List Op) : ∀ {w w' : World C} {s : AState} {os : List Obs} {req moved fresh : Nat},
    Abs w s → Legal B user fuel w ops → w.run B user fuel ops = .ok (w', os) →
    Account (maxLen C) w.rx.recv.buf s.buf.length req s.fed.length moved fresh →
    2 * (moved + w.runMoves B user fuel ops) ≤ req + requested ops + 4 * w'.fed.length := by
  have hc := S.arith.lt64
  induction ops with
  | nil =>
    intro w w' s os req moved fresh ha _ hr hacc
    simp only [World.run, Except.ok.injEq, Prod.mk.injEq] at hr
    rw [← hr.1, ha.fed]
    have := hacc.paid
    simp only [World.runMoves, requested]
    omega
  | cons op ops ih =>
    intro w w' s os req moved fresh ha hl hr hacc
    obtain ⟨hl1, hl2⟩ := hl
    unfold World.run at hr
    cases hs : w.step B user fuel op with
    | error f => rw [hs] at hr; simp at hr
    | ok x =>
      obtain ⟨w1, o⟩ := x
      have hl3 := hl2 w1 o hs
      rw [hs] at hr
      simp only [ok_bind] at hr
      cases hr2 : w1.run B user fuel ops with
      | error f => rw [hr2] at hr; simp at hr
      | ok y =>
        obtain ⟨w2, os2⟩ := y
        rw [hr2] at hr
        simp only [ok_bind, pure_eq_ok, Except.ok.injEq, Prod.mk.injEq] at hr
        obtain ⟨rfl, _⟩ := hr
        unfold World.runMoves
        simp only [hs]
        have hreq : requested (op :: ops) = requested [op] + requested ops := by
          cases op <;> simp [requested]
        rcases step_ok hc S.benign fuel ha hl1 with ⟨_, rfl, hd⟩ | ⟨w1', s1, ms, o1, h1, ha1, hst⟩
        · rw [hd B S.arith] at hs; simp at hs
        · rw [h1 B S.arith] at hs
          simp only [Except.ok.injEq, Prod.mk.injEq] at hs
          obtain ⟨rfl, rfl⟩ := hs
          have fin : ∀ fresh1, Account (maxLen C) w1'.rx.recv.buf s1.buf.length
              (req + requested [op]) s1.fed.length (moved + w.moves B op) fresh1 →
              2 * (moved + (w.moves B op + w1'.runMoves B user fuel ops)) ≤
                req + requested (op :: ops) + 4 * w2.fed.length := by
            intro fresh1 hacc1
            have := ih ha1 hl3 hr2 hacc1
            omega
          rcases step_grown S ha hl1 (h1 B S.arith) with ⟨h0, hop⟩ | ⟨n, k, hn1, hk, he, hg, hb, hf⟩
          · rcases hop with ⟨hd, rfl⟩ | rfl | rfl | rfl
            · cases hst
              refine fin fresh ?_
              rw [h0]
              have := h1 B S.arith
              simp only [World.step, Except.ok.injEq, Prod.mk.injEq] at this
              rw [← this.1]
              exact hacc
            · cases hst
              refine fin fresh ?_
              rw [h0]
              have := h1 B S.arith
              simp only [World.step, Except.ok.injEq, Prod.mk.injEq] at this
              rw [← this.1]
              exact hacc
            · cases hst
              refine fin fresh ⟨hacc.short, ?_⟩
              rw [h0]
              have hpaid := hacc.paid
              obtain ⟨b, hb, hh, hz⟩ := RB.Holds.copyConstruct_ok hc ha.buf
              have := h1 B S.arith
              simp only [World.step, Receiver.copyConstruct, hb, ok_bind, pure_eq_ok,
                Except.ok.injEq, Prod.mk.injEq] at this
              rw [← this.1]
              simp only [hz, if_true]
              have h3 := hh.pe
              have h4 := RB.Holds.pe ha.buf
              simp only [requested]
              omega
            · cases hst with
              | idle hnone =>
                refine fin fresh ?_
                rw [h0]
                have := h1 B S.arith
                simp only [World.step, processMessages_none ha hnone, ok_bind, pure_eq_ok,
                  Except.ok.injEq, Prod.mk.injEq] at this
                rw [← this.1]
                exact hacc
              | thrown _ hp => exact absurd (hp.no_throw ht) (by simp)
              | process hsome hp =>
                refine fin 0 ⟨?_, ?_⟩
                · exact length_le_of_final ha1 (proc_final hp rfl)
                · rw [h0]
                  have hpaid := hacc.paid
                  have hpop : w1'.rx.recv.buf.pastEnd = w.rx.recv.buf.pastEnd := by
                    have := h1 B S.arith
                    simp only [World.step] at this
                    cases hpm : w.processMessages B user fuel with
                    | error f => rw [hpm] at this; simp at this
                    | ok z =>
                      rw [hpm] at this
                      simp only [ok_bind, pure_eq_ok, Except.ok.injEq, Prod.mk.injEq] at this
                      rw [← this.1]
                      exact (processMessages_popped hn fuel w z hpm).2
                  obtain ⟨app, _, _, hf, _⟩ := hp.sound
                  have hfl : s.fed.length ≤ s1.fed.length := by rw [hf]; simp
                  rw [hpop]
                  simp only [requested, Nat.mul_zero, ite_self]
                  omega
          · refine fin (fresh + k) ?_
            rw [ha1.buffered] at hb
            rw [ha1.fed] at hf
            rw [hb, hf, he]
            refine hacc.grow ?_ ha.buf hn1 hk hg
            rw [← capacity_eq]; rfl

/-- C77. A whole history with handlers that neither append nor throw: the bytes moved are at most twice
the bytes received plus half the bytes asked for; so if all bytes asked for arrive, each byte received is
moved at most two and a half times on average, whatever the lengths of messages and pieces are and however
often `processMessages` is called. -/
theorem C77_history (S : Setting C B user) (hn : NeverAppends user) (ht : NeverThrows user)
    {ops : List Op} {w : World C} {os : List Obs} (h : Reached B user fuel ops w os) :
    2 * (World.new C).runMoves B user fuel ops ≤ requested ops + 4 * w.fed.length := by
  have := moves_run S hn ht ops (abs_new C) h.legal h.run (req := 0) (moved := 0) (fresh := 0)
    ⟨by simp [AState.new], by simp [World.new, Receiver.new, ERB.new, RB.new]⟩
  omega

/-- User code that throws at every second call. -/
def everySecond : UserCode := fun calls _ => ⟨[], calls.length % 2 == 0⟩

/-- A frame of `ping`, then `processMessages`. -/
def pingRound : List Op := [.append (frame .basic Sample.mPing), .process]

/-- C77. Without the assumption on throwing the bound fails: a handler that throws at every second call
keeps the buffer nearly full, and each five bytes received cause thirty bytes to be moved. -/
theorem C77_throw_witness : ∃ (w : World Sample.basic) (os : List Obs),
    Reached Sample.dbg everySecond 50
      ([.setHandler Sample.h0, .append (frames .basic (List.replicate 7 Sample.mPing)), .process] ++
        pingRound ++ pingRound ++ pingRound ++ pingRound ++ pingRound ++ pingRound) w os ∧
    w.fed.length = 65 ∧ (World.new Sample.basic).runMoves Sample.dbg everySecond 50
      ([.setHandler Sample.h0, .append (frames .basic (List.replicate 7 Sample.mPing)), .process] ++
        pingRound ++ pingRound ++ pingRound ++ pingRound ++ pingRound ++ pingRound) = 180 := by
  obtain ⟨w, os, h1, h2⟩ := Sample.reached (B := Sample.dbg) (user := everySecond) (fuel := 50)
    (ops := [.setHandler Sample.h0, .append (frames .basic (List.replicate 7 Sample.mPing)),
      .process] ++ pingRound ++ pingRound ++ pingRound ++ pingRound ++ pingRound ++ pingRound)
    (fun (w : World Sample.basic) _ => w.fed.length == 65) (by decide +kernel)
  exact ⟨w, os, h1, by simpa using h2, by decide +kernel⟩

/-- Messages in pieces of eleven bytes, `processMessages` after each piece. -/
def pieces : List Op :=
  let stream := frames .basic [Sample.mPose, Sample.mLevel, Sample.mPose, Sample.mLevel, Sample.mPose]
  [.setHandler Sample.h0, .append (stream.take 11), .process, .append ((stream.drop 11).take 11),
   .process, .append ((stream.drop 22).take 11), .process, .append ((stream.drop 33).take 11), .process]

/-- The hypotheses of C77_history hold of a history in which bytes are moved: 3 of 44. -/
example : NeverAppends Sample.passive ∧ NeverThrows Sample.passive ∧
    ∃ (w : World Sample.basic) (os : List Obs),
      Reached Sample.dbg Sample.passive 50 pieces w os ∧ (w.fed.length == 44 &&
        (World.new Sample.basic).runMoves Sample.dbg Sample.passive 50 pieces == 3) = true :=
  ⟨fun _ _ _ => by simp [Sample.passive], Sample.passive_neverThrows,
    Sample.reached (fun (w : World Sample.basic) _ => w.fed.length == 44 &&
        (World.new Sample.basic).runMoves Sample.dbg Sample.passive 50 pieces == 3) (by decide +kernel)⟩

/-- The hypotheses of C77_call and C77_polled hold of a call that moves three bytes. -/
example : ∃ (w w1 : World Sample.basic) (os : List Obs),
    Reached Sample.dbg Sample.passive 50 (pieces.take 6) w os ∧
    w.processMessages Sample.dbg Sample.passive 50 = .ok (w1, .returned 1) ∧
    (w.rx.hasHandler && decide (9 ≤ w1.rx.getBufferAvailableSpace) &&
      w1.moves Sample.dbg (.append (List.replicate 9 0x55)) == 3) = true :=
  Sample.processes (.returned 1) (fun w w1 => w.rx.hasHandler &&
    decide (9 ≤ w1.rx.getBufferAvailableSpace) &&
      w1.moves Sample.dbg (.append (List.replicate 9 0x55)) == 3) (by decide +kernel)

end TT.Properties
