import Verif.Proofs.Interrupts

/-!
# `processMessages` with no interrupts is the `processMessages` of Model/Receive.lean
-/

namespace TT

variable {C : Collection} {B : Build}

/-- A program whose line is silent, with `r` for the buffer of its receiver. -/
def IWorld.still (w : World C) (r : ERB C) : IWorld C :=
  { w := { w with rx := { w.rx with recv := r } }, line := [], ints := [] }

section
variable {w : World C} {r : ERB C}

theorem IWorld.still_tick : (still w r).tick B = .ok (still w r) := rfl

theorem IWorld.still_total : (still w r).total = r.bufferSize := rfl

theorem IWorld.still_size : (still w r).size B = .ok (still w r, r.bufferSize) := rfl

theorem IWorld.still_empty : (still w r).empty B = .ok (still w r, r.bufferEmpty) := rfl

theorem IWorld.still_front : (still w r).front B = (r.bufferFront B).map fun c => (still w r, c) := by
  show (Except.ok (still w r) >>= fun s => _) = _
  simp only [ok_bind, still]
  cases r.bufferFront B <;> rfl

theorem IWorld.still_at (i : Nat) : (still w r).at' B i = (r.buffer B i).map fun c => (still w r, c) := by
  show (Except.ok (still w r) >>= fun s => _) = _
  simp only [ok_bind, still]
  cases r.buffer B i <;> rfl

theorem IWorld.still_pop (n : Nat) : (still w r).pop B n = (r.bufferPopFront B n).map (still w) := by
  show (Except.ok (still w r) >>= fun s => _) = _
  simp only [ok_bind, still]
  cases r.bufferPopFront B n <;> rfl

theorem IWorld.still_setRecv (e : ERB C) : (still w r).setRecv e = still w e := rfl

theorem IWorld.still_recv : (still w r).w.rx.recv = r := rfl

end

theorem IWorld.still_skip (w : World C) : ∀ (fuel : Nat) (r : ERB C),
    IWorld.skip B fuel (still w r) = (skipToSOH B fuel r).map (still w)
  | 0, _ => rfl
  | fuel + 1, r => by
    simp only [IWorld.skip, skipToSOH, still_empty, ok_bind]
    split
    · rfl
    · rw [still_front]
      cases r.bufferFront B with
      | error e => rfl
      | ok c =>
        simp only [Except.map, ok_bind]
        split
        · rw [still_pop]
          cases r.bufferPopFront B 1 with
          | error e => rfl
          | ok r' => exact still_skip w fuel r'
        · rfl

/-- The result of a check, of the buffer and of the program. -/
def IWorld.stillBool (w : World C) (p : ERB C × Bool) : IWorld C × Bool := (still w p.1, p.2)

theorem IWorld.still_popAndRetry (w : World C) {retry : IWorld C → Res (IWorld C × Bool)}
    {retry' : ERB C → Res (ERB C × Bool)} (h : ∀ r, retry (still w r) = (retry' r).map (stillBool w)) (r : ERB C) :
    IWorld.popAndRetry B retry (still w r) = (TT.popAndRetry B retry' r).map (stillBool w) := by
  have hd : (if B.debug then do
      let (s, isEmpty) ← (still w r).empty B
      assertMsg B (!isEmpty)
      return s
    else (.ok (still w r) : Res (IWorld C))) = (assertMsg B (!r.bufferEmpty)).map fun _ => still w r := by
    rw [still_empty]
    simp only [ok_bind, assertMsg]
    cases B.debug <;> cases r.bufferEmpty <;> rfl
  unfold IWorld.popAndRetry TT.popAndRetry
  rw [hd]
  cases assertMsg B (!r.bufferEmpty) with
  | error e => rfl
  | ok u =>
    simp only [Except.map, ok_bind, still_empty]
    cases r.bufferEmpty with
    | true => rfl
    | false =>
      simp only [Bool.false_eq_true, if_false, still_pop]
      cases r.bufferPopFront B 1 with
      | error e => rfl
      | ok r' => exact h r'

theorem IWorld.still_checksum (w : World C) (r : ERB C) : ∀ (n i : Nat) (ck : Byte),
    IWorld.checksum B n i (still w r) ck = (checksumLoop B r ck i n).map fun c => (still w r, c)
  | 0, _, _ => rfl
  | n + 1, i, ck => by
    simp only [IWorld.checksum, checksumLoop, still_at]
    cases r.buffer B i with
    | error e => rfl
    | ok v =>
      simp only [Except.map, ok_bind]
      cases checksumComputer.writeByte ck v with
      | error e => rfl
      | ok ck' => exact still_checksum w r n (i + 1) ck'

theorem IWorld.still_checkBasic (w : World C) (hC : C.envelope = .basic) : ∀ (depth : Nat) (r : ERB C),
    IWorld.check B depth (still w r) = (checkBasic B depth r).map (stillBool w)
  | 0, _ => rfl
  | depth + 1, r => by
    have ih := still_popAndRetry (B := B) w (still_checkBasic w hC depth)
    simp only [IWorld.check, checkBasic, still_total, still_skip]
    cases skipToSOH B (r.bufferSize + 1) r with
    | error e => rfl
    | ok r1 =>
      simp only [Except.map, ok_bind, still_size]
      by_cases q1 : r1.bufferSize < 2
      · simp only [q1, if_true]
        rfl
      · simp only [q1, if_false]
        rw [still_at]
        cases r1.buffer B 1 with
        | error e => rfl
        | ok id =>
          simp only [Except.map, ok_bind, still_setRecv, still_recv]
          by_cases q2 : (r1.setCurrentMessageId id).isCurrentMessageIdValid = false
          · simp only [q2, Bool.not_false, if_true]
            exact ih _
          · simp only [(Bool.not_eq_false _).mp q2, Bool.not_true, Bool.false_eq_true, if_false]
            simp only [still_size, ok_bind]
            by_cases q3 : (r1.setCurrentMessageId id).bufferSize < 3
            · simp only [q3, if_true]
              rfl
            · simp only [q3, if_false]
              rw [still_at]
              cases (r1.setCurrentMessageId id).buffer B 2 with
              | error e => rfl
              | ok c2 =>
                simp only [Except.map, ok_bind, still_recv]
                by_cases q4 : ¬ c2 = STX
                · simp only [ne_eq, q4, not_false_eq_true, if_true]
                  exact ih _
                · simp only [ne_eq, q4, if_false]
                  cases (r1.setCurrentMessageId id).getMessageLength B with
                  | error e => rfl
                  | ok n =>
                    simp only [ok_bind, still_size]
                    by_cases q5 : (r1.setCurrentMessageId id).bufferSize < n
                    · simp only [q5, if_true]
                      rfl
                    · simp only [q5, if_false]
                      simp only [IWorld.ending, hC, still_at]
                      cases (r1.setCurrentMessageId id).buffer B (subT (recvBufferSize C) n 2) with
                      | error e => rfl
                      | ok e2 =>
                        simp only [Except.map, ok_bind]
                        by_cases h2 : e2 = ETX
                        · simp only [h2, ne_eq, not_true_eq_false, if_false]
                          rw [still_at]
                          cases (r1.setCurrentMessageId id).buffer B (subT (recvBufferSize C) n 1) with
                          | error e => rfl
                          | ok e1 =>
                            simp only [Except.map, ok_bind, pure_eq_ok]
                            by_cases h1 : e1 = EOT
                            · simp [h1, stillBool]
                            · simp only [h1, decide_false, Bool.false_eq_true, if_false, not_false_eq_true, decide_true,
                                if_true]
                              exact ih _
                        · simp only [h2, ne_eq, not_false_eq_true, if_true, ok_bind, pure_eq_ok, Bool.false_eq_true,
                            if_false]
                          exact ih _

theorem IWorld.still_checkChecksum (w : World C) (hC : C.envelope = .basicChecksum) : ∀ (depth : Nat) (r : ERB C),
    IWorld.check B depth (still w r) = (checkChecksum B depth r).map (stillBool w)
  | 0, _ => rfl
  | depth + 1, r => by
    have ih := still_popAndRetry (B := B) w (still_checkChecksum w hC depth)
    simp only [IWorld.check, checkChecksum, still_total, still_skip]
    cases skipToSOH B (r.bufferSize + 1) r with
    | error e => rfl
    | ok r1 =>
      simp only [Except.map, ok_bind, still_size]
      by_cases q1 : r1.bufferSize < 2
      · simp only [q1, if_true]
        rfl
      · simp only [q1, if_false]
        rw [still_at]
        cases r1.buffer B 1 with
        | error e => rfl
        | ok id =>
          simp only [Except.map, ok_bind, still_setRecv, still_recv]
          by_cases q2 : (r1.setCurrentMessageId id).isCurrentMessageIdValid = false
          · simp only [q2, Bool.not_false, if_true]
            exact ih _
          · simp only [(Bool.not_eq_false _).mp q2, Bool.not_true, Bool.false_eq_true, if_false]
            simp only [still_size, ok_bind]
            by_cases q3 : (r1.setCurrentMessageId id).bufferSize < 3
            · simp only [q3, if_true]
              rfl
            · simp only [q3, if_false]
              rw [still_at]
              cases (r1.setCurrentMessageId id).buffer B 2 with
              | error e => rfl
              | ok c2 =>
                simp only [Except.map, ok_bind, still_recv]
                by_cases q4 : ¬ c2 = STX
                · simp only [ne_eq, q4, not_false_eq_true, if_true]
                  exact ih _
                · simp only [ne_eq, q4, if_false]
                  cases (r1.setCurrentMessageId id).getMessageLength B with
                  | error e => rfl
                  | ok n =>
                    simp only [ok_bind, still_size]
                    by_cases q5 : (r1.setCurrentMessageId id).bufferSize < n
                    · simp only [q5, if_true]
                      rfl
                    · simp only [q5, if_false]
                      simp only [IWorld.ending, hC, still_at]
                      cases (r1.setCurrentMessageId id).buffer B (subT (recvBufferSize C) n 3) with
                      | error e => rfl
                      | ok e3 =>
                        simp only [Except.map, ok_bind]
                        by_cases h3 : e3 = ETX
                        · simp only [h3, ne_eq, not_true_eq_false, if_false]
                          rw [still_at]
                          cases (r1.setCurrentMessageId id).buffer B (subT (recvBufferSize C) n 1) with
                          | error e => rfl
                          | ok e1 =>
                            simp only [Except.map, ok_bind, pure_eq_ok]
                            by_cases h1 : e1 = EOT
                            · simp only [h1, not_true_eq_false, if_false, decide_false, Bool.false_eq_true,
                                still_checksum]
                              cases checksumLoop B (r1.setCurrentMessageId id) checksumInit 0 (n - 2) with
                              | error e => rfl
                              | ok ck =>
                                simp only [Except.map, ok_bind, still_at]
                                cases (r1.setCurrentMessageId id).buffer B (subT (recvBufferSize C) n 2) with
                                | error e => rfl
                                | ok f =>
                                  simp only [ok_bind]
                                  by_cases hk : ck = f
                                  · simp [hk, stillBool]
                                  · simp only [hk, decide_false, Bool.false_eq_true, if_false, not_false_eq_true,
                                      if_true]
                                    exact ih _
                            · simp only [h1, decide_true, Bool.false_eq_true, if_false, not_false_eq_true,
                                if_true, ok_bind]
                              exact ih _
                        · simp only [h3, ne_eq, not_false_eq_true, if_true, ok_bind, pure_eq_ok, Bool.false_eq_true,
                            if_false]
                          exact ih _

theorem IWorld.still_check (w : World C) (r : ERB C) :
    (still w r).checkBufferForMessage B = (r.checkBufferForMessage B).map (stillBool w) := by
  unfold IWorld.checkBufferForMessage ERB.checkBufferForMessage ERB.checkDepth
  rw [still_total]
  cases hC : C.envelope with
  | basic => exact still_checkBasic w hC _ _
  | basicChecksum => exact still_checkChecksum w hC _ _

theorem IWorld.still_popMessage (w : World C) (r : ERB C) :
    (still w r).popMessage B = (r.popMessage B).map (still w) := by
  have hd : (if B.debug then do
      let (s, ok) ← (still w r).checkBufferForMessage B
      assertMsg B ok
      return s
    else (.ok (still w r) : Res (IWorld C))) = (if B.debug then do
      let (r, ok) ← r.checkBufferForMessage B
      assertMsg B ok
      return r
    else .ok r : Res (ERB C)).map (still w) := by
    rw [still_check]
    cases B.debug with
    | false => rfl
    | true =>
      simp only [if_true]
      cases r.checkBufferForMessage B with
      | error e => rfl
      | ok p =>
        simp only [Except.map, ok_bind, stillBool]
        cases assertMsg B p.2 <;> rfl
  unfold IWorld.popMessage ERB.popMessage
  rw [hd]
  cases (if B.debug then do
      let (r, ok) ← r.checkBufferForMessage B
      assertMsg B ok
      return r
    else .ok r : Res (ERB C)) with
  | error e => rfl
  | ok r1 =>
    simp only [Except.map, ok_bind, still_recv]
    cases r1.getMessageLength B with
    | error e => rfl
    | ok n =>
      simp only [ok_bind, still_pop]
      cases r1.bufferPopFront B n <;> rfl

/-- A handler that does nothing to the receiver. -/
def idleUser : UserCode := fun _ _ => ⟨[], false⟩

theorem callHandler_idle (nested : World C → Res (World C × Outcome)) (w : World C) (i : Invocation) :
    w.callHandler B idleUser nested i = .ok ({ w with trace := w.trace ++ [i] }, false) := by
  unfold World.callHandler
  simp only []
  cases dispatch i <;> rfl

/-- A program that no byte reaches. -/
def IWorld.calmed (w : World C) : IWorld C := { w := w, line := [], ints := [] }

theorem IWorld.still_self (w : World C) : IWorld.calmed w = still w w.rx.recv := rfl

theorem IWorld.still_invoke (late : Bool) (w : World C) (id : Byte) :
    (calmed w).invoke B late id = (w.rx.invoke id).map fun i => (calmed w, i) := by
  unfold IWorld.invoke
  have ht : (calmed w).tick B = .ok (calmed w) := rfl
  rw [ht]
  simp only [ok_bind]
  cases late <;> simp only [ht, ok_bind, if_true, Bool.false_eq_true, if_false] <;>
    (show (w.rx.invoke id >>= _) = _; cases w.rx.invoke id <;> rfl)

theorem IWorld.calmed_loop (late : Bool) : ∀ (fuel : Nat) (w : World C) (n : Byte),
    IWorld.loop B late fuel (calmed w) = (World.processLoop B idleUser fuel w n).map fun p => calmed p.1
  | 0, _, _ => rfl
  | fuel + 1, w, n => by
    unfold IWorld.loop World.processLoop
    rw [still_self, still_check]
    cases w.rx.recv.checkBufferForMessage B with
    | error e => rfl
    | ok p =>
      obtain ⟨e, found⟩ := p
      simp only [Except.map, ok_bind, stillBool, still_recv]
      cases found with
      | false => rfl
      | true =>
        simp only [Bool.not_true, Bool.false_eq_true, if_false]
        cases e.getCurrentMessageId B with
        | error e => rfl
        | ok id =>
          simp only [ok_bind]
          have hi := still_invoke (B := B) late
            ({ w with rx := { w.rx with recv := e, lastMessageId := some id } }) id
          simp only [calmed] at hi
          simp only [still, hi]
          cases Receiver.invoke { w.rx with recv := e, lastMessageId := some id } id with
          | error e => rfl
          | ok i? =>
            simp only [Except.map, ok_bind]
            cases i? with
            | none =>
              simp only [Option.toList, List.append_nil, ok_bind, Bool.false_eq_true, if_false]
              have hp := still_popMessage (B := B)
                ({ w with rx := { w.rx with recv := e, lastMessageId := some id } }) e
              simp only [still] at hp
              rw [hp]
              cases e.popMessage B with
              | error e => rfl
              | ok e' => exact calmed_loop late fuel _ (n + 1)
            | some i =>
              simp only [Option.toList, callHandler_idle, ok_bind, Bool.false_eq_true, if_false]
              have hp := still_popMessage (B := B)
                ({ w with rx := { w.rx with recv := e, lastMessageId := some id }, trace := w.trace ++ [i] }) e
              simp only [still] at hp
              rw [hp]
              cases e.popMessage B with
              | error e => rfl
              | ok e' => exact calmed_loop late fuel _ (n + 1)

theorem IWorld.calmed_processMessages (late : Bool) (w : World C) :
    (calmed w).processMessages B late =
      (w.processMessages B idleUser (w.rx.recv.bufferSize + 1)).map fun p => calmed p.1 := by
  unfold IWorld.processMessages World.processMessages
  show (if !w.rx.hasHandler then _ else _) = _
  cases w.rx.hasHandler with
  | false => rfl
  | true => exact calmed_loop late _ w 0

end TT
