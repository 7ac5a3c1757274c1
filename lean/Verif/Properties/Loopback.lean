import Verif.Model.Loopback
import Verif.Properties.Guarded
import Verif.Properties.Storage
import Verif.Properties.Network

/-!
# Property about a transmitter connected to a receiver in the same program: C118
-/

namespace TT.Properties
open Spec

variable {C : Collection} {B : Build} {user : UserCode} {fuel : Nat}

/-! ### C118 -/

/-- The calls on the receiver a call on the transmitter amounts to. -/
def piece (sync : Bool) : Out → List Op
  | .byte b => [.append [b]]
  | .block bs => [.append bs]
  | .finished => if sync then [.process] else []

/-- The calls on the receiver one `send` amounts to. -/
def loopPieces (sync : Bool) (C : Collection) (r : Request) : List Op :=
  (script C.envelope (UInt8.ofNat (C.messages.idxOf r.t)) r.vs).flatMap (piece sync)

/-- The outputs of `send` without the last one. -/
def dataOf (E : Envelope) (id : Byte) (vs : List Value) : List Out := (script E id vs).dropLast

theorem script_dataOf (E : Envelope) (id : Byte) (vs : List Value) :
    script E id vs = dataOf E id vs ++ [.finished] := by
  unfold dataOf script
  rw [List.dropLast_concat]

theorem dataOf_mem {E : Envelope} {id : Byte} {vs : List Value} : ∀ o ∈ dataOf E id vs, o ≠ .finished := by
  intro o ho
  unfold dataOf script at ho
  rw [List.dropLast_concat] at ho
  have hf : ∀ v, outField v ≠ .finished := by
    intro v
    unfold outField
    split <;> simp
  rintro rfl
  cases E <;> simp at ho <;> (obtain ⟨v, _, hv⟩ := ho; exact hf v hv)

/-- What the receiver makes of calls, seen by the transmitter. -/
def asLoop : Res (World C × List Obs) → Res (World C × Bool)
  | .ok (w, os) => .ok (w, os.getLast? == some (.processed .threw))
  | .error f => .error f

theorem loop_byte (sync : Bool) (w : World C) (b : Byte) : (loopTx B user fuel sync).writeByte (w, false) b =
    (w.append B [b]).bind fun w => .ok (w, false) := rfl

theorem loop_block (sync : Bool) (w : World C) (bs : List Byte) : (loopTx B user fuel sync).write (w, false) bs =
    (w.append B bs).bind fun w => .ok (w, false) := rfl

theorem feed_data (sync : Bool) (os : List Out) (h : ∀ o ∈ os, o ≠ .finished) : ∀ w : World C,
    feed (loopTx B user fuel sync) (w, false) os =
      match w.run B user fuel (os.flatMap (piece sync)) with
      | .ok (w', _) => .ok (w', false)
      | .error f => .error f := by
  induction os with
  | nil => intro w; rfl
  | cons o os ih =>
    intro w
    have ih := ih fun o ho => h o (List.mem_cons_of_mem _ ho)
    have hne := h o (List.mem_cons_self ..)
    cases o with
    | finished => exact absurd rfl hne
    | byte b =>
      simp only [feed, Out.on, loop_byte, List.flatMap_cons, piece, List.cons_append, List.nil_append, World.run, World.step]
      cases w.append B [b] with
      | error f => rfl
      | ok w1 =>
        simp only [ok_bind, Except.bind, pure_eq_ok]
        rw [ih w1]
        cases w1.run B user fuel (os.flatMap (piece sync)) <;> rfl
    | block bs =>
      simp only [feed, Out.on, loop_block, List.flatMap_cons, piece, List.cons_append, List.nil_append, World.run, World.step]
      cases w.append B bs with
      | error f => rfl
      | ok w1 =>
        simp only [ok_bind, Except.bind, pure_eq_ok]
        rw [ih w1]
        cases w1.run B user fuel (os.flatMap (piece sync)) <;> rfl

theorem data_obs (sync : Bool) (os : List Out) (h : ∀ o ∈ os, o ≠ .finished) : ∀ {w w' : World C} {obs : List Obs},
    w.run B user fuel (os.flatMap (piece sync)) = .ok (w', obs) → ∀ o ∈ obs, o = .unit := by
  induction os with
  | nil =>
    intro w w' obs e
    simp only [List.flatMap_nil, World.run, Except.ok.injEq, Prod.mk.injEq] at e
    obtain ⟨_, rfl⟩ := e
    intro o ho; cases ho
  | cons o os ih =>
    intro w w' obs e
    have ih := @ih fun o ho => h o (List.mem_cons_of_mem _ ho)
    have key : ∀ xs, w.run B user fuel (.append xs :: os.flatMap (piece sync)) = .ok (w', obs) → ∀ o ∈ obs, o = .unit := by
      intro xs e
      simp only [World.run, World.step] at e
      cases ha : w.append B xs with
      | error f => simp [ha] at e
      | ok w1 =>
        simp only [ha, ok_bind, pure_eq_ok] at e
        cases hr : w1.run B user fuel (os.flatMap (piece sync)) with
        | error f => simp [hr] at e
        | ok p =>
          simp only [hr, ok_bind, Except.ok.injEq, Prod.mk.injEq] at e
          obtain ⟨rfl, rfl⟩ := e
          intro o ho
          rcases List.mem_cons.mp ho with rfl | ho
          · rfl
          · exact ih hr o ho
    cases o with
    | finished => exact absurd rfl (h _ (List.mem_cons_self ..))
    | byte b => exact key [b] e
    | block bs => exact key bs e

theorem run_append_eq (w : World C) (a b : List Op) : w.run B user fuel (a ++ b) =
    match w.run B user fuel a with
    | .error f => .error f
    | .ok (w1, os1) => match w1.run B user fuel b with
      | .error f => .error f
      | .ok (w2, os2) => .ok (w2, os1 ++ os2) := by
  induction a generalizing w with
  | nil => simp only [List.nil_append, World.run]; cases w.run B user fuel b <;> rfl
  | cons op a ih =>
    simp only [List.cons_append, World.run]
    cases w.step B user fuel op with
    | error f => rfl
    | ok p =>
      simp only [ok_bind]
      rw [ih]
      cases p.1.run B user fuel a with
      | error f => rfl
      | ok q =>
        simp only [ok_bind, pure_eq_ok]
        cases q.1.run B user fuel b <;> rfl

/-- C118 (sending is appending). `send` on the connected transmitter does to the receiver exactly what the calls of
`appendReceived` do (and of `processMessages`, if messages are handled at once), whatever state the receiver is in and
whatever happens, faults included. -/
theorem C118_is_appending (sync : Bool) {r : Request} (hg : r.C = C) (h : Sendable C r.t r.vs) (w : World C) :
    send C r.t (loopTx B user fuel sync) (w, false) r.vs = some (asLoop (w.run B user fuel (loopPieces sync C r))) := by
  subst hg
  rw [send_eq _ _ _ _ _ h (idOf_idxOf h.1 h.2.1), loopPieces, script_dataOf, feed_append, feed_data _ _ dataOf_mem,
    List.flatMap_append, run_append_eq]
  cases hr : w.run B user fuel ((dataOf r.C.envelope (UInt8.ofNat (r.C.messages.idxOf r.t)) r.vs).flatMap (piece sync)) with
  | error f => rfl
  | ok p =>
    obtain ⟨w1, os1⟩ := p
    have ho := data_obs sync _ dataOf_mem hr
    cases sync with
    | false =>
      simp only [Except.bind, feed, Out.on, loopTx, piece, List.flatMap_cons, List.flatMap_nil, Bool.not_false, Bool.or_true,
        if_true, Bool.false_eq_true, if_false, List.append_nil, World.run, asLoop, Option.some.injEq, Except.ok.injEq,
        Prod.mk.injEq, true_and]
      cases hl : os1.getLast? with
      | none => rfl
      | some o => rw [ho o (List.mem_of_getLast? hl)]; rfl
    | true =>
      simp only [Except.bind, feed, Out.on, loopTx, piece, List.flatMap_cons, List.flatMap_nil, Bool.not_true, Bool.or_false,
        if_true, Bool.false_eq_true, if_false, List.append_nil, World.run, World.step]
      cases w1.processMessages B user fuel with
      | error f => rfl
      | ok q =>
        obtain ⟨w2, o⟩ := q
        cases o <;> simp [asLoop]

example : send Sample.basic Sample.level (loopTx Sample.dbg Sample.passive 50 true) (World.new Sample.basic, false) Sample.levelVals =
    some (asLoop ((World.new Sample.basic).run Sample.dbg Sample.passive 50
      [.append [1], .append [1], .append [2], .append [0x2A], .append [3], .append [4], .process])) :=
  C118_is_appending true (r := ⟨Sample.basic, Sample.level, Sample.levelVals⟩) rfl (by decide) _

theorem outBytes_dataOf (E : Envelope) (id : Byte) (vs : List Value) :
    outBytes (dataOf E id vs) = frame E ⟨id, payloadOf vs⟩ := by
  rw [← outBytes_script, script_dataOf]
  simp [outBytes, Out.bytes]

theorem appends_ok (S : Setting C B user) (sync : Bool) (os : List Out) (h : ∀ o ∈ os, o ≠ .finished) :
    ∀ {w : World C} {s : AState}, Abs w s → s.buf.length + (outBytes os).length ≤ capacity C →
    ∃ w' obs, w.run B user fuel (os.flatMap (piece sync)) = .ok (w', obs) ∧
      Legal B user fuel w (os.flatMap (piece sync)) ∧
      Abs w' { s with buf := s.buf ++ outBytes os, fed := s.fed ++ outBytes os } := by
  induction os with
  | nil =>
    intro w s ha _
    exact ⟨w, [], rfl, trivial, by simpa [outBytes] using ha⟩
  | cons o os ih =>
    intro w s ha hl
    have ih := @ih fun o ho => h o (List.mem_cons_of_mem _ ho)
    have key : ∀ xs, o.bytes = xs → ∃ w' obs, w.run B user fuel (.append xs :: os.flatMap (piece sync)) = .ok (w', obs) ∧
        Legal B user fuel w (.append xs :: os.flatMap (piece sync)) ∧
        Abs w' { s with buf := s.buf ++ outBytes (o :: os), fed := s.fed ++ outBytes (o :: os) } := by
      intro xs hx
      have e : outBytes (o :: os) = xs ++ outBytes os := by simp [outBytes, hx]
      rw [e, List.length_append] at hl
      obtain ⟨w1, h1, h2, _⟩ := append_ok S.arith.lt64 ha (xs := xs) (by omega)
      have h1 := h1 B S.arith
      obtain ⟨w2, obs, r1, r2, r3⟩ := ih h2 (by simp only [List.length_append]; omega)
      refine ⟨w2, .unit :: obs, ?_, ⟨?_, ?_⟩, ?_⟩
      · simp [World.run, World.step, h1, r1]
      · show xs.length ≤ w.rx.getBufferAvailableSpace
        rw [ha.space S.arith.lt64]; omega
      · intro w' o hs
        simp only [World.step, h1, ok_bind, pure_eq_ok, Except.ok.injEq, Prod.mk.injEq] at hs
        obtain ⟨rfl, _⟩ := hs
        exact r2
      · rw [e]
        simpa [List.append_assoc] using r3
    cases o with
    | finished => exact absurd rfl (h _ (List.mem_cons_self ..))
    | byte b => exact key [b] rfl
    | block bs => exact key bs rfl

/-- The data of a request and what follows. -/
theorem loopPieces_eq (sync : Bool) (C : Collection) (r : Request) : loopPieces sync C r =
    (dataOf C.envelope (UInt8.ofNat (C.messages.idxOf r.t)) r.vs).flatMap (piece sync) ++
      if sync then [.process] else [] := by
  rw [loopPieces, script_dataOf, List.flatMap_append]
  simp [piece]

theorem request_ok (S : Setting C B user) (sync : Bool) (r : Request) {w : World C} {s : AState} (ha : Abs w s)
    (hl : (wire C r.t r.vs).length ≤ w.rx.getBufferAvailableSpace) :
    ∃ w' obs, w.run B user fuel ((dataOf C.envelope (UInt8.ofNat (C.messages.idxOf r.t)) r.vs).flatMap (piece sync)) =
        .ok (w', obs) ∧
      Legal B user fuel w ((dataOf C.envelope (UInt8.ofNat (C.messages.idxOf r.t)) r.vs).flatMap (piece sync)) ∧
      Abs w' { s with buf := s.buf ++ wire C r.t r.vs, fed := s.fed ++ wire C r.t r.vs } := by
  have e : outBytes (dataOf C.envelope (UInt8.ofNat (C.messages.idxOf r.t)) r.vs) = wire C r.t r.vs := outBytes_dataOf ..
  rw [ha.space S.arith.lt64] at hl
  have hle : s.buf.length ≤ capacity C := by
    rw [capacity_eq]; exact RB.Holds.length_le ha.buf
  have := appends_ok (fuel := fuel) S sync (dataOf C.envelope (UInt8.ofNat (C.messages.idxOf r.t)) r.vs) dataOf_mem ha
    (by rw [e]; omega)
  rwa [e] at this

/-- C118 (a message that fits). `send` of a message that fits in the free space of the receiver succeeds; the message is then
in the buffer, behind what was there, no handler has been called, and the receiver is in a state it can also be in
without a transmitter (so everything proved of receivers applies). -/
theorem C118_arrives (S : Setting C B user) {ops : List Op} {w : World C} {os : List Obs} (h : Reached B user fuel ops w os)
    {r : Request} (hg : r.C = C) (hs : Sendable C r.t r.vs) (hl : (wire C r.t r.vs).length ≤ w.rx.getBufferAvailableSpace) :
    ∃ w' ops' os', send C r.t (loopTx B user fuel false) (w, false) r.vs = some (.ok (w', false)) ∧
      Reached B user fuel (ops ++ ops') w' os' ∧ buffered w' = buffered w ++ wire C r.t r.vs ∧
      w'.fed = w.fed ++ wire C r.t r.vs ∧ w'.trace = w.trace ∧ currentHandler w' = currentHandler w := by
  obtain ⟨s, ms, ha, he⟩ := h.exec S
  obtain ⟨w', obs, r1, r2, r3⟩ := request_ok (fuel := fuel) S false r ha hl
  have hb := data_obs false _ dataOf_mem r1
  refine ⟨w', _, _, ?_, ⟨h.legal.append h.run r2, run_append_ok h.run r1⟩, ?_, ?_, ?_, ?_⟩
  · rw [C118_is_appending false hg hs, loopPieces_eq]
    simp only [Bool.false_eq_true, if_false, List.append_nil, r1, asLoop, Option.some.injEq, Except.ok.injEq, Prod.mk.injEq,
      true_and]
    cases hx : obs.getLast? with
    | none => rfl
    | some o => rw [hb o (List.mem_of_getLast? hx)]; rfl
  · rw [r3.buffered, ha.buffered]
  · rw [r3.fed, ha.fed]
  · rw [r3.trace, ha.trace]
  · rw [currentHandler_abs r3, currentHandler_abs ha]

/-- A handler is set and a started message is in the buffer. -/
def begun : List Op := [.setHandler Sample.h0, .append [1, 0, 2, 3, 4, 1, 2], .process]

example : ∃ (w w' : World Sample.basic), buffered w = [1, 2] ∧
    send Sample.basic Sample.level (loopTx Sample.dbg Sample.passive 50 false) (w, false) Sample.levelVals =
      some (.ok (w', false)) ∧ buffered w' = [1, 2, 1, 1, 2, 0x2A, 3, 4] := by
  obtain ⟨w, os, h, hp⟩ := Sample.reached (C := Sample.basic) (B := Sample.dbg) (user := Sample.passive) (fuel := 50)
    (ops := begun) (fun w _ => decide (buffered w = [1, 2] ∧ 6 ≤ w.rx.getBufferAvailableSpace)) (by decide +kernel)
  simp only [decide_eq_true_eq] at hp
  obtain ⟨w', _, _, e1, _, e2, _⟩ := C118_arrives ⟨⟨by decide, by decide⟩, Sample.passive_benign⟩ h
    (r := ⟨Sample.basic, Sample.level, Sample.levelVals⟩) rfl (by decide) hp.2
  exact ⟨w, w', hp.1, e1, by rw [e2, hp.1]; rfl⟩

/-- C118 (room for two). After `processMessages` has returned with a handler set, two messages can be sent, whatever they are
and whatever is left in the buffer. -/
theorem C118_two (S : Setting C B user) {ops : List Op} {w w' : World C} {os : List Obs} {n : Byte}
    (h : Reached B user fuel ops w os) (hh : w.rx.hasHandler = true)
    (hp : w.processMessages B user fuel = .ok (w', .returned n)) {r1 r2 : Request} (h1 : r1.Good C) (h2 : r2.Good C) :
    ∃ w2, sendAll (loopTx B user fuel false) (w', false) [r1, r2] = some (.ok (w2, false)) ∧
      buffered w2 = buffered w' ++ wire C r1.t r1.vs ++ wire C r2.t r2.vs := by
  have hne : C.messages ≠ [] := List.ne_nil_of_mem h1.2.1.2.1
  have hsp := C33_space S hne h hh hp
  have h' := h.process hp
  have l1 := wire_le h1.2.1 h1.2.2
  have l2 := wire_le h2.2.1 h2.2.2
  rw [maxLen_eq] at hsp
  obtain ⟨wa, opsa, osa, e1, ra, b1, _⟩ := C118_arrives S h' (r := r1) h1.1 h1.2.1 (by omega)
  have hspa : (wire C r2.t r2.vs).length ≤ wa.rx.getBufferAvailableSpace := by
    obtain ⟨sa, _, ha, _⟩ := ra.exec S
    obtain ⟨s, _, hs, _⟩ := h'.exec S
    have eb := congrArg List.length b1
    rw [ha.buffered, hs.buffered, List.length_append] at eb
    rw [ha.space S.arith.lt64]
    rw [hs.space S.arith.lt64] at hsp
    omega
  obtain ⟨wb, opsb, osb, e2, rb, b2, _⟩ := C118_arrives S ra (r := r2) h2.1 h2.2.1 hspa
  refine ⟨wb, ?_, by rw [b2, b1]⟩
  have c1 := h1.1
  have c2 := h2.1
  simp only [sendAll, c1, c2, e1, e2]

example : ∃ (w w' w2 : World Sample.basic), w.processMessages Sample.dbg Sample.passive 50 = .ok (w', .returned 1) ∧
    buffered w' = [1, 2] ∧
    sendAll (loopTx Sample.dbg Sample.passive 50 false) (w', false)
      [⟨Sample.basic, Sample.pose, Sample.poseVals⟩, ⟨Sample.basic, Sample.pose, Sample.poseVals⟩] =
      some (.ok (w2, false)) := by
  obtain ⟨w, os, h, hp⟩ := Sample.reached (C := Sample.basic) (B := Sample.dbg) (user := Sample.passive) (fuel := 50)
    (ops := begun.dropLast) (fun w _ => w.rx.hasHandler && match w.processMessages Sample.dbg Sample.passive 50 with
      | .ok (w', o) => decide (o = .returned 1 ∧ buffered w' = [1, 2])
      | .error _ => false) (by decide +kernel)
  rw [Bool.and_eq_true] at hp
  cases hw : w.processMessages Sample.dbg Sample.passive 50 with
  | error f => rw [hw] at hp; simp at hp
  | ok p =>
    obtain ⟨w', o⟩ := p
    rw [hw] at hp
    simp only [decide_eq_true_eq] at hp
    obtain ⟨hh, rfl, hb⟩ := hp
    obtain ⟨w2, e, _⟩ := C118_two ⟨⟨by decide, by decide⟩, Sample.passive_benign⟩ h hh hw
      (r1 := ⟨Sample.basic, Sample.pose, Sample.poseVals⟩) (r2 := ⟨Sample.basic, Sample.pose, Sample.poseVals⟩)
      ⟨rfl, by decide, by decide⟩ ⟨rfl, by decide, by decide⟩
    exact ⟨w, w', w2, hw, hb, e⟩

/-- C118 (witness). There is no room for three: with a started message in the buffer, three of the longest messages without
`processMessages` in between are too much, although two are not. -/
theorem C118_three_witness :
    ((World.new Sample.basic).run Sample.dbg Sample.passive 50 begun).toOption.map (fun p =>
      (match sendAll (loopTx Sample.dbg Sample.passive 50 false) (p.1, false)
          (List.replicate 2 ⟨Sample.basic, Sample.pose, Sample.poseVals⟩) with
        | some (.ok _) => true
        | _ => false,
       match sendAll (loopTx Sample.dbg Sample.passive 50 false) (p.1, false)
          (List.replicate 3 ⟨Sample.basic, Sample.pose, Sample.poseVals⟩) with
        | some (.error .abort) => true
        | _ => false)) = some (true, true) := by
  decide +kernel

/-- The `process` step of an idle connection: one message, nothing before it. -/
theorem process_one (hn : NeverThrows user) (hq : Quiet user) {s : AState} {m : Msg} {hd : Handler}
    (hm : IsMsg C m) (hh : s.handler = some hd) (hb : s.buf = frame C.envelope m) :
    ∃ s', Proc C user s [m] s' false ∧ s'.buf = [] ∧ s'.trace = s.trace ++ [callOf C hd m] ∧ s'.fed = s.fed ∧
      s'.handler = handlerAfter (some hd) (reaction user s.trace (callOf C hd m)
        (capacity C - (frame C.envelope m).length)).acts := by
  have hr : Run C s.buf [] (frame C.envelope m ++ []) := by rw [hb, List.append_nil]; exact Run.refl _
  refine ⟨_, Proc.msg hm hr hh (reaction_neverThrows hn ..) (Proc.done (r := []) ?_), rfl, rfl, ?_, ?_⟩
  · simp only [afterCall, reaction_quiet hq, List.append_nil, List.drop_length]
    exact ⟨Run.refl _, Or.inl rfl⟩
  · simp only [afterCall, reaction_quiet hq, List.append_nil]
  · simp [afterCall]

/-- C118 (handled at once). If the receiver handles each message as soon as it is complete and starts with an empty buffer,
any number of messages can be sent; each has been handled when its `send` returns, exactly once and in order, and the
buffer is empty again. -/
theorem C118_at_once (S : Setting C B user) (hn : NeverThrows user) (hq : Quiet user) (hf : capacity C < fuel)
    (rs : List Request) (hrs : ∀ r ∈ rs, r.Good C) : ∀ {ops : List Op} {w : World C} {os : List Obs},
    Reached B user fuel ops w os → w.rx.hasHandler = true → buffered w = [] →
    ∃ w' ops' os', sendAll (loopTx B user fuel true) (w, false) rs = some (.ok (w', false)) ∧
      Reached B user fuel (ops ++ ops') w' os' ∧ delivered w' = delivered w ++ rs.map Request.call ∧ buffered w' = [] ∧
      w'.rx.hasHandler = true := by
  induction rs with
  | nil =>
    intro ops w os h hh hb
    exact ⟨w, [], os, rfl, by simpa using h, by simp, hb, hh⟩
  | cons r rs ih =>
    intro ops w os h hh hb
    have hg := hrs r (List.mem_cons_self ..)
    have ih := @ih fun r hr => hrs r (List.mem_cons_of_mem _ hr)
    obtain ⟨s, ms, ha, he⟩ := h.exec S
    rw [ha.buffered] at hb
    have hlen := wire_le hg.2.1 hg.2.2
    obtain ⟨w1, obs, r1, r2, r3⟩ := request_ok (fuel := fuel) S true r ha (by
      rw [ha.space S.arith.lt64, hb, capacity, maxLen_eq]; simp only [List.length_nil]; omega)
    rw [ha.hasHandler] at hh
    obtain ⟨hd, hhd⟩ := Option.isSome_iff_exists.mp hh
    have hwire : wire C r.t r.vs = frame C.envelope r.msg := by rw [← hg.wire, hg.1]
    obtain ⟨s2, p1, p2, p3, p4, p5⟩ := process_one (C := C) (user := user) (m := r.msg)
      (s := { s with buf := s.buf ++ wire C r.t r.vs, fed := s.fed ++ wire C r.t r.vs }) hn hq hg.isMsg hhd
      (by simp [hb, hwire])
    have hl2 : Legal B user fuel w1 [.process] := ⟨trivial, fun _ _ _ => trivial⟩
    obtain ⟨w2, obs2, q1⟩ := run_total S.arith.lt64 S.benign hq hf S.arith r3 hl2
    obtain ⟨s2', ms2, ha2, he2⟩ := run_exec S.arith.lt64 S.benign S.arith r3 hl2 q1
    have hs2 : s2' = s2 ∧ obs2 = [.processed (.returned 1)] := by
      cases he2 with
      | cons hst hex =>
        cases hex
        cases hst with
        | idle hno => rw [show s.handler = none from hno] at hhd; cases hhd
        | process _ hp =>
          obtain ⟨rfl, rfl, _⟩ := p1.unique hp
          exact ⟨rfl, rfl⟩
        | thrown _ hp => exact absurd (p1.unique hp).2.2 (by simp)
    obtain ⟨rfl, rfl⟩ := hs2
    have hR : Reached B user fuel (ops ++ loopPieces true C r) w2 (os ++ (obs ++ [.processed (.returned 1)])) := by
      rw [loopPieces_eq]
      exact ⟨h.legal.append h.run (r2.append r1 hl2), run_append_ok h.run (run_append_ok r1 q1)⟩
    have hh2 : w2.rx.hasHandler = true := by
      rw [ha2.hasHandler, p5]
      obtain ⟨h', e⟩ := handlerAfter_isSome _ _ hd (reaction_benign S.benign s.trace (callOf C hd r.msg)
        (capacity C - (frame C.envelope r.msg).length))
      rw [e]
      rfl
    obtain ⟨w3, ops3, os3, f1, f2, f3, f4, f5⟩ := ih hR hh2 (by rw [ha2.buffered, p2])
    refine ⟨w3, loopPieces true C r ++ ops3, os3, ?_, by rw [← List.append_assoc]; exact f2, ?_, f4, f5⟩
    · have hc := hg.1
      simp only [sendAll, hc]
      rw [C118_is_appending true hc hg.2.1, loopPieces_eq]
      simp only [if_true]
      rw [run_append_ok r1 q1]
      simp only [asLoop, List.getLast?_append, List.getLast?_singleton]
      exact f1
    · rw [f3, ha2.delivered, p3, ha.delivered]
      simp only [List.map_append, List.map_cons, List.map_nil, List.append_assoc, List.cons_append, List.nil_append]
      congr 2
      exact hg.meaning

example : ∃ (w w' : World Sample.basic), delivered w = [] ∧
    sendAll (loopTx Sample.dbg Sample.passive 50 true) (w, false)
      (List.replicate 1000 ⟨Sample.basic, Sample.pose, Sample.poseVals⟩) = some (.ok (w', false)) ∧
    (delivered w').length = 1000 ∧ buffered w' = [] := by
  obtain ⟨w, os, h, hp⟩ := Sample.reached (C := Sample.basic) (B := Sample.dbg) (user := Sample.passive) (fuel := 50)
    (ops := [.setHandler Sample.h0])
    (fun w _ => decide (w.rx.hasHandler = true ∧ buffered w = [] ∧ delivered w = [])) (by decide +kernel)
  simp only [decide_eq_true_eq] at hp
  obtain ⟨w', _, _, e1, _, e2, e3, _⟩ := C118_at_once ⟨⟨by decide, by decide⟩, Sample.passive_benign⟩
    Sample.passive_neverThrows Sample.passive_quiet (by decide)
    (List.replicate 1000 ⟨Sample.basic, Sample.pose, Sample.poseVals⟩)
    (fun r hr => by rw [List.eq_of_mem_replicate hr]; exact ⟨rfl, by decide, by decide⟩) h hp.1 hp.2.1
  exact ⟨w, w', hp.2.2, e1, by rw [e2, hp.2.2, List.nil_append, List.length_map, List.length_replicate], e3⟩

/-! Programs in which handlers send, too. -/

/-- What the program calls. -/
inductive LoopCall where
  | send (r : Request)
  | process
  | setHandler (h : Handler)

/-- Run the calls. -/
def runLoop (B : Build) (user : UserCode) (fuel : Nat) (sync : Bool) : World C → List LoopCall → Option (Res (World C))
  | w, [] => some (.ok w)
  | w, .send r :: cs => match send C r.t (loopTx B user fuel sync) (w, false) r.vs with
    | some (.ok (w', _)) => runLoop B user fuel sync w' cs
    | some (.error f) => some (.error f)
    | none => none
  | w, .process :: cs => match w.processMessages B user fuel with
    | .ok (w', _) => runLoop B user fuel sync w' cs
    | .error f => some (.error f)
  | w, .setHandler h :: cs => runLoop B user fuel sync { w with rx := w.rx.setHandler h } cs

/-- Each message fits when it is sent. -/
def LoopFits (B : Build) (user : UserCode) (fuel : Nat) (sync : Bool) : World C → List LoopCall → Prop
  | _, [] => True
  | w, .send r :: cs => (wire C r.t r.vs).length ≤ w.rx.getBufferAvailableSpace ∧
      ∀ w' x, send C r.t (loopTx B user fuel sync) (w, false) r.vs = some (.ok (w', x)) → LoopFits B user fuel sync w' cs
  | w, .process :: cs => ∀ w' x, w.processMessages B user fuel = .ok (w', x) → LoopFits B user fuel sync w' cs
  | w, .setHandler h :: cs => LoopFits B user fuel sync { w with rx := w.rx.setHandler h } cs

/-- The messages the program sends from outside of handlers. -/
def sentBy : List LoopCall → List Request
  | [] => []
  | .send r :: cs => r :: sentBy cs
  | _ :: cs => sentBy cs

/-- Handlers that append nothing but whole messages, as `send` on a connected transmitter does. -/
def SendsOnly (C : Collection) (user : UserCode) : Prop :=
  ∀ calls free, ∃ rs : List Request, (∀ r ∈ rs, r.Good C) ∧
    appended (user calls free).acts = frames C.envelope (rs.map Request.msg)

/-- The same as calls on the receiver. -/
def loopOps (sync : Bool) (C : Collection) : LoopCall → List Op
  | .send r => loopPieces sync C r
  | .process => [.process]
  | .setHandler h => [.setHandler h]

/-- What is appended during `processMessages`. -/
theorem proc_fed (hs : SendsOnly C user) {s s' : AState} {ms : List Msg} {th : Bool} (h : Proc C user s ms s' th) :
    ∃ rs : List Request, (∀ r ∈ rs, r.Good C) ∧ s'.fed = s.fed ++ frames C.envelope (rs.map Request.msg) := by
  have key : ∀ tr i free, ∃ rs : List Request, (∀ r ∈ rs, r.Good C) ∧
      appended (reaction user tr i free).acts = frames C.envelope (rs.map Request.msg) := by
    intro tr i free
    unfold reaction
    split
    · exact ⟨[], by simp, by simp [appended, frames]⟩
    · exact hs _ _
  induction h with
  | done => exact ⟨[], by simp, by simp [frames]⟩
  | @throw s m t h _ _ _ _ =>
    obtain ⟨rs, h1, h2⟩ := key s.trace (callOf C h m) (capacity C - (frame C.envelope m ++ t).length)
    exact ⟨rs, h1, by simp only [afterCall, h2]⟩
  | @msg s s' m t h ms th _ _ _ _ _ ih =>
    obtain ⟨rs, h1, h2⟩ := key s.trace (callOf C h m) (capacity C - (frame C.envelope m ++ t).length)
    obtain ⟨rs', h3, h4⟩ := ih
    refine ⟨rs ++ rs', fun r hr => ?_, ?_⟩
    · rcases List.mem_append.mp hr with hr | hr
      · exact h1 r hr
      · exact h3 r hr
    · rw [h4]
      simp only [afterCall, h2, List.map_append, frames_append, List.append_assoc]

/-- What `processMessages` does to the log, and that it continues. -/
theorem process_fed (S : Setting C B user) (hs : SendsOnly C user) {w : World C} {s : AState} (ha : Abs w s) :
    w.processMessages B user fuel = .error .diverge ∨
    ∃ (w' : World C) (o : Outcome) (s' : AState) (rs : List Request), w.processMessages B user fuel = .ok (w', o) ∧ Abs w' s' ∧ (∀ r ∈ rs, r.Good C) ∧
      s'.fed = s.fed ++ frames C.envelope (rs.map Request.msg) := by
  have hl : OpLegal w .process := trivial
  rcases step_ok S.arith.lt64 S.benign fuel ha hl with ⟨_, _, hd⟩ | ⟨w', s', ms, o, h1, h2, h3⟩
  · left
    have := hd B S.arith
    simp only [World.step] at this
    cases hp : w.processMessages B user fuel with
    | error f => rw [hp] at this; simpa using this
    | ok p => rw [hp] at this; simp at this
  · right
    have := h1 B S.arith
    simp only [World.step] at this
    cases hp : w.processMessages B user fuel with
    | error f => rw [hp] at this; simp at this
    | ok p =>
      obtain ⟨w1, o1⟩ := p
      rw [hp] at this
      simp only [ok_bind, pure_eq_ok, Except.ok.injEq, Prod.mk.injEq] at this
      obtain ⟨rfl, rfl⟩ := this
      have hrs : ∃ rs : List Request, (∀ r ∈ rs, r.Good C) ∧ s'.fed = s.fed ++ frames C.envelope (rs.map Request.msg) := by
        cases h3 with
        | idle => exact ⟨[], by simp, by simp [frames]⟩
        | process _ hq => exact proc_fed hs hq
        | thrown _ hq => exact proc_fed hs hq
      obtain ⟨rs, g1, g2⟩ := hrs
      exact ⟨w1, o1, s', rs, rfl, h2, g1, g2⟩

theorem Legal.one_process (w : World C) : Legal B user fuel w [.process] := ⟨trivial, fun _ _ _ => trivial⟩

/-- A program on the connected transmitter is a legal history of the receiver, and only whole messages are appended. -/
theorem loop_ok (S : Setting C B user) (hs : SendsOnly C user) (sync : Bool) (cs : List LoopCall)
    (hg : ∀ r, .send r ∈ cs → r.Good C) : ∀ {w : World C} {s : AState}, Abs w s → LoopFits B user fuel sync w cs →
    (runLoop B user fuel sync w cs = some (.error .diverge)) ∨
    ∃ (w' : World C) (obs : List Obs) (s' : AState) (rs : List Request), runLoop B user fuel sync w cs = some (.ok w') ∧
      w.run B user fuel (cs.flatMap (loopOps sync C)) = .ok (w', obs) ∧
      Legal B user fuel w (cs.flatMap (loopOps sync C)) ∧ Abs w' s' ∧ (∀ r ∈ rs, r.Good C) ∧
      s'.fed = s.fed ++ frames C.envelope (rs.map Request.msg) ∧ (sentBy cs).Sublist rs := by
  induction cs with
  | nil =>
    intro w s ha _
    exact Or.inr ⟨w, [], s, [], rfl, rfl, trivial, ha, by simp, by simp [frames], List.Sublist.refl _⟩
  | cons c cs ih =>
    intro w s ha hf
    have ih := @ih fun r hr => hg r (List.mem_cons_of_mem _ hr)
    cases c with
    | setHandler h =>
      have ha' : Abs ({ w with rx := w.rx.setHandler h } : World C) { s with handler := some h } :=
        ⟨ha.buf, rfl, rfl, ha.last, ha.trace, ha.fed⟩
      rcases ih ha' hf with hd | ⟨w', obs, s', rs, h1, h2, h3, h4, h5, h6, h7⟩
      · exact Or.inl hd
      · refine Or.inr ⟨w', .unit :: obs, s', rs, h1, ?_, ⟨trivial, fun w1 o e => ?_⟩, h4, h5, h6, h7⟩
        · simp only [List.flatMap_cons, loopOps, List.cons_append, List.nil_append, World.run, World.step, ok_bind, h2,
            pure_eq_ok]
        · simp only [World.step, Except.ok.injEq, Prod.mk.injEq] at e
          obtain ⟨rfl, _⟩ := e
          exact h3
    | process =>
      rcases process_fed (fuel := fuel) S hs ha with hd | ⟨w1, o, s1, rs1, g1, g2, g3, g4⟩
      · left; simp only [runLoop, hd]
      · rcases ih g2 (hf _ _ g1) with hd | ⟨w', obs, s', rs, h1, h2, h3, h4, h5, h6, h7⟩
        · left; simp only [runLoop, g1]; exact hd
        · refine Or.inr ⟨w', .processed o :: obs, s', rs1 ++ rs, ?_, ?_, ⟨trivial, fun w1 o e => ?_⟩, h4, ?_, ?_, ?_⟩
          · simp only [runLoop, g1]; exact h1
          · simp only [List.flatMap_cons, loopOps, List.cons_append, List.nil_append, World.run, World.step, ok_bind, h2, g1,
              pure_eq_ok]
          · simp only [World.step, g1, ok_bind, pure_eq_ok, Except.ok.injEq, Prod.mk.injEq] at e
            obtain ⟨rfl, _⟩ := e
            exact h3
          · intro r hr
            rcases List.mem_append.mp hr with hr | hr
            · exact g3 r hr
            · exact h5 r hr
          · rw [h6, g4, List.map_append, frames_append, List.append_assoc]
          · exact h7.trans (List.sublist_append_right _ _)
    | send r =>
      have hr := hg r (List.mem_cons_self ..)
      have hwire : wire C r.t r.vs = frame C.envelope r.msg := by rw [← hr.wire, hr.1]
      obtain ⟨hfit, hf⟩ := hf
      obtain ⟨w1, obs1, r1, r2, r3⟩ := request_ok (fuel := fuel) S sync r ha hfit
      have happ := C118_is_appending (B := B) (user := user) (fuel := fuel) sync hr.1 hr.2.1 w
      rw [loopPieces_eq, run_append_eq, r1] at happ
      have step : send C r.t (loopTx B user fuel sync) (w, false) r.vs = some (.error .diverge) ∨
          ∃ (w2 : World C) (x : Bool) (obs2 : List Obs) (s2 : AState) (rs2 : List Request), send C r.t (loopTx B user fuel sync) (w, false) r.vs = some (.ok (w2, x)) ∧
            w.run B user fuel (loopPieces sync C r) = .ok (w2, obs2) ∧ Legal B user fuel w (loopPieces sync C r) ∧ Abs w2 s2 ∧
            (∀ r ∈ rs2, r.Good C) ∧
            s2.fed = s.fed ++ frame C.envelope r.msg ++ frames C.envelope (rs2.map Request.msg) := by
        cases sync with
        | false =>
          right
          refine ⟨w1, _, obs1, _, [], happ, ?_, ?_, r3, by simp, by simp [frames, hwire]⟩
          · rw [loopPieces_eq]; simpa using r1
          · rw [loopPieces_eq]; simpa using r2
        | true =>
          rcases process_fed (fuel := fuel) S hs r3 with hd | ⟨w2, o, s2, rs2, g1, g2, g3, g4⟩
          · left
            rw [happ]
            simp [World.run, World.step, hd, asLoop]
          · right
            have q1 : w1.run B user fuel [.process] = .ok (w2, [.processed o]) := by
              simp [World.run, World.step, g1]
            simp only [if_true, q1] at happ
            refine ⟨w2, _, obs1 ++ [.processed o], s2, rs2, happ, ?_, ?_, g2, g3, ?_⟩
            · rw [loopPieces_eq]; exact run_append_ok r1 q1
            · rw [loopPieces_eq]; exact r2.append r1 (Legal.one_process _)
            · rw [g4]; simp only [hwire]
      rcases step with hd | ⟨w2, x, obs2, s2, rs2, e1, e2, e3, e4, e5, e6⟩
      · left; simp only [runLoop, hd]
      · rcases ih e4 (hf _ _ e1) with hd | ⟨w', obs, s', rs, h1, h2, h3, h4, h5, h6, h7⟩
        · left; simp only [runLoop, e1]; exact hd
        · refine Or.inr ⟨w', obs2 ++ obs, s', r :: (rs2 ++ rs), ?_, ?_, ?_, h4, ?_, ?_, ?_⟩
          · simp only [runLoop, e1]; exact h1
          · rw [List.flatMap_cons]; exact run_append_ok e2 h2
          · rw [List.flatMap_cons]; exact e3.append e2 h3
          · intro r' hr'
            rcases List.mem_cons.mp hr' with rfl | hr'
            · exact hr
            · rcases List.mem_append.mp hr' with hr' | hr'
              · exact e5 r' hr'
              · exact h5 r' hr'
          · rw [h6, e6]
            simp [frames, List.append_assoc]
          · exact (h7.trans (List.sublist_append_right _ _)).cons_cons r

/-- C118 (no fault). A program that sends to its own receiver only what fits, with handlers that send to it, too (only what
fits, and without having it handled at once), does not trip assertions nor access memory it should not. -/
theorem C118_safe (S : Setting C B user) (hs : SendsOnly C user) (sync : Bool) {cs : List LoopCall}
    (hg : ∀ r, .send r ∈ cs → r.Good C) (hf : LoopFits B user fuel sync (World.new C) cs) :
    runLoop B user fuel sync (World.new C) cs = some (.error .diverge) ∨
    ∃ w, runLoop B user fuel sync (World.new C) cs = some (.ok w) := by
  rcases loop_ok S hs sync cs hg (abs_new C) hf with h | ⟨w, _, _, _, h, _⟩
  · exact Or.inl h
  · exact Or.inr ⟨w, h⟩

/-- C118 (everything arrives). In such a program, after a last `processMessages`, every message sent so far, by the program or
by handlers, has been handled exactly once, in the order in which the `send` calls were made, and nothing else has; the
buffer is empty. -/
theorem C118_all_arrive (S : Setting C B user) (hn : NeverThrows user) (hs : SendsOnly C user) (sync : Bool)
    {cs : List LoopCall} (hg : ∀ r, .send r ∈ cs → r.Good C)
    (hf : LoopFits B user fuel sync (World.new C) (cs ++ [.process])) {w : World C}
    (h : runLoop B user fuel sync (World.new C) (cs ++ [.process]) = some (.ok w)) (hh : w.rx.hasHandler = true) :
    ∃ rs : List Request, (∀ r ∈ rs, r.Good C) ∧ w.fed = frames C.envelope (rs.map Request.msg) ∧
      (sentBy cs).Sublist rs ∧ delivered w = rs.map Request.call ∧ buffered w = [] := by
  rcases loop_ok S hs sync (cs ++ [.process]) (by
      intro r hr
      rcases List.mem_append.mp hr with hr | hr
      · exact hg r hr
      · simp at hr) (abs_new C) hf with hd | ⟨w', obs, s', rs, h1, h2, h3, h4, h5, h6, h7⟩
  · rw [h] at hd; simp at hd
  · rw [h] at h1
    simp only [Option.some.injEq, Except.ok.injEq] at h1
    subst h1
    have hfed : w.fed = frames C.envelope (rs.map Request.msg) := by
      rw [h4.fed, h6]; simp [AState.new]
    have hR : Reached B user fuel (cs.flatMap (loopOps sync C) ++ [.process]) w obs := by
      have e : (cs ++ [LoopCall.process]).flatMap (loopOps sync C) = cs.flatMap (loopOps sync C) ++ [.process] := by
        simp [loopOps]
      rw [e] at h2 h3
      exact ⟨h3, h2⟩
    have hdec : Decodes C w.fed (rs.map Request.msg) [] := by
      refine ⟨?_, Or.inl rfl⟩
      have := run_frames (C := C) (ms := rs.map Request.msg) (by
        intro m hm
        obtain ⟨r, hr, rfl⟩ := List.mem_map.mp hm
        exact (h5 r hr).isMsg) []
      rwa [List.append_nil, ← hfed] at this
    obtain ⟨d1, d2⟩ := polled_eq S hn hR hh hdec
    have hsub : (sentBy (cs ++ [.process])) = sentBy cs := by
      clear h2 h3 h6 h7 hR hf h hg
      induction cs with
      | nil => rfl
      | cons c cs ih => cases c <;> simp [sentBy, ih]
    refine ⟨rs, h5, hfed, hsub ▸ h7, ?_, d2⟩
    rw [d1, List.map_map]
    refine List.map_congr_left fun r hr => ?_
    exact (h5 r hr).meaning

/-- Test of the condition on a concrete program. -/
def loopFitsB (B : Build) (user : UserCode) (fuel : Nat) (sync : Bool) : World C → List LoopCall → Bool
  | _, [] => true
  | w, .send r :: cs => decide ((wire C r.t r.vs).length ≤ w.rx.getBufferAvailableSpace) &&
      match send C r.t (loopTx B user fuel sync) (w, false) r.vs with
      | some (.ok (w', _)) => loopFitsB B user fuel sync w' cs
      | _ => true
  | w, .process :: cs => match w.processMessages B user fuel with
      | .ok (w', _) => loopFitsB B user fuel sync w' cs
      | _ => true
  | w, .setHandler h :: cs => loopFitsB B user fuel sync { w with rx := w.rx.setHandler h } cs

theorem loopFitsB_sound (sync : Bool) (cs : List LoopCall) : ∀ w : World C, loopFitsB B user fuel sync w cs = true →
    LoopFits B user fuel sync w cs := by
  induction cs with
  | nil => intro w _; trivial
  | cons c cs ih =>
    intro w h
    cases c with
    | setHandler hd => exact ih _ h
    | process =>
      intro w' x e
      simp only [loopFitsB, e] at h
      exact ih _ h
    | send r =>
      simp only [loopFitsB, Bool.and_eq_true, decide_eq_true_eq] at h
      refine ⟨h.1, fun w' x e => ?_⟩
      have := h.2
      simp only [e] at this
      exact ih _ this

/-- A handler that answers the first two messages with a `ping` to its own receiver. -/
def echo118 : UserCode := fun calls free =>
  if calls.length ≤ 2 ∧ 5 ≤ free then ⟨[.append [1, 0], .append [2, 3, 4]], false⟩ else ⟨[], false⟩

theorem echo118_benign : BenignUser echo118 := by
  intro calls free
  unfold echo118
  split
  · rename_i h; exact ⟨by simp, by simpa [appended] using h.2⟩
  · exact ⟨by simp, by simp [appended]⟩

theorem echo118_sends : SendsOnly Sample.basic echo118 := by
  intro calls free
  unfold echo118
  split
  · exact ⟨[⟨Sample.basic, Sample.ping, []⟩], by
      intro r hr; rw [List.mem_singleton.mp hr]; exact ⟨rfl, by decide, by decide⟩, by decide⟩
  · exact ⟨[], by simp, by simp [appended, frames]⟩

/-- The program sends, has messages handled and sends again. -/
def program118 : List LoopCall := [.setHandler Sample.h0, .send ⟨Sample.basic, Sample.pose, Sample.poseVals⟩, .process,
  .send ⟨Sample.basic, Sample.level, Sample.levelVals⟩]

example : ∃ w : World Sample.basic,
    runLoop Sample.dbg echo118 50 false (World.new Sample.basic) (program118 ++ [.process]) = some (.ok w) ∧
    delivered w = [(Sample.pose, [[1], [1, 0, 2, 3], [3, 4]]), (Sample.ping, []), (Sample.ping, []),
      (Sample.level, [[0x2A]])] ∧
    ∃ rs : List Request, (sentBy program118).Sublist rs ∧ delivered w = rs.map Request.call ∧ buffered w = [] := by
  have S : Setting Sample.basic Sample.dbg echo118 := ⟨⟨by decide, by decide⟩, echo118_benign⟩
  have hg : ∀ r, .send r ∈ program118 → r.Good Sample.basic := by
    intro r hr
    simp only [program118, List.mem_cons, reduceCtorEq, LoopCall.send.injEq, List.not_mem_nil, or_false, false_or] at hr
    rcases hr with rfl | rfl <;> exact ⟨rfl, by decide, by decide⟩
  have hf : LoopFits Sample.dbg echo118 50 false (World.new Sample.basic) (program118 ++ [.process]) :=
    loopFitsB_sound _ _ _ (by decide +kernel)
  have hp : (match runLoop Sample.dbg echo118 50 false (World.new Sample.basic) (program118 ++ [.process]) with
      | some (.ok w) => w.rx.hasHandler && decide (delivered w = [(Sample.pose, [[1], [1, 0, 2, 3], [3, 4]]),
          (Sample.ping, []), (Sample.ping, []), (Sample.level, [[0x2A]])])
      | _ => false) = true := by decide +kernel
  cases hr : runLoop Sample.dbg echo118 50 false (World.new Sample.basic) (program118 ++ [.process]) with
  | none => rw [hr] at hp; simp at hp
  | some x => cases x with
    | error f => rw [hr] at hp; simp at hp
    | ok w =>
      rw [hr] at hp
      simp only [Bool.and_eq_true, decide_eq_true_eq] at hp
      obtain ⟨rs, _, _, h3, h4, h5⟩ := C118_all_arrive S (by intro c f; unfold echo118; split <;> rfl) echo118_sends false hg
        hf hr hp.1
      exact ⟨w, rfl, hp.2, rs, h3, h4, h5⟩

example := C118_safe (fuel := 50) (⟨⟨by decide, by decide⟩, echo118_benign⟩ : Setting Sample.basic Sample.dbg echo118)
  echo118_sends true (cs := [.setHandler Sample.h0, .send ⟨Sample.basic, Sample.pose, Sample.poseVals⟩])
  (by intro r hr; simp at hr; rw [hr]; exact ⟨rfl, by decide, by decide⟩)
  (loopFitsB_sound _ _ _ (by decide +kernel))

/-! Handlers that have messages handled at once. -/

/-- The calls a handler makes on its receiver by `send` on the connected transmitter. -/
def actsOf : List Op → List Act
  | [] => []
  | .append xs :: ops => .append xs :: actsOf ops
  | .process :: ops => .process :: actsOf ops
  | _ :: ops => actsOf ops

/-- The calls of one `send`. -/
def sendActs (sync : Bool) (C : Collection) (r : Request) : List Act := actsOf (loopPieces sync C r)

theorem actsOf_data (sync : Bool) (os : List Out) (h : ∀ o ∈ os, o ≠ .finished) (ops : List Op) :
    appended (actsOf (os.flatMap (piece sync) ++ ops)) = outBytes os ++ appended (actsOf ops) := by
  induction os with
  | nil => rfl
  | cons o os ih =>
    have ih := ih fun o ho => h o (List.mem_cons_of_mem _ ho)
    cases o with
    | finished => exact absurd rfl (h _ (List.mem_cons_self ..))
    | byte b => simp [piece, actsOf, appended, ih, outBytes, Out.bytes]
    | block bs => simp [piece, actsOf, appended, ih, outBytes, Out.bytes]

theorem actsOf_guarded (throws : Bool) (sync : Bool) (os : List Out) (as : List Act) (h : Guarded throws false as) :
    Guarded throws false (actsOf (os.flatMap (piece sync)) ++ as) := by
  induction os with
  | nil => exact h
  | cons o os ih =>
    cases o with
    | byte b => exact ih
    | block bs => exact ih
    | finished => cases sync with
      | false => exact ih
      | true => exact ⟨rfl, ih⟩

/-- C118 (handlers). What a handler appends by a `send` on the connected transmitter is the message. Without handling at once
such a handler keeps the rules for handlers if the message fits; with it, it does if it switches handling off before the
`send` and on again after it (the message is then handled by the `processMessages` call that called the handler). -/
theorem C118_handlers (r : Request) (h : Handler) (throws : Bool) :
    (∀ sync, appended (sendActs sync C r) = wire C r.t r.vs) ∧
    (∀ free, (wire C r.t r.vs).length ≤ free → Benign (sendActs false C r) free) ∧
    Guarded throws true (.clearHandler :: sendActs true C r ++ [.setHandler h]) := by
  have happ : ∀ sync, appended (sendActs sync C r) = wire C r.t r.vs := by
    intro sync
    rw [sendActs, loopPieces_eq, actsOf_data _ _ dataOf_mem, outBytes_dataOf]
    cases sync <;> simp [actsOf, appended, wire]
  refine ⟨happ, fun free hf => ⟨?_, by rw [happ]; exact hf⟩, ?_⟩
  · have key : ∀ os : List Out, ∀ a ∈ actsOf (os.flatMap (piece false)), a ≠ .clearHandler ∧ a ≠ .process := by
      intro os
      induction os with
      | nil => intro a ha; cases ha
      | cons o os ih =>
        cases o with
        | byte b =>
          intro a ha
          rcases List.mem_cons.mp ha with rfl | ha
          · simp
          · exact ih a ha
        | block bs =>
          intro a ha
          rcases List.mem_cons.mp ha with rfl | ha
          · simp
          · exact ih a ha
        | finished => exact ih
    exact key _
  · show Guarded throws false (sendActs true C r ++ [.setHandler h])
    exact actsOf_guarded throws true _ _ (Or.inl rfl)

/-- A handler that sends a `ping` and has it handled at once. -/
def nested118 : UserCode := fun calls _ =>
  if calls.length = 1 then ⟨sendActs true Sample.basic ⟨Sample.basic, Sample.ping, []⟩, false⟩ else ⟨[], false⟩

/-- The same with handling switched off meanwhile. -/
def switched118 : UserCode := fun calls _ =>
  if calls.length = 1 then ⟨.clearHandler :: sendActs true Sample.basic ⟨Sample.basic, Sample.ping, []⟩ ++
    [.setHandler Sample.h0], false⟩ else ⟨[], false⟩

/-- C118 (witness). The switching is needed: a handler that sends to its own receiver and has the message handled at once
makes an assertion fail; with handling switched off meanwhile both messages are handled, once each. -/
theorem C118_nested_witness :
    (World.new Sample.basic).run Sample.dbg nested118 50
      [.setHandler Sample.h0, .append [1, 1, 2, 7, 3, 4], .process] = .error .abort ∧
    ((World.new Sample.basic).run Sample.dbg switched118 50
      [.setHandler Sample.h0, .append [1, 1, 2, 7, 3, 4], .process]).toOption.map (fun p => (delivered p.1, buffered p.1)) =
      some ([(Sample.level, [[7]]), (Sample.ping, [])], []) := by
  decide +kernel

example : (wire Sample.basic Sample.pose Sample.poseVals).length ≤ 12 ∧
    Benign (sendActs false Sample.basic ⟨Sample.basic, Sample.pose, Sample.poseVals⟩) 12 :=
  ⟨by decide, (C118_handlers (C := Sample.basic) ⟨Sample.basic, Sample.pose, Sample.poseVals⟩ Sample.h0 false).2.1 12 (by decide)⟩

end TT.Properties
