import Verif.Properties.Reactions
import Verif.Proofs.Overrun

/-!
# Properties about calling the receiver back in ways it does not support: C42, C44
-/

namespace TT.Properties
open Spec

variable {C : Collection} {B : Build} {user user0 : UserCode} {fuel fuel0 : Nat}

/-- A handler whose calls always reach user code (not built on `PartialHandlerBase`). -/
def Handler.Total (h : Handler) : Prop := ∀ ts, h.kind ≠ .partialBase ts

theorem Handler.Total.userCall {h : Handler} (ht : Handler.Total h) (i : Invocation)
    (hi : i.handler = h) : ∃ c, Spec.userCall i = some c := by
  unfold Spec.userCall
  rw [hi]
  cases hk : h.kind with
  | functor => exact ⟨_, rfl⟩
  | parameterBase => exact ⟨_, rfl⟩
  | partialBase ts => exact absurd hk (ht ts)

theorem run_nil_trans {s r q : List Byte} {ms : List Msg} (h : Run C s [] r) (h' : Run C r ms q) :
    Run C s ms q := by
  simpa using h.trans h'

/-- The first message of a decoding. -/
theorem Decodes.head {s r : List Byte} {m : Msg} {ms : List Msg} (h : Decodes C s (m :: ms) r) :
    ∃ t, IsMsg C m ∧ Run C s [] (frame C.envelope m ++ t) ∧ Decodes C t ms r := by
  obtain ⟨hr, hf⟩ := h
  generalize hx : m :: ms = l at hr
  induction hr with
  | refl => simp at hx
  | take hm hr _ =>
    simp only [List.cons.injEq] at hx
    obtain ⟨rfl, rfl⟩ := hx
    exact ⟨_, hm, Run.refl _, hr, hf⟩
  | skip a b _ ih =>
    obtain ⟨t, h1, h2, h3⟩ := ih hf hx
    exact ⟨t, h1, Run.skip a b h2, h3⟩

/-! ### C42 -/

/-- The state after a call that cleared the handler and after removal of the message. -/
theorem clear_step (hc : recvBufferSize C < 2 ^ 64) {w : World C} {s : AState} (hw : Abs w s)
    {hd : Handler} (hh : s.handler = some hd) (ht : Handler.Total hd)
    (hcl : ∀ x free, user (w.userCalls ++ [x]) free = ⟨[.clearHandler], false⟩)
    {m : Msg} {t : List Byte} (hm : IsMsg C m) (hr : Run C s.buf [] (frame C.envelope m ++ t)) :
    ∃ w2 : World C, Abs w2 ⟨t, none, some m.id, s.trace ++ [callOf C hd m], s.fed⟩ ∧
      ∀ B fuel n, World.processLoop B user (fuel + 1) w n =
        World.processLoop B user fuel w2 (n + 1) := by
  obtain ⟨w1, hw1, hid, hl⟩ := processLoop_hit hc hw hm hr
  obtain ⟨c, huc⟩ := ht.userCall (callOf C hd m) rfl
  have hinv : w1.rx.invoke m.id = .ok (some (callOf C hd m)) :=
    invoke_ok (k := hd.kind) (o := hd.obj) hm hw1.buf (by rw [hw1.invoker]; simp [hh])
      (by rw [hw1.functor]; simp [hh])
  obtain ⟨e, he, hhe, _⟩ := popMessage_ok hc hm hw1.buf hid
  refine ⟨{ rx := { w1.rx.clearHandler with recv := e }, trace := w1.trace ++ [callOf C hd m],
            fed := w1.fed }, ⟨hhe, rfl, rfl, hw1.last, by simp [hw1.trace], hw1.fed⟩, ?_⟩
  intro B fuel n
  have hd' : dispatch (callOf C hd m) = some c := huc
  have hcalls : ({ w1 with trace := w1.trace ++ [callOf C hd m] } : World C).userCalls =
      w.userCalls ++ [c] := by
    unfold World.userCalls
    simp only [hw1.trace, hw.trace, List.filterMap_append]
    rw [List.filterMap_cons_some hd']
    rfl
  rw [hl, hinv]
  simp only [ok_bind, World.callHandler, hd', hcalls, hcl, World.runActs, pure_eq_ok, Bool.or_false,
    Bool.false_eq_true, if_false]
  have : (w1.rx.clearHandler).recv.popMessage B = .ok e := he B
  rw [this]
  rfl

/-- C42. A handler that clears the handler: with no message pending nothing happens; with exactly one
it is delivered, removed and counted, and the handler is gone; with two or more the call has
undefined behaviour. -/
theorem C42_clear_inside (S : Setting C B user0) {ops : List Op} {w : World C} {os : List Obs}
    (h : Reached B user0 fuel0 ops w os) {hd : Handler} (hc : currentHandler w = some hd)
    (ht : Handler.Total hd)
    (hcl : ∀ x free, user (w.userCalls ++ [x]) free = ⟨[.clearHandler], false⟩)
    {ms : List Msg} {r : List Byte} (hdec : Decodes C (buffered w) ms r) (hf : 2 ≤ fuel) :
    (ms = [] → ∃ w', w.processMessages B user fuel = .ok (w', .returned 0) ∧
      w'.trace = w.trace ∧ buffered w' = r ∧ currentHandler w' = some hd) ∧
    (∀ m, ms = [m] → ∃ w', w.processMessages B user fuel = .ok (w', .returned 1) ∧
      w'.trace = w.trace ++ [callOf C hd m] ∧ buffered w' = r ∧ w'.rx.hasHandler = false) ∧
    (2 ≤ ms.length → w.processMessages B user fuel = .error .ub) := by
  obtain ⟨s, _, ha, _⟩ := h.exec S
  have hh : s.handler = some hd := by rw [← currentHandler_abs ha, hc]
  have hlt := S.arith.lt64
  rw [ha.buffered] at hdec
  obtain ⟨f, rfl⟩ : ∃ f, fuel = f + 1 + 1 := ⟨fuel - 2, by omega⟩
  have hpm : w.processMessages B user (f + 1 + 1) = World.processLoop B user (f + 1 + 1) w 0 := by
    unfold World.processMessages
    rw [ha.hasHandler, hh]
    rfl
  rw [hpm]
  refine ⟨?_, ?_, ?_⟩
  · rintro rfl
    obtain ⟨w1, h1, h2⟩ := processLoop_miss hlt ha hdec
    refine ⟨w1, h2 B user _ 0, by rw [h1.trace, ha.trace], by rw [h1.buffered], ?_⟩
    rw [currentHandler_abs h1]; exact hh
  · rintro m rfl
    obtain ⟨t, hm, hr, hd2⟩ := Decodes.head hdec
    obtain ⟨w2, h2, h3⟩ := clear_step hlt ha hh ht hcl hm hr
    obtain ⟨w3, h4, h5⟩ := processLoop_miss hlt h2 hd2
    refine ⟨w3, by rw [h3, h5]; rfl, by rw [h4.trace, ha.trace], by rw [h4.buffered], ?_⟩
    rw [h4.hasHandler]; rfl
  · intro hlen
    obtain ⟨m, m', ms, rfl⟩ : ∃ m m' ms', ms = m :: m' :: ms' := by
      match ms, hlen with
      | m :: m' :: ms', _ => exact ⟨m, m', ms', rfl⟩
    obtain ⟨t, hm, hr, hd2⟩ := Decodes.head hdec
    obtain ⟨w2, h2, h3⟩ := clear_step hlt ha hh ht hcl hm hr
    obtain ⟨t', hm', hr', _⟩ := Decodes.head hd2
    obtain ⟨w3, h4, _, h5⟩ := processLoop_hit hlt h2 hm' hr'
    rw [h3, h5]
    have : w3.rx.invoke m'.id = .error .ub := by
      unfold Receiver.invoke
      rw [h4.invoker]
      rfl
    rw [this]
    rfl

/-- A receiver with two messages pending meets the hypotheses. -/
example : ∃ (w : World Sample.basic) (os : List Obs),
    Reached Sample.dbg Sample.passive 50 [.setHandler Sample.h0,
      .append (frames .basic [Sample.mPing, Sample.mLevel])] w os ∧
    currentHandler w = some Sample.h0 ∧ Handler.Total Sample.h0 ∧
    Decodes Sample.basic (buffered w) [Sample.mPing, Sample.mLevel] [] := by
  obtain ⟨w, os, h, hp⟩ := Sample.reached (C := Sample.basic) (B := Sample.dbg)
    (user := Sample.passive) (fuel := 50) (ops := [.setHandler Sample.h0,
      .append (frames .basic [Sample.mPing, Sample.mLevel])])
    (fun w _ => decide (currentHandler w = some Sample.h0) &&
      decide (buffered w = frames .basic [Sample.mPing, Sample.mLevel])) (by decide +kernel)
  simp only [Bool.and_eq_true, decide_eq_true_eq] at hp
  refine ⟨w, os, h, hp.1, by intro ts; simp [Sample.h0], ?_⟩
  rw [hp.2]
  have := run_frames (C := Sample.basic) (ms := [Sample.mPing, Sample.mLevel])
    (by decide +kernel) []
  rw [List.append_nil] at this
  exact ⟨this, Or.inl rfl⟩

/-! ### C44 -/

/-- User code reacting to the next call by calling `processMessages`, and benignly, silently and
without exceptions to all later calls. -/
structure NestsOnce (user : UserCode) (past : List UserCall) : Prop where
  first : ∀ x free, user (past ++ [x]) free = ⟨[.process], false⟩
  later : ∀ calls free, past.length + 1 < calls.length →
    Benign (user calls free).acts free ∧ (user calls free).throws = false

/-- One loop iteration whose handler call makes a nested `processMessages` call. -/
theorem nest_step (hc : recvBufferSize C < 2 ^ 64) {w : World C} {s : AState} (hw : Abs w s)
    {hd : Handler} (hh : s.handler = some hd) (ht : Handler.Total hd)
    (hfirst : ∀ x free, user (w.userCalls ++ [x]) free = ⟨[.process], false⟩)
    {m : Msg} {t : List Byte} (hm : IsMsg C m) (hr : Run C s.buf [] (frame C.envelope m ++ t)) :
    ∃ w1 : World C, Abs w1 ⟨frame C.envelope m ++ t, s.handler, some m.id,
        s.trace ++ [callOf C hd m], s.fed⟩ ∧
      w1.userCalls.length = w.userCalls.length + 1 ∧ w1.rx.recv.currentMessageId = some m.id ∧
      ∀ B fuel n, World.processLoop B user (fuel + 1) w n = (do
        let (w, o) ← World.processLoop B user fuel w1 0
        match o with
        | .threw => return (w, .threw)
        | .returned _ =>
          let e ← w.rx.recv.popMessage B
          World.processLoop B user fuel { w with rx := { w.rx with recv := e } } (n + 1)) := by
  obtain ⟨w1, hw1, hid, hl⟩ := processLoop_hit hc hw hm hr
  obtain ⟨c, huc⟩ := ht.userCall (callOf C hd m) rfl
  have hinv : w1.rx.invoke m.id = .ok (some (callOf C hd m)) :=
    invoke_ok (k := hd.kind) (o := hd.obj) hm hw1.buf (by rw [hw1.invoker]; simp [hh])
      (by rw [hw1.functor]; simp [hh])
  have hd' : dispatch (callOf C hd m) = some c := huc
  have hcalls : ({ w1 with trace := w1.trace ++ [callOf C hd m] } : World C).userCalls =
      w.userCalls ++ [c] := by
    unfold World.userCalls
    simp only [hw1.trace, hw.trace, List.filterMap_append]
    rw [List.filterMap_cons_some hd']
    rfl
  have habs : Abs { w1 with trace := w1.trace ++ [callOf C hd m] }
      { s with buf := frame C.envelope m ++ t, last := some m.id,
               trace := s.trace ++ [callOf C hd m] } :=
    ⟨hw1.buf, hw1.invoker, hw1.functor, hw1.last, by simp [hw1.trace], hw1.fed⟩
  refine ⟨{ w1 with trace := w1.trace ++ [callOf C hd m] }, habs, by rw [hcalls]; simp, hid, ?_⟩
  intro B fuel n
  have hhas : ({ w1 with trace := w1.trace ++ [callOf C hd m] } : World C).rx.hasHandler = true := by
    rw [habs.hasHandler]; simp [hh]
  rw [hl, hinv]
  simp only [ok_bind, World.callHandler, hd', hcalls, hfirst, World.runActs, hhas, Bool.not_true,
    Bool.false_eq_true, if_false]
  cases World.processLoop B user fuel { w1 with trace := w1.trace ++ [callOf C hd m] } 0 with
  | error f => rfl
  | ok x =>
    obtain ⟨w2, o⟩ := x
    cases o <;> simp

/-- The nested call returns with everything handled; what the outer call does then. -/
theorem nested_returns (S : Setting C B user0) {ops : List Op}
    {w : World C} {os : List Obs} (h : Reached B user0 fuel0 ops w os) {hd : Handler}
    (hc : currentHandler w = some hd) (ht : Handler.Total hd)
    (hn : NestsOnce user w.userCalls) (hq : Quiet user)
    {m : Msg} {ms : List Msg} {r : List Byte} (hdec : Decodes C (buffered w) (m :: ms) r)
    {f : Nat} (hf : capacity C < f) :
    ∃ (w1 w2 : World C) (s2 : AState) (k : Byte), w1.rx.recv.currentMessageId = some m.id ∧
      World.processLoop B user f w1 0 = .ok (w2, .returned k) ∧ Abs w2 s2 ∧ Final C s2.buf ∧
      w.userCalls.length + 1 ≤ w2.userCalls.length ∧ IsMsg C m ∧
      w.processMessages B user (f + 1) = (do
        let e ← w2.rx.recv.popMessage B
        World.processLoop B user f { w2 with rx := { w2.rx with recv := e } } 1) := by
  obtain ⟨s, _, ha, _⟩ := h.exec S
  have hh : s.handler = some hd := by rw [← currentHandler_abs ha, hc]
  have hlt := S.arith.lt64
  rw [ha.buffered] at hdec
  have hpm : w.processMessages B user (f + 1) = World.processLoop B user (f + 1) w 0 := by
    unfold World.processMessages
    rw [ha.hasHandler, hh]
    rfl
  obtain ⟨t, hm, hr, _⟩ := Decodes.head hdec
  obtain ⟨w1, h1, hlen, hid, h2⟩ := nest_step hlt ha hh ht hn.first hm hr
  rw [hpm, h2]
  have hfrom : BenignFrom user (w.userCalls.length + 1) := fun calls free hl =>
    (hn.later calls free hl).1
  have hlen' : w.userCalls.length + 1 ≤
      ((s.trace ++ [callOf C hd m]).filterMap userCall).length := by
    have e : w1.userCalls = (s.trace ++ [callOf C hd m]).filterMap userCall := by
      unfold World.userCalls; rw [h1.trace]; rfl
    rw [← e, hlen]
    exact Nat.le_refl _
  rcases processLoop_from hlt hfrom f w1 _ 0 h1 (by simp [hh]) hlen' with
    ⟨hk, _⟩ | ⟨w2, s2, ms2, th, h3, h4, h5, h6, _⟩
  · exfalso
    have := hk.quiet_le hq
    have hle := RB.Holds.length_le h1.buf
    rw [← capacity_eq] at hle
    simp only at this hle
    omega
  · have hth : th = false := by
      have nothrow : ∀ {s s' : AState} {ms th}, Proc C user s ms s' th →
          w.userCalls.length + 1 ≤ (s.trace.filterMap userCall).length → th = false := by
        intro s s' ms th hp
        have thr : ∀ (s : AState) (i : Invocation) (free : Nat),
            w.userCalls.length + 1 ≤ (s.trace.filterMap userCall).length →
            (reaction user s.trace i free).throws = false := by
          intro s i free hl
          unfold reaction
          split
          · rfl
          · rename_i c hc
            exact (hn.later _ _ (by
              rw [List.filterMap_append, List.filterMap_cons_some hc]; simp; omega)).2
        induction hp with
        | done => intro _; rfl
        | throw _ _ _ hthrow =>
          intro hl
          simp only [afterCall] at hthrow
          rw [thr _ _ _ hl] at hthrow
          simp at hthrow
        | msg _ _ _ _ _ ih =>
          intro hl
          refine ih ?_
          simp only [afterCall, List.filterMap_append, List.length_append]
          omega
      exact nothrow h5 hlen'
    subst hth
    obtain ⟨_, calls, _, _, htr, _, _, _, _, h7, _⟩ := h5.sound
    have h3' := h3 B S.arith
    simp only [Bool.false_eq_true, if_false] at h3'
    refine ⟨w1, w2, s2, _, hid, h3', h4, (h7 rfl).1, ?_, hm, ?_⟩
    · have e : w2.userCalls = s2.trace.filterMap userCall := by
        unfold World.userCalls; rw [h4.trace]; rfl
      rw [e, htr]
      simp only [List.filterMap_append, List.length_append] at hlen' ⊢
      omega
    · rw [h3']
      rfl

/-- C44. In a build with assertions: a handler that calls `processMessages` makes the program abort,
whatever is buffered, as soon as there is one message to handle. -/
theorem C44_debug_abort (S : Setting C B user0) (hdbg : B.debug = true) {ops : List Op}
    {w : World C} {os : List Obs} (h : Reached B user0 fuel0 ops w os) {hd : Handler}
    (hc : currentHandler w = some hd) (ht : Handler.Total hd)
    (hn : NestsOnce user w.userCalls) (hq : Quiet user)
    {m : Msg} {ms : List Msg} {r : List Byte} (hdec : Decodes C (buffered w) (m :: ms) r)
    (hf : capacity C + 1 < fuel) :
    w.processMessages B user fuel = .error .abort := by
  obtain ⟨f, rfl⟩ : ∃ f, fuel = f + 1 := ⟨fuel - 1, by omega⟩
  obtain ⟨w1, w2, s2, k, _, _, h4, hfin, _, _, heq⟩ :=
    nested_returns S h hc ht hn hq hdec (f := f) (by omega)
  rw [heq]
  obtain ⟨e', found, ys, hc1, _, hh', hr', _, htf, _⟩ := check_spec S.arith.lt64 h4.buf
  obtain ⟨_, rfl⟩ := hfin.no_step hr'
  cases found with
  | true =>
    exfalso
    obtain ⟨m', t', hm', e, _⟩ := htf rfl
    rw [e] at hfin
    rcases hfin with hfin | hfin
    · have := frame_ne_nil C.envelope m'
      simp [this] at hfin
    · exact not_waiting_frame hm' t' hfin
  | false =>
    unfold ERB.popMessage
    simp [hdbg, hc1 B, assertMsg]

/-- C44. In a build without assertions, if the size type holds twice the capacity: a handler that
calls `processMessages` (and does nothing in later calls) makes the behaviour of the program
undefined, whatever is buffered, as soon as there is one message to handle. -/
theorem C44_release_ub (S : Setting C B user0) (hdbg : B.debug = false)
    (h2 : 2 * capacity C ≤ 2 ^ leastBits (capacity C)) {ops : List Op}
    {w : World C} {os : List Obs} (h : Reached B user0 fuel0 ops w os) {hd : Handler}
    (hc : currentHandler w = some hd) (ht : Handler.Total hd)
    (hfirst : ∀ x free, user (w.userCalls ++ [x]) free = ⟨[.process], false⟩)
    (hlater : ∀ calls free, w.userCalls.length + 1 < calls.length → user calls free = ⟨[], false⟩)
    (hq : Quiet user)
    {m : Msg} {ms : List Msg} {r : List Byte} (hdec : Decodes C (buffered w) (m :: ms) r)
    (hf : capacity C + 1 < fuel) :
    w.processMessages B user fuel = .error .ub := by
  obtain ⟨f, rfl⟩ : ∃ f, fuel = f + 1 + 1 := ⟨fuel - 2, by omega⟩
  have hlt := S.arith.lt64
  have hn : NestsOnce user w.userCalls :=
    ⟨hfirst, fun calls free hl => by rw [hlater calls free hl]; exact ⟨⟨by simp, by simp [appended]⟩, rfl⟩⟩
  obtain ⟨w1, w2, s2, k, hid, hrun, h4, hfin, hlen, hm, heq⟩ :=
    nested_returns S h hc ht hn hq hdec (f := f + 1) (by omega)
  rw [heq]
  rw [capacity_eq] at h2 hf
  have hshort := (processLoop_id hlt (f + 1) (w := w1) (by
    intro id hid'
    rw [hid, Option.some.injEq] at hid'
    subst hid'
    exact ⟨_, hm.announced⟩) hrun).2 (by simp)
  unfold ERB.popMessage
  simp only [hdbg, Bool.false_eq_true, if_false, ok_bind]
  cases hcur : w2.rx.recv.currentMessageId with
  | none =>
    unfold ERB.getMessageLength ERB.getCurrentMessageId
    simp [ERB.isCurrentMessageIdValid, hcur, assertMsg, hdbg]
  | some id =>
    obtain ⟨n, hann, hsz⟩ := hshort id hcur
    have hsize := h4.buf.size_eq hlt
    have hsz' : s2.buf.length < n := by
      have : w2.rx.recv.bufferSize = s2.buf.length := hsize
      omega
    have hpe := h4.buf.pe
    have hle := h4.buf.pastEnd_le
    have hnle : n ≤ recvBufferSize C := by
      have := announced_le hann
      unfold recvBufferSize messageBufferSizeScale
      omega
    have hn0 : 0 < n := by omega
    rw [getMessageLength_ok hlt hcur hann]
    simp only [ok_bind, ERB.bufferPopFront, RB.popFront]
    have hfront : UbOr (w2.rx.recv.buf.front B) fun _ => w2.rx.recv.buf.begin_ < recvBufferSize C := by
      unfold RB.front RB.get
      rw [assertMsg_release hdbg]
      have he : w2.rx.recv.buf.adjustedIndex 0 = w2.rx.recv.buf.begin_ := by
        unfold RB.adjustedIndex trunc
        exact Nat.mod_eq_of_lt (by have := lt_two_pow_leastBits hlt; omega)
      rw [he]
      have := rawGet_ubOr w2.rx.recv.buf.contents w2.rx.recv.buf.begin_
      rw [h4.buf.len] at this
      exact this
    rcases hfront with h5 | ⟨v, h5, h6⟩
    · rw [h5]; rfl
    · rw [h5]
      simp only [ok_bind]
      have hlt2 : w2.rx.recv.buf.begin_ + n < 2 ^ leastBits (recvBufferSize C) := by omega
      rw [popFrontLoop_release hdbg n _ hlt2]
      simp only [ok_bind, pure_eq_ok]
      refine processLoop_over hdbg hlt h2 (n0 := w.userCalls.length + 1)
        (fun calls free hl => hlater calls free hl) f _ 1 ⟨h4.buf.len, ?_, hlt2⟩ ?_ hlen
      · show w2.rx.recv.buf.pastEnd < w2.rx.recv.buf.begin_ + n
        omega
      · show _ ≤ f + (w2.rx.recv.buf.begin_ + n)
        omega

/-- User code that calls `processMessages` in its first call only. -/
def nester : UserCode := fun calls _ => if calls.length = 1 then ⟨[.process], false⟩ else ⟨[], false⟩

theorem nester_nests : NestsOnce nester [] := by
  refine ⟨fun x free => by simp [nester], fun calls free hl => ?_⟩
  have : calls.length ≠ 1 := by simp at hl; omega
  simp [nester, this, Benign, appended]

theorem nester_quiet : Quiet nester := by
  intro calls free
  unfold nester
  split <;> rfl

/-- A receiver with one message pending and half of another meets the hypotheses. -/
example : ∃ (w : World Sample.basic) (os : List Obs),
    Reached Sample.dbg Sample.passive 50 [.setHandler Sample.h0,
      .append (frames .basic [Sample.mPing] ++ [1, 1, 2])] w os ∧
    (decide (currentHandler w = some Sample.h0) && decide (w.userCalls = []) &&
     decide (buffered w = frame .basic Sample.mPing ++ [1, 1, 2]) &&
     decide (w.processMessages Sample.dbg nester 50 = .error .abort)) = true :=
  Sample.reached _ (by decide +kernel)

/-- C44. The message is delivered twice: if the second call throws, `processMessages` ends with two
calls for the same message, in either kind of build. -/
theorem C44_delivered_twice (S : Setting C B user0) {ops : List Op}
    {w : World C} {os : List Obs} (h : Reached B user0 fuel0 ops w os) {hd : Handler}
    (hc : currentHandler w = some hd) (ht : Handler.Total hd)
    (hfirst : ∀ x free, user (w.userCalls ++ [x]) free = ⟨[.process], false⟩)
    (hsecond : ∀ x y free, user (w.userCalls ++ [x, y]) free = ⟨[], true⟩)
    {m : Msg} {ms : List Msg} {r : List Byte} (hdec : Decodes C (buffered w) (m :: ms) r)
    (hf : 2 ≤ fuel) :
    ∃ w', w.processMessages B user fuel = .ok (w', .threw) ∧
      w'.trace = w.trace ++ [callOf C hd m, callOf C hd m] := by
  obtain ⟨s, _, ha, _⟩ := h.exec S
  have hh : s.handler = some hd := by rw [← currentHandler_abs ha, hc]
  have hlt := S.arith.lt64
  rw [ha.buffered] at hdec
  obtain ⟨f, rfl⟩ : ∃ f, fuel = f + 1 + 1 := ⟨fuel - 2, by omega⟩
  have hpm : w.processMessages B user (f + 1 + 1) = World.processLoop B user (f + 1 + 1) w 0 := by
    unfold World.processMessages
    rw [ha.hasHandler, hh]
    rfl
  obtain ⟨t, hm, hr, _⟩ := Decodes.head hdec
  obtain ⟨w1, h1, hlen, _, h2⟩ := nest_step hlt ha hh ht hfirst hm hr
  rw [hpm, h2]
  obtain ⟨w2, hw2, hid, hl⟩ := processLoop_hit hlt h1 hm (Run.refl _)
  obtain ⟨c, huc⟩ := ht.userCall (callOf C hd m) rfl
  have hd' : dispatch (callOf C hd m) = some c := huc
  have hinv : w2.rx.invoke m.id = .ok (some (callOf C hd m)) :=
    invoke_ok (k := hd.kind) (o := hd.obj) hm hw2.buf (by rw [hw2.invoker]; simp [hh])
      (by rw [hw2.functor]; simp [hh])
  have hcalls : ({ w2 with trace := w2.trace ++ [callOf C hd m] } : World C).userCalls =
      w.userCalls ++ [c, c] := by
    unfold World.userCalls
    simp only [hw2.trace, ha.trace, List.filterMap_append]
    rw [List.filterMap_cons_some hd']
    simp
  refine ⟨{ w2 with trace := w2.trace ++ [callOf C hd m] }, ?_, ?_⟩
  · rw [hl, hinv]
    simp [World.callHandler, hd', hcalls, hsecond, World.runActs]
  · simp [hw2.trace, ha.trace]

/-- User code that calls `processMessages` in its first call and throws in its second. -/
def nestThrow : UserCode := fun calls _ =>
  if calls.length = 1 then ⟨[.process], false⟩ else ⟨[], true⟩

example : (∀ x free, nestThrow ([] ++ [x]) free = ⟨[.process], false⟩) ∧
    (∀ x y free, nestThrow ([] ++ [x, y]) free = ⟨[], true⟩) ∧
    ∃ (w w' : World Sample.basic) (os : List Obs),
    Reached Sample.dbg nestThrow 50 [.setHandler Sample.h0,
      .append (frames .basic [Sample.mPing])] w os ∧
    w.processMessages Sample.dbg nestThrow 50 = .ok (w', .threw) ∧
    (decide (currentHandler w = some Sample.h0) && decide (w.userCalls = []) &&
     decide (buffered w = frame .basic Sample.mPing) && decide (w'.trace.length = 2)) = true :=
  ⟨fun _ _ => rfl, fun _ _ _ => rfl, Sample.processes .threw _ (by decide +kernel)⟩

/-- Release build: a receiver with one message pending meets the hypotheses of `C44_release_ub`. -/
example : 2 * capacity Sample.basic ≤ 2 ^ leastBits (capacity Sample.basic) ∧
    (∀ x free, nester ([] ++ [x]) free = ⟨[.process], false⟩) ∧
    (∀ calls free, ([] : List UserCall).length + 1 < calls.length → nester calls free = ⟨[], false⟩) ∧
    ∃ (w : World Sample.basic) (os : List Obs),
    Reached Sample.rel16 Sample.passive 50 [.setHandler Sample.h0,
      .append (frame .basic Sample.mPing ++ [1, 1, 2])] w os ∧
    (decide (currentHandler w = some Sample.h0) && decide (w.userCalls = []) &&
     decide (buffered w = frame .basic Sample.mPing ++ [1, 1, 2]) &&
     decide (w.processMessages Sample.rel16 nester 50 = .error .ub)) = true := by
  refine ⟨by decide +kernel, fun _ _ => rfl, fun calls free hl => ?_, Sample.reached _ (by decide +kernel)⟩
  have : calls.length ≠ 1 := by simp at hl; omega
  simp [nester, this]

/-- One message type of 85 bytes: the receive buffer has 255 bytes and an 8-bit size type. -/
def tight : Collection := ⟨[⟨0, [.pod 0 80]⟩], .basic⟩

/-- The two messages of the witness. -/
def tightMsg (b : Byte) : Msg := ⟨0, List.replicate 80 b⟩

/-- C44. The condition on the size type in `C44_release_ub` is needed. Witness in a release build:
with 255 buffered bytes, of which the last 84 are an unfinished message, the begin index wraps to 0,
and the two messages are handed over five times altogether, without a fault. -/
theorem C44_release_wrap_witness : ∃ (w w' : World tight) (os : List Obs),
    Reached Sample.rel16 nester 600 [.setHandler Sample.h0,
      .append ([9] ++ frames .basic [tightMsg 5, tightMsg 6] ++
        (frame .basic (tightMsg 7)).take 84)] w os ∧
    w.processMessages Sample.rel16 nester 600 = .ok (w', .returned 3) ∧
    (decide (delivered w = []) &&
     decide (delivered w' = [tightMsg 5, tightMsg 5, tightMsg 6, tightMsg 5, tightMsg 6].map
      (meaning tight)) &&
     decide (buffered w' = (buffered w).drop 171)) = true :=
  Sample.processes (.returned 3) _ (by decide +kernel)

end TT.Properties
