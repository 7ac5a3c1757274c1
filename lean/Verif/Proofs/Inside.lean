import Verif.Spec.Inside
import Verif.Proofs.History

/-!
# Helper lemmas: handlers that refill, copy and assign the receiver
-/

namespace TT
open Spec

variable {C : Collection}

/-- A copy made while the message `m` (in front of `t`) is being handled. -/
structure Snap (r : Receiver C) (m : Msg) (t : List Byte) : Prop where
  msg : IsMsg C m
  abs : ∃ h : Handler, Abs (⟨r, [], []⟩ : World C) ⟨frame C.envelope m ++ t, some h, some m.id, [], []⟩

theorem Abs.snap {w : World C} {s : AState} (hw : Abs w s) {m : Msg} {t : List Byte} (hm : IsMsg C m)
    (hb : s.buf = frame C.envelope m ++ t) (hl : s.last = some m.id) {h : Handler}
    (hh : s.handler = some h) : Snap w.rx m t := by
  refine ⟨hm, h, ⟨?_, ?_, ?_, ?_, rfl, rfl⟩⟩
  · rw [← hb]; exact hw.buf
  · rw [← hh]; exact hw.invoker
  · rw [← hh]; exact hw.functor
  · rw [← hl]; exact hw.last

theorem arith_wide {cap : Nat} (hc : cap < 2 ^ 64) : Arith ⟨false, 65⟩ cap := by
  refine ⟨hc, ?_⟩
  have : 2 ^ 65 ≤ 2 ^ max (leastBits cap) 65 := Nat.pow_le_pow_right (by omega) (by omega)
  show 2 * cap ≤ 2 ^ max (leastBits cap) 65
  omega

theorem runInside_ok (hc : recvBufferSize C < 2 ^ 64) {m : Msg} (hm : IsMsg C m)
    (acts : List (InsideAct C)) :
    ∀ {x : InsideWorld C} {s : AState} {t : List Byte} {h : Handler}, Abs x.w s →
    s.buf = frame C.envelope m ++ t → s.last = some m.id → s.handler = some h →
    Tame (capacity C - s.buf.length) acts →
    Benign (plain (capacity C - s.buf.length) acts) (capacity C - s.buf.length) →
    ∃ x' : InsideWorld C, (∀ B nested, Arith B (recvBufferSize C) →
        InsideWorld.runActs B nested x acts = .ok (x', false)) ∧
      Abs x'.w { s with buf := s.buf ++ appended (plain (capacity C - s.buf.length) acts),
                        fed := s.fed ++ appended (plain (capacity C - s.buf.length) acts),
                        handler := handlerAfter s.handler (plain (capacity C - s.buf.length) acts) } ∧
      x'.w.rx.recv.currentMessageId = x.w.rx.recv.currentMessageId ∧
      ∃ rs, x'.saved = x.saved ++ rs ∧
        ∀ kr ∈ rs, kr.1 = s.trace.length ∧ ∃ t', Snap kr.2 m t' := by
  induction acts with
  | nil =>
    intro x s t h hw hb hl hh _ _
    exact ⟨x, fun B nested _ => rfl, by simpa [plain, appended, handlerAfter] using hw, rfl, [], by simp, by simp⟩
  | cons a acts ih =>
    intro x s t h hw hb hl hh htame hbn
    have hle : s.buf.length ≤ capacity C := by rw [capacity_eq]; exact RB.Holds.length_le hw.buf
    have happ : ∀ {xs : List Byte} {w1 : World C},
        Abs w1 { s with buf := s.buf ++ xs, fed := s.fed ++ xs } →
        w1.rx.recv.currentMessageId = x.w.rx.recv.currentMessageId →
        Tame (capacity C - s.buf.length - xs.length) acts →
        Benign (.append xs :: plain (capacity C - s.buf.length - xs.length) acts) (capacity C - s.buf.length) →
        ∃ x' : InsideWorld C, (∀ B nested, Arith B (recvBufferSize C) →
            InsideWorld.runActs B nested { x with w := w1 } acts = .ok (x', false)) ∧
          Abs x'.w { s with
            buf := s.buf ++ appended (.append xs :: plain (capacity C - s.buf.length - xs.length) acts),
            fed := s.fed ++ appended (.append xs :: plain (capacity C - s.buf.length - xs.length) acts),
            handler := handlerAfter s.handler (.append xs :: plain (capacity C - s.buf.length - xs.length) acts) } ∧
          x'.w.rx.recv.currentMessageId = x.w.rx.recv.currentMessageId ∧
          ∃ rs, x'.saved = x.saved ++ rs ∧
            ∀ kr ∈ rs, kr.1 = s.trace.length ∧ ∃ t', Snap kr.2 m t' := by
      intro xs w1 ha1 hi1 ht1 hb1
      have hlen : capacity C - (s.buf ++ xs).length = capacity C - s.buf.length - xs.length := by
        rw [List.length_append]; omega
      obtain ⟨x', h1, h2, h3, h4⟩ := ih (x := { x with w := w1 })
        (s := { s with buf := s.buf ++ xs, fed := s.fed ++ xs }) (t := t ++ xs) (h := h) ha1
        (by simp [hb]) hl hh (by simpa only [hlen] using ht1)
        ⟨fun a ha => by
          simp only [hlen] at ha
          exact hb1.1 a (by simp [ha]), by
          have := hb1.2
          simp only [appended, List.length_append] at this
          simp only [hlen]; omega⟩
      simp only [hlen] at h2
      refine ⟨x', h1, by simpa [appended, handlerAfter] using h2, h3.trans hi1, h4⟩
    cases a with
    | call a =>
      cases a with
      | append xs =>
        simp only [plain, Tame] at htame hbn ⊢
        have hx : xs.length ≤ capacity C - s.buf.length := by
          have := hbn.2; simp only [appended, List.length_append] at this; omega
        obtain ⟨w1, h1, ha1, hi1⟩ := append_ok hc hw (xs := xs) (by omega)
        obtain ⟨x', e1, e2⟩ := happ ha1 hi1 htame hbn
        exact ⟨x', fun B nested hA => by simp [InsideWorld.runActs, h1 B hA, e1 B nested hA], e2⟩
      | setHandler hd =>
        simp only [plain, Tame] at htame hbn ⊢
        have ha1 : Abs ({ x.w with rx := x.w.rx.setHandler hd } : World C) { s with handler := some hd } :=
          ⟨hw.buf, rfl, rfl, hw.last, hw.trace, hw.fed⟩
        obtain ⟨x', e1, e2⟩ := ih (x := { x with w := { x.w with rx := x.w.rx.setHandler hd } })
          (s := { s with handler := some hd }) (t := t) (h := hd) ha1 hb hl rfl htame
          ⟨fun a ha => hbn.1 a (by simp [ha]), hbn.2⟩
        exact ⟨x', fun B nested hA => by simp [InsideWorld.runActs, e1 B nested hA], e2⟩
      | clearHandler => exact absurd rfl (hbn.1 .clearHandler (by simp [plain])).1
      | process => exact absurd rfl (hbn.1 .process (by simp [plain])).2
    | receiveFrom avail rcv =>
      simp only [plain, Tame] at htame hbn ⊢
      obtain ⟨r, h1, ha1⟩ := receiveFrom_ok hc hw rfl htame.1
      have hi1 : r.recv.currentMessageId = x.w.rx.recv.currentMessageId := by
        have := h1 ⟨false, 65⟩ (arith_wide hc)
        unfold Receiver.receiveFrom ERB.bufferFromFunctorRef at this
        cases hf : x.w.rx.recv.buf.bufferFromExternalFunctorRef ⟨false, 65⟩ rcv avail.toNat with
        | error f => simp [hf] at this
        | ok p => simp [hf] at this; rw [← this.1]
      obtain ⟨x', e1, e2⟩ := happ ha1 hi1 htame.2 hbn
      refine ⟨x', fun B nested hA => ?_, e2⟩
      have hsp := hw.space hc
      simp only [InsideWorld.runActs, h1 B hA, hsp, ok_bind]
      rw [htame.1.2, List.take_length]
      exact e1 B nested hA
    | save =>
      simp only [plain, Tame] at htame hbn ⊢
      obtain ⟨r, h1, ha1, hr1, hr2, hr3, _⟩ := copy_ok hc hw
      obtain ⟨x', e1, e2, e3, rs, e4, e5⟩ := ih (x := { x with saved := x.saved ++ [(x.w.trace.length, r)] })
        (s := s) (t := t) (h := h) hw hb hl hh htame hbn
      refine ⟨x', fun B nested hA => by simp [InsideWorld.runActs, h1, e1 B nested hA], e2, e3,
        (x.w.trace.length, r) :: rs, by simp [e4], ?_⟩
      intro kr hkr
      rcases List.mem_cons.mp hkr with rfl | hkr
      · exact ⟨by simp [hw.trace], t, ha1.snap hm hb hl hh⟩
      · exact e5 kr hkr
    | assign other => exact absurd htame (by simp [Tame])

/-! ### One call of the handler -/

theorem callInside_ok (hc : recvBufferSize C < 2 ^ 64) {code : InsideCode C} (ht : TameCode code)
    (hu : BenignUser (plainCode code)) {x : InsideWorld C} {s : AState} {h : Handler} {m : Msg}
    {t : List Byte} (hm : IsMsg C m) (hw : Abs x.w s) (hh : s.handler = some h)
    (hbuf : s.buf = frame C.envelope m ++ t) (hlast : s.last = some m.id) :
    ∃ x' : InsideWorld C, (∀ B nested, Arith B (recvBufferSize C) →
        InsideWorld.callHandler B code nested x (callOf C h m) =
          .ok (x', (afterCall C (plainCode code) s h m t).2)) ∧
      Abs x'.w (afterCall C (plainCode code) s h m t).1 ∧
      x'.w.rx.recv.currentMessageId = x.w.rx.recv.currentMessageId ∧
      ∃ rs, x'.saved = x.saved ++ rs ∧
        ∀ kr ∈ rs, kr.1 = s.trace.length + 1 ∧ ∃ t', Snap kr.2 m t' := by
  have hw1 : Abs ({ x.w with trace := x.w.trace ++ [callOf C h m] } : World C)
      { s with trace := s.trace ++ [callOf C h m] } :=
    ⟨hw.buf, hw.invoker, hw.functor, hw.last, by simp [hw.trace], hw.fed⟩
  have hsp := hw1.space hc
  simp only at hsp
  have huc : ({ x.w with trace := x.w.trace ++ [callOf C h m] } : World C).userCalls =
      (s.trace ++ [callOf C h m]).filterMap userCall := by
    unfold World.userCalls
    simp only [hw.trace]
    rfl
  cases hd : userCall (callOf C h m) with
  | none =>
    have hd' : dispatch (callOf C h m) = none := hd
    refine ⟨{ x with w := { x.w with trace := x.w.trace ++ [callOf C h m] } }, fun B nested hA => ?_,
      ?_, rfl, [], by simp, by simp⟩
    · unfold InsideWorld.callHandler
      simp only [hd']
      simp [afterCall, reaction, hd]
    · simp only [afterCall, reaction, hd, appended, List.append_nil, handlerAfter]
      rw [← hbuf, ← hlast, ← hh]
      exact hw1
  | some c =>
    have hd' : dispatch (callOf C h m) = some c := hd
    have hben := hu ((s.trace ++ [callOf C h m]).filterMap userCall) (capacity C - s.buf.length)
    obtain ⟨x2, h2, ha2, hi2, rs, hs2, hk2⟩ := runInside_ok hc hm
      (code ((s.trace ++ [callOf C h m]).filterMap userCall) (capacity C - s.buf.length)).acts
      (x := { x with w := { x.w with trace := x.w.trace ++ [callOf C h m] } })
      (s := { s with trace := s.trace ++ [callOf C h m] }) (t := t) (h := h)
      hw1 hbuf hlast hh (ht _ _) hben
    refine ⟨x2, fun B nested hA => ?_, ?_, hi2, rs, hs2, ?_⟩
    · unfold InsideWorld.callHandler
      simp only [hd']
      rw [huc, hsp, h2 B nested hA]
      simp [afterCall, reaction, hd, hbuf, plainCode]
    · simp only [afterCall, reaction, hd, plainCode]
      simp only [hbuf, hlast, hh] at ha2
      exact ha2
    · intro kr hkr
      obtain ⟨e, ht'⟩ := hk2 kr hkr
      exact ⟨by simpa using e, ht'⟩

/-! ### The loop -/

/-- The loop with refills and copies does what the abstract machine does for the same user code with
refills replaced by appends and without copies; each copy is a receiver that is just handling the
message of the call in which it was made. -/
theorem insideLoop_spec (hc : recvBufferSize C < 2 ^ 64) {code : InsideCode C} (ht : TameCode code)
    (hu : BenignUser (plainCode code)) (fuel : Nat) :
    ∀ (x : InsideWorld C) (s : AState) (n : Byte), Abs x.w s → s.handler.isSome →
    (Keeps C (plainCode code) fuel s ∧
      ∀ B, Arith B (recvBufferSize C) → InsideWorld.processLoop B code fuel x n = .error .diverge) ∨
    ∃ (x' : InsideWorld C) (s' : AState) (ms : List Msg) (thrown : Bool),
      (∀ B, Arith B (recvBufferSize C) → InsideWorld.processLoop B code fuel x n =
        .ok (x', if thrown then .threw else .returned (n + UInt8.ofNat ms.length))) ∧
      Abs x'.w s' ∧ Proc C (plainCode code) s ms s' thrown ∧ s'.handler.isSome ∧ ms.length < fuel ∧
      (∃ calls, s'.trace = s.trace ++ calls) ∧
      ∃ rs, x'.saved = x.saved ++ rs ∧
        ∀ kr ∈ rs, ∃ k i m t, kr.1 = k + 1 ∧ s.trace.length ≤ k ∧ s'.trace[k]? = some i ∧
          seen i = meaning C m ∧ Snap kr.2 m t := by
  induction fuel with
  | zero => intro x s n _ _; exact Or.inl ⟨Keeps.zero _, fun B _ => rfl⟩
  | succ fuel ih =>
    intro x s n hw hh
    obtain ⟨h, hh⟩ := Option.isSome_iff_exists.mp hh
    obtain ⟨e1, found, ys, h1, _, hh1, hr1, _, ht1, hf1⟩ := check_spec hc hw.buf
    cases found with
    | false =>
      right
      refine ⟨{ x with w := { x.w with rx := { x.w.rx with recv := e1 } } }, { s with buf := ys }, [], false,
        fun B hA => ?_, ⟨hh1, hw.invoker, hw.functor, hw.last, hw.trace, hw.fed⟩,
        Proc.done ⟨hr1, hf1 rfl⟩, by simp [hh], by simp, ⟨[], by simp⟩, [], by simp, by simp⟩
      unfold InsideWorld.processLoop
      simp [h1 B]
    | true =>
      obtain ⟨m, t, hm, rfl, hid⟩ := ht1 rfl
      let x1 : InsideWorld C :=
        { x with w := { x.w with rx := { x.w.rx with recv := e1, lastMessageId := some m.id } } }
      let s1 : AState := { s with buf := frame C.envelope m ++ t, last := some m.id }
      have hw1 : Abs x1.w s1 := ⟨hh1, hw.invoker, hw.functor, rfl, hw.trace, hw.fed⟩
      have hinv : x1.w.rx.invoke m.id = .ok (some (callOf C h m)) :=
        invoke_ok (k := h.kind) (o := h.obj) hm hh1 (by simp [x1, hw.invoker, hh])
          (by simp [x1, hw.functor, hh])
      obtain ⟨x2, h2, ha2, hi2, rs2, hs2, hk2⟩ := callInside_ok hc ht hu hm hw1 (h := h) (t := t) hh rfl rfl
      have hs1 : afterCall C (plainCode code) s1 h m t = afterCall C (plainCode code) s h m t := rfl
      rw [hs1] at h2 ha2
      have htr2 : (afterCall C (plainCode code) s h m t).1.trace = s.trace ++ [callOf C h m] := rfl
      have step : ∀ B, Arith B (recvBufferSize C) → InsideWorld.processLoop B code (fuel + 1) x n =
          (if (afterCall C (plainCode code) s h m t).2 then .ok (x2, .threw)
          else do
            let e ← x2.w.rx.recv.popMessage B
            InsideWorld.processLoop B code fuel
              { x2 with w := { x2.w with rx := { x2.w.rx with recv := e } } } (n + 1)) := by
        intro B hA
        conv => lhs; unfold InsideWorld.processLoop
        simp only [h1 B, ok_bind, Bool.not_true, Bool.false_eq_true, if_false,
          ERB.getCurrentMessageId, hid, Option.isSome_some, assertMsg_true]
        change (do
          let i? ← x1.w.rx.invoke m.id
          _) = _
        rw [hinv]
        simp only [ok_bind]
        change (do
          let __discr ← InsideWorld.callHandler B code _ x1 (callOf C h m)
          _) = _
        rw [h2 B _ hA]
        simp
      have hsnap : ∀ kr ∈ rs2, ∃ k i m' t', kr.1 = k + 1 ∧ s.trace.length ≤ k ∧
          (s.trace ++ [callOf C h m])[k]? = some i ∧ seen i = meaning C m' ∧ Snap kr.2 m' t' := by
        intro kr hkr
        obtain ⟨e, t', hsn⟩ := hk2 kr hkr
        exact ⟨s.trace.length, callOf C h m, m, t', e, Nat.le_refl _, by simp, rfl, hsn⟩
      have hsome : ∃ h', handlerAfter (some h) (reaction (plainCode code) s.trace (callOf C h m)
          (capacity C - (frame C.envelope m ++ t).length)).acts = some h' :=
        handlerAfter_isSome _ (capacity C - (frame C.envelope m ++ t).length) h
          (reaction_benign hu _ _ _)
      by_cases hthrow : (afterCall C (plainCode code) s h m t).2 = true
      · right
        refine ⟨x2, (afterCall C (plainCode code) s h m t).1, [], true, fun B hA => ?_, ha2,
          Proc.throw hm hr1 hh hthrow, ?_, by simp, ⟨_, htr2⟩, rs2, hs2, hsnap⟩
        · rw [step B hA]; simp [hthrow]
        · obtain ⟨h', e'⟩ := hsome
          simp only [afterCall, e', Option.isSome_some]
      · have hthrow' : (afterCall C (plainCode code) s h m t).2 = false := by simpa using hthrow
        have hb2 : x2.w.rx.recv.Holds (frame C.envelope m ++ (t ++
            appended (reaction (plainCode code) s.trace (callOf C h m)
              (capacity C - (frame C.envelope m ++ t).length)).acts)) := by
          have := ha2.buf
          simp only [afterCall, List.append_assoc] at this
          exact this
        obtain ⟨e3, h3, hh3, _⟩ := popMessage_ok hc hm hb2 (by rw [hi2]; exact hid)
        have ha3 : Abs ({ x2.w with rx := { x2.w.rx with recv := e3 } } : World C)
            { (afterCall C (plainCode code) s h m t).1 with
              buf := (afterCall C (plainCode code) s h m t).1.buf.drop (frame C.envelope m).length } := by
          refine ⟨?_, ha2.invoker, ha2.functor, ha2.last, ha2.trace, ha2.fed⟩
          simp only [afterCall, List.append_assoc, List.drop_left]
          exact hh3
        rcases ih { x2 with w := { x2.w with rx := { x2.w.rx with recv := e3 } } } _ (n + 1) ha3
            (by obtain ⟨h', e'⟩ := hsome; simp only [afterCall, e', Option.isSome_some]) with
          ⟨hk, hdiv⟩ | ⟨x4, s4, ms, thrown, h4, ha4, hp4, hs4, hlt, ⟨calls, hcalls⟩, rs4, hr4, hk4⟩
        · left
          refine ⟨Keeps.succ hm hr1 hh hthrow' hk, fun B hA => ?_⟩
          rw [step B hA]
          simp [hthrow', h3 B, hdiv B hA]
        · right
          refine ⟨x4, s4, m :: ms, thrown, fun B hA => ?_, ha4, Proc.msg hm hr1 hh hthrow' hp4, hs4,
            by simp; omega, ⟨callOf C h m :: calls, by rw [hcalls, htr2]; simp⟩, rs2 ++ rs4,
            by rw [hr4, hs2, List.append_assoc], ?_⟩
          · rw [step B hA]
            simp only [hthrow', Bool.false_eq_true, if_false, h3 B, ok_bind, h4 B hA,
              List.length_cons]
            rw [UInt8.add_assoc, UInt8.add_comm 1, UInt8.ofNat_add]
            rfl
          · intro kr hkr
            rcases List.mem_append.mp hkr with hkr | hkr
            · obtain ⟨k, i, m', t', a1, a2, a3, a4⟩ := hsnap kr hkr
              refine ⟨k, i, m', t', a1, a2, ?_, a4⟩
              rw [hcalls, htr2, List.getElem?_append_left]
              · exact a3
              · exact (List.getElem?_eq_some_iff.mp a3).1
            · obtain ⟨k, i, m', t', a1, a2, a3⟩ := hk4 kr hkr
              refine ⟨k, i, m', t', a1, ?_, a3⟩
              have a2 : (s.trace ++ [callOf C h m]).length ≤ k := a2
              rw [List.length_append] at a2; omega

end TT
