import Verif.Proofs.Inside
import Verif.Properties.Copies

/-!
# C88: handlers that refill, copy or assign the receiver that calls them
-/

namespace TT.Properties
open Spec

variable {C : Collection} {B : Build} {user : UserCode} {fuel : Nat}

theorem inside_spec {code : InsideCode C} (ht : TameCode code) (Sc : Setting C B (plainCode code))
    (x : InsideWorld C) {s : AState} (ha : Abs x.w s) (hs : s.handler.isSome) :
    (Keeps C (plainCode code) fuel s ∧ x.processMessages B code fuel = .error .diverge) ∨
    ∃ (x' : InsideWorld C) (s' : AState) (ms : List Msg) (thrown : Bool),
      x.processMessages B code fuel =
        .ok (x', if thrown then .threw else .returned (UInt8.ofNat ms.length)) ∧
      Abs x'.w s' ∧ Proc C (plainCode code) s ms s' thrown ∧
      ∃ rs, x'.saved = x.saved ++ rs ∧
        ∀ kr ∈ rs, ∃ k i m t, kr.1 = k + 1 ∧ s.trace.length ≤ k ∧ s'.trace[k]? = some i ∧
          seen i = meaning C m ∧ Snap kr.2 m t := by
  have hc := Sc.arith.lt64
  have e : x.processMessages B code fuel = InsideWorld.processLoop B code fuel x 0 := by
    unfold InsideWorld.processMessages
    rw [ha.hasHandler, hs]
    rfl
  rw [e]
  rcases insideLoop_spec hc ht Sc.benign fuel x s 0 ha hs with
    ⟨hk, hd⟩ | ⟨x', s', ms, th, h1, h2, h3, _, _, _, h4⟩
  · exact Or.inl ⟨hk, hd B Sc.arith⟩
  · refine Or.inr ⟨x', s', ms, th, ?_, h2, h3, h4⟩
    rw [h1 B Sc.arith]
    simp

/-- C88. A handler may refill its receiver with `receiveFrom` and copy it: `processMessages` then ends as
it would if the refills were appends of the bytes the adapters deliver and the copies were not made, and
leaves a receiver that behaves the same. -/
theorem C88_refill {code : InsideCode C} (ht : TameCode code) (Sc : Setting C B (plainCode code))
    (S : Setting C B user) {fuel0 : Nat} {ops : List Op} {w : World C} {os : List Obs}
    (h : Reached B user fuel0 ops w os) (saved : List (Nat × Receiver C)) {w' : World C} {o : Outcome}
    (hp : w.processMessages B (plainCode code) fuel = .ok (w', o)) :
    ∃ x', InsideWorld.processMessages B code fuel ⟨w, saved⟩ = .ok (x', o) ∧ x'.w.trace = w'.trace ∧
      x'.w.fed = w'.fed ∧ BehavesLike B (plainCode code) fuel x'.w w' := by
  have hc := Sc.arith.lt64
  obtain ⟨s, _, ha, _⟩ := h.exec S
  cases hs : s.handler with
  | none =>
    rw [processMessages_none ha hs] at hp
    obtain ⟨rfl, rfl⟩ : w = w' ∧ _ = o := by simpa using hp
    refine ⟨⟨w, saved⟩, ?_, rfl, rfl, behavesLike_of_abs Sc ha ha⟩
    unfold InsideWorld.processMessages
    rw [ha.hasHandler, hs]
    rfl
  | some hd =>
    have hs' : s.handler.isSome := by simp [hs]
    rcases inside_spec (fuel := fuel) ht Sc ⟨w, saved⟩ ha hs' with
      ⟨hk, _⟩ | ⟨x', s', ms, th, h1, h2, h3, _⟩
    · rw [processMessages_keeps hc Sc.benign ha hs' hk B Sc.arith] at hp
      simp at hp
    · rcases processMessages_spec hc Sc.benign fuel ha hs' with
        ⟨_, hd⟩ | ⟨w1, s1, ms1, th1, g1, g2, g3, _⟩
      · rw [hd B Sc.arith] at hp; simp at hp
      · rw [g1 B Sc.arith] at hp
        obtain ⟨rfl, rfl⟩ : w1 = w' ∧ _ = o := by simpa using hp
        obtain ⟨rfl, rfl, rfl⟩ := h3.unique g3
        exact ⟨x', h1, by rw [h2.trace, g2.trace], by rw [h2.fed, g2.fed], behavesLike_of_abs Sc g2 h2⟩

/-- C88. A copy made in handler call number `k` still contains the message of that call: processing the
copy calls the handler for that message again, first of all. -/
theorem C88_copies {code : InsideCode C} (ht : TameCode code) (Sc : Setting C B (plainCode code))
    (S : Setting C B user) {fuel0 : Nat} {ops : List Op} {w : World C} {os : List Obs}
    (h : Reached B user fuel0 ops w os) (saved : List (Nat × Receiver C)) {x' : InsideWorld C} {o : Outcome}
    (hp : InsideWorld.processMessages B code fuel ⟨w, saved⟩ = .ok (x', o)) :
    ∃ rs, x'.saved = saved ++ rs ∧ ∀ k r, (k, r) ∈ rs →
      w.trace.length < k ∧ ∃ i, x'.w.trace[k - 1]? = some i ∧ r.hasHandler = true ∧
        ∀ (user2 : UserCode) (fuel2 : Nat) (w2 : World C) (o2 : Outcome), Setting C B user2 →
          World.processMessages B user2 fuel2 ⟨r, [], []⟩ = .ok (w2, o2) →
          ∃ rest, delivered w2 = seen i :: rest := by
  have hc := Sc.arith.lt64
  obtain ⟨s, _, ha, _⟩ := h.exec S
  cases hs : s.handler with
  | none =>
    have e : InsideWorld.processMessages B code fuel ⟨w, saved⟩ = .ok (⟨w, saved⟩, .returned 0) := by
      unfold InsideWorld.processMessages
      rw [ha.hasHandler, hs]
      rfl
    rw [e] at hp
    obtain ⟨rfl, rfl⟩ : (⟨w, saved⟩ : InsideWorld C) = x' ∧ _ = o := by simpa using hp
    exact ⟨[], by simp, by simp⟩
  | some hd =>
    rcases inside_spec (fuel := fuel) ht Sc ⟨w, saved⟩ ha (by simp [hs]) with
      ⟨_, e⟩ | ⟨x1, s', ms, th, h1, h2, h3, rs, h4, h5⟩
    · rw [e] at hp; simp at hp
    · rw [h1] at hp
      obtain ⟨rfl, rfl⟩ : x1 = x' ∧ _ = o := by simpa using hp
      refine ⟨rs, h4, fun k r hkr => ?_⟩
      obtain ⟨k', i, m, t, e1, e2, e3, e4, hm, hd2, habs⟩ := h5 (k, r) hkr
      simp only at e1 habs
      subst e1
      refine ⟨by rw [ha.trace]; omega, i, by rw [h2.trace]; simpa using e3, ?_, ?_⟩
      · simpa using habs.hasHandler
      · intro user2 fuel2 w2 o2 S2 hp2
        rcases processMessages_spec hc S2.benign fuel2 habs (by simp) with
          ⟨_, hdv⟩ | ⟨w3, s3, ms3, th3, g1, g2, g3, _⟩
        · rw [hdv B S2.arith] at hp2; simp at hp2
        · rw [g1 B S2.arith] at hp2
          obtain ⟨rfl, _⟩ : w3 = w2 ∧ _ = o2 := by simpa using hp2
          obtain ⟨rest, hrest⟩ := g3.first hm rfl rfl
          refine ⟨rest.map seen, ?_⟩
          rw [g2.delivered, hrest]
          simp only [List.nil_append, List.map_cons, List.cons.injEq, and_true]
          exact e4.symm

namespace Sample

/-- Handler code that in its first call keeps a copy and then refills the receiver with a `level` message. -/
def refills : InsideCode Sample.basic := fun calls _ =>
  if calls.length = 1 then
    ⟨[.save, .receiveFrom 6 fun n =>
      ⟨(frame .basic Sample.mLevel).take n.toNat, UInt8.ofNat (min 6 n.toNat)⟩, .save], false⟩
  else ⟨[], false⟩

theorem refills_tame : TameCode refills := by
  intro calls free
  unfold refills
  split
  · have e : (UInt8.ofNat (min 6 free)).toNat = min 6 free := by
      rw [UInt8.toNat_ofNat']; exact Nat.mod_eq_of_lt (by omega)
    have e6 : (6 : Byte).toNat = 6 := rfl
    have el : (frame .basic Sample.mLevel).length = 6 := by decide
    simp only [Tame, GoodReply, e6, e, and_true, List.length_take, el]
    refine ⟨by omega, ?_⟩
    rw [UInt8.toNat_ofNat']; omega
  · exact trivial

theorem refills_setting : Setting Sample.basic Sample.dbg (plainCode refills) := by
  refine ⟨⟨by decide, by decide⟩, fun calls free => ?_⟩
  unfold plainCode refills
  split
  · have e : (UInt8.ofNat (min 6 free)).toNat = min 6 free := by
      rw [UInt8.toNat_ofNat']; exact Nat.mod_eq_of_lt (by omega)
    have e6 : (6 : Byte).toNat = 6 := rfl
    refine ⟨by simp [plain], ?_⟩
    simp only [plain, appended, e6, e, List.append_nil, List.length_take]
    omega
  · exact ⟨by simp [plain], by simp [plain, appended]⟩

end Sample

/-- The first call refills, so two messages are handled; a copy from before and one from after the refill
are kept, and both would deliver the first message again. -/
example : ∃ (w w' : World Sample.basic) (os : List Obs) (x' : InsideWorld Sample.basic),
    Reached Sample.dbg Sample.passive 50 [.setHandler Sample.h0, .append (frame .basic Sample.mPose)] w os ∧
    w.processMessages Sample.dbg (plainCode Sample.refills) 50 = .ok (w', .returned 2) ∧
    InsideWorld.processMessages Sample.dbg Sample.refills 50 ⟨w, []⟩ = .ok (x', .returned 2) ∧
    x'.w.trace = w'.trace ∧ x'.saved.map (·.1) = [1, 1] ∧
    ∀ k r, (k, r) ∈ x'.saved → ∀ w2 o2, World.processMessages Sample.dbg Sample.passive 50 ⟨r, [], []⟩ = .ok (w2, o2) →
      ∃ i rest, x'.w.trace[k - 1]? = some i ∧ delivered w2 = seen i :: rest := by
  obtain ⟨w, os, h, hp⟩ := Sample.reached (C := Sample.basic) (B := Sample.dbg)
    (user := Sample.passive) (fuel := 50)
    (ops := [.setHandler Sample.h0, .append (frame .basic Sample.mPose)])
    (fun w _ => (match w.processMessages Sample.dbg (plainCode Sample.refills) 50 with
      | .ok (_, o) => decide (o = .returned 2)
      | .error _ => false) && match InsideWorld.processMessages Sample.dbg Sample.refills 50 ⟨w, []⟩ with
      | .ok (x, _) => decide (x.saved.map (·.1) = [1, 1])
      | .error _ => false) (by decide +kernel)
  rw [Bool.and_eq_true] at hp
  cases e : w.processMessages Sample.dbg (plainCode Sample.refills) 50 with
  | error f => rw [e] at hp; simp at hp
  | ok y =>
    obtain ⟨w', o⟩ := y
    rw [e] at hp
    obtain ⟨ho, hx⟩ := hp
    simp only [decide_eq_true_eq] at ho
    subst ho
    obtain ⟨x', h1, h2, _⟩ := C88_refill Sample.refills_tame Sample.refills_setting Sample.setting_basic h [] e
    obtain ⟨rs, h3, h4⟩ := C88_copies Sample.refills_tame Sample.refills_setting Sample.setting_basic h [] h1
    rw [h1] at hx
    simp only [decide_eq_true_eq] at hx
    refine ⟨w, w', os, x', h, e, h1, h2, hx, fun k r hkr w2 o2 hp2 => ?_⟩
    rw [h3] at hkr
    obtain ⟨_, i, h5, _, h6⟩ := h4 k r (by simpa using hkr)
    obtain ⟨rest, h7⟩ := h6 Sample.passive 50 w2 o2 Sample.setting_basic hp2
    exact ⟨i, rest, h5, h7⟩

/-! ### Assignment -/

theorem runActs_append {nested : InsideWorld C → Res (InsideWorld C × Outcome)} (post : List (InsideAct C))
    (pre : List (InsideAct C)) : ∀ {x x' : InsideWorld C},
    InsideWorld.runActs B nested x pre = .ok (x', false) →
    InsideWorld.runActs B nested x (pre ++ post) = InsideWorld.runActs B nested x' post := by
  induction pre with
  | nil =>
    intro x x' h
    obtain rfl : x = x' := by simpa [InsideWorld.runActs] using h
    rfl
  | cons a pre ih =>
    intro x x' h
    cases a with
    | call a =>
      cases a with
      | append xs =>
        simp only [List.cons_append, InsideWorld.runActs] at h ⊢
        cases e : x.w.append B xs with
        | error f => rw [e] at h; simp at h
        | ok w => rw [e] at h; simp only [ok_bind] at h ⊢; exact ih h
      | setHandler hd => exact ih h
      | clearHandler => exact ih h
      | process =>
        simp only [List.cons_append, InsideWorld.runActs] at h ⊢
        cases e : nested x with
        | error f => rw [e] at h; simp at h
        | ok y =>
          obtain ⟨y, o⟩ := y
          rw [e] at h
          cases o with
          | threw => simp at h
          | returned n => simp only [ok_bind] at h ⊢; exact ih h
    | receiveFrom avail rcv =>
      simp only [List.cons_append, InsideWorld.runActs] at h ⊢
      cases e : x.w.rx.receiveFrom B { numAvailable := avail, receive := rcv } with
      | error f => rw [e] at h; simp at h
      | ok y => rw [e] at h; simp only [ok_bind] at h ⊢; exact ih h
    | save =>
      simp only [List.cons_append, InsideWorld.runActs] at h ⊢
      cases e : x.w.rx.copyConstruct with
      | error f => rw [e] at h; simp at h
      | ok y => rw [e] at h; simp only [ok_bind] at h ⊢; exact ih h
    | assign r =>
      simp only [List.cons_append, InsideWorld.runActs] at h ⊢
      cases e : x.w.rx.assign r with
      | error f => rw [e] at h; simp at h
      | ok y => rw [e] at h; simp only [ok_bind] at h ⊢; exact ih h

theorem runActs_setHandlers {nested : InsideWorld C → Res (InsideWorld C × Outcome)}
    (post : List (InsideAct C)) : ∀ {x : InsideWorld C},
    (∀ a ∈ post, ∃ h, a = .call (.setHandler h)) →
    ∃ x', InsideWorld.runActs B nested x post = .ok (x', false) ∧ x'.w.rx.recv = x.w.rx.recv ∧
      x'.w.rx.lastMessageId = x.w.rx.lastMessageId ∧ x'.w.trace = x.w.trace := by
  induction post with
  | nil => intro x _; exact ⟨x, rfl, rfl, rfl, rfl⟩
  | cons a post ih =>
    intro x h
    obtain ⟨hd, rfl⟩ := h a (by simp)
    obtain ⟨x', h1, h2⟩ := ih (x := { x with w := { x.w with rx := x.w.rx.setHandler hd } })
      (fun a ha => h a (by simp [ha]))
    exact ⟨x', h1, h2⟩

/-- C88. A handler that assigns a new receiver to the one that is calling it (and afterwards at most sets
handlers): if it returns, `processMessages` fails an assertion in debug builds and is undefined in release
builds; if it throws, the receiver is left as new. Before that it may do anything C88_refill allows. -/
theorem C88_reset (S : Setting C B user) {fuel0 : Nat} {ops : List Op} {w : World C} {os : List Obs}
    (h : Reached B user fuel0 ops w os) (saved : List (Nat × Receiver C)) {hd : Handler}
    (hh : currentHandler w = some hd) {m : Msg} {t : List Byte} (hm : IsMsg C m)
    (hr : Run C (buffered w) [] (frame C.envelope m ++ t)) {c : UserCall}
    (hc : userCall (callOf C hd m) = some c) {code : InsideCode C} {pre post : List (InsideAct C)}
    {r : Receiver C} {thrown : Bool}
    (hcode : code (w.userCalls ++ [c]) (capacity C - (frame C.envelope m ++ t).length) =
      ⟨pre ++ .assign r :: post, thrown⟩)
    (hpre : Tame (capacity C - (frame C.envelope m ++ t).length) pre)
    (hben : Benign (plain (capacity C - (frame C.envelope m ++ t).length) pre)
      (capacity C - (frame C.envelope m ++ t).length))
    (hnew : r.recv = ERB.new C) (hpost : ∀ a ∈ post, ∃ h, a = .call (.setHandler h)) :
    (thrown = false → InsideWorld.processMessages B code (fuel + 1) ⟨w, saved⟩ =
      .error (if B.debug then .abort else .ub)) ∧
    (thrown = true → ∃ x', InsideWorld.processMessages B code (fuel + 1) ⟨w, saved⟩ = .ok (x', .threw) ∧
      buffered x'.w = [] ∧ x'.w.rx.getLastMessageId = r.getLastMessageId ∧
      x'.w.trace = w.trace ++ [callOf C hd m]) := by
  have h64 := S.arith.lt64
  obtain ⟨s, _, ha, _⟩ := h.exec S
  rw [currentHandler_abs ha] at hh
  rw [ha.buffered] at hr
  obtain ⟨e1, found, ys, h1, _, hh1, hr1, _, ht1, hf1⟩ := check_spec h64 ha.buf
  cases found with
  | false => exact (Decodes.no_first hm ⟨hr1, hf1 rfl⟩ hr).elim
  | true =>
    obtain ⟨m', t', hm', rfl, hid⟩ := ht1 rfl
    obtain ⟨rfl, rfl⟩ := first_unique hm hm' hr hr1
    let w1 : World C := { w with rx := { w.rx with recv := e1, lastMessageId := some m.id } }
    let s1 : AState := { s with buf := frame C.envelope m ++ t, last := some m.id }
    have hw1 : Abs w1 s1 := ⟨hh1, ha.invoker, ha.functor, rfl, ha.trace, ha.fed⟩
    have hinv : w1.rx.invoke m.id = .ok (some (callOf C hd m)) :=
      invoke_ok (k := hd.kind) (o := hd.obj) hm hh1 (by simp [w1, ha.invoker, hh])
        (by simp [w1, ha.functor, hh])
    -- inside the call
    let x2 : InsideWorld C := ⟨{ w1 with trace := w1.trace ++ [callOf C hd m] }, saved⟩
    have hw2 : Abs x2.w { s1 with trace := s1.trace ++ [callOf C hd m] } :=
      ⟨hw1.buf, hw1.invoker, hw1.functor, hw1.last, by simp [x2, hw1.trace], hw1.fed⟩
    obtain ⟨x3, h3, ha3, _, _⟩ := runInside_ok h64 hm pre (x := x2) (t := t) (h := hd) hw2 rfl rfl hh hpre hben
    have hlen : x3.w.rx.recv.buf.contents.length = recvBufferSize C := ha3.buf.len
    obtain ⟨b, hb, hbh, _⟩ := RB.holds_idealContentsCopy h64 (RB.holds_new (recvBufferSize C)) hlen
    have hass : x3.w.rx.assign r = .ok { recv := { currentMessageId := none, buf := b }
                                         invoker := r.invoker
                                         functorPointer := r.functorPointer
                                         lastMessageId := r.lastMessageId } := by
      unfold Receiver.assign RB.assign
      rw [hnew]
      simp only [ERB.new]
      rw [hb]
      rfl
    let x4 : InsideWorld C := { x3 with w := { x3.w with rx :=
      { recv := { currentMessageId := none, buf := b }, invoker := r.invoker,
        functorPointer := r.functorPointer, lastMessageId := r.lastMessageId } } }
    have key : ∃ x5, (∀ nested, InsideWorld.runActs B nested x2 (pre ++ .assign r :: post) = .ok (x5, false)) ∧
        x5.w.rx.recv = x4.w.rx.recv ∧ x5.w.rx.lastMessageId = r.lastMessageId ∧
        x5.w.trace = w.trace ++ [callOf C hd m] := by
      obtain ⟨x5, _, k2, k3, k4⟩ := runActs_setHandlers (B := B) (nested := fun x => .ok (x, .threw)) post (x := x4) hpost
      have htr : x3.w.trace = w.trace ++ [callOf C hd m] := by rw [ha3.trace]; simp [s1, ha.trace]
      refine ⟨x5, fun nested => ?_, k2, k3, k4.trans htr⟩
      rw [runActs_append _ _ (h3 B nested S.arith)]
      unfold InsideWorld.runActs
      rw [hass]
      have : ∀ (p : List (InsideAct C)) (x : InsideWorld C), (∀ a ∈ p, ∃ h, a = .call (.setHandler h)) →
          InsideWorld.runActs B nested x p = InsideWorld.runActs B (fun x => .ok (x, .threw)) x p := by
        intro p
        induction p with
        | nil => intro x _; rfl
        | cons a p ih =>
          intro x hp
          obtain ⟨hd, rfl⟩ := hp a (by simp)
          exact ih _ (fun a ha => hp a (by simp [ha]))
      refine (this post x4 hpost).trans ?_
      assumption
    obtain ⟨x5, k1, k2, k3, k4⟩ := key
    have huc : x2.w.userCalls = w.userCalls ++ [c] := by
      have : dispatch (callOf C hd m) = some c := hc
      simp [x2, w1, World.userCalls, this]
    have hcall : ∀ nested, InsideWorld.callHandler B code nested ⟨w1, saved⟩ (callOf C hd m) =
        .ok (x5, thrown) := by
      intro nested
      have hd' : dispatch (callOf C hd m) = some c := hc
      unfold InsideWorld.callHandler
      simp only [hd']
      change (do
        let __discr ← InsideWorld.runActs B nested x2
          (code x2.w.userCalls x2.w.rx.getBufferAvailableSpace).acts
        match __discr with
        | (x, th) => pure (x, th || (code x2.w.userCalls x2.w.rx.getBufferAvailableSpace).throws)) = _
      rw [huc, hw2.space h64]
      simp only [s1, hcode]
      rw [k1 nested]
      simp
    have step : InsideWorld.processMessages B code (fuel + 1) ⟨w, saved⟩ =
        (if thrown then .ok (x5, .threw)
        else do
          let e ← x5.w.rx.recv.popMessage B
          InsideWorld.processLoop B code fuel
            { x5 with w := { x5.w with rx := { x5.w.rx with recv := e } } } (0 + 1)) := by
      unfold InsideWorld.processMessages
      have hhas : w.rx.hasHandler = true := by rw [ha.hasHandler, hh]; rfl
      simp only [hhas, Bool.not_true, Bool.false_eq_true, if_false]
      conv => lhs; unfold InsideWorld.processLoop
      simp only [h1 B, ok_bind, Bool.not_true, Bool.false_eq_true, if_false,
        ERB.getCurrentMessageId, hid, Option.isSome_some, assertMsg_true]
      change (do
        let i? ← w1.rx.invoke m.id
        _) = _
      rw [hinv]
      simp only [ok_bind]
      change (do
        let __discr ← InsideWorld.callHandler B code _ ⟨w1, saved⟩ (callOf C hd m)
        _) = _
      rw [hcall]
      simp
    constructor
    · rintro rfl
      rw [step]
      simp only [Bool.false_eq_true, if_false]
      have hh5 : x5.w.rx.recv.Holds [] := by rw [k2]; exact hbh
      have hid5 : x5.w.rx.recv.currentMessageId = none := by rw [k2]
      have : x5.w.rx.recv.popMessage B = .error (if B.debug then .abort else .ub) := by
        obtain ⟨e6, found6, ys6, g1, _, g2, g3, _, g4, _⟩ := check_spec h64 hh5
        have hys : ys6 = [] := by
          rcases g3.nil_cases with e | ⟨_, _, e, _⟩
          · exact e
          · simp at e
        have hf6 : found6 = false := by
          cases found6 with
          | false => rfl
          | true =>
            obtain ⟨m6, t6, _, e, _⟩ := g4 rfl
            rw [hys] at e
            have := frame_ne_nil C.envelope m6
            simp [this] at e
        subst hf6
        unfold ERB.popMessage
        cases hdbg : B.debug with
        | true => simp [g1 B, assertMsg, hdbg]
        | false =>
          simp [ERB.getMessageLength, ERB.isCurrentMessageIdValid, ERB.getCurrentMessageId, hid5, assertMsg, hdbg]
      rw [this]
      rfl
    · rintro rfl
      rw [step]
      refine ⟨x5, by simp, ?_, k3, k4⟩
      have hpe := hbh.pe
      unfold buffered
      rw [k2]
      simp [x4, hpe]

/-- A handler that starts over with a new receiver, in both builds, and one that throws afterwards. -/
example : ∃ (w : World Sample.basic) (os : List Obs),
    Reached Sample.dbg Sample.passive 50 [.setHandler Sample.h0, .append (7 :: frame .basic Sample.mLevel)] w os ∧
    InsideWorld.processMessages Sample.dbg
      (fun _ _ => ⟨[.save] ++ .assign (Receiver.new _) :: [.call (.setHandler Sample.h0)], false⟩) 50 ⟨w, []⟩ =
        .error .abort ∧
    ∃ x', InsideWorld.processMessages Sample.dbg
      (fun _ _ => ⟨[.save] ++ .assign (Receiver.new _) :: [.call (.setHandler Sample.h0)], true⟩) 50 ⟨w, []⟩ =
        .ok (x', .threw) ∧ buffered x'.w = [] := by
  obtain ⟨w, os, h, hp⟩ := Sample.reached (C := Sample.basic) (B := Sample.dbg)
    (user := Sample.passive) (fuel := 50)
    (ops := [.setHandler Sample.h0, .append (7 :: frame .basic Sample.mLevel)])
    (fun w _ => decide (buffered w = 7 :: frame .basic Sample.mLevel ∧ currentHandler w = some Sample.h0))
    (by decide +kernel)
  simp only [decide_eq_true_eq] at hp
  have hr : Run Sample.basic (buffered w) [] (frame Sample.basic.envelope Sample.mLevel ++ []) := by
    rw [hp.1]
    exact Run.skip (not_starts_of_ne (by decide)) (not_waiting_of_ne (by decide)) (Run.refl _)
  have key := fun th : Bool => C88_reset (fuel := 49) Sample.setting_basic h [] hp.2 (m := Sample.mLevel) (t := [])
    (by decide) hr rfl (pre := [.save]) (r := Receiver.new _) (post := [.call (.setHandler Sample.h0)]) (code := fun _ _ => ⟨[.save] ++ .assign (Receiver.new _) :: [.call (.setHandler Sample.h0)], th⟩)
    rfl trivial ⟨by simp [plain], by simp [plain, appended]⟩ rfl (by simp)
  refine ⟨w, os, h, (key false).1 rfl, ?_⟩
  obtain ⟨x', h1, h2, _⟩ := (key true).2 rfl
  exact ⟨x', h1, h2⟩

/-- The same in a release build with a 16-bit `int`. -/
example : ∃ (w : World Sample.basic) (os : List Obs),
    Reached Sample.rel16 Sample.passive 50 [.setHandler Sample.h0, .append (frame .basic Sample.mLevel)] w os ∧
    InsideWorld.processMessages Sample.rel16 (fun _ _ => ⟨[] ++ .assign (Receiver.new _) :: [], false⟩) 50 ⟨w, []⟩ =
        .error .ub := by
  obtain ⟨w, os, h, hp⟩ := Sample.reached (C := Sample.basic) (B := Sample.rel16)
    (user := Sample.passive) (fuel := 50)
    (ops := [.setHandler Sample.h0, .append (frame .basic Sample.mLevel)])
    (fun w _ => decide (buffered w = frame .basic Sample.mLevel ∧ currentHandler w = some Sample.h0))
    (by decide +kernel)
  simp only [decide_eq_true_eq] at hp
  refine ⟨w, os, h, (C88_reset (fuel := 49) ⟨⟨by decide, by decide⟩, Sample.passive_benign⟩ h [] hp.2
    (m := Sample.mLevel) (t := []) (by decide) (by rw [hp.1]; exact Run.refl _) rfl (pre := [])
    (r := Receiver.new _) (post := []) rfl trivial
    ⟨by simp [plain], by simp [plain, appended]⟩ rfl (by simp)).1 rfl⟩

/-- C88. Assigning a receiver that already holds messages does not help: in a debug build its first message
is removed without having been handled (witness: `ping` and `level` are held, only `level` is handled); in a
release build the behaviour is undefined. -/
theorem C88_loaded : ∃ (r : Receiver Sample.basic) (w : World Sample.basic) (os : List Obs),
    (Receiver.newWith Sample.basic Sample.h0).appendReceived Sample.dbg
      (frames .basic [Sample.mPing, Sample.mLevel]) = .ok r ∧
    Reached Sample.dbg Sample.passive 50 [.setHandler Sample.h0, .append (frame .basic Sample.mPose)] w os ∧
    (∃ x', InsideWorld.processMessages Sample.dbg
        (fun calls _ => ⟨if calls.length = 1 then [.assign r] else [], false⟩) 50 ⟨w, []⟩ =
          .ok (x', .returned 2) ∧
      delivered x'.w = [Sample.mPose, Sample.mLevel].map (meaning Sample.basic) ∧ buffered x'.w = []) ∧
    InsideWorld.processMessages Sample.rel16
        (fun calls _ => ⟨if calls.length = 1 then [.assign r] else [], false⟩) 50 ⟨w, []⟩ = .error .ub := by
  obtain ⟨w, os, h, hp⟩ := Sample.reached (C := Sample.basic) (B := Sample.dbg)
    (user := Sample.passive) (fuel := 50)
    (ops := [.setHandler Sample.h0, .append (frame .basic Sample.mPose)])
    (fun w _ => match (Receiver.newWith Sample.basic Sample.h0).appendReceived Sample.dbg
        (frames .basic [Sample.mPing, Sample.mLevel]) with
      | .error _ => false
      | .ok r =>
        (match InsideWorld.processMessages Sample.dbg
            (fun calls _ => ⟨if calls.length = 1 then [.assign r] else [], false⟩) 50 ⟨w, []⟩ with
          | .ok (x', o) => decide (o = .returned 2 ∧
              delivered x'.w = [Sample.mPose, Sample.mLevel].map (meaning Sample.basic) ∧ buffered x'.w = [])
          | .error _ => false) &&
        (match InsideWorld.processMessages Sample.rel16
            (fun calls _ => ⟨if calls.length = 1 then [.assign r] else [], false⟩) 50 ⟨w, []⟩ with
          | .ok _ => false
          | .error f => decide (f = .ub))) (by decide +kernel)
  cases e : (Receiver.newWith Sample.basic Sample.h0).appendReceived Sample.dbg
      (frames .basic [Sample.mPing, Sample.mLevel]) with
  | error f => rw [e] at hp; simp at hp
  | ok r =>
    rw [e] at hp
    simp only [Bool.and_eq_true] at hp
    obtain ⟨hp1, hp2⟩ := hp
    refine ⟨r, w, os, rfl, h, ?_, ?_⟩
    · split at hp1
      · rename_i x' o e1
        simp only [decide_eq_true_eq] at hp1
        obtain ⟨rfl, hp1⟩ := hp1
        exact ⟨x', e1, hp1⟩
      · simp at hp1
    · split at hp2
      · simp at hp2
      · rename_i f e1
        simp only [decide_eq_true_eq] at hp2
        rw [e1, hp2]

/-! ### The models agree -/

theorem insideActs_same {nested : World C → Res (World C × Outcome)}
    {nested' : InsideWorld C → Res (InsideWorld C × Outcome)} {saved : List (Nat × Receiver C)}
    (h : ∀ w, nested' ⟨w, saved⟩ = (nested w).map fun p => (⟨p.1, saved⟩, p.2)) : ∀ (as : List Act) (w : World C),
    InsideWorld.runActs B nested' ⟨w, saved⟩ (as.map .call) =
      (w.runActs B nested as).map fun p => (⟨p.1, saved⟩, p.2)
  | [], w => by
    unfold World.runActs
    simp only [List.map_nil]
    unfold InsideWorld.runActs
    rfl
  | .append xs :: as, w => by
    unfold World.runActs
    simp only [List.map_cons]
    unfold InsideWorld.runActs
    simp only []
    cases w.append B xs with
    | error e => rfl
    | ok w' => exact insideActs_same h as w'
  | .setHandler g :: as, w => by
    unfold World.runActs
    simp only [List.map_cons]
    unfold InsideWorld.runActs
    exact insideActs_same h as _
  | .clearHandler :: as, w => by
    unfold World.runActs
    simp only [List.map_cons]
    unfold InsideWorld.runActs
    exact insideActs_same h as _
  | .process :: as, w => by
    unfold World.runActs
    simp only [List.map_cons]
    unfold InsideWorld.runActs
    simp only [h]
    cases nested w with
    | error e => rfl
    | ok p =>
      obtain ⟨w', o⟩ := p
      cases o with
      | threw => rfl
      | returned n => exact insideActs_same h as w'

theorem insideLoop_same (user : UserCode) (saved : List (Nat × Receiver C)) : ∀ (fuel : Nat) (w : World C) (n : Byte),
    InsideWorld.processLoop B (fun calls space => ⟨(user calls space).acts.map .call, (user calls space).throws⟩)
      fuel ⟨w, saved⟩ n = (World.processLoop B user fuel w n).map fun p => (⟨p.1, saved⟩, p.2)
  | 0, _, _ => rfl
  | fuel + 1, w, n => by
    have ih := insideLoop_same user saved fuel
    unfold InsideWorld.processLoop World.processLoop
    simp only []
    cases w.rx.recv.checkBufferForMessage B with
    | error e => rfl
    | ok p =>
      obtain ⟨e, found⟩ := p
      simp only [ok_bind]
      cases found with
      | false => rfl
      | true =>
        simp only [Bool.not_true, Bool.false_eq_true, if_false]
        cases e.getCurrentMessageId B with
        | error e => rfl
        | ok id =>
          simp only [ok_bind]
          cases Receiver.invoke { w.rx with recv := e, lastMessageId := some id } id with
          | error e => rfl
          | ok i? =>
            simp only [ok_bind]
            have last : ∀ (w : World C) (b : Bool),
                (if b = true then (pure (⟨w, saved⟩, Outcome.threw) : Res (InsideWorld C × Outcome)) else do
                  let e ← w.rx.recv.popMessage B
                  InsideWorld.processLoop B
                    (fun calls space => ⟨(user calls space).acts.map .call, (user calls space).throws⟩) fuel
                    ⟨{ w with rx := { w.rx with recv := e } }, saved⟩ (n + 1)) =
                (if b = true then (pure (w, Outcome.threw) : Res (World C × Outcome)) else do
                  let e ← w.rx.recv.popMessage B
                  World.processLoop B user fuel { w with rx := { w.rx with recv := e } } (n + 1)).map
                  fun p => (⟨p.1, saved⟩, p.2) := by
              intro w b
              cases b with
              | true => rfl
              | false =>
                simp only [Bool.false_eq_true, if_false]
                cases w.rx.recv.popMessage B with
                | error e => rfl
                | ok e' => exact ih _ _
            cases i? with
            | none => exact last _ false
            | some i =>
              simp only [InsideWorld.callHandler, World.callHandler]
              cases dispatch i with
              | none => exact last _ false
              | some u =>
                simp only []
                rw [insideActs_same (nested := fun w => if !w.rx.hasHandler then .ok (w, .returned 0)
                      else World.processLoop B user fuel w 0)]
                · cases World.runActs B (fun w => if !w.rx.hasHandler then .ok (w, .returned 0)
                      else World.processLoop B user fuel w 0) _ _ with
                  | error e => rfl
                  | ok p => exact last _ _
                · intro w'
                  cases hh : w'.rx.hasHandler with
                  | false => rfl
                  | true =>
                    simp only [Bool.not_true, Bool.false_eq_true, if_false]
                    exact ih _ _

/-- C88, the model. For handlers that make only the calls of the other properties, nested calls of `processMessages` and
exceptions included, `processMessages` as modelled here is the `processMessages` there, in every state of the receiver. -/
theorem C88_model (user : UserCode) (fuel : Nat) (x : InsideWorld C) :
    x.processMessages B (fun calls space => ⟨(user calls space).acts.map .call, (user calls space).throws⟩) fuel =
      (x.w.processMessages B user fuel).map fun p => ({ x with w := p.1 }, p.2) := by
  unfold InsideWorld.processMessages World.processMessages
  cases hh : x.w.rx.hasHandler with
  | false => rfl
  | true => exact insideLoop_same user x.saved fuel x.w 0

/-- A handler that throws in its second call, which comes out of a nested call of `processMessages`. -/
example : ((({ rx := Receiver.newWith Sample.basic Sample.h0, trace := [], fed := [] } : World Sample.basic).append
      Sample.dbg [1, 0, 2, 3, 4, 1, 0, 2, 3, 4]) >>= fun w =>
    InsideWorld.processMessages Sample.dbg (fun calls _ => ⟨if calls.length = 1 then [.call .process] else [], calls.length == 2⟩) 20
      ⟨w, []⟩).map (fun p => (p.1.w.trace.length, p.2)) = .ok (2, .threw) := by decide +kernel

end TT.Properties
