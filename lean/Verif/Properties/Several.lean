import Verif.Model.Several
import Verif.Properties.Completion

/-!
# Property about programs with several receivers: C96
-/

namespace TT.Properties
open Spec

variable {C : Nat → Collection} {B : Build}

/-! ### C96: handlers may use other receivers -/

/-- The receivers whose `processMessages` is in progress. -/
def inProgress (p : Several C) : List Nat := p.stack.map (·.1)

/-- The rules: bytes that are appended fit, adapters keep their contract, and while `processMessages` of a receiver is
in progress it is not called again and the handler is not cleared (it may be replaced). -/
def Allowed (p : Several C) : Move → Prop
  | .append i xs => xs.length ≤ (p.world i).rx.getBufferAvailableSpace
  | .receiveFrom i avail rcv =>
      GoodReply (min avail.toNat (p.world i).rx.getBufferAvailableSpace)
        (rcv (UInt8.ofNat (min avail.toNat (p.world i).rx.getBufferAvailableSpace)))
  | .clearHandler i => i ∉ inProgress p
  | .process i => i ∉ inProgress p
  | _ => True

/-- Each move is allowed in the state in which it is made. -/
def AllAllowed (B : Build) : Several C → List Move → Prop
  | _, [] => True
  | p, m :: ms => Allowed p m ∧ ∀ p' o, p.move B m = .ok (p', o) → AllAllowed B p' ms

/-- What is true of one receiver at any time. -/
structure Fine (i : Nat) (p : Several C) (s : AState) (ps : List (Msg × Nat)) (j : Nat) (m : Msg) : Prop where
  abs : Abs (p.world i) s
  run : Run (C i) s.fed (ps.map (·.1)) s.buf
  returned : (p.returned i).map seen = ps.map fun q => meaning (C i) q.1
  calls : s.trace.map seen = attempts (C i) ps ++ List.replicate j (meaning (C i) m)
  pending : Pending (C i) s.buf j m

/-- What is true in addition of a receiver whose `processMessages` is in progress: the message being handled is in
front. -/
structure Handling (i : Nat) (c : Option Invocation) (p : Several C) (s : AState) (j : Nat) (m : Msg) : Prop where
  handler : s.handler.isSome
  tried : 0 < j
  cur : (p.world i).rx.recv.currentMessageId = some m.id
  call : c.toList.map seen = [meaning (C i) m]

/-- The invariant of programs with several receivers. -/
structure AllFine (p : Several C) : Prop where
  each : ∀ i, ∃ s ps j m, Fine i p s ps j m ∧ ∀ n c, (i, n, c) ∈ p.stack → Handling i c p s j m
  nodup : (inProgress p).Nodup

theorem put_same (p : Several C) (i : Nat) (w : World (C i)) : (p.put i w).world i = w := by
  simp [Several.put]

theorem put_other (p : Several C) {i j : Nat} (w : World (C i)) (h : j ≠ i) :
    (p.put i w).world j = p.world j := by
  simp [Several.put, h]

theorem fine_congr {i : Nat} {p p' : Several C} {s : AState} {ps : List (Msg × Nat)} {j : Nat} {m : Msg}
    (h : Fine i p s ps j m) (hw : p'.world i = p.world i) (hr : p'.returned i = p.returned i) :
    Fine i p' s ps j m :=
  ⟨by rw [hw]; exact h.abs, h.run, by rw [hr]; exact h.returned, h.calls, h.pending⟩

theorem handling_congr {i : Nat} {c : Option Invocation} {p p' : Several C} {s : AState} {j : Nat} {m : Msg}
    (h : Handling i c p s j m) (hw : p'.world i = p.world i) : Handling i c p' s j m :=
  ⟨h.handler, h.tried, by rw [hw]; exact h.cur, h.call⟩

theorem look_fine (hA : ∀ i, Arith B (recvBufferSize (C i))) {p : Several C} {i : Nat} {n : Byte}
    {rest : List (Nat × Byte × Option Invocation)} {s : AState} {ps : List (Msg × Nat)} {j : Nat} {m : Msg}
    (hf : Fine i p s ps j m) (hh : s.handler.isSome)
    (hrest : ∀ i', i' ≠ i → ∃ s ps j m, Fine i' p s ps j m ∧ ∀ n c, (i', n, c) ∈ rest → Handling i' c p s j m)
    (hnot : i ∉ rest.map (·.1)) (hnd : (rest.map (·.1)).Nodup) :
    ∃ p' o, p.look B i n rest = .ok (p', o) ∧ AllFine p' ∧
      (∀ i', i' ≠ i → p'.world i' = p.world i') ∧ p'.returned = p.returned ∧
      (p'.world i).fed = (p.world i).fed ∧
      ((o = none ∧ ∃ c, p'.stack = (i, n, c) :: rest) ∨
        (o = some (.returned n) ∧ p'.stack = rest ∧ Final (C i) (buffered (p'.world i)) ∧
          (p'.world i).trace = (p.world i).trace)) := by
  have hc := (hA i).lt64
  obtain ⟨h, hh⟩ := Option.isSome_iff_exists.mp hh
  obtain ⟨e1, found, ys, h1, _, hh1, hr1, _, ht1, hf1⟩ := check_spec hc hf.abs.buf
  cases found with
  | false =>
    have hj : j = 0 := by
      rcases hf.pending with h | ⟨hm, t, hb⟩
      · exact h
      · have hd : Decodes (C i) s.buf [] ys := ⟨hr1, hf1 rfl⟩
        exact (hd.no_first hm (t := t) (by rw [hb]; exact Run.refl _)).elim
    subst hj
    have habs : Abs { p.world i with rx := { (p.world i).rx with recv := e1 } } { s with buf := ys } :=
      ⟨hh1, hf.abs.invoker, hf.abs.functor, hf.abs.last, hf.abs.trace, hf.abs.fed⟩
    refine ⟨{ p.put i { p.world i with rx := { (p.world i).rx with recv := e1 } } with stack := rest },
      some (.returned n), ?_, ⟨?_, hnd⟩, ?_, rfl, by simp [put_same], .inr ⟨rfl, rfl, ?_, by simp [put_same]⟩⟩
    · unfold Several.look
      simp [h1 B]
    · intro i'
      by_cases hi : i' = i
      · subst hi
        refine ⟨{ s with buf := ys }, ps, 0, m, ⟨by rw [put_same]; exact habs, ?_, hf.returned, hf.calls, .inl rfl⟩, ?_⟩
        · simpa using hf.run.trans hr1
        · intro n' c hmem
          exact (hnot (List.mem_map.2 ⟨_, hmem, rfl⟩)).elim
      · obtain ⟨s', ps', j', m', a, b⟩ := hrest i' hi
        refine ⟨s', ps', j', m', fine_congr a (by simp [put_other, hi]) rfl, fun n' c hmem =>
          handling_congr (b n' c hmem) (by simp [put_other, hi])⟩
    · intro i' hi; simp [put_other, hi]
    · simp only [put_same]; rw [habs.buffered]; exact hf1 rfl
  | true =>
    obtain ⟨m', t, hm, rfl, hid⟩ := ht1 rfl
    let w1 : World (C i) := { p.world i with rx := { (p.world i).rx with recv := e1, lastMessageId := some m'.id } }
    have hinv : w1.rx.invoke m'.id = .ok (some (callOf (C i) h m')) :=
      invoke_ok (k := h.kind) (o := h.obj) hm hh1 (by simp [w1, hf.abs.invoker, hh]) (by simp [w1, hf.abs.functor, hh])
    let w2 : World (C i) := { w1 with trace := w1.trace ++ [callOf (C i) h m'] }
    let s2 : AState := { s with buf := frame (C i).envelope m' ++ t, last := some m'.id, trace := s.trace ++ [callOf (C i) h m'] }
    have habs : Abs w2 s2 :=
      ⟨hh1, hf.abs.invoker, hf.abs.functor, rfl, by simp [w2, w1, s2, hf.abs.trace], hf.abs.fed⟩
    have hmm : j = 0 ∨ m = m' := by
      rcases hf.pending with h | ⟨hm0, t0, hb⟩
      · exact .inl h
      · exact .inr (first_unique hm0 hm (t := t0) (by rw [hb]; exact Run.refl _) hr1).1
    refine ⟨{ p.put i w2 with stack := (i, n, some (callOf (C i) h m')) :: rest }, none, ?_, ⟨?_, ?_⟩, ?_, rfl,
      by simp [put_same, w2, w1], .inl ⟨rfl, _, rfl⟩⟩
    · unfold Several.look
      simp only [h1 B, ok_bind, Bool.not_true, Bool.false_eq_true, if_false,
        ERB.getCurrentMessageId, hid, Option.isSome_some, assertMsg_true]
      change (do
        let c ← w1.rx.invoke m'.id
        _) = _
      rw [hinv]
      rfl
    · intro i'
      by_cases hi : i' = i
      · subst hi
        refine ⟨s2, ps, j + 1, m', ⟨by rw [put_same]; exact habs, ?_, hf.returned, ?_, .inr ⟨hm, t, rfl⟩⟩, ?_⟩
        · simpa using hf.run.trans hr1
        · simp only [s2, List.map_append, hf.calls, List.append_assoc]
          congr 1
          rcases hmm with rfl | rfl
          · rfl
          · rw [List.replicate_succ']; rfl
        · intro n' c hmem
          rcases List.mem_cons.1 hmem with e | hmem
          · cases e
            exact ⟨by simp [s2, hh], by omega, by simp only [put_same]; exact hid, rfl⟩
          · exact (hnot (List.mem_map.2 ⟨_, hmem, rfl⟩)).elim
      · obtain ⟨s', ps', j', m'', a, b⟩ := hrest i' hi
        refine ⟨s', ps', j', m'', fine_congr a (by simp [put_other, hi]) rfl, fun n' c hmem => ?_⟩
        rcases List.mem_cons.1 hmem with e | hmem
        · cases e; exact (hi rfl).elim
        · exact handling_congr (b n' c hmem) (by simp [put_other, hi])
    · simp only [inProgress, List.map_cons, List.nodup_cons]; exact ⟨hnot, hnd⟩
    · intro i' hi; simp [put_other, hi]

/-- A receiver gets further bytes at the end or another handler. -/
theorem put_fine {p : Several C} (hp : AllFine p) (i : Nat) {w' : World (C i)}
    (h : ∀ s, Abs (p.world i) s → ∃ xs hd, Abs w' { s with buf := s.buf ++ xs, fed := s.fed ++ xs, handler := hd } ∧
      w'.rx.recv.currentMessageId = (p.world i).rx.recv.currentMessageId ∧
      (i ∈ inProgress p → s.handler.isSome → hd.isSome)) : AllFine (p.put i w') := by
  refine ⟨fun i' => ?_, hp.nodup⟩
  obtain ⟨s, ps, j, m, hf, hb⟩ := hp.each i'
  by_cases hi : i' = i
  · subst hi
    obtain ⟨xs, hd, ha, hcur, hsome⟩ := h s hf.abs
    refine ⟨{ s with buf := s.buf ++ xs, fed := s.fed ++ xs, handler := hd }, ps, j, m,
      ⟨by rw [put_same]; exact ha, hf.run.append xs, hf.returned, hf.calls,
      hf.pending.append xs⟩, fun n c hmem => ?_⟩
    have hh := hb n c hmem
    exact ⟨hsome (List.mem_map.2 ⟨_, hmem, rfl⟩) hh.handler, hh.tried, by rw [put_same, hcur]; exact hh.cur, hh.call⟩
  · exact ⟨s, ps, j, m, fine_congr hf (put_other _ _ hi) rfl, fun n c hmem =>
      handling_congr (hb n c hmem) (put_other _ _ hi)⟩

/-- The receiver a move is about. -/
def target (p : Several C) : Move → Option Nat
  | .append i _ | .receiveFrom i _ _ | .setHandler i _ | .clearHandler i | .process i => some i
  | .finish | .throw => (inProgress p).head?

theorem move_fine (hA : ∀ i, Arith B (recvBufferSize (C i))) {p : Several C} (hp : AllFine p) {m : Move}
    (hl : Allowed p m) : ∃ p' o, p.move B m = .ok (p', o) ∧ AllFine p' ∧
      (∀ i, target p m ≠ some i → p'.world i = p.world i ∧ p'.returned i = p.returned i) ∧
      (∀ i n, target p m = some i → o = some (.returned n) → (p.world i).rx.hasHandler = true →
        Final (C i) (buffered (p'.world i))) ∧
      (∀ i n c rest, m = .finish → p.stack = (i, n, c) :: rest → ∃ c',
        (p'.returned i).length = (p.returned i).length + 1 ∧
        ((o = none ∧ p'.stack = (i, n + 1, c') :: rest) ∨ (o = some (.returned (n + 1)) ∧ p'.stack = rest))) := by
  cases m with
  | append i xs =>
    obtain ⟨s, ps, j, m, hf, _⟩ := hp.each i
    have hc := (hA i).lt64
    have hle : s.buf.length ≤ capacity (C i) := by rw [capacity_eq]; exact RB.Holds.length_le hf.abs.buf
    simp only [Allowed, hf.abs.space hc] at hl
    obtain ⟨w1, h1, ha1, hi1⟩ := append_ok hc hf.abs (xs := xs) (by omega)
    refine ⟨p.put i w1, none, by simp [Several.move, h1 B (hA i)], put_fine hp i ?_, ?_, by simp, by simp⟩
    · intro s' hs'
      obtain rfl := hs'.unique hf.abs
      exact ⟨xs, _, ha1, hi1, fun _ h => h⟩
    · intro i' hi
      exact ⟨put_other _ _ (by simp [target] at hi; exact fun h => hi h.symm), rfl⟩
  | receiveFrom i avail rcv =>
    obtain ⟨s, ps, j, m, hf, _⟩ := hp.each i
    have hc := (hA i).lt64
    have hsp := hf.abs.space hc
    simp only [Allowed, hsp] at hl
    obtain ⟨r, h1, ha1⟩ := receiveFrom_ok hc hf.abs rfl hl
    have hi1 : r.recv.currentMessageId = (p.world i).rx.recv.currentMessageId := by
      have := h1 B (hA i)
      unfold Receiver.receiveFrom ERB.bufferFromFunctorRef at this
      cases hf : (p.world i).rx.recv.buf.bufferFromExternalFunctorRef B rcv avail.toNat with
      | error f => simp [hf] at this
      | ok p => simp [hf] at this; rw [← this.1]
    refine ⟨p.put i _, none, ?_, put_fine hp i (w' := { p.world i with rx := r, fed := (p.world i).fed ++
      (rcv (UInt8.ofNat (min avail.toNat (capacity (C i) - s.buf.length)))).written }) ?_, ?_, by simp, by simp⟩
    · simp only [Several.move, h1 B (hA i), hsp, ok_bind, pure_eq_ok]
      rw [hl.2, List.take_length]
    · intro s' hs'
      obtain rfl := hs'.unique hf.abs
      exact ⟨_, _, ha1, hi1, fun _ h => h⟩
    · intro i' hi
      exact ⟨put_other _ _ (by simp [target] at hi; exact fun h => hi h.symm), rfl⟩
  | setHandler i h =>
    refine ⟨_, none, rfl, put_fine hp i ?_, ?_, by simp, by simp⟩
    · intro s hs
      exact ⟨[], some h, by simp; exact ⟨hs.buf, rfl, rfl, hs.last, hs.trace, hs.fed⟩, rfl, fun _ _ => rfl⟩
    · intro i' hi
      exact ⟨put_other _ _ (by simp [target] at hi; exact fun h => hi h.symm), rfl⟩
  | clearHandler i =>
    refine ⟨_, none, rfl, put_fine hp i ?_, ?_, by simp, by simp⟩
    · intro s hs
      exact ⟨[], none, by simp; exact ⟨hs.buf, rfl, rfl, hs.last, hs.trace, hs.fed⟩, rfl, fun h => (hl h).elim⟩
    · intro i' hi
      exact ⟨put_other _ _ (by simp [target] at hi; exact fun h => hi h.symm), rfl⟩
  | process i =>
    by_cases hh : (p.world i).rx.hasHandler = true
    · obtain ⟨s, ps, j, m, hf, _⟩ := hp.each i
      obtain ⟨p', o, h1, h2, h3, h4, h5, h6⟩ := look_fine (n := 0) hA hf (by rw [← hf.abs.hasHandler]; exact hh)
        (fun i' _ => hp.each i') hl hp.nodup
      refine ⟨p', o, by simp [Several.move, hh, h1], h2, ?_, ?_, by simp⟩
      · intro i' hi
        exact ⟨h3 i' (by simp [target] at hi; exact fun h => hi h.symm), by rw [h4]⟩
      · intro i' n hi ho _
        simp only [target, Option.some.injEq] at hi
        subst hi
        rcases h6 with ⟨rfl, _⟩ | ⟨_, _, h7, _⟩
        · cases ho
        · exact h7
    · refine ⟨p, some (.returned 0), by simp [Several.move, hh], hp, fun _ _ => ⟨rfl, rfl⟩, ?_, by simp⟩
      intro i' n hi _ hh'
      simp only [target, Option.some.injEq] at hi
      subst hi
      exact (hh hh').elim
  | throw =>
    cases hs : p.stack with
    | nil => exact ⟨p, none, by simp [Several.move, hs], hp, fun _ _ => ⟨rfl, rfl⟩, by simp, by simp⟩
    | cons q rest =>
      have hnd := hp.nodup
      simp only [inProgress, hs, List.map_cons, List.nodup_cons] at hnd
      refine ⟨{ p with stack := rest }, some .threw, by simp [Several.move, hs], ⟨?_, hnd.2⟩, fun _ _ => ⟨rfl, rfl⟩,
        by simp, by simp⟩
      intro i
      obtain ⟨s, ps, j, m, hf, hb⟩ := hp.each i
      exact ⟨s, ps, j, m, fine_congr hf rfl rfl, fun n c hmem =>
        handling_congr (hb n c (by rw [hs]; simp [hmem])) rfl⟩
  | finish =>
    cases hs : p.stack with
    | nil => exact ⟨p, none, by simp [Several.move, hs], hp, fun _ _ => ⟨rfl, rfl⟩, by simp, by simp [hs]⟩
    | cons q rest =>
      obtain ⟨i, n, c⟩ := q
      have hnd := hp.nodup
      simp only [inProgress, hs, List.map_cons, List.nodup_cons] at hnd
      obtain ⟨s, ps, j, m, hf, hb⟩ := hp.each i
      have hh := hb n c (by rw [hs]; simp)
      have hc := (hA i).lt64
      obtain ⟨hm, t, hbuf⟩ : IsMsg (C i) m ∧ ∃ t, s.buf = frame (C i).envelope m ++ t := by
        rcases hf.pending with h | h
        · have := hh.tried; omega
        · exact h
      have hHolds : (p.world i).rx.recv.Holds (frame (C i).envelope m ++ t) := by rw [← hbuf]; exact hf.abs.buf
      obtain ⟨e, h1, h2, _⟩ := popMessage_ok hc hm hHolds hh.cur
      let p1 : Several C := p.put i { p.world i with rx := { (p.world i).rx with recv := e } }
      let p2 : Several C :=
        { p1 with returned := fun j => if j = i then p1.returned j ++ c.toList else p1.returned j }
      have hf2 : Fine i p2 { s with buf := t } (ps ++ [(m, j - 1)]) 0 m := by
        refine ⟨?_, ?_, ?_, ?_, .inl rfl⟩
        · have e : p2.world i = { p.world i with rx := { (p.world i).rx with recv := e } } := put_same _ _ _
          rw [e]
          exact ⟨h2, hf.abs.invoker, hf.abs.functor, hf.abs.last, hf.abs.trace, hf.abs.fed⟩
        · have hr := hf.run
          rw [hbuf] at hr
          have h3 : Run (C i) (frame (C i).envelope m ++ t) [m] t := by
            have := run_frames (C := C i) (ms := [m]) (by simpa using hm) t
            simpa [frames] using this
          simpa using hr.trans h3
        · have e : p2.returned i = p.returned i ++ c.toList := by simp [p2, p1, Several.put]
          rw [e, List.map_append, hf.returned, hh.call]
          simp
        · obtain ⟨k, rfl⟩ : ∃ k, j = k + 1 := ⟨j - 1, by have := hh.tried; omega⟩
          simp only [hf.calls, attempts]
          simp
      have hother : ∀ i', i' ≠ i → p2.world i' = p.world i' ∧ p2.returned i' = p.returned i' := by
        intro i' hi
        exact ⟨put_other _ _ hi, by simp [p2, p1, Several.put, hi]⟩
      obtain ⟨p', o, k1, k2, k3, k4, k5, k6⟩ := look_fine (n := n + 1) (rest := rest) hA hf2 hh.handler
        (fun i' hi => by
          obtain ⟨s', ps', j', m', a, b⟩ := hp.each i'
          exact ⟨s', ps', j', m', fine_congr a (hother i' hi).1 (hother i' hi).2, fun n' c' hmem =>
            handling_congr (b n' c' (by rw [hs]; simp [hmem])) (hother i' hi).1⟩) hnd.1 hnd.2
      refine ⟨p', o, ?_, k2, ?_, ?_, ?_⟩
      · simp only [Several.move, hs, h1 B, ok_bind]
        exact k1
      · intro i' hi
        have hi' : i' ≠ i := by
          intro e; subst e; simp [target, inProgress, hs] at hi
        rw [k3 i' hi', k4]
        exact hother i' hi'
      · intro i' n' hi ho _
        simp only [target, inProgress, hs, List.map_cons, List.head?_cons, Option.some.injEq] at hi
        subst hi
        rcases k6 with ⟨rfl, _⟩ | ⟨_, _, h7, _⟩
        · cases ho
        · exact h7
      · intro i' n' c' rest' _ hs'
        cases hs'
        have hl : c.toList.length = 1 := by
          have := congrArg List.length hh.call
          simpa using this
        have hr : (p'.returned i).length = (p.returned i).length + 1 := by
          rw [k4]
          simp [p2, p1, Several.put, hl]
        rcases k6 with ⟨ho, c', hst⟩ | ⟨ho, hst, _⟩
        · exact ⟨c', hr, .inl ⟨ho, hst⟩⟩
        · exact ⟨none, hr, .inr ⟨ho, hst⟩⟩

/-- What a move does to the `processMessages` calls in progress and to their counters. -/
theorem move_count (hA : ∀ i, Arith B (recvBufferSize (C i))) {p p' : Several C} (hp : AllFine p) {m : Move}
    (hl : Allowed p m) {o : Option Outcome} (hm : p.move B m = .ok (p', o)) {i : Nat} {n : Byte} {c : Option Invocation}
    (hmem : (i, n, c) ∈ p.stack) : ∃ k, (p'.returned i).length = (p.returned i).length + k ∧
      ((∃ c', (i, n + UInt8.ofNat k, c') ∈ p'.stack) ∨
        (i ∉ inProgress p' ∧ (o = some .threw ∨ o = some (.returned (n + UInt8.ofNat k))))) := by
  have keep : p'.stack = p.stack → p'.returned = p.returned → ∃ k, (p'.returned i).length = (p.returned i).length + k ∧
      ((∃ c', (i, n + UInt8.ofNat k, c') ∈ p'.stack) ∨
        (i ∉ inProgress p' ∧ (o = some .threw ∨ o = some (.returned (n + UInt8.ofNat k))))) := by
    intro h1 h2
    exact ⟨0, by rw [h2]; rfl, .inl ⟨c, by simpa [h1] using hmem⟩⟩
  cases m with
  | append k xs =>
    simp only [Several.move] at hm
    cases h : (p.world k).append B xs with
    | error f => simp [h] at hm
    | ok w => simp [h] at hm; rw [← hm.1] at keep ⊢; exact keep rfl rfl
  | receiveFrom k avail rcv =>
    simp only [Several.move] at hm
    cases h : (p.world k).rx.receiveFrom B { numAvailable := avail, receive := rcv } with
    | error f => simp [h] at hm
    | ok w => simp [h] at hm; rw [← hm.1] at keep ⊢; exact keep rfl rfl
  | setHandler k h => simp [Several.move] at hm; rw [← hm.1] at keep ⊢; exact keep rfl rfl
  | clearHandler k => simp [Several.move] at hm; rw [← hm.1] at keep ⊢; exact keep rfl rfl
  | process k =>
    by_cases hh : (p.world k).rx.hasHandler = true
    · obtain ⟨s, ps, j, m, hf, _⟩ := hp.each k
      obtain ⟨p1, o1, h1, h2, h3, h4, h5, h6⟩ := look_fine (n := 0) hA hf (by rw [← hf.abs.hasHandler]; exact hh)
        (fun i' _ => hp.each i') hl hp.nodup
      simp [Several.move, hh, h1] at hm
      obtain ⟨rfl, rfl⟩ := hm
      rcases h6 with ⟨_, c', h6⟩ | ⟨_, h6, _⟩
      · exact ⟨0, by rw [h4]; rfl, .inl ⟨c, by rw [h6]; simpa using .inr hmem⟩⟩
      · exact keep h6 h4
    · simp [Several.move, hh] at hm
      obtain ⟨rfl, rfl⟩ := hm
      exact keep rfl rfl
  | throw =>
    cases hs : p.stack with
    | nil => rw [hs] at hmem; cases hmem
    | cons q rest =>
      have hnd := hp.nodup
      simp only [inProgress, hs, List.map_cons, List.nodup_cons] at hnd
      simp [Several.move, hs] at hm
      obtain ⟨rfl, rfl⟩ := hm
      rw [hs] at hmem
      refine ⟨0, rfl, ?_⟩
      rcases List.mem_cons.1 hmem with rfl | hmem
      · exact .inr ⟨hnd.1, .inl rfl⟩
      · exact .inl ⟨c, by simpa using hmem⟩
  | finish =>
    obtain ⟨p1, o1, h1, h2, h3, _, h5⟩ := move_fine hA hp hl
    rw [hm] at h1
    cases h1
    cases hs : p.stack with
    | nil => rw [hs] at hmem; cases hmem
    | cons q rest =>
      obtain ⟨k, n0, c0⟩ := q
      have hnd := hp.nodup
      simp only [inProgress, hs, List.map_cons, List.nodup_cons] at hnd
      obtain ⟨c1, hr, hst⟩ := h5 k n0 c0 rest rfl hs
      rw [hs] at hmem
      rcases List.mem_cons.1 hmem with e | hmem
      · cases e
        refine ⟨1, hr, ?_⟩
        rcases hst with ⟨_, hst⟩ | ⟨ho, hst⟩
        · exact .inl ⟨c1, by rw [hst]; exact List.mem_cons_self⟩
        · exact .inr ⟨by simp only [inProgress, hst]; exact hnd.1, .inr ho⟩
      · have hne : i ≠ k := fun e => hnd.1 (e ▸ List.mem_map.2 ⟨_, hmem, rfl⟩)
        refine ⟨0, by rw [(h3 i (by simp [target, inProgress, hs]; exact fun e => hne e.symm)).2]; rfl, .inl ⟨c, ?_⟩⟩
        rcases hst with ⟨_, hst⟩ | ⟨ho, hst⟩
        · rw [hst]; simpa using .inr hmem
        · rw [hst]; simpa using hmem

/-- A program with new receivers made the moves `ms`, all of them allowed, and got to the state `p`. -/
structure Played (B : Build) (ms : List Move) (p : Several C) (os : List (Option Outcome)) : Prop where
  allowed : AllAllowed B (Several.start C) ms
  moves : (Several.start C).moves B ms = .ok (p, os)

theorem moves_fine (hA : ∀ i, Arith B (recvBufferSize (C i))) : ∀ {ms : List Move} {p : Several C}, AllFine p →
    AllAllowed B p ms → ∃ p' os, p.moves B ms = .ok (p', os) ∧ AllFine p' := by
  intro ms
  induction ms with
  | nil => intro p hp _; exact ⟨p, [], rfl, hp⟩
  | cons m ms ih =>
    intro p hp hl
    obtain ⟨p1, o, h1, h2, _⟩ := move_fine hA hp hl.1
    obtain ⟨p2, os, h3, h4⟩ := ih h2 (hl.2 _ _ h1)
    exact ⟨p2, o :: os, by simp [Several.moves, h1, h3], h4⟩

theorem start_fine (C : Nat → Collection) : AllFine (Several.start C) :=
  ⟨fun i => ⟨AState.new, [], 0, ⟨0, []⟩, ⟨abs_new (C i), Run.refl _, rfl, rfl, .inl rfl⟩,
    fun n c h => by simp [Several.start] at h⟩, by simp [inProgress, Several.start]⟩

theorem Played.fine (hA : ∀ i, Arith B (recvBufferSize (C i))) {ms : List Move} {p : Several C}
    {os : List (Option Outcome)} (h : Played B ms p os) : AllFine p := by
  obtain ⟨p', os', h1, h2⟩ := moves_fine hA (start_fine C) h.allowed
  rw [h.moves] at h1
  cases h1
  exact h2

/-- C96, safety. As long as the rules are kept, nothing is undefined and no assertion fails, whatever the main program and
the handlers do, to whatever receivers, however deep the calls are nested. -/
theorem C96_safe (hA : ∀ i, Arith B (recvBufferSize (C i))) {ms : List Move}
    (h : AllAllowed B (Several.start C) ms) : ∃ (p : Several C) (os : List (Option Outcome)), Played B ms p os := by
  obtain ⟨p, os, h1, _⟩ := moves_fine hA (start_fine C) h
  exact ⟨p, os, h, h1⟩

/-- C96, at any time, for each receiver. The handler calls that returned are those for messages that a scan of the bytes this
receiver was given finds, each once and in order; its buffer holds the rest. All its handler calls are attempts at these
messages, and perhaps at the one that is first in the buffer. What happens at other receivers does not matter. -/
theorem C96_each (hA : ∀ i, Arith B (recvBufferSize (C i))) {ms : List Move} {p : Several C}
    {os : List (Option Outcome)} (h : Played B ms p os) (i : Nat) :
    ∃ (ps : List (Msg × Nat)) (j : Nat) (m : Msg),
      Run (C i) (p.world i).fed (ps.map (·.1)) (buffered (p.world i)) ∧
      (p.returned i).map seen = (ps.map (·.1)).map (meaning (C i)) ∧
      delivered (p.world i) = attempts (C i) ps ++ List.replicate j (meaning (C i) m) ∧
      Pending (C i) (buffered (p.world i)) j m := by
  obtain ⟨s, ps, j, m, hf, _⟩ := (h.fine hA).each i
  refine ⟨ps, j, m, ?_, ?_, ?_, ?_⟩
  · rw [hf.abs.fed, hf.abs.buffered]; exact hf.run
  · rw [hf.returned, List.map_map]; rfl
  · rw [hf.abs.delivered]; exact hf.calls
  · rw [hf.abs.buffered]; exact hf.pending

/-- C96, in the end. When `processMessages` of a receiver (with a handler) returns, at once or after handler calls, the
handler calls that returned are those for exactly the messages in the bytes this receiver was given. -/
theorem C96_all (hA : ∀ i, Arith B (recvBufferSize (C i))) {ms : List Move} {p p' : Several C}
    {os : List (Option Outcome)} (h : Played B ms p os) {m : Move} (hl : Allowed p m) {n : Byte}
    (hm : p.move B m = .ok (p', some (.returned n))) {i : Nat} (hi : target p m = some i)
    (hh : (p.world i).rx.hasHandler = true) :
    ∃ ds, Decodes (C i) (p'.world i).fed ds (buffered (p'.world i)) ∧
      (p'.returned i).map seen = ds.map (meaning (C i)) := by
  obtain ⟨p1, o, h1, h2, _, h4⟩ := move_fine hA (h.fine hA) hl
  rw [hm] at h1
  cases h1
  obtain ⟨s, ps, j, m', hf, _⟩ := h2.each i
  refine ⟨ps.map (·.1), ⟨?_, h4.1 i n hi rfl hh⟩, ?_⟩
  · rw [hf.abs.fed, hf.abs.buffered]; exact hf.run
  · rw [hf.returned, List.map_map]; rfl

/-- C96, moves about other receivers leave a receiver as it is. Returning from a handler call and throwing are about the
receiver that made the call. -/
theorem C96_others (hA : ∀ i, Arith B (recvBufferSize (C i))) {ms : List Move} {p p' : Several C}
    {os : List (Option Outcome)} (h : Played B ms p os) {m : Move} (hl : Allowed p m) {o : Option Outcome}
    (hm : p.move B m = .ok (p', o)) {i : Nat} (hi : target p m ≠ some i) :
    p'.world i = p.world i ∧ p'.returned i = p.returned i := by
  obtain ⟨p1, o, h1, _, h3, _⟩ := move_fine hA (h.fine hA) hl
  rw [hm] at h1
  cases h1
  exact h3 i hi

/-- C96, as if alone. A receiver among others, when its `processMessages` has returned, has completed the same handler
calls as the only receiver of another program that was given the same bytes. -/
theorem C96_alone (hA : ∀ i, Arith B (recvBufferSize (C i))) {ms : List Move} {p p' : Several C}
    {os : List (Option Outcome)} (h : Played B ms p os) {m : Move} (hl : Allowed p m) {n : Byte}
    (hm : p.move B m = .ok (p', some (.returned n))) {i : Nat} (hi : target p m = some i)
    (hh : (p.world i).rx.hasHandler = true)
    {B2 : Build} {user : UserCode} {fuel : Nat} (S : Setting (C i) B2 user) (hn : NeverThrows user) {ops : List Op}
    {w : World (C i)} {os2 : List Obs} (h2 : Reached B2 user fuel (ops ++ [.process]) w os2)
    (hh2 : w.rx.hasHandler = true) (hfed : w.fed = (p'.world i).fed) :
    (p'.returned i).map seen = delivered w := by
  obtain ⟨ds, hd, hr⟩ := C96_all hA h hl hm hi hh
  obtain ⟨ds2, hd2, hr2⟩ := h2.polled S hn hh2
  rw [hfed] at hd2
  rw [hr, hr2, (hd.unique hd2).1]

/-- The moves are all of what is done during a `processMessages` call of receiver `i`, or the rest of it, from the state
`p` to `p'`; the call ends with `o`. -/
inductive Whole (B : Build) (i : Nat) : Several C → List Move → Several C → Outcome → Prop
  | last {p p' : Several C} {m : Move} {o : Outcome} : p.move B m = .ok (p', some o) → i ∉ inProgress p' → Whole B i p [m] p' o
  | more {p p1 p' : Several C} {m : Move} {x : Option Outcome} {ms : List Move} {o : Outcome} :
      p.move B m = .ok (p1, x) → i ∈ inProgress p1 → Whole B i p1 ms p' o → Whole B i p (m :: ms) p' o

theorem whole_count (hA : ∀ i, Arith B (recvBufferSize (C i))) {i : Nat} {p p' : Several C} {ms : List Move}
    {o : Outcome} (h : Whole B i p ms p' o) : ∀ {n : Byte} {c : Option Invocation}, AllFine p → AllAllowed B p ms →
    (i, n, c) ∈ p.stack → ∃ k, (p'.returned i).length = (p.returned i).length + k ∧
      (o = .threw ∨ o = .returned (n + UInt8.ofNat k)) := by
  induction h with
  | last hm hb =>
    intro n c hp hl hmem
    obtain ⟨k, h1, h2⟩ := move_count hA hp hl.1 hm hmem
    refine ⟨k, h1, ?_⟩
    rcases h2 with ⟨c', h2⟩ | ⟨_, h2 | h2⟩
    · exact (hb (List.mem_map.2 ⟨_, h2, rfl⟩)).elim
    · exact .inl (Option.some.inj h2)
    · exact .inr (Option.some.inj h2)
  | more hm hb _ ih =>
    intro n c hp hl hmem
    obtain ⟨k, h1, h2⟩ := move_count hA hp hl.1 hm hmem
    obtain ⟨p1, o1, e1, hp1, _⟩ := move_fine hA hp hl.1
    rw [hm] at e1
    cases e1
    rcases h2 with ⟨c', h2⟩ | ⟨h2, _⟩
    · obtain ⟨k', h3, h4⟩ := ih hp1 (hl.2 _ _ hm) h2
      refine ⟨k + k', by omega, ?_⟩
      rcases h4 with h4 | h4
      · exact .inl h4
      · exact .inr (by rw [h4, UInt8.ofNat_add, UInt8.add_assoc])
    · exact (h2 hb).elim

/-- C96, the result. `processMessages` of a receiver returns the number of its handler calls that returned during this
call, modulo 256, whatever was done meanwhile with other receivers. -/
theorem C96_count (hA : ∀ i, Arith B (recvBufferSize (C i))) {ms0 : List Move} {p p' : Several C}
    {os0 : List (Option Outcome)} (h0 : Played B ms0 p os0) {i : Nat} {ms : List Move}
    (hl : AllAllowed B p (.process i :: ms)) {n : Byte} (h : Whole B i p (.process i :: ms) p' (.returned n)) :
    n = UInt8.ofNat ((p'.returned i).length - (p.returned i).length) := by
  have hp := h0.fine hA
  have hproc : ∀ p1 o, p.move B (.process i) = .ok (p1, o) → p1.returned = p.returned ∧ AllFine p1 ∧
      (i ∉ inProgress p1 ∧ o = some (.returned 0) ∨ ∃ c, (i, 0, c) ∈ p1.stack) := by
    intro p1 o hm
    obtain ⟨p2, o2, e1, hp1, _⟩ := move_fine hA hp hl.1
    rw [hm] at e1
    cases e1
    by_cases hh : (p.world i).rx.hasHandler = true
    · obtain ⟨s, ps, j, m, hf, _⟩ := hp.each i
      obtain ⟨p2, o2, h1, h2, h3, h4, h5, h6⟩ := look_fine (n := 0) hA hf (by rw [← hf.abs.hasHandler]; exact hh)
        (fun i' _ => hp.each i') hl.1 hp.nodup
      simp [Several.move, hh, h1] at hm
      obtain ⟨rfl, rfl⟩ := hm
      refine ⟨h4, hp1, ?_⟩
      rcases h6 with ⟨_, c, h6⟩ | ⟨h5, h6, _⟩
      · exact .inr ⟨c, by rw [h6]; exact List.mem_cons_self⟩
      · exact .inl ⟨by simp only [inProgress, h6]; exact hl.1, h5⟩
    · simp [Several.move, hh] at hm
      obtain ⟨rfl, rfl⟩ := hm
      exact ⟨rfl, hp, .inl ⟨hl.1, rfl⟩⟩
  cases h with
  | last hm hb =>
    obtain ⟨h1, _, h2⟩ := hproc _ _ hm
    rcases h2 with ⟨_, h2⟩ | ⟨c, h2⟩
    · cases h2; rw [h1, Nat.sub_self]; rfl
    · exact (hb (List.mem_map.2 ⟨_, h2, rfl⟩)).elim
  | more hm hb hw =>
    obtain ⟨h1, hp1, h2⟩ := hproc _ _ hm
    rcases h2 with ⟨h2, _⟩ | ⟨c, h2⟩
    · exact (h2 hb).elim
    · obtain ⟨k, h3, h4⟩ := whole_count hA hw hp1 (hl.2 _ _ hm) h2
      rcases h4 with h4 | h4
      · cases h4
      · cases h4
        rw [h3, h1, Nat.add_sub_cancel_left, UInt8.zero_add]

/-! The model in which user code is a function from what it was called with to its reaction is a special case. -/

theorem moves_append {p p1 p2 : Several C} {ms ms' : List Move} {os os' : List (Option Outcome)}
    (h : p.moves B ms = .ok (p1, os)) (h' : p1.moves B ms' = .ok (p2, os')) :
    p.moves B (ms ++ ms') = .ok (p2, os ++ os') := by
  induction ms generalizing p os with
  | nil => cases h; exact h'
  | cons m ms ih =>
    simp only [Several.moves] at h
    cases h1 : p.move B m with
    | error f => simp [h1] at h
    | ok q =>
      cases h2 : q.1.moves B ms with
      | error f => simp [h1, h2] at h
      | ok q' =>
        simp [h1, h2] at h
        obtain ⟨rfl, rfl⟩ := h
        simp [Several.moves, h1, ih h2]

/-- From `p`, the moves `ms` lead to a state with receiver `i` as in `w`, and the rest as before. -/
structure Leads (B : Build) (i : Nat) (p : Several C) (ms : List Move) (w : World (C i)) (p' : Several C)
    (os : List (Option Outcome)) : Prop where
  moves : p.moves B ms = .ok (p', os)
  world : p'.world i = w
  stack : p'.stack = p.stack
  others : ∀ i', i' ≠ i → p'.world i' = p.world i' ∧ p'.returned i' = p.returned i'

theorem Leads.trans {i : Nat} {p p1 p2 : Several C} {ms ms' : List Move} {w w' : World (C i)}
    {os os' : List (Option Outcome)} (h : Leads B i p ms w p1 os) (h' : Leads B i p1 ms' w' p2 os') :
    Leads B i p (ms ++ ms') w' p2 (os ++ os') :=
  ⟨moves_append h.moves h'.moves, h'.world, h'.stack.trans h.stack, fun i' hi =>
    ⟨(h'.others i' hi).1.trans (h.others i' hi).1, (h'.others i' hi).2.trans (h.others i' hi).2⟩⟩

theorem acts_lead {i : Nat} {nested : World (C i) → Res (World (C i) × Outcome)}
    (hn : ∀ (p : Several C) w' o, nested (p.world i) = .ok (w', o) →
      ∃ ms p' os, Leads B i p (.process i :: ms) w' p' os ∧ os.getLast? = some (some o)) :
    ∀ (as : List Act) (p : Several C) (w' : World (C i)) (t : Bool),
      World.runActs B nested (p.world i) as = .ok (w', t) → ∃ ms p' os, Leads B i p ms w' p' os := by
  have one : ∀ (p : Several C) (m : Move) (w : World (C i)), p.move B m = .ok (p.put i w, none) →
      Leads B i p [m] w (p.put i w) [none] := fun p m w h =>
    ⟨by simp [Several.moves, h], put_same _ _ _, rfl, fun i' hi => ⟨put_other _ _ hi, rfl⟩⟩
  intro as
  induction as with
  | nil => intro p w' t h; cases h; exact ⟨[], p, [], rfl, rfl, rfl, fun _ _ => ⟨rfl, rfl⟩⟩
  | cons a as ih =>
    intro p w' t h
    cases a with
    | append xs =>
      simp only [World.runActs] at h
      cases h1 : (p.world i).append B xs with
      | error f => simp [h1] at h
      | ok w1 =>
        simp only [h1, ok_bind] at h
        have hl := one p (.append i xs) w1 (by simp [Several.move, h1])
        obtain ⟨ms, p', os, h2⟩ := ih (p.put i w1) w' t (by rw [put_same]; exact h)
        exact ⟨_, _, _, hl.trans h2⟩
    | setHandler h' =>
      simp only [World.runActs] at h
      have hl := one p (.setHandler i h') _ rfl
      obtain ⟨ms, p', os, h2⟩ := ih (p.put i _) w' t (by rw [put_same]; exact h)
      exact ⟨_, _, _, hl.trans h2⟩
    | clearHandler =>
      simp only [World.runActs] at h
      have hl := one p (.clearHandler i) _ rfl
      obtain ⟨ms, p', os, h2⟩ := ih (p.put i _) w' t (by rw [put_same]; exact h)
      exact ⟨_, _, _, hl.trans h2⟩
    | process =>
      simp only [World.runActs] at h
      cases h1 : nested (p.world i) with
      | error f => simp [h1] at h
      | ok q =>
        obtain ⟨w1, o⟩ := q
        simp only [h1, ok_bind] at h
        obtain ⟨ms, p1, os, hl, _⟩ := hn p w1 o h1
        cases o with
        | threw => simp at h; exact ⟨_, p1, os, by rw [← h.1]; exact hl⟩
        | returned k =>
          obtain ⟨ms2, p2, os2, h2⟩ := ih p1 w' t (by rw [hl.world]; exact h)
          exact ⟨_, _, _, hl.trans h2⟩

theorem loop_leads {user : UserCode} (i : Nat) : ∀ (fuel : Nat) (p : Several C) (n : Byte)
    (rest : List (Nat × Byte × Option Invocation)) (w' : World (C i)) (o : Outcome),
    World.processLoop B user fuel (p.world i) n = .ok (w', o) →
    ∃ p1 x, p.look B i n rest = .ok (p1, x) ∧ ∃ ms p' os, p1.moves B ms = .ok (p', os) ∧ p'.world i = w' ∧
      p'.stack = rest ∧ (∀ i', i' ≠ i → p'.world i' = p.world i' ∧ p'.returned i' = p.returned i') ∧
      (x :: os).getLast? = some (some o) := by
  intro fuel
  induction fuel with
  | zero => intro p n rest w' o h; simp [World.processLoop] at h
  | succ fuel ih =>
    intro p n rest w' o h
    have hn : ∀ (p : Several C) w' o,
        (fun w : World (C i) => if !w.rx.hasHandler then .ok (w, .returned 0)
          else World.processLoop B user fuel w 0) (p.world i) = .ok (w', o) →
        ∃ ms p' os, Leads B i p (.process i :: ms) w' p' os ∧ os.getLast? = some (some o) := by
      intro p w' o h
      by_cases hh : (p.world i).rx.hasHandler = true
      · simp only [hh, Bool.not_true, Bool.false_eq_true, if_false] at h
        obtain ⟨p1, x, h1, ms, p', os, h2, h3, h4, h5, h6⟩ := ih p 0 p.stack w' o h
        exact ⟨ms, p', x :: os, ⟨by simp [Several.moves, Several.move, hh, h1, h2], h3, h4, h5⟩, h6⟩
      · simp only [hh, Bool.not_false, if_true] at h
        cases h
        exact ⟨[], p, [some (.returned 0)], ⟨by simp [Several.moves, Several.move, hh], rfl, rfl,
          fun _ _ => ⟨rfl, rfl⟩⟩, rfl⟩
    unfold World.processLoop at h
    unfold Several.look
    cases hc : (p.world i).rx.recv.checkBufferForMessage B with
    | error f => simp [hc] at h
    | ok q =>
      obtain ⟨e, found⟩ := q
      simp only [hc, ok_bind] at h ⊢
      cases found with
      | false =>
        simp at h
        obtain ⟨rfl, rfl⟩ := h
        exact ⟨_, _, rfl, [], _, [], rfl, put_same _ _ _, rfl, fun i' hi => ⟨put_other _ _ hi, rfl⟩, rfl⟩
      | true =>
        simp only [Bool.not_true, Bool.false_eq_true, if_false] at h ⊢
        cases hid : e.getCurrentMessageId B with
        | error f => simp [hid] at h
        | ok id =>
          simp only [hid, ok_bind] at h ⊢
          let w1 : World (C i) :=
            { p.world i with rx := { (p.world i).rx with recv := e, lastMessageId := some id } }
          generalize Receiver.invoke (C := C i)
            (Receiver.mk e (p.world i).rx.invoker (p.world i).rx.functorPointer (some id)) id = r at h ⊢
          cases r with
          | error f => simp at h
          | ok c =>
            simp only [ok_bind] at h ⊢
            refine ⟨_, _, rfl, ?_⟩
            let pc : Several C := { p.put i { w1 with trace := w1.trace ++ c.toList } with stack := (i, n, c) :: rest }
            have hpc : pc.world i = { w1 with trace := w1.trace ++ c.toList } := put_same _ _ _
            have hoth : ∀ i', i' ≠ i → pc.world i' = p.world i' ∧ pc.returned i' = p.returned i' :=
              fun i' hi => ⟨put_other _ _ hi, rfl⟩
            change ∃ ms p' os, pc.moves B ms = .ok (p', os) ∧ _ ∧ _ ∧ _ ∧ _
            generalize hcall : (match c with
              | none => (.ok (w1, false) : Res (World (C i) × Bool))
              | some c => World.callHandler B user (fun w => if !w.rx.hasHandler then .ok (w, .returned 0)
                  else World.processLoop B user fuel w 0) w1 c) = r
            replace h := (congrArg (· >>= _) hcall).symm.trans h
            cases r with
            | error f => simp at h
            | ok q =>
              obtain ⟨w2, thrown⟩ := q
              simp only [ok_bind] at h
              have hlead : ∃ ms pm os, Leads B i pc ms w2 pm os := by
                cases c with
                | none =>
                  cases hcall
                  exact ⟨[], pc, [], rfl, by rw [hpc]; simp, rfl, fun _ _ => ⟨rfl, rfl⟩⟩
                | some c =>
                  simp only [World.callHandler] at hcall
                  cases hd : dispatch c with
                  | none =>
                    simp [hd] at hcall
                    exact ⟨[], pc, [], rfl, by rw [hpc]; exact hcall.1, rfl, fun _ _ => ⟨rfl, rfl⟩⟩
                  | some u =>
                    simp only [hd] at hcall
                    have hpc' : pc.world i = { w1 with trace := w1.trace ++ [c] } := hpc
                    rw [← hpc'] at hcall
                    cases ha : World.runActs B (fun w => if !w.rx.hasHandler then .ok (w, .returned 0)
                        else World.processLoop B user fuel w 0) (pc.world i)
                        (user (pc.world i).userCalls w1.rx.getBufferAvailableSpace).acts with
                    | error f => rw [ha] at hcall; simp at hcall
                    | ok q =>
                      rw [ha] at hcall
                      simp at hcall
                      obtain ⟨rfl, _⟩ := hcall
                      exact acts_lead hn _ pc q.1 q.2 ha
              obtain ⟨ms, pm, os, hl⟩ := hlead
              have hst : pm.stack = (i, n, c) :: rest := hl.stack
              cases thrown with
              | true =>
                simp at h
                obtain ⟨rfl, rfl⟩ := h
                refine ⟨ms ++ [.throw], { pm with stack := rest }, os ++ [some .threw],
                  moves_append hl.moves (by simp [Several.moves, Several.move, hst]), hl.world, rfl, ?_, ?_⟩
                · intro i' hi
                  exact ⟨(hl.others i' hi).1.trans (hoth i' hi).1, (hl.others i' hi).2.trans (hoth i' hi).2⟩
                · rw [← List.cons_append, List.getLast?_append]; rfl
              | false =>
                simp only [Bool.false_eq_true, if_false] at h
                cases hp : w2.rx.recv.popMessage B with
                | error f => simp [hp] at h
                | ok e2 =>
                  simp only [hp, ok_bind] at h
                  let p1 : Several C := pm.put i { w2 with rx := { w2.rx with recv := e2 } }
                  let p2 : Several C :=
                    { p1 with returned := fun j => if j = i then p1.returned j ++ c.toList else p1.returned j }
                  have hp2 : p2.world i = { w2 with rx := { w2.rx with recv := e2 } } := put_same _ _ _
                  rw [← hp2] at h
                  obtain ⟨p3, x, k1, ms3, p4, os3, k2, k3, k4, k5, k6⟩ := ih p2 (n + 1) rest w' o h
                  refine ⟨ms ++ .finish :: ms3, p4, os ++ x :: os3, moves_append hl.moves ?_, k3, k4, ?_, ?_⟩
                  · have hm : pm.move B .finish = .ok (p3, x) := by
                      simp only [Several.move, hst, hl.world, hp, ok_bind]
                      exact k1
                    simp [Several.moves, hm, k2]
                  · intro i' hi
                    have h2 : p2.world i' = pm.world i' ∧ p2.returned i' = pm.returned i' :=
                      ⟨put_other _ _ hi, by simp [p2, p1, Several.put, hi]⟩
                    exact ⟨(k5 i' hi).1.trans (h2.1.trans ((hl.others i' hi).1.trans (hoth i' hi).1)),
                      (k5 i' hi).2.trans (h2.2.trans ((hl.others i' hi).2.trans (hoth i' hi).2))⟩
                  · rw [← List.cons_append, List.getLast?_append, k6]; rfl

/-- C96, the two models agree. A `processMessages` call in the model in which user code is a function is, in this model, a
`process` move followed by further moves, after which the receiver is the same, the last of them ends the call with the
same outcome, and nothing else has changed. -/
theorem C96_model {user : UserCode} {fuel : Nat} {i : Nat} {p : Several C} {w' : World (C i)} {o : Outcome}
    (h : (p.world i).processMessages B user fuel = .ok (w', o)) :
    ∃ ms p' os, p.moves B (.process i :: ms) = .ok (p', os) ∧ os.getLast? = some (some o) ∧ p'.world i = w' ∧
      p'.stack = p.stack ∧ ∀ i', i' ≠ i → p'.world i' = p.world i' := by
  unfold World.processMessages at h
  by_cases hh : (p.world i).rx.hasHandler = true
  · simp only [hh, Bool.not_true, Bool.false_eq_true, if_false] at h
    obtain ⟨p1, x, h1, ms, p', os, h2, h3, h4, h5, h6⟩ := loop_leads i fuel p 0 p.stack w' o h
    exact ⟨ms, p', x :: os, by simp [Several.moves, Several.move, hh, h1, h2], h6, h3, h4, fun i' hi => (h5 i' hi).1⟩
  · simp only [hh, Bool.not_false, if_true] at h
    cases h
    exact ⟨[], p, [some (.returned 0)], by simp [Several.moves, Several.move, hh], rfl, rfl, rfl, fun _ _ => rfl⟩

/-- Whether moves (other than `receiveFrom`) are allowed, and what they lead to. -/
def playCheck (B : Build) : Several C → List Move → (Several C → List (Option Outcome) → Bool) → Bool
  | p, [], P => P p []
  | p, m :: ms, P =>
    (match m with
      | .append i xs => decide (xs.length ≤ (p.world i).rx.getBufferAvailableSpace)
      | .receiveFrom _ _ _ => false
      | .clearHandler i => decide (i ∉ inProgress p)
      | .process i => decide (i ∉ inProgress p)
      | _ => true) &&
    match p.move B m with
    | .ok (p', o) => playCheck B p' ms fun p'' os => P p'' (o :: os)
    | .error _ => false

theorem playCheck_ok : ∀ {ms : List Move} {p : Several C} {P : Several C → List (Option Outcome) → Bool},
    playCheck B p ms P = true → ∃ p' os, AllAllowed B p ms ∧ p.moves B ms = .ok (p', os) ∧ P p' os = true := by
  intro ms
  induction ms with
  | nil => intro p P h; exact ⟨p, [], trivial, rfl, h⟩
  | cons m ms ih =>
    intro p P h
    simp only [playCheck, Bool.and_eq_true] at h
    obtain ⟨h1, h2⟩ := h
    cases hm : p.move B m with
    | error f => simp [hm] at h2
    | ok q =>
      obtain ⟨p1, o⟩ := q
      simp only [hm] at h2
      obtain ⟨p', os, k1, k2, k3⟩ := ih h2
      refine ⟨p', o :: os, ⟨?_, fun p2 o2 e => by rw [hm] at e; cases e; exact k1⟩, by simp [Several.moves, hm, k2], k3⟩
      cases m <;> simp_all [Allowed]

theorem played_check {ms : List Move} {P : Several C → List (Option Outcome) → Bool}
    (h : playCheck B (Several.start C) ms P = true) :
    ∃ (p : Several C) (os : List (Option Outcome)), Played B ms p os ∧ P p os = true := by
  obtain ⟨p, os, h1, h2, h3⟩ := playCheck_ok h
  exact ⟨p, os, ⟨h1, h2⟩, h3⟩

/-! The rule about nested `processMessages` calls is needed, also when the nested call is made through another receiver. -/

/-- Two receivers with different collections. -/
def two : Nat → Collection
  | 0 => Sample.basic
  | _ => Sample.checked

theorem two_arith (B : Build) (hB : B = Sample.dbg ∨ B = Sample.rel16) (i : Nat) : Arith B (recvBufferSize (two i)) := by
  cases i with
  | zero => rcases hB with rfl | rfl <;> exact ⟨by decide, by decide⟩
  | succ i =>
    change Arith B (recvBufferSize Sample.checked)
    rcases hB with rfl | rfl <;> exact ⟨by decide, by decide⟩

/-- Each receiver has a handler and a message. -/
def prepare : List Move :=
  [.setHandler 0 Sample.h0, .setHandler 1 Sample.h1, .append 0 (frame .basic Sample.mPing),
    .append 1 (frame .basicChecksum Sample.mPose)]

/-- The handler of receiver 0 calls `processMessages` of receiver 1, whose handler calls `processMessages` of receiver 0,
whose handler returns; then all return. -/
def cycle : List Move := prepare ++ [.process 0, .process 1, .process 0, .finish, .finish, .finish]

/-- C96, the rule is needed. Receiver 0 handles its message twice and removes it twice: an assertion fails, and without
assertions the behaviour is undefined. -/
theorem C96_cycle_witness :
    (Several.start two).moves Sample.dbg cycle = .error .abort ∧
    (Several.start two).moves Sample.rel16 cycle = .error .ub ∧
    ∀ B, B = Sample.dbg ∨ B = Sample.rel16 → ∃ (p : Several two) (os : List (Option Outcome)),
      Played B (prepare ++ [.process 0, .process 1]) p os ∧ inProgress p = [1, 0] ∧ ¬Allowed p (.process 0) := by
  have cut : ∀ (B : Build) (P : Several two → List (Option Outcome) → Bool),
      playCheck B (Several.start two) (prepare ++ [.process 0, .process 1]) P = true →
      (∀ p os, P p os = true → inProgress p = [1, 0]) → ∃ (p : Several two) (os : List (Option Outcome)),
      Played B (prepare ++ [.process 0, .process 1]) p os ∧ inProgress p = [1, 0] ∧ ¬Allowed p (.process 0) := by
    intro B P h hP
    obtain ⟨p, os, h1, h2⟩ := played_check h
    exact ⟨p, os, h1, hP p os h2, by simp [Allowed, hP p os h2]⟩
  have fails : ∀ (r : Res (Several two × List (Option Outcome))) (f : Fault),
      (match r with | .error f' => decide (f' = f) | .ok _ => false) = true → r = .error f := by
    intro r f h
    cases r with
    | error f' => simp at h; rw [h]
    | ok q => simp at h
  refine ⟨fails _ _ (by decide +kernel), fails _ _ (by decide +kernel), fun B hB => ?_⟩
  rcases hB with rfl | rfl
  · exact cut _ (fun p _ => decide (inProgress p = [1, 0])) (by decide +kernel) fun p os h => by simpa using h
  · exact cut _ (fun p _ => decide (inProgress p = [1, 0])) (by decide +kernel) fun p os h => by simpa using h

/-- Bytes for receiver 1 arrive while a handler of receiver 0 runs. That handler calls `processMessages` of receiver 1,
whose handler puts more bytes into receiver 0 and throws; the handler of receiver 0 catches the exception, tries again, and
then all goes well. -/
def nested : List Move :=
  [.setHandler 0 Sample.h0, .setHandler 1 Sample.h1, .append 0 (frames .basic [Sample.mPing, Sample.mLevel]), .process 0,
    .append 1 (frame .basicChecksum Sample.mPose), .process 1, .append 0 (frame .basic Sample.mPing), .throw,
    .process 1, .finish, .finish, .finish]

/-- The hypotheses of C96_safe, C96_each, C96_all, C96_others and C96_alone hold: the last `finish` is about receiver 0, and
ends its `processMessages`. -/
example : (∀ i, Arith Sample.rel16 (recvBufferSize (two i))) ∧ ∃ (p p' : Several two) (os : List (Option Outcome)),
    Played Sample.rel16 nested p os ∧ p.move Sample.rel16 .finish = .ok (p', some (.returned 3)) ∧
    target p .finish = some 0 ∧ (p.world 0).rx.hasHandler = true ∧ Allowed p .finish ∧
    os.take 10 = [none, none, none, none, none, none, none, some .threw, none, some (.returned 1)] ∧
    (p'.world 0).fed = frames .basic [Sample.mPing, Sample.mLevel, Sample.mPing] ∧
    (p'.returned 0).map seen = [Sample.mPing, Sample.mLevel, Sample.mPing].map (meaning Sample.basic) ∧
    (p'.returned 1).map seen = [Sample.mPose].map (meaning Sample.checked) ∧
    delivered (p'.world 1) = [Sample.mPose, Sample.mPose].map (meaning Sample.checked) := by
  refine ⟨two_arith _ (.inr rfl), ?_⟩
  obtain ⟨p, os, h1, h2⟩ := played_check (C := two) (B := Sample.rel16) (ms := nested)
    (P := fun p os => decide (target p .finish = some 0) && (p.world 0).rx.hasHandler &&
      decide (os.take 10 = [none, none, none, none, none, none, none, some .threw, none, some (.returned 1)]) &&
      match p.move Sample.rel16 .finish with
      | .ok (p', some o) => decide (o = .returned 3) &&
        decide ((p'.world 0).fed = frames .basic [Sample.mPing, Sample.mLevel, Sample.mPing]) &&
        decide ((p'.returned 0).map seen = [Sample.mPing, Sample.mLevel, Sample.mPing].map (meaning Sample.basic)) &&
        decide ((p'.returned 1).map seen = [Sample.mPose].map (meaning Sample.checked)) &&
        decide (delivered (p'.world 1) = [Sample.mPose, Sample.mPose].map (meaning Sample.checked))
      | _ => false)
    (by decide +kernel)
  simp only [Bool.and_eq_true, decide_eq_true_eq] at h2
  obtain ⟨⟨⟨a, b⟩, c⟩, d⟩ := h2
  cases hm : p.move Sample.rel16 .finish with
  | error f => simp [hm] at d
  | ok q =>
    obtain ⟨p', o⟩ := q
    cases o with
    | none => simp [hm] at d
    | some o =>
      simp only [hm, Bool.and_eq_true, decide_eq_true_eq] at d
      obtain ⟨⟨⟨⟨rfl, e⟩, f⟩, g⟩, k⟩ := d
      exact ⟨p, p', os, h1, hm, a, b, trivial, c, e, f, g, k⟩

/-- The whole of the `processMessages` call of receiver 0 in `nested`. -/
def wholeCheck (B : Build) (i : Nat) : Several C → List Move → (Several C → Outcome → Bool) → Bool
  | _, [], _ => false
  | p, [m], P =>
    match p.move B m with
    | .ok (p', some o) => decide (i ∉ inProgress p') && P p' o
    | _ => false
  | p, m :: m' :: ms, P =>
    match p.move B m with
    | .ok (p1, _) => decide (i ∈ inProgress p1) && wholeCheck B i p1 (m' :: ms) P
    | _ => false

theorem wholeCheck_ok {i : Nat} : ∀ {ms : List Move} {p : Several C} {P : Several C → Outcome → Bool},
    wholeCheck B i p ms P = true → ∃ p' o, Whole B i p ms p' o ∧ P p' o = true := by
  intro ms
  induction ms with
  | nil => intro p P h; simp [wholeCheck] at h
  | cons m ms ih =>
    intro p P h
    cases hm : p.move B m with
    | error f => cases ms <;> simp [wholeCheck, hm] at h
    | ok q =>
      obtain ⟨p1, x⟩ := q
      cases ms with
      | nil =>
        cases x with
        | none => simp [wholeCheck, hm] at h
        | some o =>
          unfold wholeCheck at h
          simp only [hm, Bool.and_eq_true, decide_eq_true_eq] at h
          exact ⟨p1, o, .last hm h.1, h.2⟩
      | cons m' ms =>
        unfold wholeCheck at h
        simp only [hm, Bool.and_eq_true, decide_eq_true_eq] at h
        obtain ⟨p', o, h1, h2⟩ := ih h.2
        exact ⟨p', o, .more hm h.1 h1, h2⟩

/-- The hypotheses of C96_count hold. -/
example : ∃ (p p' : Several two) (os : List (Option Outcome)), Played Sample.dbg (nested.take 3) p os ∧
    AllAllowed Sample.dbg p (.process 0 :: (nested.drop 4 ++ [.finish])) ∧
    Whole Sample.dbg 0 p (.process 0 :: (nested.drop 4 ++ [.finish])) p' (.returned 3) := by
  obtain ⟨p, os, h1, h2⟩ := played_check (C := two) (B := Sample.dbg) (ms := nested.take 3)
    (P := fun p _ => playCheck Sample.dbg p (.process 0 :: (nested.drop 4 ++ [.finish])) (fun _ _ => true) &&
      wholeCheck Sample.dbg 0 p (.process 0 :: (nested.drop 4 ++ [.finish])) fun _ o => decide (o = .returned 3))
    (by decide +kernel)
  rw [Bool.and_eq_true] at h2
  obtain ⟨_, _, h3, _⟩ := playCheck_ok h2.1
  obtain ⟨p', o, h4, h5⟩ := wholeCheck_ok h2.2
  simp only [decide_eq_true_eq] at h5
  subst h5
  exact ⟨p, p', os, h1, h3, h4⟩

/-- The hypothesis of C96_model holds. -/
example : ∃ (p : Several two) (os : List (Option Outcome)), Played Sample.dbg prepare p os ∧
    ∃ w', (p.world 0).processMessages Sample.dbg Sample.passive 9 = .ok (w', .returned 1) := by
  obtain ⟨p, os, h1, h2⟩ := played_check (C := two) (B := Sample.dbg) (ms := prepare)
    (P := fun p _ => match (p.world 0).processMessages Sample.dbg Sample.passive 9 with
      | .ok (_, o) => decide (o = .returned 1)
      | .error _ => false)
    (by decide +kernel)
  refine ⟨p, os, h1, ?_⟩
  cases h : (p.world 0).processMessages Sample.dbg Sample.passive 9 with
  | error f => simp [h] at h2
  | ok q => simp only [h, decide_eq_true_eq] at h2; exact ⟨q.1, by rw [← h2]⟩

end TT.Properties
