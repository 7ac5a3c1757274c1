import Verif.Properties.Gateway
import Verif.Properties.Network
import Verif.Proofs.Interrupts

/-!
# Property C120: messages that travel through any number of gateways
-/

namespace TT.Properties
open Spec

/-- A program that receives, at some moment: its collection, its build and handlers, what it has done so far, and its state. -/
structure Station where
  C : Collection
  B : Build
  user : UserCode
  fuel : Nat
  ops : List Op
  w : World C
  os : List Obs

/-- A program that keeps the rules, with handlers that do not throw. -/
structure Station.Ok (x : Station) : Prop where
  setting : Setting x.C x.B x.user
  calm : NeverThrows x.user
  reached : Reached x.B x.user x.fuel x.ops x.w x.os
  ids : x.C.messages.length ≤ 255

/-- A program that has a handler and has called `processMessages` last. -/
structure Station.Idle (x : Station) : Prop where
  last : ∃ ops, x.ops = ops ++ [.process]
  handler : x.w.rx.hasHandler = true

/-- The `send` calls by which the handlers of a program have passed on what they could to a program with the
collection `D`. -/
def Station.passedOn (x : Station) (D : Collection) : List Request :=
  (x.w.trace.filter fun i => i.msg ∈ D.messages).map (forward D)

/-- Some transmitter that loses nothing has written these bytes during the `send` calls. -/
def Carried (rs : List Request) (bytes : List Byte) : Prop :=
  ∃ (σ : Type) (T : Tx σ) (log : σ → List Byte) (s s' : σ), Faithful T log ∧ sendAll T s rs = some (.ok s') ∧
    log s' = log s ++ bytes

/-- Programs one behind the other; to the first one `bytes` have been sent. Of what has been sent to a program, a part has
arrived; the program passes on what it has handled so far. -/
def Route : List Byte → List Station → Prop
  | _, [] => True
  | bytes, [x] => x.Ok ∧ x.w.fed <+: bytes
  | bytes, x :: y :: xs => x.Ok ∧ x.w.fed <+: bytes ∧ ∃ bytes', Carried (x.passedOn y.C) bytes' ∧ Route bytes' (y :: xs)

/-- The same when everything has arrived everywhere and been processed. -/
def RouteDone : List Byte → List Station → Prop
  | _, [] => True
  | bytes, [x] => x.Ok ∧ x.Idle ∧ x.w.fed = bytes
  | bytes, x :: y :: xs => x.Ok ∧ x.Idle ∧ x.w.fed = bytes ∧
      ∃ bytes', Carried (x.passedOn y.C) bytes' ∧ RouteDone bytes' (y :: xs)

/-- The message types that all these programs have. -/
def shared (xs : List Station) (t : MsgType) : Bool := xs.all fun x => decide (t ∈ x.C.messages)

variable {C : Collection}

/-- A scan of the beginning of messages without noise finds the first ones. -/
theorem run_clean {ms0 : List Msg} (h0 : ∀ m ∈ ms0, IsMsg C m) {p r : List Byte} {ms : List Msg} (h : Run C p ms r)
    (hp : p <+: frames C.envelope ms0) : ms <+: ms0 := by
  induction h generalizing ms0 with
  | refl s => exact List.nil_prefix
  | take hm _ ih =>
    obtain ⟨t, ht⟩ := hp
    cases ms0 with
    | nil =>
      simp [frames] at ht
      exact absurd ht.1 (frame_ne_nil _ _)
    | cons m0 ms0 =>
      rw [frames_cons, List.append_assoc] at ht
      obtain ⟨rfl, e⟩ := frame_append_inj hm (h0 m0 (by simp)) ht
      exact List.cons_prefix_cons.mpr ⟨rfl, ih (fun m h => h0 m (by simp [h])) ⟨t, e⟩⟩
  | skip h1 h2 _ _ =>
    rename_i b s r ms _ _
    obtain ⟨t, ht⟩ := hp
    cases ms0 with
    | nil => simp [frames] at ht
    | cons m0 ms0 =>
      rw [frames_cons] at ht
      have : Starts C (b :: s ++ t) := ⟨m0, _, h0 m0 (by simp), ht⟩
      rcases this.of_append (by simp) with h | h
      · exact absurd h h1
      · exact absurd h h2

theorem carried_frames {rs : List Request} (hrs : ∀ r ∈ rs, r.Good C) {bytes : List Byte} (h : Carried rs bytes) :
    bytes = frames C.envelope (rs.map Request.msg) := by
  obtain ⟨σ, T, log, s, s', hT, h1, h2⟩ := h
  obtain ⟨s2, e1, e2⟩ := sendAll_faithful hT rs hrs s
  rw [h1] at e1
  simp only [Option.some.injEq, Except.ok.injEq] at e1
  rw [← e1, h2] at e2
  exact List.append_cancel_left e2

theorem map_meaning {rs : List Request} (hrs : ∀ r ∈ rs, r.Good C) :
    (rs.map Request.msg).map (meaning C) = rs.map Request.call := by
  rw [List.map_map]
  exact List.map_congr_left fun r h => (hrs r h).meaning

/-- One station, at any time. -/
theorem Station.Ok.partly {x : Station} (hx : x.Ok) {rs : List Request} (hrs : ∀ r ∈ rs, r.Good x.C) {bytes : List Byte}
    (hb : Carried rs bytes) (hf : x.w.fed <+: bytes) : delivered x.w <+: rs.map Request.call := by
  obtain ⟨ms, h1, h2⟩ := hx.reached.partly hx.setting hx.calm
  rw [carried_frames hrs hb] at hf
  have hm : ∀ m ∈ rs.map Request.msg, IsMsg x.C m := by
    intro m h
    obtain ⟨r, hr, rfl⟩ := List.mem_map.mp h
    exact (hrs r hr).isMsg
  rw [h2, ← map_meaning hrs]
  exact (run_clean hm h1 hf).map _

/-- One station that has everything. -/
theorem Station.Ok.done {x : Station} (hx : x.Ok) (hi : x.Idle) {rs : List Request} (hrs : ∀ r ∈ rs, r.Good x.C)
    (hb : Carried rs x.w.fed) : delivered x.w = rs.map Request.call ∧ buffered x.w = [] := by
  obtain ⟨C, B, user, fuel, ops, w, os⟩ := x
  obtain ⟨⟨ops', rfl⟩, hh⟩ := hi
  exact arrives_frames hrs B user fuel ops' w os hx.setting hx.calm hx.reached hh (carried_frames hrs hb)

/-- What a station passes on. -/
theorem Station.Ok.passedOn_good {x : Station} (hx : x.Ok) {D : Collection} (hl : D.messages.length ≤ 255) :
    (∀ r ∈ x.passedOn D, r.Good D) ∧
      (x.passedOn D).map Request.call = (delivered x.w).filter fun c => decide (c.1 ∈ D.messages) := by
  have key := fun i (hi : i ∈ x.w.trace) (hm : i.msg ∈ D.messages) =>
    (C91_compiles hl hx.setting hx.reached hi vectorBuffer []).1 hm
  constructor
  · intro r hr
    obtain ⟨i, hi, rfl⟩ := List.mem_map.mp hr
    rw [List.mem_filter] at hi
    exact (key i hi.1 (by simpa using hi.2)).1
  · unfold Station.passedOn delivered
    rw [List.map_map, List.filter_map]
    refine List.map_congr_left fun i hi => ?_
    rw [List.mem_filter] at hi
    have := (key i hi.1 (by simpa using hi.2)).2
    simp only [Function.comp, Request.call, this, seen]
    rfl

theorem filter_call (p : MsgType → Bool) (rs : List Request) :
    (rs.filter fun r => p r.t).map Request.call = (rs.map Request.call).filter fun c => p c.1 := by
  rw [List.filter_map]
  rfl

theorem shared_first {x : Station} {xs : List Station} {cs : List Call} :
    (cs.filter fun c => decide (c.1 ∈ x.C.messages)).filter (fun c => shared (x :: xs) c.1) =
      cs.filter fun c => shared (x :: xs) c.1 := by
  rw [List.filter_filter]
  refine List.filter_congr fun c _ => ?_
  simp only [shared, List.all_cons]
  cases decide (c.1 ∈ x.C.messages) <;> simp

theorem filter_all (cs : List Call) : (cs.filter fun c => shared [] c.1) = cs := by
  rw [List.filter_eq_self]
  intro c _
  rfl

theorem filter_good {x : Station} {xs : List Station} {rs : List Request} (hrs : ∀ r ∈ rs, r.Good x.C) :
    (rs.filter fun r => shared (x :: xs) r.t).map Request.call =
      (rs.map Request.call).filter fun c => shared xs c.1 := by
  rw [← filter_call]
  congr 1
  refine List.filter_congr fun r hr => ?_
  have : r.t ∈ x.C.messages := (hrs r hr).2.1.2.1
  simp [shared, this]

theorem route_parts {rs : List Request} {bytes : List Byte} {ys zs : List Station} {z : Station} {x : Station} {xs : List Station}
    (e : x :: xs = ys ++ z :: zs) (hrs : ∀ r ∈ rs, r.Good x.C) (hb : Carried rs bytes) (h : Route bytes (x :: xs)) :
    delivered z.w <+: (rs.filter fun r => shared (ys ++ [z]) r.t).map Request.call := by
  induction ys generalizing rs bytes x xs with
  | nil =>
    simp only [List.nil_append, List.cons.injEq] at e
    obtain ⟨rfl, rfl⟩ := e
    have hx : x.Ok ∧ x.w.fed <+: bytes := by
      cases xs with
      | nil => exact h
      | cons y xs => exact ⟨h.1, h.2.1⟩
    rw [List.nil_append, filter_good hrs, filter_all]
    exact hx.1.partly hrs hb hx.2
  | cons y ys ih =>
    simp only [List.cons_append, List.cons.injEq] at e
    obtain ⟨rfl, rfl⟩ := e
    rw [List.cons_append, filter_good hrs]
    obtain ⟨u, us, hu⟩ : ∃ u us, ys ++ z :: zs = u :: us := by
      cases ys with
      | nil => exact ⟨_, _, rfl⟩
      | cons u us => exact ⟨_, _, rfl⟩
    rw [hu] at h
    obtain ⟨h1, h2, bytes', h3, h4⟩ := h
    have hl : u.C.messages.length ≤ 255 := by
      cases us with
      | nil => exact h4.1.ids
      | cons v us => exact h4.1.ids
    obtain ⟨g1, g2⟩ := h1.passedOn_good hl
    have := ih hu.symm g1 h3 h4
    obtain ⟨vs, hv⟩ : ∃ vs, ys ++ [z] = u :: vs := by
      cases ys with
      | nil => simp at hu; exact ⟨[], by rw [hu.1]; rfl⟩
      | cons u' us' => simp at hu; exact ⟨us' ++ [z], by rw [hu.1]; rfl⟩
    rw [filter_call (shared (ys ++ [z])), g2, hv, shared_first] at this
    rw [hv]
    exact this.trans ((h1.partly hrs hb h2).filter _)

theorem route_done {rs : List Request} {bytes : List Byte} {ys zs : List Station} {z : Station} {x : Station} {xs : List Station}
    (e : x :: xs = ys ++ z :: zs) (hrs : ∀ r ∈ rs, r.Good x.C) (hb : Carried rs bytes) (h : RouteDone bytes (x :: xs)) :
    delivered z.w = (rs.filter fun r => shared (ys ++ [z]) r.t).map Request.call ∧ buffered z.w = [] := by
  induction ys generalizing rs bytes x xs with
  | nil =>
    simp only [List.nil_append, List.cons.injEq] at e
    obtain ⟨rfl, rfl⟩ := e
    have hx : x.Ok ∧ x.Idle ∧ x.w.fed = bytes := by
      cases xs with
      | nil => exact h
      | cons y xs => exact ⟨h.1, h.2.1, h.2.2.1⟩
    obtain ⟨a, b, rfl⟩ := hx
    rw [List.nil_append, filter_good hrs, filter_all]
    exact a.done b hrs hb
  | cons y ys ih =>
    simp only [List.cons_append, List.cons.injEq] at e
    obtain ⟨rfl, rfl⟩ := e
    rw [List.cons_append, filter_good hrs]
    obtain ⟨u, us, hu⟩ : ∃ u us, ys ++ z :: zs = u :: us := by
      cases ys with
      | nil => exact ⟨_, _, rfl⟩
      | cons u us => exact ⟨_, _, rfl⟩
    rw [hu] at h
    obtain ⟨h1, hi, h2, bytes', h3, h4⟩ := h
    have hl : u.C.messages.length ≤ 255 := by
      cases us with
      | nil => exact h4.1.ids
      | cons v us => exact h4.1.ids
    obtain ⟨g1, g2⟩ := h1.passedOn_good hl
    have := ih hu.symm g1 h3 h4
    obtain ⟨vs, hv⟩ : ∃ vs, ys ++ [z] = u :: vs := by
      cases ys with
      | nil => simp at hu; exact ⟨[], by rw [hu.1]; rfl⟩
      | cons u' us' => simp at hu; exact ⟨us' ++ [z], by rw [hu.1]; rfl⟩
    rw [filter_call (shared (ys ++ [z])), g2, hv, shared_first] at this
    subst h2
    rw [hv, ← (h1.done hi hrs hb).1]
    exact this

/-- C120, at any time. Programs pass on what they receive, one to the next, each with a collection, an envelope, a build,
a transmitter and a way of polling of its own. Whatever has arrived and been processed where by now, each program on the
route has handled, in order and with the contents sent, the first ones of the messages sent to the first program whose
types all programs up to this one have. -/
theorem C120_any_time {rs : List Request} {bytes : List Byte} {ys zs : List Station} {z x : Station} {xs : List Station}
    (e : x :: xs = ys ++ z :: zs) (hrs : ∀ r ∈ rs, r.Good x.C) (hb : Carried rs bytes) (h : Route bytes (x :: xs)) :
    delivered z.w <+: (rs.filter fun r => shared (ys ++ [z]) r.t).map (fun r => (r.t, r.vs.map (·.bytes))) :=
  route_parts e hrs hb h

/-- C120, at the end. When everything has arrived everywhere and been processed, each program on the route has handled all
of these messages, exactly once, and keeps no bytes. -/
theorem C120_all {rs : List Request} {bytes : List Byte} {ys zs : List Station} {z x : Station} {xs : List Station}
    (e : x :: xs = ys ++ z :: zs) (hrs : ∀ r ∈ rs, r.Good x.C) (hb : Carried rs bytes) (h : RouteDone bytes (x :: xs)) :
    delivered z.w = (rs.filter fun r => shared (ys ++ [z]) r.t).map (fun r => (r.t, r.vs.map (·.bytes))) ∧
      buffered z.w = [] :=
  route_done e hrs hb h

/-- C120, no program is ever stuck: with any transmitter that loses nothing, what a program has handled so far can be
passed on to a next program with any collection. -/
theorem C120_goes_on {x : Station} (hx : x.Ok) {D : Collection} (hl : D.messages.length ≤ 255) {σ : Type} {T : Tx σ}
    {log : σ → List Byte} (hT : Faithful T log) (s : σ) :
    ∃ s' bytes, sendAll T s (x.passedOn D) = some (.ok s') ∧ log s' = log s ++ bytes ∧ Carried (x.passedOn D) bytes := by
  obtain ⟨s', h1, h2⟩ := sendAll_faithful hT _ (hx.passedOn_good hl).1 s
  exact ⟨s', _, h1, h2, σ, T, log, s, s', hT, h1, h2⟩

/-- A third collection: it has one of the types of the other side that came from the sample, and one that did not. -/
def thirdSide : Collection := ⟨[Sample.pose, ⟨9, [.pod 5 3]⟩], .basicChecksum⟩

/-- A station of the examples: its handlers do nothing but pass on. -/
theorem station_of {C : Collection} (S : Setting C Sample.dbg Sample.passive) (hl : C.messages.length ≤ 255) (ops : List Op)
    (hno : ∀ a r, Op.receiveFrom a r ∉ ops) (P : World C → Bool)
    (hops : ∃ (w : World C) (os : List Obs), Reached Sample.dbg Sample.passive 50 ops w os ∧ P w = true) :
    ∃ (w : World C) (os : List Obs), (Station.mk C Sample.dbg Sample.passive 50 ops w os).Ok ∧ P w = true ∧ w.fed = chunks ops := by
  obtain ⟨w, os, h, hp⟩ := hops
  exact ⟨w, os, ⟨S, Sample.passive_neverThrows, h, hl⟩, hp, C25_fed_is_chunks S Sample.passive_quiet hno h⟩

theorem carried_vector {rs : List Request} {bytes : List Byte} (h : sendAll vectorBuffer [] rs = some (.ok bytes)) :
    Carried rs bytes := ⟨_, vectorBuffer, id, [], bytes, vectorBuffer_faithful, h, by simp⟩

theorem setting_other : Setting otherSide Sample.dbg Sample.passive := ⟨⟨by decide, by decide⟩, Sample.passive_benign⟩

theorem setting_third : Setting thirdSide Sample.dbg Sample.passive := ⟨⟨by decide, by decide⟩, Sample.passive_benign⟩

/-- It happens: three messages are sent to the first program, two of them are passed on to the second one with other ids in
the other envelope, and one of these to the third one. -/
example : ∃ (bytes : List Byte) (x y z : Station), (∀ r ∈ requests3, r.Good x.C) ∧ Carried requests3 bytes ∧
    RouteDone bytes [x, y, z] ∧ (delivered x.w).length = 3 ∧ (delivered y.w).length = 2 ∧ (delivered z.w).length = 1 := by
  obtain ⟨w1, os1, k1, p1, f1⟩ := station_of Sample.setting_checked (by decide) (session3 ++ [.process]) (by simp [session3])
    (fun w => w.rx.hasHandler && decide ((delivered w).length = 3) && decide (
      sendAll vectorBuffer [] ((w.trace.filter fun i => i.msg ∈ otherSide.messages).map (forward otherSide)) =
        some (.ok (frames .basic [⟨2, []⟩, ⟨1, Sample.mPose.payload⟩])))) (Sample.reached (fun w _ => _) (by decide +kernel))
  obtain ⟨w2, os2, k2, p2, f2⟩ := station_of setting_other (by decide)
    ([.setHandler Sample.h0, .append (frames .basic [⟨2, []⟩, ⟨1, Sample.mPose.payload⟩])] ++ [.process]) (by simp)
    (fun w => w.rx.hasHandler && decide ((delivered w).length = 2) && decide (
      sendAll vectorBuffer [] ((w.trace.filter fun i => i.msg ∈ thirdSide.messages).map (forward thirdSide)) =
        some (.ok (frames .basicChecksum [⟨0, Sample.mPose.payload⟩])))) (Sample.reached (fun w _ => _) (by decide +kernel))
  obtain ⟨w3, os3, k3, p3, f3⟩ := station_of setting_third (by decide)
    ([.append (frames .basicChecksum [⟨0, Sample.mPose.payload⟩]), .setHandler Sample.h0] ++ [.process]) (by simp)
    (fun w => w.rx.hasHandler && decide ((delivered w).length = 1)) (Sample.reached (fun w _ => _) (by decide +kernel))
  simp only [Bool.and_eq_true, decide_eq_true_eq] at p1 p2 p3
  refine ⟨w1.fed, _, _, _, ?_, ?_, ⟨k1, ⟨⟨_, rfl⟩, p1.1.1⟩, rfl, w2.fed, ?_, k2, ⟨⟨_, rfl⟩, p2.1.1⟩, rfl, w3.fed, ?_, k3,
    ⟨⟨_, rfl⟩, p3.1⟩, rfl⟩, p1.1.2, p2.1.2, p3.2⟩
  · show ∀ r ∈ requests3, r.Good Sample.checked
    decide +kernel
  · rw [f1]; exact carried_vector (by decide +kernel)
  · rw [f2]; exact carried_vector p1.2
  · rw [f3]; exact carried_vector p2.2

/-- Earlier: of the three messages two have arrived at the first program, and of what it has passed on, one and the
beginning of the next have arrived at the second one. -/
example : ∃ (bytes : List Byte) (x y : Station), (∀ r ∈ requests3, r.Good x.C) ∧ Carried requests3 bytes ∧
    Route bytes [x, y] ∧ (delivered x.w).length = 2 ∧ (delivered y.w).length = 1 ∧ buffered y.w ≠ [] := by
  obtain ⟨w1, os1, k1, p1, f1⟩ := station_of Sample.setting_checked (by decide) (session3.dropLast) (by simp [session3])
    (fun w => decide ((delivered w).length = 2) && decide (
      sendAll vectorBuffer [] ((w.trace.filter fun i => i.msg ∈ otherSide.messages).map (forward otherSide)) =
        some (.ok (frames .basic [⟨2, []⟩, ⟨1, Sample.mPose.payload⟩])))) (Sample.reached (fun w _ => _) (by decide +kernel))
  obtain ⟨w2, os2, k2, p2, f2⟩ := station_of setting_other (by decide)
    ([.setHandler Sample.h0, .append ((frames .basic [⟨2, []⟩, ⟨1, Sample.mPose.payload⟩]).take 8)] ++ [.process]) (by simp)
    (fun w => decide ((delivered w).length = 1) && decide (buffered w ≠ [])) (Sample.reached (fun w _ => _) (by decide +kernel))
  simp only [Bool.and_eq_true, decide_eq_true_eq] at p1 p2
  refine ⟨chunks session3, ⟨_, _, _, _, _, w1, os1⟩, ⟨_, _, _, _, _, w2, os2⟩, ?_, carried_vector (by decide +kernel),
    ⟨k1, ?_, _, carried_vector p1.2, k2, ?_⟩, p1.1, p2.1, p2.2⟩
  · show ∀ r ∈ requests3, r.Good Sample.checked
    decide +kernel
  · show w1.fed <+: _
    rw [f1]; exact ⟨[2, 0x2A, 3, 0x31, 4], by decide +kernel⟩
  · show w2.fed <+: _
    rw [f2]; exact ⟨(frames .basic [⟨2, []⟩, ⟨1, Sample.mPose.payload⟩]).drop 8, by decide +kernel⟩

/-- A program that has something to pass on. -/
example : ∃ x : Station, x.Ok ∧ x.passedOn thirdSide ≠ [] := by
  obtain ⟨w, os, k, p, _⟩ := station_of setting_other (by decide)
    ([.setHandler Sample.h0, .append (frames .basic [⟨2, []⟩, ⟨1, Sample.mPose.payload⟩])] ++ [.process]) (by simp)
    (fun w => decide ((w.trace.filter fun i => i.msg ∈ thirdSide.messages).length = 1))
    (Sample.reached (fun w _ => _) (by decide +kernel))
  refine ⟨_, k, ?_⟩
  intro h
  simp only [decide_eq_true_eq] at p
  have := congrArg List.length h
  simp only [Station.passedOn, List.length_map, List.length_nil] at this
  rw [p] at this
  cases this

end TT.Properties
