import Verif.Proofs.DemoEnvelope

/-!
# Property about envelopes written by users of the library: C84
-/

namespace TT.Properties
open Spec

variable {C : Custom} {B : Build} {scan : Scan} {fuel : Nat} {ops : List Custom.COp} {w : C.World}
  {os : List (Option Byte)}

/-! ### C84 -/

/-- No legal history leads to an undefined operation, a failed assertion or an endless loop. -/
theorem C84_safe (hi : Implements C scan) (hp : Proper C scan) (ha : Arith B (customCapacity C))
    (hs : B.debug = true → Settled scan) (hf : customCapacity C < fuel)
    (hl : (Custom.World.new C).Legal B fuel ops) :
    ∃ (w : C.World) (os : List (Option Byte)), Custom.Reached B fuel ops w os := by
  rw [← Custom.capacity_eq] at ha hf
  obtain ⟨w, os, _, e, _⟩ := Custom.run_ok ha hi hp hs hf ops (Custom.holds_new C) hl
  exact ⟨w, os, hl, e⟩

/-- Every call of `processMessages` with a handler delivers what repeated scans of the buffered bytes give,
keeps the rest, and reports the number of messages and the last id. -/
theorem C84_process (hi : Implements C scan) (hp : Proper C scan) (ha : Arith B (customCapacity C))
    (hs : B.debug = true → Settled scan) (hf : customCapacity C < fuel) (h : Custom.Reached B fuel ops w os)
    {hd : Handler} (hh : w.handler = some hd) :
    ∃ (w' : C.World) (ms : List Msg) (r : List Byte), Parses C scan w.buffered ms r ∧
      w.processMessages B fuel = .ok (w', UInt8.ofNat ms.length) ∧ w'.buffered = r ∧
      w'.trace = w.trace ++ ms.map (customCall C hd) ∧ w'.handler = w.handler ∧
      w'.lastMessageId = (if ms = [] then w.lastMessageId else (ms.map Msg.id).getLast?) := by
  rw [← Custom.capacity_eq] at ha hf
  obtain ⟨w1, os1, xs, e, hb⟩ := Custom.run_ok ha hi hp hs hf ops (Custom.holds_new C) h.legal
  rw [h.run] at e
  cases e
  have := hb.length_le
  obtain ⟨ms, r, w', hpar, e, hb', hha, hfed, htr, hlast⟩ :=
    Custom.processLoop_ok ha.lt64 hi hp hs fuel (h := hd) 0 hb hh (by omega)
  refine ⟨w', ms, r, by rw [Custom.buffered_eq hb]; exact hpar, ?_, Custom.buffered_eq hb', htr, hha, hlast⟩
  simp [Custom.World.processMessages, hh, e]

/-- If decisions are not revised, what has been delivered after a poll depends on the bytes received alone,
not on how they were cut into pieces and when the receiver was polled. -/
theorem C84_stream (hi : Implements C scan) (hp : Proper C scan) (ho : Online scan)
    (ha : Arith B (customCapacity C)) (hs : B.debug = true → Settled scan) (hf : customCapacity C < fuel)
    (h : Custom.Reached B fuel (ops ++ [.process]) w os) (hh : w.handler ≠ none) :
    ∃ ms, Parses C scan w.fed ms w.buffered ∧
      w.trace.map (fun i => (i.msg, i.args)) = ms.map (customMeaning C) ∧
      (∀ ms' r', Parses C scan w.fed ms' r' → ms' = ms ∧ r' = w.buffered) := by
  rw [← Custom.capacity_eq] at ha hf
  have split : ∀ (ops : List Custom.COp) (v : C.World) (os : List (Option Byte)), v.Legal B fuel (ops ++ [.process]) →
      v.run B fuel (ops ++ [.process]) = .ok (w, os) → ∃ v1 os1 o, v.Legal B fuel ops ∧
        v.run B fuel ops = .ok (v1, os1) ∧ v1.step B fuel .process = .ok (w, o) := by
    intro ops
    induction ops with
    | nil =>
      intro v os _ hr
      simp only [List.nil_append, Custom.World.run] at hr
      cases hst : v.step B fuel .process with
      | error f => simp [hst] at hr
      | ok y => simp [hst] at hr; exact ⟨v, [], y.2, trivial, rfl, by rw [hst, ← hr.1]⟩
    | cons op ops ih =>
      intro v os hl hr
      rw [List.cons_append] at hl hr
      rw [Custom.World.run] at hr
      cases hst : v.step B fuel op with
      | error f => simp [hst] at hr
      | ok y =>
        simp only [hst, ok_bind] at hr
        cases hr2 : y.1.run B fuel (ops ++ [.process]) with
        | error f => simp [hr2] at hr
        | ok z =>
          simp [hr2] at hr
          obtain ⟨v1, os1, o, hl1, hr1, hs1⟩ := ih y.1 z.2 (hl.2 y.1 y.2 hst) (by rw [hr2, ← hr.1])
          refine ⟨v1, y.2 :: os1, o, ⟨hl.1, fun w' o' e => ?_⟩, ?_, hs1⟩
          · rw [hst] at e
            cases e
            exact hl1
          · simp [Custom.World.run, hst, hr1]
  obtain ⟨v, os1, o, hl, hr, hst⟩ := split ops _ _ h.legal h.run
  obtain ⟨xs, ms, ht⟩ := Custom.run_tracks ha hi hp ho hs hf ops (Custom.tracks_new C scan) hl hr
  obtain ⟨w', o', e, hst'⟩ := Custom.step_ok ha hi hp hs hf ht.holds .process trivial
  rw [hst] at e
  cases e
  obtain ⟨hfed, hha, hrest⟩ := hst'
  cases hw : v.handler with
  | none => exact absurd (hha.trans hw) hh
  | some hd =>
    simp only [hw] at hrest
    obtain ⟨ns, r, hpar, hb, htr, _⟩ := hrest
    have hall : Parses C scan w.fed (ms ++ ns) r := by
      rw [hfed]
      have := ht.rest (ys := []) (ns := ns) (q := r) (by simpa using hpar)
      simpa using this
    rw [Custom.buffered_eq hb]
    refine ⟨ms ++ ns, hall, ?_, fun ms' r' h' => Custom.parses_unique h' hall⟩
    rw [htr, List.map_append, ht.calls, List.map_append, List.map_map]
    congr 1

/-- Messages that the sender encodes so that the scan finds them all arrive, in order, whatever the pieces,
and nothing else does. -/
theorem C84_round_trip (hi : Implements C scan) (hp : Proper C scan) (ho : Online scan)
    (ha : Arith B (customCapacity C)) (hs : B.debug = true → Settled scan) (hf : customCapacity C < fuel)
    (h : Custom.Reached B fuel (ops ++ [.process]) w os) (hh : w.handler ≠ none) {enc : Msg → List Byte}
    {ms : List Msg} (he : ∀ m ∈ ms, Encodes C scan enc m) (hfed : w.fed = (ms.map enc).flatten) :
    w.trace.map (fun i => (i.msg, i.args)) = ms.map (customMeaning C) ∧ w.buffered = [] := by
  have hnil : scan [] = (0, none) := by
    have h1 := hp.within []
    cases hx : scan [] with
    | mk n found =>
      rw [hx] at h1
      cases found with
      | none => simp at h1; rw [h1]
      | some id =>
        obtain ⟨k, hk, hle⟩ := hp.whole [] n id hx
        have := Custom.lengthAt_pos hp hk
        simp at hle
        omega
  have key : ∀ ms : List Msg, (∀ m ∈ ms, Encodes C scan enc m) →
      Parses C scan (ms.map enc).flatten ms [] := by
    intro ms
    induction ms with
    | nil => intro _; exact Parses.stop hnil
    | cons m ms ih =>
      intro he
      obtain ⟨hfound, hlen, hpay, t, ht, hl⟩ := he m (by simp)
      have ih := ih fun m' hm' => he m' (by simp [hm'])
      simp only [List.map_cons, List.flatten_cons]
      have hkt : C.overhead + payloadSize t = (enc m).length := by simpa [lengthAt, ht] using hlen
      have hof := hp.offset
      have := Parses.take (hfound (ms.map enc).flatten) ht (ms := ms) (r := [])
        (by rw [Nat.zero_add, hkt, List.drop_left]; exact ih)
      rw [Nat.zero_add, List.drop_append_of_le_length (by omega), ← hl,
        List.take_append_of_le_length (by simp; omega), hpay] at this
      exact this
  obtain ⟨ns, _, htr, huniq⟩ := C84_stream hi hp ho ha hs hf h hh
  obtain ⟨rfl, hr⟩ := huniq ms [] (by rw [hfed]; exact key ms he)
  exact ⟨htr, hr.symm⟩

/-- The shipped envelopes are of this kind: their checks do what a program over the interface does, which
implements a scan that meets all the conditions and finds what the sender encodes; and repeated scans give
the decoding of C20. -/
theorem C84_shipped (C : Collection) : ∃ scan : Scan, Implements C.asCustom scan ∧
    Proper C.asCustom scan ∧ Settled scan ∧ Online scan ∧
    (∀ m, IsMsg C m → Encodes C.asCustom scan (frame C.envelope) m) ∧
    (∀ s ms r, Parses C.asCustom scan s ms r ↔ Decodes C s ms r) ∧
    (recvBufferSize C < 2 ^ 64 → ∀ (e : ERB C) (xs : List Byte), e.Holds xs → ∃ e' found b cur,
      (∀ B, e.checkBufferForMessage B = .ok (e', found)) ∧
      (∀ B, (⟨e.currentMessageId, e.buf⟩ : CBuf (recvBufferSize C)).exec B C.messages.length
        (getMessageLength C) C.asCustom.code = .ok (⟨cur, b⟩, found)) ∧
      (∃ ys, e'.Holds ys ∧ b.Holds ys) ∧ (found = true → cur = e'.currentMessageId)) := by
  refine ⟨shippedScan C, shipped_implements C, shipped_proper C, shipped_settled C, shipped_online C, ?_,
    fun s ms r => shipped_parses, fun hc e xs h => shipped_check hc h⟩
  intro m hm
  obtain ⟨t, ht, hl⟩ := id hm
  obtain ⟨tail, htail⟩ := frame_split C.envelope m
  refine ⟨fun ys => shippedScan_eq (by simp) ⟨by simpa using Run.refl _, m, ys, hm, by simp, rfl⟩,
    by rw [asCustom_lengthAt]; exact hm.announced, ?_, t, ht, hl⟩
  have hoff : C.asCustom.dataOffset = 3 := dataOffset_eq _
  rw [htail, hoff]
  simp

/-- Decide legality of a concrete history. -/
def legalB (B : Build) (fuel : Nat) : C.World → List Custom.COp → Bool
  | _, [] => true
  | w, op :: ops =>
    (match op with
      | .append xs => decide (xs.length ≤ w.space)
      | _ => true) &&
    match w.step B fuel op with
    | .ok (w', _) => legalB B fuel w' ops
    | .error _ => true

theorem legalB_sound {ops : List Custom.COp} : ∀ {w : C.World}, legalB B fuel w ops = true → w.Legal B fuel ops := by
  induction ops with
  | nil => intro w _; trivial
  | cons op ops ih =>
    intro w h
    unfold legalB at h
    rw [Bool.and_eq_true] at h
    refine ⟨?_, fun w' o e => ?_⟩
    · have := h.1
      cases op with
      | append xs => simpa using this
      | _ => trivial
    · have := h.2
      rw [e] at this
      exact ih this

/-- A concrete history and a test of where it leads. -/
theorem reachedB {ops : List Custom.COp} (p : C.World → Bool)
    (h : (legalB B fuel (Custom.World.new C) ops && match (Custom.World.new C).run B fuel ops with
      | .ok (w, _) => p w
      | .error _ => false) = true) : ∃ w os, Custom.Reached B fuel ops w os ∧ p w = true := by
  rw [Bool.and_eq_true] at h
  obtain ⟨h1, h2⟩ := h
  cases hr : (Custom.World.new C).run B fuel ops with
  | error f => simp [hr] at h2
  | ok y => exact ⟨y.1, y.2, ⟨legalB_sound h1, hr⟩, by simpa [hr] using h2⟩

/-- The assertion in `popMessage` calls the check a second time: if that finds nothing, builds with assertions
stop. -/
theorem C84_second_look (hi : Implements C scan) (hp : Proper C scan) (ha : Arith B (customCapacity C))
    {xs : List Byte} {hd : Handler} {n : Nat} {id : Byte} (hb : B.debug = true)
    (hx : xs.length ≤ customCapacity C) (h1 : scan xs = (n, some id)) (h2 : (scan (xs.drop n)).2 = none)
    (hf : 0 < fuel) :
    (Custom.World.new C).Legal B fuel [.setHandler hd, .append xs, .process] ∧
    (Custom.World.new C).run B fuel [.setHandler hd, .append xs, .process] = .error .abort := by
  rw [← Custom.capacity_eq] at ha hx
  obtain ⟨fuel, rfl⟩ : ∃ k, fuel = k + 1 := ⟨fuel - 1, by omega⟩
  have hnew := Custom.holds_new C
  have hsp : xs.length ≤ (Custom.World.new C).space := by
    rw [Custom.space_eq ha.lt64 hnew]; simpa using hx
  obtain ⟨b, e, hh⟩ := hnew.pushBackRange_ok ha.lt64 (ys := xs) (by simpa using hx)
  have hsp' : xs.length ≤ ({ Custom.World.new C with handler := some hd } : C.World).space := hsp
  refine ⟨⟨trivial, fun w1 o1 e1 => ?_⟩, ?_⟩
  · simp only [Custom.World.step, Except.ok.injEq, Prod.mk.injEq] at e1
    obtain ⟨rfl, rfl⟩ := e1
    exact ⟨hsp', fun _ _ _ => ⟨trivial, fun _ _ _ => trivial⟩⟩
  · have hab := Custom.processLoop_abort (w := { Custom.World.new C with
        handler := some hd, recv := ⟨none, b⟩, fed := xs }) ha.lt64 hi hp hb (by simpa using hh) rfl h1 h2
        fuel 0
    have e' : RB.pushBackRange B (Custom.World.new C).recv.buf xs = .ok b := e B ha
    have hcur : (Custom.World.new C).recv.currentMessageId = none := rfl
    have hfed : (Custom.World.new C).fed ++ xs = xs := rfl
    simp only [Custom.World.run, Custom.World.step, ok_bind, e', pure_eq_ok, hcur, hfed,
      Custom.World.processMessages, Option.isNone_some, Bool.false_eq_true, if_false]
    rw [hab]
    rfl

example : (Custom.World.new (Demo.demo true false)).run ⟨true, 32⟩ 20
    [.setHandler ⟨.functor, 0⟩, .append [0xAA, 0x00, 0x07], .process] = .error .abort :=
  (C84_second_look (B := ⟨true, 32⟩) (fuel := 20) (n := 1) (id := 0x00) (scan := Demo.scan true false)
    Demo.implements_ Demo.proper ⟨by decide +kernel, by decide +kernel⟩ rfl (by decide +kernel) (by decide +kernel)
    (by decide +kernel) (by omega)).2

/-- The assertion in `popMessage` calls the check a second time. An envelope that removes the sync byte when
it reports a message works in builds without assertions, and fails with them. -/
theorem C84_settled_witness :
    Implements (Demo.demo true false) (Demo.scan true false) ∧
    Proper (Demo.demo true false) (Demo.scan true false) ∧ Online (Demo.scan true false) ∧
    ¬ Settled (Demo.scan true false) ∧
    (∃ w os, Custom.Reached (C := Demo.demo true false) ⟨false, 32⟩ 20
      [.setHandler ⟨.functor, 0⟩, .append [0xAA, 0x00, 0x07], .process] w os ∧
      w.trace = [⟨⟨.functor, 0⟩, ⟨0, [.uint8]⟩, [[0x07]]⟩]) ∧
    (Custom.World.new (Demo.demo true false)).Legal ⟨true, 32⟩ 20
      [.setHandler ⟨.functor, 0⟩, .append [0xAA, 0x00, 0x07], .process] ∧
    (Custom.World.new (Demo.demo true false)).run ⟨true, 32⟩ 20
      [.setHandler ⟨.functor, 0⟩, .append [0xAA, 0x00, 0x07], .process] = .error .abort := by
  refine ⟨Demo.implements_, Demo.proper, Demo.online, ?_, ?_, legalB_sound (by decide +kernel), ?_⟩
  · intro h
    have := h [0xAA, 0x00, 0x07] 1 0x00 (by decide +kernel)
    revert this
    decide +kernel
  · obtain ⟨w, os, h, e⟩ := reachedB (C := Demo.demo true false) (B := ⟨false, 32⟩) (fuel := 20)
      (ops := [.setHandler ⟨.functor, 0⟩, .append [0xAA, 0x00, 0x07], .process])
      (fun w => decide (w.trace = [⟨⟨.functor, 0⟩, ⟨0, [.uint8]⟩, [[0x07]]⟩])) (by decide +kernel)
    exact ⟨w, os, h, by simpa using e⟩
  · have h : (match (Custom.World.new (Demo.demo true false)).run ⟨true, 32⟩ 20
        [.setHandler ⟨.functor, 0⟩, .append [0xAA, 0x00, 0x07], .process] with
      | .error .abort => true
      | _ => false) = true := by decide +kernel
    revert h
    generalize (Custom.World.new (Demo.demo true false)).run ⟨true, 32⟩ 20
      [.setHandler ⟨.functor, 0⟩, .append [0xAA, 0x00, 0x07], .process] = x
    match x with
    | .ok _ => intro h; cases h
    | .error .ub => intro h; cases h
    | .error .diverge => intro h; cases h
    | .error .abort => intro _; rfl

/-- An envelope that gives up on incomplete messages delivers a message or not depending on how the bytes
were cut. -/
theorem C84_online_witness :
    Implements (Demo.demo false true) (Demo.scan false true) ∧
    Proper (Demo.demo false true) (Demo.scan false true) ∧ Settled (Demo.scan false true) ∧
    ¬ Online (Demo.scan false true) ∧
    (∃ w os, Custom.Reached (C := Demo.demo false true) ⟨true, 32⟩ 20
      ([.setHandler ⟨.functor, 0⟩, .append [0xAA, 0x00, 0x07]] ++ [.process]) w os ∧
      w.fed = [0xAA, 0x00, 0x07] ∧ w.trace = [⟨⟨.functor, 0⟩, ⟨0, [.uint8]⟩, [[0x07]]⟩]) ∧
    (∃ w os, Custom.Reached (C := Demo.demo false true) ⟨true, 32⟩ 20
      ([.setHandler ⟨.functor, 0⟩, .append [0xAA, 0x00], .process, .append [0x07]] ++ [.process]) w os ∧
      w.fed = [0xAA, 0x00, 0x07] ∧ w.trace = []) := by
  refine ⟨Demo.implements_, Demo.proper, Demo.settled, ?_, ?_, ?_⟩
  · intro h
    have := h.skipped [0xAA, 0x00] [0x07] 2 (by decide +kernel)
    revert this
    decide +kernel
  · obtain ⟨w, os, h, e⟩ := reachedB (C := Demo.demo false true) (B := ⟨true, 32⟩) (fuel := 20)
      (ops := [.setHandler ⟨.functor, 0⟩, .append [0xAA, 0x00, 0x07]] ++ [.process])
      (fun w => decide (w.fed = [0xAA, 0x00, 0x07]) &&
        decide (w.trace = [⟨⟨.functor, 0⟩, ⟨0, [.uint8]⟩, [[0x07]]⟩])) (by decide +kernel)
    exact ⟨w, os, h, by simpa using e⟩
  · obtain ⟨w, os, h, e⟩ := reachedB (C := Demo.demo false true) (B := ⟨true, 32⟩) (fuel := 20)
      (ops := [.setHandler ⟨.functor, 0⟩, .append [0xAA, 0x00], .process, .append [0x07]] ++ [.process])
      (fun w => decide (w.fed = [0xAA, 0x00, 0x07]) && decide (w.trace = [])) (by decide +kernel)
    exact ⟨w, os, h, by simpa using e⟩

/-- The envelope without the mistakes meets all the conditions; a stream of two messages in three pieces,
with noise before, as an instance of `C84_safe`, `C84_process` and `C84_stream`. -/
example : ∃ w os, Custom.Reached (C := Demo.demo false false) ⟨true, 32⟩ 20
    ([.setHandler ⟨.functor, 0⟩, .append [0x55, 0xAA, 0x01], .process, .append [0x07, 0x08], .process,
      .append [0x09, 0xAA, 0x00, 0x0A]] ++ [.process]) w os ∧
    w.handler ≠ none ∧ Implements (Demo.demo false false) (Demo.scan false false) ∧
    Proper (Demo.demo false false) (Demo.scan false false) ∧ Online (Demo.scan false false) ∧
    Settled (Demo.scan false false) ∧ Arith ⟨true, 32⟩ (customCapacity (Demo.demo false false)) ∧
    w.trace = [⟨⟨.functor, 0⟩, ⟨1, [.uint8, .pod 0 2]⟩, [[0x07], [0x08, 0x09]]⟩,
      ⟨⟨.functor, 0⟩, ⟨0, [.uint8]⟩, [[0x0A]]⟩] := by
  obtain ⟨w, os, h, e⟩ := reachedB (C := Demo.demo false false) (B := ⟨true, 32⟩) (fuel := 20)
    (ops := [.setHandler ⟨.functor, 0⟩, .append [0x55, 0xAA, 0x01], .process, .append [0x07, 0x08],
      .process, .append [0x09, 0xAA, 0x00, 0x0A]] ++ [.process])
    (fun w => decide (w.handler ≠ none) &&
      decide (w.trace = [⟨⟨.functor, 0⟩, ⟨1, [.uint8, .pod 0 2]⟩, [[0x07], [0x08, 0x09]]⟩,
        ⟨⟨.functor, 0⟩, ⟨0, [.uint8]⟩, [[0x0A]]⟩])) (by decide +kernel)
  rw [Bool.and_eq_true] at e
  exact ⟨w, os, h, by simpa using e.1, Demo.implements_, Demo.proper, Demo.online, Demo.settled,
    ⟨by decide +kernel, by decide +kernel⟩, by simpa using e.2⟩

/-- `C84_round_trip`: the demonstration envelope's own encoding, in two pieces. -/
example : ∃ w os, Custom.Reached (C := Demo.demo false false) ⟨true, 32⟩ 20
    ([.setHandler ⟨.functor, 0⟩, .append [0xAA, 0x00], .process, .append [0xAA, 0xAA, 0x00, 0x05]]
      ++ [.process]) w os ∧ w.handler ≠ none ∧
    w.fed = (([⟨0x00, [0xAA]⟩, ⟨0x00, [0x05]⟩] : List Msg).map fun m => 0xAA :: m.id :: m.payload).flatten ∧
    (∀ m ∈ ([⟨0x00, [0xAA]⟩, ⟨0x00, [0x05]⟩] : List Msg), Encodes (Demo.demo false false)
      (Demo.scan false false) (fun m => 0xAA :: m.id :: m.payload) m) ∧ w.trace.length = 2 := by
  obtain ⟨w, os, h, e⟩ := reachedB (C := Demo.demo false false) (B := ⟨true, 32⟩) (fuel := 20)
    (ops := [.setHandler ⟨.functor, 0⟩, .append [0xAA, 0x00], .process, .append [0xAA, 0xAA, 0x00, 0x05]]
      ++ [.process])
    (fun w => decide (w.handler ≠ none) && decide (w.trace.length = 2) &&
      decide (w.fed = [0xAA, 0x00, 0xAA, 0xAA, 0x00, 0x05])) (by decide +kernel)
  rw [Bool.and_eq_true, Bool.and_eq_true] at e
  refine ⟨w, os, h, by simpa using e.1.1, by simpa using e.2, ?_, by simpa using e.1.2⟩
  intro m hm
  have hid : m.id = 0x00 := by simp at hm; rcases hm with rfl | rfl <;> rfl
  refine Demo.encodes (t := ⟨0, [.uint8]⟩) (by rw [hid]; rfl) ?_
  simp at hm
  rcases hm with rfl | rfl <;> rfl

end TT.Properties
