import Verif.Properties.Peers
import Verif.Properties.Shipped

/-!
# Properties C91 (gateways between protocols) and C92 (several senders on one line)
-/

namespace TT.Properties
open Spec

variable {C D : Collection} {B : Build} {user : UserCode} {fuel : Nat}

/-! ### C91 -/

/-- C91, which calls can be passed on to another collection: exactly those for a message type of that collection. For
others the forwarding `send` does not compile. -/
theorem C91_compiles (hl : D.messages.length ≤ 255) (S : Setting C B user) {ops : List Op} {w : World C}
    {os : List Obs} (h : Reached B user fuel ops w os) {i : Invocation} (hi : i ∈ w.trace) {σ : Type} (T : Tx σ) (s : σ) :
    (i.msg ∈ D.messages → (forward D i).Good D ∧ (forward D i).vs.map (·.bytes) = i.args) ∧
    ((send D i.msg T s (forward D i).vs).isSome ↔ i.msg ∈ D.messages) := by
  obtain ⟨_, m, _, hm, _, hs⟩ := reached_onPath S h i hi
  obtain ⟨t, ht, hp⟩ := hm
  have h1 : i.msg = t := by
    have := congrArg Prod.fst hs
    simpa [seen, meaning, ht] using this
  have h2 : i.args = splitFields t.fields m.payload := by
    have := congrArg Prod.snd hs
    simpa [seen, meaning, ht] using this
  obtain ⟨a1, a2, a3, _⟩ := splitFields_sound t.fields m.payload hp
  have a1' : (forward D i).vs.map (·.ty) = i.msg.fields := by simp only [forward]; rw [h1, h2, a1]
  refine ⟨fun hmem => ⟨⟨rfl, ⟨hl, hmem, a1'⟩, ?_⟩, ?_⟩, ?_⟩
  · simp only [forward]; rw [h1, h2]; exact a3
  · simp only [forward]; rw [h1, h2, a2]
  · rw [C01_compiles_iff]
    exact ⟨fun h => h.2.1, fun h => ⟨hl, h, a1'⟩⟩

/-- C91. A program receives with one collection and passes on, with another one, all messages of types that are in both:
the ids, the envelope, the order and number of types may differ. Whatever the stream, the history and the handlers of
the receiver are, the forwarding calls succeed, and a receiver of the other collection that is given the bytes delivers
exactly the calls for these types, in order, with the same contents. -/
theorem C91_gateway {σ : Type} {T : Tx σ} {log : σ → List Byte} (hT : Faithful T log)
    (hl : D.messages.length ≤ 255) (S : Setting C B user) {ops : List Op} {w : World C} {os : List Obs}
    (h : Reached B user fuel ops w os) (s : σ) :
    ∃ s' bytes, sendAll T s ((w.trace.filter fun i => i.msg ∈ D.messages).map (forward D)) = some (.ok s') ∧
      log s' = log s ++ bytes ∧
      ∀ (B2 : Build) (user2 : UserCode) (fuel2 : Nat) (ops2 : List Op) (w2 : World D) (os2 : List Obs),
        Setting D B2 user2 → NeverThrows user2 → Reached B2 user2 fuel2 (ops2 ++ [.process]) w2 os2 →
        w2.rx.hasHandler = true → w2.fed = bytes →
        delivered w2 = (delivered w).filter (fun c => c.1 ∈ D.messages) ∧ buffered w2 = [] := by
  have hg : ∀ r ∈ (w.trace.filter fun i => i.msg ∈ D.messages).map (forward D), r.Good D := by
    intro r hr
    obtain ⟨i, hi, rfl⟩ := List.mem_map.mp hr
    rw [List.mem_filter] at hi
    exact ((C91_compiles hl S h hi.1 T s).1 (by simpa using hi.2)).1
  obtain ⟨s', h1, h2⟩ := sendAll_faithful hT _ hg s
  refine ⟨s', _, h1, h2, ?_⟩
  intro B2 user2 fuel2 ops2 w2 os2 S2 hn2 hr hh hfed
  obtain ⟨e1, e2⟩ := arrives_frames hg B2 user2 fuel2 ops2 w2 os2 S2 hn2 hr hh hfed
  refine ⟨?_, e2⟩
  rw [e1, List.map_map]
  unfold delivered
  rw [List.filter_map]
  refine List.map_congr_left fun i hi => ?_
  rw [List.mem_filter] at hi
  have := ((C91_compiles hl S h hi.1 T s).1 (by simpa using hi.2)).2
  simp only [Function.comp, this, seen]
  rfl

/-- C91, from end to end: messages sent with one collection, passed on by a gateway, received with another collection. All
messages of types that are in both arrive, in order, with the contents sent. -/
theorem C91_end_to_end {σ : Type} {T : Tx σ} {log : σ → List Byte} (hT : Faithful T log)
    (hl : D.messages.length ≤ 255) (S : Setting C B user) (hn : NeverThrows user)
    (rs : List Request) (hrs : ∀ r ∈ rs, r.Good C) {ops : List Op} {w : World C} {os : List Obs}
    (h : Reached B user fuel (ops ++ [.process]) w os) (hh : w.rx.hasHandler = true)
    (hfed : sendAll vectorBuffer [] rs = some (.ok w.fed)) (s : σ) :
    ∃ s' bytes, sendAll T s ((w.trace.filter fun i => i.msg ∈ D.messages).map (forward D)) = some (.ok s') ∧
      log s' = log s ++ bytes ∧
      ∀ (B2 : Build) (user2 : UserCode) (fuel2 : Nat) (ops2 : List Op) (w2 : World D) (os2 : List Obs),
        Setting D B2 user2 → NeverThrows user2 → Reached B2 user2 fuel2 (ops2 ++ [.process]) w2 os2 →
        w2.rx.hasHandler = true → w2.fed = bytes →
        delivered w2 = (rs.filter fun r => r.t ∈ D.messages).map (fun r => (r.t, r.vs.map (·.bytes))) := by
  obtain ⟨s', bytes, h1, h2, h3⟩ := C91_gateway (D := D) hT hl S h s
  refine ⟨s', bytes, h1, h2, fun B2 user2 fuel2 ops2 w2 os2 S2 hn2 hr hh2 hf => ?_⟩
  obtain ⟨e, _⟩ := h3 B2 user2 fuel2 ops2 w2 os2 S2 hn2 hr hh2 hf
  obtain ⟨e', _⟩ := C25_round_trip vectorBuffer_faithful S hn rs hrs [] w.fed hfed h hh (by simp)
  rw [e, e', List.filter_map]
  rfl

/-- A collection that shares two of the three sample types with the others, at other positions. -/
def otherSide : Collection := ⟨[⟨9, [.pod 5 3]⟩, Sample.pose, Sample.ping], .basic⟩

/-- It happens: the three messages of C25 in the checked envelope, `pose` and `ping` passed on with ids 1 and 2 in the
other envelope, both received there. -/
example : ∃ (w : World Sample.checked) (os : List Obs) (bytes : List Byte) (w2 : World otherSide) (os2 : List Obs),
    Reached Sample.dbg Sample.passive 50 (session3 ++ [.process]) w os ∧
    (delivered w).length = 3 ∧
    sendAll vectorBuffer [] ((w.trace.filter fun i => i.msg ∈ otherSide.messages).map (forward otherSide)) =
      some (.ok bytes) ∧
    Reached Sample.dbg Sample.passive 50 ([.setHandler Sample.h0, .append bytes] ++ [.process]) w2 os2 ∧
    delivered w2 = (delivered w).filter (fun c => c.1 ∈ otherSide.messages) ∧ (delivered w2).length = 2 := by
  obtain ⟨w, os, h, hp⟩ := Sample.reached (C := Sample.checked) (B := Sample.dbg)
    (user := Sample.passive) (fuel := 50) (ops := session3 ++ [.process])
    (fun w _ => decide ((delivered w).length = 3) && decide (
      sendAll vectorBuffer [] ((w.trace.filter fun i => i.msg ∈ otherSide.messages).map (forward otherSide)) =
        some (.ok (frames .basic [⟨2, []⟩, ⟨1, Sample.mPose.payload⟩])))) (by decide +kernel)
  simp only [Bool.and_eq_true, decide_eq_true_eq] at hp
  obtain ⟨w2, os2, h2, hp2⟩ := Sample.reached (C := otherSide) (B := Sample.dbg)
    (user := Sample.passive) (fuel := 50)
    (ops := [.setHandler Sample.h0, .append (frames .basic [⟨2, []⟩, ⟨1, Sample.mPose.payload⟩])] ++ [.process])
    (fun w _ => w.rx.hasHandler && decide ((delivered w).length = 2)) (by decide +kernel)
  simp only [Bool.and_eq_true, decide_eq_true_eq] at hp2
  have S2 : Setting otherSide Sample.dbg Sample.passive := ⟨⟨by decide, by decide⟩, Sample.passive_benign⟩
  have hf2 := C25_fed_is_chunks S2 Sample.passive_quiet (by simp) h2
  obtain ⟨s', bytes, e1, e2, e3⟩ := C91_gateway (D := otherSide) vectorBuffer_faithful (by decide)
    Sample.setting_checked h []
  rw [hp.2] at e1
  obtain rfl : _ = s' := by simpa using e1
  refine ⟨w, os, _, w2, os2, h, hp.1, hp.2, h2, ?_, hp2.2⟩
  refine (e3 _ _ _ _ w2 os2 S2 Sample.passive_neverThrows h2 hp2.1 ?_).1
  have e2' : frames .basic [⟨2, []⟩, ⟨1, Sample.mPose.payload⟩] = bytes := e2
  rw [hf2, ← e2']
  rfl

/-- The hypotheses of the statement from end to end are met, too. -/
example : ∃ (w : World Sample.checked) (os : List Obs), Reached Sample.dbg Sample.passive 50 (session3 ++ [.process]) w os ∧
    w.rx.hasHandler = true ∧ sendAll vectorBuffer [] requests3 = some (.ok w.fed) ∧ (∀ r ∈ requests3, r.Good Sample.checked) := by
  obtain ⟨w, os, h, hp⟩ := Sample.reached (C := Sample.checked) (B := Sample.dbg)
    (user := Sample.passive) (fuel := 50) (ops := session3 ++ [.process])
    (fun w _ => w.rx.hasHandler && decide (sendAll vectorBuffer [] requests3 = some (.ok w.fed))) (by decide +kernel)
  simp only [Bool.and_eq_true, decide_eq_true_eq] at hp
  exact ⟨w, os, h, hp.1, hp.2, by decide +kernel⟩

/-! ### C92 -/

/-- `zs` consists of the elements of `xs` and of `ys`, each in their order. -/
inductive Merge {α : Type} : List α → List α → List α → Prop
  | nil : Merge [] [] []
  | left {x xs ys zs} : Merge xs ys zs → Merge (x :: xs) ys (x :: zs)
  | right {y xs ys zs} : Merge xs ys zs → Merge xs (y :: ys) (y :: zs)

theorem Merge.map {α β : Type} (f : α → β) {xs ys zs : List α} (h : Merge xs ys zs) :
    Merge (xs.map f) (ys.map f) (zs.map f) := by
  induction h with
  | nil => exact .nil
  | left _ ih => exact .left ih
  | right _ ih => exact .right ih

theorem Merge.mem {α : Type} {xs ys zs : List α} (h : Merge xs ys zs) {z : α} (hz : z ∈ zs) : z ∈ xs ∨ z ∈ ys := by
  induction h with
  | nil => simp at hz
  | left _ ih => simp only [List.mem_cons] at hz ⊢; rcases hz with rfl | hz <;> simp_all [or_assoc]
  | right _ ih =>
    simp only [List.mem_cons] at hz ⊢
    rcases hz with rfl | hz
    · simp
    · rcases ih hz with h | h <;> simp [h]

/-- A merge of images is the image of a merge. -/
theorem Merge.of_map {α β : Type} (f : α → β) {xs ys : List α} {zs : List β}
    (h : Merge (xs.map f) (ys.map f) zs) : ∃ ws, Merge xs ys ws ∧ zs = ws.map f := by
  generalize hx : xs.map f = xs' at h
  generalize hy : ys.map f = ys' at h
  induction h generalizing xs ys with
  | nil =>
    obtain rfl := List.map_eq_nil_iff.mp hx
    obtain rfl := List.map_eq_nil_iff.mp hy
    exact ⟨[], .nil, rfl⟩
  | left _ ih =>
    obtain ⟨x, xs1, rfl, rfl, hx'⟩ := List.map_eq_cons_iff.mp hx
    obtain ⟨ws, h1, rfl⟩ := ih hx' hy
    exact ⟨x :: ws, .left h1, rfl⟩
  | right _ ih =>
    obtain ⟨y, ys1, rfl, rfl, hy'⟩ := List.map_eq_cons_iff.mp hy
    obtain ⟨ws, h1, rfl⟩ := ih hx hy'
    exact ⟨y :: ws, .right h1, rfl⟩

/-- C92, whole messages. Two senders whose bytes get onto one line message by message, in any order: the handler calls are
the messages of both, each sender's in the order sent, nothing else. -/
theorem C92_messages (S : Setting C B user) (hn : NeverThrows user) (rs rs' : List Request)
    (hrs : ∀ r ∈ rs, r.Good C) (hrs' : ∀ r ∈ rs', r.Good C) {line : List (List Byte)}
    (hline : Merge (rs.map fun r => wire r.C r.t r.vs) (rs'.map fun r => wire r.C r.t r.vs) line)
    {ops : List Op} {w : World C} {os : List Obs} (h : Reached B user fuel (ops ++ [.process]) w os)
    (hh : w.rx.hasHandler = true) (hfed : w.fed = line.flatten) :
    Merge (rs.map fun r => (r.t, r.vs.map (·.bytes))) (rs'.map fun r => (r.t, r.vs.map (·.bytes))) (delivered w) ∧
      buffered w = [] := by
  obtain ⟨ws, hm, rfl⟩ := hline.of_map
  have hws : ∀ r ∈ ws, r.Good C := fun r hr => (hm.mem hr).elim (hrs r) (hrs' r)
  obtain ⟨e1, e2⟩ := arrives_frames hws B user fuel ops w os S hn h hh (by
    rw [hfed, frames, List.map_map]
    exact congrArg List.flatten (List.map_congr_left fun r hr => (hws r hr).wire))
  exact ⟨by rw [e1]; exact hm.map _, e2⟩

/-- C92, I2C: two `ArduinoI2C` transmitters make one transaction for each message, so whatever the order in which the
transactions of both get onto the bus, all messages of both arrive, each sender's in the order sent. -/
theorem C92_i2c (S : Setting C B user) (hn : NeverThrows user) (rs rs' : List Request)
    (hrs : ∀ r ∈ rs, r.Good C) (hrs' : ∀ r ∈ rs', r.Good C)
    (hl : ∀ r ∈ rs, sizeofBound C r.t ≤ 255) (hl' : ∀ r ∈ rs', sizeofBound C r.t ≤ 255) :
    ∃ s s', sendAll arduinoI2C ⟨ArrayBuf.new 255, []⟩ rs = some (.ok s) ∧
      sendAll arduinoI2C ⟨ArrayBuf.new 255, []⟩ rs' = some (.ok s') ∧
      ∀ (bus : List (List Byte)) (ops : List Op) (w : World C) (os : List Obs), Merge s.wire s'.wire bus →
        Reached B user fuel (ops ++ [.process]) w os → w.rx.hasHandler = true → w.fed = bus.flatten →
        Merge (rs.map fun r => (r.t, r.vs.map (·.bytes))) (rs'.map fun r => (r.t, r.vs.map (·.bytes))) (delivered w) ∧
          buffered w = [] := by
  have go : ∀ rs : List Request, (∀ r ∈ rs, r.Good C) → (∀ r ∈ rs, sizeofBound C r.t ≤ 255) →
      ∃ s, sendAll arduinoI2C ⟨ArrayBuf.new 255, []⟩ rs = some (.ok s) ∧
        s.wire = rs.map fun r => wire r.C r.t r.vs := by
    intro rs hrs hl
    obtain ⟨s, h1, h2⟩ := C48_i2c_sequence ⟨ArrayBuf.new 255, []⟩ ⟨rfl, List.length_replicate⟩ rs
      (fun r hr => by rw [(hrs r hr).1]; exact (hrs r hr).2.1)
      (fun r hr => by rw [(hrs r hr).wire, (hrs r hr).length]; exact hl r hr)
    exact ⟨s, h1, by simpa using h2⟩
  obtain ⟨s, h1, h2⟩ := go rs hrs hl
  obtain ⟨s', h3, h4⟩ := go rs' hrs' hl'
  refine ⟨s, s', h1, h3, fun bus ops w os hm h hh hfed => ?_⟩
  rw [h2, h4] at hm
  exact C92_messages S hn rs rs' hrs hrs' hm h hh hfed

/-- The merge that takes from the left list where `pick` is true. -/
def mergeBy {α : Type} : List Bool → List α → List α → List α
  | true :: p, x :: xs, ys => x :: mergeBy p xs ys
  | false :: p, xs, y :: ys => y :: mergeBy p xs ys
  | _, xs, ys => xs ++ ys

theorem merge_append {α : Type} : ∀ xs ys : List α, Merge xs ys (xs ++ ys)
  | [], [] => .nil
  | [], _ :: ys => .right (merge_append [] ys)
  | _ :: xs, ys => .left (merge_append xs ys)

theorem mergeBy_merge {α : Type} (p : List Bool) : ∀ xs ys : List α, Merge xs ys (mergeBy p xs ys) := by
  induction p with
  | nil => intro xs ys; unfold mergeBy; exact merge_append xs ys
  | cons b p ih =>
    intro xs ys
    cases b with
    | true =>
      cases xs with
      | nil => unfold mergeBy; exact merge_append [] ys
      | cons x xs => unfold mergeBy; exact .left (ih xs ys)
    | false =>
      cases ys with
      | nil => unfold mergeBy; exact merge_append xs []
      | cons y ys => unfold mergeBy; exact .right (ih xs ys)

/-- C92, serial ports: these transmitters write a message in many pieces. If the writes of two senders to one port
alternate, messages of both are lost: a `level` and a `ping`, no handler is called, and what is left in the buffer has no
start of a message. -/
theorem C92_port_loss_witness :
    ∃ (p q line : List (List Byte)) (w : World Sample.basic) (os : List Obs),
      sendAll portTransmitter [] [⟨Sample.basic, Sample.level, [⟨.uint8, [7]⟩]⟩] = some (.ok p) ∧
      sendAll portTransmitter [] [⟨Sample.basic, Sample.ping, []⟩] = some (.ok q) ∧
      Merge p q line ∧
      Reached Sample.dbg Sample.passive 50 ([.setHandler Sample.h0, .append line.flatten] ++ [.process]) w os ∧
      w.fed = line.flatten ∧ delivered w = [] ∧ 1 ∉ buffered w := by
  obtain ⟨w, os, h, hp⟩ := Sample.reached (C := Sample.basic) (B := Sample.dbg) (user := Sample.passive) (fuel := 50)
    (ops := [.setHandler Sample.h0, .append
      (mergeBy [true, false, true, false, true, false, true, false, true, false]
        [[1], [1], [2], [7], [3], [4]] [[1], [0], [2], [3], [4]]).flatten] ++ [.process])
    (fun w _ => decide (w.fed = (mergeBy [true, false, true, false, true, false, true, false, true, false]
        [[1], [1], [2], [7], [3], [4]] [[1], [0], [2], [3], [4]]).flatten) &&
      decide (delivered w = []) && decide (1 ∉ buffered w)) (by decide +kernel)
  simp only [Bool.and_eq_true, decide_eq_true_eq] at hp
  exact ⟨_, _, _, w, os, by decide +kernel, by decide +kernel, mergeBy_merge _ _ _, h, hp.1.1, hp.1.2, hp.2⟩

/-- C92, serial ports: alternating writes may even make a message nobody sent. One sender sends `level` with 7, the other
sends `ping`; the receiver calls the handler for `level` with 2, and for nothing else. -/
theorem C92_port_forgery_witness :
    ∃ (p q line : List (List Byte)) (w : World Sample.basic) (os : List Obs),
      sendAll portTransmitter [] [⟨Sample.basic, Sample.level, [⟨.uint8, [7]⟩]⟩] = some (.ok p) ∧
      sendAll portTransmitter [] [⟨Sample.basic, Sample.ping, []⟩] = some (.ok q) ∧
      Merge p q line ∧
      Reached Sample.dbg Sample.passive 50 ([.setHandler Sample.h0, .append line.flatten] ++ [.process]) w os ∧
      w.fed = line.flatten ∧ delivered w = [(Sample.level, [[2]])] := by
  obtain ⟨w, os, h, hp⟩ := Sample.reached (C := Sample.basic) (B := Sample.dbg) (user := Sample.passive) (fuel := 50)
    (ops := [.setHandler Sample.h0, .append
      (mergeBy [false, false, true, true, true, false, false, false]
        [[1], [1], [2], [7], [3], [4]] [[1], [0], [2], [3], [4]]).flatten] ++ [.process])
    (fun w _ => decide (w.fed = (mergeBy [false, false, true, true, true, false, false, false]
        [[1], [1], [2], [7], [3], [4]] [[1], [0], [2], [3], [4]]).flatten) &&
      decide (delivered w = [(Sample.level, [[2]])])) (by decide +kernel)
  simp only [Bool.and_eq_true, decide_eq_true_eq] at hp
  exact ⟨_, _, _, w, os, by decide +kernel, by decide +kernel, mergeBy_merge _ _ _, h, hp.1, hp.2⟩

/-- Three messages of one sender and one of another, the latter on the bus after the first. -/
def mixedBus : List (List Byte) :=
  mergeBy [true, false] (requests3.map fun r => wire r.C r.t r.vs)
    [wire Sample.checked Sample.level [⟨.uint8, [9]⟩]]

/-- The hypotheses are met: three messages of one sender and one of another, mixed, on one bus. -/
example : ∃ (s s' : I2CState) (bus : List (List Byte)) (w : World Sample.checked) (os : List Obs),
    sendAll arduinoI2C ⟨ArrayBuf.new 255, []⟩ requests3 = some (.ok s) ∧
    sendAll arduinoI2C ⟨ArrayBuf.new 255, []⟩ [⟨Sample.checked, Sample.level, [⟨.uint8, [9]⟩]⟩] = some (.ok s') ∧
    Merge s.wire s'.wire bus ∧
    Reached Sample.dbg Sample.passive 50 ([.setHandler Sample.h0, .append (bus.flatten.take 9), .process,
      .append (bus.flatten.drop 9)] ++ [.process]) w os ∧
    w.rx.hasHandler = true ∧ w.fed = bus.flatten ∧ (delivered w).length = 4 := by
  obtain ⟨s, s', h1, h2, h3⟩ := C92_i2c (fuel := 50) Sample.setting_checked Sample.passive_neverThrows requests3
    [⟨Sample.checked, Sample.level, [⟨.uint8, [9]⟩]⟩] (by decide +kernel) (by decide +kernel) (by decide +kernel)
    (by decide +kernel)
  have hb : ((sendAll arduinoI2C ⟨ArrayBuf.new 255, []⟩ requests3).bind fun r => (sendAll arduinoI2C
      ⟨ArrayBuf.new 255, []⟩ [⟨Sample.checked, Sample.level, [⟨.uint8, [9]⟩]⟩]).map fun r' =>
      (r.toOption.map (·.wire), r'.toOption.map (·.wire))) =
      some (some (requests3.map fun r => wire r.C r.t r.vs), some [wire Sample.checked Sample.level [⟨.uint8, [9]⟩]]) := by decide +kernel
  rw [h1, h2] at hb
  simp only [Option.bind_some, Option.map_some, Except.toOption, Option.some.injEq, Prod.mk.injEq] at hb
  have hm : Merge s.wire s'.wire mixedBus := by
    rw [hb.1, hb.2]
    exact mergeBy_merge _ _ _
  obtain ⟨w, os, h, hp⟩ := Sample.reached (C := Sample.checked) (B := Sample.dbg) (user := Sample.passive) (fuel := 50)
    (ops := [.setHandler Sample.h0, .append (mixedBus.flatten.take 9), .process,
      .append (mixedBus.flatten.drop 9)] ++ [.process])
    (fun w _ => w.rx.hasHandler && decide (w.fed = mixedBus.flatten) &&
      decide ((delivered w).length = 4)) (by decide +kernel)
  simp only [Bool.and_eq_true, decide_eq_true_eq] at hp
  exact ⟨s, s', _, w, os, h1, h2, hm, h, hp.1.1, hp.1.2, hp.2⟩

end TT.Properties
