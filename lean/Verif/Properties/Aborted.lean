import Verif.Model.Throwing
import Verif.Properties.Recovery
import Verif.Properties.Send

/-!
# Sends that a throwing transmitter aborts: C74
-/

namespace TT.Properties
open Spec

variable {σ : Type}

/-- One output on a transmitter that may throw. -/
def throwOn (X : ThrowTx σ) (s : σ) : Out → σ × Bool
  | .byte b => X.writeByte s b
  | .block bs => X.write s bs
  | .finished => X.writeFinished s

/-- `s'` is reached from `s` by these outputs, none of which throws. -/
def Untroubled (X : ThrowTx σ) : σ → List Out → σ → Prop
  | s, [], s' => s' = s
  | s, o :: os, s' => (throwOn X s o).2 = false ∧ Untroubled X (throwOn X s o).1 os s'

/-- A transmitter that appends what is output to it to a log; a call that throws may have appended the
beginning of its data. -/
structure Honest (X : ThrowTx σ) (log : σ → List Byte) : Prop where
  done : ∀ s o, (throwOn X s o).2 = false → log (throwOn X s o).1 = log s ++ o.bytes
  cut : ∀ s o, (throwOn X s o).2 = true →
    ∃ q, q <+: o.bytes ∧ log (throwOn X s o).1 = log s ++ q

theorem on_tx (X : ThrowTx σ) (s : σ) (o : Out) : o.on X.tx (s, false) = .ok (throwOn X s o) := by
  cases o <;> rfl

theorem feed_thrown (X : ThrowTx σ) (s : σ) (os : List Out) :
    feed X.tx (s, true) os = .ok (s, true) := by
  induction os with
  | nil => rfl
  | cons o os ih =>
    have : o.on X.tx (s, true) = .ok (s, true) := by cases o <;> rfl
    rw [feed, this]
    exact ih

theorem feed_split (X : ThrowTx σ) (os : List Out) : ∀ s, ∃ s' thrown,
    feed X.tx (s, false) os = .ok (s', thrown) ∧
    (thrown = false → Untroubled X s os s') ∧
    (thrown = true → ∃ pre o post s1, os = pre ++ o :: post ∧ Untroubled X s pre s1 ∧
      throwOn X s1 o = (s', true)) := by
  induction os with
  | nil => intro s; exact ⟨s, false, rfl, fun _ => rfl, by simp⟩
  | cons o os ih =>
    intro s
    rw [feed, on_tx]
    rcases hb : throwOn X s o with ⟨s1, b⟩
    cases b
    · obtain ⟨s', th, e, h1, h2⟩ := ih s1
      refine ⟨s', th, e, ?_, ?_⟩
      · intro h
        have := h1 h
        simp only [Untroubled, hb]
        exact ⟨trivial, this⟩
      · intro h
        obtain ⟨pre, o', post, s2, rfl, hu, ht⟩ := h2 h
        refine ⟨o :: pre, o', post, s2, rfl, ?_, ht⟩
        simp only [Untroubled, hb]
        exact ⟨trivial, hu⟩
    · refine ⟨s1, true, feed_thrown X s1 os, by simp, fun _ => ?_⟩
      exact ⟨[], o, os, s, rfl, rfl, hb⟩

/-- C74. A compiling `send` to a transmitter that may throw makes exactly the calls of the message's
script, in order, up to and including the first one that throws, and no further call; in particular
`outputFinished` is not called unless all data calls returned. It throws if and only if one of these
calls does. -/
theorem C74_calls (X : ThrowTx σ) (C : Collection) (t : MsgType) (vs : List Value)
    (h : Sendable C t vs) {id : Byte} (hid : idOf C t id) (s : σ) :
    ∃ s' thrown, sendCaught C t X s vs = some (.ok (s', thrown)) ∧
      (thrown = false → Untroubled X s (script C.envelope id vs) s') ∧
      (thrown = true → ∃ pre o post s1, script C.envelope id vs = pre ++ o :: post ∧
        Untroubled X s pre s1 ∧ throwOn X s1 o = (s', true)) := by
  obtain ⟨s', th, e, h1, h2⟩ := feed_split X (script C.envelope id vs) s
  exact ⟨s', th, by rw [sendCaught, send_eq C t _ _ vs h hid, e], h1, h2⟩

theorem Honest.untroubled {X : ThrowTx σ} {log : σ → List Byte} (H : Honest X log) :
    ∀ (os : List Out) (s s' : σ), Untroubled X s os s' → log s' = log s ++ outBytes os := by
  intro os
  induction os with
  | nil => intro s s' h; rw [show s' = s from h]; simp [outBytes]
  | cons o os ih =>
    intro s s' h
    rw [ih _ _ h.2, H.done _ _ h.1]
    simp [outBytes]

/-- C74. What such a `send` puts on the line is a beginning of the message's bytes, and all of them if
it returns. -/
theorem C74_prefix {X : ThrowTx σ} {log : σ → List Byte} (H : Honest X log) (C : Collection)
    (t : MsgType) (vs : List Value) (h : Sendable C t vs) (s : σ) :
    ∃ s' thrown q, sendCaught C t X s vs = some (.ok (s', thrown)) ∧
      log s' = log s ++ q ∧ q <+: wire C t vs ∧ (thrown = false → q = wire C t vs) := by
  have hid := idOf_idxOf h.1 h.2.1
  obtain ⟨s', th, e, h1, h2⟩ := C74_calls X C t vs h hid s
  cases th
  · refine ⟨s', false, wire C t vs, e, ?_, List.prefix_refl _, fun _ => rfl⟩
    rw [H.untroubled _ _ _ (h1 rfl), outBytes_script]
    rfl
  · obtain ⟨pre, o, post, s1, hs, hu, ht⟩ := h2 rfl
    obtain ⟨q, ⟨r, hq⟩, hl⟩ := H.cut s1 o (by rw [ht])
    rw [ht] at hl
    refine ⟨s', true, outBytes pre ++ q, e, ?_, ?_, by simp⟩
    · rw [show log s' = _ from hl, H.untroubled _ _ _ hu, List.append_assoc]
    · have : wire C t vs = outBytes (script C.envelope (UInt8.ofNat (C.messages.idxOf t)) vs) := by
        rw [outBytes_script]; rfl
      rw [this, hs, outBytes_append]
      refine ⟨r ++ outBytes post, ?_⟩
      simp [outBytes, ← hq]

/-- Make the calls one after the other, each in its own `try` block; also gives which ones threw. -/
def sendEach (X : ThrowTx σ) : σ → List Request → Option (Res (σ × List Bool))
  | s, [] => some (.ok (s, []))
  | s, r :: rs => match sendCaught r.C r.t X s r.vs with
    | none => none
    | some (.error f) => some (.error f)
    | some (.ok (s', b)) => match sendEach X s' rs with
      | some (.ok (s'', bs)) => some (.ok (s'', b :: bs))
      | other => other

/-- C74. A `send` after one that threw is not affected by it: any sequence of such calls puts the
concatenation of beginnings of the messages on the line, complete for each call that returned. -/
theorem C74_sequence {X : ThrowTx σ} {log : σ → List Byte} (H : Honest X log) (rs : List Request)
    (h : ∀ r ∈ rs, Sendable r.C r.t r.vs) (s : σ) :
    ∃ (s' : σ) (bs : List Bool) (qs : List (List Byte)), sendEach X s rs = some (.ok (s', bs)) ∧ log s' = log s ++ qs.flatten ∧
      bs.length = rs.length ∧ qs.length = rs.length ∧
      ∀ (i : Nat) (r : Request) (b : Bool) (q : List Byte), rs[i]? = some r → bs[i]? = some b → qs[i]? = some q →
        q <+: wire r.C r.t r.vs ∧ (b = false → q = wire r.C r.t r.vs) := by
  induction rs generalizing s with
  | nil => exact ⟨s, [], [], rfl, by simp, rfl, rfl, by simp⟩
  | cons r rs ih =>
    obtain ⟨s1, b, q, e, hl, hp, hf⟩ := C74_prefix H r.C r.t r.vs (h r (by simp)) s
    obtain ⟨s', bs, qs, e', hl', h1, h2, h3⟩ := ih (fun r' hr' => h r' (by simp [hr'])) s1
    refine ⟨s', b :: bs, q :: qs, by simp only [sendEach, e, e'], by rw [hl', hl]; simp,
      by simp [h1], by simp [h2], ?_⟩
    intro i r' b' q' hr hb hq
    cases i with
    | zero =>
      simp only [List.getElem?_cons_zero, Option.some.injEq] at hr hb hq
      subst hr hb hq
      exact ⟨hp, hf⟩
    | succ i => exact h3 i r' b' q' (by simpa using hr) (by simpa using hb) (by simpa using hq)

/-- The scan of a message that breaks off, followed by messages. -/
theorem run_cut {C : Collection} {m : Msg} {ms : List Msg} (hm : IsMsg C m) (hpm : Solid C m) {cut : List Byte}
    (hcut : cut <+: frame C.envelope m) (hlt : cut.length < (frame C.envelope m).length)
    (hone : 1 < cut.length → cut.getLast? = some 0x01 → typeOf C 0x01 ≠ none → ∀ m' ∈ ms.head?, m'.id ≠ 0x02)
    (hne : ms ≠ []) (hms : ∀ m ∈ ms, IsMsg C m)
    (hp : ∀ m ∈ ms, Solid C m) (hlen : maxLen C ≤ (frames C.envelope ms).length + 1) :
    Run C (cut ++ frames C.envelope ms) ms [] ∨
    ∃ (m' : Msg) (k : Nat), IsMsg C m' ∧ 0 < k ∧ k ≤ ms.length ∧
      frame C.envelope m' <+: cut ++ frames C.envelope ms ∧
      cut.length < (frame C.envelope m').length ∧
      (2 ≤ cut.length → m'.id = m.id) ∧
      cut.length + (frames C.envelope (ms.take (k - 1))).length < (frame C.envelope m').length ∧
      (frame C.envelope m').length ≤ cut.length + (frames C.envelope (ms.take k)).length ∧
      Run C (cut ++ frames C.envelope ms) (m' :: ms.drop k) [] := by
  have hrest : Run C (frames C.envelope ms) ms [] := by
    have := run_frames hms []
    rwa [List.append_nil] at this
  obtain ⟨body, hbody⟩ : ∃ rest, frame C.envelope m = 0x01 :: rest :=
    (frame_cons C.envelope m).elim fun _ h => ⟨_, h⟩
  cases cut with
  | nil => left; simpa using hrest
  | cons b tail =>
    obtain ⟨r, hr⟩ := hcut
    have hb : b = 1 ∧ tail ++ r = body := by
      rw [hbody] at hr
      simpa using hr
    obtain ⟨rfl, htail⟩ := hb
    have hskip : Run C (tail ++ frames C.envelope ms) ms [] := by
      obtain ⟨m₁, ms', rfl⟩ := List.exists_cons_of_ne_nil hne
      obtain ⟨f, hf⟩ := frame_cons C.envelope m₁
      refine run_solid_cut hpm (x := m₁.id) (by rw [frames_cons, hf]; rfl) (by rw [frames_cons, hf]; rfl) hrest tail [0x01] r
        (by simp) (by simpa using hr.symm) fun e e2 => ?_
      apply Classical.byContradiction
      intro h1
      cases tail with
      | nil => simp at e
      | cons y tail => exact hone (by simp) (by rw [List.getLast?_cons_cons]; exact e) h1 m₁ (by simp) e2
    by_cases hst : Starts C (1 :: tail ++ frames C.envelope ms)
    · right
      obtain ⟨m', t, hm', e⟩ := hst
      have hle := announced_le hm'.announced
      rw [← maxLen_eq] at hle
      have h5 := announced_ge hm'.announced
      have hid : 2 ≤ (1 :: tail : List Byte).length → m'.id = m.id := by
        intro h2
        cases tail with
        | nil => simp at h2
        | cons x tail =>
          have e1 := congrArg (fun l : List Byte => l[1]?) e
          have e2 := congrArg (fun l : List Byte => l[1]?) hr
          cases hE : C.envelope <;> simp [hE, frame] at e1 e2 <;> rw [← e1, e2]
      have hlong : (1 :: tail : List Byte).length < (frame C.envelope m').length := by
        by_cases h2 : 2 ≤ (1 :: tail : List Byte).length
        · have h1 := hm.announced
          have h1' := hm'.announced
          rw [hid h2, h1] at h1'
          simp only [Option.some.injEq] at h1'
          omega
        · omega
      have ht : t = (frames C.envelope ms).drop
          ((frame C.envelope m').length - (1 :: tail : List Byte).length) := by
        have h1 := congrArg (List.drop (frame C.envelope m').length) e
        rw [List.drop_left, List.drop_append, List.drop_eq_nil_of_le (by omega)] at h1
        simpa using h1.symm
      have hl := congrArg List.length e
      simp only [List.length_append] at hl
      obtain ⟨k, hk, hkl, hlt', hge, hr'⟩ := run_from_inside hms hp
        (d := (frame C.envelope m').length - (1 :: tail : List Byte).length) (by omega) (by omega)
      refine ⟨m', k, hm', hk, hkl, ⟨t, e.symm⟩, hlong, hid, by omega, by omega, ?_⟩
      rw [e, ht]
      exact Run.take hm' hr'
    · left
      have hlong : 5 ≤ (frames C.envelope ms).length := by
        obtain ⟨m, ms', rfl⟩ := List.exists_cons_of_ne_nil hne
        have := frame_length C.envelope m
        have := overhead_pos C.envelope
        rw [frames_cons, List.length_append]
        omega
      have hl : (1 :: tail ++ frames C.envelope ms).length =
          tail.length + 1 + (frames C.envelope ms).length := by simp; omega
      suffices hw : ¬ Waiting C (1 :: tail ++ frames C.envelope ms) from Run.skip hst hw hskip
      rintro (e | ⟨id, hid, e⟩ | ⟨id, rest, n', hn', e, hlt⟩)
      · rw [e] at hl
        simp at hl
        omega
      · rw [e] at hl
        simp at hl
        omega
      · have := announced_le hn'
        rw [← maxLen_eq] at this
        omega

/-- C74. What the receiver makes of an aborted `send` between other messages (without
beginnings of other messages inside; and the aborted one does not break off behind a start code other than its
first byte if there is a message with id 1 and the next one has id 2): everything before is delivered. Then either all messages after it
are delivered and nothing else, or one wrong message is, made of what arrived of the aborted one and the
beginning of what follows (and of the same type if at least two bytes arrived), in place of exactly those
messages that begin within it; all others are delivered. -/
theorem C74_receiver {C : Collection} {B : Build} {user : UserCode} {fuel : Nat}
    (S : Setting C B user) (hn : NeverThrows user) {ops : List Op} {w : World C} {os : List Obs}
    (h : Reached B user fuel (ops ++ [.process]) w os) (hh : w.rx.hasHandler = true)
    {m : Msg} {before ms : List Msg} (hm : IsMsg C m) (hpm : Solid C m) {cut : List Byte}
    (hcut : cut <+: frame C.envelope m) (hlt : cut.length < (frame C.envelope m).length)
    (hone : 1 < cut.length → cut.getLast? = some 0x01 → typeOf C 0x01 ≠ none → ∀ m' ∈ ms.head?, m'.id ≠ 0x02)
    (hb : ∀ m ∈ before, IsMsg C m) (hne : ms ≠ [])
    (hms : ∀ m ∈ ms, IsMsg C m) (hp : ∀ m ∈ ms, Solid C m)
    (hlen : maxLen C ≤ (frames C.envelope ms).length + 1)
    (hfed : w.fed = frames C.envelope before ++ cut ++ frames C.envelope ms) :
    buffered w = [] ∧
    (delivered w = (before ++ ms).map (meaning C) ∨
      ∃ (m' : Msg) (k : Nat), 0 < k ∧ k ≤ ms.length ∧
        delivered w = (before ++ m' :: ms.drop k).map (meaning C) ∧
        frame C.envelope m' <+: cut ++ frames C.envelope ms ∧
        (2 ≤ cut.length → m'.id = m.id) ∧
        cut.length + (frames C.envelope (ms.take (k - 1))).length < (frame C.envelope m').length ∧
        (frame C.envelope m').length ≤ cut.length + (frames C.envelope (ms.take k)).length) := by
  have hb' := run_frames hb (cut ++ frames C.envelope ms)
  rw [← List.append_assoc, ← hfed] at hb'
  rcases run_cut hm hpm hcut hlt hone hne hms hp hlen with hr | ⟨m', k, hm', hk, hkl, hpre, _, hid, h1, h2, hr⟩
  · obtain ⟨e1, e2⟩ := polled_eq S hn h hh ⟨hb'.trans hr, Or.inl rfl⟩
    exact ⟨e2, Or.inl e1⟩
  · obtain ⟨e1, e2⟩ := polled_eq S hn h hh ⟨hb'.trans hr, Or.inl rfl⟩
    exact ⟨e2, Or.inr ⟨m', k, hk, hkl, e1, hpre, hid, h1, h2⟩⟩

/-! A bounded buffer that throws when full, as an example of an honest transmitter. -/

/-- A buffer of `n` bytes: what does not fit is refused with an exception, after storing what does. -/
def fullThrows (n : Nat) : ThrowTx (List Byte) where
  writeByte s v := if s.length < n then (s ++ [v], false) else (s, true)
  write s data := (s ++ data.take (n - s.length), decide (n < s.length + data.length))
  writeFinished s := (s, false)

theorem fullThrows_honest (n : Nat) : Honest (fullThrows n) id where
  done s o h := by
    cases o with
    | byte b =>
      simp only [throwOn, fullThrows] at h ⊢
      split at h
      · rename_i hl; simp [hl, Out.bytes]
      · simp at h
    | block bs =>
      simp only [throwOn, fullThrows, decide_eq_false_iff_not] at h ⊢
      simp only [id_eq, Out.bytes]
      rw [List.take_of_length_le (by omega)]
    | finished => simp [throwOn, fullThrows, Out.bytes]
  cut s o h := by
    cases o with
    | byte b =>
      simp only [throwOn, fullThrows] at h ⊢
      split at h
      · simp at h
      · rename_i hl; exact ⟨[], List.nil_prefix, by simp [hl]⟩
    | block bs => exact ⟨bs.take (n - s.length), List.take_prefix _ _, rfl⟩
    | finished => simp [throwOn, fullThrows] at h

/-- The second of two messages does not fit: `send` throws after seven of its twelve bytes. -/
example : sendEach (fullThrows 12) [] [⟨Sample.basic, Sample.ping, []⟩,
      ⟨Sample.basic, Sample.pose, Sample.poseVals⟩] =
    some (.ok (wire Sample.basic Sample.ping [] ++
      (wire Sample.basic Sample.pose Sample.poseVals).take 7, [false, true])) := by decide +kernel

example := C74_calls (fullThrows 4) Sample.checked Sample.pose Sample.poseVals (by decide)
  (id := 2) (by decide) [9]
example := C74_prefix (fullThrows_honest 4) Sample.checked Sample.pose Sample.poseVals (by decide) [9]
example := C74_sequence (fullThrows_honest 12) [⟨Sample.basic, Sample.ping, []⟩,
  ⟨Sample.basic, Sample.pose, Sample.poseVals⟩] (by decide) []

/-- A `pose` breaks off after four bytes and is sent again, then two `ping`s: a wrong `pose` made of
both in place of the repeated one, which begins within it. -/
example : ∃ (w : World Sample.basic) (os : List Obs),
    Reached Sample.dbg Sample.passive 50 ([.setHandler Sample.h0,
      .append ((frame .basic ⟨2, [9, 9, 9, 3, 4, 3, 4]⟩).take 4 ++
        frames .basic (⟨2, [9, 9, 9, 3, 4, 3, 4]⟩ :: List.replicate 2 ⟨0, []⟩))] ++ [.process]) w os ∧
    delivered w = (⟨2, [9, 1, 2, 2, 9, 9, 9]⟩ :: List.replicate 2 ⟨0, []⟩ : List Msg).map
      (meaning Sample.basic) := by
  obtain ⟨w, os, h, hp⟩ := Sample.reached (C := Sample.basic) (B := Sample.dbg)
    (user := Sample.passive) (fuel := 50)
    (ops := [.setHandler Sample.h0,
      .append ((frame .basic ⟨2, [9, 9, 9, 3, 4, 3, 4]⟩).take 4 ++
        frames .basic (⟨2, [9, 9, 9, 3, 4, 3, 4]⟩ :: List.replicate 2 ⟨0, []⟩))] ++ [.process])
    (fun w _ => decide (delivered w = (⟨2, [9, 1, 2, 2, 9, 9, 9]⟩ :: List.replicate 2 ⟨0, []⟩ :
      List Msg).map (meaning Sample.basic))) (by decide +kernel)
  exact ⟨w, os, h, by simpa using hp⟩

/-- The hypotheses of `C74_receiver` hold there. -/
example : ∃ (w : World Sample.basic) (os : List Obs),
    Reached Sample.dbg Sample.passive 50 ([.setHandler Sample.h0,
      .append ((frame .basic ⟨2, [9, 9, 9, 3, 4, 3, 4]⟩).take 4 ++
        frames .basic (⟨2, [9, 9, 9, 3, 4, 3, 4]⟩ :: List.replicate 2 ⟨0, []⟩))] ++ [.process]) w os ∧
    buffered w = [] := by
  obtain ⟨w, os, h, hp⟩ := Sample.reached (C := Sample.basic) (B := Sample.dbg)
    (user := Sample.passive) (fuel := 50)
    (ops := [.setHandler Sample.h0,
      .append ((frame .basic ⟨2, [9, 9, 9, 3, 4, 3, 4]⟩).take 4 ++
        frames .basic (⟨2, [9, 9, 9, 3, 4, 3, 4]⟩ :: List.replicate 2 ⟨0, []⟩))] ++ [.process])
    (fun w _ => w.rx.hasHandler) (by decide +kernel)
  have hf := C25_fed_is_chunks Sample.setting_basic Sample.passive_quiet (by simp) h
  exact ⟨w, os, h, (C74_receiver Sample.setting_basic Sample.passive_neverThrows h hp
    (m := ⟨2, [9, 9, 9, 3, 4, 3, 4]⟩) (by decide +kernel) (by decide +kernel)
    (cut := (frame .basic ⟨2, [9, 9, 9, 3, 4, 3, 4]⟩).take 4) (List.take_prefix _ _)
    (by decide +kernel) (by decide +kernel) (before := [])
    (ms := ⟨2, [9, 9, 9, 3, 4, 3, 4]⟩ :: List.replicate 2 ⟨0, []⟩) (by simp) (by simp)
    (by decide +kernel) (by decide +kernel) (by decide +kernel) (by rw [hf]; decide +kernel)).1⟩

/-- C74. The condition on start codes is needed: a `pose` breaks off behind the byte 01 of its contents, and the next `pose`
turns this into a `level`, which is of another type. -/
theorem C74_code_witness : ∃ (w : World Sample.basic) (os : List Obs),
    Solid Sample.basic ⟨2, [9, 1, 9, 9, 9, 9, 9]⟩ ∧ Solid Sample.basic ⟨2, [3, 4, 9, 9, 9, 9, 9]⟩ ∧
    Reached Sample.dbg Sample.passive 50 ([.setHandler Sample.h0,
      .append ((frame .basic ⟨2, [9, 1, 9, 9, 9, 9, 9]⟩).take 5 ++
        frames .basic (⟨2, [3, 4, 9, 9, 9, 9, 9]⟩ :: List.replicate 2 ⟨0, []⟩))] ++ [.process]) w os ∧
    delivered w = (⟨1, [2]⟩ :: List.replicate 2 ⟨0, []⟩ : List Msg).map (meaning Sample.basic) := by
  obtain ⟨w, os, h, hp⟩ := Sample.reached (C := Sample.basic) (B := Sample.dbg)
    (user := Sample.passive) (fuel := 50)
    (ops := [.setHandler Sample.h0,
      .append ((frame .basic ⟨2, [9, 1, 9, 9, 9, 9, 9]⟩).take 5 ++
        frames .basic (⟨2, [3, 4, 9, 9, 9, 9, 9]⟩ :: List.replicate 2 ⟨0, []⟩))] ++ [.process])
    (fun w _ => decide (delivered w = (⟨1, [2]⟩ :: List.replicate 2 ⟨0, []⟩ :
      List Msg).map (meaning Sample.basic))) (by decide +kernel)
  exact ⟨w, os, by decide +kernel, by decide +kernel, h, by simpa using hp⟩

end TT.Properties
