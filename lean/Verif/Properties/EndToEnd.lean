import Verif.Properties.Stream

/-!
# Properties of whole transmissions: C25-C32, C51
-/

namespace TT.Properties
open Spec

variable {C : Collection} {B : Build} {user : UserCode} {fuel : Nat}

/-! ### C25 -/

/-- The message on the wire for a `send` request. -/
def Request.msg (r : Request) : Msg :=
  ⟨UInt8.ofNat (r.C.messages.idxOf r.t), payloadOf r.vs⟩

/-- A request that compiles for `C` and whose values have the sizes of their types. -/
def Request.Good (C : Collection) (r : Request) : Prop :=
  r.C = C ∧ Sendable C r.t r.vs ∧ ∀ v ∈ r.vs, Value.Fits v

theorem Request.Good.isMsg {r : Request} (h : r.Good C) : IsMsg C r.msg := by
  obtain ⟨rfl, hs, hv⟩ := h
  exact isMsg_of_send hs (idOf_idxOf hs.1 hs.2.1) hv

theorem Request.Good.meaning {r : Request} (h : r.Good C) :
    Spec.meaning C r.msg = (r.t, r.vs.map (·.bytes)) := by
  obtain ⟨rfl, hs, hv⟩ := h
  have hid := (idOf_idxOf hs.1 hs.2.1).1
  unfold Spec.meaning typeOf Request.msg
  simp only [hid, Option.getD_some]
  rw [← hs.2.2, splitFields_payloadOf hv]

theorem Request.Good.wire {r : Request} (h : r.Good C) :
    Spec.wire r.C r.t r.vs = frame C.envelope r.msg := by
  obtain ⟨rfl, _, _⟩ := h
  rfl

/-- Sending on a faithful transmitter logs the frames. -/
theorem sendAll_faithful {σ : Type} {T : Tx σ} {log : σ → List Byte} (hT : Faithful T log)
    (rs : List Request) (hrs : ∀ r ∈ rs, r.Good C) : ∀ s : σ, ∃ s',
    sendAll T s rs = some (.ok s') ∧
      log s' = log s ++ frames C.envelope (rs.map Request.msg) := by
  induction rs with
  | nil => intro s; exact ⟨s, rfl, by simp [frames]⟩
  | cons r rs ih =>
    intro s
    have hr := hrs r (by simp)
    have hs : Sendable r.C r.t r.vs := by rw [hr.1]; exact hr.2.1
    have hid := idOf_idxOf hs.1 hs.2.1
    obtain ⟨s1, h1, h2⟩ := hT.feed (script r.C.envelope _ r.vs) s
    obtain ⟨s2, h3, h4⟩ := ih (fun r' hr' => hrs r' (by simp [hr'])) s1
    refine ⟨s2, ?_, ?_⟩
    · unfold sendAll
      rw [send_eq r.C r.t T s r.vs hs hid, h1]
      exact h3
    · rw [h4, h2, outBytes_script, List.map_cons, frames_cons]
      rw [← hr.wire]
      simp [Spec.wire]

/-- C25. Messages sent through any byte-faithful transmitter and received in any legal way are
delivered exactly once each, in order, with the sent types and field contents, nothing is left. -/
theorem C25_round_trip {σ : Type} {T : Tx σ} {log : σ → List Byte} (hT : Faithful T log)
    (S : Setting C B user) (hn : NeverThrows user)
    (rs : List Request) (hrs : ∀ r ∈ rs, r.Good C) (s s' : σ)
    (hsend : sendAll T s rs = some (.ok s'))
    {ops : List Op} {w : World C} {os : List Obs}
    (h : Reached B user fuel (ops ++ [.process]) w os) (hh : w.rx.hasHandler = true)
    (hfed : log s' = log s ++ w.fed) :
    delivered w = rs.map (fun r => (r.t, r.vs.map (·.bytes))) ∧ buffered w = [] := by
  obtain ⟨s2, h1, h2⟩ := sendAll_faithful hT rs hrs s
  rw [hsend] at h1
  simp only [Option.some.injEq, Except.ok.injEq] at h1
  rw [← h1, hfed] at h2
  have hf := List.append_cancel_left h2
  obtain ⟨ms, hd, e⟩ := h.polled S hn hh
  have hd' : Decodes C w.fed (rs.map Request.msg) [] := by
    refine ⟨?_, Or.inl rfl⟩
    rw [hf, ← List.append_nil (frames _ _)]
    refine run_frames ?_ []
    intro m hm
    obtain ⟨r, hr, rfl⟩ := List.mem_map.mp hm
    exact (hrs r hr).isMsg
  obtain ⟨e1, e2⟩ := hd.unique hd'
  refine ⟨?_, e2⟩
  rw [e, e1, List.map_map]
  exact List.map_congr_left fun r hr => (hrs r hr).meaning

/-- The bytes passed to `appendReceived` by a history. -/
def chunks : List Op → List Byte
  | [] => []
  | .append xs :: ops => xs ++ chunks ops
  | _ :: ops => chunks ops

/-- C25, stated without the record of fed bytes: a history that only appends (no adapters) and
whose handlers do not append has been fed the appended bytes. -/
theorem C25_fed_is_chunks (S : Setting C B user) (hq : Quiet user) {ops : List Op}
    (hno : ∀ a r, Op.receiveFrom a r ∉ ops) {w : World C} {os : List Obs}
    (h : Reached B user fuel ops w os) : w.fed = chunks ops := by
  obtain ⟨s, ms, ha, he⟩ := h.exec S
  rw [ha.fed]
  have key : ∀ {s0 s : AState} {ops ms os}, Exec C user s0 ops ms s os →
      (∀ a r, Op.receiveFrom a r ∉ ops) → s.fed = s0.fed ++ chunks ops := by
    intro s0 s ops ms os he
    induction he with
    | nil => intro _; simp [chunks]
    | cons hs _ ih =>
      intro hno
      rw [ih fun a r hm => hno a r (by simp [hm])]
      cases hs with
      | append _ => simp [chunks]
      | @receive avail rcv _ _ _ => exact absurd (by simp) (hno avail rcv)
      | setHandler => rfl
      | clearHandler => rfl
      | copy => rfl
      | idle _ => rfl
      | process _ hp => rw [hp.quiet hq]; rfl
      | thrown _ hp => rw [hp.quiet hq]; rfl
  simpa [AState.new] using key he hno

/-- Three messages, sent, and received in three pieces. -/
def session3 : List Op :=
  [.append [1, 0, 2, 3, 6, 4, 1, 2, 2, 1], .setHandler Sample.h0, .process,
   .append [1, 0, 2, 3, 3, 4, 3, 22, 4, 1, 1], .copy, .process, .append [2, 0x2A, 3, 0x31, 4]]

def requests3 : List Request :=
  [⟨Sample.checked, Sample.ping, []⟩, ⟨Sample.checked, Sample.pose, Sample.poseVals⟩,
   ⟨Sample.checked, Sample.level, Sample.levelVals⟩]

instance (C : Collection) (r : Request) : Decidable (r.Good C) := by
  unfold Request.Good; infer_instance

example : ∃ (w : World Sample.checked) (os : List Obs),
    Reached Sample.dbg Sample.passive 50 (session3 ++ [.process]) w os ∧
    delivered w = requests3.map (fun r => (r.t, r.vs.map (·.bytes))) ∧ buffered w = [] := by
  obtain ⟨w, os, h, hp⟩ := Sample.reached (C := Sample.checked) (B := Sample.dbg)
    (user := Sample.passive) (fuel := 50) (ops := session3 ++ [.process])
    (fun w _ => w.rx.hasHandler) (by decide +kernel)
  have hf := C25_fed_is_chunks Sample.setting_checked Sample.passive_quiet
    (by simp [session3]) h
  refine ⟨w, os, h, C25_round_trip vectorBuffer_faithful Sample.setting_checked
    Sample.passive_neverThrows requests3 (by decide +kernel) [] (chunks (session3 ++ [.process]))
    (by decide +kernel) h hp ?_⟩
  rw [hf]; rfl

/-! ### C26, C27 -/

/-- C26. Complete messages are delivered as soon as they are complete; the beginning of the next one
is kept. -/
theorem C26_prompt (S : Setting C B user) (hn : NeverThrows user) {ops : List Op} {w : World C}
    {os : List Obs} (h : Reached B user fuel (ops ++ [.process]) w os)
    (hh : w.rx.hasHandler = true) (ms : List Msg) (hms : ∀ m ∈ ms, IsMsg C m)
    (m : Msg) (hm : IsMsg C m) (k : Nat) (hk : k < (frame C.envelope m).length)
    (hfed : w.fed = frames C.envelope ms ++ (frame C.envelope m).take k) :
    delivered w = ms.map (meaning C) ∧ buffered w = (frame C.envelope m).take k := by
  obtain ⟨ms', hd, e⟩ := h.polled S hn hh
  have hd' : Decodes C w.fed ms ((frame C.envelope m).take k) :=
    ⟨by rw [hfed]; exact run_frames hms _, final_prefix hm hk⟩
  obtain ⟨e1, e2⟩ := hd.unique hd'
  exact ⟨by rw [e, e1], e2⟩

example : ∃ (w : World Sample.checked) (os : List Obs),
    Reached Sample.dbg Sample.passive 50
      ([.setHandler Sample.h1, .append [1, 0, 2, 3, 6, 4, 1, 2, 2, 1]] ++ [.process]) w os ∧
    delivered w = [meaning Sample.checked Sample.mPing] ∧ buffered w = [1, 2, 2, 1] := by
  obtain ⟨w, os, h, hp⟩ := Sample.reached (C := Sample.checked) (B := Sample.dbg)
    (user := Sample.passive) (fuel := 50)
    (ops := [.setHandler Sample.h1, .append [1, 0, 2, 3, 6, 4, 1, 2, 2, 1]] ++ [.process])
    (fun w _ => w.rx.hasHandler) (by decide +kernel)
  have hf := C25_fed_is_chunks Sample.setting_checked Sample.passive_quiet (by simp) h
  exact ⟨w, os, h, C26_prompt Sample.setting_checked Sample.passive_neverThrows h hp
    [Sample.mPing] (by decide +kernel) Sample.mPose (by decide +kernel) 4 (by decide +kernel)
    (by rw [hf]; decide +kernel)⟩

/-- C27. As long as only a proper prefix of a message has arrived, no handler is ever called -
whatever the history, the polling and the handlers. -/
theorem C27_no_truncated (S : Setting C B user) {ops : List Op} {w : World C} {os : List Obs}
    (h : Reached B user fuel ops w os) (m : Msg) (hm : IsMsg C m) (k : Nat)
    (hk : k < (frame C.envelope m).length) (hfed : w.fed = (frame C.envelope m).take k) :
    w.trace = [] ∧ buffered w = (frame C.envelope m).take k := by
  have hfin := final_prefix hm hk
  constructor
  · cases htr : w.trace with
    | nil => rfl
    | cons i tr =>
      exfalso
      obtain ⟨D, m', post, hm', hr, _⟩ := reached_onPath S h i (by simp [htr])
      rw [hfed] at hr
      obtain ⟨_, e⟩ := hfin.no_step hr
      rcases hfin with hf | hf
      · rw [hf] at e
        have := frame_ne_nil C.envelope m'
        simp at e
        exact this e.1
      · rw [← e] at hf
        exact not_waiting_frame hm' _ hf
  · obtain ⟨s, ms, ha, he⟩ := h.exec S
    have hr := he.sound (D := []) (Run.refl _)
    rw [← ha.fed, hfed] at hr
    rw [ha.buffered]
    exact (hfin.no_step hr).2

/-- C27. Completing it delivers it exactly once. -/
theorem C27_completed (S : Setting C B user) (hn : NeverThrows user) {ops : List Op} {w : World C}
    {os : List Obs} (h : Reached B user fuel (ops ++ [.process]) w os)
    (hh : w.rx.hasHandler = true) (m : Msg) (hm : IsMsg C m)
    (hfed : w.fed = frame C.envelope m) :
    delivered w = [meaning C m] ∧ buffered w = [] := by
  have := C26_prompt S hn h hh [m] (by simpa using hm) m hm 0
    (by rw [frame_length]; have := overhead_pos C.envelope; omega)
    (by simp [hfed, frames])
  simpa using this

/-- A prefix that contains a complete other message: polled twice, no call; then the rest. -/
example : ∃ (w : World Sample.basic) (os : List Obs),
    Reached Sample.dbg Sample.passive 50
      [.setHandler Sample.h0, .append [1, 2, 2, 1, 0, 2], .process, .append [3, 4], .process] w os ∧
    w.trace = [] := by
  obtain ⟨w, os, h, hp⟩ := Sample.reached (C := Sample.basic) (B := Sample.dbg)
    (user := Sample.passive) (fuel := 50)
    (ops := [.setHandler Sample.h0, .append [1, 2, 2, 1, 0, 2], .process, .append [3, 4], .process])
    (fun _ _ => true) (by decide +kernel)
  have hf := C25_fed_is_chunks Sample.setting_basic Sample.passive_quiet (by simp) h
  exact ⟨w, os, h, (C27_no_truncated Sample.setting_basic h ⟨2, [1, 0, 2, 3, 4, 9, 9]⟩
    (by decide +kernel) 8 (by decide +kernel) (by rw [hf]; decide +kernel)).1⟩

example : ∃ (w : World Sample.basic) (os : List Obs),
    Reached Sample.dbg Sample.passive 50
      ([.setHandler Sample.h0, .append [1, 2, 2, 1, 0, 2], .process, .append [3, 4], .process,
       .append [9, 9, 3, 4]] ++ [.process]) w os ∧
    delivered w = [meaning Sample.basic ⟨2, [1, 0, 2, 3, 4, 9, 9]⟩] := by
  obtain ⟨w, os, h, hp⟩ := Sample.reached (C := Sample.basic) (B := Sample.dbg)
    (user := Sample.passive) (fuel := 50)
    (ops := [.setHandler Sample.h0, .append [1, 2, 2, 1, 0, 2], .process, .append [3, 4], .process,
       .append [9, 9, 3, 4]] ++ [.process])
    (fun w _ => w.rx.hasHandler) (by decide +kernel)
  have hf := C25_fed_is_chunks Sample.setting_basic Sample.passive_quiet (by simp) h
  exact ⟨w, os, h, (C27_completed Sample.setting_basic Sample.passive_neverThrows h hp
    ⟨2, [1, 0, 2, 3, 4, 9, 9]⟩ (by decide +kernel) (by rw [hf]; decide +kernel)).1⟩

/-! ### C28 -/

theorem run_noisy (ps : List (List Byte × Msg)) (last : List Byte)
    (hps : ∀ p ∈ ps, (∀ b ∈ p.1, b ≠ 0x01) ∧ IsMsg C p.2) (hlast : ∀ b ∈ last, b ≠ 0x01) :
    Run C (assemble C.envelope ps last) (ps.map (·.2)) [] := by
  induction ps with
  | nil => simpa [assemble] using run_noise hlast (Run.refl [])
  | cons p ps ih =>
    have hp := hps p (by simp)
    have := Run.take hp.2 (ih fun q hq => hps q (by simp [hq]))
    simpa [assemble] using run_noise hp.1 this

/-- C28. Bytes other than the start code before, between and after messages change nothing. -/
theorem C28_noise (S : Setting C B user) (hn : NeverThrows user) {ops : List Op} {w : World C}
    {os : List Obs} (h : Reached B user fuel (ops ++ [.process]) w os)
    (hh : w.rx.hasHandler = true) (ps : List (List Byte × Msg)) (last : List Byte)
    (hps : ∀ p ∈ ps, (∀ b ∈ p.1, b ≠ 0x01) ∧ IsMsg C p.2) (hlast : ∀ b ∈ last, b ≠ 0x01)
    (hfed : w.fed = assemble C.envelope ps last) :
    delivered w = ps.map (fun p => meaning C p.2) ∧ buffered w = [] := by
  obtain ⟨ms', hd, e⟩ := h.polled S hn hh
  have hd' : Decodes C w.fed (ps.map (·.2)) [] :=
    ⟨by rw [hfed]; exact run_noisy ps last hps hlast, Or.inl rfl⟩
  obtain ⟨e1, e2⟩ := hd.unique hd'
  exact ⟨by rw [e, e1]; simp, e2⟩

example : ∃ (w : World Sample.basic) (os : List Obs),
    Reached Sample.dbg Sample.passive 50
      ([.setHandler Sample.h0, .append ([2, 4, 0] ++ frame .basic Sample.mPose ++ [3, 4, 255]),
        .process, .append (frame .basic Sample.mPing ++ [7])] ++ [.process]) w os ∧
    delivered w = [meaning Sample.basic Sample.mPose, meaning Sample.basic Sample.mPing] := by
  obtain ⟨w, os, h, hp⟩ := Sample.reached (C := Sample.basic) (B := Sample.dbg)
    (user := Sample.passive) (fuel := 50)
    (ops := [.setHandler Sample.h0, .append ([2, 4, 0] ++ frame .basic Sample.mPose ++ [3, 4, 255]),
        .process, .append (frame .basic Sample.mPing ++ [7])] ++ [.process])
    (fun w _ => w.rx.hasHandler) (by decide +kernel)
  have hf := C25_fed_is_chunks Sample.setting_basic Sample.passive_quiet (by simp) h
  exact ⟨w, os, h, (C28_noise Sample.setting_basic Sample.passive_neverThrows h hp
    [([2, 4, 0], Sample.mPose), ([3, 4, 255], Sample.mPing)] [7] (by decide +kernel)
    (by decide +kernel) (by rw [hf]; decide +kernel)).1⟩

/-! ### C29 -/

theorem assemble_append (E : Envelope) (ps : List (List Byte × Msg)) (a b : List Byte) :
    assemble E ps (a ++ b) = assemble E ps a ++ b := by
  induction ps with
  | nil => rfl
  | cons p ps ih => simp [assemble, ih]

/-- C29. Garbage `g`, then a message `m`, then `t`. If no frame that starts in the garbage reaches
beyond its end, and at least `maxLen - 1` bytes follow the garbage, then what is delivered is
whatever frames lie within the garbage, then `m` and all that the stream `t` after it decodes to. -/
theorem C29_resync (S : Setting C B user) (hn : NeverThrows user) {ops : List Op} {w : World C}
    {os : List Obs} (h : Reached B user fuel (ops ++ [.process]) w os)
    (hh : w.rx.hasHandler = true) (g t : List Byte) (m : Msg) (hm : IsMsg C m)
    (hfed : w.fed = g ++ (frame C.envelope m ++ t))
    (hin : ∀ i < g.length, ∀ m' t', IsMsg C m' → w.fed.drop i = frame C.envelope m' ++ t' →
      i + (frame C.envelope m').length ≤ g.length)
    (hlen : maxLen C ≤ (frame C.envelope m ++ t).length + 1) :
    ∃ (ps : List (List Byte × Msg)) (sk : List Byte) (ms : List Msg),
      g = assemble C.envelope ps sk ∧ (∀ p ∈ ps, IsMsg C p.2) ∧
      Decodes C t ms (buffered w) ∧
      delivered w = (ps.map (·.2) ++ m :: ms).map (meaning C) := by
  have hne : C.messages ≠ [] := by
    obtain ⟨ty, hty, _⟩ := hm
    intro h0
    simp [typeOf, h0] at hty
  rw [hfed] at hin
  obtain ⟨gs, hg⟩ := run_garbage hne g _ hin hlen
  obtain ⟨ps, sk, e1, e2⟩ := assemble_of_run hg
  rw [assemble_append] at e1
  obtain ⟨ms, r, hd⟩ := decodes_exists C t
  obtain ⟨ms', hd', e⟩ := h.polled S hn hh
  have hall : Decodes C w.fed (gs ++ m :: ms) r :=
    ⟨by rw [hfed]; exact hg.trans (Run.take hm hd.1), hd.2⟩
  obtain ⟨e3, e4⟩ := hd'.unique hall
  refine ⟨ps, sk, ms, List.append_cancel_right e1, ?_, by rw [e4]; exact hd, by rw [e, e3, e2]⟩
  intro p hp
  exact hg.isMsg p.2 (by rw [← e2]; exact List.mem_map_of_mem hp)

/-- Garbage that begins like a message (but with a wrong end) in front of a message: after enough
bytes the message is delivered. -/
example : ∃ (w : World Sample.basic) (os : List Obs),
    Reached Sample.dbg Sample.passive 50
      ([.setHandler Sample.h0, .append [1, 2, 2, 9, 1, 9], .process,
        .append (frame .basic Sample.mPose)] ++ [.process]) w os ∧
    delivered w = [meaning Sample.basic Sample.mPose] := by
  obtain ⟨w, os, h, hp⟩ := Sample.reached (C := Sample.basic) (B := Sample.dbg)
    (user := Sample.passive) (fuel := 50)
    (ops := [.setHandler Sample.h0, .append [1, 2, 2, 9, 1, 9], .process,
        .append (frame .basic Sample.mPose)] ++ [.process])
    (fun w _ => w.rx.hasHandler && decide ((delivered w).length = 1)) (by decide +kernel)
  simp only [Bool.and_eq_true, decide_eq_true_eq] at hp
  have hf := C25_fed_is_chunks Sample.setting_basic Sample.passive_quiet (by simp) h
  have hfed : w.fed = [1, 2, 2, 9, 1, 9] ++ (frame Sample.basic.envelope Sample.mPose ++ []) := by
    rw [hf]; decide +kernel
  obtain ⟨ps, sk, ms, h1, h2, h3, h4⟩ := C29_resync Sample.setting_basic Sample.passive_neverThrows
    h hp.1 [1, 2, 2, 9, 1, 9] [] Sample.mPose (by decide +kernel) hfed (by
      intro i hi m' t' hm' e
      exfalso
      rw [hfed] at e
      obtain ⟨rest, hr⟩ := frame_cons Sample.basic.envelope m'
      have ha := hm'.announced
      have h6 : i = 0 ∨ i = 1 ∨ i = 2 ∨ i = 3 ∨ i = 4 ∨ i = 5 := by simp at hi; omega
      rcases h6 with rfl | rfl | rfl | rfl | rfl | rfl
      · have hid : m'.id = 2 := by
          rw [hr] at e; simp at e; exact e.1.symm
        rw [hid] at ha
        have hl : (frame Sample.basic.envelope m').length = 12 := by
          have : announced Sample.basic 2 = some 12 := by decide +kernel
          rw [this] at ha; exact (Option.some.inj ha).symm
        have hp7 : m'.payload.length = 7 := by
          rw [frame_length] at hl; simp [overhead, Sample.basic] at hl; omega
        have e2 := congrArg (fun l : List Byte => l[11]?) e
        simp only [List.drop_zero] at e2
        rw [List.getElem?_append_left (l₁ := frame Sample.basic.envelope m') (by omega)] at e2
        have h11 : (frame Sample.basic.envelope m')[11]? = some 4 := by
          have : frame Sample.basic.envelope m' = ([0x01, m'.id, 0x02] ++ m'.payload) ++ [3, 4] := by
            simp [frame, Sample.basic]
          rw [this, List.getElem?_append_right (by simp [hp7])]
          simp [hp7]
        rw [h11] at e2
        revert e2
        decide +kernel
      · rw [hr] at e; revert e; simp
      · rw [hr] at e; revert e; simp
      · rw [hr] at e; revert e; simp
      · rw [hr] at e; revert e; simp [frame, Sample.basic, Sample.mPose]
      · rw [hr] at e; revert e; simp [frame, Sample.basic, Sample.mPose]) (by decide +kernel)
  refine ⟨w, os, h, ?_⟩
  rw [h4] at hp
  simp at hp
  have h5 : ps = [] ∧ ms = [] := by
    cases ps <;> cases ms <;> simp at hp ⊢
    all_goals omega
  rw [h4, h5.1, h5.2]
  rfl

/-! ### C30 -/

/-- C30. No encoded message is a proper prefix of another. -/
theorem C30_prefix_free {m m' : Msg} (h : IsMsg C m) (h' : IsMsg C m') {t : List Byte}
    (e : frame C.envelope m ++ t = frame C.envelope m') : m = m' ∧ t = [] :=
  frame_append_inj h h' (by simpa using e)

theorem frames_inj : ∀ {ms ms' : List Msg}, (∀ m ∈ ms, IsMsg C m) → (∀ m ∈ ms', IsMsg C m) →
    frames C.envelope ms = frames C.envelope ms' → ms = ms' := by
  intro ms
  induction ms with
  | nil =>
    intro ms' _ _ e
    cases ms' with
    | nil => rfl
    | cons m' ms' =>
      have := frame_ne_nil C.envelope m'
      simp [frames] at e
      exact absurd e.1 this
  | cons m ms ih =>
    intro ms' h h' e
    cases ms' with
    | nil =>
      have := frame_ne_nil C.envelope m
      simp [frames] at e
      exact absurd e.1 this
    | cons m' ms' =>
      rw [frames_cons, frames_cons] at e
      obtain ⟨rfl, e2⟩ := frame_append_inj (h m (by simp)) (h' m' (by simp)) e
      rw [ih (fun x hx => h x (by simp [hx])) (fun x hx => h' x (by simp [hx])) e2]

/-- C30. Two lists of sends that put the same bytes on the wire are the same messages with the same
contents. -/
theorem C30_uniquely_decodable (rs rs' : List Request) (h : ∀ r ∈ rs, r.Good C)
    (h' : ∀ r ∈ rs', r.Good C)
    (e : (rs.map fun r => wire r.C r.t r.vs).flatten = (rs'.map fun r => wire r.C r.t r.vs).flatten) :
    rs.map (fun r => (r.t, r.vs.map (·.bytes))) = rs'.map (fun r => (r.t, r.vs.map (·.bytes))) := by
  have conv : ∀ rs : List Request, (∀ r ∈ rs, r.Good C) →
      (rs.map fun r => wire r.C r.t r.vs).flatten = frames C.envelope (rs.map Request.msg) ∧
      rs.map (fun r => (r.t, r.vs.map (·.bytes))) = (rs.map Request.msg).map (meaning C) := by
    intro rs h
    constructor
    · unfold frames
      rw [List.map_map]
      exact congrArg List.flatten (List.map_congr_left fun r hr => (h r hr).wire)
    · rw [List.map_map]
      exact List.map_congr_left fun r hr => ((h r hr).meaning).symm
  obtain ⟨a1, a2⟩ := conv rs h
  obtain ⟨b1, b2⟩ := conv rs' h'
  rw [a1, b1] at e
  have hm : ∀ rs : List Request, (∀ r ∈ rs, r.Good C) → ∀ m ∈ rs.map Request.msg, IsMsg C m := by
    intro rs h m hm
    obtain ⟨r, hr, rfl⟩ := List.mem_map.mp hm
    exact (h r hr).isMsg
  rw [a2, b2, frames_inj (hm rs h) (hm rs' h') e]

example : (∀ r ∈ requests3, r.Good Sample.checked) ∧
    (∀ r ∈ requests3.reverse, r.Good Sample.checked) ∧
    (requests3.map fun r => wire r.C r.t r.vs).flatten ≠
      (requests3.reverse.map fun r => wire r.C r.t r.vs).flatten := by decide +kernel

example : IsMsg Sample.checked Sample.mPose ∧ IsMsg Sample.checked Sample.mPing ∧
    ∃ t, frame .basicChecksum Sample.mPose = [1, 2, 2] ++ t := by
  refine ⟨by decide +kernel, by decide +kernel, ?_⟩
  exact ⟨(frame .basicChecksum Sample.mPose).drop 3, by decide +kernel⟩

/-! ### C31 -/

/-- C31. One changed byte: no message of the original length starts there. -/
theorem C31_same_length (hE : C.envelope = .basicChecksum) {m : Msg} {j : Nat} {x b : Byte}
    (hx : (frame C.envelope m)[j]? = some x) (hb : b ≠ x) (m' : Msg)
    (hl : (frame C.envelope m').length = (frame C.envelope m).length) (u t : List Byte) :
    (frame C.envelope m).set j b ++ u ≠ frame C.envelope m' ++ t := by
  intro e
  have := (List.append_inj e (by simp [hl])).1
  rw [hE] at this hx
  exact set_ne_frame m m' hx hb this

/-- C31. One changed byte other than the id: no message at all starts there and none can begin
there. -/
theorem C31_not_start (hE : C.envelope = .basicChecksum) {m : Msg} (hm : IsMsg C m) {j : Nat}
    {x b : Byte} (hx : (frame C.envelope m)[j]? = some x) (hb : b ≠ x) (hj : j ≠ 1)
    (u : List Byte) :
    ¬ Starts C ((frame C.envelope m).set j b ++ u) ∧
    ¬ Waiting C ((frame C.envelope m).set j b ++ u) := by
  obtain ⟨rest, hr⟩ := frame_cons C.envelope m
  have hjl : j < (frame C.envelope m).length := (List.getElem?_eq_some_iff.mp hx).1
  have hlen : ((frame C.envelope m).set j b).length = (frame C.envelope m).length := by simp
  have hid : ∀ {id rest' v}, (frame C.envelope m).set j b ++ u = v :: id :: rest' → id = m.id := by
    intro id rest' v e
    have := congrArg (fun l : List Byte => l[1]?) e
    rw [hr] at this
    simp only [List.getElem?_cons_succ, List.getElem?_cons_zero] at this
    rw [List.getElem?_append_left (by simp), List.getElem?_set_ne hj] at this
    simpa using this.symm
  constructor
  · rintro ⟨m', t, hm', e⟩
    obtain ⟨rest', hr'⟩ := frame_cons C.envelope m'
    have h1 := hid (by rw [e, hr']; rfl)
    have ha := hm.announced
    have ha' := hm'.announced
    rw [h1, ha] at ha'
    exact C31_same_length hE hx hb m' (Option.some.inj ha').symm u t e
  · rintro (e | ⟨id, _, e⟩ | ⟨id, rest', n, hn, e, hlt⟩)
    · have := congrArg List.length e
      simp [hr] at this
      omega
    · have := congrArg List.length e
      simp [hr] at this
      omega
    · have h1 := hid e
      rw [h1, hm.announced] at hn
      have hn := Option.some.inj hn
      simp at hlt
      omega

/-- C31. If one byte other than the id of a checksummed message is changed, the receiver gives up
on the message: what is delivered is what the stream without its first byte contains. -/
theorem C31_not_delivered (hE : C.envelope = .basicChecksum) (S : Setting C B user)
    (hn : NeverThrows user) {ops : List Op} {w : World C} {os : List Obs}
    (h : Reached B user fuel (ops ++ [.process]) w os) (hh : w.rx.hasHandler = true)
    {m : Msg} (hm : IsMsg C m) {j : Nat} {x b : Byte} (hx : (frame C.envelope m)[j]? = some x)
    (hb : b ≠ x) (hj : j ≠ 1) (u : List Byte)
    (hfed : w.fed = (frame C.envelope m).set j b ++ u) :
    ∃ ms, Decodes C (w.fed.drop 1) ms (buffered w) ∧ delivered w = ms.map (meaning C) := by
  obtain ⟨h1, h2⟩ := C31_not_start hE hm hx hb hj u
  rw [← hfed] at h1 h2
  obtain ⟨ms, hd, e⟩ := h.polled S hn hh
  obtain ⟨ms', r, hd'⟩ := decodes_exists C (w.fed.drop 1)
  have hne : w.fed ≠ [] := by
    obtain ⟨rest, hr⟩ := frame_cons C.envelope m
    have hl : 0 < w.fed.length := by rw [hfed]; simp [hr]; omega
    exact List.ne_nil_of_length_pos hl
  cases hf : w.fed with
  | nil => exact absurd hf hne
  | cons c s =>
    rw [hf] at hd hd' h1 h2
    simp only [List.drop_succ_cons, List.drop_zero] at hd' ⊢
    obtain ⟨e1, e2⟩ := hd.unique ⟨Run.skip h1 h2 hd'.1, hd'.2⟩
    exact ⟨ms', by rw [e2]; exact hd', by rw [e, e1]⟩

/-- C31. In particular, if the rest of the corrupted message contains no start code, nothing of it is
delivered and a following message is. -/
theorem C31_next_delivered (hE : C.envelope = .basicChecksum) (S : Setting C B user)
    (hn : NeverThrows user) {ops : List Op} {w : World C} {os : List Obs}
    (h : Reached B user fuel (ops ++ [.process]) w os) (hh : w.rx.hasHandler = true)
    {m : Msg} (hm : IsMsg C m) {j : Nat} {x b : Byte} (hx : (frame C.envelope m)[j]? = some x)
    (hb : b ≠ x) (hj : j ≠ 1) (hno : ∀ c ∈ ((frame C.envelope m).set j b).drop 1, c ≠ 0x01)
    (ms : List Msg) (hms : ∀ m ∈ ms, IsMsg C m)
    (hfed : w.fed = (frame C.envelope m).set j b ++ frames C.envelope ms) :
    delivered w = ms.map (meaning C) ∧ buffered w = [] := by
  obtain ⟨ms', hd, e⟩ := C31_not_delivered hE S hn h hh hm hx hb hj _ hfed
  have hlen : 1 ≤ ((frame C.envelope m).set j b).length := by
    obtain ⟨rest, hr⟩ := frame_cons C.envelope m
    simp [hr]
  have hd' : Decodes C (w.fed.drop 1) ms [] := by
    refine ⟨?_, Or.inl rfl⟩
    rw [hfed, List.drop_append_of_le_length hlen]
    have := run_frames hms []
    rw [List.append_nil] at this
    exact run_noise hno this
  obtain ⟨e1, e2⟩ := hd.unique hd'
  exact ⟨by rw [e, e1], e2⟩

/-- A flipped bit in the payload. -/
example : ∃ (w : World Sample.checked) (os : List Obs),
    Reached Sample.dbg Sample.passive 50
      ([.setHandler Sample.h0, .append ((frame .basicChecksum ⟨2, [5, 6, 7, 8, 9, 10, 11]⟩).set 3 0x04 ++
        frames .basicChecksum [Sample.mPose])] ++ [.process]) w os ∧
    delivered w = [meaning Sample.checked Sample.mPose] := by
  obtain ⟨w, os, h, hp⟩ := Sample.reached (C := Sample.checked) (B := Sample.dbg)
    (user := Sample.passive) (fuel := 50)
    (ops := [.setHandler Sample.h0, .append ((frame .basicChecksum ⟨2, [5, 6, 7, 8, 9, 10, 11]⟩).set 3 0x04 ++
        frames .basicChecksum [Sample.mPose])] ++ [.process])
    (fun w _ => w.rx.hasHandler) (by decide +kernel)
  have hf := C25_fed_is_chunks Sample.setting_checked Sample.passive_quiet (by simp) h
  exact ⟨w, os, h, (C31_next_delivered rfl Sample.setting_checked Sample.passive_neverThrows h hp
    (m := ⟨2, [5, 6, 7, 8, 9, 10, 11]⟩) (by decide +kernel) (j := 3) (x := 0x05) (b := 0x04) (by decide +kernel)
    (by decide) (by decide) (by decide +kernel) [Sample.mPose] (by decide +kernel)
    (by rw [hf]; decide +kernel)).1⟩

/-! ### C32 -/

/-- The bytes of `m` with the payload replaced and everything else kept. -/
def withPayload (E : Envelope) (m : Msg) (p : List Byte) : List Byte :=
  (frame E m).take 3 ++ p ++ (frame E m).drop (3 + m.payload.length)

theorem withPayload_drop (a b c : Byte) (p t : List Byte) :
    (a :: b :: c :: (p ++ t)).drop (3 + p.length) = t := by
  rw [Nat.add_comm]
  simp

/-- C32. With BasicChecksum a replaced payload of the same length is accepted if and only if its byte
sum modulo 256 is the same. -/
theorem C32_checksum (hE : C.envelope = .basicChecksum) (S : Setting C B user)
    (hn : NeverThrows user) {ops : List Op} {w : World C} {os : List Obs}
    (h : Reached B user fuel (ops ++ [.process]) w os) (hh : w.rx.hasHandler = true)
    {m : Msg} (hm : IsMsg C m) (p : List Byte) (hp : p.length = m.payload.length)
    (hfed : w.fed = withPayload C.envelope m p) :
    delivered w = [meaning C ⟨m.id, p⟩] ↔ byteSum p = byteSum m.payload := by
  obtain ⟨ty, hty, hpl⟩ := hm
  have hs : withPayload C.envelope m p = [0x01, m.id, 0x02] ++ p ++
      [0x03, byteSum ([0x01, m.id, 0x02] ++ m.payload ++ [0x03]), 0x04] := by
    unfold withPayload
    rw [hE]
    simp [frame, withPayload_drop]
  have hsum : ∀ q : List Byte, byteSum ([0x01, m.id, 0x02] ++ q ++ [0x03]) =
      byteSum [0x01, m.id, 0x02] + byteSum q + byteSum [0x03] := by
    intro q
    rw [byteSum_append, byteSum_append]
  have hm' : IsMsg C ⟨m.id, p⟩ := ⟨ty, hty, by simp [hp, hpl]⟩
  obtain ⟨ms, hd, e⟩ := h.polled S hn hh
  constructor
  · intro hdel
    rw [e] at hdel
    cases ms with
    | nil => simp at hdel
    | cons m1 ms =>
      have hms : ms = [] := by
        have := congrArg List.length hdel
        simp at this
        exact this
      subst hms
      simp only [List.map_cons, List.map_nil, List.cons.injEq, and_true] at hdel
      obtain ⟨ty1, hty1, hpl1⟩ := hd.1.isMsg m1 (by simp)
      have hteq : ty1 = ty := by
        have := congrArg Prod.fst hdel
        simpa [meaning, hty, hty1] using this
      have hlen : (frame C.envelope m1).length = w.fed.length := by
        rw [frame_length, hfed, hs, hpl1, hteq, ← hpl, hE]
        simp [overhead, hp]
        omega
      obtain ⟨pre, post, e3⟩ := hd.1.piece m1 (by simp)
      have hl3 := congrArg List.length e3
      simp at hl3
      have hpre : pre = [] := List.eq_nil_of_length_eq_zero (by omega)
      have hpost : post = [] := List.eq_nil_of_length_eq_zero (by omega)
      rw [hpre, hpost, hfed, hs, hE] at e3
      simp only [List.nil_append, List.append_nil] at e3
      have hf : frame .basicChecksum m1 = [0x01, m1.id, 0x02] ++ m1.payload ++
        [0x03, byteSum ([0x01, m1.id, 0x02] ++ m1.payload ++ [0x03]), 0x04] := by simp [frame]
      rw [hf] at e3
      have hl2 : p.length = m1.payload.length := by rw [hp, hpl, hpl1, hteq]
      obtain ⟨e4, e5⟩ := List.append_inj e3 (by simp [hl2])
      simp at e4 e5
      obtain ⟨e4a, e4b⟩ := e4
      have e6 := e5
      rw [← e4a, ← e4b] at e6
      have hs1 := hsum m.payload
      have hs2 := hsum p
      simp only [List.cons_append, List.nil_append] at hs1 hs2
      rw [hs1, hs2] at e6
      have e7 := (UInt8.add_left_inj _).mp e6
      exact ((UInt8.add_right_inj _).mp e7).symm
  · intro hsumeq
    have hd' : Decodes C w.fed [⟨m.id, p⟩] [] := by
      refine ⟨?_, Or.inl rfl⟩
      have := Run.take hm' (Run.refl [])
      rw [List.append_nil] at this
      have hfr : frame C.envelope ⟨m.id, p⟩ = w.fed := by
        rw [hfed, hs, hE, hsum, ← hsumeq, ← hsum]
        simp [frame]
      rwa [hfr] at this
    rw [e, (hd.unique hd').1]
    rfl

/-- C32. With Basic every replaced payload of the same length is accepted. -/
theorem C32_basic (hE : C.envelope = .basic) (S : Setting C B user) (hn : NeverThrows user)
    {ops : List Op} {w : World C} {os : List Obs}
    (h : Reached B user fuel (ops ++ [.process]) w os) (hh : w.rx.hasHandler = true)
    {m : Msg} (hm : IsMsg C m) (p : List Byte) (hp : p.length = m.payload.length)
    (hfed : w.fed = withPayload C.envelope m p) :
    delivered w = [meaning C ⟨m.id, p⟩] ∧ buffered w = [] := by
  have hm' : IsMsg C ⟨m.id, p⟩ := by
    obtain ⟨ty, hty, hpl⟩ := hm
    exact ⟨ty, hty, by simp [hp, hpl]⟩
  refine C27_completed S hn h hh _ hm' ?_
  rw [hfed]
  unfold withPayload
  rw [hE]
  simp [frame, withPayload_drop]

theorem byteSum_perm {p q : List Byte} (h : p.Perm q) : byteSum p = byteSum q := by
  induction h with
  | nil => rfl
  | cons x _ ih => simp [byteSum, ih]
  | swap x y l => simp only [byteSum]; rw [← UInt8.add_assoc, ← UInt8.add_assoc, UInt8.add_comm x y]
  | trans _ _ h1 h2 => rw [h1, h2]

/-- C32. Any reordering of payload bytes is accepted as a message, with either envelope. -/
theorem C32_reordering (S : Setting C B user) (hn : NeverThrows user)
    {ops : List Op} {w : World C} {os : List Obs}
    (h : Reached B user fuel (ops ++ [.process]) w os) (hh : w.rx.hasHandler = true)
    {m : Msg} (hm : IsMsg C m) (p : List Byte) (hp : p.Perm m.payload)
    (hfed : w.fed = withPayload C.envelope m p) :
    delivered w = [meaning C ⟨m.id, p⟩] := by
  cases hE : C.envelope with
  | basic => exact (C32_basic hE S hn h hh hm p hp.length_eq hfed).1
  | basicChecksum => exact (C32_checksum hE S hn h hh hm p hp.length_eq hfed).mpr (byteSum_perm hp)

/-- Two payload bytes swapped: accepted. One payload byte changed: not. -/
example : ∃ (w w' : World Sample.checked) (os os' : List Obs),
    Reached Sample.dbg Sample.passive 50 ([.setHandler Sample.h0, .append
      (withPayload .basicChecksum Sample.mPose [1, 1, 0, 3, 2, 3, 4])] ++ [.process]) w os ∧
    delivered w = [meaning Sample.checked ⟨2, [1, 1, 0, 3, 2, 3, 4]⟩] ∧
    Reached Sample.dbg Sample.passive 50 ([.setHandler Sample.h0, .append
      (withPayload .basicChecksum Sample.mPose [1, 1, 0, 3, 3, 3, 4])] ++ [.process]) w' os' ∧
    delivered w' ≠ [meaning Sample.checked ⟨2, [1, 1, 0, 3, 3, 3, 4]⟩] := by
  obtain ⟨w, os, h, hp⟩ := Sample.reached (C := Sample.checked) (B := Sample.dbg)
    (user := Sample.passive) (fuel := 50) (ops := [.setHandler Sample.h0, .append
      (withPayload .basicChecksum Sample.mPose [1, 1, 0, 3, 2, 3, 4])] ++ [.process])
    (fun w _ => w.rx.hasHandler) (by decide +kernel)
  obtain ⟨w', os', h', hp'⟩ := Sample.reached (C := Sample.checked) (B := Sample.dbg)
    (user := Sample.passive) (fuel := 50) (ops := [.setHandler Sample.h0, .append
      (withPayload .basicChecksum Sample.mPose [1, 1, 0, 3, 3, 3, 4])] ++ [.process])
    (fun w _ => w.rx.hasHandler) (by decide +kernel)
  have hf := C25_fed_is_chunks Sample.setting_checked Sample.passive_quiet (by simp) h
  have hf' := C25_fed_is_chunks Sample.setting_checked Sample.passive_quiet (by simp) h'
  refine ⟨w, w', os, os', h, ?_, h', ?_⟩
  · exact (C32_checksum rfl Sample.setting_checked Sample.passive_neverThrows h hp
      (m := Sample.mPose) (by decide +kernel) [1, 1, 0, 3, 2, 3, 4] rfl
      (by rw [hf]; decide +kernel)).mpr (by decide +kernel)
  · intro hd
    have := (C32_checksum rfl Sample.setting_checked Sample.passive_neverThrows h' hp'
      (m := Sample.mPose) (by decide +kernel) [1, 1, 0, 3, 3, 3, 4] rfl
      (by rw [hf']; decide +kernel)).mp hd
    revert this
    decide +kernel

/-! ### C51 -/

/-- C51. With Basic, the id changed to another one of the same length gives the other message. -/
theorem C51_basic_id (hE : C.envelope = .basic) (S : Setting C B user) (hn : NeverThrows user)
    {ops : List Op} {w : World C} {os : List Obs}
    (h : Reached B user fuel (ops ++ [.process]) w os) (hh : w.rx.hasHandler = true)
    {m : Msg} (hm : IsMsg C m) (id' : Byte) (hid : announced C id' = announced C m.id)
    (hfed : w.fed = (frame C.envelope m).set 1 id') :
    delivered w = [meaning C ⟨id', m.payload⟩] ∧ buffered w = [] := by
  have hm' : IsMsg C ⟨id', m.payload⟩ := by
    obtain ⟨ty, hty, hpl⟩ := hm
    unfold announced at hid
    rw [hty] at hid
    cases ht : typeOf C id' with
    | none => simp [ht] at hid
    | some ty' =>
      simp [ht] at hid
      exact ⟨ty', ht, by simp [hpl, hid]⟩
  refine C27_completed S hn h hh _ hm' ?_
  rw [hfed, hE]
  simp [frame]

/-- Two types of the same length. -/
def twins : Collection := ⟨[⟨0, [.uint8]⟩, ⟨1, [.pod 0 1]⟩], .basic⟩

example : ∃ (w : World twins) (os : List Obs),
    Reached Sample.dbg Sample.passive 50 ([.setHandler Sample.h0, .append
      ((frame .basic ⟨0, [7]⟩).set 1 1)] ++ [.process]) w os ∧
    delivered w = [(⟨1, [.pod 0 1]⟩, [[7]])] := by
  obtain ⟨w, os, h, hp⟩ := Sample.reached (C := twins) (B := Sample.dbg)
    (user := Sample.passive) (fuel := 50) (ops := [.setHandler Sample.h0, .append
      ((frame .basic ⟨0, [7]⟩).set 1 1)] ++ [.process])
    (fun w _ => w.rx.hasHandler) (by decide +kernel)
  have S : Setting twins Sample.dbg Sample.passive :=
    ⟨⟨by decide, by decide⟩, Sample.passive_benign⟩
  have hf := C25_fed_is_chunks S Sample.passive_quiet (by simp) h
  exact ⟨w, os, h, (C51_basic_id rfl S Sample.passive_neverThrows h hp (m := ⟨0, [7]⟩)
    (by decide +kernel) 1 (by decide +kernel) (by rw [hf]; decide +kernel)).1⟩

/-- C51. With BasicChecksum, the id changed to another one of the same length is never accepted:
what is delivered is what the stream without its first byte contains. -/
theorem C51_checksum_id (hE : C.envelope = .basicChecksum) (S : Setting C B user)
    (hn : NeverThrows user) {ops : List Op} {w : World C} {os : List Obs}
    (h : Reached B user fuel (ops ++ [.process]) w os) (hh : w.rx.hasHandler = true)
    {m : Msg} (hm : IsMsg C m) (id' : Byte) (hne : id' ≠ m.id)
    (hid : announced C id' = announced C m.id) (u : List Byte)
    (hfed : w.fed = (frame C.envelope m).set 1 id' ++ u) :
    ∃ ms, Decodes C (w.fed.drop 1) ms (buffered w) ∧ delivered w = ms.map (meaning C) := by
  obtain ⟨rest, hr⟩ := frame_cons C.envelope m
  have hx : (frame C.envelope m)[1]? = some m.id := by rw [hr]; rfl
  have hf : w.fed = 0x01 :: id' :: 0x02 :: (rest ++ u) := by rw [hfed, hr]; rfl
  have hlen : (frame C.envelope m).length ≤ w.fed.length := by rw [hfed]; simp
  have h1 : ¬ Starts C w.fed := by
    rintro ⟨m', t, hm', e⟩
    obtain ⟨rest', hr'⟩ := frame_cons C.envelope m'
    have : id' = m'.id := by
      rw [hf, hr'] at e; simp at e; exact e.1
    have ha' := hm'.announced
    rw [← this, hid, hm.announced] at ha'
    rw [hfed] at e
    exact C31_same_length hE hx hne m' (Option.some.inj ha').symm u t e
  have h2 : ¬ Waiting C w.fed := by
    rintro (e | ⟨id, _, e⟩ | ⟨id, rest', n, hn, e, hlt⟩)
    · rw [hf] at e; simp at e
    · rw [hf] at e; simp at e
    · have : id = id' := by rw [hf] at e; simp at e; exact e.1.symm
      rw [this, hid, hm.announced] at hn
      have := Option.some.inj hn
      omega
  obtain ⟨ms, hd, e⟩ := h.polled S hn hh
  obtain ⟨ms', r, hd'⟩ := decodes_exists C (w.fed.drop 1)
  rw [hf] at hd hd' h1 h2 ⊢
  simp only [List.drop_succ_cons, List.drop_zero] at hd' ⊢
  obtain ⟨e1, e2⟩ := hd.unique ⟨Run.skip h1 h2 hd'.1, hd'.2⟩
  exact ⟨ms', by rw [e2]; exact hd', by rw [e, e1]⟩

/-- The same two types with checksums: the changed id is not delivered. -/
example : ∃ (w : World ⟨twins.messages, .basicChecksum⟩) (os : List Obs),
    Reached Sample.dbg Sample.passive 50 ([.setHandler Sample.h0, .append
      ((frame .basicChecksum ⟨0, [7]⟩).set 1 1)] ++ [.process]) w os ∧
    ∃ ms, Decodes ⟨twins.messages, .basicChecksum⟩ (w.fed.drop 1) ms (buffered w) := by
  obtain ⟨w, os, h, hp⟩ := Sample.reached (C := ⟨twins.messages, .basicChecksum⟩)
    (B := Sample.dbg) (user := Sample.passive) (fuel := 50) (ops := [.setHandler Sample.h0, .append
      ((frame .basicChecksum ⟨0, [7]⟩).set 1 1)] ++ [.process])
    (fun w _ => w.rx.hasHandler) (by decide +kernel)
  have S : Setting ⟨twins.messages, .basicChecksum⟩ Sample.dbg Sample.passive :=
    ⟨⟨by decide, by decide⟩, Sample.passive_benign⟩
  have hf := C25_fed_is_chunks S Sample.passive_quiet (by simp) h
  obtain ⟨ms, h1, _⟩ := C51_checksum_id rfl S Sample.passive_neverThrows h hp (m := ⟨0, [7]⟩)
    (by decide +kernel) 1 (by decide) (by decide +kernel) [] (by rw [hf]; decide +kernel)
  exact ⟨w, os, h, ms, h1⟩

/-- C51. Witness: with BasicChecksum an id changed to that of a shorter message can be accepted. -/
theorem C51_shorter_witness : ∃ (w : World Sample.checked) (os : List Obs),
    Reached Sample.dbg Sample.passive 50 ([.setHandler Sample.h0, .append
      ((frame .basicChecksum ⟨2, [3, 6, 4, 9, 9, 9, 9]⟩).set 1 0)] ++ [.process]) w os ∧
    delivered w = [(Sample.ping, [])] := by
  obtain ⟨w, os, h, hp⟩ := Sample.reached (C := Sample.checked) (B := Sample.dbg)
    (user := Sample.passive) (fuel := 50) (ops := [.setHandler Sample.h0, .append
      ((frame .basicChecksum ⟨2, [3, 6, 4, 9, 9, 9, 9]⟩).set 1 0)] ++ [.process])
    (fun w _ => decide (delivered w = [(Sample.ping, [])])) (by decide +kernel)
  exact ⟨w, os, h, by simpa using hp⟩

end TT.Properties
