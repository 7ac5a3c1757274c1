import Verif.Model.LimitedBus
import Verif.Properties.Gateway
import Verif.Properties.Recovery

/-!
# Property C130: a bus library that takes only so many bytes at once
-/

namespace TT.Properties
open Spec

variable {C : Collection} {B : Build} {user : UserCode} {fuel : Nat}

theorem limited_data (limit : Nat) (s : I2CState) (os : List Out) (h : ∀ o ∈ os, o ≠ .finished) :
    feed (limitedI2C limit) s os = feed arduinoI2C s os := by
  induction os generalizing s with
  | nil => rfl
  | cons o os ih =>
    have ho : o.on (limitedI2C limit) s = o.on arduinoI2C s := by
      cases o with
      | byte b => rfl
      | block bs => rfl
      | finished => exact absurd rfl (h _ (by simp))
    rw [feed_cons, feed_cons, ho]
    congr 1
    funext s'
    exact ih s' fun o' ho' => h o' (by simp [ho'])

/-- C130. The sender does not notice: the `send` calls succeed, and each transaction is the beginning of its message. -/
theorem C130_sent (limit : Nat) (s : I2CState) (hs : I2CState.Idle s) (rs : List Request)
    (h : ∀ r ∈ rs, Sendable r.C r.t r.vs) (hl : ∀ r ∈ rs, (wire r.C r.t r.vs).length ≤ 255) :
    ∃ s', sendAll (limitedI2C limit) s rs = some (.ok s') ∧
      s'.wire = s.wire ++ rs.map (fun r => (wire r.C r.t r.vs).take limit) := by
  induction rs generalizing s with
  | nil => exact ⟨s, rfl, by simp⟩
  | cons r rs ih =>
    have hr := h r (by simp)
    have hid := idOf_idxOf hr.1 hr.2.1
    have h1 : ∃ s1, send r.C r.t (limitedI2C limit) s r.vs = some (.ok s1) ∧
        s1.wire = s.wire ++ [(wire r.C r.t r.vs).take limit] ∧ I2CState.Idle s1 := by
      obtain ⟨os, e, hne, hb⟩ := script_split r.C.envelope (UInt8.ofNat (r.C.messages.idxOf r.t)) r.vs
      obtain ⟨b, h1, h2, h3, h4⟩ := ArrayBuf.write_ok
        (frame r.C.envelope ⟨UInt8.ofNat (r.C.messages.idxOf r.t), payloadOf r.vs⟩) s.bufTx
        (by
          have := hl r (by simp)
          simp only [wire] at this
          rw [hs.1, hs.2]; omega)
      refine ⟨{ bufTx := b.reset, wire := s.wire ++ [b.range.take limit] }, ?_, ?_, rfl, ?_⟩
      · rw [send_eq r.C r.t _ _ r.vs hr hid, e, feed_finished, limited_data _ _ _ hne, i2c_data _ _ hne, hb, h1]
        rfl
      · have : b.range = wire r.C r.t r.vs := by
          rw [h2]; simp [ArrayBuf.range, hs.1, wire]
        rw [this]
      · simp [ArrayBuf.reset, h4, hs.2]
    obtain ⟨s1, h1, h2, h3⟩ := h1
    obtain ⟨s2, h4, h5⟩ := ih s1 h3 (fun r' hr' => h r' (by simp [hr'])) (fun b hb => hl b (by simp [hb]))
    refine ⟨s2, ?_, by rw [h5, h2]; simp⟩
    unfold sendAll
    rw [h1]
    exact h4

/-- C130. For messages within the limit the transmitter writes what `ArduinoI2C` writes without a limit. -/
theorem C130_same (limit : Nat) (s : I2CState) (hs : I2CState.Idle s) (rs : List Request)
    (h : ∀ r ∈ rs, Sendable r.C r.t r.vs) (hl : ∀ r ∈ rs, (wire r.C r.t r.vs).length ≤ 255)
    (hlim : ∀ r ∈ rs, (wire r.C r.t r.vs).length ≤ limit) :
    ∃ s1 s2, sendAll (limitedI2C limit) s rs = some (.ok s1) ∧ sendAll arduinoI2C s rs = some (.ok s2) ∧ s1.wire = s2.wire := by
  obtain ⟨s1, h1, e1⟩ := C130_sent limit s hs rs h hl
  obtain ⟨s2, h2, e2⟩ := C48_i2c_sequence s hs rs h hl
  refine ⟨s1, s2, h1, h2, ?_⟩
  rw [e1, e2]
  exact congrArg _ (List.map_congr_left fun r hr => List.take_of_length_le (hlim r hr))

/-- What the requests put on such a bus. -/
theorem cut_lines {limit : Nat} {s : I2CState} {rs : List Request} (hrs : ∀ r ∈ rs, r.Good C)
    (hl : ∀ r ∈ rs, sizeofBound C r.t ≤ 255) (hs : sendAll (limitedI2C limit) ⟨ArrayBuf.new 255, []⟩ rs = some (.ok s)) :
    s.wire = rs.map fun r => (frame C.envelope r.msg).take limit := by
  obtain ⟨s', h1, h2⟩ := C130_sent limit ⟨ArrayBuf.new 255, []⟩ ⟨rfl, List.length_replicate⟩ rs
    (fun r hr => by rw [(hrs r hr).1]; exact (hrs r hr).2.1)
    (fun r hr => by rw [(hrs r hr).wire, (hrs r hr).length]; exact hl r hr)
  rw [hs] at h1
  obtain rfl : s = s' := by simpa using h1
  rw [h2, List.nil_append]
  exact List.map_congr_left fun r hr => by rw [(hrs r hr).wire]

theorem short_lines {limit : Nat} {rs : List Request} (hrs : ∀ r ∈ rs, r.Good C) (hl : ∀ r ∈ rs, sizeofBound C r.t ≤ limit) :
    (rs.map fun r => (frame C.envelope r.msg).take limit).flatten = frames C.envelope (rs.map Request.msg) := by
  rw [frames, List.map_map]
  refine congrArg List.flatten (List.map_congr_left fun r hr => ?_)
  exact List.take_of_length_le (by rw [(hrs r hr).length]; exact hl r hr)

/-- C130. If all messages sent are of types that fit, all of them arrive. -/
theorem C130_fits (S : Setting C B user) (hn : NeverThrows user) {limit : Nat} {rs : List Request}
    (hrs : ∀ r ∈ rs, r.Good C) (hl : ∀ r ∈ rs, sizeofBound C r.t ≤ limit ∧ sizeofBound C r.t ≤ 255) {s : I2CState}
    (hs : sendAll (limitedI2C limit) ⟨ArrayBuf.new 255, []⟩ rs = some (.ok s)) {ops : List Op} {w : World C} {os : List Obs}
    (h : Reached B user fuel (ops ++ [.process]) w os) (hh : w.rx.hasHandler = true) (hfed : w.fed = s.wire.flatten) :
    delivered w = rs.map (fun r => (r.t, r.vs.map (·.bytes))) ∧ buffered w = [] :=
  arrives_frames hrs B user fuel ops w os S hn h hh
    (by rw [hfed, cut_lines hrs (fun r hr => (hl r hr).2) hs, short_lines hrs fun r hr => (hl r hr).1])

theorem cut_first {limit : Nat} (h3 : 3 ≤ limit) (E : Envelope) (m : Msg) :
    ∃ t, (frame E m).take limit = 0x01 :: m.id :: 0x02 :: t ∧ ∀ b ∈ (m.id :: 0x02 :: t), b ∈ (frame E m).drop 1 := by
  obtain ⟨t, et⟩ := frame_cons E m
  obtain ⟨k, rfl⟩ := Nat.exists_eq_add_of_le' h3
  refine ⟨t.take k, by rw [et]; rfl, ?_⟩
  intro b hb
  rw [et]
  simp only [List.mem_cons, List.drop_succ_cons, List.drop_zero] at hb ⊢
  rcases hb with h | h | h
  · exact Or.inl h
  · exact Or.inr (Or.inl h)
  · exact Or.inr (Or.inr (List.mem_of_mem_take h))

/-- C130, without a checksum. A message that does not fit, followed by messages that together are as long as the part cut
off: one message is delivered, of the type of the first, and its contents are made of the beginning of the first and of the
others; the others are not delivered. -/
theorem C130_forged (hE : C.envelope = .basic) (S : Setting C B user) (hn : NeverThrows user) {limit : Nat} (h3 : 3 ≤ limit)
    {r : Request} {rs : List Request} (hr : r.Good C) (hrs : ∀ r' ∈ rs, r'.Good C) (hl : ∀ r' ∈ r :: rs, sizeofBound C r'.t ≤ 255)
    (hfit : ∀ r' ∈ rs, sizeofBound C r'.t ≤ limit) (hne : rs ≠ [])
    (hsum : limit + (rs.map fun r' => sizeofBound C r'.t).sum = sizeofBound C r.t) {s : I2CState}
    (hs : sendAll (limitedI2C limit) ⟨ArrayBuf.new 255, []⟩ (r :: rs) = some (.ok s)) {ops : List Op} {w : World C} {os : List Obs}
    (h : Reached B user fuel (ops ++ [.process]) w os) (hh : w.rx.hasHandler = true) (hfed : w.fed = s.wire.flatten) :
    delivered w = [meaning C ⟨r.msg.id,
      (((wire r.C r.t r.vs).take limit).drop 3 ++ (frames C.envelope (rs.map Request.msg)).dropLast.dropLast)⟩] ∧
    buffered w = [] := by
  have hall : ∀ r' ∈ r :: rs, r'.Good C := by
    intro r' h'
    rcases List.mem_cons.mp h' with rfl | h'
    · exact hr
    · exact hrs r' h'
  have hline : w.fed = (frame C.envelope r.msg).take limit ++ frames C.envelope (rs.map Request.msg) := by
    rw [hfed, cut_lines hall hl hs, List.map_cons, List.flatten_cons, short_lines hrs hfit]
  -- the others end like a message
  obtain ⟨u, hu⟩ : ∃ u, frames C.envelope (rs.map Request.msg) = u ++ [0x03, 0x04] := by
    obtain ⟨rs', l, e⟩ : ∃ rs' l, rs = rs' ++ [l] := ⟨rs.dropLast, rs.getLast hne, (List.dropLast_concat_getLast hne).symm⟩
    refine ⟨frames C.envelope (rs'.map Request.msg) ++ ([0x01, l.msg.id, 0x02] ++ l.msg.payload), ?_⟩
    rw [e, List.map_append, frames_append, hE]
    simp [frames, frame]
  have hlen2 : (frames C.envelope (rs.map Request.msg)).length = (rs.map fun r' => sizeofBound C r'.t).sum := by
    rw [frames, List.length_flatten, List.map_map, List.map_map]
    congr 1
    exact List.map_congr_left fun r' hr' => (hrs r' hr').length
  have hlen := hr.length
  obtain ⟨t, et, _⟩ := cut_first h3 C.envelope r.msg
  have hm := hr.isMsg
  have hlt : (frame C.envelope r.msg).length = limit + (u.length + 2) := by
    rw [hlen, ← hsum, ← hlen2, hu]
    simp
  have htl : t.length + 3 = limit := by
    have := congrArg List.length et
    rw [List.length_take, Nat.min_eq_left (by omega)] at this
    simp only [List.length_cons] at this
    omega
  have hpl : (t ++ u).length = r.msg.payload.length := by
    rw [frame_length, hE] at hlt
    simp only [overhead, List.length_append] at hlt ⊢
    omega
  have hm' : IsMsg C ⟨r.msg.id, t ++ u⟩ := by
    obtain ⟨ty, h1, h2⟩ := hm
    exact ⟨ty, h1, by rw [hpl]; exact h2⟩
  have e1 : w.fed = frame C.envelope ⟨r.msg.id, t ++ u⟩ ++ [] := by
    rw [hline, et, hu, hE]
    simp [frame]
  have e2 : ((wire r.C r.t r.vs).take limit).drop 3 ++ (frames C.envelope (rs.map Request.msg)).dropLast.dropLast = t ++ u := by
    rw [hr.wire, et, hu]
    simp
  rw [e2]
  exact polled_eq S hn h hh ⟨by rw [e1]; exact Run.take hm' (Run.refl _), Or.inl rfl⟩

/-- C130, both envelopes. A message that does not fit, followed by at least as many bytes of other messages as have been cut
off: unless this happens to look like a message, it is lost and all others arrive. -/
theorem C130_lost (S : Setting C B user) (hn : NeverThrows user) {limit : Nat} (h3 : 3 ≤ limit)
    {r : Request} {rs : List Request} (hr : r.Good C) (hrs : ∀ r' ∈ rs, r'.Good C) (hl : ∀ r' ∈ r :: rs, sizeofBound C r'.t ≤ 255)
    (hp : Solid C r.msg)
    (hone : ((wire r.C r.t r.vs).take limit).getLast? = some 0x01 → typeOf C 0x01 ≠ none → ∀ r' ∈ rs.head?, r'.msg.id ≠ 0x02)
    (hfit : ∀ r' ∈ rs, sizeofBound C r'.t ≤ limit)
    (hsum : sizeofBound C r.t ≤ limit + (rs.map fun r' => sizeofBound C r'.t).sum) (hlong : limit < sizeofBound C r.t)
    {s : I2CState} (hs : sendAll (limitedI2C limit) ⟨ArrayBuf.new 255, []⟩ (r :: rs) = some (.ok s))
    (hno : ¬ Starts C s.wire.flatten) {ops : List Op} {w : World C} {os : List Obs}
    (h : Reached B user fuel (ops ++ [.process]) w os) (hh : w.rx.hasHandler = true) (hfed : w.fed = s.wire.flatten) :
    delivered w = rs.map (fun r => (r.t, r.vs.map (·.bytes))) ∧ buffered w = [] := by
  have hall : ∀ r' ∈ r :: rs, r'.Good C := by
    intro r' h'
    rcases List.mem_cons.mp h' with rfl | h'
    · exact hr
    · exact hrs r' h'
  have hline : s.wire.flatten = (frame C.envelope r.msg).take limit ++ frames C.envelope (rs.map Request.msg) := by
    rw [cut_lines hall hl hs, List.map_cons, List.flatten_cons, short_lines hrs hfit]
  have hlen2 : (frames C.envelope (rs.map Request.msg)).length = (rs.map fun r' => sizeofBound C r'.t).sum := by
    rw [frames, List.length_flatten, List.map_map, List.map_map]
    congr 1
    exact List.map_congr_left fun r' hr' => (hrs r' hr').length
  obtain ⟨t, et, ht⟩ := cut_first h3 C.envelope r.msg
  have hlen := hr.length
  have hms : ∀ m ∈ rs.map Request.msg, IsMsg C m := by
    intro m hm
    obtain ⟨r', hr', rfl⟩ := List.mem_map.mp hm
    exact (hrs r' hr').isMsg
  have hrun : Run C (frames C.envelope (rs.map Request.msg)) (rs.map Request.msg) [] := by
    have := run_frames hms []
    rw [List.append_nil] at this
    exact this
  have key : Run C s.wire.flatten (rs.map Request.msg) [] := by
    have e : s.wire.flatten = 0x01 :: ((r.msg.id :: 0x02 :: t) ++ frames C.envelope (rs.map Request.msg)) := by
      rw [hline, et]; rfl
    rw [e] at hno ⊢
    refine Run.skip hno ?_ ?_
    rotate_left
    · obtain ⟨r₁, rs', rfl⟩ : ∃ r₁ rs', rs = r₁ :: rs' := by
        cases rs with
        | nil => simp at hsum; omega
        | cons a b => exact ⟨a, b, rfl⟩
      obtain ⟨f, hf⟩ := frame_cons C.envelope r₁.msg
      refine run_solid_cut hp (x := r₁.msg.id) (by rw [List.map_cons, frames_cons, hf]; rfl)
        (by rw [List.map_cons, frames_cons, hf]; rfl) hrun _ [0x01] ((frame C.envelope r.msg).drop limit) (by simp) ?_ fun e e2 => ?_
      · have := List.take_append_drop limit (frame C.envelope r.msg)
        rw [et] at this
        exact this.symm
      · apply Classical.byContradiction
        intro h1
        refine hone ?_ h1 r₁ (by simp) e2
        rw [hr.wire, et, List.getLast?_cons_cons]
        exact e
    refine not_waiting_of_length (by rfl) hr.isMsg.announced (by simp) ?_
    have := congrArg List.length et
    rw [List.length_take, Nat.min_eq_left (by omega)] at this
    simp only [List.length_cons, List.length_append] at this ⊢
    omega
  have := polled_eq S hn h hh (ms := rs.map Request.msg) (r := []) ⟨by rw [hfed]; exact key, Or.inl rfl⟩
  refine ⟨?_, this.2⟩
  rw [this.1, List.map_map]
  exact List.map_congr_left fun r' hr' => (hrs r' hr').meaning

/-- C130. With fewer bytes behind it, it holds back everything. -/
theorem C130_held (S : Setting C B user) (hn : NeverThrows user) {limit : Nat} (h3 : 3 ≤ limit)
    {r : Request} {rs : List Request} (hr : r.Good C) (hrs : ∀ r' ∈ rs, r'.Good C) (hl : ∀ r' ∈ r :: rs, sizeofBound C r'.t ≤ 255)
    (hfit : ∀ r' ∈ rs, sizeofBound C r'.t ≤ limit)
    (hsum : limit + (rs.map fun r' => sizeofBound C r'.t).sum < sizeofBound C r.t)
    {s : I2CState} (hs : sendAll (limitedI2C limit) ⟨ArrayBuf.new 255, []⟩ (r :: rs) = some (.ok s))
    {ops : List Op} {w : World C} {os : List Obs}
    (h : Reached B user fuel (ops ++ [.process]) w os) (hh : w.rx.hasHandler = true) (hfed : w.fed = s.wire.flatten) :
    delivered w = [] ∧ buffered w = w.fed := by
  have hall : ∀ r' ∈ r :: rs, r'.Good C := by
    intro r' h'
    rcases List.mem_cons.mp h' with rfl | h'
    · exact hr
    · exact hrs r' h'
  have hline : w.fed = (frame C.envelope r.msg).take limit ++ frames C.envelope (rs.map Request.msg) := by
    rw [hfed, cut_lines hall hl hs, List.map_cons, List.flatten_cons, short_lines hrs hfit]
  have hlen2 : (frames C.envelope (rs.map Request.msg)).length = (rs.map fun r' => sizeofBound C r'.t).sum := by
    rw [frames, List.length_flatten, List.map_map, List.map_map]
    congr 1
    exact List.map_congr_left fun r' hr' => (hrs r' hr').length
  obtain ⟨t, et, ht⟩ := cut_first h3 C.envelope r.msg
  have hlen := hr.length
  refine polled_eq S hn h hh (ms := []) ⟨Run.refl _, Or.inr (Or.inr (Or.inr
    ⟨r.msg.id, t ++ frames C.envelope (rs.map Request.msg), _, hr.isMsg.announced, by rw [hline, et]; rfl, ?_⟩))⟩
  have := congrArg List.length et
  rw [List.length_take, Nat.min_eq_left (by omega)] at this
  rw [hline, et]
  simp only [List.length_cons, List.length_append] at this ⊢
  omega

/-- The pose and an empty message behind it, without a checksum. -/
def poseThenPing : List Request :=
  [⟨Sample.basic, Sample.pose, [⟨.uint8, [5]⟩, ⟨.pod 0 4, [6, 7, 8, 9]⟩, ⟨.pod 1 2, [10, 11]⟩]⟩, ⟨Sample.basic, Sample.ping, []⟩]

/-- With a limit of seven bytes: the receiver is told a pose that nobody sent. -/
example : ∃ (s : I2CState) (w : World Sample.basic) (os : List Obs),
    sendAll (limitedI2C 7) ⟨ArrayBuf.new 255, []⟩ poseThenPing = some (.ok s) ∧
    Reached Sample.dbg Sample.passive 50 ([.setHandler Sample.h0, .append s.wire.flatten] ++ [.process]) w os ∧
    delivered w ≠ poseThenPing.map (fun r => (r.t, r.vs.map (·.bytes))) ∧
    (delivered w).map (·.1) = [Sample.pose] ∧ buffered w = [] := by
  have hg : ∀ r ∈ poseThenPing, r.Good Sample.basic := by decide +kernel
  have hl : ∀ r ∈ poseThenPing, sizeofBound Sample.basic r.t ≤ 255 := by decide +kernel
  obtain ⟨s, hs, _⟩ := C130_sent 7 ⟨ArrayBuf.new 255, []⟩ ⟨rfl, List.length_replicate⟩ poseThenPing
    (by decide +kernel) (by decide +kernel)
  have hw := cut_lines hg hl hs
  obtain ⟨w, os, h, hp⟩ := Sample.reached (C := Sample.basic) (B := Sample.dbg) (user := Sample.passive) (fuel := 50)
    (ops := [.setHandler Sample.h0, .append (poseThenPing.map fun r => (frame Sample.basic.envelope r.msg).take 7).flatten] ++ [.process])
    (fun w _ => w.rx.hasHandler) (by decide +kernel)
  have hf := C25_fed_is_chunks Sample.setting_basic Sample.passive_quiet (by simp) h
  have key := C130_forged (r := ⟨Sample.basic, Sample.pose, [⟨.uint8, [5]⟩, ⟨.pod 0 4, [6, 7, 8, 9]⟩, ⟨.pod 1 2, [10, 11]⟩]⟩) (rs := [⟨Sample.basic, Sample.ping, []⟩]) rfl
    Sample.setting_basic Sample.passive_neverThrows (by decide) (hg _ (by simp [poseThenPing])) (by decide +kernel) (by decide +kernel)
    (by decide +kernel) (by simp) (by decide +kernel) hs h hp (by rw [hf, hw]; simp [chunks])
  refine ⟨s, w, os, hs, by rw [hw]; exact h, ?_, ?_, key.2⟩
  · rw [key.1]; decide +kernel
  · rw [key.1]; decide +kernel

/-- With a checksum the pose is lost and the two messages behind it arrive. -/
def poseThenPings : List Request :=
  [⟨Sample.checked, Sample.pose, [⟨.uint8, [5]⟩, ⟨.pod 0 4, [6, 7, 8, 9]⟩, ⟨.pod 1 2, [10, 11]⟩]⟩, ⟨Sample.checked, Sample.ping, []⟩, ⟨Sample.checked, Sample.ping, []⟩]

example : ∃ (s : I2CState) (w : World Sample.checked) (os : List Obs),
    sendAll (limitedI2C 8) ⟨ArrayBuf.new 255, []⟩ poseThenPings = some (.ok s) ∧
    Reached Sample.dbg Sample.passive 50 ([.setHandler Sample.h0, .append s.wire.flatten] ++ [.process]) w os ∧
    delivered w = [(Sample.ping, []), (Sample.ping, [])] ∧ buffered w = [] := by
  have hg : ∀ r ∈ poseThenPings, r.Good Sample.checked := by decide +kernel
  have hl : ∀ r ∈ poseThenPings, sizeofBound Sample.checked r.t ≤ 255 := by decide +kernel
  obtain ⟨s, hs, _⟩ := C130_sent 8 ⟨ArrayBuf.new 255, []⟩ ⟨rfl, List.length_replicate⟩ poseThenPings
    (by decide +kernel) (by decide +kernel)
  have hw := cut_lines hg hl hs
  obtain ⟨w, os, h, hp⟩ := Sample.reached (C := Sample.checked) (B := Sample.dbg) (user := Sample.passive) (fuel := 50)
    (ops := [.setHandler Sample.h0, .append (poseThenPings.map fun r => (frame Sample.checked.envelope r.msg).take 8).flatten] ++ [.process])
    (fun w _ => w.rx.hasHandler) (by decide +kernel)
  have hf := C25_fed_is_chunks Sample.setting_checked Sample.passive_quiet (by simp) h
  refine ⟨s, w, os, hs, by rw [hw]; exact h, ?_⟩
  refine C130_lost (limit := 8) (r := ⟨Sample.checked, Sample.pose, [⟨.uint8, [5]⟩, ⟨.pod 0 4, [6, 7, 8, 9]⟩, ⟨.pod 1 2, [10, 11]⟩]⟩)
    (rs := [⟨Sample.checked, Sample.ping, []⟩, ⟨Sample.checked, Sample.ping, []⟩])
    Sample.setting_checked Sample.passive_neverThrows (by decide) (hg _ (by simp [poseThenPings])) (by decide +kernel)
    (by decide +kernel) (by decide +kernel) (by decide +kernel) (by decide +kernel) (by decide +kernel) (by decide +kernel) hs ?_ h hp
    (by rw [hf, hw]; simp [chunks])
  rw [hw]
  intro hst
  exact absurd (starts_trailer hst (id := 2) (n := 13) (by decide +kernel) (by decide +kernel)).2 (by decide +kernel)

/-- With one message behind it, nothing arrives yet. -/
example : ∃ (s : I2CState) (w : World Sample.checked) (os : List Obs),
    sendAll (limitedI2C 6) ⟨ArrayBuf.new 255, []⟩ (poseThenPings.take 2) = some (.ok s) ∧
    Reached Sample.dbg Sample.passive 50 ([.setHandler Sample.h0, .append s.wire.flatten] ++ [.process]) w os ∧
    delivered w = [] ∧ (buffered w).length = 12 := by
  have hg : ∀ r ∈ poseThenPings.take 2, r.Good Sample.checked := by decide +kernel
  have hl : ∀ r ∈ poseThenPings.take 2, sizeofBound Sample.checked r.t ≤ 255 := by decide +kernel
  obtain ⟨s, hs, _⟩ := C130_sent 6 ⟨ArrayBuf.new 255, []⟩ ⟨rfl, List.length_replicate⟩ (poseThenPings.take 2)
    (by decide +kernel) (by decide +kernel)
  have hw := cut_lines hg hl hs
  obtain ⟨w, os, h, hp⟩ := Sample.reached (C := Sample.checked) (B := Sample.dbg) (user := Sample.passive) (fuel := 50)
    (ops := [.setHandler Sample.h0,
      .append ((poseThenPings.take 2).map fun r => (frame Sample.checked.envelope r.msg).take 6).flatten] ++ [.process])
    (fun w _ => w.rx.hasHandler) (by decide +kernel)
  have hf := C25_fed_is_chunks Sample.setting_checked Sample.passive_quiet (by simp) h
  refine ⟨s, w, os, hs, by rw [hw]; exact h, ?_⟩
  have key := C130_held (limit := 6) (r := ⟨Sample.checked, Sample.pose, [⟨.uint8, [5]⟩, ⟨.pod 0 4, [6, 7, 8, 9]⟩, ⟨.pod 1 2, [10, 11]⟩]⟩)
    (rs := [⟨Sample.checked, Sample.ping, []⟩])
    Sample.setting_checked Sample.passive_neverThrows (by decide) (hg _ (by simp [poseThenPings])) (by decide +kernel)
    (by decide +kernel) (by decide +kernel) (by decide +kernel) hs h hp
    (by rw [hf, hw]; simp [chunks])
  exact ⟨key.1, by rw [key.2, hf]; decide +kernel⟩

/-- And with a limit of thirteen bytes, everything arrives. -/
example : ∃ (s : I2CState) (w : World Sample.checked) (os : List Obs),
    sendAll (limitedI2C 13) ⟨ArrayBuf.new 255, []⟩ requests3 = some (.ok s) ∧
    Reached Sample.dbg Sample.passive 50 (session3 ++ [.process]) w os ∧
    (delivered w).length = 3 ∧ buffered w = [] := by
  have hg : ∀ r ∈ requests3, r.Good Sample.checked := by decide +kernel
  have hl : ∀ r ∈ requests3, sizeofBound Sample.checked r.t ≤ 13 ∧ sizeofBound Sample.checked r.t ≤ 255 := by decide +kernel
  obtain ⟨s, hs, _⟩ := C130_sent 13 ⟨ArrayBuf.new 255, []⟩ ⟨rfl, List.length_replicate⟩ requests3
    (by decide +kernel) (by decide +kernel)
  have hw := cut_lines hg (fun r hr => (hl r hr).2) hs
  obtain ⟨w, os, h, hp⟩ := Sample.reached (C := Sample.checked) (B := Sample.dbg) (user := Sample.passive) (fuel := 50)
    (ops := session3 ++ [.process]) (fun w _ => w.rx.hasHandler) (by decide +kernel)
  have hf := C25_fed_is_chunks Sample.setting_checked Sample.passive_quiet (by simp [session3]) h
  have key := C130_fits Sample.setting_checked Sample.passive_neverThrows hg hl hs h hp
    (by rw [hf, hw]; decide +kernel)
  exact ⟨s, w, os, hs, h, by rw [key.1]; rfl, key.2⟩

end TT.Properties
