import Verif.Properties.EndToEnd

/-!
# Properties of damaged lines: C56 (lost byte), C57 (inserted byte), C58 (false start),
C59 (unescaped payload)
-/

namespace TT.Properties
open Spec

variable {C : Collection} {B : Build} {user : UserCode} {fuel : Nat}

/-! ### Helpers -/

theorem frame_last (E : Envelope) (m : Msg) :
    (frame E m)[(frame E m).length - 1]? = some 0x04 := by
  rw [← List.getLast?_eq_getElem?]
  cases E
  · exact List.getLast?_concat (l := [0x01, m.id, 0x02] ++ m.payload ++ [0x03]) (a := 0x04) ▸ by
      simp [frame]
  · exact List.getLast?_concat (l := [0x01, m.id, 0x02] ++ m.payload ++ [0x03] ++
      [byteSum ([0x01, m.id, 0x02] ++ m.payload ++ [0x03])]) (a := 0x04) ▸ by simp [frame]

theorem frame_id (E : Envelope) (m : Msg) (t : List Byte) : (frame E m ++ t)[1]? = some m.id := by
  cases E <;> simp [frame]

/-- If the byte where the announced message would end is not EOT, no message starts here. -/
theorem not_starts_of_end {s : List Byte} {id : Byte} {n : Nat} (h1 : s[1]? = some id)
    (hn : announced C id = some n) (he : s[n - 1]? ≠ some 0x04) : ¬ Starts C s := by
  rintro ⟨m, t, hm, rfl⟩
  rw [frame_id] at h1
  have ha := hm.announced
  rw [Option.some.inj h1, hn] at ha
  have hl := Option.some.inj ha
  apply he
  have hpos : 0 < (frame C.envelope m).length := by
    have := frame_length C.envelope m
    have := overhead_pos C.envelope
    omega
  rw [List.getElem?_append_left (by omega), hl]
  exact frame_last C.envelope m

theorem not_starts_of_invalid {s : List Byte} {id : Byte} (h1 : s[1]? = some id)
    (hn : typeOf C id = none) : ¬ Starts C s := by
  rintro ⟨m, t, ⟨ty, hty, _⟩, rfl⟩
  rw [frame_id] at h1
  rw [Option.some.inj h1, hn] at hty
  simp at hty

theorem not_waiting_of_length {s : List Byte} {id : Byte} {n : Nat} (h1 : s[1]? = some id)
    (hn : announced C id = some n) (h3 : 3 ≤ s.length) (hl : n ≤ s.length) : ¬ Waiting C s := by
  rintro (rfl | ⟨id', _, rfl⟩ | ⟨id', rest, n', hn', rfl, hlt⟩)
  · simp at h3
  · simp at h3
  · simp at h1
    rw [h1, hn] at hn'
    have := Option.some.inj hn'
    omega

theorem announced_ge {id : Byte} {n : Nat} (h : announced C id = some n) : 5 ≤ n := by
  unfold announced at h
  cases ht : typeOf C id with
  | none => simp [ht] at h
  | some t =>
    simp [ht] at h
    have := overhead_pos C.envelope
    omega

/-- A candidate that is given up and holds no further start code is noise. -/
theorem run_giveUp {tail s r : List Byte} {ms : List Msg}
    (h1 : ¬ Starts C (0x01 :: (tail ++ s))) (h2 : ¬ Waiting C (0x01 :: (tail ++ s)))
    (ht : ∀ b ∈ tail, b ≠ 0x01) (hr : Run C s ms r) : Run C (0x01 :: (tail ++ s)) ms r :=
  Run.skip h1 h2 (run_noise ht hr)

/-- The delivered messages are what the stream decodes to. -/
theorem polled_eq (S : Setting C B user) (hn : NeverThrows user) {ops : List Op} {w : World C}
    {os : List Obs} (h : Reached B user fuel (ops ++ [.process]) w os)
    (hh : w.rx.hasHandler = true) {ms : List Msg} {r : List Byte} (hd : Decodes C w.fed ms r) :
    delivered w = ms.map (meaning C) ∧ buffered w = r := by
  obtain ⟨ms', hd', e⟩ := h.polled S hn hh
  obtain ⟨e1, e2⟩ := hd'.unique hd
  exact ⟨by rw [e, e1], e2⟩

theorem frames_head (E : Envelope) {ms : List Msg} (h : ms ≠ []) :
    ∃ t, frames E ms = 0x01 :: t := by
  cases ms with
  | nil => exact absurd rfl h
  | cons m ms =>
    obtain ⟨rest, hr⟩ := frame_cons E m
    exact ⟨_, by rw [frames_cons, hr]; rfl⟩

/-! ### C56: one byte lost -/

/-- C56. If one byte other than the start code and the id of a message is lost and the next thing on
the line is another message, no message starts where the damaged one stands and none can become
complete there: the end code is not where it should be. Holds for both envelopes. -/
theorem C56_lost_not_start {m : Msg} (hm : IsMsg C m) {j : Nat} (hj : 2 ≤ j)
    (hjl : j < (frame C.envelope m).length) (t : List Byte) :
    ¬ Starts C ((frame C.envelope m).eraseIdx j ++ 0x01 :: t) ∧
    ¬ Waiting C ((frame C.envelope m).eraseIdx j ++ 0x01 :: t) := by
  have hlen : ((frame C.envelope m).eraseIdx j).length = (frame C.envelope m).length - 1 :=
    List.length_eraseIdx_of_lt hjl
  have hid : ((frame C.envelope m).eraseIdx j ++ 0x01 :: t)[1]? = some m.id := by
    rw [List.getElem?_append_left (by omega), List.getElem?_eraseIdx_of_lt (by omega)]
    have := frame_id C.envelope m []
    simpa using this
  have h5 := announced_ge hm.announced
  constructor
  · refine not_starts_of_end hid hm.announced ?_
    rw [List.getElem?_append_right (by omega), hlen]
    simp
  · refine not_waiting_of_length hid hm.announced ?_ ?_ <;> simp [hlen] <;> omega

/-- C56. A message that has lost one byte other than its id, and has no further start code in it, is
dropped, and all following messages are delivered. -/
theorem C56_lost (S : Setting C B user) (hn : NeverThrows user) {ops : List Op} {w : World C}
    {os : List Obs} (h : Reached B user fuel (ops ++ [.process]) w os)
    (hh : w.rx.hasHandler = true) {m : Msg} (hm : IsMsg C m) {j : Nat} (hj : j ≠ 1)
    (hjl : j < (frame C.envelope m).length) (hno : ∀ b ∈ (frame C.envelope m).drop 1, b ≠ 0x01)
    {ms : List Msg} (hne : ms ≠ []) (hms : ∀ m ∈ ms, IsMsg C m)
    (hfed : w.fed = (frame C.envelope m).eraseIdx j ++ frames C.envelope ms) :
    delivered w = ms.map (meaning C) ∧ buffered w = [] := by
  refine polled_eq S hn h hh ⟨?_, Or.inl rfl⟩
  have hrest : Run C (frames C.envelope ms) ms [] := by
    have := run_frames hms []
    rwa [List.append_nil] at this
  obtain ⟨rest, hr⟩ := frame_cons C.envelope m
  by_cases h0 : j = 0
  · subst h0
    rw [hfed, hr]
    rw [hr] at hno
    exact run_noise hno hrest
  · obtain ⟨t, ht⟩ := frames_head C.envelope hne
    obtain ⟨h1, h2⟩ := C56_lost_not_start hm (show 2 ≤ j by omega) hjl t
    rw [hfed]
    obtain ⟨k, rfl⟩ : ∃ k, j = k + 1 := ⟨j - 1, by omega⟩
    rw [← ht, hr] at h1 h2
    rw [hr]
    rw [hr] at hno
    refine run_giveUp h1 h2 ?_ hrest
    intro b hb
    exact hno b (List.mem_of_mem_eraseIdx hb)

/-- C56. The id is the exception: with either envelope, a message 0 whose payload begins with STX
becomes, when its id byte is lost, exactly the message 2 with the rest of that payload. -/
theorem C56_lost_id (E : Envelope) (p : List Byte) :
    (frame E ⟨0, 0x02 :: p⟩).eraseIdx 1 = frame E ⟨2, p⟩ := by
  cases E
  · simp [frame]
  · simp [frame, byteSum]

/-- Message 0 has two bytes, message 2 has one: the loss goes unnoticed, checksum or not. -/
def lossy : Collection :=
  ⟨[⟨0, [.uint8, .uint8]⟩, ⟨1, []⟩, ⟨2, [.uint8]⟩], .basicChecksum⟩

theorem C56_lost_id_witness : ∃ (w : World lossy) (os : List Obs),
    Reached Sample.dbg Sample.passive 50
      ([.setHandler Sample.h0, .append ((frame .basicChecksum ⟨0, [2, 9]⟩).eraseIdx 1)] ++
        [.process]) w os ∧
    delivered w = [meaning lossy ⟨2, [9]⟩] := by
  obtain ⟨w, os, h, hp⟩ := Sample.reached (C := lossy) (B := Sample.dbg)
    (user := Sample.passive) (fuel := 50)
    (ops := [.setHandler Sample.h0, .append ((frame .basicChecksum ⟨0, [2, 9]⟩).eraseIdx 1)] ++
        [.process])
    (fun w _ => decide (delivered w = [meaning lossy ⟨2, [9]⟩])) (by decide +kernel)
  exact ⟨w, os, h, by simpa using hp⟩

example : ∃ (w : World Sample.basic) (os : List Obs),
    Reached Sample.dbg Sample.passive 50
      ([.setHandler Sample.h0, .append ((frame .basic ⟨2, [5, 6, 7, 3, 4, 2, 0]⟩).eraseIdx 6),
        .process, .append (frames .basic [Sample.mPose])] ++ [.process]) w os ∧
    delivered w = [meaning Sample.basic Sample.mPose] := by
  obtain ⟨w, os, h, hp⟩ := Sample.reached (C := Sample.basic) (B := Sample.dbg)
    (user := Sample.passive) (fuel := 50)
    (ops := [.setHandler Sample.h0, .append ((frame .basic ⟨2, [5, 6, 7, 3, 4, 2, 0]⟩).eraseIdx 6),
        .process, .append (frames .basic [Sample.mPose])] ++ [.process])
    (fun w _ => w.rx.hasHandler) (by decide +kernel)
  have hf := C25_fed_is_chunks Sample.setting_basic Sample.passive_quiet (by simp) h
  exact ⟨w, os, h, (C56_lost Sample.setting_basic Sample.passive_neverThrows h hp
    (m := ⟨2, [5, 6, 7, 3, 4, 2, 0]⟩) (by decide +kernel) (j := 6) (by decide) (by decide +kernel)
    (by decide +kernel) (by simp) (ms := [Sample.mPose]) (by decide +kernel)
    (by rw [hf]; decide +kernel)).1⟩

/-! ### C57: one byte inserted -/

/-- C57. With Basic, if a byte is inserted anywhere after the id of a message (also right after the
message), the only message that can then start at its place is the message itself. -/
theorem C57_inserted_same (hE : C.envelope = .basic) {m m' : Msg} (hm : IsMsg C m)
    (hm' : IsMsg C m') {j : Nat} (hj : 2 ≤ j) (hjl : j ≤ (frame C.envelope m).length) (b : Byte)
    (t t' : List Byte)
    (e : (frame C.envelope m).insertIdx j b ++ t = frame C.envelope m' ++ t') : m' = m := by
  have h5 := announced_ge hm.announced
  have hlen : ((frame C.envelope m).insertIdx j b).length = (frame C.envelope m).length + 1 :=
    List.length_insertIdx_of_le_length hjl b
  have hid : m'.id = m.id := by
    have e1 := congrArg (fun l : List Byte => l[1]?) e
    simp only [frame_id] at e1
    rw [List.getElem?_append_left (by omega), List.getElem?_insertIdx_of_lt (by omega)] at e1
    have := frame_id C.envelope m []
    rw [List.append_nil] at this
    rw [this] at e1
    exact (Option.some.inj e1).symm
  have hl : (frame C.envelope m').length = (frame C.envelope m).length := by
    have ha := hm'.announced
    rw [hid, hm.announced] at ha
    exact (Option.some.inj ha).symm
  -- the announced end
  have hend : ((frame C.envelope m).insertIdx j b)[(frame C.envelope m).length - 1]? = some 0x04 := by
    have e1 := congrArg (fun l : List Byte => l[(frame C.envelope m).length - 1]?) e
    rw [List.getElem?_append_left (by omega), List.getElem?_append_left (by omega), ← hl] at e1
    rw [frame_last, hl] at e1
    exact e1
  have hj' : (frame C.envelope m).length - 1 ≤ j := by
    apply Classical.byContradiction
    intro hlt
    rw [List.getElem?_insertIdx_of_gt (by omega)] at hend
    have hE' : (frame C.envelope m)[(frame C.envelope m).length - 1 - 1]? = some 0x03 := by
      have hf : frame C.envelope m = ([0x01, m.id, 0x02] ++ m.payload ++ [0x03]) ++ [0x04] := by
        rw [hE]; simp [frame]
      rw [hf]
      have hk : (([0x01, m.id, 0x02] ++ m.payload ++ [0x03]) ++ [(0x04 : Byte)]).length - 1 - 1
          = ([0x01, m.id, 0x02] ++ m.payload).length := by simp
      rw [hk, List.getElem?_append_left (by simp), List.getElem?_append_right (Nat.le_refl _)]
      simp
    rw [hE'] at hend
    simp at hend
  -- all bytes but the last agree
  have hall : ∀ i < (frame C.envelope m).length - 1,
      (frame C.envelope m')[i]? = (frame C.envelope m)[i]? := by
    intro i hi
    have e1 := congrArg (fun l : List Byte => l[i]?) e
    rw [List.getElem?_append_left (by omega), List.getElem?_append_left (by omega),
      List.getElem?_insertIdx_of_lt (by omega)] at e1
    exact e1.symm
  refine frame_inj (E := C.envelope) (List.ext_getElem? fun i => ?_)
  by_cases hi : i < (frame C.envelope m).length - 1
  · exact hall i hi
  · by_cases hi' : i = (frame C.envelope m).length - 1
    · rw [hi', frame_last, ← hl, frame_last]
    · rw [List.getElem?_eq_none (by omega), List.getElem?_eq_none (by omega)]

/-- C57. With Basic, a byte (not a start code) inserted after the id of a message without further
start codes makes the receiver deliver or drop that message, never another one, and all following
messages are delivered. -/
theorem C57_inserted (hE : C.envelope = .basic) (S : Setting C B user) (hn : NeverThrows user)
    {ops : List Op} {w : World C} {os : List Obs}
    (h : Reached B user fuel (ops ++ [.process]) w os) (hh : w.rx.hasHandler = true)
    {m : Msg} (hm : IsMsg C m) {j : Nat} (hj : 2 ≤ j) (hjl : j ≤ (frame C.envelope m).length)
    {b : Byte} (hb : b ≠ 0x01) (hno : ∀ b ∈ (frame C.envelope m).drop 1, b ≠ 0x01)
    {ms : List Msg} (hms : ∀ m ∈ ms, IsMsg C m)
    (hfed : w.fed = (frame C.envelope m).insertIdx j b ++ frames C.envelope ms) :
    (delivered w = ms.map (meaning C) ∨ delivered w = (m :: ms).map (meaning C)) ∧
      buffered w = [] := by
  have hrest : Run C (frames C.envelope ms) ms [] := by
    have := run_frames hms []
    rwa [List.append_nil] at this
  have hlen : ((frame C.envelope m).insertIdx j b).length = (frame C.envelope m).length + 1 :=
    List.length_insertIdx_of_le_length hjl b
  have h5 := announced_ge hm.announced
  have hid : ((frame C.envelope m).insertIdx j b ++ frames C.envelope ms)[1]? = some m.id := by
    rw [List.getElem?_append_left (by omega), List.getElem?_insertIdx_of_lt (by omega)]
    have := frame_id C.envelope m []
    simpa using this
  obtain ⟨rest, hr⟩ : ∃ rest, frame C.envelope m = 0x01 :: rest :=
    ⟨_, (frame_cons C.envelope m).choose_spec⟩
  obtain ⟨k, rfl⟩ : ∃ k, j = k + 1 := ⟨j - 1, by omega⟩
  have hins : (frame C.envelope m).insertIdx (k + 1) b = 0x01 :: rest.insertIdx k b := by
    rw [hr]; rfl
  have hnoise : ∀ c ∈ rest.insertIdx k b, c ≠ 0x01 := by
    intro c hc
    have hk : k ≤ rest.length := by rw [hr] at hjl; simp at hjl ⊢; omega
    rcases (List.mem_insertIdx hk).mp hc with rfl | hc
    · exact hb
    · rw [hr] at hno; exact hno c hc
  by_cases hst : Starts C ((frame C.envelope m).insertIdx (k + 1) b ++ frames C.envelope ms)
  · obtain ⟨m', t', hm', e⟩ := hst
    have hmm := C57_inserted_same hE hm hm' hj hjl b _ _ e
    subst hmm
    -- one noise byte follows the message
    have hlt := congrArg List.length e
    simp [hlen] at hlt
    obtain ⟨x, hx⟩ : ∃ x, (frame C.envelope m').insertIdx (k + 1) b = frame C.envelope m' ++ [x] := by
      have h1 := congrArg (List.take (frame C.envelope m').length) e
      rw [List.take_append_of_le_length (by omega), List.take_left] at h1
      have h2 := List.take_append_drop (frame C.envelope m').length
        ((frame C.envelope m').insertIdx (k + 1) b)
      rw [h1] at h2
      have h3 : (((frame C.envelope m').insertIdx (k + 1) b).drop (frame C.envelope m').length).length
          = 1 := by simp [hlen]
      obtain ⟨x, hx⟩ := List.length_eq_one_iff.mp h3
      exact ⟨x, by rw [← h2, hx]⟩
    have hxn : x ≠ 0x01 := by
      apply hnoise
      rw [hins, hr] at hx
      have : rest.insertIdx k b = rest ++ [x] := by simpa using hx
      rw [this]; simp
    have hd : Decodes C w.fed (m' :: ms) [] := by
      refine ⟨?_, Or.inl rfl⟩
      rw [hfed, hx, List.append_assoc]
      exact Run.take hm' (run_noise (noise := [x]) (by simpa using hxn) hrest)
    obtain ⟨e1, e2⟩ := polled_eq S hn h hh hd
    exact ⟨Or.inr e1, e2⟩
  · have hw : ¬ Waiting C ((frame C.envelope m).insertIdx (k + 1) b ++ frames C.envelope ms) := by
      refine not_waiting_of_length hid hm.announced ?_ ?_ <;> simp [hlen] <;> omega
    have hd : Decodes C w.fed ms [] := by
      refine ⟨?_, Or.inl rfl⟩
      rw [hfed, hins]
      rw [hins] at hst hw
      exact run_giveUp hst hw hnoise hrest
    obtain ⟨e1, e2⟩ := polled_eq S hn h hh hd
    exact ⟨Or.inl e1, e2⟩

example : ∃ (w : World Sample.basic) (os : List Obs),
    Reached Sample.dbg Sample.passive 50
      ([.setHandler Sample.h0, .append ((frame .basic ⟨2, [5, 6, 7, 3, 4, 3, 4]⟩).insertIdx 6 3),
        .process, .append (frames .basic [Sample.mPose])] ++ [.process]) w os ∧
    (delivered w = [Sample.mPose].map (meaning Sample.basic) ∨
      delivered w = [⟨2, [5, 6, 7, 3, 4, 3, 4]⟩, Sample.mPose].map (meaning Sample.basic)) := by
  obtain ⟨w, os, h, hp⟩ := Sample.reached (C := Sample.basic) (B := Sample.dbg)
    (user := Sample.passive) (fuel := 50)
    (ops := [.setHandler Sample.h0, .append ((frame .basic ⟨2, [5, 6, 7, 3, 4, 3, 4]⟩).insertIdx 6 3),
        .process, .append (frames .basic [Sample.mPose])] ++ [.process])
    (fun w _ => w.rx.hasHandler) (by decide +kernel)
  have hf := C25_fed_is_chunks Sample.setting_basic Sample.passive_quiet (by simp) h
  have := C57_inserted rfl Sample.setting_basic Sample.passive_neverThrows h hp
    (m := ⟨2, [5, 6, 7, 3, 4, 3, 4]⟩) (by decide +kernel) (j := 6) (b := 3) (by decide)
    (by decide +kernel) (by decide +kernel) (by decide +kernel) (ms := [Sample.mPose])
    (by decide +kernel) (by rw [hf]; decide +kernel)
  exact ⟨w, os, h, this.1⟩

/-- Two-byte messages with the checksum envelope. -/
def twoBytes : Collection := ⟨[⟨0, [.uint8, .uint8]⟩], .basicChecksum⟩

/-- C57. BasicChecksum is weaker here: one inserted byte can turn a message into a different one that
passes all checks. -/
theorem C57_checksum_witness : ∃ (w : World twoBytes) (os : List Obs),
    Reached Sample.dbg Sample.passive 50
      ([.setHandler Sample.h0, .append ((frame .basicChecksum ⟨0, [251, 3]⟩).insertIdx 3 2)] ++
        [.process]) w os ∧
    delivered w = [meaning twoBytes ⟨0, [2, 251]⟩] := by
  obtain ⟨w, os, h, hp⟩ := Sample.reached (C := twoBytes) (B := Sample.dbg)
    (user := Sample.passive) (fuel := 50)
    (ops := [.setHandler Sample.h0, .append ((frame .basicChecksum ⟨0, [251, 3]⟩).insertIdx 3 2)] ++
        [.process])
    (fun w _ => decide (delivered w = [meaning twoBytes ⟨0, [2, 251]⟩])) (by decide +kernel)
  exact ⟨w, os, h, by simpa using hp⟩

/-! ### C58: a false start delays delivery -/

/-- C58. After a start code, a valid id and STX (sent or produced by noise), nothing at all is
delivered and nothing is discarded until as many bytes have arrived as that id announces: complete
messages that follow are held back, whatever the history, the polling and the handlers. -/
theorem C58_held_back (S : Setting C B user) {ops : List Op} {w : World C} {os : List Obs}
    (h : Reached B user fuel ops w os) {id : Byte} {n : Nat} (hn : announced C id = some n)
    (t : List Byte) (hfed : w.fed = [0x01, id, 0x02] ++ t) (hlt : w.fed.length < n) :
    w.trace = [] ∧ buffered w = w.fed := by
  have hfin : Final C w.fed := Or.inr (Or.inr (Or.inr ⟨id, t, n, hn, by rw [hfed]; rfl, hlt⟩))
  constructor
  · cases htr : w.trace with
    | nil => rfl
    | cons i tr =>
      exfalso
      obtain ⟨D, m', post, hm', hr, _⟩ := reached_onPath S h i (by simp [htr])
      obtain ⟨_, e⟩ := hfin.no_step hr
      rcases hfin with hf | hf
      · simp [hfed] at hf
      · rw [← e] at hf
        exact not_waiting_frame hm' _ hf
  · obtain ⟨s, ms, ha, he⟩ := h.exec S
    have hr := he.sound (D := []) (Run.refl _)
    rw [← ha.fed] at hr
    rw [ha.buffered]
    exact (hfin.no_step hr).2

/-- C58. As soon as that many bytes have arrived and the last of them is not EOT, the false start is
given up: what is delivered is what the stream without it decodes to. -/
theorem C58_released (S : Setting C B user) (hn : NeverThrows user) {ops : List Op} {w : World C}
    {os : List Obs} (h : Reached B user fuel (ops ++ [.process]) w os)
    (hh : w.rx.hasHandler = true) {id : Byte} {n : Nat} (ha : announced C id = some n)
    (t : List Byte) (hfed : w.fed = [0x01, id, 0x02] ++ t) (hge : n ≤ w.fed.length)
    (hend : w.fed[n - 1]? ≠ some 0x04) (hid : id ≠ 0x01) :
    ∃ ms, Decodes C t ms (buffered w) ∧ delivered w = ms.map (meaning C) := by
  obtain ⟨ms, r, hd⟩ := decodes_exists C t
  have h1 : w.fed[1]? = some id := by rw [hfed]; rfl
  have h5 := announced_ge ha
  have hd' : Decodes C w.fed ms r := by
    refine ⟨?_, hd.2⟩
    have hs := not_starts_of_end h1 ha hend
    have hw := not_waiting_of_length h1 ha (by omega) hge
    rw [hfed] at hs hw ⊢
    exact run_giveUp (tail := [id, 0x02]) hs hw (by simpa using hid) hd.1
  obtain ⟨e1, e2⟩ := polled_eq S hn h hh hd'
  exact ⟨ms, by rw [e2]; exact hd, e1⟩

/-- A false start of `pose` holds back a complete `ping`; two more bytes release it. -/
example : ∃ (w : World Sample.basic) (os : List Obs),
    Reached Sample.dbg Sample.passive 50
      [.setHandler Sample.h0, .append ([1, 2, 2] ++ [1, 0, 2, 3, 4]), .process, .process] w os ∧
    w.trace = [] := by
  obtain ⟨w, os, h, hp⟩ := Sample.reached (C := Sample.basic) (B := Sample.dbg)
    (user := Sample.passive) (fuel := 50)
    (ops := [.setHandler Sample.h0, .append ([1, 2, 2] ++ [1, 0, 2, 3, 4]), .process, .process])
    (fun _ _ => true) (by decide +kernel)
  have hf := C25_fed_is_chunks Sample.setting_basic Sample.passive_quiet (by simp) h
  exact ⟨w, os, h, (C58_held_back Sample.setting_basic h (id := 2) (n := 12) (by decide +kernel)
    [1, 0, 2, 3, 4] (by rw [hf]; rfl) (by rw [hf]; decide)).1⟩

example : ∃ (w : World Sample.basic) (os : List Obs),
    Reached Sample.dbg Sample.passive 50
      ([.setHandler Sample.h0, .append ([1, 2, 2] ++ [1, 0, 2, 3, 4]), .process,
        .append [0, 0, 0, 0]] ++ [.process]) w os ∧
    ∃ ms, Decodes Sample.basic [1, 0, 2, 3, 4, 0, 0, 0, 0] ms (buffered w) ∧
      delivered w = ms.map (meaning Sample.basic) := by
  obtain ⟨w, os, h, hp⟩ := Sample.reached (C := Sample.basic) (B := Sample.dbg)
    (user := Sample.passive) (fuel := 50)
    (ops := [.setHandler Sample.h0, .append ([1, 2, 2] ++ [1, 0, 2, 3, 4]), .process,
        .append [0, 0, 0, 0]] ++ [.process])
    (fun w _ => w.rx.hasHandler) (by decide +kernel)
  have hf := C25_fed_is_chunks Sample.setting_basic Sample.passive_quiet (by simp) h
  exact ⟨w, os, h, C58_released Sample.setting_basic Sample.passive_neverThrows h hp
    (id := 2) (n := 12) (by decide +kernel) _ (by rw [hf]; rfl) (by rw [hf]; decide)
    (by rw [hf]; decide) (by decide)⟩

/-! ### C59: payloads are not escaped -/

/-- C59. Payload bytes are sent verbatim. If the start code of a message is lost and its payload
contains the bytes of another message (with no start code before them), that inner message is
delivered as if it had been sent, although it never was; then decoding goes on behind it. -/
theorem C59_payload_delivered (S : Setting C B user) (hn : NeverThrows user) {ops : List Op}
    {w : World C} {os : List Obs} (h : Reached B user fuel (ops ++ [.process]) w os)
    (hh : w.rx.hasHandler = true) {id : Byte} (hid : id ≠ 0x01) {inner : Msg}
    (hi : IsMsg C inner) (pre post : List Byte) (hpre : ∀ b ∈ pre, b ≠ 0x01) (t : List Byte)
    (hfed : w.fed = (frame C.envelope ⟨id, pre ++ frame C.envelope inner ++ post⟩).drop 1 ++ t) :
    ∃ (ms : List Msg) (rest : List Byte),
      delivered w = (inner :: ms).map (meaning C) ∧
      w.fed = [id, 0x02] ++ pre ++ frame C.envelope inner ++ rest ∧
      Decodes C rest ms (buffered w) := by
  obtain ⟨trail, htr⟩ : ∃ trail, (frame C.envelope
      ⟨id, pre ++ frame C.envelope inner ++ post⟩).drop 1 =
        [id, 0x02] ++ pre ++ frame C.envelope inner ++ trail := by
    generalize frame C.envelope inner = f
    cases C.envelope with
    | basic => exact ⟨post ++ [3, 4], by simp [frame]⟩
    | basicChecksum =>
      refine ⟨post ++ ([3] ++ [byteSum ([0x01, id, 0x02] ++ (pre ++ f ++ post) ++ [0x03]), 0x04]), ?_⟩
      simp [frame]
  have hfed' : w.fed = [id, 0x02] ++ pre ++ frame C.envelope inner ++ (trail ++ t) := by
    rw [hfed, htr, List.append_assoc]
  obtain ⟨ms, r, hd⟩ := decodes_exists C (trail ++ t)
  have hd' : Decodes C w.fed (inner :: ms) r := by
    refine ⟨?_, hd.2⟩
    rw [hfed', List.append_assoc]
    refine run_noise ?_ (Run.take hi hd.1)
    intro b hb
    simp at hb
    rcases hb with rfl | rfl | hb
    · exact hid
    · decide
    · exact hpre b hb
  obtain ⟨e1, e2⟩ := polled_eq S hn h hh hd'
  exact ⟨ms, trail ++ t, e1, hfed', by rw [e2]; exact hd⟩

/-- A `pose` whose payload holds a complete `ping`, sent without its first byte. -/
example : ∃ (w : World Sample.basic) (os : List Obs),
    Reached Sample.dbg Sample.passive 50
      ([.setHandler Sample.h0,
        .append ((frame .basic ⟨2, [9] ++ frame .basic ⟨0, []⟩ ++ [9]⟩).drop 1)] ++ [.process]) w os ∧
    ∃ ms, delivered w = (⟨0, []⟩ :: ms).map (meaning Sample.basic) := by
  obtain ⟨w, os, h, hp⟩ := Sample.reached (C := Sample.basic) (B := Sample.dbg)
    (user := Sample.passive) (fuel := 50)
    (ops := [.setHandler Sample.h0,
        .append ((frame .basic ⟨2, [9] ++ frame .basic ⟨0, []⟩ ++ [9]⟩).drop 1)] ++ [.process])
    (fun w _ => w.rx.hasHandler) (by decide +kernel)
  have hf := C25_fed_is_chunks Sample.setting_basic Sample.passive_quiet (by simp) h
  obtain ⟨ms, _, h1, _⟩ := C59_payload_delivered Sample.setting_basic Sample.passive_neverThrows
    h hp (id := 2) (by decide) (inner := ⟨0, []⟩) (by decide +kernel) [9] [9] (by decide) []
    (by rw [hf]; decide +kernel)
  exact ⟨w, os, h, ms, h1⟩

end TT.Properties
