import Verif.Properties.Recovery

/-!
# Property C122: a run of lost bytes

Bytes are lost from somewhere in a message on, up to somewhere in a later message.
-/

namespace TT.Properties
open Spec

variable {C : Collection} {B : Build} {user : UserCode} {fuel : Nat}

/-- What is left of a message and a later one, when everything from byte `i` of the first up to byte `j` of the second is
lost, with all messages between them. -/
def spliced (E : Envelope) (m : Msg) (i : Nat) (m' : Msg) (j : Nat) : List Byte :=
  (frame E m).take i ++ (frame E m').drop j

/-- The bytes pass for a message of the type of `m`: they have the right number, and with a checksum the byte before the
last is the sum of those before it. -/
def PassesFor (E : Envelope) (m : Msg) (s : List Byte) : Prop :=
  s.length = (frame E m).length ∧
  (E = .basicChecksum → s[s.length - 2]? = some (byteSum (s.take (s.length - 2))))

instance (E : Envelope) (m : Msg) (s : List Byte) : Decidable (PassesFor E m s) := by unfold PassesFor; infer_instance

/-- The message of the type of `m` in such bytes. -/
def forged (m : Msg) (s : List Byte) : Msg := ⟨m.id, (s.drop 3).take m.payload.length⟩

/-- Neither the start code nor the end code occurs inside the message. -/
def Clean (E : Envelope) (m : Msg) : Prop := Plain E m ∧ ∀ b ∈ (frame E m).dropLast, b ≠ 0x04

instance (E : Envelope) (m : Msg) : Decidable (Clean E m) := by unfold Clean; infer_instance

theorem frame_end_code (E : Envelope) (m : Msg) :
    (frame E m)[(frame E m).length - (match E with | .basic => 2 | .basicChecksum => 3)]? = some 0x03 := by
  cases E with
  | basic =>
    have e : frame .basic m = ([0x01, m.id, 0x02] ++ m.payload) ++ [0x03, 0x04] := by simp [frame]
    rw [e, List.getElem?_append_right (by simp)]
    simp
  | basicChecksum =>
    have e : frame .basicChecksum m = ([0x01, m.id, 0x02] ++ m.payload) ++
        [0x03, byteSum ([0x01, m.id, 0x02] ++ m.payload ++ [0x03]), 0x04] := by simp [frame]
    rw [e, List.getElem?_append_right (by simp)]
    simp

theorem frame_three_le (E : Envelope) (m : Msg) : 5 ≤ (frame E m).length := by
  have := frame_length E m
  have : 5 ≤ overhead E := by cases E <;> decide
  omega

/-- The last bytes of what is left, if it is as long as the first message. -/
theorem splice_end {E : Envelope} {m m' : Msg} {i j : Nat} {post : List Msg} {t : Nat} {v : Byte} (ht : 1 ≤ t) (ht3 : t ≤ 3)
    (hv : ∀ m, (frame E m)[(frame E m).length - t]? = some v)
    (hi : i ≤ (frame E m).length)
    (hl : (spliced E m i m' j ++ frames E post).length = (frame E m).length) :
    (spliced E m i m' j ++ frames E post)[(frame E m).length - t]? = some v := by
  have h5 := frame_three_le E
  rcases List.eq_nil_or_concat post with rfl | ⟨ps, q, rfl⟩
  · have h0 : frames E ([] : List Msg) = [] := rfl
    rw [h0, List.append_nil] at hl ⊢
    unfold spliced at hl ⊢
    simp only [List.length_append, List.length_take, List.length_drop] at hl
    have hm := h5 m
    by_cases hlt : (frame E m).length - t < i
    · rw [List.getElem?_append_left (by simp; omega), List.getElem?_take_of_lt hlt]
      exact hv m
    · rw [List.getElem?_append_right (by simp; omega), List.getElem?_drop, List.length_take]
      have := hv m'
      rw [← this]
      congr 1
      omega
  · have e : frames E (ps.concat q) = frames E ps ++ frame E q := by
      simp [frames]
    rw [e, ← List.append_assoc] at hl ⊢
    have hq := h5 q
    rw [List.length_append] at hl
    rw [List.getElem?_append_right (by omega), ← hv q]
    congr 1
    omega

/-- Bytes with the right codes in the right places are a frame. -/
theorem frame_of_codes {E : Envelope} {m : Msg} {s : List Byte} (hp : PassesFor E m s)
    (h0 : s[0]? = some 0x01) (h1 : s[1]? = some m.id) (h2 : s[2]? = some 0x02)
    (h3 : s[s.length - (match E with | .basic => 2 | .basicChecksum => 3)]? = some 0x03)
    (h4 : s[s.length - 1]? = some 0x04) : s = frame E (forged m s) := by
  obtain ⟨hl, hc⟩ := hp
  have hlen := frame_length E m
  have e0 : s = 0x01 :: m.id :: 0x02 :: s.drop 3 := by
    match s, h0, h1, h2 with
    | a :: b :: c :: rest, h0, h1, h2 => simp at h0 h1 h2 ⊢; exact ⟨h0, h1, h2⟩
  generalize hd : s.drop 3 = r at e0
  have hr : r.length = s.length - 3 := by rw [← hd, List.length_drop]
  unfold forged
  rw [hd]
  have split : ∀ (l : List Byte) (n : Nat) (tail : List Byte), l.length = n + tail.length →
      (∀ k, k < tail.length → l[n + k]? = tail[k]?) → l = l.take n ++ tail := by
    intro l n tail h1 h2
    have : l.drop n = tail := by
      apply List.ext_getElem?
      intro k
      rw [List.getElem?_drop]
      by_cases hk : k < tail.length
      · exact h2 k hk
      · rw [List.getElem?_eq_none (by omega), List.getElem?_eq_none (by omega)]
    rw [← this, List.take_append_drop]
  have at' : ∀ k, s[k + 3]? = r[k]? := by
    intro k
    rw [← hd, List.getElem?_drop]
    congr 1
    omega
  cases E with
  | basic =>
    have ho : overhead .basic = 5 := rfl
    have e1 : r = r.take m.payload.length ++ [0x03, 0x04] := by
      refine split _ _ _ (by simp; omega) ?_
      intro k hk
      rw [← at']
      match k with
      | 0 => simp only [] at h3; rw [← show s.length - 2 = m.payload.length + 0 + 3 by omega, h3]; rfl
      | 1 => rw [← show s.length - 1 = m.payload.length + 1 + 3 by omega, h4]; rfl
      | k + 2 => simp at hk; omega
    conv => lhs; rw [e0, e1]
    simp [frame]
  | basicChecksum =>
    have ho : overhead .basicChecksum = 6 := rfl
    have hc := hc rfl
    have e1 : r = r.take m.payload.length ++ [0x03, byteSum (s.take (s.length - 2)), 0x04] := by
      refine split _ _ _ (by simp; omega) ?_
      intro k hk
      rw [← at']
      match k with
      | 0 => simp only [] at h3; rw [← show s.length - 3 = m.payload.length + 0 + 3 by omega, h3]; rfl
      | 1 => rw [← show s.length - 2 = m.payload.length + 1 + 3 by omega, hc]; rfl
      | 2 => rw [← show s.length - 1 = m.payload.length + 2 + 3 by omega, h4]; rfl
      | k + 3 => simp at hk; omega
    have e2 : s.take (s.length - 2) = [0x01, m.id, 0x02] ++ r.take m.payload.length ++ [0x03] := by
      rw [show s.length - 2 = m.payload.length + 4 by omega]
      conv => lhs; rw [e0, e1]
      simp [List.take_append]
      rw [List.take_of_length_le (by simp; omega), show m.payload.length + 1 - min m.payload.length r.length = 1 by omega]
      rfl
    rw [e2] at e1
    conv => lhs; rw [e0, e1]
    simp [frame]

theorem splice_head {E : Envelope} {m m' : Msg} {i j : Nat} (hi : 3 ≤ i) (rest : List Byte) :
    ∃ s, (frame E m).take i = 0x01 :: m.id :: 0x02 :: s ∧
      spliced E m i m' j ++ rest = 0x01 :: m.id :: 0x02 :: (s ++ (frame E m').drop j ++ rest) := by
  obtain ⟨i, rfl⟩ : ∃ k, i = k + 3 := ⟨i - 3, by omega⟩
  have : ∃ s, frame E m = 0x01 :: m.id :: 0x02 :: s := by cases E <;> exact ⟨_, rfl⟩
  obtain ⟨s, e⟩ := this
  refine ⟨s.take i, by rw [e]; rfl, ?_⟩
  unfold spliced
  rw [e]
  simp

/-- In clean messages the end code is only at their ends. -/
theorem frames_ends {E : Envelope} {post : List Msg} (hc : ∀ m ∈ post, Clean E m) {p : Nat}
    (hp : (frames E post)[p]? = some 0x04) : ∃ k ≤ post.length, p + 1 = (frames E (post.take k)).length := by
  induction post generalizing p with
  | nil => simp [frames] at hp
  | cons m post ih =>
    have h5 := frame_three_le E m
    rw [frames_cons] at hp
    by_cases hlt : p < (frame E m).length
    · refine ⟨1, by simp, ?_⟩
      rw [List.getElem?_append_left hlt] at hp
      have : p + 1 = (frame E m).length := by
        apply Classical.byContradiction
        intro hne
        have hd : (frame E m).dropLast[p]? = some 0x04 := by
          rw [List.getElem?_dropLast, if_pos (by omega)]
          exact hp
        exact (hc m (by simp)).2 _ (List.mem_of_getElem? hd) rfl
      simp [frames, this]
    · rw [List.getElem?_append_right (by omega)] at hp
      obtain ⟨k, hk, e⟩ := ih (fun m hm => hc m (by simp [hm])) hp
      refine ⟨k + 1, by simp; omega, ?_⟩
      rw [List.take_succ_cons, frames_cons, List.length_append]
      omega

theorem frames_take_drop (E : Envelope) (post : List Msg) (k : Nat) :
    frames E post = frames E (post.take k) ++ frames E (post.drop k) := by
  rw [← frames_append, List.take_append_drop]

/-- C122. If what is left up to the end of a later message passes for the first message, it is taken for one, with the
wrong contents, and swallows the messages up to there; the messages before and after it are delivered. -/
theorem C122_forged (S : Setting C B user) (hn : NeverThrows user) {ops : List Op} {w : World C} {os : List Obs}
    (h : Reached B user fuel (ops ++ [.process]) w os) (hh : w.rx.hasHandler = true)
    {pre post : List Msg} {m m' : Msg} {i j k : Nat} (hpre : ∀ m ∈ pre, IsMsg C m) (hpost : ∀ m ∈ post, IsMsg C m)
    (hm : IsMsg C m) (hi : 3 ≤ i) (hil : i < (frame C.envelope m).length)
    (hp : PassesFor C.envelope m (spliced C.envelope m i m' j ++ frames C.envelope (post.take k)))
    (hfed : w.fed = frames C.envelope pre ++ spliced C.envelope m i m' j ++ frames C.envelope post) :
    delivered w = (pre ++ forged m (spliced C.envelope m i m' j ++ frames C.envelope (post.take k)) :: post.drop k).map
      (meaning C) ∧ buffered w = [] := by
  refine polled_eq S hn h hh ⟨?_, Or.inl rfl⟩
  rw [hfed, frames_take_drop _ post k, List.append_assoc, ← List.append_assoc (spliced _ _ _ _ _)]
  generalize hs : spliced C.envelope m i m' j ++ frames C.envelope (post.take k) = s at hp
  have hl := hp.1
  obtain ⟨_, _, e⟩ := splice_head (E := C.envelope) (m := m) (m' := m') (j := j) hi (frames C.envelope (post.take k))
  rw [hs] at e
  have ef : s = frame C.envelope (forged m s) := by
    refine frame_of_codes hp (by rw [e]; rfl) (by rw [e]; rfl) (by rw [e]; rfl) ?_ ?_
    · have := splice_end (E := C.envelope) (m := m) (m' := m') (i := i) (j := j) (post := post.take k)
        (t := match C.envelope with | .basic => 2 | .basicChecksum => 3) (v := 0x03) (by split <;> omega)
        (by split <;> omega) (frame_end_code _) (by omega) (by rw [hs]; exact hl)
      rw [hs] at this
      rw [hl]
      exact this
    · have := splice_end (E := C.envelope) (m := m) (m' := m') (i := i) (j := j) (post := post.take k)
        (t := 1) (v := 0x04) (by omega) (by omega) (frame_last _) (by omega) (by rw [hs]; exact hl)
      rw [hs] at this
      rw [hl]
      exact this
  have hm' : IsMsg C (forged m s) := by
    obtain ⟨t, h1, h2⟩ := hm
    refine ⟨t, h1, ?_⟩
    rw [← h2]
    have := congrArg List.length ef
    have h3 := frame_length C.envelope (forged m s)
    have h4 := frame_length C.envelope m
    omega
  have hrest : Run C (frames C.envelope (post.drop k)) (post.drop k) [] := by
    have := run_frames (C := C) (ms := post.drop k) (fun m hm => hpost m (List.mem_of_mem_drop hm)) []
    rwa [List.append_nil] at this
  refine (run_frames hpre _).trans ?_
  have := Run.take hm' hrest
  rwa [← ef] at this

/-- C122. As long as fewer bytes are there than the first message should have, they are held back with all messages that
have arrived after the loss. -/
theorem C122_held (S : Setting C B user) (hn : NeverThrows user) {ops : List Op} {w : World C} {os : List Obs}
    (h : Reached B user fuel (ops ++ [.process]) w os) (hh : w.rx.hasHandler = true)
    {pre post : List Msg} {m m' : Msg} {i j : Nat} (hpre : ∀ m ∈ pre, IsMsg C m)
    (hm : IsMsg C m) (hi : 3 ≤ i)
    (hl : (spliced C.envelope m i m' j ++ frames C.envelope post).length < (frame C.envelope m).length)
    (hfed : w.fed = frames C.envelope pre ++ spliced C.envelope m i m' j ++ frames C.envelope post) :
    delivered w = pre.map (meaning C) ∧ buffered w = spliced C.envelope m i m' j ++ frames C.envelope post := by
  obtain ⟨_, _, e⟩ := splice_head (E := C.envelope) (m := m) (m' := m') (j := j) hi (frames C.envelope post)
  refine polled_eq S hn h hh ⟨?_, Or.inr (Or.inr (Or.inr ⟨m.id, _, _, hm.announced, e, hl⟩))⟩
  rw [hfed, List.append_assoc]
  exact run_frames hpre _

/-- C122. If the messages are clean and, once enough bytes are there, what is left does not pass for the first message
up to the end of any later message, exactly the damaged messages are lost: those before and after them are delivered. -/
theorem C122_lost (S : Setting C B user) (hn : NeverThrows user) {ops : List Op} {w : World C} {os : List Obs}
    (h : Reached B user fuel (ops ++ [.process]) w os) (hh : w.rx.hasHandler = true)
    {pre post : List Msg} {m m' : Msg} {i j : Nat} (hpre : ∀ m ∈ pre, IsMsg C m) (hpost : ∀ m ∈ post, IsMsg C m)
    (hm : IsMsg C m) (hi : 3 ≤ i) (hil : i < (frame C.envelope m).length) (hj : 1 ≤ j)
    (hcm : Clean C.envelope m) (hcm' : Clean C.envelope m') (hcpost : ∀ m ∈ post, Clean C.envelope m)
    (hl : (frame C.envelope m).length ≤ (spliced C.envelope m i m' j ++ frames C.envelope post).length)
    (hp : ∀ k ≤ post.length,
      ¬ PassesFor C.envelope m (spliced C.envelope m i m' j ++ frames C.envelope (post.take k)))
    (hfed : w.fed = frames C.envelope pre ++ spliced C.envelope m i m' j ++ frames C.envelope post) :
    delivered w = (pre ++ post).map (meaning C) ∧ buffered w = [] := by
  refine polled_eq S hn h hh ⟨?_, Or.inl rfl⟩
  rw [hfed, List.append_assoc]
  refine (run_frames hpre _).trans ?_
  have hrest : Run C (frames C.envelope post) post [] := by
    have := run_frames (C := C) hpost []
    rwa [List.append_nil] at this
  obtain ⟨s, e0, e⟩ := splice_head (E := C.envelope) (m := m) (m' := m') (j := j) hi (frames C.envelope post)
  have h5 := frame_three_le C.envelope m
  have hid : (spliced C.envelope m i m' j ++ frames C.envelope post)[1]? = some m.id := by rw [e]; rfl
  have hnw : ¬ Waiting C (spliced C.envelope m i m' j ++ frames C.envelope post) :=
    not_waiting_of_length hid hm.announced (by omega) hl
  have hxl : (spliced C.envelope m i m' j).length = i + ((frame C.envelope m').drop j).length := by
    unfold spliced
    rw [List.length_append, List.length_take]
    omega
  have hns : ¬ Starts C (spliced C.envelope m i m' j ++ frames C.envelope post) := by
    rintro ⟨q, t, hq, eq⟩
    have hqid : q.id = m.id := by
      have := frame_id C.envelope q t
      rw [← eq, hid] at this
      exact (Option.some.inj this).symm
    have hql : (frame C.envelope q).length = (frame C.envelope m).length := by
      have h1 := hq.announced
      rw [hqid, hm.announced] at h1
      exact (Option.some.inj h1).symm
    have hlast : (spliced C.envelope m i m' j ++ frames C.envelope post)[(frame C.envelope m).length - 1]? =
        some 0x04 := by
      rw [eq, List.getElem?_append_left (by omega), ← hql]
      exact frame_last _ _
    -- the end code is at the end of a message
    have hk : ∃ k ≤ post.length, (frame C.envelope m).length =
        (spliced C.envelope m i m' j ++ frames C.envelope (post.take k)).length := by
      by_cases hlt : (frame C.envelope m).length - 1 < (spliced C.envelope m i m' j).length
      · refine ⟨0, by omega, ?_⟩
        rw [List.getElem?_append_left hlt] at hlast
        unfold spliced at hlast
        rw [List.getElem?_append_right (by rw [List.length_take]; omega), List.length_take,
          List.getElem?_drop] at hlast
        have hlt' : j + ((frame C.envelope m).length - 1 - i) < (frame C.envelope m').length := by
          rw [hxl, List.length_drop] at hlt
          omega
        rw [show min i (frame C.envelope m).length = i by omega] at hlast
        have : j + ((frame C.envelope m).length - 1 - i) + 1 = (frame C.envelope m').length := by
          apply Classical.byContradiction
          intro hne
          have hd : (frame C.envelope m').dropLast[j + ((frame C.envelope m).length - 1 - i)]? = some 0x04 := by
            rw [List.getElem?_dropLast, if_pos (by omega)]
            exact hlast
          exact hcm'.2 _ (List.mem_of_getElem? hd) rfl
        have h0 : frames C.envelope (post.take 0) = [] := rfl
        rw [h0, List.append_nil, hxl, List.length_drop]
        omega
      · rw [List.getElem?_append_right (by omega)] at hlast
        obtain ⟨k, hk, e⟩ := frames_ends hcpost hlast
        exact ⟨k, hk, by rw [List.length_append]; omega⟩
    obtain ⟨k, hk, hkl⟩ := hk
    refine hp k hk ⟨hkl.symm, fun hE => ?_⟩
    have hs : spliced C.envelope m i m' j ++ frames C.envelope (post.take k) = frame C.envelope q := by
      rw [frames_take_drop _ post k, ← List.append_assoc] at eq
      exact (List.append_inj eq (by rw [← hkl, hql])).1
    rw [hs, hE]
    have e : frame .basicChecksum q = ([0x01, q.id, 0x02] ++ q.payload ++ [0x03]) ++
        [byteSum ([0x01, q.id, 0x02] ++ q.payload ++ [0x03]), 0x04] := by simp [frame]
    rw [e, List.length_append, show ([byteSum ([0x01, q.id, 0x02] ++ q.payload ++ [0x03]), 0x04] : List Byte).length = 2
      from rfl, Nat.add_sub_cancel, List.take_left, List.getElem?_append_right (by omega), Nat.sub_self]
    rfl
  rw [e] at hns hnw ⊢
  refine run_giveUp (tail := m.id :: 0x02 :: (s ++ (frame C.envelope m').drop j)) (s := frames C.envelope post)
    (by simpa using hns) (by simpa using hnw) ?_ hrest |> (by simpa using ·)
  intro b hb
  have : b ∈ (frame C.envelope m).drop 1 ∨ b ∈ (frame C.envelope m').drop 1 := by
    have hb' : b ∈ (m.id :: 0x02 :: s) ∨ b ∈ (frame C.envelope m').drop j := by
      simpa [or_assoc] using hb
    rcases hb' with hb | hb
    · left
      have : m.id :: 0x02 :: s = ((frame C.envelope m).take i).drop 1 := by rw [e0]; rfl
      rw [this, List.drop_take] at hb
      exact List.mem_of_mem_take hb
    · right
      obtain ⟨j, rfl⟩ : ∃ n, j = n + 1 := ⟨j - 1, by omega⟩
      rw [Nat.add_comm, ← List.drop_drop] at hb
      exact List.mem_of_mem_drop hb
  rcases this with hb | hb
  · exact hcm.1 b hb
  · exact hcm'.1 b hb

/-- C122. If as many bytes are lost as the two messages, of one type, have, what is left has the first bytes of the
contents of the first message and the other bytes of the contents of the second. Without a checksum it always passes for
a message; with one, if and only if the lost bytes of the second have the sum of those received of the first. -/
theorem C122_mixed (E : Envelope) {m m' : Msg} (hid : m.id = m'.id) (hl : m.payload.length = m'.payload.length) {n : Nat}
    (hn : n ≤ m.payload.length) :
    (PassesFor E m (spliced E m (n + 3) m' (n + 3)) ↔
      (E = .basicChecksum → byteSum (m.payload.take n) = byteSum (m'.payload.take n))) ∧
    forged m (spliced E m (n + 3) m' (n + 3)) = ⟨m.id, m.payload.take n ++ m'.payload.drop n⟩ := by
  have ht : (m.payload.take n).length = n := by rw [List.length_take]; omega
  cases E with
  | basic =>
    have e : spliced .basic m (n + 3) m' (n + 3) =
        0x01 :: m.id :: 0x02 :: ((m.payload.take n ++ m'.payload.drop n) ++ [0x03, 0x04]) := by
      simp only [spliced, frame, List.cons_append, List.nil_append, List.take_succ_cons, List.drop_succ_cons]
      rw [List.take_append_of_le_length hn, List.drop_append_of_le_length (by omega)]
      simp
    have hlen : (m.payload.take n ++ m'.payload.drop n).length = m.payload.length := by
      rw [List.length_append, ht, List.length_drop]; omega
    constructor
    · refine ⟨fun _ h => (by cases h), fun _ => ⟨?_, fun h => (by cases h)⟩⟩
      rw [e]
      simp only [List.length_cons, List.length_append] at hlen ⊢
      simp [frame]
      omega
    · unfold forged
      rw [e]
      simp only [List.drop_succ_cons, List.drop_zero]
      rw [← hlen, List.take_left]
  | basicChecksum =>
    have e : spliced .basicChecksum m (n + 3) m' (n + 3) =
        ([0x01, m.id, 0x02] ++ (m.payload.take n ++ m'.payload.drop n) ++ [0x03]) ++
          [byteSum ([0x01, m'.id, 0x02] ++ m'.payload ++ [0x03]), 0x04] := by
      simp only [spliced, frame, List.cons_append, List.nil_append, List.take_succ_cons, List.drop_succ_cons, List.append_assoc]
      rw [List.take_append_of_le_length hn, List.drop_append_of_le_length (by omega)]
    have hlen : (m.payload.take n ++ m'.payload.drop n).length = m.payload.length := by
      rw [List.length_append, ht, List.length_drop]; omega
    constructor
    · unfold PassesFor
      have h2 : (spliced .basicChecksum m (n + 3) m' (n + 3)).length - 2 =
          ([0x01, m.id, 0x02] ++ (m.payload.take n ++ m'.payload.drop n) ++ [0x03]).length := by rw [e]; simp; omega
      have h3 : (spliced .basicChecksum m (n + 3) m' (n + 3)).length = (frame .basicChecksum m).length := by
        rw [e]
        simp only [List.length_append] at hlen ⊢
        simp [frame] at hlen ⊢
        omega
      rw [h2, e, List.take_left, List.getElem?_append_right (Nat.le_refl _), Nat.sub_self, ← e]
      simp only [h3, true_and, List.getElem?_cons_zero, Option.some.injEq, forall_const]
      have hp : byteSum m'.payload = byteSum (m'.payload.take n) + byteSum (m'.payload.drop n) := by
        rw [← byteSum_append, List.take_append_drop]
      simp only [byteSum_append, hp, hid, UInt8.add_left_inj, UInt8.add_right_inj]
      exact eq_comm
    · unfold forged
      rw [e]
      simp only [List.append_assoc, List.cons_append, List.nil_append, List.drop_succ_cons, List.drop_zero]
      rw [← List.append_assoc, ← hlen, List.take_left]

/-- Two messages of one type, with a checksum: the sum decides. -/
example : PassesFor .basicChecksum ⟨1, [5, 6, 7, 8]⟩ (spliced .basicChecksum ⟨1, [5, 6, 7, 8]⟩ 5 ⟨1, [6, 5, 9, 9]⟩ 5) ∧
    forged ⟨1, [5, 6, 7, 8]⟩ (spliced .basicChecksum ⟨1, [5, 6, 7, 8]⟩ 5 ⟨1, [6, 5, 9, 9]⟩ 5) = ⟨1, [5, 6, 9, 9]⟩ ∧
    ¬ PassesFor .basicChecksum ⟨1, [5, 6, 7, 8]⟩ (spliced .basicChecksum ⟨1, [5, 6, 7, 8]⟩ 5 ⟨1, [6, 6, 9, 9]⟩ 5) := by
  decide

/-- Message 0 is empty, message 2 has ten bytes, message 3 two. -/
def threeLengths (E : Envelope) : Collection :=
  ⟨[⟨0, []⟩, ⟨1, [.uint8]⟩, ⟨2, [.pod 0 10]⟩, ⟨3, [.uint8, .uint8]⟩], E⟩

theorem setting_threeLengths (E : Envelope) : Setting (threeLengths E) Sample.dbg Sample.passive :=
  ⟨by cases E <;> exact ⟨by decide, by decide⟩, Sample.passive_benign⟩

/-- The last seven bytes of message 2 are lost, and message 3 up to its last three bytes; two empty messages follow,
the first of which is swallowed. -/
example : ∃ (w : World (threeLengths .basic)) (os : List Obs),
    Reached Sample.dbg Sample.passive 50 ([.setHandler Sample.h0,
      .append (frames .basic [⟨0, []⟩] ++ spliced .basic ⟨2, List.replicate 10 7⟩ 7 ⟨3, [8, 9]⟩ 4 ++
        frames .basic [⟨0, []⟩, ⟨0, []⟩])] ++ [.process]) w os ∧
    delivered w = ([⟨0, []⟩, ⟨2, [7, 7, 7, 7, 9, 3, 4, 1, 0, 2]⟩, ⟨0, []⟩] : List Msg).map
      (meaning (threeLengths .basic)) := by
  obtain ⟨w, os, h, hp⟩ := Sample.reached (C := threeLengths .basic) (B := Sample.dbg)
    (user := Sample.passive) (fuel := 50) (ops := [.setHandler Sample.h0,
      .append (frames .basic [⟨0, []⟩] ++ spliced .basic ⟨2, List.replicate 10 7⟩ 7 ⟨3, [8, 9]⟩ 4 ++
        frames .basic [⟨0, []⟩, ⟨0, []⟩])] ++ [.process])
    (fun w _ => w.rx.hasHandler && (w.fed == frames .basic [⟨0, []⟩] ++
      spliced .basic ⟨2, List.replicate 10 7⟩ 7 ⟨3, [8, 9]⟩ 4 ++ frames .basic [⟨0, []⟩, ⟨0, []⟩])) (by decide +kernel)
  simp only [Bool.and_eq_true, beq_iff_eq] at hp
  have := (C122_forged (setting_threeLengths .basic) Sample.passive_neverThrows h hp.1 (pre := [⟨0, []⟩])
    (post := [⟨0, []⟩, ⟨0, []⟩]) (m := ⟨2, List.replicate 10 7⟩) (m' := ⟨3, [8, 9]⟩) (i := 7) (j := 4) (k := 1)
    (by decide) (by decide) (by decide) (by decide) (by decide) (by decide) hp.2).1
  exact ⟨w, os, h, this⟩

/-- The same with a checksum: nothing passes for message 2, which is lost, with message 3. -/
example : ∃ (w : World (threeLengths .basicChecksum)) (os : List Obs),
    Reached Sample.dbg Sample.passive 50 ([.setHandler Sample.h0,
      .append (frames .basicChecksum [⟨0, []⟩] ++ spliced .basicChecksum ⟨2, List.replicate 10 7⟩ 7 ⟨3, [8, 9]⟩ 5 ++
        frames .basicChecksum [⟨0, []⟩, ⟨0, []⟩])] ++ [.process]) w os ∧
    delivered w = ([⟨0, []⟩, ⟨0, []⟩, ⟨0, []⟩] : List Msg).map (meaning (threeLengths .basicChecksum)) := by
  obtain ⟨w, os, h, hp⟩ := Sample.reached (C := threeLengths .basicChecksum) (B := Sample.dbg)
    (user := Sample.passive) (fuel := 50) (ops := [.setHandler Sample.h0,
      .append (frames .basicChecksum [⟨0, []⟩] ++ spliced .basicChecksum ⟨2, List.replicate 10 7⟩ 7 ⟨3, [8, 9]⟩ 5 ++
        frames .basicChecksum [⟨0, []⟩, ⟨0, []⟩])] ++ [.process])
    (fun w _ => w.rx.hasHandler && (w.fed == frames .basicChecksum [⟨0, []⟩] ++
      spliced .basicChecksum ⟨2, List.replicate 10 7⟩ 7 ⟨3, [8, 9]⟩ 5 ++ frames .basicChecksum [⟨0, []⟩, ⟨0, []⟩]))
    (by decide +kernel)
  simp only [Bool.and_eq_true, beq_iff_eq] at hp
  have := (C122_lost (setting_threeLengths .basicChecksum) Sample.passive_neverThrows h hp.1 (pre := [⟨0, []⟩])
    (post := [⟨0, []⟩, ⟨0, []⟩]) (m := ⟨2, List.replicate 10 7⟩) (m' := ⟨3, [8, 9]⟩) (i := 7) (j := 5)
    (by decide) (by decide) (by decide) (by decide) (by decide) (by decide) (by decide) (by decide) (by decide)
    (by decide) (by decide) hp.2).1
  exact ⟨w, os, h, this⟩

/-- One empty message is not enough to decide: it is held back. -/
example : ∃ (w : World (threeLengths .basic)) (os : List Obs),
    Reached Sample.dbg Sample.passive 50 ([.setHandler Sample.h0,
      .append (frames .basic [] ++ spliced .basic ⟨2, List.replicate 10 7⟩ 7 ⟨3, [8, 9]⟩ 5 ++
        frames .basic [⟨0, []⟩])] ++ [.process]) w os ∧ delivered w = [] := by
  obtain ⟨w, os, h, hp⟩ := Sample.reached (C := threeLengths .basic) (B := Sample.dbg)
    (user := Sample.passive) (fuel := 50) (ops := [.setHandler Sample.h0,
      .append (frames .basic [] ++ spliced .basic ⟨2, List.replicate 10 7⟩ 7 ⟨3, [8, 9]⟩ 5 ++
        frames .basic [⟨0, []⟩])] ++ [.process])
    (fun w _ => w.rx.hasHandler && (w.fed == frames .basic [] ++
      spliced .basic ⟨2, List.replicate 10 7⟩ 7 ⟨3, [8, 9]⟩ 5 ++ frames .basic [⟨0, []⟩])) (by decide +kernel)
  simp only [Bool.and_eq_true, beq_iff_eq] at hp
  exact ⟨w, os, h, (C122_held (setting_threeLengths .basic) Sample.passive_neverThrows h hp.1 (pre := [])
    (post := [⟨0, []⟩]) (m := ⟨2, List.replicate 10 7⟩) (m' := ⟨3, [8, 9]⟩) (i := 7) (j := 5)
    (by decide) (by decide) (by decide) (by decide) hp.2).1⟩

end TT.Properties
