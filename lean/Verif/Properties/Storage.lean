import Verif.Model.Storage
import Verif.Properties.Aborted
import Verif.Properties.Idle

/-!
# Property about the memory of `VectorBuffer`: C117
-/

namespace TT.Properties
open Spec

variable {M : Memory} {C : Collection}

/-! ### C117 -/

theorem pushAll_append (xs ys : List Byte) : ∀ s : VecBuf, s.pushAll M (xs ++ ys) =
    (if (s.pushAll M xs).2 then s.pushAll M xs else (s.pushAll M xs).1.pushAll M ys) := by
  induction xs with
  | nil => intro s; simp [VecBuf.pushAll]
  | cons x xs ih =>
    intro s
    simp only [List.cons_append, VecBuf.pushAll]
    obtain ⟨s1, b, e⟩ : ∃ s1 b, s.push M x = (s1, b) := ⟨_, _, rfl⟩
    cases b
    · simp only [e]; exact ih s1
    · simp [e]

theorem throwOn_vec (s : VecBuf) (o : Out) : throwOn (vecTx M) s o = s.pushAll M o.bytes := by
  cases o with
  | byte b =>
    simp only [throwOn, vecTx, Out.bytes, VecBuf.pushAll]
    rcases s.push M b with ⟨s1, _ | _⟩ <;> rfl
  | block bs => rfl
  | finished => rfl

theorem feed_vec (os : List Out) : ∀ s : VecBuf,
    feed (vecTx M).tx (s, false) os = .ok (s.pushAll M (outBytes os)) := by
  induction os with
  | nil => intro s; rfl
  | cons o os ih =>
    intro s
    have e : outBytes (o :: os) = o.bytes ++ outBytes os := by simp [outBytes]
    rw [feed, on_tx, throwOn_vec, e, pushAll_append]
    rcases h : s.pushAll M o.bytes with ⟨s1, b⟩
    cases b
    · exact ih s1
    · exact feed_thrown _ s1 os

theorem sendCaught_vec {t : MsgType} {vs : List Value} (h : Sendable C t vs) (s : VecBuf) :
    sendCaught C t (vecTx M) s vs = some (.ok (s.pushAll M (wire C t vs))) := by
  have hid := idOf_idxOf h.1 h.2.1
  rw [sendCaught, send_eq C t _ _ vs h hid, feed_vec, outBytes_script]
  rfl

theorem pushAll_fits (xs : List Byte) : ∀ s : VecBuf, s.contents.length + xs.length ≤ s.room →
    s.pushAll M xs = ({ s with contents := s.contents ++ xs }, false) := by
  induction xs with
  | nil => intro s _; simp [VecBuf.pushAll]
  | cons x xs ih =>
    intro s h
    simp only [List.length_cons] at h
    have : s.contents.length < s.room := by omega
    simp only [VecBuf.pushAll, VecBuf.push, this, if_true]
    rw [ih _ (by simp; omega)]
    simp

/-- The elements are within the memory of the vector. -/
def Within (s : VecBuf) : Prop := s.contents.length ≤ s.room

/-- A vector never grows by nothing. -/
def Grows (M : Memory) : Prop := ∀ n, n < M.grow n

theorem pushAll_spec (hM : Grows M) (xs : List Byte) : ∀ s : VecBuf, Within s →
    ∃ q, q <+: xs ∧ (s.pushAll M xs).1.contents = s.contents ++ q ∧
      ((s.pushAll M xs).2 = false → q = xs) ∧
      ((s.pushAll M xs).2 = true → (s.contents ++ q).length = (s.pushAll M xs).1.room ∧ q ≠ xs ∧
        ∃ k n, M.grants k n = false ∧ s.asked ≤ k ∧ k < (s.pushAll M xs).1.asked) ∧
      Within (s.pushAll M xs).1 ∧ s.room ≤ (s.pushAll M xs).1.room ∧ s.asked ≤ (s.pushAll M xs).1.asked ∧
      ((s.pushAll M xs).1.asked = s.asked ↔ s.contents.length + xs.length ≤ s.room) := by
  induction xs with
  | nil =>
    intro s hs
    have hs' : s.contents.length ≤ s.room := hs
    exact ⟨[], List.prefix_refl _, by simp [VecBuf.pushAll], fun _ => rfl, by simp [VecBuf.pushAll], hs, Nat.le_refl _,
      Nat.le_refl _, by simpa [VecBuf.pushAll] using hs'⟩
  | cons x xs ih =>
    intro s hs
    have hs' : s.contents.length ≤ s.room := hs
    unfold VecBuf.pushAll VecBuf.push
    by_cases hf : s.contents.length < s.room
    · simp only [hf, if_true]
      obtain ⟨q, hq, h1, h2, h3, h4, h5, h6, h7⟩ := ih { s with contents := s.contents ++ [x] }
        (by simp [Within]; omega)
      refine ⟨x :: q, by simpa using hq, by rw [h1]; simp, fun e => by rw [h2 e], fun e => ?_, h4, h5, h6, ?_⟩
      · obtain ⟨a, b, c⟩ := h3 e
        exact ⟨by rw [← a]; simp, by simpa using b, c⟩
      · rw [h7]; simp; omega
    · simp only [hf, if_false]
      have hl : s.contents.length = s.room := by omega
      by_cases hg : M.grants s.asked (M.grow s.room) = true
      · simp only [hg, if_true]
        have hgr := hM s.room
        obtain ⟨q, hq, h1, h2, h3, h4, h5, h6, h7⟩ := ih
          { contents := s.contents ++ [x], room := M.grow s.room, block := some s.asked, asked := s.asked + 1 }
          (by simp [Within]; omega)
        refine ⟨x :: q, by simpa using hq, by rw [h1]; simp, fun e => by rw [h2 e], fun e => ?_, h4,
          by have : M.grow s.room ≤ _ := h5; omega, by have : s.asked + 1 ≤ _ := h6; omega, ?_⟩
        · obtain ⟨a, b, k, n, c1, c2, c3⟩ := h3 e
          exact ⟨by rw [← a]; simp, by simpa using b, k, n, c1, by have : s.asked + 1 ≤ k := c2; omega, c3⟩
        · have : s.asked + 1 ≤ _ := h6
          constructor
          · intro e; omega
          · intro e; simp at e; omega
      · simp only [hg]
        refine ⟨[], List.nil_prefix, by simp, by simp, fun _ => ⟨by simpa using hl, by simp, s.asked, _, by simpa using hg,
          Nat.le_refl _, by simp⟩, hs, Nat.le_refl _, by simp, ?_⟩
        simp; omega

theorem wire_le {t : MsgType} {vs : List Value} (h : Sendable C t vs) (hv : ∀ v ∈ vs, Value.Fits v) :
    (wire C t vs).length ≤ maxMessageLength C := by
  have hv' : ∀ v ∈ vs, v.bytes.length = fieldSize v.ty := fun v hm => hv v hm
  rw [wire, frame_length]
  simp only
  rw [payloadOf_length hv', h.2.2]
  exact (sizeofBound_eq C t).symm ▸ le_maxMessageLength C h.2.1

theorem wire_pos (t : MsgType) (vs : List Value) : 0 < (wire C t vs).length := by
  rw [wire, frame_length]
  cases C.envelope <;> simp [overhead] <;> omega

/-- C117 (fits). As long as the elements and the message fit in the memory the vector has, `send` requests no memory and
cannot throw, and the elements stay where they are (pointers and iterators to them remain valid). -/
theorem C117_fits {t : MsgType} {vs : List Value} (h : Sendable C t vs) (s : VecBuf)
    (hf : s.contents.length + (wire C t vs).length ≤ s.room) :
    sendCaught C t (vecTx M) s vs = some (.ok ({ s with contents := s.contents ++ wire C t vs }, false)) := by
  rw [sendCaught_vec h, pushAll_fits _ _ hf]

/-- Memory that refuses everything after the first request. -/
def refusing : Memory := { grow := fun n => 2 * n + 1, grants := fun k _ => decide (k = 0) }

/-- Memory that grants everything. -/
def granting : Memory := { grow := fun n => 2 * n + 1, grants := fun _ _ => true }

example := C117_fits (M := refusing) (C := Sample.checked) (t := Sample.pose) (vs := Sample.poseVals) (by decide)
  ⟨[1, 2], 30, some 4, 7⟩ (by decide)

/-- C117 (reserved). A `VectorBuffer` that could be constructed takes one message of its collection, whichever it is, without
requesting memory: `send` cannot throw, however little memory there is. -/
theorem C117_reserved {k : Nat} {s : VecBuf} (hn : VecBuf.new M C k = some s) {t : MsgType} {vs : List Value}
    (h : Sendable C t vs) (hv : ∀ v ∈ vs, Value.Fits v) :
    sendCaught C t (vecTx M) s vs = some (.ok ({ s with contents := wire C t vs }, false)) := by
  unfold VecBuf.new at hn
  split at hn
  · simp only [Option.some.injEq] at hn
    subst hn
    rw [C117_fits h _ (by simpa using wire_le h hv)]
    simp
  · cases hn

example : ∃ s, VecBuf.new refusing Sample.checked 0 = some s ∧
    sendCaught Sample.checked Sample.pose (vecTx refusing) s Sample.poseVals =
      some (.ok ({ s with contents := wire Sample.checked Sample.pose Sample.poseVals }, false)) :=
  ⟨_, rfl, C117_reserved (k := 0) rfl (by decide) (by decide)⟩

/-- C117 (requests). `send` requests memory exactly if the elements and the message do not fit in the memory the vector has. -/
theorem C117_requests (hM : Grows M) {t : MsgType} {vs : List Value} (h : Sendable C t vs) {s : VecBuf} (hs : Within s) :
    ∃ s' b, sendCaught C t (vecTx M) s vs = some (.ok (s', b)) ∧
      (s'.asked = s.asked ↔ s.contents.length + (wire C t vs).length ≤ s.room) ∧
      (s'.asked = s.asked → s'.block = s.block) := by
  obtain ⟨q, _, _, _, _, _, _, _, h7⟩ := pushAll_spec hM (wire C t vs) s hs
  refine ⟨_, _, sendCaught_vec h s, h7, fun e => ?_⟩
  rw [pushAll_fits _ _ (h7.mp e)]

theorem grows_refusing : Grows refusing := fun n => by simp [refusing]; omega
theorem grows_granting : Grows granting := fun n => by simp [granting]; omega

example := C117_requests grows_refusing (C := Sample.checked) (t := Sample.pose) (vs := Sample.poseVals) (by decide)
  (s := ⟨[1, 2], 3, some 4, 7⟩) (by simp [Within])

/-- C117 (refused). Whatever memory is refused: what was in the vector stays, a beginning of the message follows, all of it
exactly if `send` returns. It throws only if a request was refused, and then the vector is full, so that the next `send`
asks again. -/
theorem C117_refused (hM : Grows M) {t : MsgType} {vs : List Value} (h : Sendable C t vs) {s : VecBuf} (hs : Within s) :
    ∃ s' b q, sendCaught C t (vecTx M) s vs = some (.ok (s', b)) ∧ s'.contents = s.contents ++ q ∧ q <+: wire C t vs ∧
      (b = false ↔ q = wire C t vs) ∧ Within s' ∧
      (b = true → s'.contents.length = s'.room ∧ ∃ k n, M.grants k n = false ∧ s.asked ≤ k ∧ k < s'.asked) := by
  obtain ⟨q, h1, h2, h3, h4, h5, _⟩ := pushAll_spec hM (wire C t vs) s hs
  refine ⟨_, _, q, sendCaught_vec h s, h2, h1, ⟨h3, fun e => ?_⟩, h5, fun e => ?_⟩
  · cases hb : (s.pushAll M (wire C t vs)).2 with
    | false => rfl
    | true => exact absurd e (h4 hb).2.1
  · obtain ⟨a, _, c⟩ := h4 e
    exact ⟨by rw [h2]; exact a, c⟩

example : ∃ (s s' : VecBuf) (q : List Byte), VecBuf.new refusing Sample.checked 0 = some s ∧
    sendEach (vecTx refusing) s [⟨Sample.checked, Sample.pose, Sample.poseVals⟩, ⟨Sample.checked, Sample.pose, Sample.poseVals⟩,
      ⟨Sample.checked, Sample.level, Sample.levelVals⟩] = some (.ok (s', [false, true, true])) ∧
    s'.contents = wire Sample.checked Sample.pose Sample.poseVals ++ q ∧ q.length < 13 ∧ s'.asked = 3 :=
  ⟨_, _, [], rfl, rfl, by decide, by decide, rfl⟩

/-- C117 (granted). If all requests are granted, nothing throws and the vector holds exactly what was sent, as the vector of
the other properties. -/
theorem C117_granted (hg : ∀ k n, M.grants k n = true) (hM : Grows M) (rs : List Request)
    (h : ∀ r ∈ rs, Sendable r.C r.t r.vs) : ∀ {s : VecBuf}, Within s →
    ∃ s', sendEach (vecTx M) s rs = some (.ok (s', rs.map fun _ => false)) ∧
      s'.contents = s.contents ++ (rs.map fun r => wire r.C r.t r.vs).flatten ∧ Within s' := by
  induction rs with
  | nil => intro s hs; exact ⟨s, rfl, by simp, hs⟩
  | cons r rs ih =>
    intro s hs
    obtain ⟨s1, b, q, e, h1, _, h3, h4, h5⟩ := C117_refused hM (h r (by simp)) hs
    have hb : b = false := by
      cases b with
      | false => rfl
      | true => obtain ⟨_, k, n, h, _⟩ := h5 rfl; rw [hg] at h; cases h
    subst hb
    obtain ⟨s', e', h6, h7⟩ := ih (fun r' hr' => h r' (by simp [hr'])) h4
    refine ⟨s', ?_, ?_, h7⟩
    · simp only [sendEach, e, e', List.map_cons]
    · rw [h6, h1, h3.mp rfl]; simp

example := C117_granted (M := granting) (fun _ _ => rfl) grows_granting
  [⟨Sample.checked, Sample.pose, Sample.poseVals⟩, ⟨Sample.checked, Sample.level, Sample.levelVals⟩] (by decide)
  (s := ⟨[7], 2, some 0, 1⟩) (by simp [Within])

/-- The number of requests when the memory at least doubles: all of them granted, `r` the room at the start. -/
structure Doubled (r a : Nat) (s : VecBuf) (k : Nat) : Prop where
  asked : s.asked = a + k
  room : r * 2 ^ k ≤ s.room
  long : k = 0 ∨ r * 2 ^ (k - 1) < s.contents.length

theorem pushAll_doubled (hg : ∀ k n, M.grants k n = true) (h2 : ∀ n, 2 * n ≤ M.grow n) {r a : Nat} (xs : List Byte) :
    ∀ {s : VecBuf} {k : Nat}, Doubled r a s k → ∃ k', Doubled r a (s.pushAll M xs).1 k' ∧ (s.pushAll M xs).2 = false := by
  induction xs with
  | nil => intro s k h; exact ⟨k, h, rfl⟩
  | cons x xs ih =>
    intro s k h
    obtain ⟨h1, h3, h4⟩ := h
    unfold VecBuf.pushAll VecBuf.push
    by_cases hf : s.contents.length < s.room
    · simp only [hf, if_true]
      refine ih ⟨h1, h3, ?_⟩
      rcases h4 with h4 | h4
      · exact Or.inl h4
      · exact Or.inr (by simp; omega)
    · simp only [hf, if_false, hg, if_true]
      refine ih (k := k + 1) ⟨by simp [h1, Nat.add_assoc], ?_, Or.inr ?_⟩
      · have := h2 s.room
        have e : r * 2 ^ (k + 1) = 2 * (r * 2 ^ k) := by rw [Nat.pow_succ]; simp [Nat.mul_comm, Nat.mul_left_comm]
        simp only [e]; omega
      · simp; omega

/-- C117 (few requests). If the memory of a full vector at least doubles and nothing is refused, then after any sends the
vector has requested memory only `k` more times after its construction, where the bytes sent are more than `2 ^ (k - 1)`
times the longest message. -/
theorem C117_few (hg : ∀ k n, M.grants k n = true) (h2 : ∀ n, 2 * n ≤ M.grow n) {a : Nat} {s : VecBuf}
    (hn : VecBuf.new M C a = some s) (rs : List Request) (h : ∀ r ∈ rs, Sendable r.C r.t r.vs) :
    ∃ s' bs k, sendEach (vecTx M) s rs = some (.ok (s', bs)) ∧ s'.asked = s.asked + k ∧
      (k = 0 ∨ maxLen C * 2 ^ (k - 1) < s'.contents.length) := by
  have hd : Doubled (maxMessageLength C) s.asked s 0 := by
    unfold VecBuf.new at hn
    split at hn
    · simp only [Option.some.injEq] at hn
      subst hn
      exact ⟨rfl, by simp, Or.inl rfl⟩
    · cases hn
  have : ∀ (rs : List Request) (s1 : VecBuf) (k : Nat), (∀ r ∈ rs, Sendable r.C r.t r.vs) →
      Doubled (maxMessageLength C) s.asked s1 k →
      ∃ s' bs k', sendEach (vecTx M) s1 rs = some (.ok (s', bs)) ∧ Doubled (maxMessageLength C) s.asked s' k' := by
    intro rs
    induction rs with
    | nil => intro s1 k _ hd; exact ⟨s1, [], k, rfl, hd⟩
    | cons r rs ih =>
      intro s1 k h hd
      obtain ⟨k', hd', hb⟩ := pushAll_doubled hg h2 (wire r.C r.t r.vs) hd
      obtain ⟨s', bs, k2, e, hd2⟩ := ih _ _ (fun r' hr' => h r' (by simp [hr'])) hd'
      have e1 := sendCaught_vec (M := M) (h r (by simp)) s1
      have e2 : s1.pushAll M (wire r.C r.t r.vs) = ((s1.pushAll M (wire r.C r.t r.vs)).1, false) := by rw [← hb]
      rw [e2] at e1
      exact ⟨s', false :: bs, k2, by simp only [sendEach, e1, e], hd2⟩
  obtain ⟨s', bs, k, e, hd'⟩ := this rs s 0 h hd
  exact ⟨s', bs, k, e, hd'.asked, by rw [maxLen_eq]; exact hd'.long⟩

example : ∃ s, VecBuf.new granting Sample.basic 3 = some s ∧ ∃ s' bs k, sendEach (vecTx granting) s
    (List.replicate 20 ⟨Sample.basic, Sample.pose, Sample.poseVals⟩) = some (.ok (s', bs)) ∧ s'.asked = s.asked + k ∧
      (k = 0 ∨ maxLen Sample.basic * 2 ^ (k - 1) < s'.contents.length) :=
  ⟨_, rfl, C117_few (fun _ _ => rfl) (fun n => by simp [granting]) rfl _
    (fun r hr => by rw [List.eq_of_mem_replicate hr]; decide)⟩

/-- C117 (copies). A copy has the same elements, in other memory, and nothing in reserve: any message sent to it makes it
request memory, and if that is refused, `send` throws and the copy is as before. -/
theorem C117_copy (hM : Grows M) {s c : VecBuf} (hb : ∀ k, s.block = some k → k < s.asked) (hc : s.copy M = some c) :
    c.contents = s.contents ∧ Within c ∧ (c.block = none ∨ c.block ≠ s.block) ∧
    ∀ {C : Collection} {t : MsgType} {vs : List Value}, Sendable C t vs →
      ∃ c' b, sendCaught C t (vecTx M) c vs = some (.ok (c', b)) ∧ c.asked < c'.asked ∧
        (M.grants c.asked (M.grow c.room) = false → b = true ∧ c'.contents = c.contents) := by
  have hroom : c.contents = s.contents ∧ c.room = s.contents.length ∧ (c.block = none ∨ c.block = some s.asked) := by
    unfold VecBuf.copy at hc
    split at hc
    · rename_i h0
      simp only [Option.some.injEq] at hc; subst hc; simp [h0]
    · split at hc
      · simp only [Option.some.injEq] at hc; subst hc; simp
      · cases hc
  obtain ⟨h1, h2, h3⟩ := hroom
  have hw : Within c := by simp [Within, h1, h2]
  refine ⟨h1, hw, ?_, ?_⟩
  · rcases h3 with h3 | h3
    · exact Or.inl h3
    · refine Or.inr ?_
      rw [h3]
      intro e
      exact absurd (hb _ e.symm) (Nat.lt_irrefl _)
  · intro C t vs h
    obtain ⟨q, _, h4, _, _, _, _, h5, h6⟩ := pushAll_spec hM (wire C t vs) c hw
    have hp := wire_pos (C := C) t vs
    refine ⟨_, _, sendCaught_vec h c, ?_, fun hr => ?_⟩
    · have : ¬ c.contents.length + (wire C t vs).length ≤ c.room := by rw [h1, h2]; omega
      have hne : (c.pushAll M (wire C t vs)).1.asked ≠ c.asked := fun e => this (h6.mp e)
      omega
    · cases hx : wire C t vs with
      | nil => rw [hx] at hp; simp at hp
      | cons x xs =>
        have hf : ¬ c.contents.length < c.room := by rw [h1, h2]; omega
        simp [VecBuf.pushAll, VecBuf.push, hf, hr]

/-- C117 (copies, witness). The reservation of the constructor is lost in a copy: with memory that refuses further requests,
an original takes its first message and a copy of it does not. -/
theorem C117_copy_witness : ∃ s c, VecBuf.new refusing Sample.checked 0 = some s ∧ s.copy refusing = some c ∧
    (sendCaught Sample.checked Sample.level (vecTx refusing) s Sample.levelVals).map (·.toOption.map (·.2)) =
      some (some false) ∧
    (sendCaught Sample.checked Sample.level (vecTx refusing) c Sample.levelVals).map (·.toOption.map (·.2)) =
      some (some true) :=
  ⟨_, _, rfl, rfl, by decide, by decide⟩

example : ∃ c, VecBuf.copy granting ⟨[7, 8], 9, some 0, 1⟩ = some c ∧ c.contents = [7, 8] :=
  ⟨_, rfl, (C117_copy grows_granting (s := ⟨[7, 8], 9, some 0, 1⟩) (by simp) rfl).1⟩

/-- C117 (restoring). A program that keeps a copy of the vector can undo a `send` that threw: assigning the copy requests no
memory, cannot throw, and the elements are those from before, in the memory the vector has. -/
theorem C117_restore (hM : Grows M) {s c : VecBuf} (hs : Within s) (hc : s.copy M = some c) {t : MsgType}
    {vs : List Value} (h : Sendable C t vs) :
    ∃ s' b, sendCaught C t (vecTx M) { s with asked := c.asked } vs = some (.ok (s', b)) ∧
      s'.assign M c = ({ s' with contents := s.contents }, false) := by
  have hcc : c.contents = s.contents := by
    unfold VecBuf.copy at hc
    split at hc
    · rename_i h0
      simp only [Option.some.injEq] at hc; subst hc; simp [h0]
    · split at hc
      · simp only [Option.some.injEq] at hc; subst hc; rfl
      · cases hc
  obtain ⟨q, _, _, _, _, _, h5, _⟩ := pushAll_spec hM (wire C t vs) { s with asked := c.asked } hs
  refine ⟨_, _, sendCaught_vec h _, ?_⟩
  have hs' : s.contents.length ≤ s.room := hs
  have h5' : s.room ≤ _ := h5
  have : c.contents.length ≤ (VecBuf.pushAll M { s with asked := c.asked } (wire C t vs)).1.room := by
    rw [hcc]; omega
  unfold VecBuf.assign
  rw [if_pos this, hcc]

example : ∃ s' b, sendCaught Sample.checked Sample.level (vecTx granting) { (⟨[7, 8], 9, some 0, 1⟩ : VecBuf) with asked := 2 }
    Sample.levelVals = some (.ok (s', b)) ∧
    s'.assign granting ⟨[7, 8], 2, some 1, 2⟩ = ({ s' with contents := [7, 8] }, false) :=
  C117_restore grows_granting (s := ⟨[7, 8], 9, some 0, 1⟩) (by simp [Within]) rfl (by decide)

end TT.Properties
