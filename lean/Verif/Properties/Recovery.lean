import Verif.Properties.LineErrors

/-!
# Properties about recovery: C67 (garbage costs at most one message length), C68 (peers that disagree
on the size of a message)
-/

namespace TT.Properties
open Spec

variable {C : Collection} {B : Build} {user : UserCode} {fuel : Nat}

/-- The only start code of the encoded message is its first byte. -/
def Plain (E : Envelope) (m : Msg) : Prop := ∀ b ∈ (frame E m).drop 1, b ≠ 0x01

instance (E : Envelope) (m : Msg) : Decidable (Plain E m) := by unfold Plain; infer_instance

/-- A message may begin at place `i`: there are the byte `0x01`, the id of a message of the collection and the byte `0x02`, as
far as there are bytes. -/
def MayStart (C : Collection) (s : List Byte) (i : Nat) : Prop :=
  s[i]? = some 0x01 ∧ (s[i + 1]?.all fun id => (typeOf C id).isSome) = true ∧ (s[i + 2]?.all (· == 0x02)) = true

instance (C : Collection) (s : List Byte) (i : Nat) : Decidable (MayStart C s i) := by unfold MayStart; infer_instance

/-- The beginning of no message occurs in the encoded message behind its first byte. -/
def Solid (C : Collection) (m : Msg) : Prop :=
  ∀ i < (frame C.envelope m).length, 1 ≤ i → ¬ MayStart C (frame C.envelope m) i

instance (C : Collection) (m : Msg) : Decidable (Solid C m) := by unfold Solid; infer_instance

theorem Plain.solid {m : Msg} (hp : Plain C.envelope m) : Solid C m := by
  intro i _ hi h
  refine hp 0x01 (List.mem_of_getElem? (i := i - 1) ?_) rfl
  rw [List.getElem?_drop, ← h.1]
  congr 1
  omega

/-! ### C67: recovery after garbage -/

/-- Where no message begins, the scan goes on. -/
theorem skip_of_no_start {s : List Byte} (h : ¬ MayStart C s 0) : ¬ Starts C s ∧ ¬ Waiting C s := by
  constructor
  · rintro ⟨m, t, ⟨ty, hty, _⟩, rfl⟩
    obtain ⟨f, hf⟩ := frame_cons C.envelope m
    apply h
    rw [hf]
    exact ⟨rfl, by simp [hty], rfl⟩
  · rintro (rfl | ⟨id, hid, rfl⟩ | ⟨id, rest, n, hn, rfl, _⟩)
    · exact h ⟨rfl, rfl, rfl⟩
    · refine h ⟨rfl, ?_, rfl⟩
      cases ht : typeOf C id with
      | none => exact absurd ht hid
      | some t => simp [ht]
    · refine h ⟨rfl, ?_, rfl⟩
      cases ht : typeOf C id with
      | none => simp [announced, ht] at hn
      | some t => simp [ht]

/-- The rest of a message in which no other begins is skipped. -/
theorem run_solid {m : Msg} (hs : Solid C m) {s r : List Byte} {ms : List Msg} (h0 : s = [] ∨ s[0]? = some 0x01)
    (h : Run C s ms r) : ∀ (tail pre : List Byte), pre ≠ [] → frame C.envelope m = pre ++ tail → Run C (tail ++ s) ms r := by
  intro tail
  induction tail with
  | nil => intro _ _ _; exact h
  | cons b tail ih =>
    intro pre hpre he
    have ih := ih (pre ++ [b]) (by simp) (by rw [he]; simp)
    have hpos : 0 < pre.length := List.length_pos_iff.2 hpre
    have hm := hs pre.length (by rw [he]; simp) hpos
    rw [he] at hm
    have at' : ∀ j, (pre ++ b :: tail)[pre.length + j]? = (b :: tail)[j]? := by
      intro j
      rw [List.getElem?_append_right (by omega)]
      congr 1
      omega
    have hno : ¬ MayStart C (b :: (tail ++ s)) 0 := by
      rintro ⟨g1, g2, g3⟩
      have hb : b = 0x01 := Option.some.inj g1
      match tail, he, hm, at', g2, g3 with
      | [], he, _, _, _, _ =>
        have hl := frame_last C.envelope m
        rw [he] at hl
        simp [hb] at hl
      | [x], _, hm, at', g2, g3 =>
        rcases h0 with rfl | h0
        · refine hm ⟨?_, ?_, ?_⟩
          · rw [show pre.length = pre.length + 0 from rfl, at']; exact g1
          · rw [at']; exact g2
          · rw [at']; exact g3
        · have e : (b :: ([x] ++ s))[0 + 2]? = some 0x01 := by simpa using h0
          rw [e] at g3
          simp at g3
      | x :: y :: tail, _, hm, at', g2, g3 =>
        refine hm ⟨?_, ?_, ?_⟩
        · rw [show pre.length = pre.length + 0 from rfl, at']; exact g1
        · rw [at']; exact g2
        · rw [at']; exact g3
    obtain ⟨n1, n2⟩ := skip_of_no_start hno
    exact Run.skip n1 n2 ih

/-- What has arrived of a message in which no other begins, behind its first byte, is skipped when other messages follow,
unless it ends with a start code, there is a message with id 1 and the next one has id 2. -/
theorem run_solid_cut {m : Msg} (hs : Solid C m) {s r : List Byte} {ms : List Msg} (h0 : s[0]? = some 0x01) {x : Byte}
    (h1 : s[1]? = some x) (h : Run C s ms r) : ∀ (tail pre u : List Byte), pre ≠ [] → frame C.envelope m = pre ++ tail ++ u →
      (tail.getLast? = some 0x01 → x = 0x02 → typeOf C 0x01 = none) → Run C (tail ++ s) ms r := by
  intro tail
  induction tail with
  | nil => intro _ _ _ _ _; exact h
  | cons b tail ih =>
    intro pre u hpre he h2
    have ih := ih (pre ++ [b]) u (by simp) (by rw [he]; simp) fun e => h2 (by
      cases tail with
      | nil => simp at e
      | cons y tail => rw [List.getLast?_cons_cons]; exact e)
    have hpos : 0 < pre.length := List.length_pos_iff.2 hpre
    have hno : ¬ MayStart C (b :: (tail ++ s)) 0 := by
      rintro ⟨g1, g2, g3⟩
      have hb : b = 0x01 := Option.some.inj g1
      subst hb
      match tail, he, h2, g2, g3 with
      | [], _, h2, g2, g3 =>
        have e1 : (0x01 :: ([] ++ s))[0 + 1]? = some (0x01 : Byte) := by simpa using h0
        have e2 : (0x01 :: ([] ++ s))[0 + 2]? = some x := by simpa using h1
        rw [e1, Option.all_some] at g2
        rw [e2, Option.all_some] at g3
        rw [h2 rfl (by simpa using g3)] at g2
        simp at g2
      | [y], _, _, _, g3 =>
        have e : (0x01 :: ([y] ++ s))[0 + 2]? = some 0x01 := by simpa using h0
        rw [e] at g3
        simp at g3
      | y :: z :: tail, he, _, g2, g3 =>
        refine hs pre.length (by rw [he]; simp) hpos ?_
        have e : frame C.envelope m = pre ++ (0x01 :: y :: z :: (tail ++ u)) := by rw [he]; simp
        rw [e]
        refine ⟨?_, ?_, ?_⟩
        · rw [List.getElem?_append_right (by omega)]; simp
        · rw [List.getElem?_append_right (by omega), show pre.length + 1 - pre.length = 1 by omega]; exact g2
        · rw [List.getElem?_append_right (by omega), show pre.length + 2 - pre.length = 2 by omega]; exact g3
    obtain ⟨n1, n2⟩ := skip_of_no_start hno
    exact Run.skip n1 n2 ih

theorem frames_nil_or_start (E : Envelope) (ms : List Msg) : frames E ms = [] ∨ (frames E ms)[0]? = some 0x01 := by
  cases ms with
  | nil => exact Or.inl rfl
  | cons m ms =>
    obtain ⟨f, hf⟩ := frame_cons E m
    rw [frames_cons, hf]
    exact Or.inr rfl

/-- Scanning from any place inside a sequence of messages in which no others begin finds all messages that begin at or
behind that place. -/
theorem run_from_inside {ms : List Msg} (hms : ∀ m ∈ ms, IsMsg C m)
    (hp : ∀ m ∈ ms, Solid C m) : ∀ {d : Nat}, 0 < d → d ≤ (frames C.envelope ms).length →
    ∃ k, 0 < k ∧ k ≤ ms.length ∧ (frames C.envelope (ms.take (k - 1))).length < d ∧
      d ≤ (frames C.envelope (ms.take k)).length ∧
      Run C ((frames C.envelope ms).drop d) (ms.drop k) [] := by
  induction ms with
  | nil => intro d hd hle; simp [frames] at hle; omega
  | cons m ms ih =>
    intro d hd hle
    rw [frames_cons] at hle ⊢
    by_cases hdl : d ≤ (frame C.envelope m).length
    · refine ⟨1, by omega, by simp, by simpa [frames] using hd, by simpa [frames] using hdl, ?_⟩
      rw [List.drop_append_of_le_length hdl]
      have hr := run_frames (C := C) (ms := ms) (fun m' h => hms m' (by simp [h])) []
      rw [List.append_nil] at hr
      refine run_solid (hp m (by simp)) (frames_nil_or_start C.envelope ms) (by simpa using hr) _
        ((frame C.envelope m).take d) ?_ (List.take_append_drop d _).symm
      have h3 := frame_length C.envelope m
      have h4 := overhead_pos C.envelope
      intro e
      have := congrArg List.length e
      rw [List.length_take, List.length_nil] at this
      omega
    · obtain ⟨k, hk, hkl, hlt, hge, hr⟩ := ih (fun m' h => hms m' (by simp [h]))
        (fun m' h => hp m' (by simp [h])) (d := d - (frame C.envelope m).length) (by omega)
        (by simp at hle; omega)
      refine ⟨k + 1, by omega, by simpa using hkl, ?_, ?_, ?_⟩
      · obtain ⟨j, rfl⟩ : ∃ j, k = j + 1 := ⟨k - 1, by omega⟩
        simp [frames_cons] at hlt ⊢
        omega
      · rw [List.take_succ_cons, frames_cons, List.length_append]
        omega
      · rw [List.drop_append, List.drop_eq_nil_of_le (by omega)]
        simpa using hr

/-- The scan of garbage followed by messages in which no others begin. -/
theorem run_garbage {ms : List Msg} (hne : ms ≠ []) (hms : ∀ m ∈ ms, IsMsg C m)
    (hp : ∀ m ∈ ms, Solid C m) (hlen : maxLen C ≤ (frames C.envelope ms).length + 1) :
    ∀ (n : Nat) (g : List Byte), g.length ≤ n → ∃ (fs : List Msg) (k : Nat),
      Run C (g ++ frames C.envelope ms) (fs ++ ms.drop k) [] ∧ k ≤ ms.length ∧
      (k = 0 ∨ (frames C.envelope (ms.take (k - 1))).length + 1 < maxLen C) := by
  have hrest : Run C (frames C.envelope ms) ms [] := by
    have := run_frames hms []
    rwa [List.append_nil] at this
  intro n
  induction n with
  | zero =>
    intro g hg
    obtain rfl : g = [] := List.length_eq_zero_iff.mp (by omega)
    exact ⟨[], 0, by simpa using hrest, by simp, Or.inl rfl⟩
  | succ n ih =>
    intro g hg
    cases g with
    | nil => exact ⟨[], 0, by simpa using hrest, by simp, Or.inl rfl⟩
    | cons b g =>
      by_cases hst : Starts C (b :: g ++ frames C.envelope ms)
      · obtain ⟨m', t, hm', e⟩ := hst
        have hle := announced_le hm'.announced
        rw [← maxLen_eq] at hle
        have h5 := announced_ge hm'.announced
        by_cases hin : (frame C.envelope m').length ≤ (b :: g).length
        · have e1 : frame C.envelope m' ++ (b :: g).drop (frame C.envelope m').length = b :: g := by
            have h1 := congrArg (List.take (frame C.envelope m').length) e
            rw [List.take_append_of_le_length hin, List.take_left] at h1
            have h2 := List.take_append_drop (frame C.envelope m').length (b :: g)
            rw [h1] at h2
            exact h2
          obtain ⟨fs, k, hr, hkl, hk⟩ := ih ((b :: g).drop (frame C.envelope m').length) (by
            simp only [List.length_drop]; omega)
          refine ⟨m' :: fs, k, ?_, hkl, hk⟩
          rw [← e1, List.append_assoc]
          exact Run.take hm' hr
        · have ht : t = (frames C.envelope ms).drop
              ((frame C.envelope m').length - (b :: g).length) := by
            have h1 := congrArg (List.drop (frame C.envelope m').length) e
            rw [List.drop_left, List.drop_append, List.drop_eq_nil_of_le (by omega)] at h1
            simpa using h1.symm
          have hl := congrArg List.length e
          simp at hl hin
          obtain ⟨k, hk, hkl, hlt, _, hr⟩ := run_from_inside hms hp
            (d := (frame C.envelope m').length - (b :: g).length) (by simp; omega)
            (by simp; omega)
          refine ⟨[m'], k, ?_, hkl, Or.inr ?_⟩
          · rw [e, ht]
            exact Run.take hm' hr
          · simp at hlt
            omega
      · have hw : ¬ Waiting C (b :: g ++ frames C.envelope ms) := by
          have hmax : ∀ id n', announced C id = some n' → n' ≤ (frames C.envelope ms).length + 1 := by
            intro id n' h
            have := announced_le h
            rw [← maxLen_eq] at this
            omega
          have hlong : 5 ≤ (frames C.envelope ms).length := by
            obtain ⟨m, ms', rfl⟩ := List.exists_cons_of_ne_nil hne
            have := frame_length C.envelope m
            have := overhead_pos C.envelope
            rw [frames_cons, List.length_append]
            omega
          have hl : (b :: g ++ frames C.envelope ms).length =
              g.length + 1 + (frames C.envelope ms).length := by simp; omega
          rintro (e | ⟨id, hid, e⟩ | ⟨id, rest, n', hn', e, hlt⟩)
          · rw [e] at hl
            simp at hl
            omega
          · rw [e] at hl
            simp at hl
            omega
          · have := hmax _ _ hn'
            omega
        obtain ⟨fs, k, hr, hkl, hk⟩ := ih g (by simp at hg; omega)
        exact ⟨fs, k, Run.skip hst hw hr, hkl, hk⟩

/-- C67. Whatever garbage arrives between two sequences of messages, if no other
message begins within the messages after it, then every one of them that begins at least one maximal message length (minus
one byte) behind the garbage is delivered, in order and as the last thing delivered. At most the
messages `ms.take k` are lost; the last lost one begins before that distance. Messages before the
garbage are all delivered; only messages `fs` made of garbage can come in between. -/
theorem C67_recovery (S : Setting C B user) (hn : NeverThrows user) {ops : List Op} {w : World C}
    {os : List Obs} (h : Reached B user fuel (ops ++ [.process]) w os)
    (hh : w.rx.hasHandler = true) {before ms : List Msg} (hb : ∀ m ∈ before, IsMsg C m)
    (hne : ms ≠ []) (hms : ∀ m ∈ ms, IsMsg C m) (hp : ∀ m ∈ ms, Solid C m)
    (hlen : maxLen C ≤ (frames C.envelope ms).length + 1) (garbage : List Byte)
    (hfed : w.fed = frames C.envelope before ++ garbage ++ frames C.envelope ms) :
    ∃ (fs : List Msg) (k : Nat),
      delivered w = (before ++ fs ++ ms.drop k).map (meaning C) ∧ buffered w = [] ∧
      k ≤ ms.length ∧ (k = 0 ∨ (frames C.envelope (ms.take (k - 1))).length + 1 < maxLen C) := by
  obtain ⟨fs, k, hr, hkl, hk⟩ := run_garbage hne hms hp hlen garbage.length garbage (Nat.le_refl _)
  have hd : Decodes C w.fed (before ++ (fs ++ ms.drop k)) [] := by
    refine ⟨?_, Or.inl rfl⟩
    rw [hfed, List.append_assoc]
    exact (run_frames hb _).trans hr
  obtain ⟨e1, e2⟩ := polled_eq S hn h hh hd
  exact ⟨fs, k, by rw [e1, List.append_assoc], e2, hkl, hk⟩

/-- C67. In particular, if no message is shorter than `n` bytes, fewer than
`(maxLen - 1) / n + 1` messages are lost. -/
theorem C67_count {ms : List Msg} {n k : Nat} (hmin : ∀ m ∈ ms, n ≤ (frame C.envelope m).length)
    (hk : k ≤ ms.length)
    (h : k = 0 ∨ (frames C.envelope (ms.take (k - 1))).length + 1 < maxLen C) :
    n * (k - 1) + 1 < maxLen C ∨ k = 0 := by
  rcases h with h | h
  · exact Or.inr h
  · left
    have : ∀ (j : Nat) (ns : List Msg), j ≤ ns.length →
        (∀ m ∈ ns, n ≤ (frame C.envelope m).length) →
        n * j ≤ (frames C.envelope (ns.take j)).length := by
      intro j
      induction j with
      | zero => intro ns _ _; simp
      | succ j ih =>
        intro ns hl hns
        cases ns with
        | nil => simp at hl
        | cons m ns =>
          have h1 := ih ns (by simpa using hl) (fun m' hm' => hns m' (by simp [hm']))
          have h2 := hns m (by simp)
          rw [List.take_succ_cons, frames_cons, List.length_append, Nat.mul_succ]
          omega
    have := this (k - 1) ms (by omega) hmin
    omega

/-- Messages for the examples: `ping`, a `pose` with start codes that begin no message, `ping`. -/
def afterNoise : List Msg := [⟨0, []⟩, ⟨2, [5, 1, 1, 4, 1, 2, 1]⟩, ⟨0, []⟩]

/-- Garbage that looks like the beginning of a `pose`. -/
def falsePose : List Byte := [9, 1, 2, 2, 8, 8, 8, 8]

example : ∃ (w : World Sample.basic) (os : List Obs),
    Reached Sample.dbg Sample.passive 50
      ([.setHandler Sample.h0, .append (frames .basic [⟨1, [7]⟩] ++ falsePose), .process,
        .append (frames .basic afterNoise)] ++ [.process]) w os ∧
    ∃ (fs : List Msg) (k : Nat),
      delivered w = ([(⟨1, [7]⟩ : Msg)] ++ fs ++ afterNoise.drop k).map (meaning Sample.basic) ∧
      (k = 0 ∨ 5 * (k - 1) + 1 < 12) := by
  obtain ⟨w, os, h, hp⟩ := Sample.reached (C := Sample.basic) (B := Sample.dbg)
    (user := Sample.passive) (fuel := 50)
    (ops := [.setHandler Sample.h0, .append (frames .basic [⟨1, [7]⟩] ++ falsePose), .process,
        .append (frames .basic afterNoise)] ++ [.process])
    (fun w _ => w.rx.hasHandler) (by decide +kernel)
  have hf := C25_fed_is_chunks Sample.setting_basic Sample.passive_quiet (by simp) h
  obtain ⟨fs, k, h1, _, hkl, hk⟩ := C67_recovery Sample.setting_basic Sample.passive_neverThrows h hp
    (before := [⟨1, [7]⟩]) (ms := afterNoise) (by decide +kernel) (by decide)
    (by decide +kernel) (by decide +kernel) (by decide +kernel) falsePose
    (by rw [hf]; decide +kernel)
  exact ⟨w, os, h, fs, k, h1, (C67_count (n := 5) (by decide +kernel) hkl hk).symm⟩

/-- C67. The loss is real: the false start swallows the first message behind the garbage, and a `pose`
that nobody sent is delivered instead. -/
theorem C67_swallowed : ∃ (w : World Sample.basic) (os : List Obs),
    Reached Sample.dbg Sample.passive 50
      ([.setHandler Sample.h0, .append falsePose, .append (frames .basic afterNoise)] ++
        [.process]) w os ∧
    delivered w = ([(⟨2, [8, 8, 8, 8, 1, 0, 2]⟩ : Msg)] ++ afterNoise.drop 1).map
      (meaning Sample.basic) := by
  obtain ⟨w, os, h, hp⟩ := Sample.reached (C := Sample.basic) (B := Sample.dbg)
    (user := Sample.passive) (fuel := 50)
    (ops := [.setHandler Sample.h0, .append falsePose, .append (frames .basic afterNoise)] ++
        [.process])
    (fun w _ => decide (delivered w = ([(⟨2, [8, 8, 8, 8, 1, 0, 2]⟩ : Msg)] ++ afterNoise.drop 1).map
      (meaning Sample.basic))) (by decide +kernel)
  exact ⟨w, os, h, by simpa using hp⟩

/-! ### C68: peers that disagree on the size of a message -/

/-- Differences between the receiver's and the sender's idea of a message's length that are always
noticed. -/
def AlwaysNoticed (E : Envelope) (receiver sender : Nat) : Prop :=
  match E with
  | .basic => receiver + 1 = sender ∨ (sender < receiver ∧ receiver ≤ sender + 4)
  | .basicChecksum => receiver + 1 = sender ∨ receiver + 2 = sender ∨
      (sender < receiver ∧ receiver ≤ sender + 3) ∨ receiver = sender + 5

instance (E : Envelope) (a b : Nat) : Decidable (AlwaysNoticed E a b) := by
  unfold AlwaysNoticed; cases E <;> infer_instance

theorem frame_etx (E : Envelope) (m : Msg) :
    (frame E m)[(frame E m).length - (overhead E - 3)]? = some 0x03 := by
  rw [frame_length]
  cases E with
  | basic =>
    have e : overhead .basic + m.payload.length - (overhead .basic - 3) =
        ([0x01, m.id, 0x02] ++ m.payload).length := by simp [overhead]; omega
    rw [e]
    simp only [frame]
    rw [List.getElem?_append_right (Nat.le_refl _)]
    simp
  | basicChecksum =>
    have e : overhead .basicChecksum + m.payload.length - (overhead .basicChecksum - 3) =
        ([0x01, m.id, 0x02] ++ m.payload).length := by simp [overhead]; omega
    rw [e]
    simp only [frame]
    rw [List.append_assoc ([0x01, m.id, 0x02] ++ m.payload),
      List.getElem?_append_right (Nat.le_refl _)]
    simp

/-- Where the trailer of a message has to stand. -/
theorem starts_trailer {s : List Byte} {id : Byte} {n : Nat} (h : Starts C s)
    (h1 : s[1]? = some id) (hn : announced C id = some n) :
    s[n - (overhead C.envelope - 3)]? = some 0x03 ∧ s[n - 1]? = some 0x04 := by
  obtain ⟨m, t, hm, rfl⟩ := h
  rw [frame_id] at h1
  have ha := hm.announced
  rw [Option.some.inj h1, hn] at ha
  have hl := Option.some.inj ha
  have hfl := frame_length C.envelope m
  have hov := overhead_pos C.envelope
  rw [List.getElem?_append_left (by omega), List.getElem?_append_left (by omega), hl]
  exact ⟨frame_etx _ _, frame_last _ _⟩

/-- With BasicChecksum, a receiver that expects one byte less than was sent always notices: it would
take the sender's ETX for the checksum and the sender's checksum, which is then 6, for EOT. -/
theorem shorter_by_one (hE : C.envelope = .basicChecksum) {m : Msg} {n : Nat}
    (hn : announced C m.id = some n) (hd : n + 1 = (frame C.envelope m).length) (t : List Byte) :
    ¬ Starts C (frame C.envelope m ++ t) := by
  rintro ⟨m0, t0, hm0, e⟩
  have hid : m0.id = m.id := by
    have h1 := frame_id C.envelope m t
    rw [e, frame_id] at h1
    exact Option.some.inj h1
  have ha := hm0.announced
  rw [hid, hn] at ha
  have hl := Option.some.inj ha
  rw [hl, frame_length, frame_length] at hd
  obtain ⟨q, x, hq⟩ : ∃ q x, m.payload = q ++ [x] := by
    have hne : m.payload ≠ [] := fun h => by rw [h] at hd; simp at hd; omega
    exact ⟨_, _, (List.dropLast_concat_getLast hne).symm⟩
  rw [hE] at e
  simp only [frame, hq, hid, List.append_assoc, List.cons_append, List.nil_append,
    List.cons.injEq, true_and] at e
  obtain ⟨e1, e2⟩ := List.append_inj e (by rw [hq] at hd; simp at hd; omega)
  subst e1
  simp only [List.cons.injEq, byteSum, byteSum_append] at e2
  obtain ⟨e3, e4, e5, -⟩ := e2
  subst e3
  grind

/-- A message that the receiver expects with another, always noticed, length is given up when the next
message has arrived. -/
theorem mismatch_not_start {m : Msg} {n : Nat} (hn : announced C m.id = some n)
    (hd : AlwaysNoticed C.envelope n (frame C.envelope m).length) (m' : Msg) (t : List Byte) :
    ¬ Starts C (frame C.envelope m ++ (frame C.envelope m' ++ t)) ∧
    ¬ Waiting C (frame C.envelope m ++ (frame C.envelope m' ++ t)) := by
  have hid := frame_id C.envelope m (frame C.envelope m' ++ t)
  have h5 := announced_ge hn
  have hl := frame_length C.envelope m
  have hl' := frame_length C.envelope m'
  have hov := overhead_pos C.envelope
  have hnx : ∀ i < 3, (frame C.envelope m ++ (frame C.envelope m' ++ t))[
      (frame C.envelope m).length + i]? = [0x01, m'.id, 0x02][i]? := by
    intro i hi
    rw [List.getElem?_append_right (by omega), Nat.add_sub_cancel_left]
    obtain ⟨rest, hr⟩ := frame_cons C.envelope m'
    rw [hr]
    match i, hi with
    | 0, _ => rfl
    | 1, _ => rfl
    | 2, _ => rfl
  have h0 := hnx 0 (by omega)
  have h2 := hnx 2 (by omega)
  simp at h0 h2
  have hlast : (frame C.envelope m ++ (frame C.envelope m' ++ t))[
      (frame C.envelope m).length - 1]? = some 0x04 := by
    rw [List.getElem?_append_left (by omega)]
    exact frame_last _ _
  have hetx : (frame C.envelope m ++ (frame C.envelope m' ++ t))[
      (frame C.envelope m).length - (overhead C.envelope - 3)]? = some 0x03 := by
    rw [List.getElem?_append_left (by omega)]
    exact frame_etx _ _
  have hone := fun hE h => shorter_by_one (m := m) hE hn h (frame C.envelope m' ++ t)
  constructor
  · intro hs
    obtain ⟨ha, hb⟩ := starts_trailer hs hid hn
    generalize frame C.envelope m ++ (frame C.envelope m' ++ t) = s at *
    generalize (frame C.envelope m).length = L at *
    have clash : ∀ {i j : Nat} {x y : Byte}, s[i]? = some x → s[j]? = some y → i = j → x = y := by
      intro i j x y hx hy e
      subst e
      rw [hx] at hy
      exact Option.some.inj hy
    unfold AlwaysNoticed at hd
    cases hE : C.envelope with
    | basic =>
      simp only [hE, overhead] at *
      rcases hd with hd | ⟨hd1, hd2⟩
      · exact absurd (clash hb hetx (by omega)) (by decide)
      · rcases (by omega : n = L + 1 ∨ n = L + 2 ∨ n = L + 3 ∨ n = L + 4) with e | e | e | e
        · exact absurd (clash hb h0 (by omega)) (by decide)
        · exact absurd (clash ha h0 (by omega)) (by decide)
        · exact absurd (clash hb h2 (by omega)) (by decide)
        · exact absurd (clash ha h2 (by omega)) (by decide)
    | basicChecksum =>
      simp only [hE, overhead] at *
      rcases hd with hd | hd | ⟨hd1, hd2⟩ | hd
      · exact hone trivial hd hs
      · exact absurd (clash hb hetx (by omega)) (by decide)
      · rcases (by omega : n = L + 1 ∨ n = L + 2 ∨ n = L + 3) with e | e | e
        · exact absurd (clash hb h0 (by omega)) (by decide)
        · exact absurd (clash ha hlast (by omega)) (by decide)
        · exact absurd (clash hb h2 (by omega)) (by decide)
      · exact absurd (clash ha h2 (by omega)) (by decide)
  · refine not_waiting_of_length hid hn ?_ ?_
    · simp; omega
    · unfold AlwaysNoticed at hd
      cases hE : C.envelope <;> simp [hE, overhead] at hd hl hl' ⊢ <;> omega

/-- C68. Sender and receiver use the same envelope but disagree on the length of some message types (for
example because `int` has 2 bytes on one of them and 4 on the other). If every difference is one of
`AlwaysNoticed` and no other message begins within the messages of those types, then the receiver ignores
exactly these messages and delivers all others, in order, provided the last one sent is not of such a
type. -/
theorem C68_size_mismatch {Sd : Collection} (hE : Sd.envelope = C.envelope)
    (S : Setting C B user) (hn : NeverThrows user) {ops : List Op} {w : World C} {os : List Obs}
    (h : Reached B user fuel (ops ++ [.process]) w os) (hh : w.rx.hasHandler = true)
    {ms : List Msg} {last : Msg} (hms : ∀ m ∈ ms ++ [last], IsMsg Sd m)
    (hp : ∀ m ∈ ms, announced C m.id ≠ announced Sd m.id → Solid C m)
    (hdiff : ∀ m ∈ ms, ∀ a b, announced C m.id = some a → announced Sd m.id = some b →
      a = b ∨ AlwaysNoticed C.envelope a b)
    (hknown : ∀ m ∈ ms, announced C m.id ≠ none)
    (hlast : announced C last.id = announced Sd last.id)
    (hfed : w.fed = frames Sd.envelope (ms ++ [last])) :
    delivered w = ((ms.filter fun m => announced C m.id = announced Sd m.id) ++ [last]).map
      (meaning C) ∧ buffered w = [] := by
  have isMsg : ∀ m, IsMsg Sd m → announced C m.id = announced Sd m.id → IsMsg C m := by
    intro m hm e
    have ha := hm.announced
    rw [← e] at ha
    unfold announced at ha
    cases ht : typeOf C m.id with
    | none => simp [ht] at ha
    | some ty =>
      refine ⟨ty, ht, ?_⟩
      simp [ht, frame_length, hE] at ha
      omega
  refine polled_eq S hn h hh ⟨?_, Or.inl rfl⟩
  rw [hfed, hE]
  clear hfed hh h
  induction ms with
  | nil =>
    have := run_frames (C := C) (ms := [last])
      (by simpa using isMsg last (hms last (by simp)) hlast) []
    simpa using this
  | cons m ms ih =>
    have ih := ih (fun m' hm' => hms m' (by simp at hm' ⊢; exact Or.inr hm'))
      (fun m' hm' => hp m' (by simp [hm'])) (fun m' hm' => hdiff m' (by simp [hm']))
      (fun m' hm' => hknown m' (by simp [hm']))
    have hm := hms m (by simp)
    rw [List.cons_append, frames_cons]
    by_cases e : announced C m.id = announced Sd m.id
    · rw [List.filter_cons_of_pos (by simpa using e)]
      exact Run.take (isMsg m hm e) ih
    · rw [List.filter_cons_of_neg (by simpa using e)]
      obtain ⟨a, ha⟩ := Option.ne_none_iff_exists'.mp (hknown m (by simp))
      have hb := hm.announced
      have hd : AlwaysNoticed C.envelope a (frame C.envelope m).length := by
        rcases hdiff m (by simp) a _ ha hb with e' | e'
        · rw [ha, hb, e'] at e; exact absurd rfl e
        · rwa [hE] at e'
      obtain ⟨m', rest, hr⟩ : ∃ m' rest, ms ++ [last] = m' :: rest := by
        cases ms with
        | nil => exact ⟨last, [], rfl⟩
        | cons x xs => exact ⟨x, xs ++ [last], rfl⟩
      have hfr : frames C.envelope (ms ++ [last]) =
          frame C.envelope m' ++ frames C.envelope rest := by rw [hr, frames_cons]
      obtain ⟨h1, h2⟩ := mismatch_not_start ha hd m' (frames C.envelope rest)
      rw [← hfr] at h1 h2
      obtain ⟨tail, ht⟩ := frame_cons C.envelope m
      have hr := run_solid (hp m (by simp) e) (frames_nil_or_start C.envelope (ms ++ [last])) ih _ [0x01] (by simp) ht
      rw [ht] at h1 h2 ⊢
      exact Run.skip h1 h2 hr

/-- The sender's `int` has two bytes. -/
def narrow : Collection := ⟨[⟨0, []⟩, ⟨1, [.uint8]⟩, ⟨2, [.pod 0 2]⟩, ⟨3, [.pod 1 4]⟩], .basic⟩
/-- The receiver's `int` has four bytes. -/
def wide : Collection := ⟨[⟨0, []⟩, ⟨1, [.uint8]⟩, ⟨2, [.pod 0 4]⟩, ⟨3, [.pod 1 4]⟩], .basic⟩

theorem setting_wide : Setting wide Sample.dbg Sample.passive :=
  ⟨⟨by decide +kernel, by decide +kernel⟩, Sample.passive_benign⟩
theorem setting_narrow : Setting narrow Sample.dbg Sample.passive :=
  ⟨⟨by decide +kernel, by decide +kernel⟩, Sample.passive_benign⟩

example : ∃ (w : World wide) (os : List Obs),
    Reached Sample.dbg Sample.passive 50
      ([.setHandler Sample.h0,
        .append (frames .basic [⟨2, [1, 4]⟩, ⟨3, [1, 0, 2, 4]⟩]), .process,
        .append (frames .basic [⟨2, [0, 4]⟩, ⟨0, []⟩])] ++
        [.process]) w os ∧
    delivered w = [⟨3, [1, 0, 2, 4]⟩, ⟨0, []⟩].map (meaning wide) := by
  obtain ⟨w, os, h, hp⟩ := Sample.reached (C := wide) (B := Sample.dbg)
    (user := Sample.passive) (fuel := 50)
    (ops := [.setHandler Sample.h0,
        .append (frames .basic [⟨2, [1, 4]⟩, ⟨3, [1, 0, 2, 4]⟩]), .process,
        .append (frames .basic [⟨2, [0, 4]⟩, ⟨0, []⟩])] ++
        [.process])
    (fun w _ => w.rx.hasHandler) (by decide +kernel)
  have hf := C25_fed_is_chunks setting_wide Sample.passive_quiet (by simp) h
  have := (C68_size_mismatch (C := wide) (Sd := narrow) rfl setting_wide Sample.passive_neverThrows h hp
    (ms := [⟨2, [1, 4]⟩, ⟨3, [1, 0, 2, 4]⟩, ⟨2, [0, 4]⟩]) (last := ⟨0, []⟩)
    (by decide +kernel) (by decide +kernel) ?_ (by decide +kernel) (by decide +kernel)
    (by rw [hf]; decide +kernel)).1
  · refine ⟨w, os, h, this.trans ?_⟩
    decide +kernel
  · intro m hm a b ha hb
    simp at hm
    rcases hm with rfl | rfl | rfl <;> simp [announced, typeOf, wide, narrow, payloadSize, overhead,
      fieldSize] at ha hb <;> subst ha hb <;> decide

/-- A message type with a payload of `n` bytes. -/
def sized (tag n : Nat) : MsgType := ⟨tag, if n = 0 then [] else [.pod tag n]⟩

theorem payloadSize_sized (tag n : Nat) : payloadSize (sized tag n) = n := by
  unfold payloadSize sized
  split <;> simp [fieldSize, *]

/-- A collection of `k + 5` types: number 3 has a payload of `c` bytes, number `k + 4` has `n`, the
others are empty. -/
def sizedCollection (E : Envelope) (k c n : Nat) : Collection :=
  ⟨([sized 0 0, sized 0 0, sized 0 0, sized 3 c] ++ List.replicate k (sized 0 0)) ++
    [sized (k + 4) n], E⟩

theorem typeOf_sized_3 (E : Envelope) (k c n : Nat) :
    typeOf (sizedCollection E k c n) 3 = some (sized 3 c) := by
  simp [typeOf, sizedCollection]

theorem typeOf_sized_k (E : Envelope) (k c n : Nat) (hk : k < 200) :
    typeOf (sizedCollection E k c n) (UInt8.ofNat (k + 4)) = some (sized (k + 4) n) := by
  have : (UInt8.ofNat (k + 4)).toNat = k + 4 := by
    simp [UInt8.toNat_ofNat']; omega
  unfold typeOf sizedCollection
  rw [this, List.getElem?_append_right (by simp)]
  simp [show k + 4 - (k + 1 + 1 + 1 + 1) = 0 by omega]

theorem typeOf_sized_other (E : Envelope) (k c n n' : Nat) (id : Byte)
    (hid : id ≠ UInt8.ofNat (k + 4)) :
    typeOf (sizedCollection E k c n) id = typeOf (sizedCollection E k c n') id := by
  have h1 : id.toNat ≠ k + 4 := by
    intro h
    apply hid
    rw [← h]
    simp
  unfold typeOf sizedCollection
  by_cases hlt : id.toNat < k + 4
  · exact (List.getElem?_append_left (by simp; omega)).trans
      (List.getElem?_append_left (by simp; omega)).symm
  · rw [List.getElem?_eq_none (by simp; omega), List.getElem?_eq_none (by simp; omega)]

theorem byteSum_zeros (n : Nat) : byteSum (List.replicate n 0) = 0 := by
  induction n with
  | zero => rfl
  | succ n ih => simp [List.replicate_succ, byteSum, ih]

/-- What goes wrong with one disagreement: there are a message `m` of the sender and further messages
`more`, all without further start codes, whose bytes are those of the message `m'` of the receiver, of
the same type but with other contents, followed by bytes without a start code. -/
def Misread (Sd C : Collection) (m : Msg) (more : List Msg) (m' : Msg) : Prop :=
  (∀ x ∈ m :: more, IsMsg Sd x ∧ Plain Sd.envelope x) ∧ IsMsg C m' ∧ m'.id = m.id ∧
  ∃ rest, frames C.envelope (m :: more) = frame C.envelope m' ++ rest ∧ ∀ b ∈ rest, b ≠ 0x01

theorem mem_zeros {n : Nat} {b : Byte} (h : b ∈ List.replicate n (0 : Byte)) : b ≠ 0x01 := by
  rw [List.eq_of_mem_replicate h]; decide

/-- Every difference that is not always noticed goes wrong for some collections and messages. -/
theorem misread_exists (E : Envelope) (a b : Nat) (hne : a ≠ b)
    (hd : ¬ AlwaysNoticed E (overhead E + a) (overhead E + b)) :
    ∃ (k c : Nat) (m : Msg) (more : List Msg) (m' : Msg), k < 200 ∧ m.id = UInt8.ofNat (k + 4) ∧
      Misread (sizedCollection E k c b) (sizedCollection E k c a) m more m' := by
  have isK : ∀ (k c n : Nat) (p : List Byte), k < 200 → p.length = n →
      IsMsg (sizedCollection E k c n) ⟨UInt8.ofNat (k + 4), p⟩ := fun k c n p hk hp =>
    ⟨_, typeOf_sized_k E k c n hk, by rw [payloadSize_sized]; exact hp⟩
  have is3 : ∀ (k c n : Nat) (p : List Byte), p.length = c →
      IsMsg (sizedCollection E k c n) ⟨3, p⟩ := fun k c n p hp =>
    ⟨_, typeOf_sized_3 E k c n, by rw [payloadSize_sized]; exact hp⟩
  cases E with
  | basic =>
    simp only [AlwaysNoticed, overhead] at hd
    by_cases hlt : a < b
    · obtain ⟨d, rfl⟩ : ∃ d, b = a + 2 + d := ⟨b - a - 2, by omega⟩
      refine ⟨116, 0, ⟨120, List.replicate a 0 ++ [3, 4] ++ List.replicate d 0⟩, [],
        ⟨120, List.replicate a 0⟩, by decide, rfl, ?_, isK _ _ _ _ (by decide) (by simp <;> omega), rfl,
        List.replicate d 0 ++ [3, 4], ?_, ?_⟩
      · simp only [List.mem_singleton, forall_eq]
        refine ⟨isK _ _ _ _ (by decide) (by simp <;> omega), ?_⟩
        simp only [Plain, sizedCollection, frame]
        simp
        grind [mem_zeros]
      · simp [frames, frame, sizedCollection]
      · simp; grind [mem_zeros]
    · obtain ⟨d, rfl⟩ : ∃ d, a = b + 5 + d := ⟨a - b - 5, by omega⟩
      refine ⟨116, d, ⟨120, List.replicate b 0⟩, [⟨3, List.replicate d 0⟩],
        ⟨120, List.replicate b 0 ++ [3, 4, 1, 3, 2] ++ List.replicate d 0⟩, by decide, rfl, ?_,
        isK _ _ _ _ (by decide) (by simp <;> omega), rfl, [], ?_, by simp⟩
      · simp only [List.mem_cons, List.not_mem_nil, or_false, forall_eq_or_imp, forall_eq]
        refine ⟨⟨isK _ _ _ _ (by decide) (by simp <;> omega), ?_⟩, is3 _ _ _ _ (by simp), ?_⟩ <;>
        · simp only [Plain, sizedCollection, frame]
          simp
          grind [mem_zeros]
      · simp [frames, frame, sizedCollection]
  | basicChecksum =>
    simp only [AlwaysNoticed, overhead] at hd
    by_cases hlt : a < b
    · obtain ⟨d, rfl⟩ : ∃ d, b = a + 3 + d := ⟨b - a - 3, by omega⟩
      refine ⟨116, 0, ⟨120, List.replicate a 0 ++ [3, 126, 4] ++ List.replicate d 0⟩, [],
        ⟨120, List.replicate a 0⟩, by decide, rfl, ?_, isK _ _ _ _ (by decide) (by simp <;> omega), rfl,
        List.replicate d 0 ++ [3, 3, 4], ?_, ?_⟩
      · simp only [List.mem_singleton, forall_eq]
        refine ⟨isK _ _ _ _ (by decide) (by simp <;> omega), ?_⟩
        simp only [Plain, sizedCollection, frame]
        simp [byteSum, byteSum_append, byteSum_zeros]
        grind [mem_zeros]
      · simp [frames, frame, sizedCollection, byteSum, byteSum_append, byteSum_zeros]
      · simp; grind [mem_zeros]
    · by_cases h4 : a = b + 4
      · subst h4
        refine ⟨115, 1, ⟨119, List.replicate b 0⟩, [⟨3, [4]⟩],
          ⟨119, List.replicate b 0 ++ [3, 125, 4, 1]⟩, by decide, rfl, ?_,
          isK _ _ _ _ (by decide) (by simp <;> omega), rfl, [3, 13, 4], ?_, by decide⟩
        · simp only [List.mem_cons, List.not_mem_nil, or_false, forall_eq_or_imp, forall_eq]
          refine ⟨⟨isK _ _ _ _ (by decide) (by simp <;> omega), ?_⟩, is3 _ _ _ _ (by simp), ?_⟩ <;>
          · simp only [Plain, sizedCollection, frame]
            simp [byteSum, byteSum_append, byteSum_zeros]
            try grind [mem_zeros]
        · simp [frames, frame, sizedCollection, byteSum, byteSum_append, byteSum_zeros]
      · obtain ⟨d, rfl⟩ : ∃ d, a = b + 6 + d := ⟨a - b - 6, by omega⟩
        refine ⟨116, d, ⟨120, List.replicate b 0⟩, [⟨3, List.replicate d 0⟩],
          ⟨120, List.replicate b 0 ++ [3, 126, 4, 1, 3, 2] ++ List.replicate d 0⟩, by decide, rfl, ?_,
          isK _ _ _ _ (by decide) (by simp <;> omega), rfl, [], ?_, by simp⟩
        · simp only [List.mem_cons, List.not_mem_nil, or_false, forall_eq_or_imp, forall_eq]
          refine ⟨⟨isK _ _ _ _ (by decide) (by simp <;> omega), ?_⟩, is3 _ _ _ _ (by simp), ?_⟩ <;>
          · simp only [Plain, sizedCollection, frame]
            simp [byteSum, byteSum_append, byteSum_zeros]
            grind [mem_zeros]
        · simp [frames, frame, sizedCollection, byteSum, byteSum_append, byteSum_zeros]

/-- C68. The list of differences is complete: for every other one - payload sizes `a` at the receiver
and `b` at the sender - there are collections that differ in the size of one message type only, and
messages without further start codes, starting with one of that type, for which every receiver delivers
a message of that type with contents of the wrong size and nothing else. -/
theorem C68_complete (E : Envelope) (a b : Nat) (hne : a ≠ b)
    (hd : ¬ AlwaysNoticed E (overhead E + a) (overhead E + b)) :
    ∃ (Sd C : Collection) (m : Msg) (more : List Msg) (m' : Msg),
      Sd.envelope = E ∧ C.envelope = E ∧
      (∀ id, id ≠ m.id → typeOf Sd id = typeOf C id) ∧
      (∀ x ∈ m :: more, IsMsg Sd x ∧ Plain E x) ∧ m.payload.length = b ∧
      IsMsg C m' ∧ m'.id = m.id ∧ m'.payload.length = a ∧
      ∀ (B : Build) (user : UserCode), Setting C B user → NeverThrows user →
      ∀ (fuel : Nat) (ops : List Op) (w : World C) (os : List Obs),
        Reached B user fuel (ops ++ [.process]) w os → w.rx.hasHandler = true →
        w.fed = frames E (m :: more) → delivered w = [meaning C m'] ∧ buffered w = [] := by
  obtain ⟨k, c, m, more, m', hk, hid, h1, h2, h3, rest, h4, h5⟩ := misread_exists E a b hne hd
  have len : ∀ n (x : Msg), x.id = m.id → IsMsg (sizedCollection E k c n) x → x.payload.length = n := by
    rintro n x hx ⟨t, ht, hl⟩
    rw [hx, hid, typeOf_sized_k E k c n hk] at ht
    rw [hl, ← Option.some.inj ht, payloadSize_sized]
  refine ⟨sizedCollection E k c b, sizedCollection E k c a, m, more, m', rfl, rfl, ?_, h1,
    len b m rfl (h1 m (by simp)).1, h2, h3, len a m' h3 h2, ?_⟩
  · intro id hne
    exact typeOf_sized_other E k c b a id (hid ▸ hne)
  · intro B user S hn fuel ops w os h hh hfed
    refine polled_eq S hn h hh (ms := [m']) ⟨?_, Or.inl rfl⟩
    rw [hfed, show frames E (m :: more) = _ from h4]
    have := run_noise (C := sizedCollection E k c a) h5 (Run.refl [])
    rw [List.append_nil] at this
    exact Run.take h2 this

/-- C68. In the other direction the mismatch can go unnoticed: a sender with four bytes and a receiver
with two; the value 0x0403_0A09 is delivered as 0x0A09. -/
theorem C68_witness : ∃ (w : World narrow) (os : List Obs),
    Reached Sample.dbg Sample.passive 50
      ([.setHandler Sample.h0, .append (frame .basic ⟨2, [9, 10, 3, 4]⟩)] ++ [.process]) w os ∧
    IsMsg wide ⟨2, [9, 10, 3, 4]⟩ ∧
    delivered w = [meaning narrow ⟨2, [9, 10]⟩] := by
  obtain ⟨w, os, h, hp⟩ := Sample.reached (C := narrow) (B := Sample.dbg)
    (user := Sample.passive) (fuel := 50)
    (ops := [.setHandler Sample.h0, .append (frame .basic ⟨2, [9, 10, 3, 4]⟩)] ++ [.process])
    (fun w _ => decide (delivered w = [meaning narrow ⟨2, [9, 10]⟩])) (by decide +kernel)
  exact ⟨w, os, h, by decide +kernel, by simpa using hp⟩

end TT.Properties
