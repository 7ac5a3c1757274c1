import Verif.Properties.Recovery

/-!
# A receiver that starts in the middle of a stream: C73
-/

namespace TT.Properties
open Spec

variable {C : Collection} {B : Build} {user : UserCode} {fuel : Nat}

/-- C73. A receiver that hears a sequence of messages in which no others begin from any byte on
delivers exactly the messages that begin at or behind that byte: `k` is the number of those that begin
before it. -/
theorem C73_late (S : Setting C B user) (hn : NeverThrows user) {ops : List Op} {w : World C}
    {os : List Obs} (h : Reached B user fuel (ops ++ [.process]) w os)
    (hh : w.rx.hasHandler = true) {ms : List Msg} (hms : ∀ m ∈ ms, IsMsg C m)
    (hp : ∀ m ∈ ms, Solid C m) {d : Nat} (hd : d ≤ (frames C.envelope ms).length)
    (hfed : w.fed = (frames C.envelope ms).drop d) :
    ∃ k, k ≤ ms.length ∧ delivered w = (ms.drop k).map (meaning C) ∧ buffered w = [] ∧
      d ≤ (frames C.envelope (ms.take k)).length ∧
      (k = 0 ∨ (frames C.envelope (ms.take (k - 1))).length < d) := by
  by_cases h0 : d = 0
  · subst h0
    obtain ⟨e1, e2⟩ := polled_eq S hn h hh (ms := ms) (r := []) ⟨by
      rw [hfed]
      have := run_frames hms []
      simpa using this, Or.inl rfl⟩
    exact ⟨0, by simp, by simpa using e1, e2, by simp, Or.inl rfl⟩
  · obtain ⟨k, hk, hkl, hlt, hge, hr⟩ := run_from_inside hms hp (by omega) hd
    obtain ⟨e1, e2⟩ := polled_eq S hn h hh (ms := ms.drop k) (r := []) ⟨by rw [hfed]; exact hr,
      Or.inl rfl⟩
    exact ⟨k, hkl, e1, e2, hge, Or.inr hlt⟩

/-- If the bytes of `m` are `a ++ b` and `b ++ a` are those of `m'`, then whoever hears a sequence of
`m`s from behind the first `a` on reads `m'`s. -/
theorem run_rotated {m m' : Msg} (hm' : IsMsg C m') {a b : List Byte}
    (h1 : frame C.envelope m = a ++ b) (h2 : frame C.envelope m' = b ++ a) (n : Nat) :
    Run C ((frames C.envelope (List.replicate (n + 1) m)).drop a.length) (List.replicate n m') b := by
  have key : ∀ n, b ++ frames C.envelope (List.replicate n m) =
      frames C.envelope (List.replicate n m') ++ b := by
    intro n
    induction n with
    | zero => simp [frames]
    | succ n ih =>
      rw [List.replicate_succ, List.replicate_succ, frames_cons, frames_cons, h1, h2]
      rw [List.append_assoc, List.append_assoc, List.append_assoc, ← ih]
  rw [List.replicate_succ, frames_cons, h1, List.append_assoc, List.drop_left, key]
  exact run_frames (by simp [List.mem_replicate, hm']) b

/-- C73. With beginnings of messages in the payloads there is no such guarantee. With Basic: when the same
message is sent over and over, with a payload `x 03 04 01 id 02 y`, a receiver that starts at the 01 in
it never falls into step: instead of every message it delivers one with the payload
`y 03 04 01 id 02 x`, however many are sent. -/
theorem C73_locked_basic (hE : C.envelope = .basic) (S : Setting C B user) (hn : NeverThrows user)
    {ops : List Op} {w : World C} {os : List Obs}
    (h : Reached B user fuel (ops ++ [.process]) w os) (hh : w.rx.hasHandler = true)
    (id : Byte) (x y : List Byte) (hm : IsMsg C ⟨id, x ++ [3, 4, 1, id, 2] ++ y⟩) (n : Nat)
    (hfed : w.fed = (frames C.envelope
      (List.replicate (n + 1) ⟨id, x ++ [3, 4, 1, id, 2] ++ y⟩)).drop (x.length + 5)) :
    delivered w = List.replicate n (meaning C ⟨id, y ++ [3, 4, 1, id, 2] ++ x⟩) ∧
    buffered w = [1, id, 2] ++ y ++ [3, 4] := by
  have hm' : IsMsg C ⟨id, y ++ [3, 4, 1, id, 2] ++ x⟩ := by
    obtain ⟨t, ht, hl⟩ := hm
    exact ⟨t, ht, by rw [← hl]; simp; omega⟩
  have hr := run_rotated (m := ⟨id, x ++ [3, 4, 1, id, 2] ++ y⟩) hm'
    (a := [1, id, 2] ++ x ++ [3, 4]) (b := [1, id, 2] ++ y ++ [3, 4])
    (by rw [hE]; simp [frame]) (by rw [hE]; simp [frame]) n
  rw [show ([1, id, 2] ++ x ++ [3, 4] : List Byte).length = x.length + 5 by simp, ← hfed] at hr
  have := polled_eq S hn h hh ⟨hr, Or.inr (Or.inr (Or.inr ⟨id, y ++ [3, 4], _, hm.announced,
    by simp, ?_⟩))⟩
  · simpa using this
  · rw [frame_length, hE]
    simp [overhead]
    omega

/-- C73. With BasicChecksum likewise, for payloads `x 03 c 04 01 id 02 y` whose parts satisfy one
condition on their sum. -/
theorem C73_locked_checksum (hE : C.envelope = .basicChecksum) (S : Setting C B user)
    (hn : NeverThrows user) {ops : List Op} {w : World C} {os : List Obs}
    (h : Reached B user fuel (ops ++ [.process]) w os) (hh : w.rx.hasHandler = true)
    (id c : Byte) (x y : List Byte) (hm : IsMsg C ⟨id, x ++ [3, c, 4, 1, id, 2] ++ y⟩)
    (hsum : byteSum x + byteSum y + id + id + 16 = 0) (n : Nat)
    (hfed : w.fed = (frames C.envelope
      (List.replicate (n + 1) ⟨id, x ++ [3, c, 4, 1, id, 2] ++ y⟩)).drop (x.length + 6)) :
    delivered w = List.replicate n (meaning C ⟨id, y ++ [3, c, 4, 1, id, 2] ++ x⟩) ∧
    buffered w = [1, id, 2] ++ y ++ [3, c, 4] := by
  have hm' : IsMsg C ⟨id, y ++ [3, c, 4, 1, id, 2] ++ x⟩ := by
    obtain ⟨t, ht, hl⟩ := hm
    exact ⟨t, ht, by rw [← hl]; simp; omega⟩
  have hr := run_rotated (m := ⟨id, x ++ [3, c, 4, 1, id, 2] ++ y⟩) hm'
    (a := [1, id, 2] ++ x ++ [3, c, 4]) (b := [1, id, 2] ++ y ++ [3, c, 4])
    (by rw [hE]; simp [frame, byteSum, byteSum_append]; grind)
    (by rw [hE]; simp [frame, byteSum, byteSum_append]; grind) n
  rw [show ([1, id, 2] ++ x ++ [3, c, 4] : List Byte).length = x.length + 6 by simp, ← hfed] at hr
  have := polled_eq S hn h hh ⟨hr, Or.inr (Or.inr (Or.inr ⟨id, y ++ [3, c, 4], _, hm.announced,
    by simp, ?_⟩))⟩
  · simpa using this
  · rw [frame_length, hE]
    simp [overhead]
    omega

/-- Five message types, with a checksum. -/
def fiveJoined : Collection := ⟨[⟨0, [.pod 0 1]⟩, ⟨1, []⟩, ⟨2, []⟩, ⟨3, []⟩, ⟨4, []⟩], .basicChecksum⟩

/-- C73. The last two bytes of a message count: with the checksum 01 and a message with id 4, whoever hears the end of a
message keeps two bytes of it. -/
theorem C73_left_witness : ∃ (m : Msg), IsMsg fiveJoined m ∧ (∀ b ∈ m.payload, b ≠ 0x01) ∧
    ∃ (w : World fiveJoined) (os : List Obs),
      Reached Sample.dbg Sample.passive 50
        ([.setHandler Sample.h0, .append ((frame .basicChecksum m).drop 1)] ++ [.process]) w os ∧
      delivered w = [] ∧ buffered w = [1, 4] := by
  refine ⟨⟨0, [251]⟩, by decide +kernel, by decide, ?_⟩
  obtain ⟨w, os, h, hp⟩ := Sample.reached (C := fiveJoined) (B := Sample.dbg) (user := Sample.passive) (fuel := 50)
    (ops := [.setHandler Sample.h0, .append ((frame .basicChecksum ⟨0, [251]⟩).drop 1)] ++ [.process])
    (fun w _ => decide (delivered w = []) && decide (buffered w = [1, 4])) (by decide +kernel)
  simp only [Bool.and_eq_true, decide_eq_true_eq] at hp
  exact ⟨w, os, h, hp⟩

/-- Starting at the second byte of a `pose`: it is missed, `ping` and `level` are delivered. -/
example : ∃ (w : World Sample.basic) (os : List Obs),
    Reached Sample.dbg Sample.passive 50 ([.setHandler Sample.h0,
      .append ((frames .basic [⟨2, [9, 1, 1, 4, 2, 1, 2]⟩, ⟨0, []⟩, ⟨0, []⟩]).drop 1)] ++
      [.process]) w os ∧
    delivered w = [⟨0, []⟩, ⟨0, []⟩].map (meaning Sample.basic) := by
  obtain ⟨w, os, h, hp⟩ := Sample.reached (C := Sample.basic) (B := Sample.dbg)
    (user := Sample.passive) (fuel := 50)
    (ops := [.setHandler Sample.h0,
      .append ((frames .basic [⟨2, [9, 1, 1, 4, 2, 1, 2]⟩, ⟨0, []⟩, ⟨0, []⟩]).drop 1)] ++ [.process])
    (fun w _ => w.rx.hasHandler && decide (w.fed =
      (frames .basic [⟨2, [9, 1, 1, 4, 2, 1, 2]⟩, ⟨0, []⟩, ⟨0, []⟩]).drop 1)) (by decide +kernel)
  simp only [Bool.and_eq_true, decide_eq_true_eq] at hp
  obtain ⟨k, hk, e, _, h1, h2⟩ := C73_late Sample.setting_basic Sample.passive_neverThrows h hp.1
    (ms := [⟨2, [9, 1, 1, 4, 2, 1, 2]⟩, ⟨0, []⟩, ⟨0, []⟩]) (by decide +kernel) (by decide +kernel)
    (d := 1) (by decide +kernel) hp.2
  refine ⟨w, os, h, ?_⟩
  rw [e]
  match k, hk with
  | 0, _ => simp [frames] at h1
  | 1, _ => rfl
  | 2, _ => exact absurd h2 (by decide +kernel)
  | 3, _ => exact absurd h2 (by decide +kernel)

/-- Three `pose`s, heard from the seventh byte on: two wrong ones. -/
example : ∃ (w : World Sample.basic) (os : List Obs),
    Reached Sample.dbg Sample.passive 50 ([.setHandler Sample.h0,
      .append ((frames .basic (List.replicate 3 ⟨2, [7, 3, 4, 1, 2, 2, 8]⟩)).drop 6)] ++
      [.process]) w os ∧
    delivered w = List.replicate 2 (meaning Sample.basic ⟨2, [8, 3, 4, 1, 2, 2, 7]⟩) := by
  obtain ⟨w, os, h, hp⟩ := Sample.reached (C := Sample.basic) (B := Sample.dbg)
    (user := Sample.passive) (fuel := 50)
    (ops := [.setHandler Sample.h0,
      .append ((frames .basic (List.replicate 3 ⟨2, [7, 3, 4, 1, 2, 2, 8]⟩)).drop 6)] ++ [.process])
    (fun w _ => w.rx.hasHandler && decide (w.fed =
      (frames .basic (List.replicate 3 ⟨2, [7, 3, 4, 1, 2, 2, 8]⟩)).drop 6)) (by decide +kernel)
  simp only [Bool.and_eq_true, decide_eq_true_eq] at hp
  exact ⟨w, os, h, (C73_locked_basic rfl Sample.setting_basic Sample.passive_neverThrows h hp.1
    2 [7] [8] (by decide +kernel) 2 hp.2).1⟩

/-- The same with checksums. -/
example : ∃ (w : World Sample.checked) (os : List Obs),
    Reached Sample.dbg Sample.passive 50 ([.setHandler Sample.h0,
      .append ((frames .basicChecksum (List.replicate 3 ⟨2, [236, 3, 99, 4, 1, 2, 2]⟩)).drop 7)] ++
      [.process]) w os ∧
    delivered w = List.replicate 2 (meaning Sample.checked ⟨2, [3, 99, 4, 1, 2, 2, 236]⟩) := by
  obtain ⟨w, os, h, hp⟩ := Sample.reached (C := Sample.checked) (B := Sample.dbg)
    (user := Sample.passive) (fuel := 50)
    (ops := [.setHandler Sample.h0,
      .append ((frames .basicChecksum (List.replicate 3 ⟨2, [236, 3, 99, 4, 1, 2, 2]⟩)).drop 7)] ++
      [.process])
    (fun w _ => w.rx.hasHandler && decide (w.fed =
      (frames .basicChecksum (List.replicate 3 ⟨2, [236, 3, 99, 4, 1, 2, 2]⟩)).drop 7))
    (by decide +kernel)
  simp only [Bool.and_eq_true, decide_eq_true_eq] at hp
  exact ⟨w, os, h, (C73_locked_checksum rfl Sample.setting_checked Sample.passive_neverThrows h hp.1
    2 99 [236] [] (by decide +kernel) (by decide +kernel) 2 hp.2).1⟩

end TT.Properties
