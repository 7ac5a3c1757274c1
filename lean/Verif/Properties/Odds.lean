import Verif.Properties.EndToEnd

/-!
# How many corruptions the checksum lets through: C70
-/

namespace TT.Properties
open Spec

variable {C : Collection} {B : Build} {user : UserCode} {fuel : Nat}

/-! ### C70 -/

/-- All byte values. -/
def allBytes : List Byte := (List.range 256).map UInt8.ofNat

theorem mem_allBytes (b : Byte) : b ∈ allBytes :=
  List.mem_map.mpr ⟨b.toNat, List.mem_range.mpr b.toNat_lt, by simp⟩

theorem allBytes_nodup : allBytes.Nodup := by decide +kernel

/-- All byte strings of a length. -/
def strings : Nat → List (List Byte)
  | 0 => [[]]
  | k + 1 => allBytes.flatMap fun b => (strings k).map (b :: ·)

theorem mem_strings (k : Nat) : ∀ p : List Byte, p ∈ strings k ↔ p.length = k := by
  induction k with
  | zero => intro p; simp [strings]
  | succ k ih =>
    intro p
    cases p with
    | nil => simp [strings]
    | cons b p => simp [strings, ih, mem_allBytes]

theorem strings_nodup (k : Nat) : (strings k).Nodup := by
  induction k with
  | zero => simp [strings]
  | succ k ih =>
    refine List.pairwise_flatMap.mpr ⟨fun b _ => ?_, ?_⟩
    · exact List.Pairwise.map _ (fun x y hxy e => hxy (by simpa using e)) ih
    · refine List.Pairwise.imp ?_ allBytes_nodup
      intro b c hbc x hx y hy e
      obtain ⟨x', _, rfl⟩ := List.mem_map.mp hx
      obtain ⟨y', _, rfl⟩ := List.mem_map.mp hy
      simp only [List.cons.injEq] at e
      exact hbc e.1

theorem sum_const {l : List Byte} {f : Byte → Nat} {n : Nat} (h : ∀ b, f b = n) :
    (l.map f).sum = l.length * n := by
  induction l with
  | nil => simp
  | cons b l ih => simp [h, ih, Nat.succ_mul, Nat.add_comm]

theorem allBytes_length : allBytes.length = 256 := by simp [allBytes]

/-- There are `256 ^ k` strings of length `k`. -/
theorem strings_length (k : Nat) : (strings k).length = 256 ^ k := by
  induction k with
  | zero => rfl
  | succ k ih =>
    rw [strings, List.length_flatMap, sum_const (n := 256 ^ k) (by simp [ih]), allBytes_length,
      Nat.pow_succ, Nat.mul_comm]

/-- Of the strings of length `k + 1`, one in 256 has a given byte sum. -/
theorem count_sum (k : Nat) : ∀ c : Byte,
    ((strings (k + 1)).filter (byteSum · == c)).length = 256 ^ k := by
  induction k with
  | zero =>
    intro c
    have : strings 1 = allBytes.map fun b => [b] := by
      simp only [strings, List.map_cons, List.map_nil]
      exact List.map_eq_flatMap.symm
    rw [this, List.filter_map, List.length_map, ← List.countP_eq_length_filter]
    have h : ((fun x => byteSum x == c) ∘ fun b => [b]) = fun b : Byte => b == c := by
      funext b; simp [byteSum]
    rw [h]
    exact (allBytes_nodup.count).trans (if_pos (mem_allBytes c))
  | succ k ih =>
    intro c
    rw [strings, ← List.countP_eq_length_filter, List.countP_flatMap]
    have h : ∀ b : Byte, ((List.countP fun x => byteSum x == c) ∘
        fun b => (strings (k + 1)).map (b :: ·)) b = 256 ^ k := by
      intro b
      simp only [Function.comp, List.countP_map]
      rw [← ih (c - b), ← List.countP_eq_length_filter]
      congr 1
      funext p
      simp only [Function.comp, byteSum]
      have : b + byteSum p = c ↔ byteSum p = c - b := by grind
      rw [Bool.eq_iff_iff]
      simpa using this
    rw [sum_const h, allBytes_length, Nat.pow_succ, Nat.mul_comm]

/-- C70. Of all payloads of the message's length (there are `256 ^ k`), exactly one in 256 is accepted
when it arrives in place of the message's own payload with everything else, the checksum included,
unchanged. -/
theorem C70_one_in_256 (hE : C.envelope = .basicChecksum) (S : Setting C B user)
    (hn : NeverThrows user) {m : Msg} (hm : IsMsg C m) {k : Nat} (hk : m.payload.length = k + 1) :
    ∃ good : List (List Byte), good.Nodup ∧ good.length = 256 ^ k ∧
      ∀ p : List Byte, p.length = k + 1 → ∀ (ops : List Op) (w : World C) (os : List Obs),
        Reached B user fuel (ops ++ [.process]) w os → w.rx.hasHandler = true →
        w.fed = withPayload C.envelope m p →
        (delivered w = [meaning C ⟨m.id, p⟩] ↔ p ∈ good) := by
  refine ⟨(strings (k + 1)).filter (byteSum · == byteSum m.payload),
    (strings_nodup _).filter _, count_sum k _, ?_⟩
  intro p hp ops w os h hh hfed
  rw [C32_checksum hE S hn h hh hm p (by omega) hfed]
  simp [mem_strings, hp]

/-- C70. Whatever else is wrong with the payload: for every position exactly one value of the byte there
makes the message acceptable. -/
theorem C70_position (hE : C.envelope = .basicChecksum) (S : Setting C B user)
    (hn : NeverThrows user) {m : Msg} (hm : IsMsg C m) (before after : List Byte)
    (hl : before.length + 1 + after.length = m.payload.length) :
    ∃ good : Byte, ∀ (b : Byte) (ops : List Op) (w : World C) (os : List Obs),
        Reached B user fuel (ops ++ [.process]) w os → w.rx.hasHandler = true →
        w.fed = withPayload C.envelope m (before ++ [b] ++ after) →
        (delivered w = [meaning C ⟨m.id, before ++ [b] ++ after⟩] ↔ b = good) := by
  refine ⟨byteSum m.payload - byteSum before - byteSum after, ?_⟩
  intro b ops w os h hh hfed
  rw [C32_checksum hE S hn h hh hm _ (by simp; omega) hfed]
  simp only [byteSum_append, byteSum]
  grind

example : IsMsg Sample.checked Sample.mPose ∧ Sample.mPose.payload.length = 6 + 1 ∧
    (strings 1).length = 256 ∧ ((strings 1).filter (byteSum · == 7)) = [[7]] :=
  ⟨by decide +kernel, rfl, by decide +kernel, by decide +kernel⟩

/-- The unique value at the fourth position, after the third one was changed from 0 to 9. -/
example : ∃ (w : World Sample.checked) (os : List Obs),
    Reached Sample.dbg Sample.passive 50 ([.setHandler Sample.h0, .append
      (withPayload .basicChecksum Sample.mPose ([1, 1, 9] ++ [249] ++ [3, 3, 4]))] ++ [.process]) w os ∧
    delivered w = [meaning Sample.checked ⟨2, [1, 1, 9] ++ [249] ++ [3, 3, 4]⟩] := by
  obtain ⟨w, os, h, hp⟩ := Sample.reached (C := Sample.checked) (B := Sample.dbg)
    (user := Sample.passive) (fuel := 50) (ops := [.setHandler Sample.h0, .append
      (withPayload .basicChecksum Sample.mPose ([1, 1, 9] ++ [249] ++ [3, 3, 4]))] ++ [.process])
    (fun w _ => w.rx.hasHandler && delivered w ==
      [meaning Sample.checked ⟨2, [1, 1, 9] ++ [249] ++ [3, 3, 4]⟩]) (by decide +kernel)
  simp only [Bool.and_eq_true, beq_iff_eq] at hp
  exact ⟨w, os, h, hp.2⟩

end TT.Properties
