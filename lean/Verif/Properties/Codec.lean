import Verif.Properties.Samples
import Verif.Spec.Endian
import Verif.Proofs.Send
import Verif.Proofs.Process

/-!
# Properties of serialization: C11, C12
-/

namespace TT.Properties
open Spec

/-- C11. Serializing a tuple and deserializing at that position gives back the same field contents,
whatever stands before and after (in particular with nothing after it: no byte outside the message
is read). -/
theorem C11_roundtrip (pre post : List Byte) (vs : List Value)
    (hv : ∀ v ∈ vs, v.bytes.length = fieldSize v.ty) :
    ∃ bytes, bufferTuple vectorBuffer pre vs = .ok (pre ++ bytes) ∧
      bytes.length = ((vs.map (·.ty)).map fieldSize).sum ∧
      deserialize (pre ++ bytes ++ post) pre.length (vs.map (·.ty)) [] =
        .ok (vs.map (·.bytes)) := by
  refine ⟨payloadOf vs, ?_, payloadOf_length hv, ?_⟩
  · rw [bufferTuple_eq]
    obtain ⟨s', h1, h2⟩ := vectorBuffer_faithful.feed (vs.map outField) pre
    rw [h1]
    simp only [id_eq] at h2
    rw [h2, outBytes_fields]
  · rw [deserialize_ok _ _ _ _ _ (payloadOf_length hv), splitFields_payloadOf hv]
    rfl

/-- C11. Reading past the end of the array is what happens when the message is not complete: the
deserializer has no check of its own. -/
theorem C11_incomplete (contents : List Byte) (it : Nat) (fs : List FieldType)
    (acc : List (List Byte)) (hit : it ≤ contents.length)
    (h : contents.length < it + (fs.map fieldSize).sum) :
    deserialize contents it fs acc = .error .ub := by
  induction fs generalizing it acc with
  | nil => simp at h; omega
  | cons f fs ih =>
    simp only [List.map_cons, List.sum_cons] at h
    cases f with
    | uint8 =>
      simp only [fieldSize] at h
      simp only [deserialize, unbuffer, RB.rawGet]
      by_cases hlt : it < contents.length
      · rw [List.getElem?_eq_getElem hlt]
        simp only [ok_bind, pure_eq_ok]
        exact ih (it + 1) _ (by omega) (by omega)
      · rw [List.getElem?_eq_none (by omega)]
        rfl
    | pod ty n =>
      simp only [fieldSize] at h
      simp only [deserialize, unbuffer]
      by_cases hlt : it + n ≤ contents.length
      · rw [if_pos hlt]
        simp only [ok_bind]
        exact ih (it + n) _ (by omega) (by omega)
      · rw [if_neg hlt]
        rfl

example := C11_roundtrip [9, 9] [] Sample.poseVals (by decide)
example := C11_incomplete [9, 1, 2, 3] 1 Sample.pose.fields [] (by decide) (by decide)

/-! ### C12 -/

theorem digits_length (n v : Nat) : (digits n v).length = n := by
  induction n generalizing v with
  | zero => rfl
  | succ n ih => simp [digits, ih]

theorem value_digits (n v : Nat) (h : v < 256 ^ n) : value (digits n v) = v := by
  induction n generalizing v with
  | zero => simp at h; simp [digits, value, h]
  | succ n ih =>
    rw [Nat.pow_succ] at h
    have : v / 256 < 256 ^ n := Nat.div_lt_of_lt_mul (by omega)
    simp only [digits, value, ih _ this]
    have h2 : (UInt8.ofNat (v % 256)).toNat = v % 256 := by simp
    rw [h2]
    omega

theorem value_inj {a b : List Byte} (hl : a.length = b.length) (h : value a = value b) :
    a = b := by
  induction a generalizing b with
  | nil => cases b with
    | nil => rfl
    | cons _ _ => simp at hl
  | cons x a ih =>
    cases b with
    | nil => simp at hl
    | cons y b =>
      simp only [value] at h
      have hx := UInt8.toNat_lt x
      have hy := UInt8.toNat_lt y
      have h1 : x.toNat = y.toNat := by omega
      have h2 : value a = value b := by omega
      rw [UInt8.toNat_inj.mp h1, ih (by simpa using hl) h2]

theorem encode_length (o : Order) (n v : Nat) : (encode o n v).length = n := by
  cases o <;> simp [encode, digits_length]

/-- C12. A field of `n` bytes with value `x`, at any place in a message, sent by a machine with byte
order `o`: the receiving machine finds the sender's representation unchanged. With the same order
it reads `x`. With the other order it reads the value of the reversed bytes, which is `x` iff the
representation is a palindrome. -/
theorem C12_byte_order (o : Order) (n ty x : Nat) (hx : x < 256 ^ n)
    (pre post : List Byte) (before after : List Value)
    (hb : ∀ v ∈ before, v.bytes.length = fieldSize v.ty)
    (ha : ∀ v ∈ after, v.bytes.length = fieldSize v.ty) :
    ∃ bytes fields, bufferTuple vectorBuffer pre
        (before ++ ⟨.pod ty n, encode o n x⟩ :: after) = .ok (pre ++ bytes) ∧
      deserialize (pre ++ bytes ++ post) pre.length
        (before.map (·.ty) ++ .pod ty n :: after.map (·.ty)) [] = .ok fields ∧
      fields[before.length]? = some (encode o n x) ∧
      decode o (encode o n x) = x ∧
      ∀ o', o' ≠ o →
        decode o' (encode o n x) = decode o (encode o n x).reverse ∧
        (decode o' (encode o n x) = x ↔ encode o n x = (encode o n x).reverse) := by
  have hv : ∀ v ∈ before ++ ⟨.pod ty n, encode o n x⟩ :: after,
      v.bytes.length = fieldSize v.ty := by
    intro v hv
    rcases List.mem_append.mp hv with h | h
    · exact hb v h
    · rcases List.mem_cons.mp h with rfl | h
      · simp [fieldSize, encode_length]
      · exact ha v h
  obtain ⟨bytes, h1, _, h3⟩ := C11_roundtrip pre post _ hv
  rw [List.map_append, List.map_cons] at h3
  have hd : decode o (encode o n x) = x := by
    cases o <;> simp [decode, encode, value_digits n x hx]
  refine ⟨bytes, _, h1, h3, by simp, hd, ?_⟩
  intro o' hne
  have hrev : decode o' (encode o n x) = decode o (encode o n x).reverse := by
    cases o <;> cases o' <;> simp [decode, encode] at *
  refine ⟨hrev, ?_⟩
  rw [hrev]
  constructor
  · intro h
    have h' := h.trans hd.symm
    cases o with
    | little => exact (value_inj (by simp) h').symm
    | big =>
      simp only [decode] at h'
      have := value_inj (by simp) h'
      rw [List.reverse_reverse] at this
      exact this
  · intro h
    rw [← h]; exact hd

example := C12_byte_order .little 4 0 0x01020304 (by decide) [] [] Sample.levelVals
  Sample.poseVals (by decide) (by decide)

/-- C12, a concrete field that changes its value between machines of different order. -/
example : decode .big (encode .little 4 0x01020304) = 0x04030201 := by decide

end TT.Properties
