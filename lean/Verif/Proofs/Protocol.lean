import Verif.Model.Protocol
import Verif.Spec.Stream
import Verif.Proofs.RB

/-!
# Helper lemmas: the metafunctions compute what the specification says
-/

namespace TT
open Spec

theorem sizeof_eq (f : FieldType) : f.sizeof = fieldSize f := by
  cases f <;> rfl

theorem foldl_sizeof (fs : List FieldType) :
    ∀ acc, fs.foldl (fun acc f => acc + f.sizeof) acc = acc + (fs.map fieldSize).sum := by
  induction fs with
  | nil => simp
  | cons f fs ih => intro acc; rw [List.foldl_cons, ih]; simp [sizeof_eq]; omega

theorem sizeofSeq_eq (t : MsgType) : sizeofSeq t.fields = payloadSize t := by
  simp [sizeofSeq, payloadSize, foldl_sizeof]

theorem overheadSize_eq (E : Envelope) : E.overheadSize = overhead E := by
  cases E <;> rfl

theorem sizeofBound_eq (C : Collection) (t : MsgType) :
    sizeofBound C t = overhead C.envelope + payloadSize t := by
  simp [sizeofBound, Envelope.size, overheadSize_eq, sizeofSeq_eq]

theorem overhead_ge (E : Envelope) : 5 ≤ overhead E := by cases E <;> simp [overhead]

theorem eight_le_leastBits (n : Nat) : 8 ≤ leastBits n := by
  unfold leastBits
  split
  · omega
  · split
    · omega
    · split <;> omega

theorem trunc_byte (n : Nat) (b : Byte) : trunc n b.toNat = b.toNat := by
  unfold trunc
  apply Nat.mod_eq_of_lt
  have h1 := UInt8.toNat_lt b
  have h2 : 2 ^ 8 ≤ 2 ^ leastBits n := Nat.pow_le_pow_right (by omega) (eight_le_leastBits n)
  omega

theorem applyAtFrom_eq {α : Type} (seq : List MsgType) (i : Nat) (op : MsgType → α) (d : α)
    (k : Nat) : ∀ current, current ≤ i → seq.length - current = k →
    applyAtFrom seq i op d current = match seq[i]? with
      | some m => op m
      | none => d := by
  induction k with
  | zero =>
    intro current hle hk
    unfold applyAtFrom
    have h1 : seq[current]? = none := List.getElem?_eq_none (by omega)
    have h2 : seq[i]? = none := List.getElem?_eq_none (by omega)
    split
    · simp [h2]
    · rename_i h; simp [h1] at h
  | succ k ih =>
    intro current hle hk
    unfold applyAtFrom
    split
    · rename_i h
      rw [List.getElem?_eq_none_iff] at h
      omega
    · rename_i m h
      by_cases he : current = i
      · subst he; simp [h]
      · rw [if_neg he, ih (current + 1) (by omega) (by omega)]

theorem applyAt_eq {α : Type} (seq : List MsgType) (i : Byte) (op : MsgType → α) (d : α) :
    applyAt seq i op d = match seq[i.toNat]? with
      | some m => op m
      | none => d := by
  unfold applyAt
  rw [trunc_byte]
  exact applyAtFrom_eq _ _ _ _ _ 0 (Nat.zero_le _) rfl

theorem isIdValid_iff (C : Collection) (id : Byte) :
    isIdValid C id = true ↔ typeOf C id ≠ none := by
  unfold isIdValid typeOf messageCount
  rw [decide_eq_true_iff]
  simp

/-! ### Maximum message length -/

theorem maxElement_mem (C : Collection) (ms : List MsgType) :
    ∀ best, maxElement C best ms ∈ best :: ms := by
  induction ms with
  | nil => intro best; simp [maxElement]
  | cons m ms ih =>
    intro best
    unfold maxElement
    split
    · have := ih m
      simp at this ⊢
      rcases this with h | h <;> simp [h]
    · have := ih best
      simp at this ⊢
      rcases this with h | h <;> simp [h]

theorem maxElement_ge (C : Collection) (ms : List MsgType) :
    ∀ best, ∀ t ∈ best :: ms, sizeofBound C t ≤ sizeofBound C (maxElement C best ms) := by
  induction ms with
  | nil => intro best t ht; simp at ht; simp [maxElement, ht]
  | cons m ms ih =>
    intro best t ht
    unfold maxElement
    split
    · rename_i h
      rcases List.mem_cons.mp ht with rfl | ht
      · have := ih m m (by simp); omega
      · exact ih m t ht
    · rename_i h
      rcases List.mem_cons.mp ht with rfl | ht
      · exact ih t t (by simp)
      · rcases List.mem_cons.mp ht with rfl | ht
        · have := ih best best (by simp); omega
        · exact ih best t (by simp [ht])

theorem le_maxMessageLength (C : Collection) {t : MsgType} (h : t ∈ C.messages) :
    sizeofBound C t ≤ maxMessageLength C := by
  unfold maxMessageLength
  split
  · rename_i e; simp [e] at h
  · rename_i m ms e
    exact maxElement_ge C ms m t (by rw [← e]; exact h)

theorem maxMessageLength_attained (C : Collection) (h : C.messages ≠ []) :
    ∃ t ∈ C.messages, sizeofBound C t = maxMessageLength C := by
  unfold maxMessageLength
  split
  · rename_i e; exact absurd e h
  · rename_i m ms e
    exact ⟨_, by rw [e]; exact maxElement_mem C ms m, rfl⟩

theorem announced_le {C : Collection} {id : Byte} {n : Nat} (h : announced C id = some n) :
    n ≤ maxMessageLength C := by
  unfold announced typeOf at h
  cases ht : C.messages[id.toNat]? with
  | none => simp [ht] at h
  | some t =>
    simp [ht] at h
    have := le_maxMessageLength C (List.mem_of_getElem? ht)
    rw [sizeofBound_eq] at this
    omega

theorem announced_ge {C : Collection} {id : Byte} {n : Nat} (h : announced C id = some n) :
    overhead C.envelope ≤ n := by
  unfold announced typeOf at h
  cases ht : C.messages[id.toNat]? with
  | none => simp [ht] at h
  | some t => simp [ht] at h; omega

theorem maxMessageLength_lt {C : Collection} (h : recvBufferSize C < 2 ^ 64) :
    maxMessageLength C < 2 ^ 64 := by
  unfold recvBufferSize messageBufferSizeScale at h
  omega

theorem getMessageLength_eq {C : Collection} (h : maxMessageLength C < 2 ^ 64) {id : Byte} {n : Nat}
    (ha : announced C id = some n) : getMessageLength C id = .ok n := by
  have hle := announced_le ha
  unfold announced at ha
  cases ht : typeOf C id with
  | none => simp [ht] at ha
  | some t =>
    simp only [ht, Option.map_some, Option.some.injEq] at ha
    have hv : isIdValid C id = true := (isIdValid_iff C id).mpr (by simp [ht])
    unfold getMessageLength
    unfold typeOf at ht
    rw [applyAt_eq, ht]
    simp only [hv, Bool.not_true, Bool.false_eq_true, if_false]
    rw [sizeofBound_eq, ha, trunc_of_le h hle]

theorem getMessageLength_invalid {C : Collection} {id : Byte} (h : typeOf C id = none) :
    getMessageLength C id = .ok 0 := by
  have : isIdValid C id = false := by
    cases hv : isIdValid C id with
    | false => rfl
    | true => exact absurd h ((isIdValid_iff C id).mp hv)
  simp [getMessageLength, this]

/-! ### Ids -/

theorem findIndex_some {l : List MsgType} {t : MsgType} {i : Nat} (h : findIndex l t = some i) :
    l[i]? = some t ∧ ∀ j < i, l[j]? ≠ some t := by
  induction l generalizing i with
  | nil => simp [findIndex] at h
  | cons m ms ih =>
    unfold findIndex at h
    split at h
    · rename_i e
      simp at h
      subst h
      simp [e]
    · rename_i e
      cases hf : findIndex ms t with
      | none => simp [hf] at h
      | some k =>
        simp [hf] at h
        subst h
        obtain ⟨h1, h2⟩ := ih hf
        refine ⟨by simpa using h1, fun j hj => ?_⟩
        cases j with
        | zero => simpa using e
        | succ j => simpa using h2 j (by omega)

theorem findIndex_isSome {l : List MsgType} {t : MsgType} :
    (findIndex l t).isSome ↔ t ∈ l := by
  induction l with
  | nil => simp [findIndex]
  | cons m ms ih =>
    unfold findIndex
    split
    · rename_i e; simp [e]
    · rename_i e
      simp [ih]
      intro h
      exact absurd h.symm e

theorem messageId_typeOf {C : Collection} (hc : messageCount C ≤ 255) {t : MsgType} {id : Byte}
    (h : messageId C t = some id) : typeOf C id = some t := by
  unfold messageId at h
  cases hf : findIndex C.messages t with
  | none => simp [hf] at h
  | some i =>
    simp [hf] at h
    obtain ⟨h1, _⟩ := findIndex_some hf
    have hi : i < C.messages.length := (List.getElem?_eq_some_iff.mp h1).1
    unfold messageCount at hc
    subst h
    unfold typeOf
    rw [UInt8.toNat_ofNat_of_lt' (by show i < 256; omega)]
    exact h1

end TT
