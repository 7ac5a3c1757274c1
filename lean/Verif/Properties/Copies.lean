import Verif.Model.Copies
import Verif.Properties.Reactions

/-!
# Properties of copied objects: C63 (array buffers), C64 (receiver assignment), C37 (constructor)
-/

namespace TT.Properties
open Spec

/-! ### C63: copies of array buffers -/

section Heap
variable {h : Heap} {k j c : Nat} {o t : HeapArr}

theorem upd_same (h : Heap) (k : Nat) (x : Option HeapArr) : h.upd k x k = x := by simp [Heap.upd]

theorem upd_other (h : Heap) {k j : Nat} (x : Option HeapArr) (hj : j ≠ k) :
    h.upd k x j = h j := by simp [Heap.upd, hj]

theorem upd_upd (h : Heap) (k : Nat) (x y : Option HeapArr) : (h.upd k x).upd k y = h.upd k y := by
  funext i; unfold Heap.upd; split <;> rfl

theorem upd_self (hk : h k = some o) : h.upd k (some o) = h := by
  funext i; unfold Heap.upd; split
  · subst i; exact hk.symm
  · rfl

/-- Writing through an iterator into the own array is what `ArrayBuf.write` does. -/
theorem write_own (size : Nat) (bs : List Byte) : ∀ {h : Heap} {o : HeapArr}, h k = some o →
    o.owner = k → Heap.write k h bs =
      (ArrayBuf.write (size := size) ⟨o.buffer, o.pos⟩ bs).map
        fun a => h.upd k (some ⟨a.buffer, k, a.it⟩) := by
  induction bs with
  | nil =>
    intro h o hk ho
    have : (⟨o.buffer, k, o.pos⟩ : HeapArr) = o := by cases o; cases ho; rfl
    simp only [Heap.write, ArrayBuf.write, Except.map, this, upd_self hk]
  | cons b bs ih =>
    intro h o hk ho
    unfold Heap.write ArrayBuf.write
    simp only [hk, ho]
    split
    · rw [upd_same, upd_upd, ih (o := ⟨o.buffer.set o.pos b, k, o.pos + 1⟩)
        (by simp [upd_same]) rfl]
      simp only [upd_upd]
    · rfl

/-- `bs` put over the elements of `l` from index `i` on. -/
def overwrite (l : List Byte) (i : Nat) (bs : List Byte) : List Byte :=
  l.take i ++ bs ++ l.drop (i + bs.length)

/-- Writing through an iterator into another object's array. -/
theorem write_foreign (bs : List Byte) : ∀ {h : Heap} {o t : HeapArr}, h k = some o →
    o.owner = j → j ≠ k → h j = some t →
    (o.pos + bs.length ≤ t.buffer.length → Heap.write k h bs =
      .ok ((h.upd j (some { t with buffer := overwrite t.buffer o.pos bs })).upd k
        (some { o with pos := o.pos + bs.length }))) ∧
    (o.pos ≤ t.buffer.length → t.buffer.length < o.pos + bs.length →
      Heap.write k h bs = .error .ub) := by
  induction bs with
  | nil =>
    intro h o t hk ho hne hj
    refine ⟨fun _ => ?_, fun _ h2 => by simp at h2; omega⟩
    have e : ({ t with buffer := overwrite t.buffer o.pos [] } : HeapArr) = t := by
      simp [overwrite]
    rw [e, upd_self hj]
    have e2 : ({ o with pos := o.pos + ([] : List Byte).length } : HeapArr) = o := by simp
    rw [e2, upd_self hk]
    rfl
  | cons b bs ih =>
    intro h o t hk ho hne hj
    have step : o.pos < t.buffer.length → Heap.write k h (b :: bs) = Heap.write k
        ((h.upd j (some { t with buffer := t.buffer.set o.pos b })).upd k
          (some { o with pos := o.pos + 1 })) bs := by
      intro hlt
      conv => lhs; unfold Heap.write
      simp only [hk, ho, hj, if_pos hlt]
      rw [upd_other _ _ (Ne.symm hne), hk]
      simp [ho]
    have ih' := ih (h := (h.upd j (some { t with buffer := t.buffer.set o.pos b })).upd k
          (some { o with pos := o.pos + 1 })) (o := { o with pos := o.pos + 1 })
          (t := { t with buffer := t.buffer.set o.pos b }) (by simp [upd_same]) ho hne
          (by rw [upd_other _ _ hne, upd_same])
    constructor
    · intro hl
      simp only [List.length_cons] at hl
      rw [step (by omega), ih'.1 (by simp; omega)]
      congr 1
      funext i
      unfold Heap.upd
      by_cases hi : i = k
      · simp only [hi, if_true, List.length_cons]
        congr 2
        omega
      · by_cases hij : i = j
        · simp only [hij, if_neg hne, if_true]
          congr 2
          unfold overwrite
          show (t.buffer.set o.pos b).take (o.pos + 1) ++ bs ++
            (t.buffer.set o.pos b).drop (o.pos + 1 + bs.length) =
            t.buffer.take o.pos ++ b :: bs ++ t.buffer.drop (o.pos + (bs.length + 1))
          rw [List.take_add_one, List.getElem?_set_self (by omega),
            List.take_set_of_le (Nat.le_refl _), List.drop_set_of_lt (by omega),
            show o.pos + 1 + bs.length = o.pos + (bs.length + 1) by omega]
          simp
        · simp [hi, hij]
    · intro hl1 hl2
      simp only [List.length_cons] at hl2
      by_cases hlt : o.pos < t.buffer.length
      · rw [step hlt]
        exact ih'.2 (by simp; omega) (by simp; omega)
      · conv => lhs; unfold Heap.write
        simp only [hk, ho, hj, if_neg hlt]

theorem write_append (xs ys : List Byte) : ∀ (h : Heap),
    Heap.write k h (xs ++ ys) = (Heap.write k h xs).bind fun h => Heap.write k h ys := by
  induction xs with
  | nil => intro h; rfl
  | cons x xs ih =>
    intro h
    rw [List.cons_append]
    conv => lhs; unfold Heap.write
    conv => rhs; arg 1; unfold Heap.write
    split
    · rfl
    · split
      · rfl
      · split
        · exact ih _
        · rfl

theorem heap_feed (os : List Out) : ∀ (h : Heap), feed (Heap.tx k) h os = Heap.write k h (outBytes os) := by
  induction os with
  | nil => intro h; rfl
  | cons o os ih =>
    intro h
    have e : outBytes (o :: os) = o.bytes ++ outBytes os := by simp [outBytes]
    have e1 : o.on (Heap.tx k) h = Heap.write k h o.bytes := by cases o <;> rfl
    rw [feed_cons, e1, e, write_append]
    congr 1; funext h'; exact ih h'

/-- C63. An array buffer that was not made by copying behaves as in C05, and using it changes no other
object. -/
theorem C63_own (hk : h k = some o) (ho : o.owner = k) (os : List Out)
    (hl : o.pos + (outBytes os).length ≤ o.buffer.length) :
    ∃ h', feed (Heap.tx k) h os = .ok h' ∧
      Heap.range h' k = .ok (o.buffer.take o.pos ++ outBytes os) ∧ ∀ i, i ≠ k → h' i = h i := by
  obtain ⟨a, h1, h2, h3, h4⟩ := ArrayBuf.write_ok (size := 0) (outBytes os) ⟨o.buffer, o.pos⟩ hl
  rw [heap_feed, write_own 0 _ hk ho, h1]
  refine ⟨_, rfl, ?_, fun i hi => upd_other _ _ hi⟩
  simp only [Heap.range, upd_same, if_true]
  exact congrArg _ h2

/-- C63. A new object shows exactly what has been written to it, and disturbs no other. -/
theorem C63_construct (h : Heap) (k size : Nat) (os : List Out) (hl : (outBytes os).length ≤ size) :
    ∃ h', feed (Heap.tx k) (h.construct k size) os = .ok h' ∧ Heap.range h' k = .ok (outBytes os) ∧
      ∀ i, i ≠ k → h' i = h i := by
  obtain ⟨h', h1, h2, h3⟩ := C63_own (h := h.construct k size) (k := k)
    (o := ⟨List.replicate size 0, k, 0⟩) (upd_same _ _ _) rfl os (by simpa using hl)
  exact ⟨h', h1, by simpa using h2, fun i hi => by rw [h3 i hi]; exact upd_other _ _ hi⟩

example : ∃ h', feed (Heap.tx 4) (Heap.construct (fun _ => none) 4 3) [.byte 7, .block [8, 9]] = .ok h' ∧
    Heap.range h' 4 = .ok [7, 8, 9] := by
  obtain ⟨h', h1, h2, _⟩ := C63_construct (fun _ => none) 4 3 [.byte 7, .block [8, 9]] (by decide)
  exact ⟨h', h1, h2⟩

/-- C63. After copying an array buffer, `[begin(), end())` of the copy is not a range; outputs to the
copy that fit are stored in the original's array behind its end, the copy's own array stays as it
was, what the original shows is unchanged, and `[begin(), end())` of the copy is still not a range. -/
theorem C63_copy (hk : h k = some o) (ho : o.owner = k) (hc : c ≠ k) (os : List Out)
    (hl : o.pos + (outBytes os).length ≤ o.buffer.length) :
    Heap.range (h.copy c k) c = .error .ub ∧
    ∃ h' o', feed (Heap.tx c) (h.copy c k) os = .ok h' ∧ Heap.range h' c = .error .ub ∧
      h' c = some o' ∧ o'.buffer = o.buffer ∧
      Heap.range h' k = .ok (o.buffer.take o.pos) ∧
      h' k = some ⟨overwrite o.buffer o.pos (outBytes os), k, o.pos⟩ := by
  have e1 : h.copy c k c = some o := by unfold Heap.copy; rw [upd_same, hk]
  have e2 : h.copy c k k = some o := by unfold Heap.copy; rw [upd_other _ _ (Ne.symm hc), hk]
  have hw := (write_foreign (outBytes os) e1 ho (Ne.symm hc) e2).1 hl
  refine ⟨by unfold Heap.range; rw [e1]; simp [ho, Ne.symm hc], _, { o with pos := o.pos + (outBytes os).length },
    by rw [heap_feed]; exact hw,
    ?_, upd_same _ _ _, rfl, ?_, ?_⟩
  · unfold Heap.range; rw [upd_same]; simp [ho, Ne.symm hc]
  · unfold Heap.range; rw [upd_other _ _ (Ne.symm hc), upd_same]
    simp only [ho, if_true, overwrite]
    rw [List.append_assoc, List.take_append_of_le_length (by simp; omega), List.take_take]
    simp
  · rw [upd_other _ _ (Ne.symm hc), upd_same]
    cases o; cases ho; rfl

/-- C63. Any output to a copy whose original is gone is undefined. -/
theorem C63_dangling (hk : h k = some o) (ho : o.owner = k) (hc : c ≠ k) (os : List Out)
    (hne : outBytes os ≠ []) :
    feed (Heap.tx c) ((h.copy c k).destroy k) os = .error .ub := by
  rw [heap_feed]
  cases hb : outBytes os with
  | nil => exact absurd hb hne
  | cons b bs =>
    have e1 : (h.copy c k).destroy k c = some o := by
      unfold Heap.destroy Heap.copy; rw [upd_other _ _ hc, upd_same, hk]
    have e2 : (h.copy c k).destroy k k = none := by unfold Heap.destroy; rw [upd_same]
    unfold Heap.write
    simp only [e1, ho, e2]

/-- C63. `reset()` repairs a copy: it is empty, separate from the original, and usable as a new one. -/
theorem C63_reset (hk : h k = some o) (hc : c ≠ k) (os : List Out)
    (hl : (outBytes os).length ≤ o.buffer.length) :
    ∃ h', feed (Heap.tx c) ((h.copy c k).reset c) os = .ok h' ∧
      Heap.range h' c = .ok (outBytes os) ∧ h' k = h k := by
  have e1 : (h.copy c k).reset c c = some ⟨o.buffer, c, 0⟩ := by
    unfold Heap.reset Heap.copy; rw [upd_same, upd_same, hk]; rfl
  obtain ⟨h', h1, h2, h3⟩ := C63_own e1 rfl os (by simpa using hl)
  refine ⟨h', h1, by simpa using h2, ?_⟩
  rw [h3 k (Ne.symm hc)]
  unfold Heap.reset Heap.copy
  rw [upd_other _ _ (Ne.symm hc), upd_other _ _ (Ne.symm hc)]

/-- One output to an I2C transmitter that was not made by copying. -/
theorem i2c_on (hk : h k = some o) (ho : o.owner = k) (wire : List (List Byte)) (x : Out) :
    x.on (Heap.i2c k) (h, wire) = (x.on arduinoI2C ⟨⟨o.buffer, o.pos⟩, wire⟩).map fun s =>
      (h.upd k (some ⟨s.bufTx.buffer, k, s.bufTx.it⟩), s.wire) := by
  cases x with
  | byte b =>
    simp only [Out.on, Heap.i2c, arduinoI2C, write_own 255 _ hk ho, ArrayBuf.writeByte_eq]
    cases ArrayBuf.write (size := 255) ⟨o.buffer, o.pos⟩ [b] <;> rfl
  | block bs =>
    simp only [Out.on, Heap.i2c, arduinoI2C, write_own 255 _ hk ho]
    cases ArrayBuf.write (size := 255) ⟨o.buffer, o.pos⟩ bs <;> rfl
  | finished =>
    simp only [Out.on, Heap.i2c, arduinoI2C, Heap.range, hk, ho, if_true, Heap.reset]
    rfl

/-- C63. An I2C transmitter that was not made by copying behaves as in C48, whatever is sent, and using it changes no
other object. -/
theorem C63_i2c_own (rs : List Request) (hk : h k = some o) (ho : o.owner = k) (wire : List (List Byte)) :
    sendAll (Heap.i2c k) (h, wire) rs = (sendAll arduinoI2C ⟨⟨o.buffer, o.pos⟩, wire⟩ rs).map fun r =>
      r.map fun s => (h.upd k (some ⟨s.bufTx.buffer, k, s.bufTx.it⟩), s.wire) := by
  have hf : ∀ (os : List Out) {h : Heap} {o : HeapArr} (wire : List (List Byte)), h k = some o → o.owner = k →
      feed (Heap.i2c k) (h, wire) os = (feed arduinoI2C ⟨⟨o.buffer, o.pos⟩, wire⟩ os).map fun s =>
        (h.upd k (some ⟨s.bufTx.buffer, k, s.bufTx.it⟩), s.wire) := by
    intro os
    induction os with
    | nil =>
      intro h o wire hk ho
      have : (⟨o.buffer, k, o.pos⟩ : HeapArr) = o := by cases o; cases ho; rfl
      simp only [feed, Except.map, this, upd_self hk]
    | cons x os ih =>
      intro h o wire hk ho
      rw [feed_cons, feed_cons, i2c_on hk ho]
      cases x.on arduinoI2C ⟨⟨o.buffer, o.pos⟩, wire⟩ with
      | error f => rfl
      | ok s =>
        simp only [Except.map, Except.bind]
        rw [ih (o := ⟨s.bufTx.buffer, k, s.bufTx.it⟩) s.wire (upd_same _ _ _) rfl]
        simp only [upd_upd]
        rfl
  have hsend : ∀ (r : Request) {h : Heap} {o : HeapArr} (wire : List (List Byte)), h k = some o → o.owner = k →
      send r.C r.t (Heap.i2c k) (h, wire) r.vs = (send r.C r.t arduinoI2C ⟨⟨o.buffer, o.pos⟩, wire⟩ r.vs).map fun r =>
        r.map fun s => (h.upd k (some ⟨s.bufTx.buffer, k, s.bufTx.it⟩), s.wire) := by
    intro r h o wire hk ho
    by_cases hs : Sendable r.C r.t r.vs
    · obtain ⟨id, hid⟩ := idOf_exists hs.1 hs.2.1
      rw [send_eq _ _ _ _ _ hs hid, send_eq _ _ _ _ _ hs hid, hf _ wire hk ho]
      rfl
    · rw [send_none _ _ _ _ _ hs, send_none _ _ _ _ _ hs]
      rfl
  induction rs generalizing h o wire with
  | nil =>
    have : (⟨o.buffer, k, o.pos⟩ : HeapArr) = o := by cases o; cases ho; rfl
    simp only [sendAll, Option.map, Except.map, this, upd_self hk]
  | cons r rs ih =>
    unfold sendAll
    rw [hsend r wire hk ho]
    cases send r.C r.t arduinoI2C ⟨⟨o.buffer, o.pos⟩, wire⟩ r.vs with
    | none => rfl
    | some x =>
      cases x with
      | error f => rfl
      | ok s =>
        simp only [Option.map_some, Except.map]
        rw [ih (o := ⟨s.bufTx.buffer, k, s.bufTx.it⟩) (upd_same _ _ _) rfl]
        simp only [upd_upd]
        rfl

/-- C63. Every `send` on a copy of an I2C transmitter is undefined, whatever the message. -/
theorem C63_i2c (hk : h k = some o) (ho : o.owner = k) (hp : o.pos ≤ o.buffer.length) (hc : c ≠ k)
    (C : Collection) (ty : MsgType) (vs : List Value) (hs : Sendable C ty vs)
    (wire : List (List Byte)) :
    send C ty (Heap.i2c c) (h.copy c k, wire) vs = some (.error .ub) := by
  have e1 : h.copy c k c = some o := by unfold Heap.copy; rw [upd_same, hk]
  have e2 : h.copy c k k = some o := by unfold Heap.copy; rw [upd_other _ _ (Ne.symm hc), hk]
  obtain ⟨id, hid⟩ := idOf_exists hs.1 hs.2.1
  obtain ⟨os, e, hne, _⟩ := script_split C.envelope id vs
  rw [send_eq C ty _ _ vs hs hid, e]
  congr 1
  have hf : ∀ (os : List Out), (∀ o ∈ os, o ≠ .finished) → ∀ (h : Heap) (wire : List (List Byte)),
      feed (Heap.i2c c) (h, wire) os = (Heap.write c h (outBytes os)).map fun h => (h, wire) := by
    intro os
    induction os with
    | nil => intro _ h wire; rfl
    | cons x os ih =>
      intro hx h wire
      have e : outBytes (x :: os) = x.bytes ++ outBytes os := by simp [outBytes]
      have e1 : x.on (Heap.i2c c) (h, wire) = (Heap.write c h x.bytes).map fun h => (h, wire) := by
        cases x with
        | byte b => simp only [Out.on, Heap.i2c, Out.bytes]; cases Heap.write c h [b] <;> rfl
        | block bs => simp only [Out.on, Heap.i2c, Out.bytes]; cases Heap.write c h bs <;> rfl
        | finished => exact absurd rfl (hx .finished (by simp))
      rw [feed_cons, e1, e, write_append]
      cases Heap.write c h x.bytes with
      | error f => rfl
      | ok h' => exact ih (fun o ho => hx o (by simp [ho])) h' wire
  rw [feed_append, hf os hne]
  by_cases hl : o.pos + (outBytes os).length ≤ o.buffer.length
  · rw [(write_foreign (outBytes os) e1 ho (Ne.symm hc) e2).1 hl]
    simp only [Except.map, feed, Out.on, Heap.i2c, Heap.range]
    simp [ho, Ne.symm hc, Except.bind, upd_same, bind]
  · rw [(write_foreign (outBytes os) e1 ho (Ne.symm hc) e2).2 hp (by omega)]
    rfl

end Heap

/-- A buffer of 16 bytes holding two bytes, at address 3. -/
def heapEx : Heap := fun i =>
  if i = 3 then some ⟨[7, 8, 0, 0, 0, 0, 0, 0, 0, 0, 0, 0, 0, 0, 0, 0], 3, 2⟩ else none

/-- An I2C transmitter at address 5 sends two messages. -/
example : ∃ h', sendAll (Heap.i2c 5) (heapEx.construct 5 255, [])
    [⟨Sample.basic, Sample.pose, Sample.poseVals⟩, ⟨Sample.checked, Sample.level, Sample.levelVals⟩] =
    some (.ok (h', [wire Sample.basic Sample.pose Sample.poseVals, wire Sample.checked Sample.level Sample.levelVals])) ∧
    h' 3 = heapEx 3 := by
  rw [C63_i2c_own (h := heapEx.construct 5 255) (k := 5) (o := ⟨List.replicate 255 0, 5, 0⟩) _ (upd_same _ _ _) rfl]
  obtain ⟨s, h1, h2⟩ := C48_i2c_sequence ⟨ArrayBuf.new 255, []⟩ ⟨rfl, List.length_replicate⟩
    [⟨Sample.basic, Sample.pose, Sample.poseVals⟩, ⟨Sample.checked, Sample.level, Sample.levelVals⟩]
    (by decide) (by decide)
  have h1' : sendAll arduinoI2C ⟨⟨List.replicate 255 0, 0⟩, []⟩ [⟨Sample.basic, Sample.pose, Sample.poseVals⟩,
      ⟨Sample.checked, Sample.level, Sample.levelVals⟩] = some (.ok s) := h1
  rw [h1']
  refine ⟨_, by simp only [Option.map_some, Except.map, h2]; rfl, ?_⟩
  rw [upd_other _ _ (by decide)]
  exact upd_other _ _ (by decide)
example := C63_own (h := heapEx) (k := 3) rfl rfl [.byte 1, .block [2, 3]] (by decide)
example := C63_copy (h := heapEx) (k := 3) (c := 4) rfl rfl (by decide) [.byte 1, .block [2, 3]]
  (by decide)
example := C63_dangling (h := heapEx) (k := 3) (c := 4) rfl rfl (by decide) [.byte 1] (by decide)
example := C63_reset (h := heapEx) (k := 3) (c := 4) rfl (by decide) [.byte 1, .block [2, 3]]
  (by decide)
example := C63_i2c (h := heapEx) (k := 3) (c := 4) rfl rfl (by decide) (by decide) Sample.basic
  Sample.level Sample.levelVals (by decide) []

/-! ### C64: assigning receivers -/

variable {C : Collection} {B : Build} {user : UserCode} {fuel : Nat}

/-- Every history that is legal on `w` is legal on `w2` and has the same observations, calls, last id,
handler, buffered bytes and free space. -/
def BehavesLike (B : Build) (user : UserCode) (fuel : Nat) (w2 w : World C) : Prop :=
  ∀ (ops : List Op) (w1 : World C) (os : List Obs), Legal B user fuel w ops →
    w.run B user fuel ops = .ok (w1, os) →
    Legal B user fuel w2 ops ∧ ∃ w3, w2.run B user fuel ops = .ok (w3, os) ∧
      w3.trace = w1.trace ∧ w3.fed = w1.fed ∧ buffered w3 = buffered w1 ∧
      w3.rx.getBufferAvailableSpace = w1.rx.getBufferAvailableSpace ∧
      w3.rx.getLastMessageId = w1.rx.getLastMessageId ∧ currentHandler w3 = currentHandler w1

theorem behavesLike_of_abs (S : Setting C B user) {w w2 : World C} {s : AState} (h1 : Abs w s)
    (h2 : Abs w2 s) : BehavesLike B user fuel w2 w := by
  have hc := S.arith.lt64
  intro ops w1 os hl hr
  obtain ⟨hl2, w3, s3, h3, h4, h5⟩ := same_run S hc ops h1 h2 hl hr
  refine ⟨hl2, w3, h3, by rw [h5.trace, h4.trace], by rw [h5.fed, h4.fed],
    by rw [h5.buffered, h4.buffered], by rw [h5.space hc, h4.space hc], ?_, ?_⟩
  · unfold Receiver.getLastMessageId; rw [h5.last, h4.last]
  · rw [currentHandler_abs h5, currentHandler_abs h4]

/-- C64. Assigning one receiver to another never fails, and afterwards the target behaves exactly as
the source would, whatever the target had gone through before. -/
theorem C64_assign (S : Setting C B user) {ops : List Op} {w : World C} {os : List Obs}
    (h : Reached B user fuel ops w os) {B2 : Build} {user2 : UserCode} {fuel2 : Nat}
    (S2 : Setting C B2 user2) {ops2 : List Op} {target : World C} {os2 : List Obs}
    (h2 : Reached B2 user2 fuel2 ops2 target os2) :
    ∃ r, target.rx.assign w.rx = .ok r ∧ BehavesLike B user fuel { w with rx := r } w := by
  obtain ⟨s, _, ha, _⟩ := h.exec S
  obtain ⟨s2, _, ha2, _⟩ := h2.exec S2
  obtain ⟨b, hb, hh, _⟩ := RB.holds_idealContentsCopy S.arith.lt64 ha.buf ha2.buf.len
  refine ⟨_, by unfold Receiver.assign RB.assign; rw [hb]; rfl, ?_⟩
  exact behavesLike_of_abs S ha ⟨hh, ha.invoker, ha.functor, ha.last, ha.trace, ha.fed⟩

/-- C64. Assigning a receiver to itself is undefined exactly if bytes are buffered and they stand at
the very beginning of its array; otherwise it changes nothing observable. -/
theorem C64_self (S : Setting C B user) {ops : List Op} {w : World C} {os : List Obs}
    (h : Reached B user fuel ops w os) :
    (w.rx.selfAssign = .error .ub ↔ w.rx.recv.buf.begin_ = 0 ∧ buffered w ≠ []) ∧
    (¬ (w.rx.recv.buf.begin_ = 0 ∧ buffered w ≠ []) →
      ∃ r, w.rx.selfAssign = .ok r ∧ BehavesLike B user fuel { w with rx := r } w) := by
  obtain ⟨s, _, ha, _⟩ := h.exec S
  rw [ha.buffered]
  have hok : ¬ (w.rx.recv.buf.begin_ = 0 ∧ s.buf ≠ []) →
      ∃ r, w.rx.selfAssign = .ok r ∧ BehavesLike B user fuel { w with rx := r } w := by
    intro hn
    obtain ⟨b, hb, hh, _⟩ := RB.Holds.slide_ok S.arith.lt64 ha.buf (by
      by_cases hx : s.buf = []
      · exact Or.inr hx
      · left
        rcases Nat.eq_zero_or_pos w.rx.recv.buf.begin_ with h0 | h0
        · exact absurd ⟨h0, hx⟩ hn
        · exact h0)
    refine ⟨_, by unfold Receiver.selfAssign RB.selfAssign; rw [hb]; rfl, ?_⟩
    exact behavesLike_of_abs S ha ⟨hh, ha.invoker, ha.functor, ha.last, ha.trace, ha.fed⟩
  refine ⟨⟨fun he => ?_, fun hb => ?_⟩, hok⟩
  · by_cases hn : w.rx.recv.buf.begin_ = 0 ∧ s.buf ≠ []
    · exact hn
    · obtain ⟨r, e, _⟩ := hok hn
      rw [he] at e; simp at e
  · have hpe : w.rx.recv.buf.pastEnd = w.rx.recv.buf.begin_ + s.buf.length := ha.buf.pe
    have hpos : 0 < s.buf.length := List.length_pos_iff.mpr hb.2
    unfold Receiver.selfAssign RB.selfAssign RB.slideContentsForward RB.copyWithin
    rw [if_neg (by omega), if_pos (by omega)]
    rfl

/-- C64. In particular it is undefined right after appending to a receiver with nothing buffered. -/
theorem C64_self_after_append (S : Setting C B user) {ops : List Op} {w w' : World C} {os : List Obs}
    (h : Reached B user fuel ops w os) (hb : buffered w = []) {xs : List Byte} (hx : xs ≠ [])
    (hl : xs.length ≤ w.rx.getBufferAvailableSpace) (ha' : w.append B xs = .ok w') :
    w'.rx.selfAssign = .error .ub := by
  have hc := S.arith.lt64
  obtain ⟨s, _, ha, _⟩ := h.exec S
  rw [ha.buffered] at hb
  rw [ha.space hc, hb, List.length_nil, Nat.sub_zero, capacity_eq] at hl
  have hbuf : w.rx.recv.buf.Holds [] := by have := ha.buf; rw [hb] at this; exact this
  obtain ⟨b, e, hh⟩ := RB.Holds.pushBackRange_ok hc hbuf (ys := xs) (by simpa using hl)
  have e := e B S.arith
  have hbeg : b.begin_ = 0 := by
    have e' := e
    unfold RB.pushBackRange RB.ensureSpace at e'
    simp only [hbuf.empty_eq, List.isEmpty_nil, if_true] at e'
    rw [trunc_of_le hc hl, promAdd_of_lt S.arith (by have := List.length_pos_iff.mpr hx; omega), if_pos (by omega)] at e'
    simp only [ok_bind] at e'
    cases hw : RB.writeAt w.rx.recv.buf.contents 0 xs with
    | error f => rw [hw] at e'; simp at e'
    | ok l =>
      rw [hw] at e'
      simp only [ok_bind] at e'
      cases hv : RB.verifyInvariants B ({ begin_ := 0, pastEnd := trunc (recvBufferSize C) (0 + xs.length), contents := l } : RB (recvBufferSize C)) with
      | error f => rw [hv] at e'; simp at e'
      | ok u =>
        rw [hv] at e'
        simp only [ok_bind, pure_eq_ok, Except.ok.injEq] at e'
        rw [← e']
  have hw' : w'.rx.recv.buf = b := by
    simp [World.append, Receiver.appendReceived, ERB.bufferAppend, e] at ha'
    rw [← ha']
  have hpe := hh.pe
  have hpos : 0 < xs.length := List.length_pos_iff.mpr hx
  simp only [List.nil_append] at hpe
  unfold Receiver.selfAssign RB.selfAssign RB.slideContentsForward RB.copyWithin
  rw [hw', if_neg (by omega), if_pos (by omega)]
  rfl

/-- Two receivers with different pasts. -/
example : ∃ (w t : World Sample.basic) (os os2 : List Obs) (r : Receiver Sample.basic),
    Reached Sample.dbg Sample.passive 50 [.setHandler Sample.h0, .append [7, 7, 1, 1], .process] w os ∧
    Reached Sample.dbg Sample.passive 50 [.append [5, 6, 7]] t os2 ∧ t.rx.assign w.rx = .ok r ∧
    BehavesLike Sample.dbg Sample.passive 50 { w with rx := r } w := by
  obtain ⟨w, os, h, _⟩ := Sample.reached (C := Sample.basic) (B := Sample.dbg)
    (user := Sample.passive) (fuel := 50)
    (ops := [.setHandler Sample.h0, .append [7, 7, 1, 1], .process]) (fun _ _ => true)
    (by decide +kernel)
  obtain ⟨t, os2, h2, _⟩ := Sample.reached (C := Sample.basic) (B := Sample.dbg)
    (user := Sample.passive) (fuel := 50) (ops := [.append [5, 6, 7]]) (fun _ _ => true)
    (by decide +kernel)
  obtain ⟨r, h3, h4⟩ := C64_assign Sample.setting_basic h Sample.setting_basic h2
  exact ⟨w, t, os, os2, r, h, h2, h3, h4⟩

/-- Both cases of self-assignment occur: after processing, the half message does not stand at the
beginning of the array; after an append to a fresh receiver it does. -/
example : (∃ (w : World Sample.basic) (os : List Obs) (r : Receiver Sample.basic),
    Reached Sample.dbg Sample.passive 50 [.setHandler Sample.h0, .append [7, 7, 1, 1], .process] w os ∧
    buffered w = [1, 1] ∧ w.rx.selfAssign = .ok r) ∧
    ∃ (w : World Sample.basic) (os : List Obs),
    Reached Sample.dbg Sample.passive 50 [.append [7, 7, 1, 1]] w os ∧
    w.rx.selfAssign = .error .ub := by
  obtain ⟨w, os, h, hp⟩ := Sample.reached (C := Sample.basic) (B := Sample.dbg)
    (user := Sample.passive) (fuel := 50)
    (ops := [.setHandler Sample.h0, .append [7, 7, 1, 1], .process])
    (fun w _ => decide (buffered w = [1, 1] ∧ w.rx.recv.buf.begin_ = 2)) (by decide +kernel)
  obtain ⟨t, os2, h2, hp2⟩ := Sample.reached (C := Sample.basic) (B := Sample.dbg)
    (user := Sample.passive) (fuel := 50) (ops := [.append [7, 7, 1, 1]])
    (fun w _ => decide (w.rx.recv.buf.begin_ = 0 ∧ buffered w ≠ [])) (by decide +kernel)
  simp only [decide_eq_true_eq] at hp hp2
  obtain ⟨r, hr, _⟩ := (C64_self Sample.setting_basic h).2 (by rw [hp.2]; simp)
  exact ⟨⟨w, os, r, h, hp.1, hr⟩, t, os2, h2, (C64_self Sample.setting_basic h2).1.mpr hp2⟩

example : ∃ w' : World Sample.basic, (World.new Sample.basic).append Sample.dbg [1, 2] = .ok w' ∧
    w'.rx.selfAssign = .error .ub := by
  have h0 : Reached Sample.dbg Sample.passive 50 [] (World.new Sample.basic) [] := ⟨trivial, rfl⟩
  cases e : (World.new Sample.basic).append Sample.dbg [1, 2] with
  | error f =>
    have : ((World.new Sample.basic).append Sample.dbg [1, 2]).toOption.isSome = true := by
      decide +kernel
    rw [e] at this
    simp [Except.toOption] at this
  | ok w' => exact ⟨w', rfl, C64_self_after_append Sample.setting_basic h0 (by decide +kernel)
      (by simp) (by decide +kernel) e⟩

/-! ### C37: the constructor that takes a handler -/

/-- C37. A receiver constructed with a handler does what a default-constructed one does on which that
handler is set first. -/
theorem C37_constructed (hd : Handler) (ops : List Op) (w : World C) (os : List Obs) :
    ({ World.new C with rx := Receiver.newWith C hd } : World C).run B user fuel ops = .ok (w, os) ↔
    (World.new C).run B user fuel (.setHandler hd :: ops) = .ok (w, .unit :: os) := by
  have e : (World.new C).run B user fuel (.setHandler hd :: ops) =
      (({ World.new C with rx := (Receiver.new C).setHandler hd } : World C).run B user fuel ops).bind
        fun x => .ok (x.1, Obs.unit :: x.2) := rfl
  rw [e]
  have e2 : Receiver.newWith C hd = (Receiver.new C).setHandler hd := rfl
  rw [e2]
  cases ({ World.new C with rx := (Receiver.new C).setHandler hd } : World C).run B user fuel ops with
  | error f => simp [Except.bind]
  | ok x => obtain ⟨a, b⟩ := x; simp [Except.bind]

example : ∃ (w : World Sample.basic) (os : List Obs),
    ({ World.new Sample.basic with rx := Receiver.newWith Sample.basic Sample.h1 } :
      World Sample.basic).run Sample.dbg Sample.passive 50 [.append [1, 0, 2, 3, 4], .process] =
      .ok (w, os) ∧ w.trace.map (·.handler) = [Sample.h1] := by
  obtain ⟨w, os, h, hp⟩ := Sample.reached (C := Sample.basic) (B := Sample.dbg)
    (user := Sample.passive) (fuel := 50)
    (ops := [.setHandler Sample.h1, .append [1, 0, 2, 3, 4], .process])
    (fun w os => decide (w.trace.map (·.handler) = [Sample.h1] ∧ os.head? = some .unit))
    (by decide +kernel)
  simp only [decide_eq_true_eq] at hp
  cases os with
  | nil => simp at hp
  | cons o os =>
    obtain ⟨hp1, hp2⟩ := hp
    simp at hp2
    subst hp2
    exact ⟨w, os, (C37_constructed _ _ _ _).mpr h.run, hp1⟩

end TT.Properties
