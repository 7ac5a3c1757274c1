import Verif.Properties.EndToEnd

/-!
# Errors in single bits: C98
-/

namespace TT.Properties
open Spec

variable {C : Collection} {B : Build} {user : UserCode} {fuel : Nat}

/-- The bits of a byte string in the order in which a line carries them: within a byte the most significant one first
(as on I2C) or the least significant one first (as on serial ports). -/
def lineBits (msbFirst : Bool) (xs : List Byte) : List Bool :=
  xs.flatMap fun x => (List.range 8).map fun k => x.toNat.testBit (if msbFirst then 7 - k else k)

/-- `ys` is `xs` with any of `n` consecutive bits changed, where the bits are counted in the order of the line. -/
def Burst (msbFirst : Bool) (n : Nat) (xs ys : List Byte) : Prop :=
  ys.length = xs.length ∧
  ∃ i, ∀ j, j < i ∨ i + n ≤ j → (lineBits msbFirst ys)[j]? = (lineBits msbFirst xs)[j]?

/-! ### Proofs about bits -/

theorem lineBits_get (msb : Bool) (xs : List Byte) : ∀ (a k : Nat), k < 8 →
    (lineBits msb xs)[8 * a + k]? = xs[a]?.map fun x => x.toNat.testBit (if msb then 7 - k else k) := by
  induction xs with
  | nil => intro a k _; simp [lineBits]
  | cons x xs ih =>
    intro a k hk
    have hl : ((List.range 8).map fun k => x.toNat.testBit (if msb then 7 - k else k)).length = 8 := by simp
    have hc : lineBits msb (x :: xs) =
        ((List.range 8).map fun k => x.toNat.testBit (if msb then 7 - k else k)) ++ lineBits msb xs := rfl
    rw [hc]
    cases a with
    | zero =>
      rw [List.getElem?_append_left (by omega)]
      simp [hk]
    | succ a =>
      rw [List.getElem?_append_right (by omega), hl, show 8 * (a + 1) + k - 8 = 8 * a + k by omega, ih a k hk]
      simp

theorem testBit_eq_of_mod {x y k t : Nat} (h : x % 2 ^ k = y % 2 ^ k) (ht : t < k) : x.testBit t = y.testBit t := by
  have := congrArg (fun z => Nat.testBit z t) h
  simpa [Nat.testBit_mod_two_pow, ht] using this

/-- Bytes whose `k` lower bits agree. -/
theorem mod_of_bits {x y : Byte} {k : Nat} (h : ∀ t < k, x.toNat.testBit t = y.toNat.testBit t) :
    x.toNat % 2 ^ k = y.toNat % 2 ^ k := by
  apply Nat.eq_of_testBit_eq
  intro t
  simp only [Nat.testBit_mod_two_pow]
  by_cases ht : t < k
  · simp [ht, h t ht]
  · simp [ht]

/-- Bytes whose bits from the `k`-th on agree. -/
theorem div_of_bits {x y : Byte} {k : Nat} (h : ∀ t, k ≤ t → t < 8 → x.toNat.testBit t = y.toNat.testBit t) :
    x.toNat / 2 ^ k = y.toNat / 2 ^ k := by
  apply Nat.eq_of_testBit_eq
  intro t
  simp only [Nat.testBit_div_two_pow]
  by_cases ht : k + t < 8
  · rw [h _ (by omega) (by omega)]
  · rw [Nat.testBit_lt_two_pow, Nat.testBit_lt_two_pow]
    · exact Nat.lt_of_lt_of_le y.toNat_lt (Nat.pow_le_pow_right (by decide) (by omega : 8 ≤ t + k))
    · exact Nat.lt_of_lt_of_le x.toNat_lt (Nat.pow_le_pow_right (by decide) (by omega : 8 ≤ t + k))

/-- The one agrees below bit `k`, the other from bit `k` on. -/
def Apart (x x' z z' : Byte) : Prop :=
  ∃ k ≤ 8, (x.toNat % 2 ^ k = x'.toNat % 2 ^ k ∧ z.toNat / 2 ^ k = z'.toNat / 2 ^ k) ∨
    (x.toNat / 2 ^ k = x'.toNat / 2 ^ k ∧ z.toNat % 2 ^ k = z'.toNat % 2 ^ k)

theorem apart_nat {x x' z z' k : Nat} (hk : k ≤ 8) (hx : x < 256) (hx' : x' < 256) (hz : z < 256) (hz' : z' < 256)
    (h1 : x % 2 ^ k = x' % 2 ^ k) (h2 : z / 2 ^ k = z' / 2 ^ k) (h : (x + z) % 256 = (x' + z') % 256) :
    x = x' ∧ z = z' := by
  have : k = 0 ∨ k = 1 ∨ k = 2 ∨ k = 3 ∨ k = 4 ∨ k = 5 ∨ k = 6 ∨ k = 7 ∨ k = 8 := by omega
  rcases this with rfl | rfl | rfl | rfl | rfl | rfl | rfl | rfl | rfl <;> simp at h1 h2 <;> omega

theorem Apart.eq {x x' z z' : Byte} (h : Apart x x' z z') (e : x + z = x' + z') : x = x' ∧ z = z' := by
  have e' := congrArg UInt8.toNat e
  simp only [UInt8.toNat_add] at e'
  have b1 := x.toNat_lt
  have b2 := x'.toNat_lt
  have b3 := z.toNat_lt
  have b4 := z'.toNat_lt
  obtain ⟨k, hk, ⟨h1, h2⟩ | ⟨h1, h2⟩⟩ := h
  · obtain ⟨a1, a2⟩ := apart_nat hk b1 b2 b3 b4 h1 h2 e'
    exact ⟨UInt8.toNat_inj.mp a1, UInt8.toNat_inj.mp a2⟩
  · obtain ⟨a1, a2⟩ := apart_nat hk b3 b4 b1 b2 h2 h1 (by omega)
    exact ⟨UInt8.toNat_inj.mp a2, UInt8.toNat_inj.mp a1⟩

/-- What a burst of at most eight bits does to the bytes. -/
theorem Burst.bytes {msb : Bool} {n : Nat} (hn : n ≤ 8) {xs ys : List Byte} (h : Burst msb n xs ys) :
    ∃ c, (∀ j, j ≠ c → j ≠ c + 1 → ys[j]? = xs[j]?) ∧
      ∀ x x' z z', xs[c]? = some x → ys[c]? = some x' → xs[c + 1]? = some z → ys[c + 1]? = some z' →
        Apart x x' z z' := by
  obtain ⟨hl, i, hi⟩ := h
  have hbit : ∀ (a k : Nat), k < 8 → 8 * a + k < i ∨ i + n ≤ 8 * a + k → ∀ x y, xs[a]? = some x → ys[a]? = some y →
      x.toNat.testBit (if msb then 7 - k else k) = y.toNat.testBit (if msb then 7 - k else k) := by
    intro a k hk hr x y hx hy
    have := hi _ hr
    rw [lineBits_get msb _ a k hk, lineBits_get msb _ a k hk, hx, hy] at this
    simpa using this.symm
  refine ⟨i / 8, ?_, ?_⟩
  · intro j h1 h2
    rcases Nat.lt_or_ge j xs.length with hj | hj
    · have hx : xs[j]? = some xs[j] := List.getElem?_eq_getElem hj
      have hy : ys[j]? = some ys[j] := List.getElem?_eq_getElem (by omega)
      rw [hx, hy]
      congr 1
      apply UInt8.toNat_inj.mp
      have hd := div_of_bits (x := ys[j]) (y := xs[j]) (k := 0) (fun t _ ht => by
        have := hbit j (if msb then 7 - t else t) (by split <;> omega) (by
          have : (if msb then 7 - t else t) < 8 := by split <;> omega
          omega) _ _ hx hy
        cases msb
        · simpa using this.symm
        · simp only [if_true, show 7 - (7 - t) = t by omega] at this
          exact this.symm)
      simpa using hd
    · rw [List.getElem?_eq_none hj, List.getElem?_eq_none (by omega)]
  · intro x x' z z' hx hx' hz hz'
    have hk : i % 8 < 8 := Nat.mod_lt _ (by decide)
    cases msb with
    | false =>
      refine ⟨i % 8, by omega, .inl ⟨mod_of_bits fun t ht => ?_, div_of_bits fun t h1 h2 => ?_⟩⟩
      · simpa using hbit (i / 8) t (by omega) (by omega) _ _ hx hx'
      · simpa using hbit (i / 8 + 1) t (by omega) (by omega) _ _ hz hz'
    | true =>
      refine ⟨8 - i % 8, by omega, .inr ⟨div_of_bits fun t h1 h2 => ?_, mod_of_bits fun t ht => ?_⟩⟩
      · have := hbit (i / 8) (7 - t) (by omega) (by omega) _ _ hx hx'
        simpa only [if_true, show 7 - (7 - t) = t by omega] using this
      · have := hbit (i / 8 + 1) (7 - t) (by omega) (by omega) _ _ hz hz'
        simpa only [if_true, show 7 - (7 - t) = t by omega] using this

/-- Lists that agree except in two neighbours, which are `Apart`, and have the same sum. -/
theorem near_eq : ∀ (l l' : List Byte) (c : Nat), l'.length = l.length →
    (∀ j, j ≠ c → j ≠ c + 1 → l'[j]? = l[j]?) →
    (∀ x x' z z', l[c]? = some x → l'[c]? = some x' → l[c + 1]? = some z → l'[c + 1]? = some z' → Apart x x' z z') →
    byteSum l = byteSum l' → l = l'
  | [], [], _, _, _, _, _ => rfl
  | [], _ :: _, _, h, _, _, _ => by simp at h
  | _ :: _, [], _, h, _, _, _ => by simp at h
  | x :: l, x' :: l', 0, h, ho, ha, hs => by
    cases l with
    | nil =>
      cases l' with
      | nil => simpa [byteSum] using hs
      | cons _ _ => simp at h
    | cons z l =>
      cases l' with
      | nil => simp at h
      | cons z' l' =>
        have ht : l' = l := List.ext_getElem? fun j => by simpa using ho (j + 2) (by omega) (by omega)
        subst ht
        simp only [byteSum, ← UInt8.add_assoc] at hs
        obtain ⟨rfl, rfl⟩ := (ha x x' z z' rfl rfl rfl rfl).eq ((UInt8.add_left_inj _).mp hs)
        rfl
  | x :: l, x' :: l', c + 1, h, ho, ha, hs => by
    have hx : x' = x := by simpa using ho 0 (by omega) (by omega)
    subst hx
    simp only [byteSum] at hs
    rw [near_eq l l' c (by simpa using h)
      (fun j h1 h2 => by simpa using ho (j + 1) (by omega) (by omega))
      (fun x x' z z' h1 h2 h3 h4 => ha x x' z z' (by simpa using h1) (by simpa using h2) (by simpa using h3)
        (by simpa using h4)) ((UInt8.add_right_inj _).mp hs)]

/-- A burst of at most eight bits does not make another checksummed frame of a frame. -/
theorem burst_frame {msb : Bool} {n : Nat} (hn : n ≤ 8) (m m' : Msg)
    (h : Burst msb n (frame .basicChecksum m) (frame .basicChecksum m')) :
    frame .basicChecksum m' = frame .basicChecksum m := by
  have hl := h.1
  have hp : m'.payload.length = m.payload.length := by
    simp [frame] at hl
    omega
  obtain ⟨c, ho, ha⟩ := h.bytes hn
  let body : Msg → List Byte := fun m => [0x01, m.id, 0x02] ++ m.payload ++ [0x03]
  have hf : ∀ m, frame .basicChecksum m = body m ++ [byteSum (body m), 0x04] := fun _ => rfl
  have hbl : ∀ m, (body m).length = m.payload.length + 4 := by
    intro m
    simp [body]
  have hget : ∀ m j, j < (body m).length → (frame .basicChecksum m)[j]? = (body m)[j]? := by
    intro m j hj
    rw [hf, List.getElem?_append_left hj]
  have hck : ∀ m, (frame .basicChecksum m)[(body m).length]? = some (byteSum (body m)) := by
    intro m
    rw [hf, List.getElem?_append_right (Nat.le_refl _)]
    simp
  have hend : ∀ m, (body m)[m.payload.length + 3]? = some 0x03 := by
    intro m
    simp only [body]
    rw [List.getElem?_append_right (by simp)]
    simp
  have hlen : (body m').length = (body m).length := by rw [hbl, hbl, hp]
  suffices hb : body m = body m' by rw [hf, hf, hb]
  by_cases hc : c = (body m).length ∨ c + 1 = (body m).length
  · -- the checksum is hit; of the bytes before it at most the last one
    apply List.ext_getElem?
    intro j
    by_cases hj : j < (body m).length
    · by_cases hj3 : j = m.payload.length + 3
      · rw [hj3, hend, ← hp, hend]
      · rw [← hget m j hj, ← hget m' j (by omega)]
        have := hbl m
        exact (ho j (by omega) (by omega)).symm
    · rw [List.getElem?_eq_none (by omega), List.getElem?_eq_none (by omega)]
  · have hs : byteSum (body m) = byteSum (body m') := by
      have := ho (body m).length (by omega) (by omega)
      rw [hck, ← hlen, hck] at this
      exact (Option.some.inj this).symm
    refine near_eq _ _ c hlen (fun j h1 h2 => ?_) (fun x x' z z' h1 h2 h3 h4 => ?_) hs
    · by_cases hj : j < (body m).length
      · rw [← hget m j hj, ← hget m' j (by omega)]
        exact ho j h1 h2
      · rw [List.getElem?_eq_none (by omega), List.getElem?_eq_none (by omega)]
    · have hz := (List.getElem?_eq_some_iff.mp h3).1
      exact ha x x' z z' (by rw [hget m c (by omega)]; exact h1) (by rw [hget m' c (by omega)]; exact h2)
        (by rw [hget m _ hz]; exact h3) (by rw [hget m' _ (by omega)]; exact h4)

/-- Bytes in place of a message that have its id but are no message. -/
theorem not_start_of {m : Msg} (hm : IsMsg C m) {y : List Byte} (hl : y.length = (frame C.envelope m).length)
    (hid : y[1]? = some m.id) (hne : ∀ m', y ≠ frame C.envelope m') (u : List Byte) :
    ¬ Starts C (y ++ u) ∧ ¬ Waiting C (y ++ u) := by
  obtain ⟨rest, hr⟩ := frame_cons C.envelope m
  have hlr := congrArg List.length hr
  simp only [List.length_cons] at hlr
  have hid' : ∀ {id rest' v}, y ++ u = v :: id :: rest' → id = m.id := by
    intro id rest' v e
    have := congrArg (fun l : List Byte => l[1]?) e
    simp only [List.getElem?_cons_succ, List.getElem?_cons_zero] at this
    rw [List.getElem?_append_left (by omega), hid] at this
    simpa using this.symm
  constructor
  · rintro ⟨m', t, hm', e⟩
    obtain ⟨rest', hr'⟩ := frame_cons C.envelope m'
    have h1 := hid' (by rw [e, hr']; rfl)
    have ha := hm.announced
    have ha' := hm'.announced
    rw [h1, ha] at ha'
    exact hne m' (List.append_inj e (hl.trans (Option.some.inj ha'))).1
  · rintro (e | ⟨id, _, e⟩ | ⟨id, rest', n, hn, e, hlt⟩)
    · have := congrArg List.length e
      simp at this
      omega
    · have := congrArg List.length e
      simp at this
      omega
    · have h1 := hid' e
      rw [h1, hm.announced] at hn
      have hn := Option.some.inj hn
      simp at hlt
      omega

/-- What the receiver does with such bytes: it gives them up. -/
theorem not_delivered_of (S : Setting C B user) (hn : NeverThrows user) {ops : List Op} {w : World C} {os : List Obs}
    (h : Reached B user fuel (ops ++ [.process]) w os) (hh : w.rx.hasHandler = true) {s : List Byte} {c : Byte}
    (hf : w.fed = c :: s) (h1 : ¬ Starts C w.fed) (h2 : ¬ Waiting C w.fed) :
    ∃ ms, Decodes C s ms (buffered w) ∧ delivered w = ms.map (meaning C) := by
  obtain ⟨ms, hd, e⟩ := h.polled S hn hh
  obtain ⟨ms', r, hd'⟩ := decodes_exists C s
  rw [hf] at hd h1 h2
  obtain ⟨e1, e2⟩ := hd.unique ⟨Run.skip h1 h2 hd'.1, hd'.2⟩
  exact ⟨ms', by rw [e2]; exact hd', by rw [e, e1]⟩

/-! ### Bursts -/

/-- C98. If any of at most eight consecutive bits of a checksummed message are changed, no message of the original length
starts there. -/
theorem C98_burst_same_length (hE : C.envelope = .basicChecksum) {m : Msg} {msb : Bool} {n : Nat} (hn : n ≤ 8)
    {y : List Byte} (hb : Burst msb n (frame C.envelope m) y) (hne : y ≠ frame C.envelope m) (m' : Msg)
    (hl : (frame C.envelope m').length = (frame C.envelope m).length) (u t : List Byte) :
    y ++ u ≠ frame C.envelope m' ++ t := by
  intro e
  have := (List.append_inj e (hb.1.trans hl.symm)).1
  subst this
  rw [hE] at hb hne
  exact hne (burst_frame hn m m' hb)

/-- C98. If the id is not among the changed bytes, no message at all starts there, and none can begin there. -/
theorem C98_burst_not_start (hE : C.envelope = .basicChecksum) {m : Msg} (hm : IsMsg C m) {msb : Bool} {n : Nat}
    (hn : n ≤ 8) {y : List Byte} (hb : Burst msb n (frame C.envelope m) y) (hne : y ≠ frame C.envelope m)
    (hid : y[1]? = some m.id) (u : List Byte) : ¬ Starts C (y ++ u) ∧ ¬ Waiting C (y ++ u) := by
  refine not_start_of hm hb.1 hid (fun m' e => ?_) u
  subst e
  rw [hE] at hb hne
  exact hne (burst_frame hn m m' hb)

/-- C98. The receiver gives up on such a message: what is delivered is what the stream without its first byte contains. -/
theorem C98_burst_not_delivered (hE : C.envelope = .basicChecksum) (S : Setting C B user) (hth : NeverThrows user)
    {ops : List Op} {w : World C} {os : List Obs} (h : Reached B user fuel (ops ++ [.process]) w os)
    (hh : w.rx.hasHandler = true) {m : Msg} (hm : IsMsg C m) {msb : Bool} {n : Nat} (hn : n ≤ 8) {y : List Byte}
    (hb : Burst msb n (frame C.envelope m) y) (hne : y ≠ frame C.envelope m) (hid : y[1]? = some m.id) (u : List Byte)
    (hfed : w.fed = y ++ u) :
    ∃ ms, Decodes C (w.fed.drop 1) ms (buffered w) ∧ delivered w = ms.map (meaning C) := by
  obtain ⟨h1, h2⟩ := C98_burst_not_start hE hm hn hb hne hid u
  rw [← hfed] at h1 h2
  cases y with
  | nil => simp at hid
  | cons c y =>
    rw [hfed]
    exact not_delivered_of S hth h hh hfed h1 h2

/-- C98. If the rest of the changed message contains no start code, exactly the messages after it are delivered. -/
theorem C98_burst_next_delivered (hE : C.envelope = .basicChecksum) (S : Setting C B user) (hth : NeverThrows user)
    {ops : List Op} {w : World C} {os : List Obs} (h : Reached B user fuel (ops ++ [.process]) w os)
    (hh : w.rx.hasHandler = true) {m : Msg} (hm : IsMsg C m) {msb : Bool} {n : Nat} (hn : n ≤ 8) {y : List Byte}
    (hb : Burst msb n (frame C.envelope m) y) (hne : y ≠ frame C.envelope m) (hid : y[1]? = some m.id)
    (hno : ∀ c ∈ y.drop 1, c ≠ 0x01) (ms : List Msg) (hms : ∀ m ∈ ms, IsMsg C m)
    (hfed : w.fed = y ++ frames C.envelope ms) :
    delivered w = ms.map (meaning C) ∧ buffered w = [] := by
  obtain ⟨ms', hd, e⟩ := C98_burst_not_delivered hE S hth h hh hm hn hb hne hid _ hfed
  have hd' : Decodes C (w.fed.drop 1) ms [] := by
    refine ⟨?_, Or.inl rfl⟩
    cases y with
    | nil => simp at hid
    | cons c y =>
      rw [hfed]
      have := run_frames hms []
      rw [List.append_nil] at this
      exact run_noise hno this
  obtain ⟨e1, e2⟩ := hd.unique hd'
  exact ⟨by rw [e, e1], e2⟩

/-! ### Two bits -/

/-- The byte with bit `a` changed. -/
def flipBit (a : Nat) (x : Byte) : Byte := UInt8.ofNat (x.toNat ^^^ 2 ^ a)

theorem flipBit_eq (a : Fin 8) (x : Byte) :
    flipBit a x = if x.toNat.testBit a then x - UInt8.ofNat (2 ^ a.val) else x + UInt8.ofNat (2 ^ a.val) := by
  have h : ∀ (a : Fin 8) (x : Fin 256), flipBit a (UInt8.ofNat x) =
      if (UInt8.ofNat x).toNat.testBit a then UInt8.ofNat x - UInt8.ofNat (2 ^ a.val)
      else UInt8.ofNat x + UInt8.ofNat (2 ^ a.val) := by decide +kernel
  have := h a ⟨x.toNat, x.toNat_lt⟩
  simpa using this

theorem flip_two (a b : Fin 8) (x z : Byte) :
    flipBit a x + flipBit b z = x + z ↔ a = b ∧ (a = 7 ∨ x.toNat.testBit a ≠ z.toNat.testBit b) := by
  have h : ∀ (a b : Fin 8) (s t : Bool),
      ((if s then 0 - UInt8.ofNat (2 ^ a.val) else UInt8.ofNat (2 ^ a.val)) +
        (if t then 0 - UInt8.ofNat (2 ^ b.val) else UInt8.ofNat (2 ^ b.val)) = (0 : Byte)) ↔
      a = b ∧ (a = 7 ∨ s ≠ t) := by decide +kernel
  rw [flipBit_eq, flipBit_eq, ← h]
  generalize UInt8.ofNat (2 ^ a.val) = p
  generalize UInt8.ofNat (2 ^ b.val) = q
  cases x.toNat.testBit a <;> cases z.toNat.testBit b <;> simp <;> constructor <;> intro e <;> grind

theorem byteSum_set : ∀ (l : List Byte) (i : Nat) (x y : Byte), l[i]? = some x →
    byteSum (l.set i y) + x = byteSum l + y
  | [], _, _, _, h => by simp at h
  | z :: l, 0, x, y, h => by
    simp only [List.getElem?_cons_zero, Option.some.injEq] at h
    subst h
    simp only [List.set_cons_zero, byteSum]
    grind
  | z :: l, i + 1, x, y, h => by
    have := byteSum_set l i x y (by simpa using h)
    simp only [List.set_cons_succ, byteSum]
    grind

/-- C98. Two bits changed in different bytes of the payload go unnoticed if and only if they have the same place in their
bytes, and either that is the most significant one or one of the bits was set and the other was not. -/
theorem C98_two_bits (hE : C.envelope = .basicChecksum) (S : Setting C B user) (hth : NeverThrows user)
    {ops : List Op} {w : World C} {os : List Obs} (h : Reached B user fuel (ops ++ [.process]) w os)
    (hh : w.rx.hasHandler = true) {m : Msg} (hm : IsMsg C m) {i j : Nat} {x z : Byte} (hij : i ≠ j)
    (hx : m.payload[i]? = some x) (hz : m.payload[j]? = some z) (a b : Fin 8) (p : List Byte)
    (hp : p = (m.payload.set i (flipBit a x)).set j (flipBit b z)) (hfed : w.fed = withPayload C.envelope m p) :
    delivered w = [meaning C ⟨m.id, p⟩] ↔ a = b ∧ (a = 7 ∨ x.toNat.testBit a ≠ z.toNat.testBit b) := by
  rw [C32_checksum hE S hth h hh hm p (by simp [hp]) hfed, ← flip_two]
  have h1 := byteSum_set m.payload i x (flipBit a x) hx
  have h2 := byteSum_set (m.payload.set i (flipBit a x)) j z (flipBit b z) (by rw [List.getElem?_set_ne hij, hz])
  rw [← hp] at h2
  constructor <;> intro e <;> grind

/-! ### What is not detected -/

theorem burst_of {msb : Bool} {n : Nat} {xs ys : List Byte} (i : Nat) (hl : ys.length = xs.length)
    (h : ∀ j < 8 * xs.length, j < i ∨ i + n ≤ j → (lineBits msb ys)[j]? = (lineBits msb xs)[j]?) :
    Burst msb n xs ys := by
  refine ⟨hl, i, fun j hj => ?_⟩
  by_cases hb : j < 8 * xs.length
  · exact h j hb hj
  · rw [show j = 8 * (j / 8) + j % 8 by omega, lineBits_get _ _ _ _ (Nat.mod_lt _ (by decide)),
      lineBits_get _ _ _ _ (Nat.mod_lt _ (by decide)), List.getElem?_eq_none (by omega), List.getElem?_eq_none (by omega)]

/-- Nine bits are too many, in either order: another message is delivered. -/
theorem C98_nine_bits_witness (msb : Bool) : ∃ (p p' : List Byte) (w : World Sample.checked) (os : List Obs),
    p' ≠ p ∧ IsMsg Sample.checked ⟨2, p⟩ ∧
    Burst msb 9 (frame .basicChecksum ⟨2, p⟩) (withPayload .basicChecksum ⟨2, p⟩ p') ∧
    Reached Sample.dbg Sample.passive 50
      ([.setHandler Sample.h0, .append (withPayload .basicChecksum ⟨2, p⟩ p')] ++ [.process]) w os ∧
    delivered w = [meaning Sample.checked ⟨2, p'⟩] := by
  cases msb with
  | false =>
    obtain ⟨w, os, h, hp⟩ := Sample.reached (C := Sample.checked) (B := Sample.dbg) (user := Sample.passive) (fuel := 50)
      (ops := [.setHandler Sample.h0, .append (withPayload .basicChecksum ⟨2, [0, 1, 9, 9, 9, 9, 9]⟩
        [1, 0, 9, 9, 9, 9, 9])] ++ [.process])
      (fun w _ => decide (delivered w = [meaning Sample.checked ⟨2, [1, 0, 9, 9, 9, 9, 9]⟩])) (by decide +kernel)
    exact ⟨[0, 1, 9, 9, 9, 9, 9], [1, 0, 9, 9, 9, 9, 9], w, os, by decide, by decide +kernel,
      burst_of 24 (by decide +kernel) (by decide +kernel), h, by simpa using hp⟩
  | true =>
    obtain ⟨w, os, h, hp⟩ := Sample.reached (C := Sample.checked) (B := Sample.dbg) (user := Sample.passive) (fuel := 50)
      (ops := [.setHandler Sample.h0, .append (withPayload .basicChecksum ⟨2, [0, 0, 9, 9, 9, 9, 9]⟩
        [128, 128, 9, 9, 9, 9, 9])] ++ [.process])
      (fun w _ => decide (delivered w = [meaning Sample.checked ⟨2, [128, 128, 9, 9, 9, 9, 9]⟩])) (by decide +kernel)
    exact ⟨[0, 0, 9, 9, 9, 9, 9], [128, 128, 9, 9, 9, 9, 9], w, os, by decide, by decide +kernel,
      burst_of 24 (by decide +kernel) (by decide +kernel), h, by simpa using hp⟩

/-- An odd number of changed bits is not always detected: here three. -/
theorem C98_three_bits_witness : ∃ (w : World Sample.checked) (os : List Obs),
    Reached Sample.dbg Sample.passive 50 ([.setHandler Sample.h0, .append (withPayload .basicChecksum
      ⟨2, [0, 0, 2, 9, 9, 9, 9]⟩ [flipBit 0 0, flipBit 0 0, flipBit 1 2, 9, 9, 9, 9])] ++ [.process]) w os ∧
    delivered w = [meaning Sample.checked ⟨2, [1, 1, 0, 9, 9, 9, 9]⟩] := by
  obtain ⟨w, os, h, hp⟩ := Sample.reached (C := Sample.checked) (B := Sample.dbg) (user := Sample.passive) (fuel := 50)
    (ops := [.setHandler Sample.h0, .append (withPayload .basicChecksum
      ⟨2, [0, 0, 2, 9, 9, 9, 9]⟩ [flipBit 0 0, flipBit 0 0, flipBit 1 2, 9, 9, 9, 9])] ++ [.process])
    (fun w _ => decide (delivered w = [meaning Sample.checked ⟨2, [1, 1, 0, 9, 9, 9, 9]⟩])) (by decide +kernel)
  exact ⟨w, os, h, by simpa using hp⟩

/-- A burst of eight bits over two bytes of the payload. -/
example : ∃ (w : World Sample.checked) (os : List Obs),
    Reached Sample.dbg Sample.passive 50 ([.setHandler Sample.h0, .append
      ((frame .basicChecksum ⟨2, [5, 6, 7, 8, 9, 10, 11]⟩).set 3 0xF5 |>.set 4 0x09 |>.append
        (frames .basicChecksum [Sample.mPose]))] ++ [.process]) w os ∧
    delivered w = [meaning Sample.checked Sample.mPose] := by
  obtain ⟨w, os, h, hp⟩ := Sample.reached (C := Sample.checked) (B := Sample.dbg)
    (user := Sample.passive) (fuel := 50)
    (ops := [.setHandler Sample.h0, .append
      ((frame .basicChecksum ⟨2, [5, 6, 7, 8, 9, 10, 11]⟩).set 3 0xF5 |>.set 4 0x09 |>.append
        (frames .basicChecksum [Sample.mPose]))] ++ [.process])
    (fun w _ => w.rx.hasHandler) (by decide +kernel)
  have hf := C25_fed_is_chunks Sample.setting_checked Sample.passive_quiet (by simp) h
  exact ⟨w, os, h, (C98_burst_next_delivered rfl Sample.setting_checked Sample.passive_neverThrows h hp
    (m := ⟨2, [5, 6, 7, 8, 9, 10, 11]⟩) (by decide +kernel) (msb := false) (n := 8) (by decide)
    (y := ((frame .basicChecksum ⟨2, [5, 6, 7, 8, 9, 10, 11]⟩).set 3 0xF5).set 4 0x09)
    (burst_of 28 (by decide +kernel) (by decide +kernel)) (by decide +kernel) (by decide +kernel) (by decide +kernel)
    [Sample.mPose] (by decide +kernel) (by rw [hf]; decide +kernel)).1⟩

/-- Two bits: the same place, one set and the other not. -/
example : ∃ (w : World Sample.checked) (os : List Obs),
    Reached Sample.dbg Sample.passive 50 ([.setHandler Sample.h0, .append
      (withPayload .basicChecksum ⟨2, [5, 6, 7, 8, 9, 10, 11]⟩ [4, 7, 7, 8, 9, 10, 11])] ++ [.process]) w os ∧
    delivered w = [meaning Sample.checked ⟨2, [4, 7, 7, 8, 9, 10, 11]⟩] := by
  obtain ⟨w, os, h, hp⟩ := Sample.reached (C := Sample.checked) (B := Sample.dbg)
    (user := Sample.passive) (fuel := 50)
    (ops := [.setHandler Sample.h0, .append
      (withPayload .basicChecksum ⟨2, [5, 6, 7, 8, 9, 10, 11]⟩ [4, 7, 7, 8, 9, 10, 11])] ++ [.process])
    (fun w _ => w.rx.hasHandler) (by decide +kernel)
  have hf := C25_fed_is_chunks Sample.setting_checked Sample.passive_quiet (by simp) h
  exact ⟨w, os, h, (C98_two_bits rfl Sample.setting_checked Sample.passive_neverThrows h hp
    (m := ⟨2, [5, 6, 7, 8, 9, 10, 11]⟩) (by decide +kernel) (i := 0) (j := 1) (x := 5) (z := 6) (by decide) rfl rfl 0 0
    [4, 7, 7, 8, 9, 10, 11] (by decide +kernel) (by rw [hf]; decide +kernel)).2 (by decide)⟩

end TT.Properties
