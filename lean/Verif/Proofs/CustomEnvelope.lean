import Verif.Spec.CustomEnvelope
import Verif.Proofs.Process

/-!
# Helper lemmas: receivers with an envelope written by the user
-/

namespace TT
open Spec

namespace Custom
variable {C : Custom}

/-! ### Lengths -/

theorem sizeofBound_eq (C : Custom) (t : MsgType) : C.sizeofBound t = C.overhead + payloadSize t := by
  simp [Custom.sizeofBound, sizeofSeq_eq]

theorem foldl_max (C : Custom) (l : List MsgType) : ∀ n,
    l.foldl (fun n m => if n < C.sizeofBound m then C.sizeofBound m else n) n =
      max n ((l.map fun t => C.overhead + payloadSize t).foldr max 0) := by
  induction l with
  | nil => intro n; simp
  | cons m l ih =>
    intro n
    simp only [List.foldl_cons, List.map_cons, List.foldr_cons]
    rw [ih, sizeofBound_eq]
    split <;> omega

theorem capacity_eq (C : Custom) : C.recvBufferSize = customCapacity C := by
  unfold recvBufferSize maxMessageLength customCapacity messageBufferSizeScale
  rw [foldl_max]
  omega

theorem le_foldr_max {l : List Nat} {n : Nat} (h : n ∈ l) : n ≤ l.foldr max 0 := by
  induction l with
  | nil => cases h
  | cons m l ih =>
    simp only [List.foldr_cons]
    rcases List.mem_cons.mp h with rfl | h
    · omega
    · have := ih h; omega

theorem le_max {id : Byte} {n : Nat} (h : lengthAt C id = some n) : n ≤ C.maxMessageLength := by
  unfold lengthAt typeAt at h
  cases ht : C.messages[id.toNat]? with
  | none => simp [ht] at h
  | some t =>
    simp [ht] at h
    unfold maxMessageLength
    rw [foldl_max]
    have hm : C.overhead + payloadSize t ∈ C.messages.map fun t => C.overhead + payloadSize t :=
      List.mem_map.mpr ⟨t, List.mem_of_getElem? ht, rfl⟩
    have := le_foldr_max hm
    omega

theorem getMessageLength_ok (hc : C.recvBufferSize < 2 ^ 64) {id : Byte} {n : Nat}
    (h : lengthAt C id = some n) : C.getMessageLength id = .ok n := by
  have hle := le_max h
  have hm : C.maxMessageLength < 2 ^ 64 := by
    unfold recvBufferSize messageBufferSizeScale at hc; omega
  unfold lengthAt typeAt at h
  cases ht : C.messages[id.toNat]? with
  | none => simp [ht] at h
  | some t =>
    simp [ht] at h
    have hlt := (List.getElem?_eq_some_iff.mp ht).1
    unfold getMessageLength
    rw [if_neg (by simpa using hlt), applyAt_eq, ht]
    simp only
    rw [sizeofBound_eq, h, trunc_of_le hm hle]

/-! ### Programs -/

/-- What the lengths and the ids are, for a program running in a buffer of some capacity. -/
structure Agrees (C : Custom) (count : Nat) (len : Byte → Res Nat) : Prop where
  count : count = C.messages.length
  len : ∀ id n, lengthAt C id = some n → len id = .ok n

theorem typeAt_isSome {id : Byte} : (typeAt C id).isSome = decide (id.toNat < C.messages.length) := by
  unfold typeAt
  by_cases h : id.toNat < C.messages.length
  · simp [h]
  · simp [h]

theorem exec_ok {cap count : Nat} {len : Byte → Res Nat} (hc : cap < 2 ^ 64) (hl : Agrees C count len)
    (code : EnvCode) : ∀ {r : CBuf cap} {xs ys : List Byte} {cur : Option Byte} {found : Bool},
    r.buf.Holds xs → effect C code xs r.currentMessageId = some (ys, cur, found) →
    ∃ b : RB cap, (∀ B, r.exec B count len code = .ok (⟨cur, b⟩, found)) ∧ b.Holds ys := by
  induction code with
  | done f =>
    intro r xs ys cur found h he
    simp only [effect, Option.some.injEq, Prod.mk.injEq] at he
    obtain ⟨rfl, rfl, rfl⟩ := he
    exact ⟨r.buf, fun B => rfl, h⟩
  | size k ih =>
    intro r xs ys cur found h he
    simp only [effect] at he
    simp only [CBuf.exec, h.size_eq hc]
    exact ih _ h he
  | byte i k ih =>
    intro r xs ys cur found h he
    simp only [effect] at he
    split at he
    · rename_i b hb
      obtain ⟨hi, rfl⟩ := List.getElem?_eq_some_iff.mp hb
      obtain ⟨b', e, hh⟩ := ih _ h he
      exact ⟨b', fun B => by simp only [CBuf.exec, h.get_ok hc B hi, ok_bind, e], hh⟩
    · cases he
  | write i b k ih =>
    intro r xs ys cur found h he
    simp only [effect] at he
    split at he
    · rename_i hi
      obtain ⟨b1, e1, h1, -⟩ := h.set_ok hc hi b
      obtain ⟨b', e, hh⟩ := ih (r := { r with buf := b1 }) h1 he
      exact ⟨b', fun B => by simp only [CBuf.exec, e1 B, ok_bind]; exact e B, hh⟩
    · cases he
  | pop n k ih =>
    intro r xs ys cur found h he
    simp only [effect] at he
    split at he
    · rename_i hx
      cases xs with
      | nil => exact absurd rfl hx.1
      | cons x xs =>
        obtain ⟨e1, h1⟩ := h.popFront_ok hc (n := n) (by simpa using hx.2)
        obtain ⟨b', e, hh⟩ := ih (r := { r with buf := _ }) h1 he
        exact ⟨b', fun B => by simp only [CBuf.exec, e1 B, ok_bind]; exact e B, hh⟩
    · cases he
  | setId id k ih =>
    intro r xs ys cur found h he
    simp only [effect] at he
    simp only [CBuf.exec]
    refine ih (r := { r with currentMessageId := _ }) h ?_
    rw [hl.count]
    simpa [typeAt_isSome] using he
  | hasId k ih =>
    intro r xs ys cur found h he
    simp only [effect] at he
    simp only [CBuf.exec]
    exact ih _ h he
  | length k ih =>
    intro r xs ys cur found h he
    simp only [effect] at he
    split at he
    · rename_i n hn
      obtain ⟨b', e, hh⟩ := ih _ h he
      refine ⟨b', fun B => ?_, hh⟩
      cases hid : r.currentMessageId with
      | none => simp [hid] at hn
      | some id =>
        simp [hid] at hn
        have := hl.len id n hn
        simp [CBuf.exec, CBuf.getMessageLength, CBuf.getCurrentMessageId, hid, this, e]
    · cases he

theorem agrees (hc : C.recvBufferSize < 2 ^ 64) : Agrees C C.messages.length C.getMessageLength :=
  ⟨rfl, fun _ _ h => getMessageLength_ok hc h⟩

variable {scan : Scan}

theorem check_ok (hc : C.recvBufferSize < 2 ^ 64) (hi : Implements C scan) {r : C.Buf} {xs : List Byte}
    (h : r.buf.Holds xs) : ∃ r' : C.Buf, (∀ B, C.check B r = .ok (r', (scan xs).2.isSome)) ∧
      r'.buf.Holds (xs.drop (scan xs).1) ∧
      ((scan xs).2.isSome = true → r'.currentMessageId = (scan xs).2) := by
  obtain ⟨cur, he, hcur⟩ := hi xs r.currentMessageId (by rw [← capacity_eq]; exact h.length_le)
  obtain ⟨b, e, hh⟩ := exec_ok hc (agrees hc) C.code h he
  exact ⟨⟨cur, b⟩, e, hh, hcur⟩

theorem getMessageLength_cur (hc : C.recvBufferSize < 2 ^ 64) {r : C.Buf} {id : Byte} {n : Nat} (B : Build)
    (hid : r.currentMessageId = some id) (h : lengthAt C id = some n) :
    r.getMessageLength B C.getMessageLength = .ok n := by
  simp [CBuf.getMessageLength, CBuf.getCurrentMessageId, hid, getMessageLength_ok hc h]

theorem lengthAt_pos (hp : Proper C scan) {id : Byte} {n : Nat} (h : lengthAt C id = some n) : 0 < n := by
  have := hp.overhead
  unfold lengthAt at h
  cases ht : typeAt C id with
  | none => simp [ht] at h
  | some t => simp [ht] at h; omega

theorem popMessage_ok (hc : C.recvBufferSize < 2 ^ 64) (hi : Implements C scan) (hp : Proper C scan)
    {B : Build} (hs : B.debug = true → Settled scan) {r : C.Buf} {xs : List Byte} {n k : Nat} {id : Byte}
    (hx : scan xs = (n, some id)) (hk : lengthAt C id = some k) (hle : n + k ≤ xs.length)
    (h : r.buf.Holds (xs.drop n)) (hid : r.currentMessageId = some id) :
    ∃ r' : C.Buf, C.popMessage B r = .ok r' ∧ r'.buf.Holds (xs.drop (n + k)) := by
  have hpos := lengthAt_pos hp hk
  have key : ∀ r : C.Buf, r.buf.Holds (xs.drop n) → r.currentMessageId = some id →
      ∃ r' : C.Buf, (do
        let m ← r.getMessageLength B C.getMessageLength
        let (b, _) ← r.buf.popFront B m
        return ({ currentMessageId := none, buf := b } : C.Buf)) = .ok r' ∧
        r'.buf.Holds (xs.drop (n + k)) := by
    intro r h hid
    rw [getMessageLength_cur hc B hid hk]
    cases hd : xs.drop n with
    | nil =>
      have := congrArg List.length hd
      simp at this; omega
    | cons y ys =>
      rw [hd] at h
      have hl := congrArg List.length hd
      simp at hl
      obtain ⟨e1, h1⟩ := h.popFront_ok hc (n := k) (by omega)
      refine ⟨_, by simp only [ok_bind, e1 B]; rfl, ?_⟩
      rw [← hd, List.drop_drop] at h1
      exact h1
  unfold popMessage
  by_cases hb : B.debug = true
  · obtain ⟨r1, e1, h1, c1⟩ := check_ok hc hi h
    have hset := hs hb xs n id hx
    rw [hset] at e1 h1 c1
    simp only [Option.isSome_some, List.drop_zero] at e1 h1 c1
    obtain ⟨r2, e2, h2⟩ := key r1 h1 (c1 trivial)
    refine ⟨r2, ?_, h2⟩
    rw [if_pos hb, e1 B]
    simpa using e2
  · obtain ⟨r2, e2, h2⟩ := key r h hid
    refine ⟨r2, ?_, h2⟩
    rw [if_neg hb]
    exact e2

/-! ### One call of `processMessages` -/

theorem invoke_ok (hp : Proper C scan) {w : C.World} {xs : List Byte} {id : Byte}
    {t : MsgType} {h : Handler} (hb : w.recv.buf.Holds xs) (hh : w.handler = some h)
    (ht : typeAt C id = some t) (hle : C.overhead + payloadSize t ≤ xs.length) :
    w.invoke id = .ok (some (customCall C h ⟨id, (xs.drop C.dataOffset).take (payloadSize t)⟩)) := by
  have ho := hp.offset
  unfold World.invoke
  rw [hh]
  simp only
  rw [applyAt_eq]
  have ht' : C.messages[id.toNat]? = some t := ht
  rw [ht']
  simp only
  obtain ⟨pre, post, hs, hpre⟩ := hb.split
  have hcont : w.recv.buf.contents = (pre ++ xs.take C.dataOffset) ++
      (xs.drop C.dataOffset).take (payloadSize t) ++
      ((xs.drop C.dataOffset).drop (payloadSize t) ++ post) := by
    rw [hs]
    have e1 : xs = xs.take C.dataOffset ++ xs.drop C.dataOffset := (List.take_append_drop _ _).symm
    have e2 : xs.drop C.dataOffset = (xs.drop C.dataOffset).take (payloadSize t) ++
        (xs.drop C.dataOffset).drop (payloadSize t) := (List.take_append_drop _ _).symm
    generalize (xs.drop C.dataOffset).take (payloadSize t) = p1 at e2 ⊢
    generalize (xs.drop C.dataOffset).drop (payloadSize t) = p2 at e2 ⊢
    rw [e2] at e1
    generalize xs.take C.dataOffset = p0 at e1 ⊢
    rw [e1]
    simp
  have hit : w.recv.buf.begin_ + C.dataOffset = (pre ++ xs.take C.dataOffset).length := by
    simp; omega
  rw [hcont, hit, deserialize_ok t.fields _ _ _ _ (by simp [payloadSize] at *; omega)]
  simp [customCall, ht]

theorem processLoop_ok (hc : C.recvBufferSize < 2 ^ 64) (hi : Implements C scan) (hp : Proper C scan)
    {B : Build} (hs : B.debug = true → Settled scan) (fuel : Nat) :
    ∀ {w : C.World} {xs : List Byte} {h : Handler} (cnt : Byte), w.recv.buf.Holds xs →
      w.handler = some h → xs.length < fuel →
      ∃ ms rest w', Parses C scan xs ms rest ∧
        w.processLoop B fuel cnt = .ok (w', cnt + UInt8.ofNat ms.length) ∧ w'.recv.buf.Holds rest ∧
        w'.handler = w.handler ∧ w'.fed = w.fed ∧ w'.trace = w.trace ++ ms.map (customCall C h) ∧
        w'.lastMessageId = (if ms = [] then w.lastMessageId else (ms.map Msg.id).getLast?) := by
  induction fuel with
  | zero => intro w xs h cnt _ _ hlt; omega
  | succ fuel ih =>
    intro w xs h cnt hb hh hlt
    obtain ⟨r1, e1, h1, c1⟩ := check_ok hc hi hb
    unfold World.processLoop
    rw [e1 B]
    simp only [ok_bind]
    cases hx : scan xs with
    | mk n found =>
      rw [hx] at h1 c1
      cases found with
      | none =>
        refine ⟨[], xs.drop n, { w with recv := r1 }, Parses.stop hx, ?_, h1, rfl, rfl, by simp, by simp⟩
        simp
      | some id =>
        simp only [Option.isSome_some, forall_const] at c1 h1
        obtain ⟨k, hk, hle⟩ := hp.whole xs n id hx
        have hpos := lengthAt_pos hp hk
        cases ht : typeAt C id with
        | none => simp [lengthAt, ht] at hk
        | some t =>
          have hkt : C.overhead + payloadSize t = k := by simpa [lengthAt, ht] using hk
          have hinv : ({ w with recv := r1, lastMessageId := some id } : C.World).invoke id =
              .ok (some (customCall C h ⟨id, ((xs.drop n).drop C.dataOffset).take (payloadSize t)⟩)) :=
            invoke_ok hp h1 hh ht (by simp; omega)
          obtain ⟨r2, e2, h2⟩ := popMessage_ok hc hi hp hs hx hk hle h1 c1
          obtain ⟨ms, rest, w', hpar, hloop, hh', hha, hfed, htr, hlast⟩ :=
            ih (w := { w with recv := r2, lastMessageId := some id, trace := w.trace ++
              [customCall C h ⟨id, ((xs.drop n).drop C.dataOffset).take (payloadSize t)⟩] })
              (cnt + 1) h2 hh (by simp; omega)
          rw [List.drop_drop] at hinv htr hloop
          refine ⟨_, rest, w', Parses.take hx ht (by rw [hkt]; exact hpar), ?_, hh', hha, hfed, ?_, ?_⟩
          · simp only [Option.isSome_some, Bool.not_true, Bool.false_eq_true, if_false,
              CBuf.getCurrentMessageId, c1, assertMsg_true, ok_bind, hinv, e2, Option.toList]
            rw [hloop]
            congr 2
            simp only [List.length_cons]
            apply UInt8.toNat_inj.mp
            simp
            omega
          · rw [htr]; simp
          · rw [hlast]
            simp only [List.map_cons, reduceCtorEq, if_false]
            split
            · rename_i e; simp [e]
            · rename_i e
              cases ms with
              | nil => exact absurd rfl e
              | cons m ms => rfl

/-- If the second look finds nothing, the assertion in `popMessage` fails. -/
theorem processLoop_abort (hc : C.recvBufferSize < 2 ^ 64) (hi : Implements C scan) (hp : Proper C scan)
    {B : Build} (hb : B.debug = true) {w : C.World} {xs : List Byte} {h : Handler} {n : Nat} {id : Byte}
    (hx : w.recv.buf.Holds xs) (hh : w.handler = some h) (h1 : scan xs = (n, some id))
    (h2 : (scan (xs.drop n)).2 = none) (fuel : Nat) (cnt : Byte) :
    w.processLoop B (fuel + 1) cnt = .error .abort := by
  obtain ⟨r1, e1, hr1, c1⟩ := check_ok hc hi hx
  rw [h1] at e1 hr1 c1
  simp only [Option.isSome_some, forall_const] at e1 hr1 c1
  obtain ⟨k, hk, hle⟩ := hp.whole xs n id h1
  cases ht : typeAt C id with
  | none => simp [lengthAt, ht] at hk
  | some t =>
    have hkt : C.overhead + payloadSize t = k := by simpa [lengthAt, ht] using hk
    have hinv : ({ w with recv := r1, lastMessageId := some id } : C.World).invoke id =
        .ok (some (customCall C h ⟨id, ((xs.drop n).drop C.dataOffset).take (payloadSize t)⟩)) :=
      invoke_ok hp hr1 hh ht (by simp; omega)
    obtain ⟨r2, e2, _, _⟩ := check_ok hc hi hr1
    rw [h2] at e2
    unfold World.processLoop
    rw [e1 B]
    simp only [ok_bind, Bool.not_true, Bool.false_eq_true, if_false, CBuf.getCurrentMessageId, c1,
      Option.isSome_some, assertMsg_true, hinv]
    simp only [popMessage, hb, if_true, e2 B, ok_bind, Option.isSome_none, assertMsg, Bool.not_false,
      Bool.and_true]
    rfl

/-! ### Parsing -/

theorem parses_exists (hp : Proper C scan) (s : List Byte) : ∃ ms r, Parses C scan s ms r := by
  generalize hn : s.length = k
  induction k using Nat.strongRecOn generalizing s with
  | ind k ih =>
    cases hx : scan s with
    | mk n found =>
      cases found with
      | none => exact ⟨[], _, Parses.stop hx⟩
      | some id =>
        obtain ⟨l, hl, hle⟩ := hp.whole s n id hx
        have hpos := lengthAt_pos hp hl
        cases ht : typeAt C id with
        | none => simp [lengthAt, ht] at hl
        | some t =>
          have hlt : C.overhead + payloadSize t = l := by simpa [lengthAt, ht] using hl
          obtain ⟨ms, r, h⟩ := ih _ (by simp; omega) (s.drop (n + (C.overhead + payloadSize t))) rfl
          exact ⟨_, r, Parses.take hx ht h⟩

theorem parses_unique {s r r' : List Byte} {ms ms' : List Msg} (h : Parses C scan s ms r)
    (h' : Parses C scan s ms' r') : ms = ms' ∧ r = r' := by
  induction h generalizing ms' r' with
  | stop hx =>
    cases h' with
    | stop hx' => rw [hx] at hx'; cases hx'; exact ⟨rfl, rfl⟩
    | take hx' _ _ => rw [hx] at hx'; cases hx'
  | take hx ht _ ih =>
    cases h' with
    | stop hx' => rw [hx] at hx'; cases hx'
    | take hx' ht' h' =>
      rw [hx] at hx'
      cases hx'
      rw [ht] at ht'
      cases ht'
      obtain ⟨rfl, rfl⟩ := ih h'
      exact ⟨rfl, rfl⟩

/-- With more bytes, an online scan goes on from where it stopped. -/
theorem parses_append (hp : Proper C scan) (ho : Online scan) {s r : List Byte} {ms : List Msg}
    (h : Parses C scan s ms r) : ∀ {ys q : List Byte} {ns : List Msg}, Parses C scan (r ++ ys) ns q →
    Parses C scan (s ++ ys) (ms ++ ns) q := by
  induction h with
  | @stop s n hx =>
    intro ys q ns h'
    have hle := hp.within s
    rw [hx] at hle
    have hsk := ho.skipped s ys n hx
    simp only [List.nil_append]
    have hdrop : ∀ k, (s ++ ys).drop (n + k) = (s.drop n ++ ys).drop k := by
      intro k
      rw [← List.drop_drop, List.drop_append_of_le_length hle]
    cases h' with
    | @stop _ m hx' =>
      rw [hx'] at hsk
      rw [← hdrop]
      exact Parses.stop hsk
    | @take _ _ m id t _ hx' ht h' =>
      rw [hx'] at hsk
      rw [← hdrop] at h' ⊢
      rw [← Nat.add_assoc] at h' ⊢
      exact Parses.take hsk ht h'
  | @take s r n id t ms hx ht _ ih =>
    intro ys q ns h'
    obtain ⟨l, hl, hle⟩ := hp.whole s n id hx
    have hlt : C.overhead + payloadSize t = l := by simpa [lengthAt, ht] using hl
    have hof := hp.offset
    have h2 := ih h'
    rw [← List.drop_append_of_le_length (by omega)] at h2
    have h3 := Parses.take (ho.found s ys n id hx) ht h2
    rw [List.drop_append_of_le_length (by omega), List.take_append_of_le_length (by simp; omega)] at h3
    exact h3

/-! ### Histories -/

/-- The buffer holds what `buffered` says. -/
theorem buffered_eq {w : C.World} {xs : List Byte} (h : w.recv.buf.Holds xs) : w.buffered = xs := by
  obtain ⟨pre, post, hs, hp⟩ := h.split
  have := h.pe
  unfold World.buffered
  rw [this, hs, ← hp]
  simp

theorem space_eq (hc : C.recvBufferSize < 2 ^ 64) {w : C.World} {xs : List Byte}
    (h : w.recv.buf.Holds xs) : w.space = C.recvBufferSize - xs.length := by
  have := h.length_le
  unfold World.space RB.maxSize
  rw [h.size_eq hc, subT_of_le hc (Nat.le_refl _) this]

/-- One legal call: it succeeds, and does what it says. -/
theorem step_ok {B : Build} (ha : Arith B C.recvBufferSize) (hi : Implements C scan) (hp : Proper C scan)
    (hs : B.debug = true → Settled scan) {fuel : Nat} (hf : C.recvBufferSize < fuel) {w : C.World}
    {xs : List Byte} (h : w.recv.buf.Holds xs) (op : COp)
    (hl : match op with
      | .append ys => ys.length ≤ w.space
      | _ => True) :
    ∃ w' o, w.step B fuel op = .ok (w', o) ∧
      match op with
      | .append ys => w'.recv.buf.Holds (xs ++ ys) ∧ w'.fed = w.fed ++ ys ∧ w'.trace = w.trace ∧
          w'.handler = w.handler ∧ w'.lastMessageId = w.lastMessageId ∧ o = none
      | .setHandler h => w'.recv.buf.Holds xs ∧ w'.fed = w.fed ∧ w'.trace = w.trace ∧
          w'.handler = some h ∧ w'.lastMessageId = w.lastMessageId ∧ o = none
      | .clearHandler => w'.recv.buf.Holds xs ∧ w'.fed = w.fed ∧ w'.trace = w.trace ∧
          w'.handler = none ∧ w'.lastMessageId = w.lastMessageId ∧ o = none
      | .process => w'.fed = w.fed ∧ w'.handler = w.handler ∧
          match w.handler with
          | none => w'.recv.buf.Holds xs ∧ w'.trace = w.trace ∧
              w'.lastMessageId = w.lastMessageId ∧ o = some 0
          | some h => ∃ ms r, Parses C scan xs ms r ∧ w'.recv.buf.Holds r ∧
              w'.trace = w.trace ++ ms.map (customCall C h) ∧
              w'.lastMessageId = (if ms = [] then w.lastMessageId else (ms.map Msg.id).getLast?) ∧
              o = some (UInt8.ofNat ms.length) := by
  have hc := ha.lt64
  cases op with
  | append ys =>
    simp only at hl
    rw [space_eq hc h] at hl
    have := h.length_le
    obtain ⟨b, e, hh⟩ := h.pushBackRange_ok hc (ys := ys) (by omega)
    exact ⟨{ w with recv := { w.recv with buf := b }, fed := w.fed ++ ys }, none,
      by simp only [World.step, e B ha, ok_bind]; rfl, hh, rfl, rfl, rfl, rfl, rfl⟩
  | process =>
    cases hh : w.handler with
    | none =>
      refine ⟨w, some 0, ?_, rfl, hh, h, rfl, rfl, rfl⟩
      simp [World.step, World.processMessages, hh]
    | some hd =>
      have := h.length_le
      obtain ⟨ms, r, w', hpar, e, hb, hha, hfed, htr, hlast⟩ :=
        processLoop_ok hc hi hp hs fuel (h := hd) 0 h hh (by omega)
      refine ⟨w', some (UInt8.ofNat ms.length), ?_, hfed, by rw [hha, hh], ms, r, hpar, hb, htr, hlast, rfl⟩
      simp [World.step, World.processMessages, hh, e]
  | setHandler hd => exact ⟨_, none, rfl, h, rfl, rfl, rfl, rfl, rfl⟩
  | clearHandler => exact ⟨_, none, rfl, h, rfl, rfl, rfl, rfl, rfl⟩

theorem holds_new (C : Custom) : (World.new C).recv.buf.Holds [] := RB.holds_new _

/-- Legal histories succeed and leave a valid buffer. -/
theorem run_ok {B : Build} (ha : Arith B C.recvBufferSize) (hi : Implements C scan) (hp : Proper C scan)
    (hs : B.debug = true → Settled scan) {fuel : Nat} (hf : C.recvBufferSize < fuel) (ops : List COp) :
    ∀ {w : C.World} {xs : List Byte}, w.recv.buf.Holds xs → w.Legal B fuel ops →
    ∃ w' os ys, w.run B fuel ops = .ok (w', os) ∧ w'.recv.buf.Holds ys := by
  induction ops with
  | nil => intro w xs h _; exact ⟨w, [], xs, rfl, h⟩
  | cons op ops ih =>
    intro w xs h hl
    obtain ⟨w1, o, e, hst⟩ := step_ok ha hi hp hs hf h op (by
      have := hl.1
      cases op <;> simp_all)
    have hh : ∃ zs, w1.recv.buf.Holds zs := by
      cases op with
      | append ys => exact ⟨_, hst.1⟩
      | setHandler hd => exact ⟨_, hst.1⟩
      | clearHandler => exact ⟨_, hst.1⟩
      | process =>
        cases hw : w.handler with
        | none => simp only [hw] at hst; exact ⟨_, hst.2.2.1⟩
        | some hd =>
          simp only [hw] at hst
          obtain ⟨_, _, _, r, _, hb, _⟩ := hst
          exact ⟨r, hb⟩
    obtain ⟨zs, hh⟩ := hh
    obtain ⟨w', os, ys, e', hb⟩ := ih hh (hl.2 w1 o e)
    exact ⟨w', o :: os, ys, by simp [World.run, e, e'], hb⟩

/-- What has been delivered so far, and that the rest of the stream is decoded from what is buffered. -/
structure Tracks (scan : Scan) (w : C.World) (xs : List Byte) (ms : List Msg) : Prop where
  holds : w.recv.buf.Holds xs
  calls : w.trace.map (fun i => (i.msg, i.args)) = ms.map (customMeaning C)
  rest : ∀ {ys q : List Byte} {ns : List Msg}, Parses C scan (xs ++ ys) ns q →
    Parses C scan (w.fed ++ ys) (ms ++ ns) q

theorem run_tracks {B : Build} (ha : Arith B C.recvBufferSize) (hi : Implements C scan)
    (hp : Proper C scan) (ho : Online scan) (hs : B.debug = true → Settled scan) {fuel : Nat}
    (hf : C.recvBufferSize < fuel) (ops : List COp) :
    ∀ {w w' : C.World} {os : List (Option Byte)} {xs : List Byte} {ms : List Msg}, Tracks scan w xs ms →
    w.Legal B fuel ops → w.run B fuel ops = .ok (w', os) → ∃ ys ns, Tracks scan w' ys ns := by
  induction ops with
  | nil =>
    intro w w' os xs ms h _ hr
    simp [World.run] at hr
    exact ⟨xs, ms, hr.1 ▸ h⟩
  | cons op ops ih =>
    intro w w' os xs ms h hl hr
    obtain ⟨w1, o, e, hst⟩ := step_ok ha hi hp hs hf h.holds op (by
      have := hl.1
      cases op <;> simp_all)
    have hh : ∃ ys ns, Tracks scan w1 ys ns := by
      cases op with
      | append ys =>
        obtain ⟨hb, hfed, htr, _⟩ := hst
        refine ⟨xs ++ ys, ms, hb, by rw [htr, h.calls], fun {zs q ns} hpar => ?_⟩
        rw [hfed, List.append_assoc]
        rw [List.append_assoc] at hpar
        exact h.rest hpar
      | setHandler hd =>
        obtain ⟨hb, hfed, htr, _⟩ := hst
        exact ⟨xs, ms, hb, by rw [htr, h.calls], fun hpar => by rw [hfed]; exact h.rest hpar⟩
      | clearHandler =>
        obtain ⟨hb, hfed, htr, _⟩ := hst
        exact ⟨xs, ms, hb, by rw [htr, h.calls], fun hpar => by rw [hfed]; exact h.rest hpar⟩
      | process =>
        cases hw : w.handler with
        | none =>
          simp only [hw] at hst
          obtain ⟨hfed, _, hb, htr, _⟩ := hst
          exact ⟨xs, ms, hb, by rw [htr, h.calls], fun hpar => by rw [hfed]; exact h.rest hpar⟩
        | some hd =>
          simp only [hw] at hst
          obtain ⟨hfed, _, ns, r, hpar, hb, htr, _⟩ := hst
          refine ⟨r, ms ++ ns, hb, ?_, fun {zs q ks} hpar' => ?_⟩
          · rw [htr, List.map_append, h.calls, List.map_append, List.map_map]
            congr 1
          · rw [hfed, List.append_assoc]
            exact h.rest (parses_append hp ho hpar hpar')
    obtain ⟨ys, ns, hh⟩ := hh
    rw [World.run] at hr
    simp only [e, ok_bind] at hr
    cases hr2 : w1.run B fuel ops with
    | error f => simp [hr2] at hr
    | ok y =>
      simp [hr2] at hr
      exact ih hh (hl.2 w1 o e) (hr2.trans (by rw [← hr.1]))

theorem tracks_new (C : Custom) (scan : Scan) : Tracks scan (World.new C) [] [] :=
  ⟨holds_new C, rfl, fun h => h⟩

end Custom
end TT
