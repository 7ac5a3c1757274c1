import Verif.Proofs.Check

/-!
# Helper lemmas: `checkBufferForMessage` refines the scan of the specification (continued)
-/

namespace TT
open Spec

variable {C : Collection}

theorem ERB.Holds.size_eq {e : ERB C} {xs : List Byte} (hc : recvBufferSize C < 2 ^ 64)
    (h : e.Holds xs) : e.bufferSize = xs.length := RB.Holds.size_eq hc h

theorem ERB.Holds.empty_eq {e : ERB C} {xs : List Byte} (h : e.Holds xs) :
    e.bufferEmpty = xs.isEmpty := RB.Holds.empty_eq h

/-- `e'` differs from `e` at most by having dropped elements at the front (and in the cached id). -/
def ERB.Popped (e e' : ERB C) : Prop :=
  e'.buf.contents = e.buf.contents ∧ e'.buf.pastEnd = e.buf.pastEnd

theorem ERB.Popped.refl (e : ERB C) : e.Popped e := ⟨rfl, rfl⟩

theorem ERB.Popped.trans {e e' e'' : ERB C} (h : e.Popped e') (h' : e'.Popped e'') :
    e.Popped e'' := ⟨h'.1.trans h.1, h'.2.trans h.2⟩

theorem ERB.Popped.buf_eq {e e' : ERB C} {xs : List Byte} (h : e.Popped e') (h1 : e.Holds xs)
    (h2 : e'.Holds xs) : e'.buf = e.buf := by
  obtain ⟨ha, hb⟩ := h
  have p1 := h1.pe
  have p2 := h2.pe
  have hc : e'.buf.begin_ = e.buf.begin_ := by omega
  cases hx : e'.buf with | mk a b c =>
  cases hy : e.buf with | mk a' b' c' =>
  rw [hx, hy] at ha hb hc
  simp_all

theorem ERB.Holds.pop_ok {e : ERB C} {x : Byte} {xs : List Byte}
    (hc : recvBufferSize C < 2 ^ 64) (h : e.Holds (x :: xs)) {n : Nat} (hn : n ≤ xs.length + 1) :
    ∃ e' : ERB C, (∀ B, e.bufferPopFront B n = .ok e') ∧ e'.Holds ((x :: xs).drop n) ∧
      e'.currentMessageId = e.currentMessageId ∧ e.Popped e' := by
  obtain ⟨e1, h1⟩ := RB.Holds.popFront_ok hc h hn
  exact ⟨{ e with buf := { e.buf with begin_ := e.buf.begin_ + n } },
    fun B => by simp only [ERB.bufferPopFront, e1, ok_bind, pure_eq_ok], h1, rfl, rfl, rfl⟩

/-! ### Skipping to the start code -/

theorem not_starts_of_ne {b : Byte} {s : List Byte} (h : b ≠ 0x01) : ¬ Starts C (b :: s) := by
  rintro ⟨m, t, _, e⟩
  obtain ⟨rest, hr⟩ := frame_cons C.envelope m
  rw [hr] at e
  simp at e
  exact h e.1

theorem not_waiting_of_ne {b : Byte} {s : List Byte} (h : b ≠ 0x01) : ¬ Waiting C (b :: s) := by
  rintro (e | ⟨_, _, e⟩ | ⟨_, _, _, _, e, _⟩) <;> simp at e <;> exact h e.1

theorem run_dropWhile (xs : List Byte) : Run C xs [] (xs.dropWhile (· != 0x01)) := by
  induction xs with
  | nil => exact Run.refl _
  | cons x xs ih =>
    by_cases h : x = 0x01
    · subst h; exact Run.refl _
    · rw [List.dropWhile_cons_of_pos (by simpa using h)]
      exact Run.skip (not_starts_of_ne h) (not_waiting_of_ne h) ih

theorem skip_ok (hc : recvBufferSize C < 2 ^ 64) (xs : List Byte) : ∀ e : ERB C, e.Holds xs →
    ∃ e' : ERB C, (∀ B fuel, xs.length < fuel → skipToSOH B fuel e = .ok e') ∧
      e'.Holds (xs.dropWhile (· != 0x01)) ∧ e'.currentMessageId = e.currentMessageId ∧
      e.Popped e' := by
  induction xs with
  | nil =>
    intro e h
    refine ⟨e, fun B fuel hf => ?_, h, rfl, rfl, rfl⟩
    cases fuel with
    | zero => simp at hf
    | succ fuel => simp [skipToSOH, h.empty_eq]
  | cons x xs ih =>
    intro e h
    by_cases hx : x = 0x01
    · refine ⟨e, fun B fuel hf => ?_, by simpa [hx] using h, rfl, rfl, rfl⟩
      cases fuel with
      | zero => simp at hf
      | succ fuel =>
        simp [skipToSOH, h.empty_eq, ERB.bufferFront, RB.Holds.front_ok hc h, hx, SOH]
    · obtain ⟨e1, h1, hh1, hi1, hp1⟩ := h.pop_ok hc (n := 1) (by omega)
      obtain ⟨e2, h2, hh2, hi2, hp2⟩ := ih e1 (by simpa using hh1)
      refine ⟨e2, fun B fuel hf => ?_, ?_, hi2.trans hi1, hp1.trans hp2⟩
      · cases fuel with
        | zero => simp at hf
        | succ fuel =>
          have hx' : x ≠ SOH := hx
          simp [skipToSOH, h.empty_eq, ERB.bufferFront, RB.Holds.front_ok hc h, hx', h1]
          exact h2 B fuel (by simpa using hf)
      · rw [List.dropWhile_cons_of_pos (by simpa using hx)]
        exact hh2

/-! ### The trailer -/

theorem buffer_ok {e : ERB C} {xs : List Byte} (hc : recvBufferSize C < 2 ^ 64) (h : e.Holds xs)
    {n k : Nat} (hn : n ≤ xs.length) (hk : 0 < k) (hkn : k ≤ n) (B : Build) :
    e.buffer B (subT (recvBufferSize C) n k) = .ok (xs[n - k]'(by omega)) := by
  have := RB.Holds.length_le h
  unfold ERB.buffer
  rw [subT_of_le hc (by omega) hkn, RB.Holds.get_ok hc h B]

theorem checksumLoop_ok {e : ERB C} {xs : List Byte} (hc : recvBufferSize C < 2 ^ 64)
    (h : e.Holds xs) (B : Build) (k : Nat) : ∀ (i : Nat) (ck : Byte), i + k ≤ xs.length →
    checksumLoop B e ck i k = .ok (ck + byteSum ((xs.drop i).take k)) := by
  induction k with
  | zero => intro i ck _; simp [checksumLoop, byteSum]
  | succ k ih =>
    intro i ck hle
    have hi : i < xs.length := by omega
    simp only [checksumLoop, ERB.buffer, RB.Holds.get_ok hc h B hi, ok_bind, checksumComputer]
    rw [ih _ _ (by omega), List.drop_eq_getElem_cons hi, List.take_succ_cons]
    simp [byteSum, UInt8.add_assoc]

theorem starts_iff_basic (hE : C.envelope = .basic) {id : Byte} {rest : List Byte} {n : Nat}
    (ha : announced C id = some n) (hn : n ≤ rest.length + 3) :
    Starts C (0x01 :: id :: 0x02 :: rest) ↔
      (0x01 :: id :: 0x02 :: rest)[n - 2]? = some 0x03 ∧
      (0x01 :: id :: 0x02 :: rest)[n - 1]? = some 0x04 := by
  constructor
  · rintro ⟨m, t, hm, e⟩
    have hid : m.id = id := by
      obtain ⟨r, hr⟩ := frame_cons C.envelope m
      rw [hr] at e
      simp at e
      exact e.1.symm
    have hl := hm.announced
    rw [hid, ha] at hl
    simp only [Option.some.injEq] at hl
    rw [frame_length, hE] at hl
    simp only [overhead] at hl
    rw [e, hE]
    have e1 : n - 2 = m.payload.length + 3 := by omega
    have e2 : n - 1 = m.payload.length + 4 := by omega
    simp [frame, e1, e2]
  · rintro ⟨h1, h2⟩
    have hge := announced_ge ha
    rw [hE] at hge
    simp only [overhead] at hge
    obtain ⟨k, rfl⟩ : ∃ k, n = k + 5 := ⟨n - 5, by omega⟩
    have g1 : rest[k]? = some 0x03 := by simpa using h1
    have g2 : rest[k + 1]? = some 0x04 := by simpa using h2
    obtain ⟨l1, g1⟩ := List.getElem?_eq_some_iff.mp g1
    obtain ⟨l2, g2⟩ := List.getElem?_eq_some_iff.mp g2
    refine ⟨⟨id, rest.take k⟩, rest.drop (k + 2), ?_, ?_⟩
    · unfold announced at ha
      cases ht : typeOf C id with
      | none => simp [ht] at ha
      | some t =>
        simp [ht, hE, overhead] at ha
        exact ⟨t, ht, by simp; omega⟩
    · rw [hE]
      simp only [frame, List.cons_append, List.nil_append, List.cons.injEq, true_and,
        List.append_assoc]
      conv => lhs; rw [← List.take_append_drop (k + 2) rest]
      rw [List.take_succ_eq_append_getElem l2, List.take_succ_eq_append_getElem l1, g1, g2]
      simp

theorem starts_iff_checksum (hE : C.envelope = .basicChecksum) {id : Byte} {rest : List Byte}
    {n : Nat} (ha : announced C id = some n) (hn : n ≤ rest.length + 3) :
    Starts C (0x01 :: id :: 0x02 :: rest) ↔
      (0x01 :: id :: 0x02 :: rest)[n - 3]? = some 0x03 ∧
      (0x01 :: id :: 0x02 :: rest)[n - 1]? = some 0x04 ∧
      (0x01 :: id :: 0x02 :: rest)[n - 2]? =
        some (byteSum ((0x01 :: id :: 0x02 :: rest).take (n - 2))) := by
  constructor
  · rintro ⟨m, t, hm, e⟩
    have hid : m.id = id := by
      obtain ⟨r, hr⟩ := frame_cons C.envelope m
      rw [hr] at e
      simp at e
      exact e.1.symm
    have hl := hm.announced
    rw [hid, ha] at hl
    simp only [Option.some.injEq] at hl
    rw [frame_length, hE] at hl
    simp only [overhead] at hl
    rw [e, hE]
    have e1 : n - 3 = m.payload.length + 3 := by omega
    have e2 : n - 2 = m.payload.length + 4 := by omega
    have e3 : n - 1 = m.payload.length + 5 := by omega
    rw [e1, e2, e3]
    refine ⟨by simp [frame], by simp [frame], ?_⟩
    have ht : (frame .basicChecksum m ++ t).take (m.payload.length + 4) =
        [0x01, m.id, 0x02] ++ m.payload ++ [0x03] := by
      unfold frame
      rw [List.append_assoc]
      apply List.take_left'
      simp
    rw [ht]
    simp [frame]
  · rintro ⟨h1, h2, h3⟩
    have hge := announced_ge ha
    rw [hE] at hge
    simp only [overhead] at hge
    obtain ⟨k, rfl⟩ : ∃ k, n = k + 6 := ⟨n - 6, by omega⟩
    have g1 : rest[k]? = some 0x03 := by simpa using h1
    have g2 : rest[k + 2]? = some 0x04 := by simpa using h2
    obtain ⟨l1, g1⟩ := List.getElem?_eq_some_iff.mp g1
    obtain ⟨l2, g2⟩ := List.getElem?_eq_some_iff.mp g2
    have g3 : rest[k + 1]'(by omega) =
        byteSum ([0x01, id, 0x02] ++ rest.take k ++ [0x03]) := by
      have e4 : (0x01 :: id :: 0x02 :: rest).take (k + 6 - 2) =
          [0x01, id, 0x02] ++ rest.take k ++ [0x03] := by
        rw [show k + 6 - 2 = (k + 1) + 3 by omega, List.take_succ_cons, List.take_succ_cons,
          List.take_succ_cons, List.take_succ_eq_append_getElem l1, g1]
        simp
      rw [e4] at h3
      have h3 : rest[k + 1]? = some (byteSum ([0x01, id, 0x02] ++ rest.take k ++ [0x03])) := h3
      rw [List.getElem?_eq_getElem (by omega)] at h3
      simpa using h3
    refine ⟨⟨id, rest.take k⟩, rest.drop (k + 3), ?_, ?_⟩
    · unfold announced at ha
      cases ht : typeOf C id with
      | none => simp [ht] at ha
      | some t =>
        simp [ht, hE, overhead] at ha
        exact ⟨t, ht, by simp; omega⟩
    · rw [hE]
      simp only [frame]
      rw [← g3]
      simp only [List.cons_append, List.nil_append, List.cons.injEq, true_and,
        List.append_assoc]
      conv => lhs; rw [← List.take_append_drop (k + 3) rest]
      rw [List.take_succ_eq_append_getElem l2, List.take_succ_eq_append_getElem (by omega),
        List.take_succ_eq_append_getElem l1, g1, g2]
      simp

theorem trailer_ok {e : ERB C} {id : Byte} {rest : List Byte} {n : Nat}
    (hc : recvBufferSize C < 2 ^ 64) (h : e.Holds (0x01 :: id :: 0x02 :: rest))
    (ha : announced C id = some n) (hn : n ≤ rest.length + 3) :
    ∃ g, (∀ B, trailerOk B e n = .ok g) ∧ (g = true ↔ Starts C (0x01 :: id :: 0x02 :: rest)) := by
  have hge := announced_ge ha
  cases hE : C.envelope with
  | basic =>
    rw [starts_iff_basic hE ha hn]
    generalize hxs : (0x01 :: id :: 0x02 :: rest) = xs at *
    have hl : n ≤ xs.length := by simp [← hxs]; omega
    rw [hE] at hge
    simp only [overhead] at hge
    rw [List.getElem?_eq_getElem (by omega), List.getElem?_eq_getElem (by omega)]
    refine ⟨decide (xs[n - 2]'(by omega) = 0x03 ∧ xs[n - 1]'(by omega) = 0x04), fun B => ?_, by simp⟩
    unfold trailerOk
    simp only [hE]
    rw [buffer_ok hc h hl (by omega) (by omega), buffer_ok hc h hl (by omega) (by omega)]
    by_cases h3 : xs[n - 2]'(by omega) = 0x03
    · simp [h3, ETX, EOT]; rfl
    · simp [h3, ETX]
  | basicChecksum =>
    rw [starts_iff_checksum hE ha hn]
    generalize hxs : (0x01 :: id :: 0x02 :: rest) = xs at *
    have hl : n ≤ xs.length := by simp [← hxs]; omega
    rw [hE] at hge
    simp only [overhead] at hge
    rw [List.getElem?_eq_getElem (by omega), List.getElem?_eq_getElem (by omega),
      List.getElem?_eq_getElem (by omega)]
    refine ⟨decide (xs[n - 3]'(by omega) = 0x03 ∧ xs[n - 1]'(by omega) = 0x04 ∧
      xs[n - 2]'(by omega) = byteSum (xs.take (n - 2))), fun B => ?_, by simp⟩
    unfold trailerOk
    simp only [hE]
    rw [buffer_ok hc h hl (by omega) (by omega), buffer_ok hc h hl (by omega) (by omega),
      buffer_ok hc h hl (by omega) (by omega), checksumLoop_ok hc h B _ _ _ (by omega)]
    by_cases h3 : xs[n - 3]'(by omega) = 0x03
    · by_cases h1 : xs[n - 1]'(by omega) = 0x04
      · simp [h3, h1, ETX, EOT, checksumInit, eq_comm]
      · simp [h3, h1, ETX, EOT]
    · simp [h3, ETX]

/-! ### The whole check -/

theorem Spec.Run.count_le {s r : List Byte} {ms : List Msg} (h : Run C s ms r) (a : Byte) :
    r.count a ≤ s.count a := by
  induction h with
  | refl => omega
  | take _ _ ih => rw [List.count_append]; omega
  | skip _ _ _ ih => rw [List.count_cons]; omega

theorem count_dropWhile (xs : List Byte) :
    (xs.dropWhile (· != 0x01)).count 0x01 = xs.count 0x01 := by
  induction xs with
  | nil => rfl
  | cons x xs ih =>
    by_cases hx : x = 0x01
    · simp [hx]
    · rw [List.dropWhile_cons_of_pos (by simpa using hx), ih, List.count_cons_of_ne hx]

theorem retry_ok (hc : recvBufferSize C < 2 ^ 64) {e : ERB C} {b : Byte} {zs : List Byte}
    (h : e.Holds (b :: zs)) : ∃ e' : ERB C, e'.Holds zs ∧ e.Popped e' ∧
      ∀ B (f : ERB C → Res (ERB C × Bool)), popAndRetry B f e = f e' := by
  obtain ⟨e1, h1, hh1, _, hp1⟩ := h.pop_ok hc (n := 1) (by omega)
  refine ⟨e1, by simpa using hh1, hp1, fun B f => ?_⟩
  simp [popAndRetry, h.empty_eq, h1]

theorem getMessageLength_ok (hc : recvBufferSize C < 2 ^ 64) {e : ERB C} {id : Byte} {n : Nat}
    (hid : e.currentMessageId = some id) (ha : announced C id = some n) (B : Build) :
    e.getMessageLength B = .ok n := by
  unfold ERB.getMessageLength ERB.getCurrentMessageId
  simp [ERB.isCurrentMessageIdValid, hid, getMessageLength_eq (maxMessageLength_lt hc) ha]

/-- `checkBufferForMessage` scans to the first message, or to the point where it must wait.
The build does not influence the result; the recursion budget suffices exactly when it exceeds the
number of start codes scanned past. -/
theorem checkG_spec (hc : recvBufferSize C < 2 ^ 64) (k : Nat) : ∀ (xs : List Byte) (e : ERB C),
    xs.length ≤ k → e.Holds xs →
    ∃ (e' : ERB C) (found : Bool) (ys : List Byte),
      (∀ B d, checkG B d e =
        if xs.count 0x01 < d + ys.count 0x01 then .ok (e', found) else .error .diverge) ∧ e'.Holds ys ∧ Run C xs [] ys ∧ e.Popped e' ∧
      (found = true → ∃ m t, IsMsg C m ∧ ys = frame C.envelope m ++ t ∧
        e'.currentMessageId = some m.id) ∧
      (found = false → Final C ys) := by
  induction k with
  | zero =>
    intro xs e hk h
    have : xs = [] := List.length_eq_zero_iff.mp (by omega)
    subst this
    obtain ⟨e1, h1, hh1, _, hp1⟩ := skip_ok hc [] e h
    refine ⟨e1, false, [], fun B d => ?_, hh1, Run.refl _, hp1, by simp, fun _ => Or.inl rfl⟩
    cases d with
    | zero => rfl
    | succ d =>
      unfold checkG
      rw [h1 B _ (by simp)]
      simp [hh1.size_eq hc]
  | succ k ih =>
    intro xs e hk h
    obtain ⟨e1, h1, hh1, _, hp1⟩ := skip_ok hc xs e h
    have hrun := run_dropWhile (C := C) xs
    have hlen := hrun.length_le
    have hcnt := count_dropWhile xs
    have hhead : ∀ b bs, xs.dropWhile (· != 0x01) = b :: bs → b = 0x01 := by
      intro b bs e
      have := List.head?_dropWhile_not (fun b : Byte => b != 0x01) xs
      rw [e] at this
      simpa using this
    generalize xs.dropWhile (· != 0x01) = ys at *
    -- the body from the point after the skip loop
    have start : ∀ B d', checkG B (d' + 1) e = (do
          if e1.bufferSize < 2 then return (e1, false)
          let idByte ← e1.buffer B 1
          let r := e1.setCurrentMessageId idByte
          if !r.isCurrentMessageIdValid then popAndRetry B (checkG B d') r
          else if r.bufferSize < 3 then return (r, false)
          else
            let c2 ← r.buffer B 2
            if c2 ≠ STX then popAndRetry B (checkG B d') r
            else
              let msgLength ← r.getMessageLength B
              if r.bufferSize < msgLength then return (r, false)
              else
                let good ← trailerOk B r msgLength
                if good then return (r, true)
                else popAndRetry B (checkG B d') r) := by
      intro B d'
      conv => lhs; unfold checkG
      rw [h1 B _ (by rw [h.size_eq hc]; omega)]
      rfl
    -- nothing given up: one level is enough
    have stop : ∀ {r : ERB C} {found : Bool}, (∀ B d', checkG B (d' + 1) e = .ok (r, found)) →
        ∀ B d, checkG B d e =
          if xs.count 0x01 < d + ys.count 0x01 then .ok (r, found) else .error .diverge := by
      intro r found heq B d
      cases d with
      | zero => rw [if_neg (by omega)]; rfl
      | succ d => rw [if_pos (by omega), heq]
    -- retrying after popping the start code
    have retry : ∀ (zs : List Byte) (r : ERB C), ys = 0x01 :: zs → r.Holds (0x01 :: zs) → e1.Popped r →
        ¬ Starts C (0x01 :: zs) → ¬ Waiting C (0x01 :: zs) →
        (∀ B d', checkG B (d' + 1) e = popAndRetry B (checkG B d') r) →
        ∃ (e' : ERB C) (found : Bool) (ys : List Byte),
          (∀ B d, checkG B d e =
        if xs.count 0x01 < d + ys.count 0x01 then .ok (e', found) else .error .diverge) ∧ e'.Holds ys ∧
          Run C xs [] ys ∧ e.Popped e' ∧
          (found = true → ∃ m t, IsMsg C m ∧ ys = frame C.envelope m ++ t ∧
            e'.currentMessageId = some m.id) ∧
          (found = false → Final C ys) := by
      intro zs r hys hr hpr hns hnw heq
      rw [hys] at hrun hlen hcnt
      simp only [List.length_cons, List.count_cons_self] at hlen hcnt
      obtain ⟨e2, hh2, hp2, h2⟩ := retry_ok hc hr
      obtain ⟨e3, found, ws, h3, hh3, hr3, hp3, ht3, hf3⟩ := ih zs e2 (by omega) hh2
      have hle := hr3.count_le 0x01
      refine ⟨e3, found, ws, fun B d => ?_, hh3, ?_,
        ((hp1.trans hpr).trans hp2).trans hp3, ht3, hf3⟩
      · cases d with
        | zero => rw [if_neg (by omega)]; rfl
        | succ d =>
          rw [heq, h2 B, h3 B d]
          split <;> split <;> first | rfl | omega
      · exact hrun.trans (Run.skip hns hnw hr3)
    cases ys with
    | nil =>
      refine ⟨e1, false, [], stop fun B d' => ?_, hh1, hrun, hp1, by simp, fun _ => Or.inl rfl⟩
      rw [start]
      simp [hh1.size_eq hc]
    | cons b ys =>
      obtain rfl := hhead b ys rfl
      cases ys with
      | nil =>
        refine ⟨e1, false, [0x01], stop fun B d' => ?_, hh1, hrun, hp1, by simp,
          fun _ => Or.inr (Or.inl rfl)⟩
        rw [start]
        simp [hh1.size_eq hc]
      | cons id ys =>
        have hsz : ¬ e1.bufferSize < 2 := by rw [hh1.size_eq hc]; simp
        have hid : ∀ B, e1.buffer B 1 = .ok id := fun B =>
          RB.Holds.get_ok hc hh1 B (i := 1) (by simp)
        have hh2 : (e1.setCurrentMessageId id).Holds (0x01 :: id :: ys) := by
          unfold ERB.setCurrentMessageId
          split <;> exact hh1
        have hpr : e1.Popped (e1.setCurrentMessageId id) := by
          unfold ERB.setCurrentMessageId
          split <;> exact ⟨rfl, rfl⟩
        cases ht : typeOf C id with
        | none =>
          have hv : isIdValid C id = false := by
            cases hv : isIdValid C id with
            | false => rfl
            | true => exact absurd ht ((isIdValid_iff C id).mp hv)
          have hval : (e1.setCurrentMessageId id).isCurrentMessageIdValid = false := by
            simp [ERB.setCurrentMessageId, hv, ERB.isCurrentMessageIdValid]
          refine retry (id :: ys) _ rfl hh2 hpr ?_ ?_ ?_
          · rintro ⟨m, t, ⟨ty, hty, _⟩, e⟩
            obtain ⟨rest, hr⟩ := frame_cons C.envelope m
            rw [hr] at e
            simp at e
            rw [← e.1, ht] at hty
            simp at hty
          · rintro (e | ⟨i, hi, e⟩ | ⟨i, rest, n, hn, e, _⟩)
            · simp at e
            · simp at e
              rw [← e.1] at hi
              exact hi ht
            · simp at e
              rw [← e.1] at hn
              simp [announced, ht] at hn
          · intro B d'
            rw [start]
            simp [hsz, hid, hval]
        | some ty =>
          have hv : isIdValid C id = true := (isIdValid_iff C id).mpr (by simp [ht])
          have hset : e1.setCurrentMessageId id = { e1 with currentMessageId := some id } := by
            simp [ERB.setCurrentMessageId, hv]
          have hval : (e1.setCurrentMessageId id).isCurrentMessageIdValid = true := by
            simp [hset, ERB.isCurrentMessageIdValid]
          have hcur : (e1.setCurrentMessageId id).currentMessageId = some id := by simp [hset]
          have ha : announced C id = some (overhead C.envelope + payloadSize ty) := by
            simp [announced, ht]
          generalize overhead C.envelope + payloadSize ty = n at ha
          generalize hre : e1.setCurrentMessageId id = r at *
          cases ys with
          | nil =>
            refine ⟨r, false, [0x01, id], stop fun B d' => ?_, hh2, hrun, hp1.trans hpr, by simp,
              fun _ => Or.inr (Or.inr (Or.inl ⟨id, by simp [ht], rfl⟩))⟩
            rw [start]
            have : r.bufferSize < 3 := by rw [hh2.size_eq hc]; simp
            simp [hsz, hid, hre, hval, this]
          | cons c ys =>
            have hsz3 : ¬ r.bufferSize < 3 := by rw [hh2.size_eq hc]; simp
            have hc2 : ∀ B, r.buffer B 2 = .ok c := fun B =>
              RB.Holds.get_ok hc hh2 B (i := 2) (by simp)
            by_cases hstx : c = 0x02
            · subst hstx
              have hml := getMessageLength_ok hc hcur ha
              by_cases hlt : ys.length + 3 < n
              · refine ⟨r, false, 0x01 :: id :: 0x02 :: ys, stop fun B d' => ?_, hh2, hrun, hp1.trans hpr, by simp,
                  fun _ => Or.inr (Or.inr (Or.inr ⟨id, ys, n, ha, rfl, by simpa using hlt⟩))⟩
                rw [start]
                have : r.bufferSize < n := by rw [hh2.size_eq hc]; simpa using hlt
                simp [hsz, hid, hre, hval, hsz3, hc2, STX, hml, this]
              · have hszn : ¬ r.bufferSize < n := by rw [hh2.size_eq hc]; simpa using hlt
                obtain ⟨g, hg, hgs⟩ := trailer_ok hc hh2 ha (by omega)
                cases g with
                | true =>
                  obtain ⟨m, t, hm, e⟩ := hgs.mp rfl
                  refine ⟨r, true, 0x01 :: id :: 0x02 :: ys, stop fun B d' => ?_, hh2, hrun,
                    hp1.trans hpr, fun _ => ⟨m, t, hm, e, ?_⟩, by simp⟩
                  · rw [start]
                    simp [hsz, hid, hre, hval, hsz3, hc2, STX, hml, hszn, hg]
                  · obtain ⟨rest, hr⟩ := frame_cons C.envelope m
                    rw [hr] at e
                    simp at e
                    rw [hcur, e.1]
                | false =>
                  refine retry (id :: 0x02 :: ys) r rfl hh2 hpr (fun hs => Bool.false_ne_true (hgs.mpr hs)) ?_ ?_
                  · rintro (e | ⟨i, hi, e⟩ | ⟨i, rest, n', hn, e, hlt'⟩)
                    · simp at e
                    · simp at e
                    · simp only [List.cons.injEq, true_and] at e
                      rw [← e.1, ha] at hn
                      simp at hn hlt'
                      omega
                  · intro B d'
                    rw [start]
                    simp [hsz, hid, hre, hval, hsz3, hc2, STX, hml, hszn, hg]
            · refine retry (id :: c :: ys) r rfl hh2 hpr ?_ ?_ ?_
              · rintro ⟨m, t, _, e⟩
                obtain ⟨rest, hr⟩ := frame_cons C.envelope m
                rw [hr] at e
                simp at e
                exact hstx e.2.1
              · rintro (e | ⟨i, hi, e⟩ | ⟨i, rest, n', hn, e, hlt'⟩)
                · simp at e
                · simp at e
                · simp only [List.cons.injEq, true_and] at e
                  exact hstx e.2.1
              · intro B d'
                rw [start]
                have hstx' : c ≠ STX := hstx
                simp [hsz, hid, hre, hval, hsz3, hc2, hstx']

theorem check_spec (hc : recvBufferSize C < 2 ^ 64) {xs : List Byte} {e : ERB C}
    (h : e.Holds xs) :
    ∃ (e' : ERB C) (found : Bool) (ys : List Byte),
      (∀ B, e.checkBufferForMessage B = .ok (e', found)) ∧
      (∀ B d, e.checkDepth B d =
        if xs.count 0x01 < d + ys.count 0x01 then .ok (e', found) else .error .diverge) ∧
      e'.Holds ys ∧ Run C xs [] ys ∧ e.Popped e' ∧
      (found = true → ∃ m t, IsMsg C m ∧ ys = frame C.envelope m ++ t ∧
        e'.currentMessageId = some m.id) ∧
      (found = false → Final C ys) := by
  obtain ⟨e', found, ys, h1, h2⟩ := checkG_spec hc xs.length xs e (Nat.le_refl _) h
  refine ⟨e', found, ys, fun B => ?_, fun B d => ?_, h2⟩
  · unfold ERB.checkBufferForMessage
    have := List.count_le_length (a := (0x01 : Byte)) (l := xs)
    rw [checkDepth_eq, h1 B _, if_pos (by rw [h.size_eq hc]; omega)]
  · rw [checkDepth_eq, h1 B d]

/-- With a message at the front, the check succeeds and changes nothing but the cached id. -/
theorem check_at_frame (hc : recvBufferSize C < 2 ^ 64) {e : ERB C} {m : Msg} {t : List Byte}
    (hm : IsMsg C m) (h : e.Holds (frame C.envelope m ++ t)) (B : Build) :
    e.checkBufferForMessage B = .ok ({ e with currentMessageId := some m.id }, true) := by
  obtain ⟨e', found, ys, h1, _, hh, hr, hp, ht, hf⟩ := check_spec hc h
  have hys : ys = frame C.envelope m ++ t := by
    generalize hxs : frame C.envelope m ++ t = xs at hr
    generalize hms : ([] : List Msg) = ms at hr
    cases hr with
    | refl => rfl
    | take _ _ => simp at hms
    | skip a _ _ => exact absurd (hxs ▸ starts_frame hm t) a
  subst hys
  have hfound : found = true := by
    cases found with
    | true => rfl
    | false =>
      rcases hf rfl with h0 | h0
      · have := frame_ne_nil C.envelope m
        simp at h0
        exact absurd h0.1 this
      · exact absurd h0 (not_waiting_frame hm t)
  subst hfound
  obtain ⟨m', t', hm', e1, hid⟩ := ht rfl
  obtain ⟨rfl, rfl⟩ := frame_append_inj hm hm' e1
  rw [h1 B]
  have hb := hp.buf_eq h hh
  cases e' with | mk a b =>
  simp_all

theorem popMessage_ok (hc : recvBufferSize C < 2 ^ 64) {e : ERB C} {m : Msg} {t : List Byte}
    (hm : IsMsg C m) (h : e.Holds (frame C.envelope m ++ t)) (hid : e.currentMessageId = some m.id) :
    ∃ e' : ERB C, (∀ B, e.popMessage B = .ok e') ∧ e'.Holds t ∧ e'.currentMessageId = none := by
  obtain ⟨x, xs, hx⟩ : ∃ x xs, frame C.envelope m ++ t = x :: xs := by
    obtain ⟨rest, hr⟩ := frame_cons C.envelope m
    exact ⟨_, _, by rw [hr]; rfl⟩
  have hl := congrArg List.length hx
  simp only [List.length_append, List.length_cons] at hl
  have h' := h
  rw [hx] at h'
  obtain ⟨e1, h1, hh1, hi1, _⟩ := ERB.Holds.pop_ok hc h'
    (n := (frame C.envelope m).length) (by omega)
  rw [← hx, List.drop_left] at hh1
  refine ⟨{ e1 with currentMessageId := none }, fun B => ?_, hh1, rfl⟩
  have he : { e with currentMessageId := some m.id } = e := by rw [← hid]
  unfold ERB.popMessage
  rw [check_at_frame hc hm h, he]
  simp only [ok_bind, assertMsg_true, pure_eq_ok, ite_self]
  rw [getMessageLength_ok hc hid hm.announced]
  simp [h1]

end TT
