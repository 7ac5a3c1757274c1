import Verif.Proofs.Rewriting

/-!
# Envelopes that decode in place

`decoding look` is a program for any way of looking at the bytes. `Stuffed` is a way of looking for messages in which the
byte 0x7E stands only at the beginning of a message; in the rest of the message 0x7E and 0x7D are sent as 0x7D 0x5E and
0x7D 0x5D.
-/

namespace TT.Demo
open Spec

/-! ### A program for every way of looking -/

/-- Read `n` bytes of the buffer, from index `i` on. -/
def readAll (k : List Byte → EnvCode) : Nat → Nat → List Byte → EnvCode
  | 0, _, acc => k acc
  | n + 1, i, acc => .byte i fun b => readAll k n (i + 1) (acc ++ [b])

/-- Write bytes into the buffer, from index `i` on. -/
def writeAll (k : EnvCode) : List Byte → Nat → EnvCode
  | [], _ => k
  | b :: bs, i => .write i b (writeAll k bs (i + 1))

/-- Drop `n` bytes, if any. -/
def popMany (n : Nat) (k : EnvCode) : EnvCode := if n = 0 then k else .pop n k

/-- A message that was reported and not popped is reported again. Otherwise copy the buffered bytes, look at them, and put
the result into the buffer. -/
def decoding (look : Look) : EnvCode :=
  .hasId fun valid => if valid then .done true else
  .size fun n => readAll (fun xs =>
    popMany (n - (look xs).1.length) <| writeAll
      (match (look xs).2 with
        | some id => .setId id (.done true)
        | none => .done false) (look xs).1 0) n 0 []

variable {C : Custom}

theorem effect_readAll (k : List Byte → EnvCode) (xs : List Byte) (cur : Option Byte) : ∀ (n i : Nat) (acc : List Byte),
    i + n ≤ xs.length →
    effect C (readAll k n i acc) xs cur = effect C (k (acc ++ (xs.drop i).take n)) xs cur := by
  intro n
  induction n with
  | zero => intro i acc _; simp [readAll]
  | succ n ih =>
    intro i acc h
    have hi : i < xs.length := by omega
    simp only [readAll, effect, List.getElem?_eq_getElem hi]
    rw [ih (i + 1) _ (by omega), List.drop_eq_getElem_cons hi, List.take_succ_cons]
    simp

theorem effect_writeAll (k : EnvCode) (cur : Option Byte) : ∀ (bs : List Byte) (i : Nat) (xs : List Byte),
    i + bs.length ≤ xs.length →
    effect C (writeAll k bs i) xs cur = effect C k (xs.take i ++ bs ++ xs.drop (i + bs.length)) cur := by
  intro bs
  induction bs with
  | nil => intro i xs _; simp [writeAll]
  | cons b bs ih =>
    intro i xs h
    simp only [List.length_cons] at h
    simp only [writeAll, effect]
    rw [if_pos (by omega), ih (i + 1) _ (by simp; omega)]
    congr 1
    have e1 : (xs.set i b).take (i + 1) = xs.take i ++ [b] := by
      rw [List.take_succ_eq_append_getElem (by simp; omega), List.take_set_of_le (Nat.le_refl _)]
      simp
    have e2 : (xs.set i b).drop (i + 1 + bs.length) = xs.drop (i + (b :: bs).length) := by
      rw [List.drop_set_of_lt (by omega)]
      congr 1
      simp
      omega
    rw [e1, e2]
    simp

theorem effect_popMany (k : EnvCode) (xs : List Byte) (cur : Option Byte) (n : Nat) (h : n ≤ xs.length) :
    effect C (popMany n k) xs cur = effect C k (xs.drop n) cur := by
  unfold popMany
  split
  · rename_i e; simp [e]
  · simp only [effect]
    rw [if_pos ⟨by intro e; simp [e] at h; omega, h⟩]

theorem effect_decoding {look : Look} (hshr : ∀ xs, (look xs).1.length ≤ xs.length) (xs : List Byte) :
    effect C (decoding look) xs none = effect C (match (look xs).2 with
        | some id => .setId id (.done true)
        | none => .done false) (look xs).1 none := by
  have h := hshr xs
  simp only [decoding, effect, Option.isSome_none, Bool.false_eq_true, if_false]
  rw [effect_readAll _ _ _ _ _ _ (by omega)]
  simp only [List.drop_zero, List.take_length, List.nil_append]
  rw [effect_popMany _ _ _ _ (by omega), effect_writeAll _ _ _ _ _ (by simp; omega)]
  simp only [List.take_zero, List.nil_append, Nat.zero_add, List.drop_drop]
  rw [show xs.length - (look xs).1.length + (look xs).1.length = xs.length by omega]
  simp

theorem decoding_performs {look : Look} (hcode : C.code = decoding look) (hp : ProperLook C look) :
    Performs C look (· = none) where
  start := rfl
  found := by
    intro xs cur ys id _ hcur hx
    obtain ⟨k, hk, -⟩ := hp.whole xs ys id hx
    rw [hcode, hcur, effect_decoding hp.shrinks, hx]
    have ht : (typeAt C id).isSome = true := by
      unfold lengthAt at hk
      cases h : typeAt C id with
      | none => simp [h] at hk
      | some t => rfl
    simp [effect, ht]
  nothing := by
    intro xs cur ys _ hcur hx
    refine ⟨none, rfl, ?_⟩
    rw [hcode, hcur, effect_decoding hp.shrinks, hx]
    simp [effect]

theorem decoding_repeatable {look : Look} (hcode : C.code = decoding look) : Repeatable C look := by
  intro xs ys id _ _
  exact ⟨ys, by simp [hcode, decoding, effect], rfl, fun _ _ => rfl⟩

/-- The same without the question whether a message was reported: whenever it is called, it looks and decodes. -/
def forgetful (look : Look) : EnvCode :=
  .size fun n => readAll (fun xs =>
    popMany (n - (look xs).1.length) <| writeAll
      (match (look xs).2 with
        | some id => .setId id (.done true)
        | none => .done false) (look xs).1 0) n 0 []

theorem effect_forgetful {look : Look} (hshr : ∀ xs, (look xs).1.length ≤ xs.length) (xs : List Byte) (cur : Option Byte) :
    effect C (forgetful look) xs cur = effect C (match (look xs).2 with
        | some id => .setId id (.done true)
        | none => .done false) (look xs).1 cur := by
  have h := hshr xs
  simp only [forgetful, effect]
  rw [effect_readAll _ _ _ _ _ _ (by omega)]
  simp only [List.drop_zero, List.take_length, List.nil_append]
  rw [effect_popMany _ _ _ _ (by omega), effect_writeAll _ _ _ _ _ (by simp; omega)]
  simp only [List.take_zero, List.nil_append, Nat.zero_add, List.drop_drop]
  rw [show xs.length - (look xs).1.length + (look xs).1.length = xs.length by omega]
  simp

theorem effect_forgetful_found {look : Look} (hcode : C.code = forgetful look) (hp : ProperLook C look)
    {xs ys : List Byte} {id : Byte} (hx : look xs = (ys, some id)) (cur : Option Byte) :
    effect C C.code xs cur = some (ys, some id, true) := by
  obtain ⟨k, hk, -⟩ := hp.whole xs ys id hx
  rw [hcode, effect_forgetful hp.shrinks, hx]
  have ht : (typeAt C id).isSome = true := by
    unfold lengthAt at hk
    cases h : typeAt C id with
    | none => simp [h] at hk
    | some t => rfl
  simp [effect, ht]

theorem forgetful_performs {look : Look} (hcode : C.code = forgetful look) (hp : ProperLook C look) :
    Performs C look (fun _ => True) where
  start := trivial
  found := fun _ _ hx => effect_forgetful_found hcode hp hx _
  nothing := by
    intro xs cur ys _ _ hx
    refine ⟨cur, trivial, ?_⟩
    rw [hcode, effect_forgetful hp.shrinks, hx]
    simp [effect]

/-! ### Contents that are masked -/

/-- Messages are 0xAA 0x00 and one byte of contents, to which 0x55 was added bit by bit. -/
def masked : Look
  | [] => ([], none)
  | b :: s =>
    if b ≠ 0xAA then masked s else
    match s with
    | [] => (b :: s, none)
    | i :: q =>
      if i ≠ 0 then masked s else
      match q with
      | [] => (b :: s, none)
      | x :: r => (b :: i :: (x ^^^ 0x55) :: r, some i)

/-- The envelope that removes the mask whenever it is called. -/
def unmasking : Custom where
  messages := [⟨0, [.uint8]⟩]
  overhead := 2
  dataOffset := 2
  code := forgetful masked

theorem masked_cases (b : Byte) (s : List Byte) :
    (masked (b :: s) = masked s ∧ ∀ z, masked (b :: s ++ z) = masked (s ++ z)) ∨ masked (b :: s) = (b :: s, none) ∨
    ∃ x r, b = 0xAA ∧ s = 0 :: x :: r ∧ masked (b :: s) = (0xAA :: 0 :: (x ^^^ 0x55) :: r, some 0) := by
  by_cases hb : b = 0xAA
  · subst hb
    cases s with
    | nil => exact Or.inr (Or.inl (by simp [masked]))
    | cons i q =>
      by_cases hi : i = 0
      · subst hi
        cases q with
        | nil => exact Or.inr (Or.inl (by simp [masked]))
        | cons x r => exact Or.inr (Or.inr ⟨x, r, rfl, rfl, by simp [masked]⟩)
      · refine Or.inl ⟨by rw [masked.eq_def]; simp [hi], fun z => ?_⟩
        rw [List.cons_append, masked.eq_def]
        simp [hi]
  · refine Or.inl ⟨by rw [masked.eq_def]; simp [hb], fun z => ?_⟩
    rw [List.cons_append, masked.eq_def]
    simp [hb]

theorem masked_proper : ProperLook unmasking masked where
  overhead := by simp [unmasking]
  offset := by simp [unmasking]
  shrinks := by
    intro xs
    induction xs with
    | nil => simp [masked]
    | cons b s ih =>
      rcases masked_cases b s with ⟨h, -⟩ | h | ⟨x, r, rfl, rfl, h⟩
      · rw [h]; simp; omega
      · rw [h]; simp
      · rw [h]; simp
  whole := by
    intro xs
    induction xs with
    | nil => intro ys id h; simp [masked] at h
    | cons b s ih =>
      intro ys id h
      rcases masked_cases b s with ⟨h', -⟩ | h' | ⟨x, r, rfl, rfl, h'⟩
      · exact ih ys id (h' ▸ h)
      · rw [h'] at h; cases h
      · rw [h'] at h
        cases h
        exact ⟨3, rfl, by simp⟩

theorem masked_online : OnlineLook masked where
  found := by
    intro xs zs
    induction xs with
    | nil => intro ys id h; simp [masked] at h
    | cons b s ih =>
      intro ys id h
      rcases masked_cases b s with ⟨h', hz⟩ | h' | ⟨x, r, rfl, rfl, h'⟩
      · rw [hz zs]; exact ih ys id (h' ▸ h)
      · rw [h'] at h; cases h
      · rw [h'] at h
        cases h
        simp [masked]
  nothing := by
    intro xs zs
    induction xs with
    | nil => intro ys h; simp [masked] at h; simp [← h]
    | cons b s ih =>
      intro ys h
      rcases masked_cases b s with ⟨h', hz⟩ | h' | ⟨x, r, rfl, rfl, h'⟩
      · rw [hz zs]; exact ih ys (h' ▸ h)
      · rw [h'] at h
        cases h
        rfl
      · rw [h'] at h; cases h

theorem masked_found {xs ys : List Byte} {id : Byte} (h : masked xs = (ys, some id)) :
    ∃ x r, id = 0 ∧ ys = 0xAA :: 0 :: x :: r := by
  induction xs with
  | nil => simp [masked] at h
  | cons b s ih =>
    rcases masked_cases b s with ⟨h', -⟩ | h' | ⟨x, r, rfl, rfl, h'⟩
    · exact ih (h' ▸ h)
    · rw [h'] at h; cases h
    · rw [h'] at h
      cases h
      exact ⟨_, r, rfl, rfl⟩

theorem masked_repeatable : Repeatable unmasking masked := by
  intro xs ys id _ h
  obtain ⟨x, r, rfl, rfl⟩ := masked_found h
  refine ⟨0xAA :: 0 :: (x ^^^ 0x55) :: r, effect_forgetful_found rfl masked_proper (by simp [masked]) _, by simp, ?_⟩
  intro k hk
  have : k = 3 := by
    have h3 : lengthAt unmasking 0 = some 3 := rfl
    rw [h3] at hk
    exact (Option.some.inj hk).symm
  subst this
  rfl

end TT.Demo

/-! ### Byte stuffing -/

namespace TT.Stuffed
open Spec

/-- The byte that begins a message, and stands nowhere else in it. -/
def flag : Byte := 0x7E

/-- The byte that announces a changed byte. -/
def esc : Byte := 0x7D

/-- What is sent for one byte. -/
def stuff (b : Byte) : List Byte := if b = flag ∨ b = esc then [esc, b ^^^ 0x20] else [b]

/-- What is sent for a message. -/
def enc (m : Msg) : List Byte := flag :: (m.id :: m.payload).flatMap stuff

/-- Something decoded from the front of a list of bytes; or more bytes are needed; or this is not possible. -/
inductive Pulled (α : Type) where
  | need
  | bad
  | got (a : α) (rest : List Byte)

/-- Decode one byte. -/
def pull : List Byte → Pulled Byte
  | [] => .need
  | b :: r =>
    if b = flag then .bad
    else if b = esc then
      match r with
      | [] => .need
      | x :: r => if x = 0x5E ∨ x = 0x5D then .got (x ^^^ 0x20) r else .bad
    else .got b r

/-- Decode some bytes. -/
def pulls : Nat → List Byte → Pulled (List Byte)
  | 0, s => .got [] s
  | n + 1, s =>
    match pull s with
    | .need => .need
    | .bad => .bad
    | .got b r =>
      match pulls n r with
      | .need => .need
      | .bad => .bad
      | .got p r => .got (b :: p) r

/-- Decode a message, after its first byte. -/
def message (types : List MsgType) (s : List Byte) : Pulled Msg :=
  match pull s with
  | .need => .need
  | .bad => .bad
  | .got id r =>
    match types[id.toNat]? with
    | none => .bad
    | some t =>
      match pulls (payloadSize t) r with
      | .need => .need
      | .bad => .bad
      | .got p r => .got ⟨id, p⟩ r

/-- Look for a message and decode it. -/
def look (types : List MsgType) : Look
  | [] => ([], none)
  | b :: s =>
    if b ≠ flag then look types s else
    match message types s with
    | .need => (b :: s, none)
    | .bad => look types s
    | .got m r => (flag :: m.id :: (m.payload ++ r), some m.id)

/-- The envelope. -/
def envelope (types : List MsgType) : Custom where
  messages := types
  overhead := 2
  dataOffset := 2
  code := Demo.decoding (look types)

variable {types : List MsgType}

theorem pull_got {s r : List Byte} {b : Byte} (h : pull s = .got b r) (z : List Byte) :
    pull (s ++ z) = .got b (r ++ z) ∧ r.length + 1 ≤ s.length ∧ s.length ≤ r.length + 2 := by
  cases s with
  | nil => cases h
  | cons c s =>
    simp only [pull] at h
    simp only [List.cons_append, pull]
    split at h
    · cases h
    · rename_i h1
      rw [if_neg h1]
      split at h
      · rename_i h2
        rw [if_pos h2]
        cases s with
        | nil => cases h
        | cons x s =>
          simp only [List.cons_append] at h ⊢
          split at h
          · rename_i h3
            cases h
            rw [if_pos h3]
            simp
          · cases h
      · rename_i h2
        cases h
        rw [if_neg h2]
        simp

theorem pull_bad {s : List Byte} (h : pull s = .bad) (z : List Byte) : pull (s ++ z) = .bad := by
  cases s with
  | nil => cases h
  | cons c s =>
    simp only [pull] at h
    simp only [List.cons_append, pull]
    split at h
    · rename_i h1; rw [if_pos h1]
    · rename_i h1
      rw [if_neg h1]
      split at h
      · rename_i h2
        rw [if_pos h2]
        cases s with
        | nil => cases h
        | cons x s =>
          simp only [List.cons_append] at h ⊢
          split at h
          · cases h
          · rename_i h3; rw [if_neg h3]
      · cases h

theorem pull_need {s : List Byte} (h : pull s = .need) (z : List Byte) :
    s.length ≤ 1 ∧ flag ∉ s ∧ pull (s ++ flag :: z) = .bad := by
  cases s with
  | nil => simp [pull]
  | cons c s =>
    simp only [pull] at h
    split at h
    · cases h
    · rename_i h1
      split at h
      · rename_i h2
        cases s with
        | nil =>
          refine ⟨by simp, by simpa using Ne.symm h1, ?_⟩
          simp only [List.cons_append, List.nil_append, pull]
          rw [if_neg h1, if_pos h2, if_neg (by decide)]
        | cons x s =>
          simp only at h
          split at h <;> cases h
      · cases h

theorem pull_got_flag {s r : List Byte} {b : Byte} (h : pull s = .got b r) : flag ∈ s → flag ∈ r := by
  cases s with
  | nil => cases h
  | cons c s =>
    simp only [pull] at h
    split at h
    · cases h
    · rename_i h1
      have h1' : ¬ flag = c := fun e => h1 e.symm
      split at h
      · cases s with
        | nil => cases h
        | cons x s =>
          simp only at h
          split at h
          · rename_i h3
            cases h
            have h4 : ¬ flag = x := by
              intro e
              subst e
              revert h3
              decide
            simp [h1', h4]
          · cases h
      · cases h
        simp [h1']

theorem pulls_got : ∀ {n : Nat} {s r p : List Byte}, pulls n s = .got p r → ∀ z,
    pulls n (s ++ z) = .got p (r ++ z) ∧ r.length + n ≤ s.length ∧ p.length = n ∧ s.length ≤ r.length + 2 * n ∧
      (flag ∈ s → flag ∈ r) := by
  intro n
  induction n with
  | zero =>
    intro s r p h z
    simp only [pulls, Pulled.got.injEq] at h
    obtain ⟨rfl, rfl⟩ := h
    simp [pulls]
  | succ n ih =>
    intro s r p h z
    simp only [pulls] at h ⊢
    cases hp : pull s with
    | need => simp [hp] at h
    | bad => simp [hp] at h
    | got b r1 =>
      rw [hp] at h
      simp only at h
      cases hq : pulls n r1 with
      | need => simp [hq] at h
      | bad => simp [hq] at h
      | got p1 r2 =>
        rw [hq] at h
        simp only [Pulled.got.injEq] at h
        obtain ⟨rfl, rfl⟩ := h
        obtain ⟨e1, l1, l2⟩ := pull_got hp z
        obtain ⟨e2, l3, l4, l5, l6⟩ := ih hq z
        rw [e1]
        simp only [e2, List.length_cons]
        exact ⟨trivial, by omega, by omega, by omega, fun hf => l6 (pull_got_flag hp hf)⟩

theorem pulls_bad : ∀ {n : Nat} {s : List Byte}, pulls n s = .bad → ∀ z, pulls n (s ++ z) = .bad := by
  intro n
  induction n with
  | zero => intro s h; cases h
  | succ n ih =>
    intro s h z
    simp only [pulls] at h ⊢
    cases hp : pull s with
    | need => simp [hp] at h
    | bad => rw [pull_bad hp z]
    | got b r1 =>
      rw [hp] at h
      rw [(pull_got hp z).1]
      simp only at h ⊢
      cases hq : pulls n r1 with
      | need => simp [hq] at h
      | bad => rw [ih hq z]
      | got p1 r2 => simp [hq] at h

theorem pulls_need : ∀ {n : Nat} {s : List Byte}, pulls n s = .need → ∀ z,
    s.length + 1 ≤ 2 * n ∧ flag ∉ s ∧ pulls n (s ++ flag :: z) = .bad := by
  intro n
  induction n with
  | zero => intro s h; cases h
  | succ n ih =>
    intro s h z
    simp only [pulls] at h ⊢
    cases hp : pull s with
    | need =>
      obtain ⟨h1, h2, h3⟩ := pull_need hp z
      exact ⟨by omega, h2, by rw [h3]⟩
    | bad => simp [hp] at h
    | got b r1 =>
      rw [hp] at h
      obtain ⟨e1, l1, l2⟩ := pull_got hp (flag :: z)
      rw [e1]
      simp only at h ⊢
      cases hq : pulls n r1 with
      | need =>
        obtain ⟨h1, h2, h3⟩ := ih hq z
        exact ⟨by omega, fun hf => h2 (pull_got_flag hp hf), by rw [h3]⟩
      | bad => simp [hq] at h
      | got p1 r2 => simp [hq] at h

theorem message_got {s r : List Byte} {m : Msg} (h : message types s = .got m r) (z : List Byte) :
    message types (s ++ z) = .got m (r ++ z) ∧ ∃ t, types[m.id.toNat]? = some t ∧ m.payload.length = payloadSize t ∧
      r.length + 1 + payloadSize t ≤ s.length := by
  simp only [message] at h ⊢
  cases hp : pull s with
  | need => simp [hp] at h
  | bad => simp [hp] at h
  | got id r1 =>
    rw [hp] at h
    obtain ⟨e1, l1, -⟩ := pull_got hp z
    rw [e1]
    simp only at h ⊢
    cases ht : types[id.toNat]? with
    | none => simp [ht] at h
    | some t =>
      rw [ht] at h
      simp only at h ⊢
      cases hq : pulls (payloadSize t) r1 with
      | need => simp [hq] at h
      | bad => simp [hq] at h
      | got p r2 =>
        rw [hq] at h
        simp only [Pulled.got.injEq] at h
        obtain ⟨rfl, rfl⟩ := h
        obtain ⟨e2, l3, l4, -⟩ := pulls_got hq z
        rw [e2]
        exact ⟨rfl, t, ht, l4, by omega⟩

theorem message_bad {s : List Byte} (h : message types s = .bad) (z : List Byte) : message types (s ++ z) = .bad := by
  simp only [message] at h ⊢
  cases hp : pull s with
  | need => simp [hp] at h
  | bad => rw [pull_bad hp z]
  | got id r1 =>
    rw [hp] at h
    rw [(pull_got hp z).1]
    simp only at h ⊢
    cases ht : types[id.toNat]? with
    | none => rfl
    | some t =>
      rw [ht] at h
      simp only at h ⊢
      cases hq : pulls (payloadSize t) r1 with
      | need => simp [hq] at h
      | bad => rw [pulls_bad hq z]
      | got p r2 => simp [hq] at h

theorem message_need {s : List Byte} (h : message types s = .need) (z : List Byte) :
    flag ∉ s ∧ message types (s ++ flag :: z) = .bad ∧
      (s.length ≤ 1 ∨ ∃ t ∈ types, s.length ≤ 2 * payloadSize t + 1) := by
  simp only [message] at h ⊢
  cases hp : pull s with
  | need =>
    obtain ⟨h1, h2, h3⟩ := pull_need hp z
    rw [h3]
    exact ⟨h2, rfl, Or.inl h1⟩
  | bad => simp [hp] at h
  | got id r1 =>
    rw [hp] at h
    obtain ⟨e1, l1, l2⟩ := pull_got hp (flag :: z)
    rw [e1]
    simp only at h ⊢
    cases ht : types[id.toNat]? with
    | none => simp [ht] at h
    | some t =>
      rw [ht] at h
      simp only at h ⊢
      cases hq : pulls (payloadSize t) r1 with
      | need =>
        obtain ⟨h1, h2, h3⟩ := pulls_need hq z
        rw [h3]
        exact ⟨fun hf => h2 (pull_got_flag hp hf), rfl, Or.inr ⟨t, List.mem_of_getElem? ht, by omega⟩⟩
      | bad => simp [hq] at h
      | got p r2 => simp [hq] at h

/-! ### Looking -/

theorem look_proper (types : List MsgType) : ProperLook (envelope types) (look types) where
  overhead := by simp [envelope]
  offset := by simp [envelope]
  shrinks := by
    intro xs
    induction xs with
    | nil => simp [look]
    | cons b s ih =>
      rw [look]
      split
      · simp only [List.length_cons]; omega
      · cases hm : message types s with
        | need => simp
        | bad => simp only [List.length_cons]; omega
        | got m r =>
          obtain ⟨-, t, -, hl, hle⟩ := message_got hm []
          simp only [List.length_cons, List.length_append]
          omega
  whole := by
    intro xs
    induction xs with
    | nil => intro ys id h; simp [look] at h
    | cons b s ih =>
      intro ys id h
      rw [look] at h
      split at h
      · exact ih ys id h
      · cases hm : message types s with
        | need => simp [hm] at h
        | bad => rw [hm] at h; exact ih ys id h
        | got m r =>
          rw [hm] at h
          simp only [Prod.mk.injEq, Option.some.injEq] at h
          obtain ⟨rfl, rfl⟩ := h
          obtain ⟨-, t, ht, hl, hle⟩ := message_got hm []
          have ht' : typeAt (envelope types) m.id = some t := ht
          refine ⟨2 + payloadSize t, by simp [lengthAt, ht']; rfl, ?_⟩
          simp only [List.length_cons, List.length_append]
          omega

theorem look_online (types : List MsgType) : OnlineLook (look types) where
  found := by
    intro xs zs
    induction xs with
    | nil => intro ys id h; simp [look] at h
    | cons b s ih =>
      intro ys id h
      rw [look] at h
      rw [List.cons_append, look]
      split at h
      · rename_i hb
        rw [if_pos hb]
        exact ih ys id h
      · rename_i hb
        rw [if_neg hb]
        cases hm : message types s with
        | need => simp [hm] at h
        | bad => rw [hm] at h; rw [message_bad hm zs]; exact ih ys id h
        | got m r =>
          rw [hm] at h
          rw [(message_got hm zs).1]
          simp only [Prod.mk.injEq, Option.some.injEq] at h ⊢
          obtain ⟨rfl, rfl⟩ := h
          simp
  nothing := by
    intro xs zs
    induction xs with
    | nil => intro ys h; simp [look] at h; simp [← h]
    | cons b s ih =>
      intro ys h
      rw [look] at h
      split at h
      · rename_i hb
        rw [List.cons_append, look, if_pos hb]
        exact ih ys h
      · rename_i hb
        cases hm : message types s with
        | need => rw [hm] at h; simp only [Prod.mk.injEq, and_true] at h; rw [h]
        | bad =>
          rw [hm] at h
          rw [List.cons_append, look, if_neg hb, message_bad hm zs]
          exact ih ys h
        | got m r => simp [hm] at h

/-- Bytes other than the flag are skipped. -/
theorem look_skip {s : List Byte} (h : flag ∉ s) (z : List Byte) : look types (s ++ z) = look types z := by
  induction s with
  | nil => rfl
  | cons b s ih =>
    simp only [List.mem_cons, not_or] at h
    rw [List.cons_append, look, if_pos (fun e => h.1 e.symm)]
    exact ih h.2

/-- What is left when nothing is found: nothing, or the beginning of a message without another flag in it. -/
theorem look_rest {s r : List Byte} (h : look types s = (r, none)) :
    r = [] ∨ ∃ q, r = flag :: q ∧ message types q = .need := by
  induction s with
  | nil => simp [look] at h; exact Or.inl h
  | cons b s ih =>
    rw [look] at h
    split at h
    · exact ih h
    · rename_i hb
      cases hm : message types s with
      | need =>
        rw [hm] at h
        simp only [Prod.mk.injEq, and_true] at h
        refine Or.inr ⟨s, ?_, hm⟩
        rw [← h, show b = flag by simpa using hb]
      | bad => rw [hm] at h; exact ih h
      | got m r => simp [hm] at h

/-- A flag ends whatever came before it. -/
theorem look_flag {s r : List Byte} (h : look types s = (r, none)) (z : List Byte) :
    look types (r ++ flag :: z) = look types (flag :: z) := by
  rcases look_rest h with rfl | ⟨q, rfl, hq⟩
  · rfl
  · obtain ⟨h1, h2, -⟩ := message_need hq z
    rw [List.cons_append, look, if_neg (by simp), h2]
    exact look_skip h1 _

/-! ### Sending -/

theorem pull_stuff (b : Byte) (r : List Byte) : pull (stuff b ++ r) = .got b r := by
  unfold stuff
  split
  · rename_i h
    rcases h with rfl | rfl
    · rfl
    · rfl
  · rename_i h
    rw [not_or] at h
    simp only [List.cons_append, List.nil_append, pull]
    rw [if_neg h.1, if_neg h.2]

theorem pulls_stuff (p r : List Byte) : pulls p.length (p.flatMap stuff ++ r) = .got p r := by
  induction p with
  | nil => rfl
  | cons b p ih =>
    simp only [List.length_cons, List.flatMap_cons, List.append_assoc, pulls]
    rw [pull_stuff]
    simp only [ih]

theorem flag_not_stuff (b : Byte) : flag ∉ stuff b := by
  unfold stuff
  split
  · rename_i h
    rcases h with rfl | rfl <;> decide
  · rename_i h
    rw [not_or] at h
    simpa using fun e => h.1 e.symm

theorem flag_not_stuffed (p : List Byte) : flag ∉ p.flatMap stuff := by
  rw [List.mem_flatMap]
  rintro ⟨b, -, h⟩
  exact flag_not_stuff b h

theorem message_enc {m : Msg} {t : MsgType} (ht : types[m.id.toNat]? = some t) (hl : m.payload.length = payloadSize t)
    (r : List Byte) : message types ((m.id :: m.payload).flatMap stuff ++ r) = .got m r := by
  simp only [message, List.flatMap_cons, List.append_assoc]
  rw [pull_stuff]
  simp only [ht]
  rw [← hl, pulls_stuff]

theorem look_enc {m : Msg} {t : MsgType} (ht : types[m.id.toNat]? = some t) (hl : m.payload.length = payloadSize t)
    (r : List Byte) : look types (enc m ++ r) = (flag :: m.id :: (m.payload ++ r), some m.id) := by
  rw [enc, List.cons_append, look, if_neg (by simp), message_enc ht hl]

theorem shows_enc {m : Msg} {t : MsgType} (ht : types[m.id.toNat]? = some t) (hl : m.payload.length = payloadSize t) :
    Shows (envelope types) (look types) (enc m) m := by
  refine ⟨flag :: m.id :: m.payload, t, fun ys => by rw [look_enc ht hl]; rfl, ht, ?_, ?_⟩
  · show _ = 2 + _
    simp only [List.length_cons]
    omega
  · show _ = ((flag :: m.id :: m.payload).drop 2).take _
    simp [← hl]

theorem envelope_performs (types : List MsgType) : Performs (envelope types) (look types) (· = none) :=
  Demo.decoding_performs rfl (look_proper types)

theorem envelope_repeatable (types : List MsgType) : Repeatable (envelope types) (look types) :=
  Demo.decoding_repeatable rfl

/-- Whatever came before, all messages are read. -/
theorem reads_after (types : List MsgType) {g r : List Byte} {ms : List Msg}
    (h : Finds (envelope types) (look types) g ms r) {ns : List Msg}
    (hns : ∀ m ∈ ns, ∃ t, types[m.id.toNat]? = some t ∧ m.payload.length = payloadSize t) :
    Finds (envelope types) (look types) (g ++ (ns.map enc).flatten) (ms ++ ns) (if ns = [] then r else []) := by
  refine Custom.reads_append (look_proper types) (look_online types) h ?_
  have hlast : ∃ s, look types s = (r, none) := by
    clear hns
    induction h with
    | @stop s r hx => exact ⟨s, hx⟩
    | take _ _ _ ih => exact ih
  obtain ⟨s, hs⟩ := hlast
  have hfix : look types r = (r, none) := by
    have := (look_online types).nothing s [] r hs
    rw [List.append_nil, List.append_nil, hs] at this
    exact this.symm
  cases ns with
  | nil => simpa using Finds.stop hfix
  | cons m ns =>
    rw [if_neg (by simp)]
    have hall := Custom.reads_shown (look_proper types) (((m :: ns).map fun m => (enc m, m))) (by
      intro p hp
      obtain ⟨m', hm', rfl⟩ := List.mem_map.mp hp
      obtain ⟨t, ht, hl⟩ := hns m' hm'
      exact shows_enc ht hl) (Finds.stop (Custom.look_nil (look_proper types)))
    have e1 : (((m :: ns).map fun m => (enc m, m)).map (·.1)) = (m :: ns).map enc := by simp
    have e2 : (((m :: ns).map fun m => (enc m, m)).map (·.2)) = m :: ns := by
      rw [List.map_map]
      exact List.map_id _
    rw [e1, e2, List.append_nil, List.append_nil] at hall
    have e3 : ((m :: ns).map enc).flatten = flag :: ((m.id :: m.payload).flatMap stuff ++ (ns.map enc).flatten) := by
      simp [enc]
    rw [e3] at hall ⊢
    exact Custom.reads_congr (look_flag hs _).symm hall

end TT.Stuffed
