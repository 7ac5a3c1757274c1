import Verif.Properties.Understanding

/-!
# Property about idle bytes that synchronise a receiver: C102
-/

namespace TT.Properties
open Spec

variable {C : Collection} {B : Build} {user : UserCode} {fuel : Nat}

/-! ### C102 -/

/-- A receiver that was given any bytes and then `f`, in any legal way, and was then polled has nothing in its buffer. -/
def Flushes (C : Collection) (B : Build) (f : List Byte) : Prop :=
  ∀ (g : List Byte) (user : UserCode) (fuel : Nat) (ops : List Op) (w : World C) (os : List Obs), BenignUser user →
    NeverThrows user → Reached B user fuel (ops ++ [.process]) w os → w.rx.hasHandler = true → w.fed = g ++ f →
    buffered w = []

theorem suffix_starts {pre r g f : List Byte} (e : pre ++ 0x01 :: r = g ++ f) (h1 : (0x01 : Byte) ∉ f) :
    ∃ g', 0x01 :: r = 0x01 :: g' ++ f := by
  rcases List.append_eq_append_iff.mp e with ⟨a, e1, e2⟩ | ⟨a, _, e2⟩
  · cases a with
    | nil => simp only [List.nil_append] at e2; exact absurd (e2 ▸ List.mem_cons_self) h1
    | cons x a =>
      simp only [List.cons_append, List.cons.injEq] at e2
      exact ⟨a, by rw [e2.2]; rfl⟩
  · exact absurd (e2 ▸ List.mem_append_right _ List.mem_cons_self) h1

theorem waiting_head {r : List Byte} (h : Waiting C r) : ∃ t, r = 0x01 :: t := by
  rcases h with rfl | ⟨id, _, rfl⟩ | ⟨id, rest, n, _, rfl, _⟩ <;> exact ⟨_, rfl⟩

theorem five_le_maxLen (hne : C.messages ≠ []) : 5 ≤ maxLen C := by
  obtain ⟨t, _, e⟩ := maxMessageLength_attained C hne
  rw [maxLen_eq, ← e, sizeofBound_eq]
  have : 5 ≤ overhead C.envelope := by cases C.envelope <;> decide
  omega

/-- Enough filler leaves nothing that could still become a message. -/
theorem flushed {f : List Byte} (hne : C.messages ≠ []) (h1 : (0x01 : Byte) ∉ f)
    (hl : maxLen C ≤ f.length + 1 ∨ (0x02 : Byte) ∉ f ∧ maxLen C ≤ f.length + 3) (g : List Byte) :
    ∃ ms, Decodes C (g ++ f) ms [] := by
  obtain ⟨ms, r, hd⟩ := decodes_exists C (g ++ f)
  rcases hd.2 with rfl | hw
  · exact ⟨ms, hd⟩
  · exfalso
    obtain ⟨pre, e⟩ := hd.1.suffix
    obtain ⟨t, rfl⟩ := waiting_head hw
    obtain ⟨g', e'⟩ := suffix_starts e.symm h1
    have h5 := five_le_maxLen hne
    have hlen := congrArg List.length e'
    simp only [List.length_append, List.length_cons] at hlen
    rcases hw with h | ⟨id, _, h⟩ | ⟨id, rest, n, hn, h, hlt⟩
    · have := congrArg List.length h
      simp only [List.length_cons, List.length_nil] at this
      omega
    · have := congrArg List.length h
      simp only [List.length_cons, List.length_nil] at this
      omega
    · have hle := announced_le hn
      rw [← maxLen_eq] at hle
      simp only [List.length_cons] at hlt
      rcases hl with hl | ⟨h2, hl⟩
      · omega
      · rw [e'] at h
        match g', h with
        | [], h =>
          simp only [List.cons_append, List.nil_append, List.cons.injEq, true_and] at h
          exact h2 (by rw [h]; simp)
        | [x], h =>
          simp only [List.cons_append, List.nil_append, List.cons.injEq, true_and] at h
          exact h2 (by rw [h.2]; simp)
        | x :: y :: g', _ =>
          simp only [List.length_cons] at hlen
          omega

/-- Enough filler empties the buffer: bytes that are neither a start code nor STX, three fewer than the longest message has, or
any bytes that are not a start code, one fewer than the longest message has. -/
theorem C102_flushes {f : List Byte} (ha : Arith B (recvBufferSize C)) (hne : C.messages ≠ []) (h1 : (0x01 : Byte) ∉ f)
    (hl : maxLen C ≤ f.length + 1 ∨ (0x02 : Byte) ∉ f ∧ maxLen C ≤ f.length + 3) : Flushes C B f := by
  intro g user fuel ops w os hb hn h hh hf
  obtain ⟨ms, hd⟩ := flushed hne h1 hl g
  exact (polled_eq ⟨ha, hb⟩ hn h hh (by rw [hf]; exact hd)).2

/-- What comes behind enough filler is received as by a receiver that is new: what was delivered is what the bytes up to
the end of the filler contain, and then what the bytes behind it contain; what is in the buffer is what a new receiver
would have there. -/
theorem C102_after {f : List Byte} (S : Setting C B user) (hn : NeverThrows user) (hne : C.messages ≠ []) (h1 : (0x01 : Byte) ∉ f)
    (hl : maxLen C ≤ f.length + 1 ∨ (0x02 : Byte) ∉ f ∧ maxLen C ≤ f.length + 3) {g s : List Byte} {ops : List Op}
    {w : World C} {os : List Obs} (h : Reached B user fuel (ops ++ [.process]) w os) (hh : w.rx.hasHandler = true)
    (hf : w.fed = g ++ f ++ s) {ms : List Msg} {r : List Byte} (hd : Decodes C s ms r) :
    ∃ old, Decodes C (g ++ f) old [] ∧ delivered w = (old ++ ms).map (meaning C) ∧ buffered w = r := by
  obtain ⟨old, ho⟩ := flushed hne h1 hl g
  refine ⟨old, ho, polled_eq S hn h hh ?_⟩
  rw [hf]
  exact ⟨(ho.1.append s).trans hd.1, hd.2⟩

/-- In particular all messages behind the filler are delivered, and nothing else behind it. -/
theorem C102_messages {f : List Byte} (S : Setting C B user) (hn : NeverThrows user) (hne : C.messages ≠ []) (h1 : (0x01 : Byte) ∉ f)
    (hl : maxLen C ≤ f.length + 1 ∨ (0x02 : Byte) ∉ f ∧ maxLen C ≤ f.length + 3) {g : List Byte} {ms : List Msg}
    (hms : ∀ m ∈ ms, IsMsg C m) {ops : List Op} {w : World C} {os : List Obs}
    (h : Reached B user fuel (ops ++ [.process]) w os) (hh : w.rx.hasHandler = true)
    (hf : w.fed = g ++ f ++ frames C.envelope ms) :
    ∃ old, Decodes C (g ++ f) old [] ∧ delivered w = old.map (meaning C) ++ ms.map (meaning C) ∧ buffered w = [] := by
  have := run_frames hms []
  rw [List.append_nil] at this
  obtain ⟨old, h1, h2, h3⟩ := C102_after S hn hne h1 hl h hh hf ⟨this, Or.inl rfl⟩
  exact ⟨old, h1, by rw [h2, List.map_append], h3⟩

/-- Fewer bytes do not do: filler without start code and STX empties every buffer if and only if it has at least three bytes
fewer than the longest message. -/
theorem C102_exact {f : List Byte} (ha : Arith B (recvBufferSize C)) (hne : C.messages ≠ []) (h255 : C.messages.length ≤ 255)
    (h1 : (0x01 : Byte) ∉ f) (h2 : (0x02 : Byte) ∉ f) : Flushes C B f ↔ maxLen C ≤ f.length + 3 := by
  refine ⟨fun hF => ?_, fun hl => C102_flushes ha hne h1 (Or.inr ⟨h2, hl⟩)⟩
  by_cases hlt : maxLen C ≤ f.length + 3
  · exact hlt
  · exfalso
    obtain ⟨t, ht, e⟩ := maxMessageLength_attained C hne
    have hid := idOf_idxOf h255 ht
    generalize UInt8.ofNat (C.messages.idxOf t) = id at hid
    have hann : announced C id = some (maxLen C) := by
      rw [maxLen_eq, ← e, sizeofBound_eq]
      simp [announced, typeOf, hid.1]
    obtain ⟨fuel, ops, w, os, hr, hh, hf⟩ := bytewise ha hne ([0x01, id, 0x02] ++ f)
    have hw : Waiting C ([0x01, id, 0x02] ++ f) := Or.inr (Or.inr ⟨id, f, _, hann, rfl, by simp; omega⟩)
    have hb := (polled_eq ⟨ha, Sample.passive_benign⟩ Sample.passive_neverThrows hr hh
      (by rw [hf]; exact ⟨Run.refl _, Or.inr hw⟩)).2
    rw [hF _ _ _ _ _ _ Sample.passive_benign Sample.passive_neverThrows hr hh hf] at hb
    simp at hb

theorem run_last {s r : List Byte} {ms : List Msg} (h : Run C s ms r) (hl : s.getLast? = some 0x01) : r ≠ [] := by
  induction h with
  | refl => intro e; subst e; simp at hl
  | @take m s r ms hm hrun ih =>
    cases s with
    | nil =>
      exfalso
      rw [List.append_nil] at hl
      cases hE : C.envelope <;>
        rw [hE, frame, List.getLast?_append] at hl <;> simp at hl
    | cons x s => exact ih (by rw [List.getLast?_append] at hl; simpa using hl)
  | @skip b s r ms _ hw _ ih =>
    cases s with
    | nil => simp at hl; subst hl; exact absurd (Or.inl rfl) hw
    | cons x s => exact ih (by simpa using hl)

/-- Start codes never do: a line that idles with start codes, or whose filler ends with one, leaves something in every buffer. -/
theorem C102_start_code {f : List Byte} (S : Setting C B user) (hn : NeverThrows user) {g : List Byte} {ops : List Op}
    {w : World C} {os : List Obs} (h : Reached B user fuel (ops ++ [.process]) w os) (hh : w.rx.hasHandler = true)
    (hf : w.fed = g ++ f ++ [0x01]) : buffered w ≠ [] := by
  obtain ⟨ms, r, hd⟩ := decodes_exists C w.fed
  rw [(polled_eq S hn h hh hd).2]
  exact run_last hd.1 (by rw [hf]; simp)

/-- The longest message of `Sample.basic` has a few bytes; this is its length. -/
example : maxLen Sample.basic = 12 ∧ Sample.basic.messages ≠ [] := by decide

/-- Zeros do, one fewer than that do not. -/
example : Flushes Sample.basic Sample.dbg (List.replicate (9) 0x00) :=
  (C102_exact (by constructor <;> decide) (by decide) (by decide) (by decide) (by decide)).mpr (by decide)
example : ¬ Flushes Sample.basic Sample.dbg (List.replicate (8) 0x00) := fun h =>
  absurd ((C102_exact (by constructor <;> decide) (by decide) (by decide) (by decide) (by decide)).mp h) (by decide)

/-- STX bytes need two more. -/
example : Flushes Sample.basic Sample.dbg (List.replicate (11) 0x02) :=
  C102_flushes (by constructor <;> decide) (by decide) (by decide) (Or.inl (by decide))

/-- A false start of the longest type, nine zeros and a message: the message arrives, nothing is left. -/
example : ∃ (w : World Sample.basic) (os : List Obs),
    Reached Sample.dbg Sample.passive 50
      ([.setHandler Sample.h0, .append [1, 2, 2], .process, .append (List.replicate 9 0), .process,
        .append (frames .basic [Sample.mPose])] ++ [.process]) w os ∧
    ∃ old, Decodes Sample.basic ([1, 2, 2] ++ List.replicate 9 0) old [] ∧
      delivered w = old.map (meaning Sample.basic) ++ [meaning Sample.basic Sample.mPose] ∧ buffered w = [] := by
  obtain ⟨w, os, h, hp⟩ := Sample.reached (C := Sample.basic) (B := Sample.dbg)
    (user := Sample.passive) (fuel := 50)
    (ops := [.setHandler Sample.h0, .append [1, 2, 2], .process, .append (List.replicate 9 0), .process,
        .append (frames .basic [Sample.mPose])] ++ [.process])
    (fun w _ => w.rx.hasHandler) (by decide +kernel)
  have hf := C25_fed_is_chunks Sample.setting_basic Sample.passive_quiet (by simp) h
  exact ⟨w, os, h, C102_messages Sample.setting_basic Sample.passive_neverThrows (by decide) (f := List.replicate 9 0)
    (by decide) (Or.inr (by decide)) (ms := [Sample.mPose]) (by decide +kernel) h hp (by rw [hf]; rfl)⟩

/-- A line that idles with start codes. -/
example : ∃ (w : World Sample.basic) (os : List Obs),
    Reached Sample.dbg Sample.passive 50
      ([.setHandler Sample.h0, .append (List.replicate 20 1)] ++ [.process]) w os ∧ buffered w ≠ [] := by
  obtain ⟨w, os, h, hp⟩ := Sample.reached (C := Sample.basic) (B := Sample.dbg)
    (user := Sample.passive) (fuel := 50)
    (ops := [.setHandler Sample.h0, .append (List.replicate 20 1)] ++ [.process])
    (fun w _ => w.rx.hasHandler) (by decide +kernel)
  have hf := C25_fed_is_chunks Sample.setting_basic Sample.passive_quiet (by simp) h
  exact ⟨w, os, h, C102_start_code Sample.setting_basic Sample.passive_neverThrows (g := []) (f := List.replicate 19 1) h hp
    (by rw [hf]; rfl)⟩

end TT.Properties
