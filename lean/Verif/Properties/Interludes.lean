import Verif.Properties.Recovery
import Verif.Properties.Memory

/-!
# Property C135: what may be on the line between messages

Exactly which bytes between messages are harmless.
-/

namespace TT.Properties
open Spec

variable {C : Collection} {B : Build} {user : UserCode} {fuel : Nat}

/-- Bytes `r` at the end of something that is not a message, of which nothing comes whatever message follows (with the
envelope Basic). They are not themselves a message. A start code alone must not be able to join messages of ids 1 and 2,
unless they are equally long or the first is empty. And what has the beginning of a message of `n` bytes lacks at most four
bytes, or one byte less than every message has. -/
structure Falters (C : Collection) (r : List Byte) : Prop where
  noMsg : ¬ Starts C r
  code : r = [0x01] → ∀ n₁ n₂, announced C 0x01 = some n₁ → announced C 0x02 = some n₂ → n₁ = 5 ∨ n₁ = n₂
  begun : ∀ id rest n, r = 0x01 :: id :: 0x02 :: rest → announced C id = some n → r.length < n →
    n ≤ r.length + 4 ∨ ∀ id' n', announced C id' = some n' → n + 1 = r.length + n'

/-- Bytes of which nothing comes, wherever a receiver looks. -/
def Interlude (C : Collection) (g : List Byte) : Prop := ∀ r, r ≠ [] → r <:+ g → Falters C r

theorem Interlude.tail {b : Byte} {g : List Byte} (h : Interlude C (b :: g)) : Interlude C g :=
  fun r hne hr => h r hne (hr.trans (List.suffix_cons b g))

theorem Interlude.nil : Interlude C [] := fun _ hne hr => absurd (List.suffix_nil.mp hr) hne

theorem frame_at {m : Msg} : ∃ f, frame C.envelope m = 0x01 :: m.id :: 0x02 :: f := frame_cons C.envelope m

/-- A message behind such bytes ends every attempt to read a message from them. -/
theorem falters_message (hE : C.envelope = .basic) {r : List Byte} (h : Falters C r) (hne : r ≠ []) {m : Msg} (hm : IsMsg C m)
    (s : List Byte) : ¬ Starts C (r ++ (frame C.envelope m ++ s)) ∧ ¬ Waiting C (r ++ (frame C.envelope m ++ s)) := by
  have hlm := frame_length C.envelope m
  have h5 := announced_ge hm.announced
  have hov : overhead C.envelope = 5 := by rw [hE]; rfl
  obtain ⟨f, hf⟩ := frame_at (C := C) (m := m)
  have at' : ∀ j, (r ++ (frame C.envelope m ++ s))[r.length + j]? = (frame C.envelope m ++ s)[j]? := by
    intro j
    rw [List.getElem?_append_right (by omega)]
    congr 1
    omega
  have a0 : (r ++ (frame C.envelope m ++ s))[r.length + 0]? = some 0x01 := by rw [at', hf]; rfl
  have a1 : (r ++ (frame C.envelope m ++ s))[r.length + 1]? = some m.id := by rw [at', hf]; rfl
  have a2 : (r ++ (frame C.envelope m ++ s))[r.length + 2]? = some 0x02 := by rw [at', hf]; rfl
  have a3 : (r ++ (frame C.envelope m ++ s))[r.length + ((frame C.envelope m).length - 2)]? = some 0x03 := by
    rw [at', List.getElem?_append_left (by omega)]
    have := frame_etx C.envelope m
    rwa [hov] at this
  have hlen : (r ++ (frame C.envelope m ++ s)).length = r.length + (frame C.envelope m).length + s.length := by
    simp; omega
  have hpos : 0 < r.length := List.length_pos_iff.mpr hne
  -- the three ways in which the bytes may begin
  have key : ∀ id n, (r ++ (frame C.envelope m ++ s))[0]? = some 0x01 → (r ++ (frame C.envelope m ++ s))[1]? = some id →
      (r ++ (frame C.envelope m ++ s))[2]? = some 0x02 → announced C id = some n → r.length < n →
      (r.length = 1 ∧ (n = 5 ∨ n = (frame C.envelope m).length)) ∨
      (3 ≤ r.length ∧ (n ≤ r.length + 4 ∨ n + 1 = r.length + (frame C.envelope m).length)) := by
    intro id n e0 e1 e2 hn hlt
    match r, hpos, h, a0, a1, a2, e0, e1, e2, hlt with
    | [b], _, h, a0, a1, a2, e0, e1, e2, _ =>
      left
      have hb : b = 0x01 := Option.some.inj e0
      have hi : (0x01 : Byte) = id := Option.some.inj (a0.symm.trans e1)
      have hm2 : m.id = 0x02 := Option.some.inj (a1.symm.trans e2)
      subst hb hi
      refine ⟨rfl, ?_⟩
      have := hm.announced
      rw [hm2] at this
      exact h.code rfl n _ hn this
    | [b, x], _, _, a0, _, _, _, _, e2, _ =>
      have : (0x01 : Byte) = 0x02 := Option.some.inj (a0.symm.trans e2)
      exact absurd this (by decide)
    | b :: x :: y :: rest, _, h, _, _, _, e0, e1, e2, hlt =>
      right
      have hb : b = 0x01 := Option.some.inj e0
      have hx : x = id := Option.some.inj e1
      have hy : y = 0x02 := Option.some.inj e2
      subst hb hx hy
      refine ⟨by simp, ?_⟩
      rcases h.begun _ _ _ rfl hn hlt with h' | h'
      · exact Or.inl h'
      · exact Or.inr (h' _ _ hm.announced)
  constructor
  · intro hst
    obtain ⟨m'', t, hm'', e⟩ := id hst
    obtain ⟨f'', hf''⟩ := frame_at (C := C) (m := m'')
    have e0 : (r ++ (frame C.envelope m ++ s))[0]? = some 0x01 := by rw [e, hf'']; rfl
    have e1 : (r ++ (frame C.envelope m ++ s))[1]? = some m''.id := by rw [e, hf'']; rfl
    have e2 : (r ++ (frame C.envelope m ++ s))[2]? = some 0x02 := by rw [e, hf'']; rfl
    have hn := hm''.announced
    have hn5 := announced_ge hn
    obtain ⟨e3, e4⟩ := starts_trailer hst e1 hn
    rw [hov] at e3
    by_cases hin : (frame C.envelope m'').length ≤ r.length
    · refine h.noMsg ⟨m'', r.drop (frame C.envelope m'').length, hm'', ?_⟩
      have h1 := congrArg (List.take (frame C.envelope m'').length) e
      rw [List.take_append_of_le_length hin, List.take_left] at h1
      have h2 := List.take_append_drop (frame C.envelope m'').length r
      rw [h1] at h2
      exact h2.symm
    · generalize r ++ (frame C.envelope m ++ s) = S at *
      generalize (frame C.envelope m'').length = n at *
      generalize (frame C.envelope m).length = L at *
      have clash : ∀ {i j : Nat} {x y : Byte}, S[i]? = some x → S[j]? = some y → i = j → x = y := by
        intro i j x y hx hy e
        subst e
        rw [hx] at hy
        exact Option.some.inj hy
      rcases key _ _ e0 e1 e2 hn (by omega) with ⟨h1, h2 | h2⟩ | ⟨h1, h2 | h2⟩
      · exact absurd (clash e3 a2 (by omega)) (by decide)
      · exact absurd (clash e4 a3 (by omega)) (by decide)
      · rcases (by omega : n = r.length + 1 ∨ n = r.length + 2 ∨ n = r.length + 3 ∨ n = r.length + 4) with e | e | e | e
        · exact absurd (clash e4 a0 (by omega)) (by decide)
        · exact absurd (clash e3 a0 (by omega)) (by decide)
        · exact absurd (clash e4 a2 (by omega)) (by decide)
        · exact absurd (clash e3 a2 (by omega)) (by decide)
      · exact absurd (clash e4 a3 (by omega)) (by decide)
  · rintro (e | ⟨id, _, e⟩ | ⟨id, rest, n, hn, e, hlt⟩)
    · rw [e] at hlen; simp at hlen; omega
    · rw [e] at hlen; simp at hlen; omega
    · rcases key id n (by rw [e]; rfl) (by rw [e]; rfl) (by rw [e]; rfl) hn (by omega) with ⟨h1, h2 | h2⟩ | ⟨h1, h2 | h2⟩ <;> omega

theorem run_interlude (hE : C.envelope = .basic) {m : Msg} (hm : IsMsg C m) {s r : List Byte} {ms : List Msg}
    (hr : Run C (frame C.envelope m ++ s) ms r) : ∀ g, Interlude C g → Run C (g ++ (frame C.envelope m ++ s)) ms r := by
  intro g
  induction g with
  | nil => intro _; exact hr
  | cons b g ih =>
    intro h
    obtain ⟨n1, n2⟩ := falters_message hE (h (b :: g) (by simp) (List.suffix_refl _)) (by simp) hm s
    exact Run.skip n1 n2 (ih h.tail)

theorem run_none {g : List Byte} (h : ∀ r, r ≠ [] → r <:+ g → ¬ Starts C r) {ms : List Msg} {r : List Byte} (hr : Run C g ms r) :
    ms = [] ∧ r <:+ g := by
  induction hr with
  | refl s => exact ⟨rfl, List.suffix_refl _⟩
  | @take m s r ms hm _ _ =>
    refine absurd ⟨m, s, hm, rfl⟩ (h _ ?_ (List.suffix_refl _))
    obtain ⟨f, hf⟩ := frame_at (C := C) (m := m)
    simp [hf]
  | @skip b s r ms _ _ _ ih =>
    obtain ⟨e, hs⟩ := ih fun r hne hr => h r hne (hr.trans (List.suffix_cons _ _))
    exact ⟨e, hs.trans (List.suffix_cons _ _)⟩

/-- Messages with something before each of them and at the end. -/
def withInterludes (E : Envelope) (parts : List (List Byte × Msg)) (last : List Byte) : List Byte :=
  (parts.flatMap fun p => p.1 ++ frame E p.2) ++ last

theorem decodes_last {g : List Byte} (h : ∀ r, r ≠ [] → r <:+ g → ¬ Starts C r) : ∃ r, Decodes C g [] r ∧ r <:+ g := by
  obtain ⟨ms, r, hd⟩ := decodes_exists C g
  obtain ⟨rfl, hs⟩ := run_none h hd.1
  exact ⟨r, hd, hs⟩

/-- C135, with the envelope Basic. Bytes of which nothing comes may stand before, between and behind messages: exactly the
messages are delivered. -/
theorem C135_harmless (hE : C.envelope = .basic) (S : Setting C B user) (hn : NeverThrows user) {ops : List Op} {w : World C}
    {os : List Obs} (h : Reached B user fuel (ops ++ [.process]) w os) (hh : w.rx.hasHandler = true)
    {parts : List (List Byte × Msg)} {last : List Byte} (hp : ∀ p ∈ parts, Interlude C p.1 ∧ IsMsg C p.2) (hl : Interlude C last)
    (hfed : w.fed = withInterludes C.envelope parts last) :
    delivered w = parts.map (fun p => meaning C p.2) ∧ buffered w <:+ last := by
  obtain ⟨r, hd, hs⟩ := decodes_last fun r hne hr => (hl r hne hr).noMsg
  have hrun : Run C (withInterludes C.envelope parts last) (parts.map (·.2)) r := by
    clear hfed
    induction parts with
    | nil => exact hd.1
    | cons p parts ih =>
      obtain ⟨hg, hm⟩ := hp p (by simp)
      have := run_interlude hE hm (Run.take hm (ih fun q hq => hp q (by simp [hq]))) p.1 hg
      simpa [withInterludes] using this
  obtain ⟨e1, e2⟩ := polled_eq S hn h hh ⟨hfed ▸ hrun, hd.2⟩
  refine ⟨by rw [e1, List.map_map]; rfl, by rw [e2]; exact hs⟩

/-- C135, both envelopes. In particular this holds for bytes within which, and together with what follows, no message can
begin. -/
theorem C135_both (S : Setting C B user) (hn : NeverThrows user) {ops : List Op} {w : World C}
    {os : List Obs} (h : Reached B user fuel (ops ++ [.process]) w os) (hh : w.rx.hasHandler = true)
    {parts : List (List Byte × Msg)} {last : List Byte}
    (hp : ∀ p ∈ parts, (∀ i < p.1.length, ¬ MayStart C (p.1 ++ [0x01, p.2.id, 0x02]) i) ∧ IsMsg C p.2)
    (hl : ∀ i < last.length, ¬ MayStart C last i) (hfed : w.fed = withInterludes C.envelope parts last) :
    delivered w = parts.map (fun p => meaning C p.2) ∧ buffered w = [] := by
  have skip : ∀ (s r : List Byte) (ms : List Msg), Run C s ms r → ∀ g : List Byte, (∀ i < g.length, ¬ MayStart C (g ++ s) i) →
      Run C (g ++ s) ms r := by
    intro s r ms hr g
    induction g with
    | nil => intro _; exact hr
    | cons b g ih =>
      intro hg
      obtain ⟨n1, n2⟩ := skip_of_no_start (s := b :: g ++ s) (hg 0 (by simp))
      refine Run.skip n1 n2 (ih fun i hi hst => hg (i + 1) (by simpa using hi) ?_)
      exact hst
  have hrun : Run C (withInterludes C.envelope parts last) (parts.map (·.2)) [] := by
    clear hfed
    induction parts with
    | nil =>
      have := skip [] [] [] (Run.refl _) last (by simpa using hl)
      simpa [withInterludes] using this
    | cons p parts ih =>
      obtain ⟨hg, hm⟩ := hp p (by simp)
      obtain ⟨f, hf⟩ := frame_at (C := C) (m := p.2)
      have := skip _ _ _ (Run.take hm (ih fun q hq => hp q (by simp [hq]))) p.1 (by
        intro i hi hst
        refine hg i hi ?_
        have e : p.1 ++ (frame C.envelope p.2 ++ withInterludes C.envelope parts last) =
            (p.1 ++ [0x01, p.2.id, 0x02]) ++ (f ++ withInterludes C.envelope parts last) := by rw [hf]; simp
        rw [e] at hst
        unfold MayStart at hst ⊢
        have at' : ∀ j < p.1.length + 3, ((p.1 ++ [0x01, p.2.id, 0x02]) ++ (f ++ withInterludes C.envelope parts last))[j]? =
            (p.1 ++ [0x01, p.2.id, 0x02])[j]? := fun j hj => List.getElem?_append_left (by simpa using hj)
        rwa [at' i (by omega), at' (i + 1) (by omega), at' (i + 2) (by omega)] at hst)
      simpa [withInterludes] using this
  obtain ⟨e1, e2⟩ := polled_eq S hn h hh ⟨hfed ▸ hrun, Or.inl rfl⟩
  exact ⟨by rw [e1, List.map_map]; rfl, e2⟩

/-! ### All other bytes can do harm -/

theorem isMsg_of_announced (hE : C.envelope = .basic) {id : Byte} {n : Nat} (h : announced C id = some n) {p : List Byte}
    (hp : p.length + 5 = n) : IsMsg C ⟨id, p⟩ := by
  unfold announced at h
  cases ht : typeOf C id with
  | none => simp [ht] at h
  | some t =>
    refine ⟨t, ht, ?_⟩
    rw [ht, hE] at h
    simp only [Option.map_some, Option.some.injEq, overhead] at h
    show p.length = payloadSize t
    omega

theorem interlude_first : ∀ {g : List Byte}, ¬ Interlude C g → ∃ pre r, g = pre ++ r ∧ r ≠ [] ∧ ¬ Falters C r ∧
    ∀ b, b ≠ [] → b <:+ pre → Falters C (b ++ r) := by
  intro g
  induction g with
  | nil => intro h; exact absurd Interlude.nil h
  | cons x g ih =>
    intro h
    by_cases hf : Falters C (x :: g)
    · have hg : ¬ Interlude C g := by
        intro hg
        apply h
        intro r hne hr
        rcases List.suffix_cons_iff.mp hr with rfl | hr
        · exact hf
        · exact hg r hne hr
      obtain ⟨pre, r, e, hne, hr, hall⟩ := ih hg
      refine ⟨x :: pre, r, by rw [e]; rfl, hne, hr, ?_⟩
      intro b hb hs
      rcases List.suffix_cons_iff.mp hs with rfl | hs
      · rw [e] at hf
        exact hf
      · exact hall b hb hs
    · exact ⟨[], x :: g, rfl, by simp, hf, fun b hb hs => absurd (List.suffix_nil.mp hs) hb⟩

theorem run_before (hE : C.envelope = .basic) {m : Msg} (hm : IsMsg C m) (r : List Byte) :
    ∀ pre : List Byte, (∀ b, b ≠ [] → b <:+ pre → Falters C (b ++ r)) →
      Run C (pre ++ (r ++ frame C.envelope m)) [] (r ++ frame C.envelope m) := by
  intro pre
  induction pre with
  | nil => intro _; exact Run.refl _
  | cons x pre ih =>
    intro h
    have := falters_message hE (h (x :: pre) (by simp) (List.suffix_refl _)) (by simp) hm []
    simp only [List.append_nil, List.append_assoc] at this
    exact Run.skip this.1 this.2 (ih fun b hb hs => h b hb (hs.trans (List.suffix_cons _ _)))

/-- Where all messages are empty, one is always found. -/
theorem run_empties (hall : ∀ id n, announced C id = some n → n = 5) {m : Msg} (hm : IsMsg C m) : ∀ t : List Byte,
    ∃ es r, Decodes C (t ++ frame C.envelope m) es r ∧ es ≠ [] := by
  intro t
  induction t with
  | nil => exact ⟨[m], [], ⟨by simpa using Run.take hm (Run.refl []), Or.inl rfl⟩, by simp⟩
  | cons b t ih =>
    by_cases hst : Starts C (b :: t ++ frame C.envelope m)
    · obtain ⟨m', t', hm', e⟩ := hst
      obtain ⟨es, r, hd⟩ := decodes_exists C t'
      rw [e]
      exact ⟨m' :: es, r, ⟨Run.take hm' hd.1, hd.2⟩, by simp⟩
    · obtain ⟨es, r, hd, hne⟩ := ih
      have h5 := announced_ge hm.announced
      have hl : (b :: t ++ frame C.envelope m).length = t.length + 1 + (frame C.envelope m).length := by simp; omega
      suffices hw : ¬ Waiting C (b :: t ++ frame C.envelope m) from ⟨es, r, ⟨Run.skip hst hw hd.1, hd.2⟩, hne⟩
      rintro (e | ⟨id, _, e⟩ | ⟨id, rest, n, hn, _, hlt⟩)
      · rw [e] at hl; simp at hl; omega
      · rw [e] at hl; simp at hl; omega
      · have := hall id n hn
        omega

theorem take_other {r : List Byte} {m m' : Msg} (hm' : IsMsg C m') {t : List Byte} (e : r ++ frame C.envelope m = frame C.envelope m' ++ t)
    (hne : m' ≠ m) : ∃ es r', Decodes C (r ++ frame C.envelope m) es r' ∧ es ≠ [m] := by
  obtain ⟨es, r', hd⟩ := decodes_exists C t
  rw [e]
  exact ⟨m' :: es, r', ⟨Run.take hm' hd.1, hd.2⟩, by simp [hne]⟩

/-- Bytes that do not falter can be followed by a message that is not delivered as it should. -/
theorem not_falters (hE : C.envelope = .basic) (hC : ∃ id n, announced C id = some n) {r : List Byte} (h : ¬ Falters C r) :
    ∃ m, IsMsg C m ∧ ∃ es r', Decodes C (r ++ frame C.envelope m) es r' ∧ es ≠ [m] := by
  by_cases hst : Starts C r
  · obtain ⟨m', t, hm', e⟩ := hst
    by_cases hall : ∀ id n, announced C id = some n → n = 5
    · obtain ⟨id, n, hn⟩ := hC
      have hm := isMsg_of_announced hE hn (p := []) (by rw [hall id n hn]; rfl)
      obtain ⟨es, r', hd, hne⟩ := run_empties hall hm t
      refine ⟨_, hm, m' :: es, r', ⟨?_, hd.2⟩, ?_⟩
      · rw [e, List.append_assoc]
        exact Run.take hm' hd.1
      · intro e'
        exact hne (List.cons.inj e').2
    · simp only [Classical.not_forall] at hall
      obtain ⟨id, n, hn, h5⟩ := hall
      have hge := announced_ge hn
      have h0 := isMsg_of_announced hE hn (p := List.replicate (n - 5) 0) (by simp; omega)
      have h1 := isMsg_of_announced hE hn (p := List.replicate (n - 5) 1) (by simp; omega)
      have h01 : (⟨id, List.replicate (n - 5) 0⟩ : Msg) ≠ ⟨id, List.replicate (n - 5) 1⟩ := by
        intro e'
        have := congrArg Msg.payload e'
        obtain ⟨k, hk⟩ : ∃ k, n - 5 = k + 1 := ⟨n - 6, by omega⟩
        simp [hk, List.replicate_succ] at this
      by_cases hm0 : m' = ⟨id, List.replicate (n - 5) 0⟩
      · exact ⟨_, h1, take_other hm' (t := t ++ _) (by rw [e, List.append_assoc]) (by rw [hm0]; exact h01)⟩
      · exact ⟨_, h0, take_other hm' (t := t ++ _) (by rw [e, List.append_assoc]) hm0⟩
  by_cases hcode : r = [0x01] → ∀ n₁ n₂, announced C 0x01 = some n₁ → announced C 0x02 = some n₂ → n₁ = 5 ∨ n₁ = n₂
  · have hbeg : ¬ ∀ id rest n, r = 0x01 :: id :: 0x02 :: rest → announced C id = some n → r.length < n →
        n ≤ r.length + 4 ∨ ∀ id' n', announced C id' = some n' → n + 1 = r.length + n' := fun hb => h ⟨hst, hcode, hb⟩
    simp only [Classical.not_forall, not_or] at hbeg
    obtain ⟨id, rest, n, hr, hn, hlt, hk, id', n', hn', hne⟩ := hbeg
    have hge := announced_ge hn'
    have hrl : r.length = rest.length + 3 := by rw [hr]; simp
    rcases Nat.lt_trichotomy (n - r.length) n' with hc | hc | hc
    · -- the beginning is completed within the message
      have hm := isMsg_of_announced hE hn'
        (p := List.replicate (n - r.length - 5) 0 ++ [3, 4] ++ List.replicate (n' - (n - r.length) - 2) 0) (by simp; omega)
      have hf := isMsg_of_announced hE hn (p := rest ++ [1, id', 2] ++ List.replicate (n - r.length - 5) 0) (by simp; omega)
      refine ⟨_, hm, take_other hf (t := List.replicate (n' - (n - r.length) - 2) 0 ++ [3, 4]) ?_ ?_⟩
      · rw [hE, hr]
        simp [frame]
      · intro e
        have e := congrArg Msg.payload e
        have h1 : (1 : Byte) ∈ rest ++ [1, id', 2] ++ List.replicate (n - r.length - 5) 0 := by simp
        have e' : rest ++ [1, id', 2] ++ List.replicate (n - r.length - 5) 0 =
          List.replicate (n - r.length - 5) 0 ++ [3, 4] ++ List.replicate (n' - (n - r.length) - 2) 0 := e
        rw [e'] at h1
        simp at h1
    · -- it ends with the message
      have hm := isMsg_of_announced hE hn' (p := List.replicate (n' - 5) 0) (by simp; omega)
      have hf := isMsg_of_announced hE hn (p := rest ++ [1, id', 2] ++ List.replicate (n' - 5) 0) (by simp; omega)
      refine ⟨_, hm, take_other hf (t := []) ?_ ?_⟩
      · rw [hE, hr]
        simp [frame]
      · intro e
        have := congrArg (fun m : Msg => m.payload.length) e
        simp at this
        omega
    · -- the message is held back
      have hm := isMsg_of_announced hE hn' (p := List.replicate (n' - 5) 0) (by simp; omega)
      refine ⟨_, hm, [], _, ⟨Run.refl _, Or.inr (Or.inr (Or.inr ⟨id, _, n, hn, by rw [hr]; rfl, ?_⟩))⟩, by simp⟩
      rw [List.length_append, frame_length, hE]
      simp only [overhead, List.length_replicate]
      omega
  · simp only [Classical.not_forall, not_or] at hcode
    obtain ⟨hr, n₁, n₂, h1, h2, h3, h4⟩ := hcode
    have hg1 := announced_ge h1
    have hg2 := announced_ge h2
    rcases Nat.lt_trichotomy n₁ (n₂ + 1) with hc | hc | hc
    · have hm := isMsg_of_announced hE h2
        (p := List.replicate (n₁ - 6) 0 ++ [3, 4] ++ List.replicate (n₂ - n₁ - 1) 0) (by simp; omega)
      have hf := isMsg_of_announced hE h1 (p := 2 :: List.replicate (n₁ - 6) 0) (by simp; omega)
      refine ⟨_, hm, take_other hf (t := List.replicate (n₂ - n₁ - 1) 0 ++ [3, 4]) ?_ ?_⟩
      · rw [hE, hr]
        simp [frame]
      · intro e
        have e : (1 : Byte) = 2 := congrArg Msg.id e
        exact absurd e (by decide)
    · have hm := isMsg_of_announced hE h2 (p := List.replicate (n₂ - 5) 0) (by simp; omega)
      have hf := isMsg_of_announced hE h1 (p := 2 :: List.replicate (n₂ - 5) 0) (by simp; omega)
      refine ⟨_, hm, take_other hf (t := []) ?_ ?_⟩
      · rw [hE, hr]
        simp [frame]
      · intro e
        have e : (1 : Byte) = 2 := congrArg Msg.id e
        exact absurd e (by decide)
    · have hm := isMsg_of_announced hE h2 (p := List.replicate (n₂ - 5) 0) (by simp; omega)
      refine ⟨_, hm, [], _, ⟨Run.refl _, Or.inr (Or.inr (Or.inr ⟨1, _, n₁, h1, by rw [hr, hE]; rfl, ?_⟩))⟩, by simp⟩
      rw [List.length_append, frame_length, hE, hr]
      simp only [overhead, List.length_replicate, List.length_singleton]
      omega

/-- C135, with the envelope Basic. All other bytes can do harm: there is a message which, sent behind them, is not delivered,
or something else is delivered with it or in its place, whatever has been sent before. -/
theorem C135_harmful (hE : C.envelope = .basic) (hd : C.messages.Nodup) (hC : C.messages ≠ []) {g : List Byte} (hg : ¬ Interlude C g) :
    ∃ m, IsMsg C m ∧ ∀ {B : Build} {user : UserCode} {fuel : Nat}, Setting C B user → NeverThrows user →
      ∀ {ops : List Op} {w : World C} {os : List Obs}, Reached B user fuel (ops ++ [.process]) w os → w.rx.hasHandler = true →
      ∀ before : List Msg, (∀ m ∈ before, IsMsg C m) → w.fed = frames C.envelope before ++ g ++ frame C.envelope m →
      delivered w ≠ (before ++ [m]).map (meaning C) := by
  obtain ⟨pre, r, e, _, hr, hall⟩ := interlude_first hg
  have hC' : ∃ id n, announced C id = some n := by
    obtain ⟨t, ts, ht⟩ := List.exists_cons_of_ne_nil hC
    exact ⟨0, overhead C.envelope + payloadSize t, by simp [announced, typeOf, ht]⟩
  obtain ⟨m, hm, es, r', hdec, hne⟩ := not_falters hE hC' hr
  refine ⟨m, hm, ?_⟩
  intro B user fuel S hn ops w os h hh before hb hfed heq
  have hrun : Run C w.fed (before ++ es) r' := by
    rw [hfed, e, List.append_assoc, List.append_assoc]
    exact (run_frames hb _).trans ((run_before hE hm r pre hall).trans hdec.1)
  obtain ⟨e1, -⟩ := polled_eq S hn h hh ⟨hrun, hdec.2⟩
  rw [heq, List.map_append, List.map_append, List.append_cancel_left_eq] at e1
  have hes : ∀ m ∈ es, IsMsg C m := hdec.1.isMsg
  match es, hne, hes, e1 with
  | [], _, _, e1 => simp at e1
  | [m'], hne, hes, e1 =>
    refine hne ?_
    rw [meaning_injective hd hm (hes m' (by simp)) (by simpa using e1)]
  | _ :: _ :: _, _, _, e1 => simp at e1

/-! ### Examples -/

theorem Interlude.cons {b : Byte} {g : List Byte} (h : Falters C (b :: g)) (hg : Interlude C g) : Interlude C (b :: g) := by
  intro r hne hr
  rcases List.suffix_cons_iff.mp hr with rfl | hr
  · exact h
  · exact hg r hne hr

/-- Where no message can begin. -/
theorem Falters.of_no_start {r : List Byte} (h : ¬ MayStart C r 0) : Falters C r := by
  refine ⟨(skip_of_no_start h).1, ?_, ?_⟩
  · rintro rfl
    exact absurd ⟨rfl, rfl, rfl⟩ h
  · rintro id rest n rfl hn _
    refine absurd ⟨rfl, ?_, rfl⟩ h
    cases ht : typeOf C id with
    | none => simp [announced, ht] at hn
    | some t => simp [ht]

/-- A message that lacks up to four bytes. -/
theorem Falters.of_short {id : Byte} {rest : List Byte} {n : Nat} (hn : announced C id = some n) (h1 : rest.length + 3 < n)
    (h2 : n ≤ rest.length + 7) : Falters C (0x01 :: id :: 0x02 :: rest) := by
  refine ⟨?_, by simp, ?_⟩
  · rintro ⟨m, t, hm, e⟩
    have h3 := frame_id C.envelope m t
    rw [← e] at h3
    have h4 : id = m.id := Option.some.inj h3
    have h5 := hm.announced
    rw [← h4, hn] at h5
    have h6 := congrArg List.length e
    have h7 := Option.some.inj h5
    simp at h6
    omega
  · intro id' rest' n' e hn' _
    simp only [List.cons.injEq, true_and] at e
    obtain ⟨rfl, rfl⟩ := e
    rw [hn] at hn'
    left
    have := Option.some.inj hn'
    simp
    omega

/-- Text with start codes, and the beginning of a `pose` of which the last four bytes are missing. -/
theorem text_interlude : Interlude Sample.basic [72, 105, 1, 72, 1, 1, 3, 1, 2, 2, 1, 0, 9, 9, 10] := by
  have hs : ∀ g : List Byte, (∀ i < g.length, ¬ MayStart Sample.basic g i) → Interlude Sample.basic g := by
    intro g
    induction g with
    | nil => intro _; exact Interlude.nil
    | cons b g ih =>
      intro h
      refine Interlude.cons (Falters.of_no_start (h 0 (by simp))) (ih fun i hi hst => h (i + 1) (by simpa using hi) hst)
  have e : announced Sample.basic 2 = some 12 := by decide
  have h1 : Interlude Sample.basic [1, 2, 2, 1, 0, 9, 9, 10] :=
    Interlude.cons (Falters.of_short e (by simp) (by simp)) (hs _ (by decide +kernel))
  exact Interlude.cons (.of_no_start (by decide +kernel)) <| Interlude.cons (.of_no_start (by decide +kernel)) <|
    Interlude.cons (.of_no_start (by decide +kernel)) <| Interlude.cons (.of_no_start (by decide +kernel)) <|
    Interlude.cons (.of_no_start (by decide +kernel)) <| Interlude.cons (.of_no_start (by decide +kernel)) <|
    Interlude.cons (.of_no_start (by decide +kernel)) h1

example : ∃ (w : World Sample.basic) (os : List Obs),
    Reached Sample.dbg Sample.passive 50
      ([.setHandler Sample.h0, .append [72, 105, 1, 72, 1, 1, 3, 1, 2, 2, 1, 0, 9, 9, 10], .process,
        .append (frame .basic ⟨1, [7]⟩), .process, .append [72, 105, 1, 72, 1, 1, 3, 1, 2, 2, 1, 0, 9, 9, 10]] ++
        [.process]) w os ∧
    delivered w = [meaning Sample.basic ⟨1, [7]⟩] := by
  obtain ⟨w, os, h, hp⟩ := Sample.reached (C := Sample.basic) (B := Sample.dbg) (user := Sample.passive) (fuel := 50)
    (ops := [.setHandler Sample.h0, .append [72, 105, 1, 72, 1, 1, 3, 1, 2, 2, 1, 0, 9, 9, 10], .process,
        .append (frame .basic ⟨1, [7]⟩), .process, .append [72, 105, 1, 72, 1, 1, 3, 1, 2, 2, 1, 0, 9, 9, 10]] ++ [.process])
    (fun w _ => w.rx.hasHandler) (by decide +kernel)
  have hf := C25_fed_is_chunks Sample.setting_basic Sample.passive_quiet (by simp) h
  have hm : IsMsg Sample.basic ⟨1, [7]⟩ := by decide +kernel
  exact ⟨w, os, h, (C135_harmless rfl Sample.setting_basic Sample.passive_neverThrows h hp
    (parts := [([72, 105, 1, 72, 1, 1, 3, 1, 2, 2, 1, 0, 9, 9, 10], ⟨1, [7]⟩)])
    (last := [72, 105, 1, 72, 1, 1, 3, 1, 2, 2, 1, 0, 9, 9, 10])
    (by intro p hp; rw [List.mem_singleton.mp hp]; exact ⟨text_interlude, hm⟩) text_interlude (by rw [hf]; decide +kernel)).1⟩

/-- With a checksum, text with start codes. -/
example : ∃ (w : World Sample.checked) (os : List Obs),
    Reached Sample.dbg Sample.passive 50
      ([.setHandler Sample.h0, .append [72, 1, 1, 3, 1, 72, 1, 0], .process, .append (frame .basicChecksum ⟨1, [7]⟩)] ++
        [.process]) w os ∧
    delivered w = [meaning Sample.checked ⟨1, [7]⟩] := by
  obtain ⟨w, os, h, hp⟩ := Sample.reached (C := Sample.checked) (B := Sample.dbg) (user := Sample.passive) (fuel := 50)
    (ops := [.setHandler Sample.h0, .append [72, 1, 1, 3, 1, 72, 1, 0], .process, .append (frame .basicChecksum ⟨1, [7]⟩)] ++
        [.process])
    (fun w _ => w.rx.hasHandler) (by decide +kernel)
  have hf := C25_fed_is_chunks Sample.setting_checked Sample.passive_quiet (by simp) h
  exact ⟨w, os, h, (C135_both Sample.setting_checked Sample.passive_neverThrows h hp
    (parts := [([72, 1, 1, 3, 1, 72, 1, 0], ⟨1, [7]⟩)]) (last := []) (by decide +kernel) (by simp) (by rw [hf]; decide +kernel)).1⟩

/-- A start code alone is not harmless: `level` has id 1 and is not as long as `pose`, which has id 2. -/
theorem start_code_harmful : ¬ Interlude Sample.basic [1] := by
  intro h
  have := (h [1] (by simp) (List.suffix_refl _)).code rfl 6 12 (by decide) (by decide)
  omega

example : ∃ m, IsMsg Sample.basic m ∧ ∀ {ops : List Op} {w : World Sample.basic} {os : List Obs},
    Reached Sample.dbg Sample.passive 50 (ops ++ [.process]) w os → w.rx.hasHandler = true →
    w.fed = [1] ++ frame .basic m → delivered w ≠ [meaning Sample.basic m] := by
  obtain ⟨m, hm, h⟩ := C135_harmful (C := Sample.basic) rfl (by decide +kernel) (by decide) start_code_harmful
  exact ⟨m, hm, fun hr hh hf => by simpa using h Sample.setting_basic Sample.passive_neverThrows hr hh [] (by simp) (by rw [hf]; rfl)⟩

end TT.Properties
