import Verif.Properties.Aborted
import Verif.Properties.LostRuns
import Verif.Properties.Completion
import Verif.Properties.Forever
import Verif.Properties.Network

/-!
# Property C132: sending again what could not be sent

A program that sends a message again until `send` returns, to a transmitter that throws now and then.
-/

namespace TT.Properties
open Spec

variable {C : Collection} {B : Build} {user : UserCode} {fuel : Nat}

/-- Attempts at a message: what each of those that failed put on the line. In the end one succeeds. -/
structure Retried where
  m : Msg
  tries : List (List Byte)

/-- The bytes of all attempts at a message. -/
def Retried.line (E : Envelope) (u : Retried) : List Byte := u.tries.flatten ++ frame E u.m

/-- How often the complete message is among them: once, and once more for each attempt that failed only after the last
byte. -/
def Retried.copies (E : Envelope) (u : Retried) : Nat := u.tries.countP (· == frame E u.m) + 1

/-- How far the last byte is behind the byte `0x03` at the end of each message. -/
def endGap : Envelope → Nat
  | .basic => 1
  | .basicChecksum => 2

/-- The end of a message occurs at place `i`: the byte `0x03`, and the byte `0x04` where it has to be. -/
def EndAt (E : Envelope) (s : List Byte) (i : Nat) : Prop := s[i]? = some 0x03 ∧ s[i + endGap E]? = some 0x04

instance (E : Envelope) (s : List Byte) (i : Nat) : Decidable (EndAt E s i) := by unfold EndAt; infer_instance

/-- Messages that can be sent again: neither the beginning nor the end of a message occurs inside; with a checksum, the id
is not that of the end code. -/
structure Retriable (C : Collection) (m : Msg) : Prop where
  solid : Solid C m
  idNotEnd : C.envelope = .basicChecksum → m.id ≠ 0x04
  noEnd : ∀ i < (frame C.envelope m).length - (endGap C.envelope + 1), ¬ EndAt C.envelope (frame C.envelope m) i

instance (C : Collection) (m : Msg) : Decidable (Retriable C m) :=
  decidable_of_iff (Solid C m ∧ (C.envelope = .basicChecksum → m.id ≠ 0x04) ∧
    ∀ i < (frame C.envelope m).length - (endGap C.envelope + 1), ¬ EndAt C.envelope (frame C.envelope m) i)
    ⟨fun h => ⟨h.1, h.2.1, h.2.2⟩, fun h => ⟨h.1, h.2, h.3⟩⟩

/-- What is asked of the messages; and if the message has id 2 and there is a message with id 1, no attempt failed just
behind a byte `0x01`. -/
structure Retried.Fit (C : Collection) (u : Retried) : Prop where
  isMsg : IsMsg C u.m
  clean : Retriable C u.m
  cut : ∀ q ∈ u.tries, q <+: frame C.envelope u.m
  second : u.m.id = 0x02 → typeOf C 0x01 ≠ none → ∀ q ∈ u.tries, q.getLast? ≠ some 0x01

/-- What may follow an attempt that failed: another attempt, or the message. -/
structure Ahead (E : Envelope) (m : Msg) (s : List Byte) : Prop where
  head : s[0]? = some 0x01
  second : s[1]? = some 0x01 ∨ s[1]? = some m.id
  long : (frame E m).length ≤ s.length
  noEnd : ∀ i, i + (endGap E + 1) < (frame E m).length → ¬ EndAt E s i

theorem frame_head_three (E : Envelope) (m : Msg) : ∃ t, frame E m = 0x01 :: m.id :: 0x02 :: t := by
  cases E <;> exact ⟨_, rfl⟩

theorem endGap_cases (E : Envelope) : endGap E = 1 ∨ endGap E = 2 ∧ E = .basicChecksum := by
  cases E <;> simp [endGap]

/-- A message without start and end codes inside can be sent again. -/
theorem Clean.retriable {m : Msg} (hc : Clean C.envelope m) : Retriable C m := by
  have key : ∀ i, i + 1 < (frame C.envelope m).length → (frame C.envelope m)[i]? ≠ some 0x04 := by
    intro i hi h
    have hd : (frame C.envelope m).dropLast[i]? = some 0x04 := by
      rw [List.getElem?_dropLast, if_pos (by omega)]
      exact h
    exact hc.2 _ (List.mem_of_getElem? hd) rfl
  have h5 := frame_three_le C.envelope m
  refine ⟨hc.1.solid, fun _ e => key 1 (by omega) ?_, fun i hi h => key _ (by omega) h.2⟩
  obtain ⟨r, e'⟩ := frame_head_three C.envelope m
  rw [e', e]
  rfl

theorem ahead_frame {m : Msg} (hc : Retriable C m) (t : List Byte) : Ahead C.envelope m (frame C.envelope m ++ t) := by
  refine ⟨?_, Or.inr (frame_id C.envelope m t), by simp, ?_⟩
  · obtain ⟨r, e⟩ := frame_head_three C.envelope m
    rw [e]; rfl
  · intro i hi h
    unfold EndAt at h
    rw [List.getElem?_append_left (by omega), List.getElem?_append_left (by omega)] at h
    exact hc.noEnd i (by omega) h

/-- The first bytes of what follows are not the end code. -/
theorem ahead_early {m : Msg} (hc : Retriable C m) {s : List Byte} (h : Ahead C.envelope m s) {i : Nat}
    (hi : i + 1 ≤ endGap C.envelope) : s[i]? ≠ some 0x04 := by
  intro e
  rcases endGap_cases C.envelope with g | ⟨g, hE⟩
  · have : i = 0 := by omega
    subst this
    rw [h.head] at e
    simp at e
  · have : i = 0 ∨ i = 1 := by omega
    rcases this with rfl | rfl
    · rw [h.head] at e
      simp at e
    · rcases h.second with h' | h' <;> rw [h'] at e
      · simp at e
      · exact hc.idNotEnd hE (Option.some.inj e)

theorem ahead_cut {m : Msg} (hc : Retriable C m) {q s : List Byte} (hq : q <+: frame C.envelope m)
    (hne : q ≠ []) (h : Ahead C.envelope m s) : Ahead C.envelope m (q ++ s) := by
  have at' : ∀ i, i < q.length → (q ++ s)[i]? = (frame C.envelope m)[i]? := by
    intro i hi
    obtain ⟨r, e⟩ := hq
    rw [List.getElem?_append_left hi, ← e, List.getElem?_append_left hi]
  have hpos : 0 < q.length := List.length_pos_iff.2 hne
  obtain ⟨r, e⟩ := frame_head_three C.envelope m
  refine ⟨by rw [at' 0 hpos, e]; rfl, ?_, by have := h.long; simp; omega, ?_⟩
  · by_cases h2 : 1 < q.length
    · right
      rw [at' 1 h2, e]
      rfl
    · left
      rw [List.getElem?_append_right (by omega), ← h.head]
      congr 1
      omega
  · intro i hi he
    obtain ⟨he1, he2⟩ := he
    by_cases h2 : i < q.length
    · rw [at' i h2] at he1
      by_cases h3 : i + endGap C.envelope < q.length
      · rw [at' _ h3] at he2
        exact hc.noEnd i (by omega) ⟨he1, he2⟩
      · rw [List.getElem?_append_right (by omega)] at he2
        exact ahead_early hc h (by rcases endGap_cases C.envelope with g | ⟨g, _⟩ <;> omega) he2
    · rw [List.getElem?_append_right (by omega)] at he1 he2
      refine h.noEnd (i - q.length) (by omega) ⟨he1, ?_⟩
      rw [← he2]
      congr 1
      omega

theorem frame_endAt (E : Envelope) (m : Msg) : EndAt E (frame E m) ((frame E m).length - (endGap E + 1)) := by
  have h5 := frame_three_le E m
  have h := frame_end_code E m
  have h' := frame_last E m
  refine ⟨by cases E <;> exact h, ?_⟩
  rw [← h']
  congr 1
  rcases endGap_cases E with g | ⟨g, _⟩ <;> omega

theorem not_starts_of_endAt {s : List Byte} {id : Byte} {n : Nat} (h1 : s[1]? = some id) (hn : announced C id = some n)
    (he : ¬ EndAt C.envelope s (n - (endGap C.envelope + 1))) : ¬ Starts C s := by
  rintro ⟨m, t, hm, rfl⟩
  rw [frame_id] at h1
  have ha := hm.announced
  rw [Option.some.inj h1, hn] at ha
  have hl := Option.some.inj ha
  subst hl
  apply he
  have h5 := frame_three_le C.envelope m
  have hg := endGap_cases C.envelope
  obtain ⟨a, b⟩ := frame_endAt C.envelope m
  refine ⟨?_, ?_⟩
  · rw [List.getElem?_append_left (by omega)]; exact a
  · rw [List.getElem?_append_left (by omega)]; exact b

/-- Behind an attempt that failed just behind a byte `0x01`. -/
theorem no_start_cut {m : Msg} {s : List Byte} (hs : Ahead C.envelope m s) (h2 : m.id = 0x02 → typeOf C 0x01 = none) :
    ¬ MayStart C (0x01 :: s) 0 := by
  rintro ⟨_, h, h3⟩
  have h1 : (0x01 :: s)[0 + 1]? = some (0x01 : Byte) := by simpa using hs.head
  have h3 : (s[1]?.all (· == 0x02)) = true := by simpa using h3
  rw [h1] at h
  rcases hs.second with e | e <;> rw [e] at h3
  · simp at h3
  · rw [Option.all_some, h2 (by simpa using h3)] at h
    simp at h

/-- The rest of an attempt that failed is skipped. -/
theorem run_rest {m : Msg} (hc : Retriable C m) {s r : List Byte} {ms : List Msg} (hs : Ahead C.envelope m s) (h : Run C s ms r) :
    ∀ (tail pre u : List Byte), pre ≠ [] → frame C.envelope m = pre ++ tail ++ u →
      (m.id = 0x02 → typeOf C 0x01 ≠ none → tail.getLast? ≠ some 0x01) → Run C (tail ++ s) ms r := by
  intro tail
  induction tail with
  | nil => intro _ _ _ _ _; exact h
  | cons b tail ih =>
    intro pre u hpre he h2
    have ih := ih (pre ++ [b]) u (by simp) (by rw [he]; simp) fun a b' e => h2 a b' (by
      cases tail with
      | nil => simp at e
      | cons x tail => rw [List.getLast?_cons_cons]; exact e)
    have hpos : 0 < pre.length := List.length_pos_iff.2 hpre
    have hno : ¬ MayStart C (b :: (tail ++ s)) 0 := by
      intro hst
      have hb : b = 0x01 := Option.some.inj hst.1
      subst hb
      match tail, he, h2, hst with
      | [], _, h2, hst =>
        refine no_start_cut hs (fun e => ?_) hst
        cases ht : typeOf C 0x01 with
        | none => rfl
        | some t => exact absurd rfl (h2 e (by simp [ht]))
      | [x], _, _, hst =>
        have h3 : (s[0]?.all (· == 0x02)) = true := by simpa using hst.2.2
        rw [hs.head] at h3
        simp at h3
      | x :: y :: tail, he, _, hst =>
        refine hc.solid pre.length (by rw [he]; simp) hpos ?_
        have e : frame C.envelope m = pre ++ (0x01 :: x :: y :: (tail ++ u)) := by rw [he]; simp
        rw [e]
        obtain ⟨_, g2, g3⟩ := hst
        refine ⟨?_, ?_, ?_⟩
        · rw [List.getElem?_append_right (by omega)]; simp
        · rw [List.getElem?_append_right (by omega), show pre.length + 1 - pre.length = 1 by omega]; exact g2
        · rw [List.getElem?_append_right (by omega), show pre.length + 2 - pre.length = 2 by omega]; exact g3
    obtain ⟨n1, n2⟩ := skip_of_no_start hno
    exact Run.skip n1 n2 ih

/-- An attempt that failed is skipped. -/
theorem run_again {m : Msg} (hm : IsMsg C m) (hc : Retriable C m) {q s r : List Byte} {ms : List Msg}
    (hq : q <+: frame C.envelope m) (hlt : q.length < (frame C.envelope m).length) (hs : Ahead C.envelope m s)
    (h2 : m.id = 0x02 → typeOf C 0x01 ≠ none → q.getLast? ≠ some 0x01) (h : Run C s ms r) : Run C (q ++ s) ms r := by
  by_cases hne : q = []
  · simpa [hne] using h
  have hA := ahead_cut hc hq hne hs
  obtain ⟨f, hf⟩ := frame_head_three C.envelope m
  cases q with
  | nil => exact absurd rfl hne
  | cons b tail =>
    obtain ⟨u, hu⟩ := hq
    have hb : b = 1 ∧ tail ++ u = m.id :: 0x02 :: f := by
      rw [hf] at hu
      simpa using hu
    obtain ⟨rfl, htail⟩ := hb
    have h5 := frame_three_le C.envelope m
    have hlen := hA.long
    have hgo : ¬ Starts C (1 :: tail ++ s) ∧ ¬ Waiting C (1 :: tail ++ s) := by
      cases tail with
      | cons x tail =>
        have hx : (1 :: x :: tail ++ s)[1]? = some m.id := by
          have : x = m.id := by simpa using (List.cons.inj htail).1
          simp [this]
        have hend : ¬ EndAt C.envelope (1 :: x :: tail ++ s) ((frame C.envelope m).length - (endGap C.envelope + 1)) := by
          rintro ⟨he1, he2⟩
          have hg := endGap_cases C.envelope
          simp only [List.length_cons] at hlt
          rw [List.getElem?_append_right (by simp only [List.length_cons]; omega)] at he2
          by_cases hin : (frame C.envelope m).length - (endGap C.envelope + 1) < (1 :: x :: tail).length
          · refine ahead_early hc hs ?_ he2
            simp only [List.length_cons] at hin ⊢
            omega
          · rw [List.getElem?_append_right (by omega)] at he1
            simp only [List.length_cons] at hin he1 he2
            refine hs.noEnd _ ?_ ⟨he1, ?_⟩
            · omega
            · rw [← he2]
              congr 1
              omega
        exact ⟨not_starts_of_endAt hx hm.announced hend,
          not_waiting_of_length hx hm.announced (by omega) (by omega)⟩
      | nil =>
        refine skip_of_no_start (no_start_cut hs fun e => ?_)
        cases ht : typeOf C 0x01 with
        | none => rfl
        | some t => exact absurd rfl (h2 e (by simp [ht]))
    refine Run.skip hgo.1 hgo.2 (run_rest hc hs h tail [1] u (by simp) hu.symm fun a b e => h2 a b ?_)
    cases tail with
    | nil => simp at e
    | cons x tail => rw [List.getLast?_cons_cons]; exact e

theorem ahead_tries {m : Msg} (hc : Retriable C m) (t : List Byte) : ∀ qs : List (List Byte),
    (∀ q ∈ qs, q <+: frame C.envelope m) → Ahead C.envelope m (qs.flatten ++ (frame C.envelope m ++ t)) := by
  intro qs
  induction qs with
  | nil => intro _; exact ahead_frame hc t
  | cons q qs ih =>
    intro h
    have h' := ih fun q hq => h q (by simp [hq])
    have hq := h q (by simp)
    rw [List.flatten_cons, List.append_assoc]
    by_cases hne : q = []
    · simpa [hne] using h'
    exact ahead_cut hc hq hne h'

theorem run_retried {u : Retried} (hu : u.Fit C) {s r : List Byte} {ms : List Msg} (h : Run C s ms r) :
    Run C (u.line C.envelope ++ s) (List.replicate (u.copies C.envelope) u.m ++ ms) r := by
  obtain ⟨m, qs⟩ := u
  obtain ⟨hm, hc, hcut, h2⟩ := hu
  simp only [Retried.line, Retried.copies] at *
  rw [List.append_assoc]
  induction qs with
  | nil => simpa using Run.take hm h
  | cons q qs ih =>
    have ih := ih (fun q hq => hcut q (by simp [hq])) (fun a b q hq => h2 a b q (by simp [hq]))
    have hq := hcut q (by simp)
    rw [List.flatten_cons, List.append_assoc]
    by_cases hl : q.length < (frame C.envelope m).length
    · have : (q == frame C.envelope m) = false := by
        apply beq_false_of_ne
        rintro rfl
        omega
      rw [List.countP_cons_of_neg (by simp [this])]
      exact run_again hm hc hq hl (ahead_tries hc s qs fun q hq => hcut q (by simp [hq]))
        (fun a b => h2 a b q (by simp)) ih
    · have e := hq.eq_of_length_le (by omega)
      rw [List.countP_cons_of_pos (by simp [e]), List.replicate_succ, List.cons_append, e]
      exact Run.take hm ih

/-- The bytes of all attempts at all messages. -/
def retriedLine (E : Envelope) (us : List Retried) : List Byte := us.flatMap (·.line E)

/-- The messages among them. -/
def retriedMsgs (E : Envelope) (us : List Retried) : List Msg := us.flatMap fun u => List.replicate (u.copies E) u.m

theorem decodes_retried {us : List Retried} (h : ∀ u ∈ us, u.Fit C) :
    Decodes C (retriedLine C.envelope us) (retriedMsgs C.envelope us) [] := by
  refine ⟨?_, Or.inl rfl⟩
  induction us with
  | nil => exact Run.refl _
  | cons u us ih =>
    simp only [retriedLine, retriedMsgs, List.flatMap_cons]
    exact run_retried (h u (by simp)) (ih fun u hu => h u (by simp [hu]))

/-- C132, the receiver. Messages without the beginning or the end of a message inside are sent, each after any number of attempts that
broke off anywhere. The receiver delivers each of them as often as it was sent to the end, in order and nothing else, and
nothing is held back. -/
theorem C132_receiver (S : Setting C B user) (hn : NeverThrows user) {ops : List Op} {w : World C} {os : List Obs}
    (h : Reached B user fuel (ops ++ [.process]) w os) (hh : w.rx.hasHandler = true)
    {us : List Retried} (hu : ∀ u ∈ us, u.Fit C) (hfed : w.fed = retriedLine C.envelope us) :
    delivered w = (retriedMsgs C.envelope us).map (meaning C) ∧ buffered w = [] :=
  polled_eq S hn h hh (by rw [hfed]; exact decodes_retried hu)

/-- C132, exceptions on both sides. The same with handlers that throw: when `processMessages` has returned, each message
has been handled to the end as often as it was sent to the end. -/
theorem C132_both (S : Setting C B user) {ops : List Op} {w : World C} {os : List Obs} {n : Byte}
    (h : Reached B user fuel (ops ++ [.process]) w (os ++ [.processed (.returned n)])) (hh : w.rx.hasHandler = true)
    {us : List Retried} (hu : ∀ u ∈ us, u.Fit C) (hfed : w.fed = retriedLine C.envelope us) :
    (completed B user fuel (World.new C) (ops ++ [.process])).map seen = (retriedMsgs C.envelope us).map (meaning C) ∧
      buffered w = [] := by
  obtain ⟨ms, hd, e⟩ := C95_all S h hh
  rw [hfed] at hd
  obtain ⟨rfl, hr⟩ := hd.unique (decodes_retried hu)
  exact ⟨e, hr⟩

/-- C132, at any time. While attempts are still being made and bytes are still on their way, what has been handled to
the end is a beginning of that. -/
theorem C132_any_time (S : Setting C B user) {ops : List Op} {w : World C} {os : List Obs}
    (h : Reached B user fuel ops w os) {us : List Retried} (hu : ∀ u ∈ us, u.Fit C)
    (hfed : w.fed <+: retriedLine C.envelope us) :
    (completed B user fuel (World.new C) ops).map seen <+: (retriedMsgs C.envelope us).map (meaning C) := by
  obtain ⟨ms, hr, e⟩ := C95_once S h
  obtain ⟨t, ht⟩ := hfed
  obtain ⟨es, q, hd⟩ := decodes_exists C (buffered w ++ t)
  have := (show Decodes C (w.fed ++ t) (ms ++ es) q from ⟨(hr.append t).trans hd.1, hd.2⟩)
  rw [ht] at this
  obtain ⟨e', _⟩ := this.unique (decodes_retried hu)
  rw [e, ← e']
  exact ⟨es.map (meaning C), by simp⟩

/-! ### The sender -/

variable {σ : Type}

/-- The program insists: it sends each message again and again until `send` returns; the number says how often it has
thrown before. -/
inductive Insists (X : ThrowTx σ) : σ → List (Request × Nat) → σ → Prop where
  | nil (s : σ) : Insists X s [] s
  | cons {s s1 s2 : σ} {r : Request} {k : Nat} {rest : List (Request × Nat)}
      (h : sendEach X s (List.replicate (k + 1) r) = some (.ok (s1, List.replicate k true ++ [false])))
      (hs : Insists X s1 rest s2) : Insists X s ((r, k) :: rest) s2

/-- A call that throws has not put all of its bytes on the line. In particular, `outputFinished` does not throw. -/
def Prompt (X : ThrowTx σ) (log : σ → List Byte) : Prop :=
  ∀ s o, (throwOn X s o).2 = true → ∃ q, q <+: o.bytes ∧ q.length < o.bytes.length ∧ log (throwOn X s o).1 = log s ++ q

/-- What a `send` that throws puts on the line. -/
theorem thrown_prompt {X : ThrowTx σ} {log : σ → List Byte} (H : Honest X log) (hp : Prompt X log) {C : Collection}
    {t : MsgType} {vs : List Value} (h : Sendable C t vs) {s s' : σ}
    (e : sendCaught C t X s vs = some (.ok (s', true))) : (log s').length < (log s).length + (wire C t vs).length := by
  obtain ⟨s1, th, e1, _, h2⟩ := C74_calls X C t vs h (idOf_idxOf h.1 h.2.1) s
  rw [e] at e1
  simp only [Option.some.injEq, Except.ok.injEq, Prod.mk.injEq] at e1
  obtain ⟨rfl, rfl⟩ := e1
  obtain ⟨pre, o, post, s2, hs, hu, ho⟩ := h2 rfl
  obtain ⟨q, _, hlt, hl⟩ := hp s2 o (by rw [ho])
  rw [ho] at hl
  have hl2 := H.untroubled _ _ _ hu
  have hw := outBytes_script C.envelope (UInt8.ofNat (C.messages.idxOf t)) vs
  rw [hs] at hw
  have hw' : (wire C t vs).length = (outBytes (pre ++ o :: post)).length := by rw [hw]; rfl
  rw [hw']
  simp only [hl, hl2, outBytes, List.map_append, List.map_cons, List.flatten_append, List.flatten_cons, List.length_append]
  omega

/-- One message, sent until `send` returns: what the attempts put on the line. -/
theorem insist_one {X : ThrowTx σ} {log : σ → List Byte} (H : Honest X log) {r : Request} (h : Sendable r.C r.t r.vs) :
    ∀ (k : Nat) {s s' : σ},
    sendEach X s (List.replicate (k + 1) r) = some (.ok (s', List.replicate k true ++ [false])) →
    ∃ qs : List (List Byte), qs.length = k ∧ (∀ q ∈ qs, q <+: wire r.C r.t r.vs) ∧
      log s' = log s ++ (qs.flatten ++ wire r.C r.t r.vs) ∧
      (Prompt X log → ∀ q ∈ qs, q.length < (wire r.C r.t r.vs).length) := by
  intro k
  induction k with
  | zero =>
    intro s s' e
    obtain ⟨s1, th, q, e1, hl, hq, hf⟩ := C74_prefix H r.C r.t r.vs h s
    simp only [List.replicate_succ, List.replicate_zero, sendEach, e1, Option.some.injEq, Except.ok.injEq, Prod.mk.injEq,
      List.nil_append, List.cons.injEq, and_true] at e
    obtain ⟨rfl, rfl⟩ := e
    exact ⟨[], rfl, by simp, by rw [hl, hf rfl]; simp, by simp⟩
  | succ k ih =>
    intro s s' e
    obtain ⟨s1, th, q, e1, hl, hq, hf⟩ := C74_prefix H r.C r.t r.vs h s
    rw [List.replicate_succ, sendEach, e1] at e
    simp only at e
    cases e2 : sendEach X s1 (List.replicate (k + 1) r) with
    | none => rw [e2] at e; cases e
    | some v =>
      cases v with
      | error f => rw [e2] at e; cases e
      | ok v =>
        obtain ⟨s2, bs⟩ := v
        rw [e2] at e
        simp only [Option.some.injEq, Except.ok.injEq, Prod.mk.injEq, List.replicate_succ, List.cons_append,
          List.cons.injEq] at e
        obtain ⟨rfl, rfl, rfl⟩ := e
        obtain ⟨qs, h1, h2, h3, h4⟩ := ih e2
        refine ⟨q :: qs, by simp [h1], ?_, by rw [h3, hl]; simp, ?_⟩
        · intro q' hq'
          rcases List.mem_cons.1 hq' with rfl | hq'
          · exact hq
          · exact h2 q' hq'
        · intro hp q' hq'
          rcases List.mem_cons.1 hq' with rfl | hq'
          · have := thrown_prompt H hp h e1
            rw [hl, List.length_append] at this
            omega
          · exact h4 hp q' hq'

/-- C132, the sender. A program that sends each message until `send` returns puts, for each message, as many beginnings of
it on the line as there were exceptions, and then the message. If calls that throw have not put all of their bytes on the
line, none of the beginnings is the whole message. -/
theorem C132_sender {X : ThrowTx σ} {log : σ → List Byte} (H : Honest X log) {s s' : σ} {rs : List (Request × Nat)}
    (h : Insists X s rs s') (hr : ∀ r ∈ rs, r.1.Good C) :
    ∃ us : List Retried, us.map (fun u => (u.m, u.tries.length)) = rs.map (fun r => (r.1.msg, r.2)) ∧
      log s' = log s ++ retriedLine C.envelope us ∧ (∀ u ∈ us, IsMsg C u.m ∧ ∀ q ∈ u.tries, q <+: frame C.envelope u.m) ∧
      (Prompt X log → ∀ u ∈ us, ∀ q ∈ u.tries, q.length < (frame C.envelope u.m).length) := by
  induction h with
  | nil s => exact ⟨[], rfl, by simp [retriedLine], by simp, by simp⟩
  | @cons s s1 s2 r k rest h hs ih =>
    have hg := hr (r, k) (by simp)
    obtain ⟨us, h1, h2, h3, h4⟩ := ih fun r hr' => hr r (by simp [hr'])
    obtain ⟨qs, g1, g2, g3, g4⟩ := insist_one H (r := r) (by rw [hg.1]; exact hg.2.1) k h
    rw [hg.wire] at g2 g3 g4
    refine ⟨⟨r.msg, qs⟩ :: us, by simp [h1, g1], ?_, ?_, ?_⟩
    · rw [h2, g3]
      simp [retriedLine, Retried.line]
    · intro u hu
      rcases List.mem_cons.1 hu with rfl | hu
      · exact ⟨hg.isMsg, g2⟩
      · exact h3 u hu
    · intro hp u hu
      rcases List.mem_cons.1 hu with rfl | hu
      · exact g4 hp
      · exact h4 hp u hu

/-- C132, end to end. The program insists on each message, without the beginning or the end of a message inside and not with
id 2 if there is a message with id 1; the handlers may throw. When all bytes have arrived and `processMessages` has returned, each message
has been handled to the end, in order: at least once, and at most as often as it was attempted. -/
theorem C132_end_to_end {X : ThrowTx σ} {log : σ → List Byte} (H : Honest X log) {s s' : σ} {rs : List (Request × Nat)}
    (hx : Insists X s rs s') (h0 : log s = []) (hr : ∀ r ∈ rs, r.1.Good C) (hc : ∀ r ∈ rs, Retriable C r.1.msg)
    (h2 : ∀ r ∈ rs, r.1.msg.id = 0x02 → typeOf C 0x01 = none)
    (S : Setting C B user) {ops : List Op} {w : World C} {os : List Obs} {n : Byte}
    (h : Reached B user fuel (ops ++ [.process]) w (os ++ [.processed (.returned n)])) (hh : w.rx.hasHandler = true)
    (hfed : w.fed = log s') :
    ∃ cs : List Nat, cs.length = rs.length ∧ (∀ (i k : Nat) (r : Request × Nat), cs[i]? = some k → rs[i]? = some r →
        1 ≤ k ∧ k ≤ r.2 + 1 ∧ (Prompt X log → k = 1)) ∧
      (completed B user fuel (World.new C) (ops ++ [.process])).map seen =
        (List.zipWith (fun (r : Request × Nat) k => List.replicate k r.1.call) rs cs).flatten := by
  obtain ⟨us, h1, hl, h3, h4⟩ := C132_sender H hx hr
  rw [h0, List.nil_append] at hl
  have hlen : us.length = rs.length := by simpa using congrArg List.length h1
  have hat : ∀ (i : Nat) (u : Retried) (r : Request × Nat), us[i]? = some u → rs[i]? = some r →
      u.m = r.1.msg ∧ u.tries.length = r.2 := by
    intro i u r hu hr'
    have := congrArg (fun l : List (Msg × Nat) => l[i]?) h1
    simp only [List.getElem?_map, hu, hr', Option.map_some, Option.some.injEq, Prod.mk.injEq] at this
    exact this
  have hfit : ∀ u ∈ us, u.Fit C := by
    intro u hu
    obtain ⟨i, hi, e⟩ := List.getElem_of_mem hu
    have hi' : i < rs.length := by omega
    obtain ⟨e1, _⟩ := hat i u rs[i] (by rw [List.getElem?_eq_getElem hi, e]) (List.getElem?_eq_getElem hi')
    refine ⟨(h3 u hu).1, ?_, (h3 u hu).2, fun e2 ht => ?_⟩
    · rw [e1]
      exact hc _ (List.getElem_mem hi')
    · exact absurd (h2 _ (List.getElem_mem hi') (by rw [← e1, e2])) ht
  obtain ⟨hd, _⟩ := C132_both S h hh hfit (hfed.trans hl)
  refine ⟨us.map (·.copies C.envelope), by simp [hlen], ?_, ?_⟩
  · intro i k r hk hr'
    simp only [List.getElem?_map, Option.map_eq_some_iff] at hk
    obtain ⟨u, hu, rfl⟩ := hk
    obtain ⟨_, e2⟩ := hat i u r hu hr'
    have := List.countP_le_length (p := (· == frame C.envelope u.m)) (l := u.tries)
    refine ⟨by simp [Retried.copies], by simp only [Retried.copies]; omega, fun hp => ?_⟩
    have hz : u.tries.countP (· == frame C.envelope u.m) = 0 := by
      rw [List.countP_eq_zero]
      intro q hq e
      have hlt := h4 hp u (List.mem_of_getElem? hu) q hq
      rw [beq_iff_eq.1 e] at hlt
      omega
    simp [Retried.copies, hz]
  · rw [hd]
    clear hd hfed hl h hx h3 h4 hfit hat
    induction us generalizing rs with
    | nil => cases rs with
      | nil => rfl
      | cons _ _ => simp at hlen
    | cons u us ih => cases rs with
      | nil => simp at hlen
      | cons r rs =>
        simp only [List.map_cons, List.cons.injEq, Prod.mk.injEq] at h1
        have ih := ih (rs := rs) (fun r hr' => hr r (by simp [hr'])) (fun r hr' => hc r (by simp [hr']))
          (fun r hr' => h2 r (by simp [hr'])) h1.2 (by simpa using hlen)
        have hm : meaning C u.m = r.1.call := by
          rw [h1.1.1]
          exact (hr r (by simp)).meaning
        simp only [retriedMsgs, List.flatMap_cons, List.map_append, List.map_replicate, List.map_cons,
          List.zipWith_cons_cons, List.flatten_cons, hm]
        rw [← ih]
        rfl

/-- C132, exactly once. If calls on the transmitter that throw have not put all of their bytes on the line, each message
has been handled to the end exactly once, in order, however often anything has thrown on either side. -/
theorem C132_exactly_once {X : ThrowTx σ} {log : σ → List Byte} (H : Honest X log) (hp : Prompt X log) {s s' : σ}
    {rs : List (Request × Nat)} (hx : Insists X s rs s') (h0 : log s = []) (hr : ∀ r ∈ rs, r.1.Good C)
    (hc : ∀ r ∈ rs, Retriable C r.1.msg) (h2 : ∀ r ∈ rs, r.1.msg.id = 0x02 → typeOf C 0x01 = none)
    (S : Setting C B user) {ops : List Op} {w : World C} {os : List Obs} {n : Byte}
    (h : Reached B user fuel (ops ++ [.process]) w (os ++ [.processed (.returned n)])) (hh : w.rx.hasHandler = true)
    (hfed : w.fed = log s') :
    (completed B user fuel (World.new C) (ops ++ [.process])).map seen = rs.map (·.1.call) := by
  obtain ⟨cs, hl, hk, e⟩ := C132_end_to_end H hx h0 hr hc h2 S h hh hfed
  rw [e]
  clear e hx hr hc h2
  induction rs generalizing cs with
  | nil => simp
  | cons r rs ih => cases cs with
    | nil => simp at hl
    | cons k cs =>
      have h1 := (hk 0 k r rfl rfl).2.2 hp
      subst h1
      have := ih cs (by simpa using hl) fun i k r e1 e2 => hk (i + 1) k r (by simpa using e1) (by simpa using e2)
      simp [this]

/-! ### What goes wrong otherwise -/

/-- A transmitter that counts the calls on it and throws at some of them, without doing anything. -/
def flaky (bad : Nat → Bool) (fin : Bool) : ThrowTx (List Byte × Nat) where
  writeByte s v := if bad s.2 then ((s.1, s.2 + 1), true) else ((s.1 ++ [v], s.2 + 1), false)
  write s data := if bad s.2 && !data.isEmpty then ((s.1, s.2 + 1), true) else ((s.1 ++ data, s.2 + 1), false)
  writeFinished s := if bad s.2 && fin then ((s.1, s.2 + 1), true) else ((s.1, s.2 + 1), false)

theorem flaky_honest (bad : Nat → Bool) (fin : Bool) : Honest (flaky bad fin) (·.1) where
  done s o h := by
    cases o <;> simp only [throwOn, flaky] at h ⊢ <;> split at h <;> rename_i hb <;> simp [hb, Out.bytes] at h ⊢
  cut s o h := by
    cases o <;> simp only [throwOn, flaky] at h ⊢ <;> split at h <;> rename_i hb <;>
      first | (simp at h; done) | (rw [if_pos hb]; exact ⟨[], List.nil_prefix, by simp⟩)

theorem flaky_prompt (bad : Nat → Bool) : Prompt (flaky bad false) (·.1) := by
  intro s o h
  cases o with
  | byte b =>
    simp only [throwOn, flaky] at h ⊢
    split at h
    · rename_i hb
      rw [if_pos hb]
      exact ⟨[], List.nil_prefix, by simp [Out.bytes], by simp⟩
    · simp at h
  | block bs =>
    simp only [throwOn, flaky] at h ⊢
    split at h
    · rename_i hb
      rw [if_pos hb]
      simp at hb
      exact ⟨[], List.nil_prefix, by simp [Out.bytes, List.length_pos_iff, hb.2], by simp⟩
    · simp at h
  | finished => simp [throwOn, flaky] at h

/-- Four messages: the three of the samples with another one before `pose`, which therefore has id 3. -/
def fourTypes (E : Envelope) : Collection := ⟨[Sample.ping, Sample.level, ⟨7, [.uint8, .uint8]⟩, Sample.pose], E⟩

/-- A `pose` and a `ping`. -/
def insisted (E : Envelope) : List Request :=
  [⟨fourTypes E, Sample.pose, [⟨.uint8, [5]⟩, ⟨.pod 0 4, [6, 7, 8, 9]⟩, ⟨.pod 1 2, [10, 11]⟩]⟩, ⟨fourTypes E, Sample.ping, []⟩]

/-- Calls 1, 6 and 18 throw: the first within the first attempt at `pose`, the second within its second, the third
within the first attempt at `ping`. -/
def thrice (i : Nat) : Bool := i == 1 || i == 6 || i == 18

/-- What the two messages, one sent at the third attempt and one at the second, put on the line. -/
def insistedLine : List Byte :=
  [1] ++ [1, 3, 2, 5] ++ [1, 3, 2, 5, 6, 7, 8, 9, 10, 11, 3, 4] ++ [1, 0] ++ [1, 0, 2, 3, 4]

theorem insists_example : Insists (flaky thrice false) ([], 0) [((insisted .basic)[0], 2), ((insisted .basic)[1], 1)]
    (insistedLine, 25) :=
  .cons (s1 := (insistedLine.take 17, 16)) (by decide +kernel) (.cons (by decide +kernel) (.nil _))

theorem stubborn_four (E : Envelope) : Setting (fourTypes E) Sample.dbg stubborn :=
  ⟨⟨by cases E <;> decide, by cases E <;> decide⟩, fun _ _ => ⟨by simp [stubborn], by simp [stubborn, appended]⟩⟩

/-- Three exceptions at the sender and two at the receiver; each message is handled to the end once. The hypotheses of the
theorems above hold. -/
example : ∃ (w : World (fourTypes .basic)) (os : List Obs),
    Reached Sample.dbg stubborn 50 ([.setHandler Sample.h0, .append insistedLine, .process, .process] ++ [.process]) w
      (os ++ [.processed (.returned 1)]) ∧ w.rx.hasHandler = true ∧ w.fed = insistedLine ∧ exceptions os = 2 ∧
    (completed Sample.dbg stubborn 50 (World.new (fourTypes .basic))
      ([.setHandler Sample.h0, .append insistedLine, .process, .process] ++ [.process])).map seen =
      [(insisted .basic)[0].call, (insisted .basic)[1].call] := by
  obtain ⟨w, os, h1, h2⟩ := Sample.reached (C := fourTypes .basic) (B := Sample.dbg) (user := stubborn) (fuel := 50)
    (ops := [.setHandler Sample.h0, .append insistedLine, .process, .process] ++ [.process])
    (fun w os => w.rx.hasHandler &&
      decide (os = [.unit, .unit, .processed .threw, .processed .threw, .processed (.returned 1)]) &&
      decide (w.fed = insistedLine)) (by decide +kernel)
  simp only [Bool.and_eq_true, decide_eq_true_eq] at h2
  obtain ⟨⟨hh, ho⟩, hf⟩ := h2
  refine ⟨w, [.unit, .unit, .processed .threw, .processed .threw], by rw [ho] at h1; exact h1, hh, hf, by decide, ?_⟩
  rw [ho] at h1
  exact C132_exactly_once (flaky_honest thrice false) (flaky_prompt thrice) insists_example rfl (by decide) (by decide)
    (by decide) (stubborn_four .basic) (os := [.unit, .unit, .processed .threw, .processed .threw]) h1 hh hf

/-- The same line described by attempts, for a receiver that has got part of it. -/
example : ∃ (w : World (fourTypes .basic)) (os : List Obs),
    Reached Sample.dbg Sample.passive 50 [.setHandler Sample.h0, .append (insistedLine.take 18), .process] w os ∧
    delivered w = [(insisted .basic)[0].call] ∧
    (completed Sample.dbg Sample.passive 50 (World.new (fourTypes .basic))
      [.setHandler Sample.h0, .append (insistedLine.take 18), .process]).map seen <+:
      [(insisted .basic)[0].call, (insisted .basic)[1].call] := by
  obtain ⟨w, os, h1, h2⟩ := Sample.reached (C := fourTypes .basic) (B := Sample.dbg) (user := Sample.passive) (fuel := 50)
    (ops := [.setHandler Sample.h0, .append (insistedLine.take 18), .process])
    (fun w _ => decide (delivered w = [(insisted .basic)[0].call]) && decide (w.fed = insistedLine.take 18))
    (by decide +kernel)
  simp only [Bool.and_eq_true, decide_eq_true_eq] at h2
  refine ⟨w, os, h1, h2.1, ?_⟩
  exact C132_any_time ⟨⟨by decide, by decide⟩, Sample.passive_benign⟩ h1
    (us := [⟨(insisted .basic)[0].msg, [[1], [1, 3, 2, 5]]⟩, ⟨(insisted .basic)[1].msg, [[1, 0]]⟩])
    (by
      intro u hu
      simp only [List.mem_cons, List.not_mem_nil, or_false] at hu
      rcases hu with rfl | rfl
      · exact ⟨(by decide : (insisted .basic)[0].Good (fourTypes .basic)).isMsg, by decide, by decide, by decide⟩
      · exact ⟨(by decide : (insisted .basic)[1].Good (fourTypes .basic)).isMsg, by decide, by decide, by decide⟩)
    (by rw [h2.2]; exact List.take_prefix _ _)

example := C132_sender (C := fourTypes .basic) (flaky_honest thrice false) insists_example (by decide)

/-- An attempt that failed behind the last byte: the message is delivered twice. -/
example : ∃ (w : World (fourTypes .basicChecksum)) (os : List Obs),
    Reached Sample.dbg Sample.passive 50 ([.setHandler Sample.h0,
      .append [1, 0, 2, 1, 0, 2, 3, 6, 4, 1, 0, 2, 3, 6, 4]] ++ [.process]) w os ∧
    delivered w = [(Sample.ping, []), (Sample.ping, [])] ∧ buffered w = [] := by
  obtain ⟨w, os, h1, h2⟩ := Sample.reached (C := fourTypes .basicChecksum) (B := Sample.dbg) (user := Sample.passive)
    (fuel := 50) (ops := [.setHandler Sample.h0, .append [1, 0, 2, 1, 0, 2, 3, 6, 4, 1, 0, 2, 3, 6, 4]] ++ [.process])
    (fun w _ => w.rx.hasHandler && decide (w.fed =
      retriedLine .basicChecksum [⟨Sample.mPing, [[1, 0, 2], [1, 0, 2, 3, 6, 4]]⟩])) (by decide +kernel)
  simp only [Bool.and_eq_true, decide_eq_true_eq] at h2
  refine ⟨w, os, h1, ?_⟩
  obtain ⟨e1, e2⟩ := C132_receiver ⟨⟨by decide, by decide⟩, Sample.passive_benign⟩ Sample.passive_neverThrows h1 h2.1
    (us := [⟨Sample.mPing, [[1, 0, 2], [1, 0, 2, 3, 6, 4]]⟩])
    (by
      intro u hu
      simp only [List.mem_cons, List.not_mem_nil, or_false] at hu
      subst hu
      exact ⟨⟨Sample.ping, by decide, by decide⟩, by decide, by decide, by decide⟩) h2.2
  exact ⟨by rw [e1]; decide, e2⟩

/-- C132 fails for messages with the end codes inside: of a message that is sent again after four bytes, and a `ping`, the
receiver delivers a message that was not sent instead of the first. -/
theorem C132_codes_witness : ∃ (u : Retried) (w : World (fourTypes .basic)) (os : List Obs),
    IsMsg (fourTypes .basic) u.m ∧ Plain .basic u.m ∧ (∀ q ∈ u.tries, q <+: frame .basic u.m ∧ q.length = 4) ∧
    Reached Sample.dbg Sample.passive 50 ([.setHandler Sample.h0,
      .append (u.line .basic ++ frame .basic Sample.mPing)] ++ [.process]) w os ∧
    delivered w = [meaning (fourTypes .basic) ⟨3, [9, 1, 3, 2, 9, 9, 9]⟩, meaning (fourTypes .basic) Sample.mPing] ∧
    u.m.payload ≠ [9, 1, 3, 2, 9, 9, 9] := by
  obtain ⟨w, os, h1, h2⟩ := Sample.reached (C := fourTypes .basic) (B := Sample.dbg) (user := Sample.passive) (fuel := 50)
    (ops := [.setHandler Sample.h0, .append (Retried.line .basic ⟨⟨3, [9, 9, 9, 3, 4, 3, 4]⟩, [[1, 3, 2, 9]]⟩ ++
      frame .basic Sample.mPing)] ++ [.process])
    (fun w _ => decide (delivered w = [meaning (fourTypes .basic) ⟨3, [9, 1, 3, 2, 9, 9, 9]⟩, meaning (fourTypes .basic) Sample.mPing]))
    (by decide +kernel)
  exact ⟨⟨⟨3, [9, 9, 9, 3, 4, 3, 4]⟩, [[1, 3, 2, 9]]⟩, w, os, ⟨Sample.pose, by decide, by decide⟩, by decide, by decide, h1,
    by simpa using h2, by decide⟩

/-- Three messages, of which those with ids 1 and 2 have two bytes and one. -/
def three : Collection := ⟨[Sample.ping, ⟨8, [.uint8, .uint8]⟩, Sample.level], .basic⟩

/-- C132 fails for id 2 if there is a message with id 1: an attempt that breaks off behind the start code, and the message
itself, pass for a message with id 1. -/
theorem C132_second_witness : ∃ (u : Retried) (w : World three) (os : List Obs),
    IsMsg three u.m ∧ Clean .basic u.m ∧ u.m.id = 2 ∧ u.tries = [[1]] ∧
    Reached Sample.dbg Sample.passive 50 ([.setHandler Sample.h0, .append (u.line .basic)] ++ [.process]) w os ∧
    delivered w = [meaning three ⟨1, [2, 9]⟩] ∧ buffered w = [] := by
  obtain ⟨w, os, h1, h2⟩ := Sample.reached (C := three) (B := Sample.dbg) (user := Sample.passive) (fuel := 50)
    (ops := [.setHandler Sample.h0, .append (Retried.line .basic ⟨⟨2, [9]⟩, [[1]]⟩)] ++ [.process])
    (fun w _ => decide (delivered w = [meaning three ⟨1, [2, 9]⟩]) && decide (buffered w = [])) (by decide +kernel)
  simp only [Bool.and_eq_true, decide_eq_true_eq] at h2
  exact ⟨⟨⟨2, [9]⟩, [[1]]⟩, w, os, ⟨Sample.level, by decide, by decide⟩, by decide, rfl, rfl, h1, h2.1, h2.2⟩

/-- C132 gives the message twice if `outputFinished` throws: the program sends it again although it has arrived. -/
theorem C132_twice_witness : ∃ (w : World (fourTypes .basic)) (os : List Obs) (s' : List Byte × Nat),
    Honest (flaky (· == 5) true) (·.1) ∧ Insists (flaky (· == 5) true) ([], 0) [((insisted .basic)[1], 1)] s' ∧
    Reached Sample.dbg Sample.passive 50 ([.setHandler Sample.h0, .append s'.1] ++ [.process]) w os ∧
    delivered w = [(insisted .basic)[1].call, (insisted .basic)[1].call] := by
  obtain ⟨w, os, h1, h2⟩ := Sample.reached (C := fourTypes .basic) (B := Sample.dbg) (user := Sample.passive) (fuel := 50)
    (ops := [.setHandler Sample.h0, .append [1, 0, 2, 3, 4, 1, 0, 2, 3, 4]] ++ [.process])
    (fun w _ => decide (delivered w = [(insisted .basic)[1].call, (insisted .basic)[1].call])) (by decide +kernel)
  exact ⟨w, os, ([1, 0, 2, 3, 4, 1, 0, 2, 3, 4], 12), flaky_honest _ _, .cons (by decide +kernel) (.nil _), h1,
    by simpa using h2⟩

/-- Five messages, of which the last has id 4 and four bytes. -/
def five : Collection :=
  ⟨[Sample.ping, Sample.level, ⟨7, [.uint8, .uint8]⟩, ⟨9, [.uint8]⟩, ⟨10, [.pod 0 4]⟩], .basicChecksum⟩

/-- C132 fails for id 4 with a checksum, even if the end code does not occur inside: the beginnings of the third attempt and
of the message pass for the last two bytes of a message that was never sent. -/
theorem C132_four_witness : ∃ (u : Retried) (w : World five) (os : List Obs),
    IsMsg five u.m ∧ Plain .basicChecksum u.m ∧ u.m.id = 4 ∧ (∀ b ∈ (frame .basicChecksum u.m).dropLast.drop 2, b ≠ 0x04) ∧
    (∀ q ∈ u.tries, q <+: frame .basicChecksum u.m ∧ q.length ≤ 5) ∧
    Reached Sample.dbg Sample.passive 50 ([.setHandler Sample.h0, .append (u.line .basicChecksum)] ++ [.process]) w os ∧
    delivered w = [meaning five ⟨4, [1, 4, 2, 240]⟩] ∧ u.m.payload ≠ [1, 4, 2, 240] := by
  obtain ⟨w, os, h1, h2⟩ := Sample.reached (C := five) (B := Sample.dbg) (user := Sample.passive) (fuel := 50)
    (ops := [.setHandler Sample.h0, .append (Retried.line .basicChecksum ⟨⟨4, [240, 3, 9, 9]⟩, [[1, 4, 2], [1, 4, 2, 240, 3]]⟩)] ++
      [.process])
    (fun w _ => decide (delivered w = [meaning five ⟨4, [1, 4, 2, 240]⟩]))
    (by decide +kernel)
  exact ⟨⟨⟨4, [240, 3, 9, 9]⟩, [[1, 4, 2], [1, 4, 2, 240, 3]]⟩, w, os, ⟨⟨10, [.pod 0 4]⟩, by decide, by decide⟩, by decide, rfl,
    by decide, by decide, h1, by simpa using h2, by decide⟩

/-- The codes alone do no harm: three attempts at a message with all of them in it. -/
example : ∃ (w : World (fourTypes .basic)) (os : List Obs),
    Reached Sample.dbg Sample.passive 50 ([.setHandler Sample.h0,
      .append [1, 3, 2, 4, 1, 3, 2, 4, 1, 3, 1, 3, 2, 4, 1, 3, 9, 4, 2, 1, 3, 4]] ++ [.process]) w os ∧
    delivered w = [meaning (fourTypes .basic) ⟨3, [4, 1, 3, 9, 4, 2, 1]⟩] ∧ buffered w = [] := by
  obtain ⟨w, os, h1, h2⟩ := Sample.reached (C := fourTypes .basic) (B := Sample.dbg) (user := Sample.passive)
    (fuel := 50) (ops := [.setHandler Sample.h0,
      .append [1, 3, 2, 4, 1, 3, 2, 4, 1, 3, 1, 3, 2, 4, 1, 3, 9, 4, 2, 1, 3, 4]] ++ [.process])
    (fun w _ => w.rx.hasHandler &&
      decide (w.fed = [1, 3, 2, 4, 1, 3, 2, 4, 1, 3, 1, 3, 2, 4, 1, 3, 9, 4, 2, 1, 3, 4])) (by decide +kernel)
  simp only [Bool.and_eq_true, decide_eq_true_eq] at h2
  refine ⟨w, os, h1, ?_⟩
  obtain ⟨e1, e2⟩ := C132_receiver ⟨⟨by decide, by decide⟩, Sample.passive_benign⟩ Sample.passive_neverThrows h1 h2.1
    (us := [⟨⟨3, [4, 1, 3, 9, 4, 2, 1]⟩, [[1, 3, 2, 4], [1, 3, 2, 4, 1, 3]]⟩]) (by
      intro u hu
      simp only [List.mem_cons, List.not_mem_nil, or_false] at hu
      subst hu
      exact ⟨⟨Sample.pose, by decide, by decide⟩, by decide, by decide, by decide⟩) h2.2
  exact ⟨by rw [e1]; decide, e2⟩

/-- Five messages, of which those with ids 3 and 4 have three bytes and six. -/
def fiveMore : Collection :=
  ⟨[Sample.ping, Sample.level, ⟨7, [.uint8, .uint8]⟩, ⟨9, [.pod 0 3]⟩, ⟨10, [.pod 0 6]⟩], .basic⟩

/-- C132 fails for messages with the beginning of another one inside: that and the second attempt pass for a message that
was never sent, and the message is lost. -/
theorem C132_start_witness : ∃ (u : Retried) (w : World fiveMore) (os : List Obs),
    IsMsg fiveMore u.m ∧ u.m.id = 3 ∧ (∀ i < 6, ¬ EndAt .basic (frame .basic u.m) i) ∧
    (∀ q ∈ u.tries, q <+: frame .basic u.m ∧ q.length = 6) ∧
    Reached Sample.dbg Sample.passive 50 ([.setHandler Sample.h0, .append (u.line .basic)] ++ [.process]) w os ∧
    delivered w = [meaning fiveMore ⟨4, [1, 3, 2, 1, 4, 2]⟩] := by
  obtain ⟨w, os, h1, h2⟩ := Sample.reached (C := fiveMore) (B := Sample.dbg) (user := Sample.passive) (fuel := 50)
    (ops := [.setHandler Sample.h0, .append (Retried.line .basic ⟨⟨3, [1, 4, 2]⟩, [[1, 3, 2, 1, 4, 2]]⟩)] ++ [.process])
    (fun w _ => decide (delivered w = [meaning fiveMore ⟨4, [1, 3, 2, 1, 4, 2]⟩])) (by decide +kernel)
  exact ⟨⟨⟨3, [1, 4, 2]⟩, [[1, 3, 2, 1, 4, 2]]⟩, w, os, ⟨⟨9, [.pod 0 3]⟩, by decide, by decide⟩, rfl, by decide, by decide, h1,
    by simpa using h2⟩

end TT.Properties
