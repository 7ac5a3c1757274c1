import Verif.Model.Direct
import Verif.Properties.Stream

/-!
# C104: the receive buffer used without a receiver
-/

namespace TT.Properties
open Spec

variable {C : Collection}

/-! ### What the calls do, in terms of bytes and messages -/

/-- The bytes in the buffer, and the message that the program has been told about and not removed yet. -/
structure Pull where
  bytes : List Byte
  front : Option Msg

/-- The calls a program may make in a state, what they return, the bytes they put in, the messages they
remove and the state after them. -/
inductive Pulls (C : Collection) : Pull → ECall → EObs → List Byte → List Msg → Pull → Prop where
  | append {s : Pull} {xs : List Byte} : s.bytes.length + xs.length ≤ capacity C →
      Pulls C s (.append xs) .unit xs [] ⟨s.bytes ++ xs, s.front⟩
  | appendOne {s : Pull} {x : Byte} : s.bytes.length + 1 ≤ capacity C →
      Pulls C s (.appendOne x) .unit [x] [] ⟨s.bytes ++ [x], s.front⟩
  | fromFunctor {s : Pull} {f : Byte → RB.DeviceReply} {n free : Nat} {xs : List Byte} {k : Byte} :
      free = min n (capacity C - s.bytes.length) → f (UInt8.ofNat free) = ⟨xs, k⟩ →
      xs.length ≤ free → k.toNat ≤ xs.length →
      Pulls C s (.fromFunctor f n) (.number k.toNat) (xs.take k.toNat) []
        ⟨s.bytes ++ xs.take k.toNat, s.front⟩
  | found {s : Pull} {m : Msg} {t : List Byte} : IsMsg C m → Run C s.bytes [] (frame C.envelope m ++ t) →
      Pulls C s .check (.found true) [] [] ⟨frame C.envelope m ++ t, some m⟩
  | none {s : Pull} {r : List Byte} : Run C s.bytes [] r → Final C r →
      Pulls C s .check (.found false) [] [] ⟨r, .none⟩
  | pop {m : Msg} {t : List Byte} : Pulls C ⟨frame C.envelope m ++ t, some m⟩ .pop .unit [] [m] ⟨t, .none⟩
  | id {m : Msg} {t : List Byte} : Pulls C ⟨t, some m⟩ .getCurrentMessageId (.id m.id) [] [] ⟨t, some m⟩
  | length {m : Msg} {t : List Byte} :
      Pulls C ⟨t, some m⟩ .getMessageLength (.number (frame C.envelope m).length) [] [] ⟨t, some m⟩
  | deserialize {m : Msg} {t : List Byte} :
      Pulls C ⟨t, some m⟩ .deserialize (.contents (some (meaning C m))) [] [] ⟨t, some m⟩
  | size {s : Pull} : Pulls C s .size (.number s.bytes.length) [] [] s
  | empty {s : Pull} : Pulls C s .empty (.bool s.bytes.isEmpty) [] [] s
  | availableSpace {s : Pull} :
      Pulls C s .availableSpace (.number (capacity C - s.bytes.length)) [] [] s
  | copy {s : Pull} : Pulls C s .copy .unit [] [] s

/-- A history of allowed calls, from a state on: what was returned, the bytes put in, the messages removed
and the state at the end. -/
inductive Pulled (C : Collection) : Pull → List ECall → List EObs → List Byte → List Msg → Pull → Prop where
  | nil {s : Pull} : Pulled C s [] [] [] [] s
  | cons {s s' s'' : Pull} {c : ECall} {cs : List ECall} {o : EObs} {os : List EObs} {xs bs : List Byte}
      {ns ms : List Msg} : Pulls C s c o xs ns s' → Pulled C s' cs os bs ms s'' →
      Pulled C s (c :: cs) (o :: os) (xs ++ bs) (ns ++ ms) s''

/-- A new buffer. -/
def Pull.new : Pull := ⟨[], none⟩

/-! ### Helper lemmas -/

/-- The message in front really is in front. -/
def Pull.Good (C : Collection) (s : Pull) : Prop :=
  ∀ m, s.front = some m → IsMsg C m ∧ ∃ t, s.bytes = frame C.envelope m ++ t

theorem pulls_good {s s' : Pull} {c : ECall} {o : EObs} {xs : List Byte} {ns : List Msg}
    (h : Pulls C s c o xs ns s') (hg : s.Good C) : s'.Good C := by
  cases h with
  | append _ =>
    intro m hm
    obtain ⟨h1, t, h2⟩ := hg m hm
    exact ⟨h1, t ++ xs, by simp [h2]⟩
  | @appendOne _ x _ =>
    intro m hm
    obtain ⟨h1, t, h2⟩ := hg m hm
    exact ⟨h1, t ++ [x], by simp [h2]⟩
  | @fromFunctor _ _ _ _ ys k _ _ _ _ =>
    intro m hm
    obtain ⟨h1, t, h2⟩ := hg m hm
    exact ⟨h1, t ++ ys.take k.toNat, by simp [h2]⟩
  | @found _ m t hm _ => rintro m' ⟨⟩; exact ⟨hm, t, rfl⟩
  | none _ _ => rintro m ⟨⟩
  | pop => rintro m ⟨⟩
  | id | length | deserialize | size | empty | availableSpace | copy => exact hg

theorem pulls_run {s s' : Pull} {c : ECall} {o : EObs} {xs : List Byte} {ns : List Msg}
    (h : Pulls C s c o xs ns s') (hg : s.Good C) : Run C (s.bytes ++ xs) ns s'.bytes := by
  cases h with
  | append _ | appendOne _ | fromFunctor _ _ _ _ => exact .refl _
  | found _ hr | none hr _ => simpa using hr
  | @pop m t =>
    rw [List.append_nil]
    exact .take (hg m rfl).1 (.refl _)
  | id | length | deserialize | size | empty | availableSpace | copy => simpa using Run.refl _

theorem pulled_run {s s' : Pull} {cs : List ECall} {os : List EObs} {bs : List Byte} {ms : List Msg}
    (h : Pulled C s cs os bs ms s') (hg : s.Good C) : Run C (s.bytes ++ bs) ms s'.bytes := by
  induction h with
  | nil => simpa using Run.refl _
  | cons h1 _ ih =>
    rw [← List.append_assoc]
    exact ((pulls_run h1 hg).append _).trans (ih (pulls_good h1 hg))

theorem pulled_good {s s' : Pull} {cs : List ECall} {os : List EObs} {bs : List Byte} {ms : List Msg}
    (h : Pulled C s cs os bs ms s') (hg : s.Good C) : s'.Good C := by
  induction h with
  | nil => exact hg
  | cons h1 _ ih => exact ih (pulls_good h1 hg)

theorem good_new : Pull.new.Good C := by rintro m ⟨⟩

theorem pulled_snoc {s s' : Pull} {cs : List ECall} {c : ECall} {os : List EObs} {o : EObs}
    {bs : List Byte} {ms : List Msg} (h : Pulled C s (cs ++ [c]) (os ++ [o]) bs ms s') :
    ∃ s1 bs1 ms1 xs ns, Pulled C s cs os bs1 ms1 s1 ∧ Pulls C s1 c o xs ns s' ∧ bs = bs1 ++ xs ∧
      ms = ms1 ++ ns := by
  induction cs generalizing s os bs ms with
  | nil =>
    cases os with
    | nil =>
      cases h with | @cons _ _ _ _ _ _ _ xs _ ns _ h1 h2 =>
      cases h2
      exact ⟨s, [], [], xs, ns, .nil, h1, by simp, by simp⟩
    | cons o' os =>
      cases h with | cons h1 h2 =>
      cases os <;> cases h2
  | cons c' cs ih =>
    cases os with
    | nil =>
      cases h with | cons h1 h2 =>
      cases cs <;> cases h2
    | cons o' os =>
      cases h with | cons h1 h2 =>
      obtain ⟨s1, bs1, ms1, xs, ns, h3, h4, rfl, rfl⟩ := ih h2
      exact ⟨s1, _, _, xs, ns, .cons h1 h3, h4, by simp, by simp⟩

/-- The object is in this state. -/
def Pulling (r : ERB C) (s : Pull) : Prop :=
  r.buf.Holds s.bytes ∧ ∀ m, s.front = some m → r.currentMessageId = some m.id

theorem call_ok (hc : recvBufferSize C < 2 ^ 64) {r : ERB C} {s s' : Pull} {c : ECall} {o : EObs}
    {xs : List Byte} {ns : List Msg} (hr : Pulling r s) (hg : s.Good C) (h : Pulls C s c o xs ns s') :
    ∃ r', (∀ B, Arith B (recvBufferSize C) → r.call B c = .ok (r', o)) ∧ Pulling r' s' := by
  obtain ⟨hb, hi⟩ := hr
  cases h with
  | append hl =>
    rw [capacity_eq] at hl
    obtain ⟨b, e, hh⟩ := hb.pushBackRange_ok hc hl
    exact ⟨{ r with buf := b }, fun B ha => by simp [ERB.call, ERB.bufferAppend, e B ha], hh, hi⟩
  | appendOne hl =>
    rw [capacity_eq] at hl
    obtain ⟨b, e, hh⟩ := hb.pushBack_ok hc hl
    exact ⟨{ r with buf := b }, fun B ha => by simp [ERB.call, ERB.bufferAppendOne, e B ha], hh, hi⟩
  | @fromFunctor _ f n free ys k hf he hw hk =>
    rw [capacity_eq] at hf
    have hf' : free = RB.offer (recvBufferSize C) s.bytes n := hf
    rw [hf'] at he hw
    obtain ⟨b, e, hh⟩ := hb.functor_ok (f := f) (n := n) hc (by rw [he]; exact hw) (by rw [he]; exact hk)
    rw [he] at e hh
    exact ⟨{ r with buf := b }, fun B ha => by simp [ERB.call, ERB.bufferFromFunctorRef, e B ha], hh, hi⟩
  | @found _ m t hm hrun =>
    obtain ⟨e', found, ys, h1, _, hh, hr', _, ht, hf⟩ := check_spec hc hb
    have hfound : found = true := by
      cases found with
      | true => rfl
      | false => exact absurd hrun fun h => Decodes.no_first hm ⟨hr', hf rfl⟩ h
    subst hfound
    obtain ⟨m', t', hm', rfl, hid⟩ := ht rfl
    obtain ⟨rfl, rfl⟩ := first_unique hm hm' hrun hr'
    exact ⟨e', fun B _ => by simp [ERB.call, h1 B], hh, by rintro _ ⟨⟩; exact hid⟩
  | @none _ t hrun hfin =>
    obtain ⟨e', found, ys, h1, _, hh, hr', _, ht, hf⟩ := check_spec hc hb
    have hfound : found = false := by
      cases found with
      | false => rfl
      | true =>
        obtain ⟨m', t', hm', rfl, hid⟩ := ht rfl
        exact absurd hr' fun h => Decodes.no_first hm' ⟨hrun, hfin⟩ h
    subst hfound
    obtain ⟨_, rfl⟩ := Decodes.unique ⟨hrun, hfin⟩ ⟨hr', hf rfl⟩
    exact ⟨e', fun B _ => by simp [ERB.call, h1 B], hh, by rintro _ ⟨⟩⟩
  | @pop m t =>
    obtain ⟨e', h1, hh, hn⟩ := popMessage_ok hc (hg m rfl).1 hb (hi m rfl)
    exact ⟨e', fun B _ => by simp [ERB.call, h1 B], hh, by rintro _ ⟨⟩⟩
  | @id m t =>
    exact ⟨r, fun B _ => by simp [ERB.call, ERB.getCurrentMessageId, hi m rfl], hb, hi⟩
  | @length m t =>
    have := getMessageLength_ok hc (hi m rfl) (hg m rfl).1.announced
    exact ⟨r, fun B _ => by simp [ERB.call, this B], hb, hi⟩
  | @deserialize m t =>
    refine ⟨r, fun B _ => ?_, hb, hi⟩
    obtain ⟨hm, t', ht'⟩ := hg m rfl
    simp only at ht'
    subst ht'
    have := invoke_ok (rx := ⟨r, some .functor, some 0, none⟩) hm hb rfl rfl
    unfold Receiver.invoke at this
    simp only [applyAt_eq] at this
    simp only [ERB.call, ERB.getCurrentMessageId, hi m rfl, Option.isSome_some, assertMsg_true, ok_bind,
      applyAt_eq]
    obtain ⟨ty, hty, _⟩ := hm
    have hty' : C.messages[m.id.toNat]? = some ty := hty
    rw [hty'] at this ⊢
    simp only at this ⊢
    cases hd : TT.deserialize r.buf.contents r.getDataIterator ty.fields [] with
    | error f => rw [hd] at this; simp at this
    | ok args =>
      rw [hd] at this
      simp [callOf, hty] at this
      simp [meaning, hty, this]
  | size => exact ⟨r, fun B _ => by simp [ERB.call, ERB.bufferSize, hb.size_eq hc], hb, hi⟩
  | empty => exact ⟨r, fun B _ => by simp [ERB.call, ERB.bufferEmpty, hb.empty_eq], hb, hi⟩
  | availableSpace =>
    refine ⟨r, fun B _ => ?_, hb, hi⟩
    simp only [ERB.call, ERB.bufferAvailableSpace, RB.maxSize]
    rw [hb.size_eq hc, subT_of_le hc (Nat.le_refl _) hb.length_le, capacity_eq]
  | copy =>
    obtain ⟨b, e, hh, _⟩ := hb.copyConstruct_ok hc
    exact ⟨{ currentMessageId := r.currentMessageId, buf := b }, fun B _ => by simp [ERB.call, e], hh, hi⟩

theorem drive_ok (hc : recvBufferSize C < 2 ^ 64) {s s' : Pull} {cs : List ECall} {os : List EObs}
    {bs : List Byte} {ms : List Msg} (h : Pulled C s cs os bs ms s') (hg : s.Good C) : ∀ {r : ERB C},
    Pulling r s → ∃ r', (∀ B, Arith B (recvBufferSize C) → r.drive B cs = .ok (r', os)) ∧
      Pulling r' s' := by
  induction h with
  | nil => intro r hr; exact ⟨r, fun _ _ => rfl, hr⟩
  | cons h1 _ ih =>
    intro r hr
    obtain ⟨r1, e1, hr1⟩ := call_ok hc hr hg h1
    obtain ⟨r2, e2, hr2⟩ := ih (pulls_good h1 hg) hr1
    exact ⟨r2, fun B ha => by simp [ERB.drive, e1 B ha, e2 B ha], hr2⟩

theorem pulling_new : Pulling (ERB.new C) Pull.new := ⟨RB.holds_new _, by rintro m ⟨⟩⟩

theorem drive_append (B : Build) (cs ds : List ECall) : ∀ r : ERB C,
    r.drive B (cs ++ ds) = (do
      let (r, os) ← r.drive B cs
      let (r, os') ← r.drive B ds
      return (r, os ++ os')) := by
  induction cs with
  | nil =>
    intro r
    cases h : r.drive B ds <;> simp [ERB.drive, h]
  | cons c cs ih =>
    intro r
    simp only [List.cons_append, ERB.drive]
    cases h : r.call B c with
    | error f => simp
    | ok x =>
      simp only [ok_bind, ih]
      cases h1 : x.1.drive B cs with
      | error f => simp
      | ok y =>
        simp only [ok_bind]
        cases h2 : y.1.drive B ds <;> simp [h2]

/-! ### C104 -/

theorem pulled_append {s s' s'' : Pull} {cs ds : List ECall} {os os' : List EObs} {bs bs' : List Byte}
    {ms ms' : List Msg} (h : Pulled C s cs os bs ms s') (h' : Pulled C s' ds os' bs' ms' s'') :
    Pulled C s (cs ++ ds) (os ++ os') (bs ++ bs') (ms ++ ms') s'' := by
  induction h with
  | nil => exact h'
  | cons h1 _ ih => simpa using Pulled.cons h1 (ih h')

theorem pull_run {cs : List ECall} {os : List EObs} {bs : List Byte} {ms : List Msg} {s : Pull}
    (h : Pulled C Pull.new cs os bs ms s) : Run C bs ms s.bytes := by
  simpa [Pull.new] using pulled_run h good_new

/-- A check is always possible; its result is determined by the bytes. -/
theorem check_pulls (C : Collection) (s : Pull) :
    ∃ b s', Pulls C s .check (.found b) [] [] s' ∧
      (b = true ↔ ∃ m t, IsMsg C m ∧ Run C s.bytes [] (frame C.envelope m ++ t)) ∧
      (∀ m t, IsMsg C m → Run C s.bytes [] (frame C.envelope m ++ t) →
        s' = ⟨frame C.envelope m ++ t, some m⟩) ∧
      (b = false → Decodes C s.bytes [] s'.bytes) := by
  obtain ⟨ms, r, hr, hf⟩ := decodes_exists C s.bytes
  cases ms with
  | nil =>
    have : ∀ m t, IsMsg C m → ¬ Run C s.bytes [] (frame C.envelope m ++ t) :=
      fun m t hm h => Decodes.no_first hm ⟨hr, hf⟩ h
    exact ⟨_, _, .none hr hf, iff_of_false (by simp) (by rintro ⟨m, t, hm, h⟩; exact this m t hm h),
      fun m t hm h => absurd h (this m t hm), fun _ => ⟨hr, hf⟩⟩
  | cons m ms =>
    obtain ⟨t, hm, ht⟩ : ∃ t, IsMsg C m ∧ Run C s.bytes [] (frame C.envelope m ++ t) := by
      generalize hx : m :: ms = l at hr
      generalize s.bytes = bs at hr
      induction hr generalizing m ms with
      | refl => cases hx
      | @take m' s' r' ms' hm _ _ => cases hx; exact ⟨s', hm, .refl _⟩
      | skip a b _ ih =>
        obtain ⟨t, hm, ht⟩ := ih hf m ms hx
        exact ⟨t, hm, .skip a b ht⟩
    refine ⟨_, _, .found hm ht, iff_of_true rfl ⟨m, t, hm, ht⟩, fun m' t' hm' hr' => ?_, by simp⟩
    obtain ⟨rfl, rfl⟩ := first_unique hm hm' ht hr'
    rfl

/-- C104. A program that makes allowed calls only gets exactly the results of the specification, in every
build. The messages removed are those of a scan of all bytes put in, and the scan has come to the bytes still
buffered. -/
theorem C104_defined (hc : recvBufferSize C < 2 ^ 64) {cs : List ECall} {os : List EObs} {bs : List Byte}
    {ms : List Msg} {s : Pull} (h : Pulled C Pull.new cs os bs ms s) :
    ∃ r : ERB C, (∀ B, Arith B (recvBufferSize C) → (ERB.new C).drive B cs = .ok (r, os)) ∧
      r.buf.Holds s.bytes ∧ Run C bs ms s.bytes := by
  obtain ⟨r, e, hr⟩ := drive_ok hc h good_new pulling_new
  exact ⟨r, e, hr.1, pull_run h⟩

/-- C104. A check is always allowed, and says that there is a message if and only if a scan of the buffered
bytes comes to one. It is the message that the following calls are about. -/
theorem C104_check (hc : recvBufferSize C < 2 ^ 64) {cs : List ECall} {os : List EObs} {bs : List Byte}
    {ms : List Msg} {s : Pull} (h : Pulled C Pull.new cs os bs ms s) :
    ∃ (b : Bool) (r : ERB C) (s' : Pull),
      (∀ B, Arith B (recvBufferSize C) →
        (ERB.new C).drive B (cs ++ [.check]) = .ok (r, os ++ [.found b])) ∧
      Pulled C Pull.new (cs ++ [.check]) (os ++ [.found b]) bs ms s' ∧
      (b = true ↔ ∃ m t, IsMsg C m ∧ Run C s.bytes [] (frame C.envelope m ++ t)) ∧
      (∀ m t, IsMsg C m → Run C s.bytes [] (frame C.envelope m ++ t) →
        s' = ⟨frame C.envelope m ++ t, some m⟩) := by
  obtain ⟨b, s', h1, h2, h3, _⟩ := check_pulls C s
  have h4 : Pulled C Pull.new (cs ++ [.check]) (os ++ [.found b]) bs ms s' := by
    simpa using pulled_append h (.cons h1 .nil)
  obtain ⟨r, e, _⟩ := C104_defined hc h4
  exact ⟨b, r, s', e, h4, h2, h3⟩

/-- C104. When a check says that there is no message, the messages removed so far are the complete decoding
of all bytes put in. -/
theorem C104_complete (hc : recvBufferSize C < 2 ^ 64) {cs : List ECall} {os : List EObs} {bs : List Byte}
    {ms : List Msg} {s : Pull} (h : Pulled C Pull.new cs os bs ms s) {B : Build}
    (ha : Arith B (recvBufferSize C)) {r : ERB C}
    (hr : (ERB.new C).drive B (cs ++ [.check]) = .ok (r, os ++ [.found false])) :
    ∃ rest, r.buf.Holds rest ∧ Decodes C bs ms rest := by
  obtain ⟨b, s', h1, _, _, h3⟩ := check_pulls C s
  have h4 : Pulled C Pull.new (cs ++ [.check]) (os ++ [.found b]) bs ms s' := by
    simpa using pulled_append h (.cons h1 .nil)
  obtain ⟨r', e, hh, hrun⟩ := C104_defined hc h4
  rw [e B ha] at hr
  simp at hr
  obtain ⟨rfl, rfl⟩ := hr
  exact ⟨s'.bytes, hh, hrun, (h3 rfl).2⟩

/-- C104. Hence they are the messages a receiver would have delivered. -/
theorem C104_receiver {B : Build} {user : UserCode} {fuel : Nat} (S : Setting C B user)
    (hn : NeverThrows user) {ops : List Op} {w : World C} {os' : List Obs}
    (hw : Reached B user fuel (ops ++ [.process]) w os') (hh : w.rx.hasHandler = true)
    {cs : List ECall} {os : List EObs} {ms : List Msg} {s : Pull}
    (h : Pulled C Pull.new cs os w.fed ms s) {r : ERB C}
    (hr : (ERB.new C).drive B (cs ++ [.check]) = .ok (r, os ++ [.found false])) :
    delivered w = ms.map (meaning C) ∧ r.buf.Holds (buffered w) := by
  obtain ⟨ns, hd, e⟩ := C20_greedy S hn hw hh
  obtain ⟨rest, h1, h2⟩ := C104_complete S.arith.lt64 h S.arith hr
  obtain ⟨rfl, rfl⟩ := hd.unique h2
  exact ⟨e, h1⟩

/-- Bytes for two messages with noise in between, put in by all three ways; a check before the end, two
removals. -/
def pullCalls : List ECall :=
  [.append (frame .basic Sample.mLevel), .appendOne 0x07, .check, .getCurrentMessageId, .deserialize,
   .fromFunctor (fun n => ⟨(frame .basic Sample.mPing).take n.toNat, 5⟩) 9, .size, .copy, .pop, .check,
   .getMessageLength, .pop, .empty]

/-- What the calls return. -/
def pullObs : List EObs :=
  [.unit, .unit, .found true, .id 1, .contents (some (meaning Sample.basic Sample.mLevel)), .number 5,
   .number 12, .unit, .unit, .found true, .number 5, .unit, .bool true]

theorem pulled_sample : Pulled Sample.basic Pull.new pullCalls pullObs
    (frame .basic Sample.mLevel ++ [0x07] ++ frame .basic Sample.mPing) [Sample.mLevel, Sample.mPing]
    ⟨[], none⟩ := by
  have hl : IsMsg Sample.basic Sample.mLevel := by decide
  have hp : IsMsg Sample.basic Sample.mPing := by decide
  have hskip : Run Sample.basic (0x07 :: frame .basic Sample.mPing) []
      (frame Sample.basic.envelope Sample.mPing ++ []) :=
    .skip (not_starts_of_ne (by decide)) (not_waiting_of_ne (by decide)) (by simpa using .refl _)
  exact .cons (.append (by decide)) (.cons (.appendOne (by decide))
    (.cons (.found (m := Sample.mLevel) (t := [0x07]) hl (.refl _)) (.cons .id (.cons .deserialize
    (.cons (.fromFunctor (free := 9) (xs := frame .basic Sample.mPing) (k := 5) (by decide) (by decide)
      (by decide) (by decide)) (.cons .size (.cons .copy (.cons (.pop (m := Sample.mLevel))
    (.cons (.found (m := Sample.mPing) (t := []) hp hskip) (.cons .length (.cons (.pop (m := Sample.mPing))
    (.cons .empty .nil))))))))))))

/-- C104_defined applies to it. -/
example : ∃ r : ERB Sample.basic, ∀ B, Arith B (recvBufferSize Sample.basic) →
    (ERB.new Sample.basic).drive B pullCalls = .ok (r, pullObs) := by
  obtain ⟨r, h, _⟩ := C104_defined (by decide) pulled_sample
  exact ⟨r, h⟩

/-- The check after it says that there is nothing more. -/
theorem pull_sample_end : ∃ r : ERB Sample.basic, (ERB.new Sample.basic).drive Sample.dbg
    (pullCalls ++ [.check]) = .ok (r, pullObs ++ [.found false]) := by
  obtain ⟨b, r, s', h, _, hb, _⟩ := C104_check (by decide) pulled_sample
  cases b with
  | false => exact ⟨r, h _ Sample.setting_basic.arith⟩
  | true =>
    obtain ⟨m, t, hm, hr⟩ := hb.mp rfl
    exact absurd hr fun hr => Decodes.no_first hm ⟨.refl _, .inl rfl⟩ hr

/-- C104_complete. -/
example : ∃ rest, Decodes Sample.basic (frame .basic Sample.mLevel ++ [0x07] ++ frame .basic Sample.mPing)
    [Sample.mLevel, Sample.mPing] rest := by
  obtain ⟨r, h⟩ := pull_sample_end
  obtain ⟨rest, _, hd⟩ := C104_complete (by decide) pulled_sample Sample.setting_basic.arith h
  exact ⟨rest, hd⟩

/-- C104_receiver: a receiver that got the same bytes in one piece. -/
example : ∃ (w : World Sample.basic), delivered w = [meaning Sample.basic Sample.mLevel,
    meaning Sample.basic Sample.mPing] := by
  obtain ⟨w, os, h, hp⟩ := Sample.reached (C := Sample.basic) (B := Sample.dbg) (user := Sample.passive)
    (fuel := 50) (ops := [.setHandler Sample.h0,
      .append (frame .basic Sample.mLevel ++ [0x07] ++ frame .basic Sample.mPing), .process])
    (fun w _ => w.rx.hasHandler && decide (w.fed =
      frame .basic Sample.mLevel ++ [0x07] ++ frame .basic Sample.mPing)) (by decide +kernel)
  simp only [Bool.and_eq_true, decide_eq_true_eq] at hp
  obtain ⟨r, hr⟩ := pull_sample_end
  have := C104_receiver Sample.setting_basic Sample.passive_neverThrows (ops := [.setHandler Sample.h0,
    .append (frame .basic Sample.mLevel ++ [0x07] ++ frame .basic Sample.mPing)]) h hp.1
    (by rw [hp.2]; exact pulled_sample) hr
  exact ⟨w, this.1⟩

/-- Both answers happen. -/
example : (∃ s', Pulls Sample.basic ⟨frame .basic Sample.mPing, none⟩ .check (.found true) [] [] s') ∧
    (∃ s', Pulls Sample.basic ⟨[0x01, 0x02], none⟩ .check (.found false) [] [] s') :=
  ⟨⟨_, .found (m := Sample.mPing) (t := []) (by decide) (by simpa using .refl _)⟩,
   ⟨_, .none (.refl _) (.inr (.inr (.inl ⟨2, by decide, rfl⟩)))⟩⟩

/-- C104. Removing a message that no check has found: with assertions, the assertion itself looks for the
message. If there is one, it is removed (with everything in front of it); otherwise the program is stopped. -/
theorem C104_pop_debug (hc : recvBufferSize C < 2 ^ 64) {B : Build} (hd : B.debug = true)
    (ha : Arith B (recvBufferSize C)) {cs : List ECall} {os : List EObs} {bs : List Byte} {ms : List Msg}
    {s : Pull} (h : Pulled C Pull.new cs os bs ms s) :
    (∀ m t, IsMsg C m → Run C s.bytes [] (frame C.envelope m ++ t) →
      ∃ r, (ERB.new C).drive B (cs ++ [.pop]) = .ok (r, os ++ [.unit]) ∧ r.buf.Holds t) ∧
    ((¬ ∃ m t, IsMsg C m ∧ Run C s.bytes [] (frame C.envelope m ++ t)) →
      (ERB.new C).drive B (cs ++ [.pop]) = .error .abort) := by
  obtain ⟨r, e, hr⟩ := drive_ok hc h good_new pulling_new
  obtain ⟨e', found, ys, h1, _, hh, hr', _, ht, hf⟩ := check_spec hc hr.1
  constructor
  · intro m t hm hrun
    have hfound : found = true := by
      cases found with
      | true => rfl
      | false => exact absurd hrun fun h => Decodes.no_first hm ⟨hr', hf rfl⟩ h
    subst hfound
    obtain ⟨m', t', hm', rfl, hid⟩ := ht rfl
    obtain ⟨rfl, rfl⟩ := first_unique hm hm' hrun hr'
    obtain ⟨e2, h2, hh2, _⟩ := popMessage_ok hc hm hh hid
    refine ⟨e2, ?_, hh2⟩
    have h3 : r.popMessage B = e'.popMessage B := by
      have h4 := check_at_frame hc hm hh B
      unfold ERB.popMessage
      simp only [hd, if_true, h1 B, h4, ok_bind]
      have : ({ e' with currentMessageId := some m.id } : ERB C) = e' := by rw [← hid]
      rw [this]
    rw [drive_append, e B ha]
    simp [ERB.drive, ERB.call, h3, h2 B]
  · intro hno
    have hfound : found = false := by
      cases found with
      | false => rfl
      | true =>
        obtain ⟨m', t', hm', rfl, hid⟩ := ht rfl
        exact absurd ⟨m', t', hm', hr'⟩ hno
    subst hfound
    rw [drive_append, e B ha]
    simp [ERB.drive, ERB.call, ERB.popMessage, hd, h1 B, assertMsg]

/-- No check has been made since the last removal, or at all. -/
def Unchecked (cs : List ECall) : Prop :=
  ∃ a b, cs = a ++ b ∧ (a = [] ∨ ∃ a', a = a' ++ [.pop]) ∧ .check ∉ b ∧ .pop ∉ b

theorem drive_id (B : Build) (b : List ECall) (h1 : .check ∉ b) (h2 : .pop ∉ b) : ∀ {r r' : ERB C}
    {os : List EObs}, r.drive B b = .ok (r', os) → r'.currentMessageId = r.currentMessageId := by
  induction b with
  | nil => intro r r' os h; simp [ERB.drive] at h; rw [h.1]
  | cons c b ih =>
    intro r r' os h
    simp only [List.mem_cons, not_or] at h1 h2
    simp only [ERB.drive] at h
    cases hx : r.call B c with
    | error f => simp [hx] at h
    | ok x =>
      simp only [hx, ok_bind] at h
      cases hy : x.1.drive B b with
      | error f => simp [hy] at h
      | ok y =>
        have hxy := ih h1.2 h2.2 (r := x.1) (r' := y.1) (os := y.2) hy
        simp only [hy, ok_bind, pure_eq_ok, Except.ok.injEq, Prod.mk.injEq] at h
        rw [← h.1, hxy]
        cases c with
        | check => exact absurd rfl h1.1
        | pop => exact absurd rfl h2.1
        | append xs =>
          simp only [ERB.call, ERB.bufferAppend] at hx
          cases hz : r.buf.pushBackRange B xs <;> simp [hz] at hx
          rw [← hx]
        | appendOne xs =>
          simp only [ERB.call, ERB.bufferAppendOne] at hx
          cases hz : r.buf.pushBack B xs <;> simp [hz] at hx
          rw [← hx]
        | fromFunctor f n =>
          simp only [ERB.call, ERB.bufferFromFunctorRef] at hx
          cases hz : r.buf.bufferFromExternalFunctorRef B f n <;> simp [hz] at hx
          rw [← hx]
        | getCurrentMessageId =>
          simp only [ERB.call] at hx
          cases hz : r.getCurrentMessageId B <;> simp [hz] at hx
          rw [← hx]
        | getMessageLength =>
          simp only [ERB.call] at hx
          cases hz : r.getMessageLength B <;> simp [hz] at hx
          rw [← hx]
        | deserialize =>
          simp only [ERB.call] at hx
          cases hz : r.getCurrentMessageId B with
          | error f => simp [hz] at hx
          | ok i =>
            simp only [hz, ok_bind] at hx
            generalize applyAt C.messages i _ _ = q at hx
            cases q <;> simp at hx
            rw [← hx]
        | size | empty | availableSpace => simp [ERB.call] at hx; rw [← hx]
        | copy =>
          simp only [ERB.call] at hx
          cases hz : r.buf.copyConstruct <;> simp [hz] at hx
          rw [← hx]

theorem pop_id {B : Build} {r r' : ERB C} (h : r.popMessage B = .ok r') : r'.currentMessageId = none := by
  unfold ERB.popMessage at h
  generalize (if B.debug then _ else _ : Res (ERB C)) = q at h
  cases q with
  | error f => simp at h
  | ok r1 =>
    simp only [ok_bind] at h
    cases h1 : r1.getMessageLength B with
    | error f => simp [h1] at h
    | ok n =>
      simp only [h1, ok_bind] at h
      cases h2 : r1.bufferPopFront B n <;> simp [h2] at h
      rw [← h]

/-- C104. Without assertions it is undefined, whatever is in the buffer: a program that forgets the check
works in debug builds only. -/
theorem C104_pop_release {B : Build} (hd : B.debug = false) {cs : List ECall} (hu : Unchecked cs)
    {r : ERB C} {os : List EObs} (h : (ERB.new C).drive B cs = .ok (r, os)) :
    (ERB.new C).drive B (cs ++ [.pop]) = .error .ub := by
  have hid : r.currentMessageId = none := by
    obtain ⟨a, b, rfl, hab, h1, h2⟩ := hu
    rw [drive_append] at h
    cases hx : (ERB.new C).drive B a with
    | error f => simp [hx] at h
    | ok x =>
      simp only [hx, ok_bind] at h
      cases hy : x.1.drive B b with
      | error f => simp [hy] at h
      | ok y =>
        simp [hy] at h
        rw [← h.1, drive_id B b h1 h2 (r := x.1) (r' := y.1) (os := y.2) hy]
        rcases hab with rfl | ⟨a', rfl⟩
        · simp [ERB.drive] at hx
          rw [← hx]; rfl
        · rw [drive_append] at hx
          cases hz : (ERB.new C).drive B a' with
          | error f => simp [hz] at hx
          | ok z =>
            simp only [hz, ok_bind, ERB.drive, ERB.call] at hx
            cases hp : z.1.popMessage B with
            | error f => simp [hp] at hx
            | ok p =>
              simp [hp] at hx
              rw [← hx]
              exact pop_id hp
  rw [drive_append, h]
  simp [ERB.drive, ERB.call, ERB.popMessage, hd, ERB.getMessageLength, ERB.getCurrentMessageId, assertMsg, hid]

/-- Two messages, one check, two removals: fine with assertions, undefined without. -/
example : ((ERB.new Sample.basic).drive Sample.dbg [.append (frames .basic [Sample.mLevel, Sample.mPing]),
    .check, .pop, .pop, .size]).map (·.2) = .ok [.unit, .found true, .unit, .unit, .number 0] := by
  decide +kernel
example : (ERB.new Sample.basic).drive Sample.rel16 [.append (frames .basic [Sample.mLevel, Sample.mPing]),
    .check, .pop, .pop] = .error .ub :=
  C104_pop_release (cs := [.append (frames .basic [Sample.mLevel, Sample.mPing]), .check, .pop]) rfl
    ⟨[.append (frames .basic [Sample.mLevel, Sample.mPing]), .check, .pop], [], rfl, .inr ⟨[.append (frames .basic
      [Sample.mLevel, Sample.mPing]), .check], rfl⟩, by simp, by simp⟩ (r := ⟨none, ⟨6, 11, frames .basic [Sample.mLevel, Sample.mPing] ++ List.replicate 25 0⟩⟩)
    (os := [.unit, .found true, .unit]) (by decide +kernel)
/-- The hypotheses of C104_pop_debug: nothing to remove. -/
example : (ERB.new Sample.basic).drive Sample.dbg [.append [0x01, 0x02], .pop] = .error .abort :=
  (C104_pop_debug (by decide) rfl Sample.setting_basic.arith (cs := [.append [0x01, 0x02]])
    (.cons (.append (by decide)) .nil)).2 (by
      rintro ⟨m, t, hm, hr⟩
      exact Decodes.no_first hm ⟨.refl _, .inr (.inr (.inl ⟨2, by decide, rfl⟩))⟩ hr)

theorem bufferSize_of_empty {e : ERB C} (h : e.bufferEmpty = true) : e.bufferSize = 0 := by
  unfold ERB.bufferEmpty RB.empty at h
  replace h : e.buf.begin_ = e.buf.pastEnd := by simpa using h
  unfold ERB.bufferSize RB.size subT
  rw [h]
  have h1 := Nat.mod_lt e.buf.pastEnd (Nat.two_pow_pos (leastBits (recvBufferSize C)))
  have h2 := Nat.div_add_mod e.buf.pastEnd (2 ^ leastBits (recvBufferSize C))
  generalize 2 ^ leastBits (recvBufferSize C) = N at h1 h2 ⊢
  have : e.buf.pastEnd + (N - e.buf.pastEnd % N) = N * (e.buf.pastEnd / N + 1) := by
    rw [Nat.mul_add]; omega
  rw [this, Nat.mul_mod_right]

theorem setId_valid {e : ERB C} {i : Byte} (h : (e.setCurrentMessageId i).isCurrentMessageIdValid = true) :
    (e.setCurrentMessageId i).currentMessageId = some i ∧ (e.setCurrentMessageId i).buf = e.buf := by
  unfold ERB.setCurrentMessageId ERB.isCurrentMessageIdValid at *
  split at h <;> simp_all

/-- A check that finds nothing and leaves an id byte has made it the current id. -/
theorem checkG_id (B : Build) (d : Nat) : ∀ {e e' : ERB C}, checkG B d e = .ok (e', false) →
    2 ≤ e'.bufferSize → ∃ i, e'.buffer B 1 = .ok i ∧ e'.currentMessageId = some i := by
  induction d with
  | zero => intro e e' h; simp [checkG] at h
  | succ d ih =>
    intro e e' h h2
    have retry : ∀ {r : ERB C}, popAndRetry B (checkG B d) r = .ok (e', false) →
        ∃ i, e'.buffer B 1 = .ok i ∧ e'.currentMessageId = some i := by
      intro r hr
      unfold popAndRetry at hr
      cases ha : assertMsg B (!r.bufferEmpty) with
      | error f => simp [ha] at hr
      | ok _ =>
        simp only [ha, ok_bind] at hr
        by_cases hm : r.bufferEmpty = true
        · simp [hm] at hr
          rw [← hr, bufferSize_of_empty hm] at h2
          omega
        · simp only [hm] at hr
          cases hp : r.bufferPopFront B 1 with
          | error f => simp [hp] at hr
          | ok r1 =>
            simp [hp] at hr
            exact ih hr h2
    unfold checkG at h
    cases hs : skipToSOH B (e.bufferSize + 1) e with
    | error f => simp [hs] at h
    | ok r =>
      simp only [hs, ok_bind] at h
      by_cases h0 : r.bufferSize < 2
      · simp [h0] at h
        rw [← h] at h2
        omega
      · simp only [h0, if_false] at h
        cases hi : r.buffer B 1 with
        | error f => simp [hi] at h
        | ok i =>
          simp only [hi, ok_bind] at h
          by_cases hv : (r.setCurrentMessageId i).isCurrentMessageIdValid = true
          · obtain ⟨hv1, hv2⟩ := setId_valid hv
            have hb : (r.setCurrentMessageId i).buffer B 1 = .ok i := by
              unfold ERB.buffer at hi ⊢; rw [hv2, hi]
            generalize r.setCurrentMessageId i = q at *
            simp only [hv, Bool.not_true, Bool.false_eq_true, if_false] at h
            by_cases h3 : q.bufferSize < 3
            · simp [h3] at h
              rw [← h]
              exact ⟨i, hb, hv1⟩
            · simp only [h3, if_false] at h
              cases hc2 : q.buffer B 2 with
              | error f => simp [hc2] at h
              | ok c2 =>
                simp only [hc2, ok_bind] at h
                by_cases hx : c2 = STX
                · simp only [hx, ne_eq, not_true, if_false] at h
                  cases hl : q.getMessageLength B with
                  | error f => simp [hl] at h
                  | ok n =>
                    simp only [hl, ok_bind] at h
                    by_cases h4 : q.bufferSize < n
                    · simp [h4] at h
                      rw [← h]
                      exact ⟨i, hb, hv1⟩
                    · simp only [h4, if_false] at h
                      cases ht : trailerOk B q n with
                      | error f => simp [ht] at h
                      | ok g =>
                        simp only [ht, ok_bind] at h
                        cases g with
                        | true => simp at h
                        | false => exact retry (by simpa using h)
                · simp only [ne_eq, hx, not_false_iff, if_true] at h
                  exact retry h
          · simp only [hv, Bool.not_false, if_true] at h
            exact retry h

/-- Removing elements without assertions moves the first index, whatever is in the buffer. -/
theorem popFrontLoop_release {cap : Nat} {B : Build} (hd : B.debug = false) (n : Nat) : ∀ (b : RB cap),
    ∃ b' : RB cap, RB.popFrontLoop B b n = .ok b' ∧ b'.pastEnd = b.pastEnd ∧
      b'.begin_ % 2 ^ leastBits cap = (b.begin_ + n) % 2 ^ leastBits cap := by
  induction n with
  | zero => intro b; exact ⟨b, rfl, rfl, rfl⟩
  | succ n ih =>
    intro b
    obtain ⟨b', h1, h2, h3⟩ := ih { b with begin_ := trunc cap (b.begin_ + 1) }
    refine ⟨b', ?_, h2, ?_⟩
    · simp [RB.popFrontLoop, RB.incrementBegin, assertMsg, hd, h1]
    · rw [h3]
      simp only [trunc]
      rw [Nat.mod_add_mod, Nat.add_assoc, Nat.add_comm 1 n]

/-- C104. Removing a message although the check found only a part of one, without assertions: the call
returns, and the buffer claims to hold almost as many bytes as its size type can count. -/
theorem C104_pop_incomplete (hc : recvBufferSize C < 2 ^ 64) {B : Build} (hd : B.debug = false)
    (ha : Arith B (recvBufferSize C)) {cs : List ECall} {os : List EObs} {bs : List Byte} {ms : List Msg}
    {s : Pull} (h : Pulled C Pull.new (cs ++ [.check]) (os ++ [.found false]) bs ms s)
    {id : Byte} {rest : List Byte} (hs : s.bytes = 0x01 :: id :: rest) {n : Nat}
    (hn : announced C id = some n) :
    ∃ r k, (ERB.new C).drive B (cs ++ [.check, .getCurrentMessageId, .pop, .size]) =
        .ok (r, os ++ [.found false, .id id, .unit, .number k]) ∧
      s.bytes.length < n ∧ k + (n - s.bytes.length) = 2 ^ leastBits (recvBufferSize C) := by
  obtain ⟨s1, bs1, ms1, xs, ns, h1, h2, _, _⟩ := pulled_snoc h
  obtain ⟨r1, e1, hr1⟩ := drive_ok hc h1 good_new pulling_new
  obtain ⟨r2, e2, hr2⟩ := call_ok hc hr1 (pulled_good h1 good_new) h2
  have hlt : s.bytes.length < n := by
    cases h2 with | none _ hf =>
    simp only at hs ⊢
    subst hs
    have h5 : 5 ≤ n := by
      have := announced_ge hn
      cases hE : C.envelope <;> rw [hE] at this <;> simp [overhead] at this <;> omega
    rcases hf with hf | hf | ⟨i, _, hf⟩ | ⟨i, rest', n', hn', hf, hl⟩
    · cases hf
    · cases hf
    · cases hf; simp; omega
    · cases hf
      rw [hn] at hn'
      cases hn'
      exact hl
  have hb := hr2.1
  rw [hs] at hb
  have hid : r2.currentMessageId = some id := by
    have hcall := e2 B ha
    simp only [ERB.call] at hcall
    cases hx : r1.checkBufferForMessage B with
    | error f => simp [hx] at hcall
    | ok x =>
      simp [hx] at hcall
      obtain ⟨rfl, hx2⟩ := hcall
      have hx' : checkG B (r1.bufferSize + 1) r1 = .ok (x.1, false) := by
        rw [← checkDepth_eq, ← hx2]; exact hx
      have hsz := hb.size_eq hc
      obtain ⟨i, hi1, hi2⟩ := checkG_id B _ hx' (by unfold ERB.bufferSize; rw [hsz]; simp)
      have := hb.get_ok hc (B := B) (i := 1) (by simp)
      unfold ERB.buffer at hi1
      rw [hi1] at this
      simp at this
      rw [hi2, this]
  obtain ⟨b', g1, g2, g3⟩ := popFrontLoop_release hd n r2.buf
  have hpop : r2.popMessage B = .ok ⟨none, b'⟩ := by
    unfold ERB.popMessage
    simp only [hd, Bool.false_eq_true, if_false, ok_bind, getMessageLength_ok hc hid hn,
      ERB.bufferPopFront, RB.popFront, hb.front_ok hc, g1, pure_eq_ok]
  refine ⟨⟨none, b'⟩, b'.size, ?_, hlt, ?_⟩
  · rw [drive_append, e1 B ha]
    simp [ERB.drive, e2 B ha]
    simp [ERB.call, ERB.getCurrentMessageId, hid, hpop, ERB.bufferSize]
  · have hle := announced_le hn
    have hcap := lt_two_pow_leastBits hc
    have hpe := hr2.1.pe
    have hmx : 3 * maxMessageLength C = recvBufferSize C := by
      unfold recvBufferSize messageBufferSizeScale; omega
    unfold RB.size subT
    rw [g2, g3, hpe]
    generalize 2 ^ leastBits (recvBufferSize C) = N at hcap ⊢
    have hbe : r2.buf.begin_ + s.bytes.length ≤ recvBufferSize C := by
      rw [← hpe]; exact hr2.1.pastEnd_le
    generalize s.bytes.length = l at *
    generalize r2.buf.begin_ = g at *
    by_cases hw : g + n < N
    · rw [Nat.mod_eq_of_lt hw, Nat.mod_eq_of_lt (by omega)]
      omega
    · have : (g + n) % N = g + n - N := by
        rw [Nat.mod_eq_sub_mod (by omega), Nat.mod_eq_of_lt (by omega)]
      rw [this]
      have : g + l + (N - (g + n - N)) = N + (N - (n - l)) := by omega
      rw [this, Nat.add_mod_left, Nat.mod_eq_of_lt (by omega)]
      omega

/-- Three of twelve bytes have arrived; afterwards the buffer claims 247 bytes. -/
example : ∃ r : ERB Sample.basic, (ERB.new Sample.basic).drive Sample.rel16
    [.append [0x01, 0x02, 0x02], .check, .getCurrentMessageId, .pop, .size] =
      .ok (r, [.unit, .found false, .id 2, .unit, .number 247]) := by
  have ha : Arith Sample.rel16 (recvBufferSize Sample.basic) := by constructor <;> decide
  obtain ⟨r, k, h, _, hk⟩ := C104_pop_incomplete (C := Sample.basic) (B := Sample.rel16) (by decide) rfl ha
    (cs := [.append [0x01, 0x02, 0x02]]) (os := [.unit]) (n := 12)
    (.cons (.append (by decide)) (.cons (.none (r := [0x01, 0x02, 0x02]) (.refl _)
      (.inr (.inr (.inr ⟨2, [], 12, by decide, rfl, by decide⟩)))) .nil)) (id := 2) (rest := [0x02]) rfl
    (by decide)
  have hk' : k = 247 := by
    rw [show leastBits (recvBufferSize Sample.basic) = 8 by decide] at hk
    simp at hk
    omega
  subst hk'
  exact ⟨r, h⟩

/-- The current id says nothing when a check has left less than two bytes: here the buffer is empty after the
check in both cases, and the id is set in the second. -/
example : (ERB.new Sample.basic).drive Sample.rel16 [.append [0x07], .check, .size, .getCurrentMessageId] =
      .error .ub ∧
    ((ERB.new Sample.basic).drive Sample.rel16
      [.append [0x01, 0x02, 0x07], .check, .size, .getCurrentMessageId]).map (·.2) =
        .ok [.unit, .found false, .number 0, .id 2] := by
  decide +kernel

end TT.Properties
