import Verif.Model.CustomMoves
import Verif.Properties.CustomEnvelope
import Verif.Spec.Machine

/-!
# Property about envelopes written by users, with handlers that throw and call the receiver: C99
-/

namespace TT.Properties
open Spec

variable {C : Custom} {B : Build} {scan : Scan}

/-! ### C99 -/

/-- What the envelope has to guarantee: it looks for messages in the way `scan`, reports only whole messages, finds what it
found when it looks again, and does not revise decisions when more bytes arrive. -/
structure GoodEnvelope (C : Custom) (scan : Scan) : Prop where
  implements_ : Implements C scan
  proper : Proper C scan
  settled : Settled scan
  online : Online scan

/-- The rules: bytes that are appended fit, adapters keep their contract, and while `processMessages` is in progress it is
not called again and the handler is not cleared (it may be replaced). -/
def CAllowed (p : CPlay C) : CMove → Prop
  | .append xs => xs.length ≤ p.world.space
  | .receiveFrom avail rcv =>
      GoodReply (min avail.toNat p.world.space) (rcv (UInt8.ofNat (min avail.toNat p.world.space)))
  | .clearHandler => p.busy = none
  | .process => p.busy = none
  | _ => True

/-- Each move is allowed in the state in which it is made. -/
def AllCAllowed (B : Build) : CPlay C → List CMove → Prop
  | _, [] => True
  | p, m :: ms => CAllowed p m ∧ ∀ p' o, p.move B m = .ok (p', o) → AllCAllowed B p' ms

/-- A program with a new receiver made the moves `ms`, all of them allowed, and got to the state `p`. -/
structure CPlayed (B : Build) (ms : List CMove) (p : CPlay C) (os : List (Option Outcome)) : Prop where
  allowed : AllCAllowed B (CPlay.start C) ms
  moves : (CPlay.start C).moves B ms = .ok (p, os)

/-- The handler calls for messages that were tried in vain some number of times and then once with success. -/
def customAttempts (C : Custom) (ps : List (Msg × Nat)) : List (MsgType × List (List Byte)) :=
  ps.flatMap fun p => List.replicate (p.2 + 1) (customMeaning C p.1)

/-- The message in front of the buffer has been tried `j` times. -/
def CPending (C : Custom) (scan : Scan) (xs : List Byte) (j : Nat) (m : Msg) : Prop :=
  j = 0 ∨ ∃ t, scan xs = (0, some m.id) ∧ typeAt C m.id = some t ∧ m.payload = (xs.drop C.dataOffset).take (payloadSize t)

/-- What is true at any time. -/
structure CFine (scan : Scan) (p : CPlay C) (xs : List Byte) (ps : List (Msg × Nat)) (j : Nat) (m : Msg) : Prop where
  holds : p.world.recv.buf.Holds xs
  rest : ∀ {ys q : List Byte} {ns : List Msg}, Parses C scan (xs ++ ys) ns q →
    Parses C scan (p.world.fed ++ ys) (ps.map (·.1) ++ ns) q
  returned : p.returned.map seen = ps.map fun q => customMeaning C q.1
  calls : p.world.trace.map seen = customAttempts C ps ++ List.replicate j (customMeaning C m)
  pending : CPending C scan xs j m
  busy : ∀ n c, p.busy = some (n, c) → p.world.handler.isSome ∧ 0 < j ∧ p.world.recv.currentMessageId = some m.id ∧
    c.toList.map seen = [customMeaning C m]

theorem parses_shift {s r : List Byte} {ms : List Msg} {n a : Nat} {f : Option Byte} (h1 : scan s = (n + a, f))
    (h2 : scan (s.drop n) = (a, f)) (h : Parses C scan (s.drop n) ms r) : Parses C scan s ms r := by
  generalize hu : s.drop n = u at h h2
  cases h with
  | @stop _ k hx =>
    rw [hx] at h2
    cases h2
    rw [← hu, List.drop_drop]
    exact Parses.stop h1
  | @take _ _ k id t ms hx ht h' =>
    rw [hx] at h2
    cases h2
    rw [← hu, List.drop_drop] at h' ⊢
    rw [← Nat.add_assoc n a] at h' ⊢
    exact Parses.take h1 ht h'

/-- Dropping what a scan skips changes nothing, whatever bytes come later. -/
theorem parses_skip (G : GoodEnvelope C scan) {xs ys r : List Byte} {ms : List Msg}
    (h : Parses C scan (xs.drop (scan xs).1 ++ ys) ms r) : Parses C scan (xs ++ ys) ms r := by
  have hle := G.proper.within xs
  rw [← List.drop_append_of_le_length hle] at h
  cases hx : scan xs with
  | mk n f =>
    rw [hx] at h hle
    simp only at h hle
    cases f with
    | none => exact parses_shift (G.online.skipped xs ys n hx) (by rw [List.drop_append_of_le_length hle]) h
    | some id =>
      refine parses_shift (a := 0) (G.online.found xs ys n id hx) ?_ h
      rw [List.drop_append_of_le_length hle]
      exact G.online.found _ ys 0 id (G.settled xs n id hx)

theorem CPending.append (G : GoodEnvelope C scan) {xs : List Byte} {j : Nat} {m : Msg} (h : CPending C scan xs j m)
    (ys : List Byte) : CPending C scan (xs ++ ys) j m := by
  rcases h with h | ⟨t, h1, h2, h3⟩
  · exact .inl h
  · obtain ⟨k, hk, hle⟩ := G.proper.whole xs 0 m.id h1
    have hkt : C.overhead + payloadSize t = k := by simpa [lengthAt, h2] using hk
    have hof := G.proper.offset
    refine .inr ⟨t, G.online.found xs ys 0 m.id h1, h2, ?_⟩
    rw [List.drop_append_of_le_length (by omega), List.take_append_of_le_length (by simp; omega)]
    exact h3

theorem clook_fine (G : GoodEnvelope C scan) (ha : Arith B C.recvBufferSize) {p : CPlay C} {xs : List Byte}
    {ps : List (Msg × Nat)} {j : Nat} {m : Msg} {n : Byte} (holds : p.world.recv.buf.Holds xs)
    (rest : ∀ {ys q : List Byte} {ns : List Msg}, Parses C scan (xs ++ ys) ns q →
      Parses C scan (p.world.fed ++ ys) (ps.map (·.1) ++ ns) q)
    (returned : p.returned.map seen = ps.map fun q => customMeaning C q.1)
    (calls : p.world.trace.map seen = customAttempts C ps ++ List.replicate j (customMeaning C m))
    (pending : CPending C scan xs j m) (hh : p.world.handler.isSome) :
    ∃ p' o xs' j' m', p.look B n = .ok (p', o) ∧ CFine scan p' xs' ps j' m' ∧ p'.returned = p.returned ∧
      p'.world.fed = p.world.fed ∧
      ((o = none ∧ ∃ c, p'.busy = some (n, c)) ∨
        (o = some (.returned n) ∧ p'.busy = none ∧ Parses C scan xs' [] xs')) := by
  have hc := ha.lt64
  obtain ⟨h, hh⟩ := Option.isSome_iff_exists.mp hh
  obtain ⟨e1, h1, hh1, hcur⟩ := Custom.check_ok hc G.implements_ holds
  have rest' : ∀ {ys q : List Byte} {ns : List Msg}, Parses C scan (xs.drop (scan xs).1 ++ ys) ns q →
      Parses C scan (p.world.fed ++ ys) (ps.map (·.1) ++ ns) q := fun hp => rest (parses_skip G hp)
  cases hx : scan xs with
  | mk k f =>
    rw [hx] at h1 hh1 hcur rest'
    cases f with
    | none =>
      have hj : j = 0 := by
        rcases pending with h | ⟨t, h, _⟩
        · exact h
        · rw [hx] at h; cases h
      subst hj
      have hskip := G.online.skipped xs [] k hx
      simp only [List.append_nil, hx, Prod.mk.injEq] at hskip
      refine ⟨{ p with world := { p.world with recv := e1 }, busy := none }, some (.returned n), xs.drop k, 0, m, ?_,
        ⟨hh1, rest', returned, calls, .inl rfl, by simp⟩, rfl, rfl, .inr ⟨rfl, rfl, ?_⟩⟩
      · unfold CPlay.look
        simp [h1 B]
      · have : scan (xs.drop k) = (0, none) := Prod.ext (by have := hskip.1; simp only; omega) hskip.2.symm
        have hstop := Parses.stop (C := C) this
        simpa using hstop
    | some id =>
      obtain ⟨l, hl, hle⟩ := G.proper.whole xs k id hx
      cases ht : typeAt C id with
      | none => simp [lengthAt, ht] at hl
      | some t =>
        have hlt : C.overhead + payloadSize t = l := by simpa [lengthAt, ht] using hl
        have hcur := hcur rfl
        let m' : Msg := ⟨id, ((xs.drop k).drop C.dataOffset).take (payloadSize t)⟩
        let w1 : C.World := { p.world with recv := e1, lastMessageId := some id }
        have hinv : w1.invoke id = .ok (some (customCall C h m')) :=
          Custom.invoke_ok (w := w1) G.proper hh1 hh ht (by simp; omega)
        have hset := G.settled xs k id hx
        have hmm : j = 0 ∨ m = m' := by
          rcases pending with h0 | ⟨t0, h0, ht0, hp0⟩
          · exact .inl h0
          · rw [hx] at h0
            simp only [Prod.mk.injEq, Option.some.injEq] at h0
            obtain ⟨rfl, hid⟩ := h0
            rw [← hid, ht] at ht0
            cases ht0
            refine .inr ?_
            cases m
            simp only at hid hp0
            rw [hp0, ← hid]
            simp [m']
        refine ⟨⟨{ w1 with trace := w1.trace ++ [customCall C h m'] }, some (n, some (customCall C h m')), p.returned⟩, none, xs.drop k, j + 1, m', ?_,
          ⟨hh1, rest', returned, ?_, .inr ⟨t, hset, ht, rfl⟩, ?_⟩, rfl, rfl, .inl ⟨rfl, _, rfl⟩⟩
        · unfold CPlay.look
          simp only [h1 B, ok_bind, Option.isSome_some, Bool.not_true, Bool.false_eq_true, if_false,
            CBuf.getCurrentMessageId, hcur, assertMsg_true]
          change (do
            let c ← w1.invoke id
            _) = _
          rw [hinv]
          rfl
        · simp only [w1, List.map_append, calls, List.append_assoc]
          congr 1
          rcases hmm with rfl | rfl
          · rfl
          · rw [List.replicate_succ']; rfl
        · intro n' c' e
          cases e
          exact ⟨by simp [w1, hh], by omega, hcur, rfl⟩

theorem cmove_fine (G : GoodEnvelope C scan) (ha : Arith B C.recvBufferSize) {p : CPlay C} {xs : List Byte}
    {ps : List (Msg × Nat)} {j : Nat} {m : Msg} (hf : CFine scan p xs ps j m) {a : CMove} (hl : CAllowed p a) :
    ∃ p' o xs' ps' j' m', p.move B a = .ok (p', o) ∧ CFine scan p' xs' ps' j' m' ∧
      (∀ n, o = some (.returned n) → p.world.handler.isSome → Parses C scan xs' [] xs' ∧ p'.busy = none) ∧
      (∀ n c, p.busy = some (n, c) → ∃ k, p'.returned.length = p.returned.length + k ∧
        ((o = none ∧ ∃ c', p'.busy = some (n + UInt8.ofNat k, c')) ∨
          (p'.busy = none ∧ (o = some .threw ∨ o = some (.returned (n + UInt8.ofNat k)))))) := by
  have hc := ha.lt64
  have hle := hf.holds.length_le
  have hsp := Custom.space_eq hc hf.holds
  have same : ∀ {p' : CPlay C} {o : Option Outcome}, o = none → p'.busy = p.busy → p'.returned = p.returned →
      ∀ n c, p.busy = some (n, c) → ∃ k, p'.returned.length = p.returned.length + k ∧
        ((o = none ∧ ∃ c', p'.busy = some (n + UInt8.ofNat k, c')) ∨
          (p'.busy = none ∧ (o = some .threw ∨ o = some (.returned (n + UInt8.ofNat k))))) := by
    intro p' o h0 h1 h2 n c h3
    exact ⟨0, by rw [h2]; rfl, .inl ⟨h0, c, by rw [h1, h3]; simp⟩⟩
  have more : ∀ {b : RB C.recvBufferSize} {ys : List Byte}, b.Holds (xs ++ ys) →
      CFine scan { p with world := { p.world with recv := { p.world.recv with buf := b }, fed := p.world.fed ++ ys } }
        (xs ++ ys) ps j m := by
    intro b ys hb
    refine ⟨hb, fun hp => ?_, hf.returned, hf.calls, hf.pending.append G ys, hf.busy⟩
    rw [List.append_assoc] at hp ⊢
    exact hf.rest hp
  cases a with
  | append ys =>
    simp only [CAllowed, hsp] at hl
    obtain ⟨b, e, hb⟩ := hf.holds.pushBackRange_ok hc (ys := ys) (by omega)
    exact ⟨_, none, _, _, _, _, by simp only [CPlay.move, e B ha, ok_bind]; rfl, more hb, by simp, same rfl rfl rfl⟩
  | receiveFrom avail rcv =>
    simp only [CAllowed, hsp] at hl
    have hoff : RB.offer C.recvBufferSize xs avail.toNat = min avail.toNat (C.recvBufferSize - xs.length) := rfl
    obtain ⟨b, e, hb⟩ := hf.holds.functor_ok hc (f := rcv) (n := avail.toNat) (by rw [hoff]; exact hl.1)
      (by rw [hoff, hl.2]; exact Nat.le_refl _)
    rw [hoff] at e hb
    exact ⟨_, none, _, _, _, _, by simp only [CPlay.move, e B ha, ok_bind, hsp]; rfl, more hb, by simp, same rfl rfl rfl⟩
  | setHandler h =>
    refine ⟨_, none, xs, ps, j, m, rfl, ⟨hf.holds, hf.rest, hf.returned, hf.calls, hf.pending, fun n c hb => ?_⟩, by simp,
      same rfl rfl rfl⟩
    exact ⟨rfl, (hf.busy n c hb).2⟩
  | clearHandler =>
    refine ⟨_, none, xs, ps, j, m, rfl, ⟨hf.holds, hf.rest, hf.returned, hf.calls, hf.pending, fun n c hb => ?_⟩, by simp,
      same rfl rfl rfl⟩
    simp only [CAllowed] at hl
    simp only [hl] at hb
    cases hb
  | process =>
    simp only [CAllowed] at hl
    cases hh : p.world.handler with
    | none =>
      exact ⟨p, some (.returned 0), xs, ps, j, m, by simp [CPlay.move, hh], hf, by simp, by simp [hl]⟩
    | some h =>
      obtain ⟨p', o, xs', j', m', h1, h2, h3, h4, h5⟩ := clook_fine (n := 0) G ha hf.holds hf.rest hf.returned hf.calls
        hf.pending (by simp [hh])
      refine ⟨p', o, xs', ps, j', m', by simp [CPlay.move, hh, h1], h2, ?_, by simp [hl]⟩
      intro n ho _
      rcases h5 with ⟨rfl, _⟩ | ⟨_, h6, h7⟩
      · cases ho
      · exact ⟨h7, h6⟩
  | throw =>
    cases hb : p.busy with
    | none => exact ⟨p, none, xs, ps, j, m, by simp [CPlay.move, hb], hf, by simp, by simp⟩
    | some q =>
      refine ⟨{ p with busy := none }, some .threw, xs, ps, j, m, by simp [CPlay.move, hb],
        ⟨hf.holds, hf.rest, hf.returned, hf.calls, hf.pending, by simp⟩, by simp, ?_⟩
      intro n c _
      exact ⟨0, rfl, .inr ⟨rfl, .inl rfl⟩⟩
  | finish =>
    cases hb : p.busy with
    | none => exact ⟨p, none, xs, ps, j, m, by simp [CPlay.move, hb], hf, by simp, by simp⟩
    | some q =>
      obtain ⟨n, c⟩ := q
      obtain ⟨hsome, hj, hcur, hcall⟩ := hf.busy n c hb
      obtain ⟨t, hx, ht, hpay⟩ : ∃ t, scan xs = (0, some m.id) ∧ typeAt C m.id = some t ∧
          m.payload = (xs.drop C.dataOffset).take (payloadSize t) := by
        rcases hf.pending with h | h
        · omega
        · exact h
      obtain ⟨k, hk, hkle⟩ := G.proper.whole xs 0 m.id hx
      have hkt : C.overhead + payloadSize t = k := by simpa [lengthAt, ht] using hk
      have hof := G.proper.offset
      obtain ⟨e, h1, h2⟩ := Custom.popMessage_ok hc G.implements_ G.proper (B := B) (fun _ => G.settled) hx hk hkle
        (by simpa using hf.holds) hcur
      rw [Nat.zero_add] at h2
      let p1 : CPlay C := { p with world := { p.world with recv := e }, returned := p.returned ++ c.toList }
      obtain ⟨p', o, xs', j', m', k1, k2, k3, k4, k5⟩ := clook_fine (p := p1) (n := n + 1) (ps := ps ++ [(m, j - 1)])
        (j := 0) (m := m) G ha h2 (by
          intro ys q ns hp
          have h3 : Parses C scan (xs ++ ys) (m :: ns) q := by
            have hfound := G.online.found xs ys 0 m.id hx
            have := Parses.take hfound ht (ms := ns) (r := q) (by
              rw [Nat.zero_add, hkt, List.drop_append_of_le_length (by omega)]; exact hp)
            rw [Nat.zero_add, List.drop_append_of_le_length (by omega), List.take_append_of_le_length (by simp; omega),
              ← hpay] at this
            exact this
          have := hf.rest h3
          simpa [p1] using this)
        (by simp only [p1, List.map_append, hf.returned, hcall]; rfl)
        (by
          obtain ⟨i, rfl⟩ : ∃ i, j = i + 1 := ⟨j - 1, by omega⟩
          simp only [p1, hf.calls, customAttempts]
          simp)
        (.inl rfl) hsome
      refine ⟨p', o, xs', _, j', m', ?_, k2, ?_, ?_⟩
      · simp only [CPlay.move, hb, h1, ok_bind]
        exact k1
      · intro n' ho _
        rcases k5 with ⟨rfl, _⟩ | ⟨_, h6, h7⟩
        · cases ho
        · exact ⟨h7, h6⟩
      · intro n' c' hb'
        cases hb'
        have hl1 : c.toList.length = 1 := by
          have := congrArg List.length hcall
          simpa using this
        refine ⟨1, by rw [k3]; simp [p1, hl1], ?_⟩
        rcases k5 with ⟨ho, c'', hst⟩ | ⟨ho, hst, _⟩
        · exact .inl ⟨ho, c'', hst⟩
        · exact .inr ⟨hst, .inr ho⟩

theorem cstart_fine (C : Custom) (scan : Scan) : CFine scan (CPlay.start C) [] [] 0 ⟨0, []⟩ :=
  ⟨Custom.holds_new C, fun h => h, rfl, rfl, .inl rfl, fun n c h => by cases h⟩

theorem cmoves_fine (G : GoodEnvelope C scan) (ha : Arith B C.recvBufferSize) : ∀ {as : List CMove} {p : CPlay C}
    {xs : List Byte} {ps : List (Msg × Nat)} {j : Nat} {m : Msg}, CFine scan p xs ps j m → AllCAllowed B p as →
    ∃ p' os xs' ps' j' m', p.moves B as = .ok (p', os) ∧ CFine scan p' xs' ps' j' m' := by
  intro as
  induction as with
  | nil => intro p xs ps j m hf _; exact ⟨p, [], xs, ps, j, m, rfl, hf⟩
  | cons a as ih =>
    intro p xs ps j m hf hl
    obtain ⟨p1, o, xs1, ps1, j1, m1, h1, h2, _⟩ := cmove_fine G ha hf hl.1
    obtain ⟨p2, os, xs2, ps2, j2, m2, h3, h4⟩ := ih h2 (hl.2 _ _ h1)
    exact ⟨p2, o :: os, xs2, ps2, j2, m2, by simp [CPlay.moves, h1, h3], h4⟩

theorem CPlayed.fine (G : GoodEnvelope C scan) (ha : Arith B (customCapacity C)) {as : List CMove} {p : CPlay C}
    {os : List (Option Outcome)} (h : CPlayed B as p os) : ∃ xs ps j m, CFine scan p xs ps j m := by
  rw [← Custom.capacity_eq] at ha
  obtain ⟨p', os', xs, ps, j, m, h1, h2⟩ := cmoves_fine G ha (cstart_fine C scan) h.allowed
  rw [h.moves] at h1
  cases h1
  exact ⟨xs, ps, j, m, h2⟩

/-- C99, safety. With such an envelope, nothing is undefined and no assertion fails as long as the rules are kept,
whatever the main program and the handlers do, throw or append. -/
theorem C99_safe (G : GoodEnvelope C scan) (ha : Arith B (customCapacity C)) {as : List CMove}
    (h : AllCAllowed B (CPlay.start C) as) : ∃ (p : CPlay C) (os : List (Option Outcome)), CPlayed B as p os := by
  rw [← Custom.capacity_eq] at ha
  obtain ⟨p, os, _, _, _, _, h1, _⟩ := cmoves_fine G ha (cstart_fine C scan) h
  exact ⟨p, os, h, h1⟩

/-- C99, at any time. The handler calls that returned are those for the first messages of the stream, each once and in
order; whatever comes later is decoded from what is buffered. All handler calls are attempts at these messages, and perhaps
at the one that is first in the buffer. -/
theorem C99_at_any_time (G : GoodEnvelope C scan) (ha : Arith B (customCapacity C)) {as : List CMove} {p : CPlay C}
    {os : List (Option Outcome)} (h : CPlayed B as p os) :
    ∃ (ps : List (Msg × Nat)) (j : Nat) (m : Msg),
      (∀ ys ns q, Parses C scan (p.world.buffered ++ ys) ns q →
        Parses C scan (p.world.fed ++ ys) (ps.map (·.1) ++ ns) q) ∧
      p.returned.map seen = (ps.map (·.1)).map (customMeaning C) ∧
      p.world.trace.map seen = customAttempts C ps ++ List.replicate j (customMeaning C m) ∧
      CPending C scan p.world.buffered j m := by
  obtain ⟨xs, ps, j, m, hf⟩ := h.fine G ha
  rw [Custom.buffered_eq hf.holds]
  exact ⟨ps, j, m, fun ys ns q hp => hf.rest hp, by rw [hf.returned, List.map_map]; rfl, hf.calls, hf.pending⟩

/-- C99, in the end. When `processMessages` (with a handler) returns, the handler calls that returned are those for exactly
the messages of the bytes received, each once and in order, however often handlers threw, and whatever they appended. -/
theorem C99_all (G : GoodEnvelope C scan) (ha : Arith B (customCapacity C)) {as : List CMove} {p p' : CPlay C}
    {os : List (Option Outcome)} (h : CPlayed B as p os) {a : CMove} (hl : CAllowed p a) {n : Byte}
    (hm : p.move B a = .ok (p', some (.returned n))) (hh : p.world.handler ≠ none) :
    ∃ ms, Parses C scan p'.world.fed ms p'.world.buffered ∧ p'.returned.map seen = ms.map (customMeaning C) ∧
      ∀ ms' r', Parses C scan p'.world.fed ms' r' → ms' = ms ∧ r' = p'.world.buffered := by
  obtain ⟨xs, ps, j, m, hf⟩ := h.fine G ha
  rw [← Custom.capacity_eq] at ha
  obtain ⟨p1, o, xs', ps', j', m', h1, h2, h3, _⟩ := cmove_fine G ha hf hl
  rw [hm] at h1
  cases h1
  obtain ⟨hstop, _⟩ := h3 n rfl (Option.isSome_iff_ne_none.mpr hh)
  have hall : Parses C scan p'.world.fed (ps'.map (·.1)) xs' := by
    have := h2.rest (ys := []) (ns := []) (q := xs') (by simpa using hstop)
    simpa using this
  rw [Custom.buffered_eq h2.holds]
  exact ⟨ps'.map (·.1), hall, by rw [h2.returned, List.map_map]; rfl, fun ms' r' h' => Custom.parses_unique h' hall⟩

/-- The moves that lead from one state to another, as long as the same `processMessages` call is in progress. -/
theorem ccount (G : GoodEnvelope C scan) (ha : Arith B C.recvBufferSize) : ∀ (as : List CMove) {p p' : CPlay C}
    {xs : List Byte} {ps : List (Msg × Nat)} {j : Nat} {m : Msg} {os : List (Option Outcome)} {n : Byte}
    {c : Option Invocation}, CFine scan p xs ps j m → AllCAllowed B p as → p.moves B as = .ok (p', os) →
    p.busy = some (n, c) → (∀ r, some r ∉ os) →
    ∃ k c', p'.returned.length = p.returned.length + k ∧ p'.busy = some (n + UInt8.ofNat k, c') := by
  intro as
  induction as with
  | nil =>
    intro p p' xs ps j m os n c _ _ hr hb _
    simp [CPlay.moves] at hr
    exact ⟨0, c, by rw [hr.1]; rfl, by rw [← hr.1, hb]; simp⟩
  | cons a as ih =>
    intro p p' xs ps j m os n c hf hl hr hb hno
    obtain ⟨p1, o, xs1, ps1, j1, m1, h1, h2, _, h4⟩ := cmove_fine G ha hf hl.1
    simp only [CPlay.moves, h1, ok_bind] at hr
    cases hr2 : p1.moves B as with
    | error f => simp [hr2] at hr
    | ok q =>
      obtain ⟨p2, os2⟩ := q
      simp [hr2] at hr
      obtain ⟨rfl, rfl⟩ := hr
      obtain ⟨k, hk, hst⟩ := h4 n c hb
      rcases hst with ⟨_, c1, hb1⟩ | ⟨_, ho | ho⟩
      · obtain ⟨k2, c2, hk2, hb2⟩ := ih h2 (hl.2 _ _ h1) hr2 hb1 fun r hmem => hno r (List.mem_cons_of_mem _ hmem)
        refine ⟨k + k2, c2, by omega, ?_⟩
        rw [hb2, UInt8.ofNat_add, UInt8.add_assoc]
      · exact (hno .threw (by simp [ho])).elim
      · exact (hno (.returned (n + UInt8.ofNat k)) (by simp [ho])).elim

/-- C99, the count. `processMessages` returns the number of its handler calls that returned, modulo 256. -/
theorem C99_count (G : GoodEnvelope C scan) (ha : Arith B (customCapacity C)) {as bs : List CMove}
    {p0 p1 p2 p3 : CPlay C} {os os' : List (Option Outcome)} (h : CPlayed B as p0 os) (_hl : CAllowed p0 .process)
    (h1 : p0.move B .process = .ok (p1, none)) (hbs : AllCAllowed B p1 bs) (h2 : p1.moves B bs = .ok (p2, os'))
    (hno : ∀ r, some r ∉ os') {a : CMove} (hla : CAllowed p2 a) {n : Byte} (h3 : p2.move B a = .ok (p3, some (.returned n))) :
    n = UInt8.ofNat (p3.returned.length - p0.returned.length) := by
  obtain ⟨xs, ps, j, m, hf⟩ := h.fine G ha
  rw [← Custom.capacity_eq] at ha
  have hh : p0.world.handler.isSome := by
    cases hh : p0.world.handler with
    | none => simp [CPlay.move, hh] at h1
    | some _ => rfl
  obtain ⟨q, o, xs1, j1, m1, e1, f1, r1, _, s1⟩ := clook_fine (n := 0) G ha hf.holds hf.rest hf.returned hf.calls
    hf.pending hh
  have e1' : p0.move B .process = .ok (q, o) := by
    simp only [CPlay.move, Option.isNone_eq_false_iff.mpr hh, Bool.false_eq_true, if_false]
    exact e1
  rw [h1] at e1'
  cases e1'
  obtain ⟨_, c, hb⟩ : _ ∧ ∃ c, p1.busy = some ((0 : Byte), c) := by
    rcases s1 with s | ⟨s, _⟩
    · exact s
    · cases s
  obtain ⟨k, c', hk, hb2⟩ := ccount G ha bs f1 hbs h2 hb hno
  obtain ⟨p2', os2', xs2, ps2, j2, m2, e2, f2⟩ := cmoves_fine G ha f1 hbs
  rw [h2] at e2
  cases e2
  obtain ⟨p3', o3, _, _, _, _, e3, _, _, s3⟩ := cmove_fine G ha f2 hla
  rw [h3] at e3
  cases e3
  obtain ⟨k3, hk3, s⟩ := s3 _ _ hb2
  rw [r1] at hk
  rcases s with ⟨s, _⟩ | ⟨_, s | s⟩
  · cases s
  · cases s
  · cases s
    rw [UInt8.zero_add, ← UInt8.ofNat_add]
    congr 1
    omega

theorem cloop_leads : ∀ (fuel : Nat) (p : CPlay C) (n r : Byte) (w' : C.World),
    p.world.processLoop B fuel n = .ok (w', r) →
    ∃ p1 x, p.look B n = .ok (p1, x) ∧ ∃ k p' os, p1.moves B (List.replicate k .finish) = .ok (p', os) ∧
      p'.world = w' ∧ p'.busy = none ∧ (x :: os).getLast? = some (some (.returned r)) := by
  intro fuel
  induction fuel with
  | zero => intro p n r w' h; cases h
  | succ fuel ih =>
    intro p n r w' h
    unfold Custom.World.processLoop at h
    unfold CPlay.look
    cases hc : C.check B p.world.recv with
    | error f => simp [hc] at h
    | ok q =>
      obtain ⟨e, found⟩ := q
      simp only [hc, ok_bind] at h ⊢
      cases found with
      | false =>
        simp at h ⊢
        obtain ⟨rfl, rfl⟩ := h
        exact ⟨_, _, ⟨rfl, rfl⟩, 0, _, [], rfl, rfl, rfl, rfl⟩
      | true =>
        simp only [Bool.not_true, Bool.false_eq_true, if_false] at h ⊢
        cases hi : e.getCurrentMessageId B with
        | error f => simp [hi] at h
        | ok id =>
          simp only [hi, ok_bind] at h ⊢
          cases hv : Custom.World.invoke { p.world with recv := e, lastMessageId := some id } id with
          | error f => simp [hv] at h
          | ok c =>
            simp only [hv, ok_bind] at h ⊢
            cases hp : C.popMessage B e with
            | error f => simp [hp] at h
            | ok e2 =>
              simp only [hp, ok_bind] at h
              obtain ⟨p1, x, k1, k, p', os, k2, k3, k4, k5⟩ := ih
                ⟨⟨e2, p.world.handler, some id, p.world.trace ++ c.toList, p.world.fed⟩, some (n, c),
                  p.returned ++ c.toList⟩ (n + 1) r w' h
              refine ⟨_, none, rfl, k + 1, p', x :: os, ?_, k3, k4, ?_⟩
              · simp only [List.replicate_succ, CPlay.moves, CPlay.move, hp, ok_bind, k1, k2]
                rfl
              · simpa using k5

/-- C99, the model. `processMessages` of the model with quiet handlers (C84) is a sequence of these moves: it starts, and
every handler call returns. -/
theorem C99_model {fuel : Nat} {p : CPlay C} {w' : C.World} {n : Byte} (hb : p.busy = none)
    (h : p.world.processMessages B fuel = .ok (w', n)) :
    ∃ k p' os, p.moves B (.process :: List.replicate k .finish) = .ok (p', os) ∧ p'.world = w' ∧ p'.busy = none ∧
      os.getLast? = some (some (.returned n)) := by
  unfold Custom.World.processMessages at h
  by_cases hh : p.world.handler.isNone = true
  · simp only [hh, if_true] at h
    cases h
    exact ⟨0, p, [some (.returned 0)], by simp [CPlay.moves, CPlay.move, hh], rfl, hb, rfl⟩
  · simp only [hh] at h
    obtain ⟨p1, x, h1, k, p', os, h2, h3, h4, h5⟩ := cloop_leads fuel p 0 n w' (by simpa using h)
    exact ⟨k, p', x :: os, by simp [CPlay.moves, CPlay.move, hh, h1, h2], h3, h4, h5⟩

/-- Whether moves (other than `receiveFrom`) are allowed, and what they lead to. -/
def cplayCheck (B : Build) : CPlay C → List CMove → (CPlay C → List (Option Outcome) → Bool) → Bool
  | p, [], P => P p []
  | p, m :: ms, P =>
    (match m with
      | .append xs => decide (xs.length ≤ p.world.space)
      | .receiveFrom _ _ => false
      | .clearHandler => decide (p.busy = none)
      | .process => decide (p.busy = none)
      | _ => true) &&
    match p.move B m with
    | .ok (p', o) => cplayCheck B p' ms fun p'' os => P p'' (o :: os)
    | .error _ => false

theorem cplayCheck_ok : ∀ {ms : List CMove} {p : CPlay C} {P : CPlay C → List (Option Outcome) → Bool},
    cplayCheck B p ms P = true → ∃ p' os, AllCAllowed B p ms ∧ p.moves B ms = .ok (p', os) ∧ P p' os = true := by
  intro ms
  induction ms with
  | nil => intro p P h; exact ⟨p, [], trivial, rfl, h⟩
  | cons m ms ih =>
    intro p P h
    simp only [cplayCheck, Bool.and_eq_true] at h
    obtain ⟨h1, h2⟩ := h
    cases hm : p.move B m with
    | error f => simp [hm] at h2
    | ok q =>
      obtain ⟨p1, o⟩ := q
      simp only [hm] at h2
      obtain ⟨p', os, k1, k2, k3⟩ := ih h2
      refine ⟨p', o :: os, ⟨?_, fun p2 o2 e => by rw [hm] at e; cases e; exact k1⟩, by simp [CPlay.moves, hm, k2], k3⟩
      cases m <;> simp_all [CAllowed]

theorem cplayed_check {ms : List CMove} {P : CPlay C → List (Option Outcome) → Bool}
    (h : cplayCheck B (CPlay.start C) ms P = true) :
    ∃ (p : CPlay C) (os : List (Option Outcome)), CPlayed B ms p os ∧ P p os = true := by
  obtain ⟨p, os, h1, h2, h3⟩ := cplayCheck_ok h
  exact ⟨p, os, ⟨h1, h2⟩, h3⟩

/-- C99, the requirement `Settled` is needed in every build. An envelope that removes the sync byte when it reports a
message, used in a release build: the handler throws, and the message is never reported again. Without exceptions such an
envelope works in a release build (C84). -/
theorem C99_settled_witness :
    Implements (Demo.demo true false) (Demo.scan true false) ∧ Proper (Demo.demo true false) (Demo.scan true false) ∧
    Online (Demo.scan true false) ∧ ¬ Settled (Demo.scan true false) ∧
    ∃ (p : CPlay (Demo.demo true false)) (os : List (Option Outcome)), CPlayed ⟨false, 32⟩
      [.setHandler ⟨.functor, 0⟩, .append [0xAA, 0x00, 0x07], .process, .throw, .process] p os ∧
      os = [none, none, none, some .threw, some (.returned 0)] ∧ p.returned = [] ∧
      ∃ m ms r, Parses (Demo.demo true false) (Demo.scan true false) p.world.fed (m :: ms) r := by
  refine ⟨Demo.implements_, Demo.proper, Demo.online, C84_settled_witness.2.2.2.1, ?_⟩
  obtain ⟨p, os, h, e⟩ := cplayed_check (C := Demo.demo true false) (B := ⟨false, 32⟩)
    (ms := [.setHandler ⟨.functor, 0⟩, .append [0xAA, 0x00, 0x07], .process, .throw, .process])
    (P := fun p os => decide (os = [none, none, none, some .threw, some (.returned 0)] ∧ p.returned = [] ∧
      p.world.fed = [0xAA, 0x00, 0x07])) (by decide +kernel)
  simp only [decide_eq_true_eq] at e
  obtain ⟨e1, e2, e3⟩ := e
  refine ⟨p, os, h, e1, e2, ?_⟩
  rw [e3]
  obtain ⟨ms, r, hp⟩ := Custom.parses_exists (C := Demo.demo true false) (scan := Demo.scan true false) Demo.proper
    [0xAA, 0x00, 0x07]
  cases ms with
  | cons m ms => exact ⟨m, ms, r, hp⟩
  | nil =>
    generalize hs : ([0xAA, 0x00, 0x07] : List Byte) = s at hp
    cases hp with
    | stop hx =>
      rw [← hs, show Demo.scan true false [0xAA, 0x00, 0x07] = (1, some 0x00) by decide +kernel] at hx
      cases hx

theorem demo_good : GoodEnvelope (Demo.demo false false) (Demo.scan false false) :=
  ⟨Demo.implements_, Demo.proper, Demo.settled, Demo.online⟩

/-- A program whose handler throws twice, and appends a message and replaces itself before it returns. -/
def nervous : List CMove :=
  [.setHandler ⟨.functor, 0⟩, .append [0x55, 0xAA, 0x00, 0x07, 0xAA], .process, .throw, .process, .append [0x00], .throw,
   .process, .append [0x05], .setHandler ⟨.functor, 7⟩]

/-- The hypotheses of C99_safe, C99_at_any_time and C99_all hold: the handler call returns, and the next one follows, and
then `processMessages` returns. -/
example : GoodEnvelope (Demo.demo false false) (Demo.scan false false) ∧
    Arith ⟨true, 32⟩ (customCapacity (Demo.demo false false)) ∧
    ∃ (p : CPlay (Demo.demo false false)) (os : List (Option Outcome)), CPlayed ⟨true, 32⟩ (nervous ++ [.finish]) p os ∧
      CAllowed p .finish ∧ p.world.handler ≠ none ∧ p.returned.length = 1 ∧ p.world.trace.length = 4 ∧
      ∃ p', p.move ⟨true, 32⟩ .finish = .ok (p', some (.returned 2)) ∧ p'.returned.length = 2 := by
  refine ⟨demo_good, ⟨by decide +kernel, by decide +kernel⟩, ?_⟩
  obtain ⟨p, os, h, e⟩ := cplayed_check (C := Demo.demo false false) (B := ⟨true, 32⟩) (ms := nervous ++ [.finish])
    (P := fun p os => decide (p.world.handler ≠ none ∧ p.returned.length = 1 ∧ p.world.trace.length = 4) &&
      match p.move ⟨true, 32⟩ .finish with
      | .ok (p', o) => decide (o = some (.returned 2) ∧ p'.returned.length = 2)
      | .error _ => false) (by decide +kernel)
  simp only [Bool.and_eq_true, decide_eq_true_eq] at e
  obtain ⟨⟨e1, e2, e3⟩, e4⟩ := e
  refine ⟨p, os, h, trivial, e1, e2, e3, ?_⟩
  cases hm : p.move ⟨true, 32⟩ .finish with
  | error f => simp [hm] at e4
  | ok q =>
    obtain ⟨p', o⟩ := q
    simp only [hm, decide_eq_true_eq] at e4
    exact ⟨p', by rw [e4.1], e4.2⟩

/-- The hypotheses of C99_count hold. -/
example : ∃ (p0 p1 p2 p3 : CPlay (Demo.demo false false)) (os os' : List (Option Outcome)),
    CPlayed ⟨true, 32⟩ [.setHandler ⟨.functor, 0⟩, .append [0xAA, 0x00, 0x07]] p0 os ∧ CAllowed p0 .process ∧
    p0.move ⟨true, 32⟩ .process = .ok (p1, none) ∧ AllCAllowed ⟨true, 32⟩ p1 [.append [0xAA]] ∧
    p1.moves ⟨true, 32⟩ [.append [0xAA]] = .ok (p2, os') ∧ (∀ r, some r ∉ os') ∧ CAllowed p2 .finish ∧
    p2.move ⟨true, 32⟩ .finish = .ok (p3, some (.returned 1)) := by
  obtain ⟨p0, os, h, e⟩ := cplayed_check (C := Demo.demo false false) (B := ⟨true, 32⟩)
    (ms := [.setHandler ⟨.functor, 0⟩, .append [0xAA, 0x00, 0x07]])
    (P := fun p os => decide (p.busy = none) &&
      match p.move ⟨true, 32⟩ .process with
      | .ok (p1, o) => decide (o = none) && cplayCheck ⟨true, 32⟩ p1 [.append [0xAA]] fun p2 os' =>
          decide (os' = [none]) &&
          match p2.move ⟨true, 32⟩ .finish with
          | .ok (_, o) => decide (o = some (.returned 1))
          | .error _ => false
      | .error _ => false) (by decide +kernel)
  simp only [Bool.and_eq_true, decide_eq_true_eq] at e
  obtain ⟨e1, e2⟩ := e
  cases hm : p0.move ⟨true, 32⟩ .process with
  | error f => simp [hm] at e2
  | ok q =>
    obtain ⟨p1, o⟩ := q
    simp only [hm, Bool.and_eq_true, decide_eq_true_eq] at e2
    obtain ⟨rfl, e3⟩ := e2
    obtain ⟨p2, os', h1, h2, e4⟩ := cplayCheck_ok e3
    simp only [Bool.and_eq_true, decide_eq_true_eq] at e4
    obtain ⟨rfl, e5⟩ := e4
    cases hn : p2.move ⟨true, 32⟩ .finish with
    | error f => simp [hn] at e5
    | ok q =>
      obtain ⟨p3, o⟩ := q
      simp only [hn, decide_eq_true_eq] at e5
      subst e5
      exact ⟨p0, p1, p2, p3, os, _, h, e1, hm, h1, h2, by simp, trivial, hn⟩

/-- The hypotheses of C99_model hold. -/
example : ∃ (p : CPlay (Demo.demo false false)) (os : List (Option Outcome)), CPlayed ⟨true, 32⟩
    [.setHandler ⟨.functor, 0⟩, .append [0xAA, 0x00, 0x07, 0xAA, 0x00, 0x05]] p os ∧ p.busy = none ∧
    ∃ w', p.world.processMessages ⟨true, 32⟩ 9 = .ok (w', 2) := by
  obtain ⟨p, os, h, e⟩ := cplayed_check (C := Demo.demo false false) (B := ⟨true, 32⟩)
    (ms := [.setHandler ⟨.functor, 0⟩, .append [0xAA, 0x00, 0x07, 0xAA, 0x00, 0x05]])
    (P := fun p _ => decide (p.busy = none) &&
      match p.world.processMessages ⟨true, 32⟩ 9 with
      | .ok (_, n) => decide (n = 2)
      | .error _ => false) (by decide +kernel)
  simp only [Bool.and_eq_true, decide_eq_true_eq] at e
  refine ⟨p, os, h, e.1, ?_⟩
  have e2 := e.2
  cases hm : p.world.processMessages ⟨true, 32⟩ 9 with
  | error f => simp [hm] at e2
  | ok q => simp only [hm, decide_eq_true_eq] at e2; exact ⟨q.1, by rw [← e2]⟩

end TT.Properties
