import Verif.Properties.Rewriting

/-!
# Property about envelopes that decode in place, with handlers that throw and call the receiver: C107
-/

namespace TT.Properties
open Spec

variable {C : Custom} {B : Build} {look : Look} {idle : Option Byte → Prop}

/-! ### C107 -/

/-- The message `m` was reported by a look, and stands in front of the buffer as the look left it; bytes may have been added
since. -/
def OpenIn (C : Custom) (look : Look) (xs : List Byte) (m : Msg) : Prop :=
  ∃ s ys more t, look s = (ys, some m.id) ∧ xs = ys ++ more ∧ typeAt C m.id = some t ∧
    m.payload = (ys.drop C.dataOffset).take (payloadSize t)

/-- A check while a reported message is in front reports it again and changes nothing. -/
def Steady (C : Custom) (look : Look) : Prop :=
  ∀ xs m, xs.length ≤ customCapacity C → OpenIn C look xs m →
    effect C C.code xs (some m.id) = some (xs, some m.id, true)

/-- What the envelope has to guarantee for handlers that throw. -/
structure SteadyLook (C : Custom) (look : Look) (idle : Option Byte → Prop) : Prop where
  performs : Performs C look idle
  proper : ProperLook C look
  steady : Steady C look
  online : OnlineLook look

/-- Either nothing is reported and the rest of the stream is read from the buffer, or a message is reported, has been tried
`j` times, and the rest of the stream is read from what follows it. -/
def RMode (C : Custom) (look : Look) (idle : Option Byte → Prop) (fed xs : List Byte) (cur : Option Byte) (ps : List Msg)
    (j : Nat) (m : Msg) : Prop :=
  (j = 0 ∧ idle cur ∧ ∀ ys ns q, Finds C look (xs ++ ys) ns q → Finds C look (fed ++ ys) (ps ++ ns) q) ∨
  (0 < j ∧ cur = some m.id ∧ OpenIn C look xs m ∧ ∀ k, lengthAt C m.id = some k → ∀ ys ns q,
    Finds C look (xs.drop k ++ ys) ns q → Finds C look (fed ++ ys) (ps ++ m :: ns) q)

/-- What is true at any time. -/
structure RFine (look : Look) (idle : Option Byte → Prop) (p : CPlay C) (xs : List Byte) (ps : List (Msg × Nat)) (j : Nat)
    (m : Msg) : Prop where
  holds : p.world.recv.buf.Holds xs
  mode : RMode C look idle p.world.fed xs p.world.recv.currentMessageId (ps.map (·.1)) j m
  returned : p.returned.map seen = ps.map fun q => customMeaning C q.1
  calls : p.world.trace.map seen = customAttempts C ps ++ List.replicate j (customMeaning C m)
  busy : ∀ n c, p.busy = some (n, c) → p.world.handler.isSome ∧ 0 < j ∧ c.toList.map seen = [customMeaning C m]

theorem OpenIn.append {xs : List Byte} {m : Msg} (h : OpenIn C look xs m) (ys : List Byte) :
    OpenIn C look (xs ++ ys) m := by
  obtain ⟨s, zs, more, t, h1, rfl, h3⟩ := h
  exact ⟨s, zs, more ++ ys, t, h1, by simp, h3⟩

theorem OpenIn.whole (hp : ProperLook C look) {xs : List Byte} {m : Msg} (h : OpenIn C look xs m) :
    ∃ t, typeAt C m.id = some t ∧ lengthAt C m.id = some (C.overhead + payloadSize t) ∧
      C.overhead + payloadSize t ≤ xs.length ∧ m.payload = (xs.drop C.dataOffset).take (payloadSize t) := by
  obtain ⟨s, zs, more, t, h1, rfl, h3, h4⟩ := h
  obtain ⟨k, hk, hle⟩ := hp.whole s zs m.id h1
  have hkt : C.overhead + payloadSize t = k := by simpa [lengthAt, h3] using hk
  have hof := hp.offset
  refine ⟨t, h3, by rw [hkt]; exact hk, by simp; omega, ?_⟩
  rw [List.drop_append_of_le_length (by omega), List.take_append_of_le_length (by simp; omega)]
  exact h4

theorem RMode.append (hp : ProperLook C look) {fed xs : List Byte} {cur : Option Byte} {ps : List Msg} {j : Nat} {m : Msg}
    (h : RMode C look idle fed xs cur ps j m) (ys : List Byte) :
    RMode C look idle (fed ++ ys) (xs ++ ys) cur ps j m := by
  rcases h with ⟨h1, h2, h3⟩ | ⟨h1, h2, h3, h4⟩
  · exact .inl ⟨h1, h2, fun zs ns q h => by rw [List.append_assoc] at h ⊢; exact h3 _ _ _ h⟩
  · refine .inr ⟨h1, h2, h3.append ys, fun k hk zs ns q h => ?_⟩
    obtain ⟨t, _, hl, hle, _⟩ := h3.whole hp
    rw [hk] at hl
    cases hl
    rw [List.drop_append_of_le_length hle, List.append_assoc] at h
    rw [List.append_assoc]
    exact h4 _ hk _ _ _ h

theorem popMessage_open (hc : C.recvBufferSize < 2 ^ 64) (G : SteadyLook C look idle) {r : C.Buf} {xs : List Byte} {k : Nat}
    {m : Msg} (h : r.buf.Holds xs) (hcur : r.currentMessageId = some m.id) (ho : OpenIn C look xs m)
    (hk : lengthAt C m.id = some k) :
    ∃ r' : C.Buf, C.popMessage B r = .ok r' ∧ r'.buf.Holds (xs.drop k) ∧ r'.currentMessageId = none := by
  have hpos := Custom.lookLength_pos G.proper hk
  obtain ⟨t, _, hl, hle, _⟩ := ho.whole G.proper
  rw [hk] at hl
  cases hl
  have key : ∀ r : C.Buf, r.buf.Holds xs → r.currentMessageId = some m.id →
      ∃ r' : C.Buf, (do
        let m ← r.getMessageLength B C.getMessageLength
        let (b, _) ← r.buf.popFront B m
        return ({ currentMessageId := none, buf := b } : C.Buf)) = .ok r' ∧
        r'.buf.Holds (xs.drop (C.overhead + payloadSize t)) ∧ r'.currentMessageId = none := by
    intro r h hcur
    rw [Custom.getMessageLength_cur hc B hcur hk]
    cases xs with
    | nil => simp at hle; omega
    | cons y zs =>
      obtain ⟨e1, h1⟩ := h.popFront_ok hc (n := C.overhead + payloadSize t) (by simpa using hle)
      exact ⟨_, by simp only [ok_bind, e1 B]; rfl, h1, rfl⟩
  unfold Custom.popMessage
  by_cases hb : B.debug = true
  · have he := G.steady xs m (by rw [← Custom.capacity_eq]; exact h.length_le) ho
    obtain ⟨b1, e1, h1⟩ := Custom.exec_ok hc (Custom.agrees hc) C.code (r := r) h (by rw [hcur]; exact he)
    have e1' : C.check B r = .ok (⟨some m.id, b1⟩, true) := e1 B
    obtain ⟨r2, e2, h2⟩ := key ⟨some m.id, b1⟩ h1 rfl
    refine ⟨r2, ?_, h2⟩
    rw [if_pos hb, e1']
    simpa using e2
  · obtain ⟨r2, e2, h2⟩ := key r h hcur
    refine ⟨r2, ?_, h2⟩
    rw [if_neg hb]
    exact e2

theorem rlook_fine (G : SteadyLook C look idle) (ha : Arith B C.recvBufferSize) {p : CPlay C} {xs : List Byte}
    {ps : List (Msg × Nat)} {j : Nat} {m : Msg} {n : Byte} (holds : p.world.recv.buf.Holds xs)
    (mode : RMode C look idle p.world.fed xs p.world.recv.currentMessageId (ps.map (·.1)) j m)
    (returned : p.returned.map seen = ps.map fun q => customMeaning C q.1)
    (calls : p.world.trace.map seen = customAttempts C ps ++ List.replicate j (customMeaning C m))
    (hh : p.world.handler.isSome) :
    ∃ p' o xs' j' m', p.look B n = .ok (p', o) ∧ RFine look idle p' xs' ps j' m' ∧ p'.returned = p.returned ∧
      p'.world.fed = p.world.fed ∧
      ((o = none ∧ ∃ c, p'.busy = some (n, c)) ∨
        (o = some (.returned n) ∧ p'.busy = none ∧ j' = 0 ∧ Finds C look xs' [] xs')) := by
  have hc := ha.lt64
  obtain ⟨h, hh⟩ := Option.isSome_iff_exists.mp hh
  -- a message is, or becomes, reported
  have report : ∀ (m' : Msg) (b : RB C.recvBufferSize) (zs : List Byte),
      (∀ B, C.check B p.world.recv = .ok (⟨some m'.id, b⟩, true)) → b.Holds zs → OpenIn C look zs m' →
      (j = 0 ∨ m = m') →
      (∀ k, lengthAt C m'.id = some k → ∀ ys ns q,
        Finds C look (zs.drop k ++ ys) ns q → Finds C look (p.world.fed ++ ys) (ps.map (·.1) ++ m' :: ns) q) →
      ∃ p' o xs' j' m', p.look B n = .ok (p', o) ∧ RFine look idle p' xs' ps j' m' ∧ p'.returned = p.returned ∧
        p'.world.fed = p.world.fed ∧
        ((o = none ∧ ∃ c, p'.busy = some (n, c)) ∨
          (o = some (.returned n) ∧ p'.busy = none ∧ j' = 0 ∧ Finds C look xs' [] xs')) := by
    intro m' b zs hcheck hb hopen hmm hrest
    obtain ⟨t, ht, hl, hle, hpay⟩ := hopen.whole G.proper
    let w1 : C.World := { p.world with recv := ⟨some m'.id, b⟩, lastMessageId := some m'.id }
    have hinv : w1.invoke m'.id = .ok (some (customCall C h m')) := by
      have := Custom.invoke_look (w := w1) G.proper.offset hb hh ht hle
      rw [this, ← hpay]
    refine ⟨⟨{ w1 with trace := w1.trace ++ [customCall C h m'] }, some (n, some (customCall C h m')), p.returned⟩, none, zs,
      j + 1, m', ?_, ⟨hb, .inr ⟨by omega, rfl, hopen, hrest⟩, returned, ?_, ?_⟩, rfl, rfl, .inl ⟨rfl, _, rfl⟩⟩
    · unfold CPlay.look
      simp only [hcheck B, ok_bind, Bool.not_true, Bool.false_eq_true, if_false,
        CBuf.getCurrentMessageId, Option.isSome_some, assertMsg_true]
      change (do
        let c ← w1.invoke m'.id
        _) = _
      rw [hinv]
      rfl
    · simp only [w1, List.map_append, calls, List.append_assoc]
      congr 1
      rcases hmm with rfl | rfl
      · rfl
      · rw [List.replicate_succ']; rfl
    · intro n' c' e
      cases e
      exact ⟨by simp [w1, hh], by omega, rfl⟩
  rcases mode with ⟨h0, hid, hrest⟩ | ⟨hpos, hcur, hopen, hrest⟩
  · cases hx : look xs with
    | mk ys found =>
      cases found with
      | none =>
        obtain ⟨r1, e1, h1, c1⟩ := Custom.check_nothing hc G.performs holds hid hx
        have hfix : look ys = (ys, none) := by
          have := G.online.nothing xs [] ys hx
          rw [List.append_nil, List.append_nil, hx] at this
          exact this.symm
        refine ⟨{ p with world := { p.world with recv := r1 }, busy := none }, some (.returned n), ys, 0, m, ?_,
          ⟨h1, .inl ⟨rfl, c1, fun zs ns q h => hrest zs ns q ?_⟩, returned, by rw [calls, h0], by simp⟩, rfl, rfl,
          .inr ⟨rfl, rfl, rfl, Finds.stop hfix⟩⟩
        · unfold CPlay.look
          simp [e1 B]
        · exact Custom.reads_congr (G.online.nothing xs zs ys hx).symm h
      | some id =>
        obtain ⟨b, e1, h1⟩ := Custom.check_found hc G.performs holds hid hx
        obtain ⟨k, hk, hle⟩ := G.proper.whole xs ys id hx
        cases ht : typeAt C id with
        | none => simp [lengthAt, ht] at hk
        | some t =>
          have hkt : C.overhead + payloadSize t = k := by simpa [lengthAt, ht] using hk
          have hof := G.proper.offset
          refine report ⟨id, (ys.drop C.dataOffset).take (payloadSize t)⟩ b ys e1 h1
            ⟨xs, ys, [], t, hx, by simp, ht, rfl⟩ (.inl h0) ?_
          intro k' hk' zs ns q h
          rw [show lengthAt C id = some k' from hk'] at hk
          cases hk
          refine hrest zs _ q ?_
          have := Finds.take (G.online.found xs zs ys id hx) ht (ms := ns) (r := q) (by
            rw [hkt, List.drop_append_of_le_length hle]
            exact h)
          rw [List.drop_append_of_le_length (by omega), List.take_append_of_le_length (by simp; omega)] at this
          exact this
  · have he := G.steady xs m (by rw [← Custom.capacity_eq]; exact holds.length_le) hopen
    obtain ⟨b, e1, h1⟩ := Custom.exec_ok hc (Custom.agrees hc) C.code (r := p.world.recv) holds (by rw [hcur]; exact he)
    exact report m b xs e1 h1 hopen (.inr rfl) hrest

theorem rmove_fine (G : SteadyLook C look idle) (ha : Arith B C.recvBufferSize) {p : CPlay C} {xs : List Byte}
    {ps : List (Msg × Nat)} {j : Nat} {m : Msg} (hf : RFine look idle p xs ps j m) {a : CMove} (hl : CAllowed p a) :
    ∃ p' o xs' ps' j' m', p.move B a = .ok (p', o) ∧ RFine look idle p' xs' ps' j' m' ∧
      (∀ n, o = some (.returned n) → p.world.handler.isSome → j' = 0 ∧ Finds C look xs' [] xs' ∧ p'.busy = none) ∧
      (∀ n c, p.busy = some (n, c) → ∃ k, p'.returned.length = p.returned.length + k ∧
        ((o = none ∧ ∃ c', p'.busy = some (n + UInt8.ofNat k, c')) ∨
          (p'.busy = none ∧ (o = some .threw ∨ o = some (.returned (n + UInt8.ofNat k)))))) := by
  have hc := ha.lt64
  have hle := hf.holds.length_le
  have hsp := Custom.space_eq hc hf.holds
  have same : ∀ {p' : CPlay C} {o : Option Outcome}, o = none → p'.busy = p.busy → p'.returned = p.returned →
      ∀ n c, p.busy = some (n, c) → ∃ k, p'.returned.length = p.returned.length + k ∧
        ((o = none ∧ ∃ c', p'.busy = some (n + UInt8.ofNat k, c')) ∨
          (p'.busy = none ∧ (o = some .threw ∨ o = some (.returned (n + UInt8.ofNat k))))) := by
    intro p' o h0 h1 h2 n c h3
    exact ⟨0, by rw [h2]; rfl, .inl ⟨h0, c, by rw [h1, h3]; simp⟩⟩
  have more : ∀ {b : RB C.recvBufferSize} {ys : List Byte}, b.Holds (xs ++ ys) →
      RFine look idle { p with world := { p.world with recv := { p.world.recv with buf := b }, fed := p.world.fed ++ ys } }
        (xs ++ ys) ps j m :=
    fun {b ys} hb => ⟨hb, hf.mode.append G.proper ys, hf.returned, hf.calls, hf.busy⟩
  cases a with
  | append ys =>
    simp only [CAllowed, hsp] at hl
    obtain ⟨b, e, hb⟩ := hf.holds.pushBackRange_ok hc (ys := ys) (by omega)
    exact ⟨_, none, _, _, _, _, by simp only [CPlay.move, e B ha, ok_bind]; rfl, more hb, by simp, same rfl rfl rfl⟩
  | receiveFrom avail rcv =>
    simp only [CAllowed, hsp] at hl
    have hoff : RB.offer C.recvBufferSize xs avail.toNat = min avail.toNat (C.recvBufferSize - xs.length) := rfl
    obtain ⟨b, e, hb⟩ := hf.holds.functor_ok hc (f := rcv) (n := avail.toNat) (by rw [hoff]; exact hl.1)
      (by rw [hoff, hl.2]; exact Nat.le_refl _)
    rw [hoff] at e hb
    exact ⟨_, none, _, _, _, _, by simp only [CPlay.move, e B ha, ok_bind, hsp]; rfl, more hb, by simp, same rfl rfl rfl⟩
  | setHandler h =>
    refine ⟨_, none, xs, ps, j, m, rfl, ⟨hf.holds, hf.mode, hf.returned, hf.calls, fun n c hb => ?_⟩, by simp,
      same rfl rfl rfl⟩
    exact ⟨rfl, (hf.busy n c hb).2⟩
  | clearHandler =>
    refine ⟨_, none, xs, ps, j, m, rfl, ⟨hf.holds, hf.mode, hf.returned, hf.calls, fun n c hb => ?_⟩, by simp,
      same rfl rfl rfl⟩
    simp only [CAllowed] at hl
    simp only [hl] at hb
    cases hb
  | process =>
    simp only [CAllowed] at hl
    cases hh : p.world.handler with
    | none =>
      exact ⟨p, some (.returned 0), xs, ps, j, m, by simp [CPlay.move, hh], hf, by simp, by simp [hl]⟩
    | some h =>
      obtain ⟨p', o, xs', j', m', h1, h2, h3, h4, h5⟩ := rlook_fine (n := 0) G ha hf.holds hf.mode hf.returned hf.calls
        (by simp [hh])
      refine ⟨p', o, xs', ps, j', m', by simp [CPlay.move, hh, h1], h2, ?_, by simp [hl]⟩
      intro n ho _
      rcases h5 with ⟨rfl, _⟩ | ⟨_, h6, h7, h8⟩
      · cases ho
      · exact ⟨h7, h8, h6⟩
  | throw =>
    cases hb : p.busy with
    | none => exact ⟨p, none, xs, ps, j, m, by simp [CPlay.move, hb], hf, by simp, by simp⟩
    | some q =>
      refine ⟨{ p with busy := none }, some .threw, xs, ps, j, m, by simp [CPlay.move, hb],
        ⟨hf.holds, hf.mode, hf.returned, hf.calls, by simp⟩, by simp, ?_⟩
      intro n c _
      exact ⟨0, rfl, .inr ⟨rfl, .inl rfl⟩⟩
  | finish =>
    cases hb : p.busy with
    | none => exact ⟨p, none, xs, ps, j, m, by simp [CPlay.move, hb], hf, by simp, by simp⟩
    | some q =>
      obtain ⟨n, c⟩ := q
      obtain ⟨hsome, hj, hcall⟩ := hf.busy n c hb
      obtain ⟨hcur, hopen, hrest⟩ : p.world.recv.currentMessageId = some m.id ∧ OpenIn C look xs m ∧
          ∀ k, lengthAt C m.id = some k → ∀ ys ns q, Finds C look (xs.drop k ++ ys) ns q →
            Finds C look (p.world.fed ++ ys) (ps.map (·.1) ++ m :: ns) q := by
        rcases hf.mode with ⟨h, _⟩ | ⟨_, h⟩
        · omega
        · exact h
      obtain ⟨t, ht, hk, hkle, hpay⟩ := hopen.whole G.proper
      obtain ⟨e, h1, h2, h3⟩ := popMessage_open (B := B) hc G hf.holds hcur hopen hk
      let p1 : CPlay C := { p with world := { p.world with recv := e }, returned := p.returned ++ c.toList }
      obtain ⟨p', o, xs', j', m', k1, k2, k3, k4, k5⟩ := rlook_fine (p := p1) (n := n + 1) (ps := ps ++ [(m, j - 1)])
        (j := 0) (m := m) G ha h2 (.inl ⟨rfl, by
            show idle e.currentMessageId
            rw [h3]
            exact G.performs.start, fun ys ns q hp => by
          have := hrest _ hk ys ns q hp
          simpa [p1] using this⟩)
        (by simp only [p1, List.map_append, hf.returned, hcall]; rfl)
        (by
          obtain ⟨i, rfl⟩ : ∃ i, j = i + 1 := ⟨j - 1, by omega⟩
          simp only [p1, hf.calls, customAttempts]
          simp)
        hsome
      refine ⟨p', o, xs', _, j', m', ?_, k2, ?_, ?_⟩
      · simp only [CPlay.move, hb, h1, ok_bind]
        exact k1
      · intro n' ho _
        rcases k5 with ⟨rfl, _⟩ | ⟨_, h6, h7, h8⟩
        · cases ho
        · exact ⟨h7, h8, h6⟩
      · intro n' c' hb'
        cases hb'
        have hl1 : c.toList.length = 1 := by
          have := congrArg List.length hcall
          simpa using this
        refine ⟨1, by rw [k3]; simp [p1, hl1], ?_⟩
        rcases k5 with ⟨ho, c'', hst⟩ | ⟨ho, hst, _⟩
        · exact .inl ⟨ho, c'', hst⟩
        · exact .inr ⟨hst, .inr ho⟩

theorem rstart_fine (hi : Performs C look idle) : RFine look idle (CPlay.start C) [] [] 0 ⟨0, []⟩ :=
  ⟨Custom.holds_new C, .inl ⟨rfl, hi.start, fun _ _ _ h => h⟩, rfl, rfl, fun n c h => by cases h⟩

theorem rmoves_fine (G : SteadyLook C look idle) (ha : Arith B C.recvBufferSize) : ∀ {as : List CMove} {p : CPlay C}
    {xs : List Byte} {ps : List (Msg × Nat)} {j : Nat} {m : Msg}, RFine look idle p xs ps j m → AllCAllowed B p as →
    ∃ p' os xs' ps' j' m', p.moves B as = .ok (p', os) ∧ RFine look idle p' xs' ps' j' m' := by
  intro as
  induction as with
  | nil => intro p xs ps j m hf _; exact ⟨p, [], xs, ps, j, m, rfl, hf⟩
  | cons a as ih =>
    intro p xs ps j m hf hl
    obtain ⟨p1, o, xs1, ps1, j1, m1, h1, h2, _⟩ := rmove_fine G ha hf hl.1
    obtain ⟨p2, os, xs2, ps2, j2, m2, h3, h4⟩ := ih h2 (hl.2 _ _ h1)
    exact ⟨p2, o :: os, xs2, ps2, j2, m2, by simp [CPlay.moves, h1, h3], h4⟩

theorem CPlayed.rfine (G : SteadyLook C look idle) (ha : Arith B (customCapacity C)) {as : List CMove} {p : CPlay C}
    {os : List (Option Outcome)} (h : CPlayed B as p os) : ∃ xs ps j m, RFine look idle p xs ps j m := by
  rw [← Custom.capacity_eq] at ha
  obtain ⟨p', os', xs, ps, j, m, h1, h2⟩ := rmoves_fine G ha (rstart_fine G.performs) h.allowed
  rw [h.moves] at h1
  cases h1
  exact ⟨xs, ps, j, m, h2⟩

/-- C107, safety. With such an envelope, nothing is undefined and no assertion fails as long as the rules are kept,
whatever the main program and the handlers do, throw or append. -/
theorem C107_safe (G : SteadyLook C look idle) (ha : Arith B (customCapacity C)) {as : List CMove}
    (h : AllCAllowed B (CPlay.start C) as) : ∃ (p : CPlay C) (os : List (Option Outcome)), CPlayed B as p os := by
  rw [← Custom.capacity_eq] at ha
  obtain ⟨p, os, _, _, _, _, h1, _⟩ := rmoves_fine G ha (rstart_fine G.performs) h
  exact ⟨p, os, h, h1⟩

/-- C107, at any time. The handler calls that returned are for the first messages of the stream, each once and in order, and
all handler calls are attempts at these, and perhaps at the next one, with the same contents each time: however the bytes
received so far are continued. -/
theorem C107_at_any_time (G : SteadyLook C look idle) (ha : Arith B (customCapacity C)) {as : List CMove} {p : CPlay C}
    {os : List (Option Outcome)} (h : CPlayed B as p os) :
    ∃ (ps : List (Msg × Nat)) (j : Nat) (m : Msg),
      p.returned.map seen = (ps.map (·.1)).map (customMeaning C) ∧
      p.world.trace.map seen = customAttempts C ps ++ List.replicate j (customMeaning C m) ∧
      ∀ later ms r, Finds C look (p.world.fed ++ later) ms r → ps.map (·.1) ++ (if j = 0 then [] else [m]) <+: ms := by
  obtain ⟨xs, ps, j, m, hf⟩ := h.rfine G ha
  refine ⟨ps, j, m, by rw [hf.returned, List.map_map]; rfl, hf.calls, fun later ms r hr => ?_⟩
  rcases hf.mode with ⟨h0, -, hrest⟩ | ⟨hpos, -, hopen, hrest⟩
  · obtain ⟨ns, q, hns⟩ := Custom.reads_exists G.proper (xs ++ later)
    obtain ⟨rfl, -⟩ := Custom.reads_unique hr (hrest later ns q hns)
    rw [if_pos h0, List.append_nil]
    exact List.prefix_append _ _
  · obtain ⟨t, ht, hk, -, -⟩ := hopen.whole G.proper
    obtain ⟨ns, q, hns⟩ := Custom.reads_exists G.proper (xs.drop (C.overhead + payloadSize t) ++ later)
    obtain ⟨rfl, -⟩ := Custom.reads_unique hr (hrest _ hk later ns q hns)
    rw [if_neg (by omega)]
    exact ⟨ns, by simp⟩

/-- C107, in the end. When `processMessages` (with a handler) returns, the handler calls that returned are those for exactly
the messages of the bytes received, each once and in order, however often handlers threw, and whatever they appended. -/
theorem C107_all (G : SteadyLook C look idle) (ha : Arith B (customCapacity C)) {as : List CMove} {p p' : CPlay C}
    {os : List (Option Outcome)} (h : CPlayed B as p os) {a : CMove} (hl : CAllowed p a) {n : Byte}
    (hm : p.move B a = .ok (p', some (.returned n))) (hh : p.world.handler ≠ none) :
    ∃ ms, Finds C look p'.world.fed ms p'.world.buffered ∧ p'.returned.map seen = ms.map (customMeaning C) ∧
      ∀ ms' r', Finds C look p'.world.fed ms' r' → ms' = ms ∧ r' = p'.world.buffered := by
  obtain ⟨xs, ps, j, m, hf⟩ := h.rfine G ha
  rw [← Custom.capacity_eq] at ha
  obtain ⟨p1, o, xs', ps', j', m', h1, h2, h3, _⟩ := rmove_fine G ha hf hl
  rw [hm] at h1
  cases h1
  obtain ⟨h0, hstop, _⟩ := h3 n rfl (Option.isSome_iff_ne_none.mpr hh)
  have hall : Finds C look p'.world.fed (ps'.map (·.1)) xs' := by
    rcases h2.mode with ⟨_, _, hrest⟩ | ⟨hpos, _⟩
    · have := hrest [] [] xs' (by simpa using hstop)
      simpa using this
    · omega
  rw [Custom.buffered_eq h2.holds]
  exact ⟨ps'.map (·.1), hall, by rw [h2.returned, List.map_map]; rfl, fun ms' r' h' => Custom.reads_unique h' hall⟩

/-- The moves that lead from one state to another, as long as the same `processMessages` call is in progress. -/
theorem rcount (G : SteadyLook C look idle) (ha : Arith B C.recvBufferSize) : ∀ (as : List CMove) {p p' : CPlay C}
    {xs : List Byte} {ps : List (Msg × Nat)} {j : Nat} {m : Msg} {os : List (Option Outcome)} {n : Byte}
    {c : Option Invocation}, RFine look idle p xs ps j m → AllCAllowed B p as → p.moves B as = .ok (p', os) →
    p.busy = some (n, c) → (∀ r, some r ∉ os) →
    ∃ k c', p'.returned.length = p.returned.length + k ∧ p'.busy = some (n + UInt8.ofNat k, c') := by
  intro as
  induction as with
  | nil =>
    intro p p' xs ps j m os n c _ _ hr hb _
    simp [CPlay.moves] at hr
    exact ⟨0, c, by rw [hr.1]; rfl, by rw [← hr.1, hb]; simp⟩
  | cons a as ih =>
    intro p p' xs ps j m os n c hf hl hr hb hno
    obtain ⟨p1, o, xs1, ps1, j1, m1, h1, h2, _, h4⟩ := rmove_fine G ha hf hl.1
    simp only [CPlay.moves, h1, ok_bind] at hr
    cases hr2 : p1.moves B as with
    | error f => simp [hr2] at hr
    | ok q =>
      obtain ⟨p2, os2⟩ := q
      simp [hr2] at hr
      obtain ⟨rfl, rfl⟩ := hr
      obtain ⟨k, hk, hst⟩ := h4 n c hb
      rcases hst with ⟨_, c1, hb1⟩ | ⟨_, ho | ho⟩
      · obtain ⟨k2, c2, hk2, hb2⟩ := ih h2 (hl.2 _ _ h1) hr2 hb1 fun r hmem => hno r (List.mem_cons_of_mem _ hmem)
        refine ⟨k + k2, c2, by omega, ?_⟩
        rw [hb2, UInt8.ofNat_add, UInt8.add_assoc]
      · exact (hno .threw (by simp [ho])).elim
      · exact (hno (.returned (n + UInt8.ofNat k)) (by simp [ho])).elim

/-- C107, the count. `processMessages` returns the number of its handler calls that returned, modulo 256. -/
theorem C107_count (G : SteadyLook C look idle) (ha : Arith B (customCapacity C)) {as bs : List CMove}
    {p0 p1 p2 p3 : CPlay C} {os os' : List (Option Outcome)} (h : CPlayed B as p0 os) (_hl : CAllowed p0 .process)
    (h1 : p0.move B .process = .ok (p1, none)) (hbs : AllCAllowed B p1 bs) (h2 : p1.moves B bs = .ok (p2, os'))
    (hno : ∀ r, some r ∉ os') {a : CMove} (hla : CAllowed p2 a) {n : Byte} (h3 : p2.move B a = .ok (p3, some (.returned n))) :
    n = UInt8.ofNat (p3.returned.length - p0.returned.length) := by
  obtain ⟨xs, ps, j, m, hf⟩ := h.rfine G ha
  rw [← Custom.capacity_eq] at ha
  have hh : p0.world.handler.isSome := by
    cases hh : p0.world.handler with
    | none => simp [CPlay.move, hh] at h1
    | some _ => rfl
  obtain ⟨q, o, xs1, j1, m1, e1, f1, r1, _, s1⟩ := rlook_fine (n := 0) G ha hf.holds hf.mode hf.returned hf.calls hh
  have e1' : p0.move B .process = .ok (q, o) := by
    simp only [CPlay.move, Option.isNone_eq_false_iff.mpr hh, Bool.false_eq_true, if_false]
    exact e1
  rw [h1] at e1'
  cases e1'
  obtain ⟨_, c, hb⟩ : _ ∧ ∃ c, p1.busy = some ((0 : Byte), c) := by
    rcases s1 with s | ⟨s, _⟩
    · exact s
    · cases s
  obtain ⟨k, c', hk, hb2⟩ := rcount G ha bs f1 hbs h2 hb hno
  obtain ⟨p2', os2', xs2, ps2, j2, m2, e2, f2⟩ := rmoves_fine G ha f1 hbs
  rw [h2] at e2
  cases e2
  obtain ⟨p3', o3, _, _, _, _, e3, _, _, s3⟩ := rmove_fine G ha f2 hla
  rw [h3] at e3
  cases e3
  obtain ⟨k3, hk3, s⟩ := s3 _ _ hb2
  rw [r1] at hk
  rcases s with ⟨s, _⟩ | ⟨_, s | s⟩
  · cases s
  · cases s
  · cases s
    rw [UInt8.zero_add, ← UInt8.ofNat_add]
    congr 1
    omega

/-- C107, envelopes that do not change the bytes. Those of C99 are of this kind. -/
theorem C107_plain {scan : Scan} (G : GoodEnvelope C scan) :
    ∃ look : Look, SteadyLook C look (fun _ => True) ∧ ∀ s ms r, Finds C look s ms r ↔ Parses C scan s ms r := by
  obtain ⟨⟨h1, h2, _, h4⟩, h5⟩ := plain_good G
  refine ⟨plainLook scan, ⟨h1, h2, ?_, h4⟩, h5⟩
  rintro xs m hl ⟨s, ys, more, t, hs, rfl, -, -⟩
  simp only [plainLook, Prod.mk.injEq] at hs
  have hset := G.settled s (scan s).1 m.id (Prod.ext rfl hs.2)
  rw [hs.1] at hset
  have hon := G.online.found ys more 0 m.id hset
  obtain ⟨cur', e, hc⟩ := G.implements_ (ys ++ more) (some m.id) hl
  rw [hon] at e hc
  rw [e, hc rfl]
  simp

/-- C107, every way of looking can be programmed so that handlers may throw. -/
theorem C107_any (types : List MsgType) (overhead dataOffset : Nat)
    (hp : ProperLook ⟨types, overhead, dataOffset, Demo.decoding look⟩ look) (ho : OnlineLook look) :
    SteadyLook ⟨types, overhead, dataOffset, Demo.decoding look⟩ look (· = none) :=
  ⟨Demo.decoding_performs rfl hp, hp, fun xs m _ _ => by simp [Demo.decoding, effect], ho⟩

/-- C107, the requirement `Steady` is needed. An envelope that removes a mask whenever it is called meets all conditions of
C106, but not this one; after a handler threw, the only handler call that returns has contents that no message of the stream
has. -/
theorem C107_steady_witness :
    GoodLook Demo.unmasking Demo.masked (fun _ => True) ∧ ¬ Steady Demo.unmasking Demo.masked ∧
    ∀ d : Bool, ∃ (p : CPlay Demo.unmasking) (os : List (Option Outcome)), CPlayed ⟨d, 32⟩
      [.setHandler ⟨.functor, 0⟩, .append [0xAA, 0x00, 0x52], .process, .throw, .process, .finish] p os ∧
      p.returned.map seen = [(⟨0, [.uint8]⟩, [[0x52]])] ∧
      Finds Demo.unmasking Demo.masked p.world.fed [⟨0, [0x07]⟩] [] := by
  refine ⟨C106_throw_witness.1, ?_, fun d => ?_⟩
  · intro h
    have := h [0xAA, 0x00, 0x07] ⟨0, [0x07]⟩ (by decide +kernel)
      ⟨[0xAA, 0x00, 0x52], [0xAA, 0x00, 0x07], [], ⟨0, [.uint8]⟩, by decide +kernel, rfl, rfl, rfl⟩
    rw [show effect Demo.unmasking Demo.unmasking.code [0xAA, 0x00, 0x07] (some 0) =
      some ([0xAA, 0x00, 0x52], some 0, true) by decide +kernel] at this
    cases this
  · obtain ⟨p, os, h, e⟩ := cplayed_check (C := Demo.unmasking) (B := ⟨d, 32⟩)
      (ms := [.setHandler ⟨.functor, 0⟩, .append [0xAA, 0x00, 0x52], .process, .throw, .process, .finish])
      (P := fun p _ => decide (p.returned.map seen = [(⟨0, [.uint8]⟩, [[0x52]])] ∧ p.world.fed = [0xAA, 0x00, 0x52]))
      (by cases d <;> decide +kernel)
    simp only [decide_eq_true_eq] at e
    refine ⟨p, os, h, e.1, ?_⟩
    rw [e.2]
    have h1 : Demo.masked [0xAA, 0x00, 0x52] = ([0xAA, 0x00, 0x07], some 0) := by decide +kernel
    have h2 : Demo.masked [] = ([], none) := by decide +kernel
    exact Finds.take (C := Demo.unmasking) (t := ⟨0, [.uint8]⟩) h1 rfl (Finds.stop h2)

theorem stuffed_steady (types : List MsgType) : SteadyLook (Stuffed.envelope types) (Stuffed.look types) (· = none) :=
  C107_any types 2 2 (Stuffed.look_proper types) (Stuffed.look_online types)

/-- A program whose handler throws twice, and appends the rest of the next message, which has a flag in its contents, before
it returns. -/
def nervousStuffed : List CMove :=
  [.setHandler ⟨.functor, 0⟩, .append [0x55, 0x7E, 0x00, 0x7D, 0x5E, 0x7E], .process, .throw, .process, .append [0x00], .throw,
   .process, .append [0x7D, 0x5D], .setHandler ⟨.functor, 7⟩]

/-- The hypotheses of C107_safe, C107_at_any_time and C107_all hold: the handler call returns, and the next one follows, and
then `processMessages` returns. The contents are decoded once, however often the handler throws. -/
example : Arith ⟨true, 32⟩ (customCapacity (Stuffed.envelope stuffedTypes)) ∧
    ∃ (p : CPlay (Stuffed.envelope stuffedTypes)) (os : List (Option Outcome)),
      CPlayed ⟨true, 32⟩ (nervousStuffed ++ [.finish]) p os ∧
      CAllowed p .finish ∧ p.world.handler ≠ none ∧ p.world.trace.map seen = List.replicate 3 (⟨0, [.uint8]⟩, [[0x7E]]) ++
        [(⟨0, [.uint8]⟩, [[0x7D]])] ∧
      ∃ p', p.move ⟨true, 32⟩ .finish = .ok (p', some (.returned 2)) ∧ p'.returned.map seen =
        [(⟨0, [.uint8]⟩, [[0x7E]]), (⟨0, [.uint8]⟩, [[0x7D]])] := by
  refine ⟨⟨by decide +kernel, by decide +kernel⟩, ?_⟩
  obtain ⟨p, os, h, e⟩ := cplayed_check (C := Stuffed.envelope stuffedTypes) (B := ⟨true, 32⟩)
    (ms := nervousStuffed ++ [.finish])
    (P := fun p os => decide (p.world.handler ≠ none ∧ p.world.trace.map seen = List.replicate 3 (⟨0, [.uint8]⟩, [[0x7E]]) ++
        [(⟨0, [.uint8]⟩, [[0x7D]])]) &&
      match p.move ⟨true, 32⟩ .finish with
      | .ok (p', o) => decide (o = some (.returned 2) ∧ p'.returned.map seen =
        [(⟨0, [.uint8]⟩, [[0x7E]]), (⟨0, [.uint8]⟩, [[0x7D]])])
      | .error _ => false) (by decide +kernel)
  simp only [Bool.and_eq_true, decide_eq_true_eq] at e
  obtain ⟨⟨e1, e2⟩, e4⟩ := e
  refine ⟨p, os, h, trivial, e1, e2, ?_⟩
  cases hm : p.move ⟨true, 32⟩ .finish with
  | error f => simp [hm] at e4
  | ok q =>
    obtain ⟨p', o⟩ := q
    simp only [hm, decide_eq_true_eq] at e4
    exact ⟨p', by rw [e4.1], e4.2⟩

/-- The hypotheses of C107_count hold. -/
example : ∃ (p0 p1 p2 p3 : CPlay (Stuffed.envelope stuffedTypes)) (os os' : List (Option Outcome)),
    CPlayed ⟨true, 32⟩ [.setHandler ⟨.functor, 0⟩, .append [0x7E, 0x00, 0x7D, 0x5E]] p0 os ∧ CAllowed p0 .process ∧
    p0.move ⟨true, 32⟩ .process = .ok (p1, none) ∧ AllCAllowed ⟨true, 32⟩ p1 [.append [0x7E]] ∧
    p1.moves ⟨true, 32⟩ [.append [0x7E]] = .ok (p2, os') ∧ (∀ r, some r ∉ os') ∧ CAllowed p2 .finish ∧
    p2.move ⟨true, 32⟩ .finish = .ok (p3, some (.returned 1)) := by
  obtain ⟨p0, os, h, e⟩ := cplayed_check (C := Stuffed.envelope stuffedTypes) (B := ⟨true, 32⟩)
    (ms := [.setHandler ⟨.functor, 0⟩, .append [0x7E, 0x00, 0x7D, 0x5E]])
    (P := fun p os => decide (p.busy = none) &&
      match p.move ⟨true, 32⟩ .process with
      | .ok (p1, o) => decide (o = none) && cplayCheck ⟨true, 32⟩ p1 [.append [0x7E]] fun p2 os' =>
          decide (os' = [none]) &&
          match p2.move ⟨true, 32⟩ .finish with
          | .ok (_, o) => decide (o = some (.returned 1))
          | .error _ => false
      | .error _ => false) (by decide +kernel)
  simp only [Bool.and_eq_true, decide_eq_true_eq] at e
  obtain ⟨e1, e2⟩ := e
  cases hm : p0.move ⟨true, 32⟩ .process with
  | error f => simp [hm] at e2
  | ok q =>
    obtain ⟨p1, o⟩ := q
    simp only [hm, Bool.and_eq_true, decide_eq_true_eq] at e2
    obtain ⟨rfl, e3⟩ := e2
    obtain ⟨p2, os', h1, h2, e4⟩ := cplayCheck_ok e3
    simp only [Bool.and_eq_true, decide_eq_true_eq] at e4
    obtain ⟨rfl, e5⟩ := e4
    cases hn : p2.move ⟨true, 32⟩ .finish with
    | error f => simp [hn] at e5
    | ok q =>
      obtain ⟨p3, o⟩ := q
      simp only [hn, decide_eq_true_eq] at e5
      subst e5
      exact ⟨p0, p1, p2, p3, os, _, h, e1, hm, h1, h2, by simp, trivial, hn⟩

/-- The hypotheses of C107_plain and C107_any hold. -/
example : GoodEnvelope (Demo.demo false false) (Demo.scan false false) ∧
    ProperLook ⟨stuffedTypes, 2, 2, Demo.decoding (Stuffed.look stuffedTypes)⟩ (Stuffed.look stuffedTypes) ∧
    OnlineLook (Stuffed.look stuffedTypes) := ⟨demo_good, Stuffed.look_proper _, Stuffed.look_online _⟩

end TT.Properties
