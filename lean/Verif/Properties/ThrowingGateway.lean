import Verif.Properties.Retries
import Verif.Properties.Routes

/-!
# Property C133: gateways whose transmitter throws

The handler of a gateway sends what it is called with; if `send` throws, so does the handler. The receiver then calls it
again for the same message.
-/

namespace TT.Properties
open Spec

variable {C D : Collection} {B : Build} {user : UserCode} {fuel : Nat} {σ : Type}

/-- The `send` call with which a gateway passes on what its handler is called with, if the other side has that type. -/
def relayed (D : Collection) (c : Call) : Option Request :=
  if c.1 ∈ D.messages then some ⟨D, c.1, List.zipWith Value.mk c.1.fields c.2⟩ else none

/-- One call of the handler: the transmitter afterwards, and whether `send` has thrown. -/
def relayOne (X : ThrowTx σ) (D : Collection) (s : σ) (c : Call) : σ × Bool :=
  match relayed D c with
  | none => (s, false)
  | some r => match sendCaught r.C r.t X s r.vs with
    | some (.ok v) => v
    | _ => (s, false)

/-- All calls of the handler so far. -/
def relayAll (X : ThrowTx σ) (D : Collection) : σ → List Call → σ × List Bool
  | s, [] => (s, [])
  | s, c :: cs =>
    ((relayAll X D (relayOne X D s c).1 cs).1, (relayOne X D s c).2 :: (relayAll X D (relayOne X D s c).1 cs).2)

/-- User code that sends what it is called with, to a transmitter in state `s` in the beginning, and throws when
`send` does. It may do other things, too. -/
def Relays (X : ThrowTx σ) (D : Collection) (s : σ) (user : UserCode) : Prop :=
  ∀ (calls : List UserCall) (call : UserCall) (free : Nat), (user (calls ++ [call]) free).throws =
    (relayOne X D (relayAll X D s (calls.map fun c => (c.msg, c.args))).1 (call.msg, call.args)).2

/-- What each of the calls did: it threw, or did not. -/
inductive Flagged (user : UserCode) : List Invocation → List Invocation → List Bool → Prop where
  | nil (past : List Invocation) : Flagged user past [] []
  | cons {past is : List Invocation} {i : Invocation} {bs : List Bool} {free : Nat}
      (h : Flagged user (past ++ [i]) is bs) : Flagged user past (i :: is) ((reaction user past i free).throws :: bs)

theorem Flagged.append {past is js : List Invocation} {bs cs : List Bool} (h : Flagged user past is bs)
    (h' : Flagged user (past ++ is) js cs) : Flagged user past (is ++ js) (bs ++ cs) := by
  induction h with
  | nil past => simpa using h'
  | cons h ih => exact .cons (ih (by simpa using h'))

/-- Which calls threw, if for each message some were in vain. -/
def flagsOf (ps : List (Msg × Nat)) : List Bool := ps.flatMap fun p => List.replicate p.2 true ++ [false]

theorem proc_flagged {s s' : AState} {ms : List Msg} {th : Bool} (h : Proc C user s ms s' th) :
    ∀ {j : Nat} {m : Msg}, Pending C s.buf j m → ∃ calls flags ps j' m',
      s'.trace = s.trace ++ calls ∧ ps.map (·.1) = ms ∧ Pending C s'.buf j' m' ∧
      List.replicate j (meaning C m) ++ calls.map seen = attempts C ps ++ List.replicate j' (meaning C m') ∧
      Flagged user s.trace calls flags ∧ List.replicate j true ++ flags = flagsOf ps ++ List.replicate j' true ∧
      ∀ p ∈ ps, IsMsg C p.1 := by
  induction h with
  | @done s r hd =>
    intro j m hp
    rcases hp with rfl | ⟨hm, t, hb⟩
    · exact ⟨[], [], [], 0, m, by simp, rfl, .inl rfl, by simp [attempts], .nil _, by simp [flagsOf], by simp⟩
    · exact (hd.no_first hm (t := t) (by rw [hb]; exact Run.refl _)).elim
  | @throw s m' t h hm hr hh ht =>
    intro j m hp
    have hmm : j = 0 ∨ m = m' := by
      rcases hp with rfl | ⟨hm0, t0, hb⟩
      · exact .inl rfl
      · exact .inr (first_unique hm0 hm (t := t0) (by rw [hb]; exact Run.refl _) hr).1
    refine ⟨[callOf C h m'], [true], [], j + 1, m', rfl, rfl, .inr ⟨hm, _, by simp [afterCall]; rfl⟩, ?_, ?_, ?_, by simp⟩
    · rcases hmm with rfl | rfl
      · simp [attempts]; rfl
      · simp [attempts, List.replicate_succ']; rfl
    · have : (afterCall C user s h m' t).2 = (reaction user s.trace (callOf C h m')
        (capacity C - (frame C.envelope m' ++ t).length)).throws := rfl
      rw [← ht, this]
      exact .cons (.nil _)
    · simp [flagsOf, List.replicate_succ']
  | @msg s s' m' t h ms th hm hr hh ht _ ih =>
    intro j m hp
    have hmm : j = 0 ∨ m = m' := by
      rcases hp with rfl | ⟨hm0, t0, hb⟩
      · exact .inl rfl
      · exact .inr (first_unique hm0 hm (t := t0) (by rw [hb]; exact Run.refl _) hr).1
    obtain ⟨calls, flags, ps, j', m'', h1, h2, h3, h4, h5, h6, h7⟩ := ih (j := 0) (m := m') (.inl rfl)
    refine ⟨callOf C h m' :: calls, false :: flags, (m', j) :: ps, j', m'', ?_, by simp [h2], h3, ?_, ?_, ?_, ?_⟩
    · rw [h1]; simp [afterCall]
    · have h4' : calls.map seen = attempts C ps ++ List.replicate j' (meaning C m'') := by
        simpa using h4
      have : attempts C ((m', j) :: ps) = List.replicate (j + 1) (meaning C m') ++ attempts C ps := by
        simp [attempts]
      rw [this, List.map_cons, h4', List.append_assoc]
      have e : seen (callOf C h m') = meaning C m' := rfl
      rcases hmm with rfl | rfl
      · simp [e]
      · simp [e, List.replicate_succ']
    · have : (afterCall C user s h m' t).2 = (reaction user s.trace (callOf C h m')
        (capacity C - (frame C.envelope m' ++ t).length)).throws := rfl
      rw [← ht, this]
      exact .cons h5
    · have h6' : flags = flagsOf ps ++ List.replicate j' true := by simpa using h6
      simp [flagsOf, h6']
    · intro p hp'
      rcases List.mem_cons.1 hp' with rfl | hp'
      · exact hm
      · exact h7 p hp'

theorem exec_flagged {s s' : AState} {ops : List Op} {ms : List Msg} {os : List Obs} (h : Exec C user s ops ms s' os) :
    ∀ {j : Nat} {m : Msg}, Pending C s.buf j m → ∃ calls flags ps j' m',
      s'.trace = s.trace ++ calls ∧ ps.map (·.1) = ms ∧ Pending C s'.buf j' m' ∧
      List.replicate j (meaning C m) ++ calls.map seen = attempts C ps ++ List.replicate j' (meaning C m') ∧
      Flagged user s.trace calls flags ∧ List.replicate j true ++ flags = flagsOf ps ++ List.replicate j' true ∧
      ∀ p ∈ ps, IsMsg C p.1 := by
  induction h with
  | nil s =>
    intro j m hp
    exact ⟨[], [], [], j, m, by simp, rfl, hp, by simp [attempts], .nil _, by simp [flagsOf], by simp⟩
  | @cons s s1 s' op ops ms ms' o os hs _ ih =>
    intro j m hp
    have key : ∃ calls flags ps j' m', s1.trace = s.trace ++ calls ∧ ps.map (·.1) = ms ∧ Pending C s1.buf j' m' ∧
        List.replicate j (meaning C m) ++ calls.map seen = attempts C ps ++ List.replicate j' (meaning C m') ∧
        Flagged user s.trace calls flags ∧ List.replicate j true ++ flags = flagsOf ps ++ List.replicate j' true ∧
        ∀ p ∈ ps, IsMsg C p.1 := by
      have none : ∀ {s1 : AState}, s1.trace = s.trace → Pending C s1.buf j m → ms = [] → ∃ calls flags ps j' m',
          s1.trace = s.trace ++ calls ∧ ps.map (·.1) = ms ∧ Pending C s1.buf j' m' ∧
          List.replicate j (meaning C m) ++ calls.map seen = attempts C ps ++ List.replicate j' (meaning C m') ∧
          Flagged user s.trace calls flags ∧ List.replicate j true ++ flags = flagsOf ps ++ List.replicate j' true ∧
          ∀ p ∈ ps, IsMsg C p.1 := fun e hq e' =>
        ⟨[], [], [], j, m, by simp [e], e'.symm, hq, by simp [attempts], .nil _, by simp [flagsOf], by simp⟩
      cases hs with
      | append _ => exact none rfl (hp.append _) rfl
      | receive _ _ => exact none rfl (hp.append _) rfl
      | setHandler => exact none rfl hp rfl
      | clearHandler => exact none rfl hp rfl
      | copy => exact none rfl hp rfl
      | idle _ => exact none rfl hp rfl
      | process _ hpr => exact proc_flagged hpr hp
      | thrown _ hpr => exact proc_flagged hpr hp
    obtain ⟨calls, flags, ps, j1, m1, h1, h2, h3, h4, h5, h6, h7⟩ := key
    obtain ⟨calls', flags', ps', j2, m2, k1, k2, k3, k4, k5, k6, k7⟩ := ih h3
    refine ⟨calls ++ calls', flags ++ flags', ps ++ ps', j2, m2, by rw [k1, h1]; simp, by simp [h2, k2], k3, ?_, ?_, ?_, ?_⟩
    · have : attempts C (ps ++ ps') = attempts C ps ++ attempts C ps' := by simp [attempts]
      rw [this, List.map_append, ← List.append_assoc, h4, List.append_assoc, k4, List.append_assoc]
    · exact h5.append (by rw [← h1]; exact k5)
    · have : flagsOf (ps ++ ps') = flagsOf ps ++ flagsOf ps' := by simp [flagsOf]
      rw [this, ← List.append_assoc, h6, List.append_assoc, k6, List.append_assoc]
    · intro p hp'
      rcases List.mem_append.1 hp' with hp' | hp'
      · exact h7 p hp'
      · exact k7 p hp'

theorem relayAll_append (X : ThrowTx σ) (D : Collection) (cs ds : List Call) : ∀ s : σ,
    relayAll X D s (cs ++ ds) =
      ((relayAll X D (relayAll X D s cs).1 ds).1, (relayAll X D s cs).2 ++ (relayAll X D (relayAll X D s cs).1 ds).2) := by
  induction cs with
  | nil => intro s; rfl
  | cons c cs ih => intro s; simp [relayAll, ih]

theorem userCall_seen {i : Invocation} {c : UserCall} (h : userCall i = some c) : (c.msg, c.args) = seen i := by
  unfold userCall at h
  split at h <;> first | (cases h; rfl) | (split at h <;> cases h; rfl)

theorem userCalls_seen {is : List Invocation} (h : ∀ i ∈ is, userCall i ≠ none) :
    (is.filterMap userCall).map (fun c => (c.msg, c.args)) = is.map seen := by
  induction is with
  | nil => rfl
  | cons i is ih =>
    have hi := h i (by simp)
    cases hc : userCall i with
    | none => exact absurd hc hi
    | some c =>
      rw [List.filterMap_cons_some hc, List.map_cons, ih fun i hi => h i (by simp [hi]), userCall_seen hc, List.map_cons]

/-- The exceptions of the handler are those of its sends. -/
theorem flagged_relay {X : ThrowTx σ} {s0 : σ} (hr : Relays X D s0 user) {past is : List Invocation} {bs : List Bool}
    (h : Flagged user past is bs) (hp : ∀ i ∈ past, userCall i ≠ none) (hi : ∀ i ∈ is, userCall i ≠ none) :
    bs = (relayAll X D (relayAll X D s0 (past.map seen)).1 (is.map seen)).2 := by
  induction h with
  | nil past => rfl
  | @cons past is i bs free h ih =>
    have hi0 := hi i (by simp)
    cases hc : userCall i with
    | none => exact absurd hc hi0
    | some c =>
      have ih := ih (by
        intro i' hi'
        rcases List.mem_append.1 hi' with hi' | hi'
        · exact hp i' hi'
        · simp only [List.mem_singleton] at hi'
          subst hi'
          exact hi0) fun i hi' => hi i (by simp [hi'])
      simp only [List.map_append, List.map_cons, List.map_nil, relayAll_append, relayAll] at ih
      simp only [List.map_cons, relayAll]
      rw [← ih]
      congr 1
      simp only [reaction, hc, List.filterMap_append, List.filterMap_cons, List.filterMap_nil]
      rw [hr, userCalls_seen hp, userCall_seen hc]

theorem relayed_good (hl : D.messages.length ≤ 255) {m : Msg} (hm : IsMsg C m) {r : Request}
    (h : relayed D (meaning C m) = some r) : r.Good D ∧ r.call = meaning C m := by
  obtain ⟨t, ht, hp⟩ := hm
  have e : meaning C m = (t, splitFields t.fields m.payload) := by simp [meaning, ht]
  obtain ⟨a1, a2, a3, _⟩ := splitFields_sound t.fields m.payload hp
  rw [e] at h ⊢
  unfold relayed at h
  split at h
  · rename_i hmem
    cases h
    exact ⟨⟨rfl, ⟨hl, hmem, a1⟩, a3⟩, by simp only [Request.call]; rw [a2]⟩
  · cases h

/-- Calls for one message. -/
theorem relay_one {X : ThrowTx σ} {c : Call} {r : Request} (hr : relayed D c = some r) (hs : Sendable r.C r.t r.vs) :
    ∀ (k : Nat) (s : σ), sendEach X s (List.replicate k r) = some (.ok (relayAll X D s (List.replicate k c))) := by
  intro k
  induction k with
  | zero => intro s; rfl
  | succ k ih =>
    intro s
    obtain ⟨s1, th, e, _, _⟩ := C74_calls X r.C r.t r.vs hs (idOf_idxOf hs.1 hs.2.1) s
    have e1 : relayOne X D s c = (s1, th) := by simp [relayOne, hr, e]
    simp only [List.replicate_succ, sendEach, e, relayAll, e1, ih]

/-- What the gateway has insisted on. -/
def passedAlong (C D : Collection) (ps : List (Msg × Nat)) : List (Request × Nat) :=
  ps.filterMap fun p => (relayed D (meaning C p.1)).map fun r => (r, p.2)

theorem relays_insist {X : ThrowTx σ} (hl : D.messages.length ≤ 255) : ∀ (ps : List (Msg × Nat)) (s : σ),
    (∀ p ∈ ps, IsMsg C p.1) → (relayAll X D s (attempts C ps)).2 = flagsOf ps →
    Insists X s (passedAlong C D ps) (relayAll X D s (attempts C ps)).1 := by
  intro ps
  induction ps with
  | nil => intro s _ _; exact .nil s
  | cons p ps ih =>
    intro s hp hf
    obtain ⟨m, k⟩ := p
    have hm := hp (m, k) (by simp)
    have ea : attempts C ((m, k) :: ps) = List.replicate (k + 1) (meaning C m) ++ attempts C ps := by simp [attempts]
    have ef : flagsOf ((m, k) :: ps) = (List.replicate k true ++ [false]) ++ flagsOf ps := by simp [flagsOf]
    rw [ea, relayAll_append] at hf ⊢
    rw [ef] at hf
    have hlen : ∀ (cs : List Call) (s : σ), (relayAll X D s cs).2.length = cs.length := by
      intro cs
      induction cs with
      | nil => intro s; rfl
      | cons c cs ih => intro s; simp [relayAll, ih]
    obtain ⟨f1, f2⟩ := List.append_inj hf (by simp [hlen])
    have hrest := ih _ (fun p hp' => hp p (by simp [hp'])) f2
    cases hr : relayed D (meaning C m) with
    | none =>
      have e : passedAlong C D ((m, k) :: ps) = passedAlong C D ps := by simp [passedAlong, hr]
      have same : ∀ (n : Nat) (s : σ), (relayAll X D s (List.replicate n (meaning C m))).1 = s := by
        intro n
        induction n with
        | zero => intro s; rfl
        | succ n ih => intro s; simp [List.replicate_succ, relayAll, relayOne, hr, ih]
      rw [same] at hrest ⊢
      rw [e]
      exact hrest
    | some r =>
      have e : passedAlong C D ((m, k) :: ps) = (r, k) :: passedAlong C D ps := by simp [passedAlong, hr]
      rw [e]
      obtain ⟨hg, _⟩ := relayed_good hl hm hr
      have h1 := relay_one (X := X) hr (by rw [hg.1]; exact hg.2.1) (k + 1) s
      refine .cons ?_ hrest
      rw [h1, ← f1]

/-- C133, what the gateway does. A receiver calls a handler that passes messages on to a transmitter that may throw, and
does not catch the exceptions. When `processMessages` has returned, the handler has insisted on each message it can pass
on: it was called, and sent it, again and again until `send` returned. -/
theorem C133_insists {X : ThrowTx σ} {s0 : σ} (hl : D.messages.length ≤ 255) (hr : Relays X D s0 user)
    (S : Setting C B user) {ops : List Op} {w : World C} {os : List Obs} {n : Byte}
    (h : Reached B user fuel (ops ++ [.process]) w (os ++ [.processed (.returned n)])) (hh : w.rx.hasHandler = true)
    (hu : ∀ i ∈ w.trace, userCall i ≠ none) :
    ∃ ks : List Nat, ks.length = (((completed B user fuel (World.new C) (ops ++ [.process])).map seen).filterMap
        (relayed D)).length ∧
      Insists X s0 ((((completed B user fuel (World.new C) (ops ++ [.process])).map seen).filterMap (relayed D)).zip ks)
        (relayAll X D s0 (delivered w)).1 := by
  obtain ⟨ms0, hd, hc0⟩ := C95_all S h hh
  obtain ⟨s, ms, ha, he, hc⟩ := completed_exec S (abs_new C) h.legal h.run
  obtain ⟨calls, flags, ps, j, m, h1, h2, h3, h4, h5, h6, h7⟩ := exec_flagged he (j := 0) (m := ⟨0, []⟩) (.inl rfl)
  have hj : j = 0 := by
    rcases h3 with hj | ⟨hm, t, e⟩
    · exact hj
    · exfalso
      rw [← ha.buffered] at e
      have := hd.2
      rw [e] at this
      exact Decodes.no_first (C := C) hm (show Decodes C _ [] _ from ⟨Run.refl _, this⟩) (Run.refl _)
  subst hj
  simp only [List.replicate_zero, List.nil_append, List.append_nil] at h4 h6
  have htr : s.trace = calls := by rw [h1]; simp [AState.new]
  rw [← ha.trace] at htr
  have hfl := flagged_relay hr h5 (by simp [AState.new]) (by rw [← htr]; exact hu)
  have hdel : delivered w = attempts C ps := by rw [delivered, htr, h4]
  rw [h6, h4] at hfl
  have hin := relays_insist (X := X) hl ps s0 h7 hfl.symm
  rw [hdel]
  have hcomp : (completed B user fuel (World.new C) (ops ++ [.process])).map seen = ps.map fun p => meaning C p.1 := by
    rw [hc, ← h2, List.map_map]
    rfl
  rw [hcomp]
  have hz : ∀ ps : List (Msg × Nat), ∃ ks : List Nat,
      ks.length = ((ps.map fun p => meaning C p.1).filterMap (relayed D)).length ∧
      passedAlong C D ps = ((ps.map fun p => meaning C p.1).filterMap (relayed D)).zip ks := by
    intro ps
    induction ps with
    | nil => exact ⟨[], rfl, rfl⟩
    | cons p ps ih =>
      obtain ⟨ks, k1, k2⟩ := ih
      cases hq : relayed D (meaning C p.1) with
      | none =>
        refine ⟨ks, by simpa [hq] using k1, ?_⟩
        simp only [passedAlong, List.filterMap_cons, hq, List.map_cons, Option.map_none]
        exact k2
      | some r =>
        refine ⟨p.2 :: ks, by simpa [hq] using k1, ?_⟩
        simp only [passedAlong, List.filterMap_cons, hq, List.map_cons, Option.map_some, List.zip_cons_cons]
        rw [← k2]
        rfl
  obtain ⟨ks, k1, k2⟩ := hz ps
  exact ⟨ks, k1, by rw [← k2]; exact hin⟩

/-- What messages must be like to be sent again safely: no beginning and no end of a message inside, and not id 2 if
there is an id 1. -/
def Resendable (D : Collection) (c : Call) : Prop :=
  ∀ r, relayed D c = some r → Retriable D r.msg ∧ (r.msg.id = 0x02 → typeOf D 0x01 = none)

theorem completed_isMsg (S : Setting C B user) {ops : List Op} {w : World C} {os : List Obs}
    (h : Reached B user fuel ops w os) {c : Call}
    (hc : c ∈ (completed B user fuel (World.new C) ops).map seen) : ∃ m, IsMsg C m ∧ c = meaning C m := by
  obtain ⟨ms, hr, e⟩ := C95_once S h
  rw [e] at hc
  obtain ⟨m, hm, rfl⟩ := List.mem_map.1 hc
  exact ⟨m, hr.isMsg m hm, rfl⟩

/-- C133, the far end. The receiver behind such a gateway, whose handlers may throw as well, has in the end handled each
message that the gateway has handled and could pass on, in order and with the same contents: at least once, and exactly
once if calls on the transmitter that throw have not put all of their bytes on the line. -/
theorem C133_far_end {X : ThrowTx σ} {log : σ → List Byte} (H : Honest X log) {s0 : σ} (h0 : log s0 = [])
    (hl : D.messages.length ≤ 255) (hr : Relays X D s0 user)
    (S : Setting C B user) {ops : List Op} {w : World C} {os : List Obs} {n : Byte}
    (h : Reached B user fuel (ops ++ [.process]) w (os ++ [.processed (.returned n)])) (hh : w.rx.hasHandler = true)
    (hu : ∀ i ∈ w.trace, userCall i ≠ none)
    (hrep : ∀ c ∈ (completed B user fuel (World.new C) (ops ++ [.process])).map seen, Resendable D c)
    {B2 : Build} {user2 : UserCode} {fuel2 : Nat} (S2 : Setting D B2 user2) {ops2 : List Op} {w2 : World D} {os2 : List Obs}
    {n2 : Byte} (h2 : Reached B2 user2 fuel2 (ops2 ++ [.process]) w2 (os2 ++ [.processed (.returned n2)]))
    (hh2 : w2.rx.hasHandler = true) (hfed : w2.fed = log (relayAll X D s0 (delivered w)).1) :
    ∃ ks : List Nat, (∀ k ∈ ks, 1 ≤ k ∧ (Prompt X log → k = 1)) ∧
      ks.length = (((completed B user fuel (World.new C) (ops ++ [.process])).map seen).filter
        (fun c => c.1 ∈ D.messages)).length ∧
      (completed B2 user2 fuel2 (World.new D) (ops2 ++ [.process])).map seen =
        (List.zipWith (fun c k => List.replicate k c) (((completed B user fuel (World.new C) (ops ++ [.process])).map
          seen).filter (fun c => c.1 ∈ D.messages)) ks).flatten := by
  obtain ⟨ts, t1, t2⟩ := C133_insists hl hr S h hh hu
  have hmsg := fun c hc => completed_isMsg (c := c) S h hc
  generalize hcs : (completed B user fuel (World.new C) (ops ++ [.process])).map seen = cs at *
  have hof : ∀ r ∈ cs.filterMap (relayed D), ∃ c ∈ cs, relayed D c = some r := by
    intro r hr'
    obtain ⟨c, hc, e⟩ := List.mem_filterMap.1 hr'
    exact ⟨c, hc, e⟩
  have hgood : ∀ r ∈ cs.filterMap (relayed D), r.Good D := by
    intro r hr'
    obtain ⟨c, hc, e⟩ := hof r hr'
    obtain ⟨m, hm, rfl⟩ := hmsg c hc
    exact (relayed_good hl hm e).1
  have hcalls : (cs.filterMap (relayed D)).map Request.call = cs.filter (fun c => c.1 ∈ D.messages) := by
    clear hcs t1 t2 hof hgood hrep
    induction cs with
    | nil => rfl
    | cons c cs ih =>
      have ih := ih fun c hc => hmsg c (by simp [hc])
      by_cases hmem : c.1 ∈ D.messages
      · obtain ⟨r, e⟩ : ∃ r, relayed D c = some r := by simp [relayed, hmem]
        obtain ⟨m, hm, rfl⟩ := hmsg c (by simp)
        rw [List.filterMap_cons_some e, List.filter_cons_of_pos (by simpa using hmem), List.map_cons, ih,
          (relayed_good hl hm e).2]
      · have e : relayed D c = none := by simp [relayed, hmem]
        rw [List.filterMap_cons_none e, List.filter_cons_of_neg (by simpa using hmem), ih]
  have hz : ∀ r ∈ (cs.filterMap (relayed D)).zip ts, r.1 ∈ cs.filterMap (relayed D) := fun r hr' => (List.of_mem_zip hr').1
  obtain ⟨ks, k1, k2, k3⟩ := C132_end_to_end H t2 h0 (fun r hr' => hgood _ (hz r hr'))
    (fun r hr' => by
      obtain ⟨c, hc, e⟩ := hof _ (hz r hr')
      exact (hrep c hc _ e).1)
    (fun r hr' => by
      obtain ⟨c, hc, e⟩ := hof _ (hz r hr')
      exact (hrep c hc _ e).2) S2 h2 hh2 hfed
  have hlen : ((cs.filterMap (relayed D)).zip ts).length = (cs.filterMap (relayed D)).length := by
    rw [List.length_zip]; omega
  rw [hlen] at k1
  refine ⟨ks, ?_, by rw [k1, ← hcalls, List.length_map], ?_⟩
  · intro k hk
    obtain ⟨i, hi, rfl⟩ := List.getElem_of_mem hk
    have hi' : i < ((cs.filterMap (relayed D)).zip ts).length := by omega
    have := k2 i ks[i] _ (List.getElem?_eq_getElem hi) (List.getElem?_eq_getElem hi')
    exact ⟨this.1, this.2.2⟩
  · rw [k3, ← hcalls]
    congr 1
    rw [List.zipWith_map_left]
    generalize cs.filterMap (relayed D) = l at *
    clear k1 k2 k3 hlen hz t2 hcalls hgood hof
    induction l generalizing ts ks with
    | nil => rfl
    | cons r l ih =>
      cases ts with
      | nil => simp at t1
      | cons t ts =>
        cases ks with
        | nil => rfl
        | cons k ks =>
          simp only [List.zip_cons_cons, List.zipWith_cons_cons, List.cons.injEq, true_and]
          exact ih ts ks (by simpa using t1)

/-- C133, exactly once. -/
theorem C133_exactly_once {X : ThrowTx σ} {log : σ → List Byte} (H : Honest X log) (hp : Prompt X log) {s0 : σ}
    (h0 : log s0 = []) (hl : D.messages.length ≤ 255) (hr : Relays X D s0 user)
    (S : Setting C B user) {ops : List Op} {w : World C} {os : List Obs} {n : Byte}
    (h : Reached B user fuel (ops ++ [.process]) w (os ++ [.processed (.returned n)])) (hh : w.rx.hasHandler = true)
    (hu : ∀ i ∈ w.trace, userCall i ≠ none)
    (hrep : ∀ c ∈ (completed B user fuel (World.new C) (ops ++ [.process])).map seen, Resendable D c)
    {B2 : Build} {user2 : UserCode} {fuel2 : Nat} (S2 : Setting D B2 user2) {ops2 : List Op} {w2 : World D} {os2 : List Obs}
    {n2 : Byte} (h2 : Reached B2 user2 fuel2 (ops2 ++ [.process]) w2 (os2 ++ [.processed (.returned n2)]))
    (hh2 : w2.rx.hasHandler = true) (hfed : w2.fed = log (relayAll X D s0 (delivered w)).1) :
    (completed B2 user2 fuel2 (World.new D) (ops2 ++ [.process])).map seen =
      ((completed B user fuel (World.new C) (ops ++ [.process])).map seen).filter (fun c => c.1 ∈ D.messages) := by
  obtain ⟨ks, k1, k2, k3⟩ := C133_far_end H h0 hl hr S h hh hu hrep S2 h2 hh2 hfed
  rw [k3]
  clear k3
  generalize ((completed B user fuel (World.new C) (ops ++ [.process])).map seen).filter (fun c => c.1 ∈ D.messages) = l at *
  induction l generalizing ks with
  | nil => simp
  | cons c l ih => cases ks with
    | nil => simp at k2
    | cons k ks =>
      have e := (k1 k (by simp)).2 hp
      subst e
      have := ih ks (fun k hk => k1 k (by simp [hk])) (by simpa using k2)
      simp [this]

/-! ### Any number of gateways -/

/-- A program that keeps the rules, whose handlers may throw. It has a handler that sees all messages and has called
`processMessages` last, which has returned. -/
structure Station.Returned (x : Station) : Prop where
  setting : Setting x.C x.B x.user
  reached : Reached x.B x.user x.fuel x.ops x.w x.os
  last : ∃ ops os n, x.ops = ops ++ [.process] ∧ x.os = os ++ [.processed (.returned n)]
  handler : x.w.rx.hasHandler = true
  ids : x.C.messages.length ≤ 255
  sees : ∀ i ∈ x.w.trace, userCall i ≠ none

/-- The calls its handlers have completed. -/
def Station.finished (x : Station) : List Call := (completed x.B x.user x.fuel (World.new x.C) x.ops).map seen

/-- The handler of the first program sends to the second what it can, over a transmitter that may throw, but not after it
has put the bytes of a call on the line. Everything has arrived at the second. -/
def PassesTo (x y : Station) : Prop :=
  ∃ (σ : Type) (X : ThrowTx σ) (log : σ → List Byte) (s0 : σ), Honest X log ∧ Prompt X log ∧ log s0 = [] ∧
    Relays X y.C s0 x.user ∧ y.w.fed = log (relayAll X y.C s0 (delivered x.w)).1

/-- Programs one behind the other. -/
inductive ThrowRoute : List Station → Prop where
  | one {x : Station} (hx : x.Returned) : ThrowRoute [x]
  | cons {x y : Station} {xs : List Station} (hx : x.Returned) (hp : PassesTo x y) (hs : ThrowRoute (y :: xs)) :
      ThrowRoute (x :: y :: xs)

theorem ThrowRoute.head {x : Station} {xs : List Station} (h : ThrowRoute (x :: xs)) : x.Returned := by
  cases h <;> assumption

theorem Station.Returned.types {x : Station} (hx : x.Returned) {c : Call} (hc : c ∈ x.finished) : c.1 ∈ x.C.messages := by
  obtain ⟨m, ⟨t, ht, _⟩, rfl⟩ := completed_isMsg hx.setting hx.reached hc
  have : (meaning x.C m).1 = t := by simp [meaning, ht]
  rw [this]
  exact List.mem_of_getElem? ht

theorem passes_on {x y : Station} (hx : x.Returned) (hy : y.Returned) (hp : PassesTo x y)
    (hrep : ∀ c ∈ x.finished, Resendable y.C c) : y.finished = x.finished.filter (fun c => c.1 ∈ y.C.messages) := by
  obtain ⟨σ, X, log, s0, H, hpr, h0, hr, hf⟩ := hp
  obtain ⟨C, B, user, fuel, ops, w, os⟩ := x
  obtain ⟨D, B2, user2, fuel2, ops2, w2, os2⟩ := y
  obtain ⟨S, h, ⟨ops', os', n, e1, e2⟩, hh, hl, hu⟩ := hx
  obtain ⟨S2, h2, ⟨ops2', os2', n2, e3, e4⟩, hh2, hl2, _⟩ := hy
  simp only at *
  subst e1 e2 e3 e4
  exact C133_exactly_once H hpr h0 hl2 hr S h hh hu hrep S2 h2 hh2 hf

/-- C133, any number of gateways. Programs pass on what they receive, one to the next, over transmitters that throw now and
then, with handlers that throw when `send` has thrown; those of the last program throw as they like. When all have come to
an end, each of them has completed exactly one handler call for each of the messages completed by the first whose types it and all in
between have, in order and with the same contents. -/
theorem C133_route {x z : Station} {xs ys zs : List Station} (h : ThrowRoute (x :: xs)) (e : x :: xs = ys ++ z :: zs)
    (hrep : ∀ c ∈ x.finished, ∀ y ∈ xs, Resendable y.C c) :
    z.finished = x.finished.filter (fun c => shared (ys ++ [z]) c.1) := by
  induction ys generalizing x xs with
  | nil =>
    obtain ⟨rfl, rfl⟩ := List.cons.inj e
    refine (List.filter_eq_self.2 fun c hc => ?_).symm
    have := h.head.types hc
    simpa [shared] using this
  | cons y ys ih =>
    obtain ⟨rfl, e'⟩ := List.cons.inj e
    clear e
    have e : xs = ys ++ z :: zs := e'
    clear e'
    cases h with
    | one hx => simp at e
    | @cons _ y' xs' hx hp hs =>
      have hy := passes_on hx hs.head hp fun c hc => hrep c hc y' (by simp)
      rw [ih hs e fun c hc y hy' => hrep c (by rw [hy] at hc; exact (List.mem_filter.1 hc).1) y (by simp [hy']), hy,
        List.filter_filter]
      refine List.filter_congr fun c hc => ?_
      have hx' := hx.types hc
      have hmem : y' ∈ ys ++ [z] := by
        cases ys with
        | nil => simp at e; simp [e.1]
        | cons a ys => simp at e; simp [e.1]
      by_cases hs' : shared (ys ++ [z]) c.1 = true
      · have : c.1 ∈ y'.C.messages := by
          simp only [shared, List.all_eq_true, decide_eq_true_eq] at hs'
          exact hs' y' hmem
        simp only [hs', this, decide_true, Bool.and_self]
        simp only [shared, List.cons_append, List.all_cons] at hs' ⊢
        simp [hx', hs']
      · rw [Bool.not_eq_true] at hs'
        rw [hs', Bool.false_and]
        simp only [shared, List.cons_append, List.all_cons] at hs' ⊢
        rw [hs', Bool.and_false]

/-- C133, from end to end. The same if the first program gets its messages from a sender that insists on each of them:
each message arrives exactly once at each program that it can reach. -/
theorem C133_end_to_end {X : ThrowTx σ} {log : σ → List Byte} (H : Honest X log) (hp : Prompt X log) {s s' : σ}
    {rs : List (Request × Nat)} (hx : Insists X s rs s') (h0 : log s = [])
    {x z : Station} {xs ys zs : List Station} (hr : ∀ r ∈ rs, r.1.Good x.C)
    (hrep : ∀ r ∈ rs, Retriable x.C r.1.msg ∧ (r.1.msg.id = 0x02 → typeOf x.C 0x01 = none) ∧
      ∀ y ∈ xs, Resendable y.C r.1.call)
    (h : ThrowRoute (x :: xs)) (hfed : x.w.fed = log s') (e : x :: xs = ys ++ z :: zs) :
    z.finished = (rs.filter fun r => shared (ys ++ [z]) r.1.t).map (·.1.call) := by
  have hfin : x.finished = rs.map (·.1.call) := by
    obtain ⟨S, hre, ⟨ops', os', n, e1, e2⟩, hh, _, _⟩ := h.head
    obtain ⟨C, B, user, fuel, ops, w, os⟩ := x
    simp only at *
    subst e1 e2
    exact C132_exactly_once H hp hx h0 hr (fun r hr' => (hrep r hr').1) (fun r hr' => (hrep r hr').2.1) S hre hh hfed
  rw [C133_route h e (fun c hc y hy => by
    rw [hfin] at hc
    obtain ⟨r, hr', rfl⟩ := List.mem_map.1 hc
    exact (hrep r hr').2.2 y hy), hfin, List.filter_map]
  rfl

/-! ### An example -/

/-- User code that passes on what it is called with and does nothing else. -/
def relayUser (X : ThrowTx σ) (D : Collection) (s0 : σ) : UserCode := fun calls _ =>
  ⟨[], match calls.getLast? with
    | none => false
    | some call => (relayOne X D (relayAll X D s0 (calls.dropLast.map fun c => (c.msg, c.args))).1 (call.msg, call.args)).2⟩

theorem relayUser_relays (X : ThrowTx σ) (D : Collection) (s0 : σ) : Relays X D s0 (relayUser X D s0) := by
  intro calls call free
  simp [relayUser]

theorem relayUser_benign (X : ThrowTx σ) (D : Collection) (s0 : σ) : BenignUser (relayUser X D s0) := fun _ _ =>
  ⟨by simp [relayUser], by simp [relayUser, appended]⟩

/-- The far side: other ids, another envelope, and no `level`. -/
def farSide : Collection :=
  ⟨[⟨9, [.pod 5 3]⟩, ⟨7, [.uint8, .uint8]⟩, ⟨10, []⟩, ⟨11, []⟩, ⟨12, []⟩, Sample.ping, Sample.pose], .basicChecksum⟩

/-- The gateway of the example, in the middle: its transmitter throws three times. -/
def midUser : UserCode := relayUser (flaky thrice false) farSide ([], 0)

/-- What it is called for, and what it leaves on the line: two attempts at `pose` break off, and one at `ping`. -/
def midOps : List Op := [.setHandler Sample.h0, .append insistedLine, .process, .process, .process] ++ [.process]
def midLine : List Byte :=
  [1] ++ [1, 6, 2, 5] ++ [1, 6, 2, 5, 6, 7, 8, 9, 10, 11, 3, 68, 4] ++ [1] ++ [1, 5, 2, 3, 11, 4]
def farOps : List Op := [.setHandler Sample.h0, .append midLine, .process, .process] ++ [.process]

/-- Three exceptions at the sender, three at the gateway, two at the receiver: `pose` and `ping` are handled to the end
once. The hypotheses of the theorems above hold. -/
example : ∃ x z : Station, ThrowRoute [x, z] ∧ x.C = fourTypes .basic ∧ z.C = farSide ∧ x.w.fed = insistedLine ∧
    exceptions x.os = 3 ∧ exceptions z.os = 2 ∧
    z.finished = [(insisted .basic)[0].call, (insisted .basic)[1].call] := by
  obtain ⟨w, os, h1, h2⟩ := Sample.reached (C := fourTypes .basic) (B := Sample.dbg) (user := midUser) (fuel := 50)
    (ops := midOps) (fun w os => w.rx.hasHandler &&
      decide (os = [.unit, .unit, .processed .threw, .processed .threw, .processed .threw] ++ [.processed (.returned 1)]) &&
      decide (w.fed = insistedLine) && w.trace.all (fun i => (userCall i).isSome) &&
      decide ((relayAll (flaky thrice false) farSide ([], 0) (delivered w)).1.1 = midLine)) (by decide +kernel)
  obtain ⟨w2, os2, g1, g2⟩ := Sample.reached (C := farSide) (B := Sample.dbg) (user := stubborn) (fuel := 50)
    (ops := farOps) (fun w os => w.rx.hasHandler &&
      decide (os = [.unit, .unit, .processed .threw, .processed .threw] ++ [.processed (.returned 1)]) &&
      decide (w.fed = midLine) && w.trace.all (fun i => (userCall i).isSome)) (by decide +kernel)
  simp only [Bool.and_eq_true, decide_eq_true_eq, List.all_eq_true] at h2 g2
  obtain ⟨⟨⟨⟨a1, a2⟩, a3⟩, a4⟩, a5⟩ := h2
  obtain ⟨⟨⟨b1, b2⟩, b3⟩, b4⟩ := g2
  have hs1 : Setting (fourTypes .basic) Sample.dbg midUser := ⟨⟨by decide, by decide⟩, relayUser_benign _ _ _⟩
  have hs2 : Setting farSide Sample.dbg stubborn := ⟨⟨by decide, by decide⟩, (stubborn_four .basic).benign⟩
  have l1 : (fourTypes .basic).messages.length ≤ 255 := by decide
  have l2 : farSide.messages.length ≤ 255 := by decide
  have hx : (Station.mk (fourTypes .basic) Sample.dbg midUser 50 midOps w os).Returned :=
    ⟨hs1, h1, ⟨_, _, 1, rfl, a2⟩, a1, l1, fun i hi e => by have := a4 i hi; simp [e] at this⟩
  have hz : (Station.mk farSide Sample.dbg stubborn 50 farOps w2 os2).Returned :=
    ⟨hs2, g1, ⟨_, _, 1, rfl, b2⟩, b1, l2, fun i hi e => by have := b4 i hi; simp [e] at this⟩
  have hr : ThrowRoute [Station.mk (fourTypes .basic) Sample.dbg midUser 50 midOps w os,
      Station.mk farSide Sample.dbg stubborn 50 farOps w2 os2] :=
    .cons hx ⟨_, _, (·.1), _, flaky_honest thrice false, flaky_prompt thrice, rfl, relayUser_relays _ _ _,
      b3.trans a5.symm⟩ (.one hz)
  refine ⟨_, _, hr, rfl, rfl, a3, by subst a2; rfl, by subst b2; rfl, ?_⟩
  have good : ∀ r ∈ [((insisted .basic)[0], 2), ((insisted .basic)[1], 1)], Request.Good (fourTypes .basic) r.1 := by decide
  have clean : ∀ r ∈ [((insisted .basic)[0], 2), ((insisted .basic)[1], 1)], Retriable (fourTypes .basic) (Request.msg r.1) ∧
      ((Request.msg r.1).id = 0x02 → typeOf (fourTypes .basic) 0x01 = none) := by decide
  have p1 : Retriable farSide (Request.msg ⟨farSide, Sample.pose, (insisted .basic)[0].vs⟩) := by decide
  have p2 : Retriable farSide (Request.msg ⟨farSide, Sample.ping, []⟩) := by decide
  have n1 : (Request.msg ⟨farSide, Sample.pose, (insisted .basic)[0].vs⟩).id ≠ 0x02 := by decide
  have n2 : (Request.msg ⟨farSide, Sample.ping, []⟩).id ≠ 0x02 := by decide
  refine (C133_end_to_end (flaky_honest thrice false) (flaky_prompt thrice) insists_example rfl (ys := [_]) (zs := [])
    good ?_ hr a3 rfl).trans rfl
  intro r hr'
  refine ⟨(clean r hr').1, (clean r hr').2, ?_⟩
  intro y hy
  simp only [List.mem_cons, List.not_mem_nil, or_false] at hr' hy
  subst hy
  rcases hr' with rfl | rfl
  · intro r e
    have : r = ⟨farSide, Sample.pose, (insisted .basic)[0].vs⟩ := (Option.some.inj e).symm
    subst this
    exact ⟨p1, fun e => absurd e n1⟩
  · intro r e
    have : r = ⟨farSide, Sample.ping, []⟩ := (Option.some.inj e).symm
    subst this
    exact ⟨p2, fun e => absurd e n2⟩

end TT.Properties
