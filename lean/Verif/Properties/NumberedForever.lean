import Verif.Properties.NumberedGateways
import Verif.Properties.ThrowForever

/-!
# Property C145: numbered messages sent again, forever

The programs of C143, which now never come to an end.
-/

namespace TT.Properties
open Spec

variable {C : Collection} {B : Build} {user : UserCode} {fuel : Nat} {σ : Type}

/-- A program that sends one message after the other, each of them until `send` returns; `st n` is the state of the transmitter
when it has sent `n` messages. -/
def InsistsForever (X : ThrowTx σ) (f : Nat → Request) (st : Nat → σ) : Prop :=
  ∀ n, ∃ k, Insists X (st n) [(f n, k)] (st (n + 1))

theorem Insists.append {X : ThrowTx σ} {s1 s2 s3 : σ} {rs rs' : List (Request × Nat)} (h : Insists X s1 rs s2)
    (h' : Insists X s2 rs' s3) : Insists X s1 (rs ++ rs') s3 := by
  induction h with
  | nil s => exact h'
  | cons h _ ih => exact .cons h (ih h')

theorem InsistsForever.first {X : ThrowTx σ} {f : Nat → Request} {st : Nat → σ} (h : InsistsForever X f st) (n : Nat) :
    ∃ rs : List (Request × Nat), Insists X (st 0) rs (st n) ∧ rs.length = n ∧ rs.map (·.1) = (List.range rs.length).map f := by
  induction n with
  | zero => exact ⟨[], .nil _, rfl, rfl⟩
  | succ n ih =>
    obtain ⟨rs, h1, rfl, h3⟩ := ih
    obtain ⟨k, hk⟩ := h rs.length
    exact ⟨rs ++ [(f rs.length, k)], h1.append hk, by simp, by
      rw [List.map_append, h3, List.length_append, List.length_singleton, List.range_succ, List.map_append]
      rfl⟩

theorem taken_grows (P : Numbering) (cs ds : List Call) : P.taken cs <+: P.taken (cs ++ ds) := by
  induction ds using list_snoc_induction with
  | h0 => simp
  | hs ds d ih =>
    refine ih.trans ?_
    rw [← List.append_assoc]
    generalize cs ++ ds = es
    unfold Numbering.taken
    rw [List.foldl_append]
    simp only [List.foldl_cons, List.foldl_nil]
    split
    · exact List.prefix_append _ _
    · exact List.prefix_rfl

/-- At each moment the numbers on the line rise, and all numbers come up after some time. -/
def LiveLine (f : Nat → Call) (C : Collection) (fed : Nat → List Byte) : Prop :=
  (∀ n, ∃ N, RisingLine f N C (fed n)) ∧
  ∀ N, ∃ (n : Nat) (us : List Retried) (l : List Nat), (∀ u ∈ us, u.Fit C) ∧ Rising l ∧ N ≤ risen l ∧
    us.map (fun u => meaning C u.m) = l.map f ∧ retriedLine C.envelope us <+: fed n

/-- The line from such a sender. -/
theorem insists_live {P : Numbering} (hD : ∀ i, Steadfast P.C (P.data i)) {X : ThrowTx σ} {log : σ → List Byte}
    (H : Honest X log) {st : Nat → σ} (hx : InsistsForever X P.data st) (h0 : log (st 0) = []) {fed : Nat → List Byte}
    (hsome : ∀ n, ∃ N, fed n <+: log (st N)) (hall : ∀ N, ∃ n, log (st N) <+: fed n) :
    LiveLine (fun i => (P.data i).call) P.C fed := by
  have line : ∀ N, ∃ us : List Retried, (∀ u ∈ us, u.Fit P.C) ∧
      us.map (fun u => meaning P.C u.m) = (List.range N).map (fun i => (P.data i).call) ∧
      log (st N) = retriedLine P.C.envelope us := by
    intro N
    obtain ⟨rs, h1, rfl, h3⟩ := hx.first N
    obtain ⟨hst, hc⟩ := numbered_steadfast hD h3
    obtain ⟨us, hfit, hm, _, hl⟩ := insists_line H (r := P.data 0) (k := 0) ⟨_, h1, rfl⟩ h0 hst (fun h => absurd h (by omega))
    rw [if_pos rfl, List.append_nil, hc] at hm
    exact ⟨us, hfit, hm, hl rfl⟩
  refine ⟨fun n => ?_, fun N => ?_⟩
  · obtain ⟨N, hN⟩ := hsome n
    obtain ⟨us, hfit, hm, hl⟩ := line N
    exact ⟨N, us, List.range N, hfit, (range_rising N).1, by rw [(range_rising N).2]; omega, hm, by rw [← hl]; exact hN⟩
  · obtain ⟨us, hfit, hm, hl⟩ := line N
    obtain ⟨n, hn⟩ := hall N
    exact ⟨n, us, List.range N, hfit, (range_rising N).1, by rw [(range_rising N).2]; omega, hm, by rw [← hl]; exact hn⟩

/-- What the receiver has taken at each moment, and that each message will be among it, if all that has come in is handled
at some time. -/
theorem live_taken {P : Numbering} (hP : P.Ok) (S : Setting C B user) {ops : Nat → Op} (E : Execution C B user fuel ops)
    (hlive : ∀ {n : Nat} {ms : List Msg} {r : List Byte}, Decodes C (E.state n).fed ms r →
      ∃ N, ∀ k, N ≤ k → ms.map (meaning C) <+: finished B user fuel C ops k)
    (hl : LiveLine (fun i => (P.data i).call) C fun n => (E.state n).fed) :
    (∀ n, ∃ a b, a ≤ b ∧ P.taken (finished B user fuel C ops n) = (List.range a).map (fun i => (P.data i).call) ∧
      P.taken (delivered (E.state n)) = (List.range b).map fun i => (P.data i).call) ∧
    ∀ i, ∃ n, ∀ k, n ≤ k → (P.taken (finished B user fuel C ops k))[i]? = some (P.data i).call ∧
      (P.taken (delivered (E.state k)))[i]? = some (P.data i).call := by
  have safe : ∀ n, ∃ a b, a ≤ b ∧ P.taken (finished B user fuel C ops n) = (List.range a).map (fun i => (P.data i).call) ∧
      P.taken (delivered (E.state n)) = (List.range b).map fun i => (P.data i).call := by
    intro n
    obtain ⟨N, us, l0, hfit, hr0, _, hm, hfed⟩ := hl.1 n
    obtain ⟨ps, j, m, h1, h2, h3, _⟩ := C95_attempts S (E.reached n)
    obtain ⟨l, l', g1, g2, g3, g4, g5, _⟩ := rising_handled S (E.reached n) hfit hr0 hm hfed h1 h2 h3
    exact ⟨risen l, risen l', g5, by unfold finished; rw [g3, hP.taken_eq g1], by rw [g4, hP.taken_eq g2]⟩
  refine ⟨safe, fun i => ?_⟩
  obtain ⟨n, us, l0, hfit, hr0, hi, hm, t, ht⟩ := hl.2 (i + 1)
  obtain ⟨es, r, hd⟩ := decodes_exists C t
  have hd' : Decodes C (E.state n).fed (retriedMsgs C.envelope us ++ es) r := by
    rw [show (E.state n).fed = retriedLine C.envelope us ++ t from ht.symm]
    have h1 := (decodes_retried hfit).1.append t
    rw [List.nil_append] at h1
    exact ⟨h1.trans hd.1, hd.2⟩
  obtain ⟨K, hK⟩ := hlive hd'
  obtain ⟨l, hl1, hl2, hl3⟩ := copies_rising hr0 hm
  refine ⟨K, fun k hk => ?_⟩
  obtain ⟨q, hq⟩ := hK k hk
  obtain ⟨a, b, hab, ha, hb⟩ := safe k
  have hlen : i + 1 ≤ a := by
    have h1 := (taken_grows P (l.map fun i => (P.data i).call) (es.map (meaning C) ++ q)).length_le
    rw [← List.append_assoc, ← hl1, ← List.map_append, hq, hl1, hP.taken_eq hl2, ha, hl3] at h1
    have : risen l0 ≤ a := by simpa using h1
    omega
  rw [ha, hb]
  constructor
  · rw [List.getElem?_map, List.getElem?_range (by omega)]
    rfl
  · rw [List.getElem?_map, List.getElem?_range (by omega)]
    rfl

/-- C145. A program sends numbered messages forever, each of them until `send` returns, over a transmitter that may throw anywhere;
the receiver runs forever, too, and its handlers may throw. At each moment it has taken the first so many messages, once each and
in order. If again and again some call of `processMessages` is not left by an exception, it takes each message after some
number of calls. -/
theorem C145_forever {P : Numbering} (hP : P.Ok) (hD : ∀ i, Steadfast P.C (P.data i)) {X : ThrowTx σ} {log : σ → List Byte}
    (H : Honest X log) {st : Nat → σ} (hx : InsistsForever X P.data st) (h0 : log (st 0) = []) (S : Setting P.C B user)
    {ops : Nat → Op} (E : Execution P.C B user fuel ops) (hp : ReturnsForever E)
    (hsome : ∀ n, ∃ N, (E.state n).fed <+: log (st N)) (hall : ∀ N, ∃ n, log (st N) <+: (E.state n).fed) :
    (∀ n, ∃ a b, a ≤ b ∧ P.taken (finished B user fuel P.C ops n) = (List.range a).map (fun i => (P.data i).call) ∧
      P.taken (delivered (E.state n)) = (List.range b).map fun i => (P.data i).call) ∧
    ∀ i, ∃ n, ∀ k, n ≤ k → (P.taken (finished B user fuel P.C ops k))[i]? = some (P.data i).call ∧
      (P.taken (delivered (E.state k)))[i]? = some (P.data i).call :=
  live_taken hP S E (fun hd => C139_live S E hp hd) (insists_live hD H hx h0 hsome hall)

/-- C145. The same if `processMessages` is called again and again, and handlers throw at most `T` times in a row for the same
message. -/
theorem C145_patient {P : Numbering} (hP : P.Ok) (hD : ∀ i, Steadfast P.C (P.data i)) {X : ThrowTx σ} {log : σ → List Byte}
    (H : Honest X log) {st : Nat → σ} (hx : InsistsForever X P.data st) (h0 : log (st 0) = []) (S : Setting P.C B user) {T : Nat}
    (hT : Relents user T) {ops : Nat → Op} (E : Execution P.C B user fuel ops) (hp : PollsForever E)
    (hsome : ∀ n, ∃ N, (E.state n).fed <+: log (st N)) (hall : ∀ N, ∃ n, log (st N) <+: (E.state n).fed) :
    (∀ n, ∃ a b, a ≤ b ∧ P.taken (finished B user fuel P.C ops n) = (List.range a).map (fun i => (P.data i).call) ∧
      P.taken (delivered (E.state n)) = (List.range b).map fun i => (P.data i).call) ∧
    ∀ i, ∃ n, ∀ k, n ≤ k → (P.taken (finished B user fuel P.C ops k))[i]? = some (P.data i).call ∧
      (P.taken (delivered (E.state k)))[i]? = some (P.data i).call :=
  live_taken hP S E (fun hd => C139_patient S hT E hp hd) (insists_live hD H hx h0 hsome hall)

/-! ### Any number of gateways -/

/-- A program that runs forever. -/
structure Runner where
  C : Collection
  B : Build
  user : UserCode
  fuel : Nat
  ops : Nat → Op
  run : Execution C B user fuel ops

/-- What it is after so many calls. -/
def Runner.after (x : Runner) (n : Nat) : Station :=
  ⟨x.C, x.B, x.user, x.fuel, firstCalls x.ops n, x.run.state n, x.run.observed n⟩

/-- It keeps the rules, has handlers that see all messages, and again and again one of its calls of `processMessages` is not left by an
exception, or it polls again and again and its handlers throw at most so many times in a row for the same message. -/
structure Runner.Keeps (x : Runner) : Prop where
  setting : Setting x.C x.B x.user
  ids : x.C.messages.length ≤ 255
  sees : ∀ n, ∀ i ∈ (x.run.state n).trace, userCall i ≠ none
  returns : ReturnsForever x.run ∨ PollsForever x.run ∧ ∃ T, Relents x.user T

/-- All that has come in is handled at some time. -/
theorem Runner.Keeps.live {x : Runner} (h : x.Keeps) {n : Nat} {ms : List Msg} {r : List Byte}
    (hd : Decodes x.C (x.run.state n).fed ms r) :
    ∃ N, ∀ k, N ≤ k → ms.map (meaning x.C) <+: finished x.B x.user x.fuel x.C x.ops k := by
  rcases h.returns with hp | ⟨hp, T, hT⟩
  · exact C139_live h.setting x.run hp hd
  · exact C139_patient h.setting hT x.run hp hd

theorem Runner.Keeps.going {x : Runner} (h : x.Keeps) (n : Nat) : (x.after n).Going :=
  ⟨h.setting, x.run.reached n, h.ids, h.sees n⟩

/-- The handler of the first program sends to the second what it can, over a transmitter that may throw anywhere. What it sends
arrives after some time. -/
def SendsOn (x y : Runner) : Prop :=
  ∃ (σ : Type) (X : ThrowTx σ) (log : σ → List Byte) (s0 : σ), Honest X log ∧ log s0 = [] ∧ Relays X y.C s0 x.user ∧
    (∀ n, ∃ N, (y.run.state n).fed <+: log (relayAll X y.C s0 (delivered (x.run.state N))).1) ∧
    ∀ N, ∃ n, log (relayAll X y.C s0 (delivered (x.run.state N))).1 <+: (y.run.state n).fed

/-- Programs one behind the other, forever. -/
inductive EndlessRoute : List Runner → Prop where
  | one {x : Runner} (hx : x.Keeps) : EndlessRoute [x]
  | cons {x y : Runner} {xs : List Runner} (hx : x.Keeps) (hp : SendsOn x y) (hs : EndlessRoute (y :: xs)) :
      EndlessRoute (x :: y :: xs)

theorem EndlessRoute.head {x : Runner} {xs : List Runner} (h : EndlessRoute (x :: xs)) : x.Keeps := by
  cases h <;> assumption

/-- What has been insisted on stays on the line. -/
theorem insisted_stays {X : ThrowTx σ} {log : σ → List Byte} (H : Honest X log) {s s' : σ} {rs : List (Request × Nat)} {r : Request}
    {k : Nat} (hx : InsistsSoFar X s rs r k s') (hk : 0 < k → Sendable r.C r.t r.vs) :
    ∃ s1, Insists X s rs s1 ∧ log s1 <+: log s' := by
  obtain ⟨s1, h1, h2⟩ := hx
  refine ⟨s1, h1, ?_⟩
  by_cases hk0 : k = 0
  · subst hk0
    simp only [List.replicate_zero, sendEach, Option.some.injEq, Except.ok.injEq, Prod.mk.injEq, and_true] at h2
    rw [h2]
    exact List.prefix_rfl
  · obtain ⟨qs, _, e, _⟩ := throws_only H (hk (by omega)) k h2
    exact ⟨_, e.symm⟩

/-- If the line to a program is of this kind, so is the one to the next. -/
theorem live_next {P : Numbering} (hP : P.Ok) {x y : Runner} (hx : x.Keeps) (hy : y.Keeps) (hp : SendsOn x y)
    (hl : LiveLine (fun i => (P.data i).call) x.C fun n => (x.run.state n).fed)
    (hf : PassedBy (fun i => (P.data i).call) y.C) :
    LiveLine (fun i => (P.data i).call) y.C fun n => (y.run.state n).fed := by
  obtain ⟨σ, X, log, s0, H, h0, hr, hsome, hall⟩ := hp
  refine ⟨fun n => ?_, fun N => ?_⟩
  · obtain ⟨N, hN⟩ := hsome n
    obtain ⟨M, hM⟩ := hl.1 N
    obtain ⟨l, l', _, _, _, _, _, _, h⟩ := rises_next (x := x.after N) (y := y.after n) (hx.going N) (hy.going n)
      ⟨σ, X, log, s0, H, h0, hr, hN⟩ hM hf
    exact ⟨risen l', h⟩
  · -- a moment at which this many messages have been handled to the end
    obtain ⟨k, l, hrl, hN, hfin⟩ : ∃ (k : Nat) (l : List Nat), Rising l ∧ N ≤ risen l ∧
        (x.after k).finished = l.map fun i => (P.data i).call := by
      obtain ⟨n, hn⟩ := (live_taken hP hx.setting x.run (fun hd => hx.live hd) hl).2 N
      obtain ⟨M, hM⟩ := hl.1 n
      obtain ⟨l, l', g1, _, g3, _⟩ := rises_here (x := x.after n) (hx.going n) hM
      refine ⟨n, l, g1, ?_, g3⟩
      have h1 := (hn n (Nat.le_refl n)).1
      have e : finished x.B x.user x.fuel x.C x.ops n = l.map fun i => (P.data i).call := g3
      rw [e, hP.taken_eq g1] at h1
      obtain ⟨h2, _⟩ := List.getElem?_eq_some_iff.1 h1
      simp only [List.length_map, List.length_range] at h2
      omega
    have hg := hx.going k
    obtain ⟨ps, j, m, rs, r, t, _, _, h3, h4, h5, h6⟩ :=
      gateway_pending (X := X) (s0 := s0) hy.ids hr hg.setting hg.reached hg.sees
    obtain ⟨s1, hi, hs1⟩ := insisted_stays H h5 fun ht => by
      obtain ⟨e, er⟩ := h6 ht
      rcases h3 with h3 | ⟨him, _⟩
      · omega
      · have hgood := (relayed_good hy.ids him er).1
        rw [hgood.1]
        exact hgood.2.1
    have hmsg : ∀ c ∈ l.map (fun i => (P.data i).call), ∃ m, IsMsg x.C m ∧ c = meaning x.C m := by
      rw [← hfin]
      exact fun c hc => completed_isMsg hg.setting hg.reached hc
    have h4' : rs.map (·.1) = (l.map fun i => (P.data i).call).filterMap (relayed y.C) := by
      rw [← hfin]
      exact h4
    have hcalls : rs.map (·.1.call) = l.map fun i => (P.data i).call := by
      have := congrArg (List.map Request.call) h4'
      rw [all_passed hf hy.ids hmsg, List.map_map] at this
      exact this
    obtain ⟨us, v1, v2, _, v4⟩ := insists_line H (C := y.C) (r := P.data 0) (k := 0) ⟨_, hi, rfl⟩ h0 (fun q hq => by
      have : q.1 ∈ rs.map (·.1) := List.mem_map.2 ⟨q, hq, rfl⟩
      rw [h4'] at this
      obtain ⟨c, hc, e⟩ := List.mem_filterMap.1 this
      obtain ⟨m', hm', ec⟩ := hmsg c hc
      obtain ⟨i, _, rfl⟩ := List.mem_map.1 hc
      exact (passed_steadfast hf hy.ids hm' ec.symm e).1) (fun h => absurd h (by omega))
    obtain ⟨n, hn⟩ := hall k
    exact ⟨n, us, l, v1, hrl, hN, by rw [v2, hcalls, if_pos rfl, List.append_nil], by
      rw [← v4 rfl]
      exact hs1.trans hn⟩

/-- C145, over gateways. Any number of programs pass the messages on, one to the next, with handlers that throw when `send` has
thrown. If in each of them again and again some call of `processMessages` is not left by an exception, or `processMessages` is called
again and again and handlers throw at most so many times in a row for the same message, each of them takes every message after
some number of calls, and has at each moment taken the first so many, once each and in order. -/
theorem C145_route {P : Numbering} (hP : P.Ok) (hD : ∀ i, Steadfast P.C (P.data i)) {X : ThrowTx σ} {log : σ → List Byte}
    (H : Honest X log) {st : Nat → σ} (hx : InsistsForever X P.data st) (h0 : log (st 0) = []) {x : Runner} {xs : List Runner}
    (h : EndlessRoute (x :: xs)) (hC : x.C = P.C) (hsome : ∀ n, ∃ N, (x.run.state n).fed <+: log (st N))
    (hall : ∀ N, ∃ n, log (st N) <+: (x.run.state n).fed) (hf : ∀ y ∈ xs, PassedBy (fun i => (P.data i).call) y.C) :
    ∀ z ∈ x :: xs,
      (∀ n, ∃ a b, a ≤ b ∧ P.taken (finished z.B z.user z.fuel z.C z.ops n) = (List.range a).map (fun i => (P.data i).call) ∧
        P.taken (delivered (z.run.state n)) = (List.range b).map fun i => (P.data i).call) ∧
      ∀ i, ∃ n, ∀ k, n ≤ k → (P.taken (finished z.B z.user z.fuel z.C z.ops k))[i]? = some (P.data i).call ∧
        (P.taken (delivered (z.run.state k)))[i]? = some (P.data i).call := by
  have hl : LiveLine (fun i => (P.data i).call) x.C fun n => (x.run.state n).fed := by
    have := insists_live hD H hx h0 hsome hall
    generalize (fun n => (x.run.state n).fed) = fed at this ⊢
    rw [hC]
    exact this
  clear hsome hall hC
  induction xs generalizing x with
  | nil =>
    intro z hz
    rw [List.mem_singleton.1 hz]
    exact live_taken hP h.head.setting x.run (fun hd => h.head.live hd) hl
  | cons y xs ih =>
    intro z hz
    rcases List.mem_cons.1 hz with rfl | hz
    · exact live_taken hP h.head.setting z.run (fun hd => h.head.live hd) hl
    · cases h with
      | cons hx' hp hs =>
        exact ih hs (fun z hz => hf z (by simp [hz])) (live_next hP hx' hs.head hp hl (hf y (by simp))) z hz

/-! ### An example -/

/-- A transmitter whose `outputFinished` throws at every other call, the first one included. -/
def hiccup : ThrowTx (List Byte × Bool) where
  writeByte s v := ((s.1 ++ [v], s.2), false)
  write s data := ((s.1 ++ data, s.2), false)
  writeFinished s := ((s.1, !s.2), !s.2)

theorem hiccup_honest : Honest hiccup (·.1) where
  done s o h := by cases o <;> simp [throwOn, hiccup, Out.bytes]
  cut s o h := by
    cases o with
    | byte v => simp [throwOn, hiccup] at h
    | block d => simp [throwOn, hiccup] at h
    | finished => exact ⟨[], List.nil_prefix, by simp [throwOn, hiccup]⟩

theorem hiccup_feed (b : Bool) : ∀ (os : List Out) (l : List Byte), .finished ∉ os →
    feed hiccup.tx ((l, b), false) (os ++ [.finished]) = .ok ((l ++ outBytes os, !b), !b) := by
  intro os
  induction os with
  | nil => intro l _; simp [feed, on_tx, throwOn, hiccup, outBytes]
  | cons o os ih =>
    intro l h
    have ho : throwOn hiccup (l, b) o = ((l ++ o.bytes, b), false) := by
      cases o with
      | byte v => rfl
      | block d => rfl
      | finished => simp at h
    rw [List.cons_append, feed, on_tx, ho]
    simp only
    rw [ih _ (fun hm => h (by simp [hm]))]
    simp [outBytes]

theorem hiccup_send (b : Bool) (l : List Byte) {v : Byte} (hv : v = 0 ∨ v = 1) :
    sendCaught Sample.checked Sample.level hiccup (l, b) [⟨.uint8, [v]⟩] =
      some (.ok ((l ++ frame .basicChecksum ⟨1, [v]⟩, !b), !b)) := by
  have hs : Sendable Sample.checked Sample.level [⟨.uint8, [v]⟩] := by rcases hv with rfl | rfl <;> decide +kernel
  have e1 : script Sample.checked.envelope (UInt8.ofNat (Sample.checked.messages.idxOf Sample.level)) [⟨.uint8, [v]⟩] =
      (frame .basicChecksum ⟨1, [v]⟩).map Out.byte ++ [.finished] := by rcases hv with rfl | rfl <;> decide +kernel
  have e2 : outBytes ((frame .basicChecksum ⟨1, [v]⟩).map Out.byte) = frame .basicChecksum ⟨1, [v]⟩ := by
    rcases hv with rfl | rfl <;> decide +kernel
  rw [sendCaught, send_eq _ _ _ _ _ hs (idOf_idxOf hs.1 hs.2.1), e1, hiccup_feed b _ _ (by simp), e2]

theorem hiccup_one (l : List Byte) (n : Nat) : Insists hiccup (l, false) [(twoNumbers.data n, 1)]
    (l ++ frame .basicChecksum ⟨1, [UInt8.ofNat (n % 2)]⟩ ++ frame .basicChecksum ⟨1, [UInt8.ofNat (n % 2)]⟩, false) := by
  have hv : UInt8.ofNat (n % 2) = 0 ∨ UInt8.ofNat (n % 2) = 1 := by
    rcases Nat.mod_two_eq_zero_or_one n with h | h <;> rw [h] <;> decide
  refine .cons (s1 := (l ++ frame .basicChecksum ⟨1, [UInt8.ofNat (n % 2)]⟩ ++
    frame .basicChecksum ⟨1, [UInt8.ofNat (n % 2)]⟩, false)) ?_ (.nil _)
  show sendEach hiccup (l, false) [⟨Sample.checked, Sample.level, [⟨.uint8, [UInt8.ofNat (n % 2)]⟩]⟩,
    ⟨Sample.checked, Sample.level, [⟨.uint8, [UInt8.ofNat (n % 2)]⟩]⟩] = _
  simp only [sendEach, hiccup_send _ _ hv]
  rfl

/-- The messages on the line: each one twice. -/
def doubled (i : Nat) : Msg := ⟨1, [UInt8.ofNat (i / 2 % 2)]⟩

/-- The states of the transmitter. -/
def hiccups (n : Nat) : List Byte × Bool := (frames .basicChecksum ((List.range (2 * n)).map doubled), false)

theorem hiccups_insist : InsistsForever hiccup twoNumbers.data hiccups := by
  intro n
  refine ⟨1, ?_⟩
  have e : hiccups (n + 1) = ((hiccups n).1 ++ frame .basicChecksum ⟨1, [UInt8.ofNat (n % 2)]⟩ ++
      frame .basicChecksum ⟨1, [UInt8.ofNat (n % 2)]⟩, false) := by
    unfold hiccups
    rw [show 2 * (n + 1) = 2 * n + 1 + 1 by omega, List.range_succ, List.range_succ, List.map_append, List.map_append,
      frames_append, frames_append]
    have e1 : doubled (2 * n) = ⟨1, [UInt8.ofNat (n % 2)]⟩ := by
      unfold doubled
      rw [show 2 * n / 2 = n by omega]
    have e2 : doubled (2 * n + 1) = ⟨1, [UInt8.ofNat (n % 2)]⟩ := by
      unfold doubled
      rw [show (2 * n + 1) / 2 = n by omega]
    simp [frames, e1, e2]
  rw [e]
  exact hiccup_one _ n

/-- An endless program that gets such messages. -/
theorem moody_forever {msgs : Nat → Msg} (hm : ∀ i, IsMsg Sample.checked (msgs i)) :
    ∃ E : Execution Sample.checked Sample.dbg moody 100 (loopTwice Sample.checked.envelope Sample.h0 msgs), ReturnsForever E ∧
      ∀ n, (E.state (3 * n + 1)).fed = frames Sample.checked.envelope ((List.range n).map msgs) := by
  have hex : ∀ n, ∃ x : World Sample.checked × List Obs,
      Reached Sample.dbg moody 100 (firstCalls (loopTwice Sample.checked.envelope Sample.h0 msgs) n) x.1 x.2 := by
    intro n
    obtain ⟨w, _, os, hr, _⟩ := loopTwice_rounds hm n
    rw [show 3 * n + 1 = n + (2 * n + 1) by omega, firstCalls_add] at hr
    obtain ⟨w1, os1, _, e1, _⟩ := TT.run_append hr.run
    exact ⟨(w1, os1), hr.legal.of_append, e1⟩
  let E : Execution Sample.checked Sample.dbg moody 100 (loopTwice Sample.checked.envelope Sample.h0 msgs) :=
    ⟨fun n => (Classical.choose (hex n)).1, fun n => (Classical.choose (hex n)).2, fun n => Classical.choose_spec (hex n)⟩
  have hE : ∀ n, (E.state (3 * n + 1)).rx.hasHandler = true ∧
      (E.state (3 * n + 1)).fed = frames Sample.checked.envelope ((List.range n).map msgs) ∧
      (n ≠ 0 → ∃ os', E.observed (3 * n + 1) = os' ++ [.processed (.returned 1)]) := by
    intro n
    obtain ⟨w, s, os, hr, ha, hs, hf, ho⟩ := loopTwice_rounds hm n
    have := (E.reached (3 * n + 1)).run
    rw [hr.run] at this
    simp only [Except.ok.injEq, Prod.mk.injEq] at this
    rw [← this.1, ← this.2, ha.hasHandler, hs.handler]
    exact ⟨rfl, hf, ho⟩
  refine ⟨E, fun n => ⟨3 * n + 3, 1, by omega, ?_, (hE (n + 1)).1, ?_⟩, fun n => (hE n).2.1⟩
  · show (if (3 * n + 2) % 3 = 0 then _ else _) = _
    rw [if_neg (by omega)]
  · obtain ⟨os', e⟩ := (hE (n + 1)).2.2 (by omega)
    obtain ⟨_, _, _, _, o, _, _, _, _, _, _, e2, _⟩ := stage moody_setting E (3 * n + 3)
    rw [e2]
    rw [show 3 * (n + 1) + 1 = 3 * n + 3 + 1 by omega, e2] at e
    rw [(List.append_inj' e rfl).2]

/-- The hypotheses can be met: `outputFinished` throws at the first attempt at each message, so each one arrives twice, and the
handler is called twice for each of these. The eighth message, to take one of them, is taken. -/
example : ∃ E : Execution Sample.checked Sample.dbg moody 100 (loopTwice Sample.checked.envelope Sample.h0 doubled),
    ReturnsForever E ∧ PollsForever E ∧ Relents moody 1 ∧ (∀ n, ∃ N, (E.state n).fed <+: (hiccups N).1) ∧
    (∀ N, ∃ n, (hiccups N).1 <+: (E.state n).fed) ∧
    ∃ n, ∀ k, n ≤ k → (twoNumbers.taken (finished Sample.dbg moody 100 Sample.checked
      (loopTwice Sample.checked.envelope Sample.h0 doubled) k))[7]? = some (Sample.level, [[1]]) := by
  have hm : ∀ i, IsMsg Sample.checked (doubled i) := fun _ => ⟨Sample.level, by show typeOf Sample.checked 1 = _; decide, rfl⟩
  obtain ⟨E, hret, hfed⟩ := moody_forever hm
  have h1 : ∀ n, ∃ N, (E.state n).fed <+: (hiccups N).1 := by
    intro n
    refine ⟨n, (fed_grows moody_setting E (show n ≤ 3 * (2 * n) + 1 by omega)).trans ?_⟩
    rw [hfed]
    exact List.prefix_rfl
  have h2 : ∀ N, ∃ n, (hiccups N).1 <+: (E.state n).fed := by
    intro N
    refine ⟨3 * (2 * N) + 1, ?_⟩
    rw [hfed]
    exact List.prefix_rfl
  obtain ⟨_, hl⟩ := C145_forever twoNumbers_ok twoNumbers_steadfast hiccup_honest hiccups_insist rfl moody_setting E hret h1 h2
  obtain ⟨n, hn⟩ := hl 7
  exact ⟨E, hret, fun n => by
    obtain ⟨k, _, a1, a2, a3, _⟩ := hret n
    exact ⟨k, a1, a2, a3⟩, moody_relents, h1, h2, n, fun k hk => (hn k hk).1⟩

/-- A transmitter that never throws. -/
def calmTx : ThrowTx (List Byte) where
  writeByte s v := (s ++ [v], false)
  write s data := (s ++ data, false)
  writeFinished s := (s, false)

theorem calmTx_on (s : List Byte) (o : Out) : throwOn calmTx s o = (s ++ o.bytes, false) := by
  cases o <;> simp [throwOn, calmTx, Out.bytes]

theorem calmTx_honest : Honest calmTx id where
  done s o _ := by rw [calmTx_on]; rfl
  cut s o h := by simp [calmTx_on] at h

theorem calmTx_feed : ∀ (os : List Out) (l : List Byte), feed calmTx.tx (l, false) os = .ok (l ++ outBytes os, false) := by
  intro os
  induction os with
  | nil => intro l; simp [feed, outBytes]
  | cons o os ih =>
    intro l
    rw [feed, on_tx, calmTx_on]
    simp only
    rw [ih]
    simp [outBytes]

theorem calmTx_send (C : Collection) (t : MsgType) (vs : List Value) (hs : Sendable C t vs) (l : List Byte) :
    sendCaught C t calmTx l vs = some (.ok (l ++ wire C t vs, false)) := by
  rw [sendCaught, send_eq _ _ _ _ _ hs (idOf_idxOf hs.1 hs.2.1), calmTx_feed, outBytes_script]
  rfl

theorem calmTx_relayOne (hl : D.messages.length ≤ 255) (c : Call) :
    ∃ b, ∀ l, relayOne calmTx D l c = (l ++ b, false) := by
  unfold relayOne
  cases e : relayed D c with
  | none => exact ⟨[], fun l => by simp⟩
  | some r =>
    simp only
    by_cases hs : Sendable r.C r.t r.vs
    · exact ⟨wire r.C r.t r.vs, fun l => by rw [calmTx_send _ _ _ hs]⟩
    · refine ⟨[], fun l => ?_⟩
      have : sendCaught r.C r.t calmTx l r.vs = none := by
        unfold relayed at e
        split at e
        · rename_i hm
          simp only [Option.some.injEq] at e
          subst e
          unfold sendCaught send
          rw [if_neg]
          intro h
          simp only [Bool.and_eq_true, contentsMatch, decide_eq_true_eq] at h
          exact hs ⟨hl, hm, h.2⟩
        · cases e
      rw [this]
      simp

theorem calmTx_relayAll (hl : D.messages.length ≤ 255) : ∀ (cs : List Call) (l : List Byte), l <+: (relayAll calmTx D l cs).1 := by
  intro cs
  induction cs with
  | nil => exact fun l => List.prefix_rfl
  | cons c cs ih =>
    intro l
    obtain ⟨b, hb⟩ := calmTx_relayOne hl c
    refine List.IsPrefix.trans ?_ (ih _)
    rw [hb]
    exact List.prefix_append _ _

theorem calmTx_relays (hl : D.messages.length ≤ 255) (s : List Byte) : Relays calmTx D s Sample.passive := by
  intro calls call free
  obtain ⟨b, hb⟩ := calmTx_relayOne hl (call.msg, call.args)
  rw [hb]
  rfl

theorem calmTx_doubled (i : Nat) (l : List Byte) :
    relayOne calmTx Sample.checked l (meaning Sample.checked (doubled i)) = (l ++ frame .basicChecksum (doubled i), false) := by
  unfold doubled
  rcases Nat.mod_two_eq_zero_or_one (i / 2) with h | h
  · rw [h, show relayOne calmTx Sample.checked l (meaning Sample.checked ⟨1, [UInt8.ofNat 0]⟩) =
      match sendCaught Sample.checked Sample.level calmTx l [⟨.uint8, [0]⟩] with
        | some (.ok v) => v
        | _ => (l, false) from rfl, calmTx_send _ _ _ (by decide +kernel)]
    rfl
  · rw [h, show relayOne calmTx Sample.checked l (meaning Sample.checked ⟨1, [UInt8.ofNat 1]⟩) =
      match sendCaught Sample.checked Sample.level calmTx l [⟨.uint8, [1]⟩] with
        | some (.ok v) => v
        | _ => (l, false) from rfl, calmTx_send _ _ _ (by decide +kernel)]
    rfl

theorem calmTx_line (n : Nat) :
    (relayAll calmTx Sample.checked [] ((List.range n).map fun i => meaning Sample.checked (doubled i))).1 =
      frames .basicChecksum ((List.range n).map doubled) := by
  induction n with
  | zero => rfl
  | succ n ih =>
    rw [List.range_succ, List.map_append, relayAll_append, ih, List.map_append, frames_append]
    simp [relayAll, calmTx_doubled, frames]

/-- All handlers are functors, so all calls reach user code. -/
theorem exec_functors (hk : KeepsHandler user) {s s' : AState} {ops : List Op} {ms : List Msg} {os : List Obs}
    (he : Exec C user s ops ms s' os) : (∀ h, .setHandler h ∈ ops → h.kind = .functor) →
    (∀ h, s.handler = some h → h.kind = .functor) → (∀ i ∈ s.trace, i.handler.kind = .functor) →
    ∀ i ∈ s'.trace, i.handler.kind = .functor := by
  have key : ∀ {s s' : AState} {ms : List Msg} {th : Bool}, Proc C user s ms s' th →
      (∀ h, s.handler = some h → h.kind = .functor) → (∀ i ∈ s.trace, i.handler.kind = .functor) →
      (∀ h, s'.handler = some h → h.kind = .functor) ∧ ∀ i ∈ s'.trace, i.handler.kind = .functor := by
    intro s s' ms th hp h1 h2
    obtain ⟨e1, calls, e2, e3⟩ := hp.handlers hk
    refine ⟨by rw [e1]; exact h1, fun i hi => ?_⟩
    rw [e2] at hi
    rcases List.mem_append.1 hi with hi | hi
    · exact h2 i hi
    · exact h1 _ (e3 i hi)
  induction he with
  | nil => exact fun _ _ h => h
  | cons hs _ ih =>
    intro h0 h1 h2
    have h0' := fun h hh => h0 h (List.mem_cons_of_mem _ hh)
    cases hs with
    | append _ => exact ih h0' h1 h2
    | receive _ _ => exact ih h0' h1 h2
    | setHandler => exact ih h0' (fun h e => by cases e; exact h0 _ (by simp)) h2
    | clearHandler => exact ih h0' (fun h e => by cases e) h2
    | copy => exact ih h0' h1 h2
    | idle _ => exact ih h0' h1 h2
    | process _ hp => exact ih h0' (key hp h1 h2).1 (key hp h1 h2).2
    | thrown _ hp => exact ih h0' (key hp h1 h2).1 (key hp h1 h2).2

theorem functors_see (S : Setting C B user) (hk : KeepsHandler user) {ops : Nat → Op} (E : Execution C B user fuel ops)
    (ho : ∀ n h, ops n = .setHandler h → h.kind = .functor) (n : Nat) : ∀ i ∈ (E.state n).trace, userCall i ≠ none := by
  obtain ⟨s, ms, ha, he, _⟩ := completed_exec S (abs_new C) (E.reached n).legal (E.reached n).run
  intro i hi
  rw [ha.trace] at hi
  have := exec_functors hk he (fun h hh => by
    obtain ⟨j, _, e⟩ := List.mem_map.1 hh
    exact ho j h e) (fun h e => by cases e) (fun i hi => by cases hi) i hi
  simp [userCall, this]

/-- A gateway whose transmitter does not throw, between the sender above and the program whose handlers throw at every other
call. Both get every message twice; the eighth one, to take one of them, is taken by both. -/
example : ∃ x z : Runner, EndlessRoute [x, z] ∧ (∀ n, ∃ N, (x.run.state n).fed <+: (hiccups N).1) ∧
    (∀ N, ∃ n, (hiccups N).1 <+: (x.run.state n).fed) ∧
    ∀ y ∈ [x, z], ∃ n, ∀ k, n ≤ k →
      (twoNumbers.taken (finished y.B y.user y.fuel y.C y.ops k))[7]? = some (Sample.level, [[1]]) := by
  have hm : ∀ i, IsMsg Sample.checked (doubled i) := fun _ => ⟨Sample.level, by show typeOf Sample.checked 1 = _; decide, rfl⟩
  have hl : Sample.checked.messages.length ≤ 255 := by decide
  obtain ⟨E, hret, hfed⟩ := moody_forever hm
  obtain ⟨F, hpoll, ffed, fdel⟩ := C123_loop_messages (B := Sample.dbg) (fuel := 100) Sample.setting_checked
    Sample.passive_quiet Sample.passive_neverThrows (by decide) (by decide) Sample.h0 hm
  have fret : ReturnsForever F := by
    intro n
    obtain ⟨k, hk, h1, h2⟩ := hpoll n
    obtain ⟨s, s', ms, ms1, o, _, ha, _, _, _, hs, ho, _⟩ := stage Sample.setting_checked F k
    rw [h1] at hs
    cases hs with
    | idle hno =>
      rw [ha.hasHandler, hno] at h2
      cases h2
    | process _ _ => exact ⟨k, _, hk, h1, h2, ho⟩
    | thrown _ hp => exact absurd (hp.no_throw Sample.passive_neverThrows) (by decide)
  let x : Runner := ⟨_, _, _, _, _, F⟩
  let z : Runner := ⟨_, _, _, _, _, E⟩
  have hx : x.Keeps := ⟨Sample.setting_checked, hl, functors_see Sample.setting_checked Sample.passive_keepsHandler F (by
    intro n h e
    cases n with
    | zero => cases e; rfl
    | succ n =>
      simp only [loopCalls] at e
      split at e <;> cases e), .inl fret⟩
  have hz : z.Keeps := ⟨moody_setting, hl, functors_see moody_setting (fun _ _ _ => rfl) E (by
    intro n h e
    cases n with
    | zero => cases e; rfl
    | succ n =>
      simp only [loopTwice] at e
      split at e <;> cases e), .inr ⟨fun n => by
    obtain ⟨k, _, a1, a2, a3, _⟩ := hret n
    exact ⟨k, a1, a2, a3⟩, 1, moody_relents⟩⟩
  have hp : SendsOn x z := by
    refine ⟨_, calmTx, id, [], calmTx_honest, rfl, calmTx_relays hl _, fun n => ⟨2 * n + 1, ?_⟩, fun N => ⟨3 * N + 1, ?_⟩⟩
    · refine (fed_grows moody_setting E (show n ≤ 3 * n + 1 by omega)).trans ?_
      show (E.state (3 * n + 1)).fed <+: (relayAll calmTx Sample.checked [] (delivered (F.state (2 * n + 1)))).1
      rw [fdel, calmTx_line, hfed]
      exact List.prefix_rfl
    · show (relayAll calmTx Sample.checked [] (delivered (F.state N))).1 <+: (E.state (3 * N + 1)).fed
      have h1 : delivered (F.state N) <+: delivered (F.state (2 * N + 1)) :=
        (execution_later Sample.setting_checked Sample.passive_neverThrows F (show N ≤ 2 * N + 1 by omega)).2
      obtain ⟨cs, hcs⟩ := h1
      have h2 : (relayAll calmTx Sample.checked [] (delivered (F.state N))).1 <+:
          (relayAll calmTx Sample.checked [] (delivered (F.state (2 * N + 1)))).1 := by
        rw [← hcs, relayAll_append]
        exact calmTx_relayAll hl _ _
      rw [fdel, calmTx_line] at h2
      rw [hfed]
      exact h2
  have h1 : ∀ n, ∃ N, (x.run.state n).fed <+: (hiccups N).1 := by
    intro n
    refine ⟨n, (fed_grows Sample.setting_checked F (show n ≤ 2 * (2 * n) + 1 by omega)).trans ?_⟩
    rw [ffed]
    exact List.prefix_rfl
  have h2 : ∀ N, ∃ n, (hiccups N).1 <+: (x.run.state n).fed := by
    intro N
    refine ⟨2 * (2 * N) + 1, ?_⟩
    show _ <+: (F.state _).fed
    rw [ffed]
    exact List.prefix_rfl
  have hr : EndlessRoute [x, z] := .cons hx hp (.one hz)
  have hpass : PassedBy (fun i => (twoNumbers.data i).call) Sample.checked := by
    intro i
    refine ⟨by show Sample.level ∈ _; decide, fun r hr => ?_⟩
    have : r = twoNumbers.data i := (Option.some.inj hr).symm
    rw [this]
    exact (twoNumbers_steadfast i).2
  refine ⟨x, z, hr, h1, h2, fun y hy => ?_⟩
  obtain ⟨n, hn⟩ := (C145_route twoNumbers_ok twoNumbers_steadfast hiccup_honest hiccups_insist rfl hr rfl h1 h2
    (fun y hy => by rw [List.mem_singleton.1 hy]; exact hpass) y hy).2 7
  exact ⟨n, fun k hk => (hn k hk).1⟩

end TT.Properties
