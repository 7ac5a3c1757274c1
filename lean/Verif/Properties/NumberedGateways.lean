import Verif.Properties.NumberedRetries

/-!
# Property C144: numbered messages over gateways, whatever throws

The gateways of C133 and C134, with transmitters that may also throw after the last byte, and the numbers of C143.
-/

namespace TT.Properties
open Spec

variable {C D : Collection} {B : Build} {user : UserCode} {fuel : Nat} {σ : Type}

/-! ### Programs one behind the other -/

/-- The handler of the first program sends to the second what it can, over a transmitter that may throw anywhere. Some of it has
arrived at the second. -/
def LeadsTo (x y : Station) : Prop :=
  ∃ (σ : Type) (X : ThrowTx σ) (log : σ → List Byte) (s0 : σ), Honest X log ∧ log s0 = [] ∧
    Relays X y.C s0 x.user ∧ y.w.fed <+: log (relayAll X y.C s0 (delivered x.w)).1

/-- Programs one behind the other, at any time. -/
inductive LeadingRoute : List Station → Prop where
  | one {x : Station} (hx : x.Going) : LeadingRoute [x]
  | cons {x y : Station} {xs : List Station} (hx : x.Going) (hp : LeadsTo x y) (hs : LeadingRoute (y :: xs)) :
      LeadingRoute (x :: y :: xs)

theorem LeadingRoute.head {x : Station} {xs : List Station} (h : LeadingRoute (x :: xs)) : x.Going := by
  cases h <;> assumption

/-- The same, and everything has arrived. -/
def LedTo (x y : Station) : Prop :=
  ∃ (σ : Type) (X : ThrowTx σ) (log : σ → List Byte) (s0 : σ), Honest X log ∧ log s0 = [] ∧
    Relays X y.C s0 x.user ∧ y.w.fed = log (relayAll X y.C s0 (delivered x.w)).1

/-- Programs one behind the other, when all have come to an end. -/
inductive LedRoute : List Station → Prop where
  | one {x : Station} (hx : x.Returned) : LedRoute [x]
  | cons {x y : Station} {xs : List Station} (hx : x.Returned) (hp : LedTo x y) (hs : LedRoute (y :: xs)) :
      LedRoute (x :: y :: xs)

theorem LedRoute.head {x : Station} {xs : List Station} (h : LedRoute (x :: xs)) : x.Returned := by
  cases h <;> assumption

/-! ### Numbers on the lines -/

/-- On the line are attempts at messages whose numbers rise up to `n`. -/
def RisingLine (f : Nat → Call) (n : Nat) (C : Collection) (bytes : List Byte) : Prop :=
  ∃ (us : List Retried) (l : List Nat), (∀ u ∈ us, u.Fit C) ∧ Rising l ∧ risen l ≤ n ∧
    us.map (fun u => meaning C u.m) = l.map f ∧ bytes <+: retriedLine C.envelope us

/-- The same, all of it. -/
def RisenLine (f : Nat → Call) (n : Nat) (C : Collection) (bytes : List Byte) : Prop :=
  ∃ (us : List Retried) (l : List Nat), (∀ u ∈ us, u.Fit C) ∧ Rising l ∧ risen l = n ∧
    us.map (fun u => meaning C u.m) = l.map f ∧ bytes = retriedLine C.envelope us

/-- All messages can be passed on to `D`, and sent there again and again. -/
def PassedBy (f : Nat → Call) (D : Collection) : Prop := ∀ i, (f i).1 ∈ D.messages ∧ Resendable D (f i)

theorem all_passed {f : Nat → Call} (hf : PassedBy f D) (hl : D.messages.length ≤ 255) {l : List Nat}
    (hmsg : ∀ c ∈ l.map f, ∃ m, IsMsg C m ∧ c = meaning C m) :
    ((l.map f).filterMap (relayed D)).map Request.call = l.map f := by
  rw [relayed_calls hl hmsg]
  refine List.filter_eq_self.2 fun c hc => ?_
  obtain ⟨i, _, rfl⟩ := List.mem_map.1 hc
  simpa using (hf i).1

theorem passed_steadfast {f : Nat → Call} (hf : PassedBy f D) (hl : D.messages.length ≤ 255) {m : Msg} (hm : IsMsg C m) {i : Nat}
    (e : meaning C m = f i) {r : Request} (hr : relayed D (f i) = some r) : Steadfast D r ∧ r.call = f i := by
  have hr' := hr
  rw [← e] at hr'
  obtain ⟨h1, h2⟩ := relayed_good hl hm hr'
  exact ⟨⟨h1, (hf i).2 r hr⟩, by rw [h2, e]⟩

/-- A program whose line has rising numbers has handled rising numbers. -/
theorem rises_here {x : Station} (hx : x.Going) {f : Nat → Call} {n : Nat} (h : RisingLine f n x.C x.w.fed) :
    ∃ l l', Rising l ∧ Rising l' ∧ x.finished = l.map f ∧ delivered x.w = l'.map f ∧ risen l ≤ risen l' ∧ risen l' ≤ n := by
  obtain ⟨us, N, hfit, hN, hn, hm, hfed⟩ := h
  obtain ⟨ps, j, m, h1, h2, h3, _⟩ := C95_attempts hx.setting hx.reached
  obtain ⟨l, l', g1, g2, g3, g4, g5, g6, _⟩ := rising_handled hx.setting hx.reached hfit hN hm hfed h1 h2 h3
  exact ⟨l, l', g1, g2, g3, g4, g5, by omega⟩

/-- Then the numbers on the line to the next program rise, too. -/
theorem rises_next {x y : Station} (hx : x.Going) (hy : y.Going) (hp : LeadsTo x y) {f : Nat → Call} {n : Nat}
    (h : RisingLine f n x.C x.w.fed) (hf : PassedBy f y.C) :
    ∃ l l', Rising l ∧ Rising l' ∧ x.finished = l.map f ∧ delivered x.w = l'.map f ∧ risen l ≤ risen l' ∧ risen l' ≤ n ∧
      RisingLine f (risen l') y.C y.w.fed := by
  obtain ⟨us, N, hfit, hN, hn, hm, hfed⟩ := h
  obtain ⟨σ, X, log, s0, H, h0, hr, hfy⟩ := hp
  obtain ⟨ps, j, m, rs, r, k, h1, h2, h3, h4, h5, h6⟩ := gateway_pending (X := X) (s0 := s0) hy.ids hr hx.setting hx.reached hx.sees
  obtain ⟨l, l', g1, g2, g3, g4, g5, g6, g7, g8⟩ := rising_handled hx.setting hx.reached hfit hN hm hfed h1 h2 h3
  refine ⟨l, l', g1, g2, g3, g4, g5, by omega, ?_⟩
  have hmsg : ∀ c ∈ l.map f, ∃ m, IsMsg x.C m ∧ c = meaning x.C m := by
    rw [← g3]
    exact fun c hc => completed_isMsg hx.setting hx.reached hc
  rw [g3] at h4
  have hcalls : rs.map (·.1.call) = l.map f := by
    have := congrArg (List.map Request.call) h4
    rw [all_passed hf hy.ids hmsg, List.map_map] at this
    exact this
  have hpend : 0 < k → Steadfast y.C r ∧ ∃ a, r.call = f a ∧ Rising (l ++ [a]) ∧ risen (l ++ [a]) = risen l' := by
    intro hk
    obtain ⟨e, er⟩ := h6 hk
    obtain ⟨a, ea, a1, a2⟩ := g8 (by omega)
    rcases h3 with h3 | ⟨him, _⟩
    · omega
    · rw [ea] at er
      obtain ⟨b1, b2⟩ := passed_steadfast hf hy.ids him ea er
      exact ⟨b1, a, b2, a1, a2⟩
  obtain ⟨vs, v1, v2, v3, _⟩ := insists_line H h5 h0 (fun q hq => by
    have : q.1 ∈ rs.map (·.1) := List.mem_map.2 ⟨q, hq, rfl⟩
    rw [h4] at this
    obtain ⟨c, hc, e⟩ := List.mem_filterMap.1 this
    obtain ⟨m', hm', ec⟩ := hmsg c hc
    obtain ⟨i, _, rfl⟩ := List.mem_map.1 hc
    exact (passed_steadfast hf hy.ids hm' ec.symm e).1) (fun hk => (hpend hk).1)
  rw [hcalls] at v2
  by_cases hk : k = 0
  · exact ⟨vs, l, v1, g1, g5, by rw [v2, if_pos hk, List.append_nil], hfy.trans v3⟩
  · obtain ⟨_, a, ea, a1, a2⟩ := hpend (by omega)
    exact ⟨vs, l ++ [a], v1, a1, by omega, by rw [v2, if_neg hk, ea]; simp, hfy.trans v3⟩

theorem route_rises {P : Numbering} (hP : P.Ok) : ∀ {xs : List Station} {x : Station}, LeadingRoute (x :: xs) →
    ∀ {n : Nat}, RisingLine (fun i => (P.data i).call) n x.C x.w.fed → (∀ y ∈ xs, PassedBy (fun i => (P.data i).call) y.C) →
    (∀ z ∈ x :: xs, ∃ a b, a ≤ b ∧ b ≤ n ∧ P.taken z.finished = (List.range a).map (fun i => (P.data i).call) ∧
      P.taken (delivered z.w) = (List.range b).map fun i => (P.data i).call) ∧
    (x :: xs).Pairwise fun y z => P.taken (delivered z.w) <+: P.taken (delivered y.w) := by
  intro xs
  induction xs with
  | nil =>
    intro x h n hl _
    obtain ⟨l, l', h1, h2, h3, h4, h5, h6⟩ := rises_here h.head hl
    refine ⟨fun z hz => ?_, by simp⟩
    rw [List.mem_singleton.1 hz]
    exact ⟨risen l, risen l', h5, h6, by rw [h3, hP.taken_eq h1], by rw [h4, hP.taken_eq h2]⟩
  | cons y xs ih =>
    intro x h n hl hf
    cases h with
    | cons hx hp hs =>
      obtain ⟨l, l', h1, h2, h3, h4, h5, h6, h7⟩ := rises_next hx hs.head hp hl (hf y (by simp))
      obtain ⟨k1, k2⟩ := ih hs h7 fun z hz => hf z (by simp [hz])
      have ht : P.taken (delivered x.w) = (List.range (risen l')).map fun i => (P.data i).call := by rw [h4, hP.taken_eq h2]
      refine ⟨fun z hz => ?_, List.pairwise_cons.2 ⟨fun z hz => ?_, k2⟩⟩
      · rcases List.mem_cons.1 hz with rfl | hz
        · exact ⟨risen l, risen l', h5, h6, by rw [h3, hP.taken_eq h1], ht⟩
        · obtain ⟨a, b, c1, c2, c3⟩ := k1 z hz
          exact ⟨a, b, c1, by omega, c3⟩
      · obtain ⟨a, b, _, c2, _, c4⟩ := k1 z hz
        rw [c4, ht]
        obtain ⟨d, hd⟩ := Nat.exists_eq_add_of_le c2
        rw [hd, List.range_add]
        exact ⟨_, by rw [List.map_append]⟩

/-- C144, at any time. A program numbers its messages and sends each of them until `send` returns. Any number of programs pass
them on, one to the next, with handlers that throw when `send` has thrown; all transmitters may throw anywhere, also after the
last byte, so that each line may carry each message several times. Each of the programs that takes for new only what has the next
number has taken the first so many messages, once each and in order, and a program has taken no more than those before it. -/
theorem C144_any_time {P : Numbering} (hP : P.Ok) (hD : ∀ i, Steadfast P.C (P.data i)) {X : ThrowTx σ} {log : σ → List Byte}
    (H : Honest X log) {s s' : σ} {rs : List (Request × Nat)} {k : Nat} (hx : InsistsSoFar X s rs (P.data rs.length) k s')
    (h0 : log s = []) (hrs : rs.map (·.1) = (List.range rs.length).map P.data) {x : Station} {xs : List Station}
    (h : LeadingRoute (x :: xs)) (hC : x.C = P.C) (hfed : x.w.fed <+: log s')
    (hf : ∀ y ∈ xs, PassedBy (fun i => (P.data i).call) y.C) :
    (∀ z ∈ x :: xs, ∃ n n', n ≤ n' ∧ n' ≤ rs.length + 1 ∧
      P.taken z.finished = (List.range n).map (fun i => (P.data i).call) ∧
      P.taken (delivered z.w) = (List.range n').map fun i => (P.data i).call) ∧
    (x :: xs).Pairwise fun y z => P.taken (delivered z.w) <+: P.taken (delivered y.w) := by
  obtain ⟨hst, hc⟩ := numbered_steadfast hD hrs
  obtain ⟨us, hfit, hm, hl, _⟩ := insists_line H hx h0 hst (fun _ => hD _)
  refine route_rises hP h (n := rs.length + 1) ?_ hf
  generalize x.w.fed = b at hfed ⊢
  rw [hC]
  by_cases hk : k = 0
  · refine ⟨us, List.range rs.length, hfit, (range_rising _).1, ?_, by rw [hm, hc, if_pos hk, List.append_nil], hfed.trans hl⟩
    rw [(range_rising _).2]
    omega
  · refine ⟨us, List.range (rs.length + 1), hfit, (range_rising _).1, ?_, by rw [hm, hc, if_neg hk, List.range_succ]; simp,
      hfed.trans hl⟩
    rw [(range_rising _).2]
    omega

/-! ### When all have come to an end -/

theorem risen_here {x : Station} (hx : x.Returned) {f : Nat → Call} {n : Nat} (h : RisenLine f n x.C x.w.fed) :
    ∃ l l', Rising l ∧ Rising l' ∧ x.finished = l.map f ∧ delivered x.w = l'.map f ∧ risen l = n ∧ risen l' = n := by
  obtain ⟨us, N, hfit, hN, rfl, hm, hfed⟩ := h
  obtain ⟨S, hre, ⟨ops', os', k, e1, e2⟩, hh, _, _⟩ := hx
  obtain ⟨C, B, user, fuel, ops, w, os⟩ := x
  simp only at *
  subst e1 e2
  exact rising_all S hre hh hfit hN hm hfed

theorem risen_next {x y : Station} (hx : x.Returned) (hy : y.Returned) (hp : LedTo x y) {f : Nat → Call} {n : Nat}
    (h : RisenLine f n x.C x.w.fed) (hf : PassedBy f y.C) : RisenLine f n y.C y.w.fed := by
  obtain ⟨l, l', g1, _, g3, _, g5, _⟩ := risen_here hx h
  obtain ⟨σ, X, log, s0, H, h0, hr, hfy⟩ := hp
  have hmsg : ∀ c ∈ l.map f, ∃ m, IsMsg x.C m ∧ c = meaning x.C m := by
    rw [← g3]
    exact fun c hc => completed_isMsg hx.setting hx.reached hc
  obtain ⟨ks, k1, k2⟩ : ∃ ks : List Nat, ks.length = (x.finished.filterMap (relayed y.C)).length ∧
      Insists X s0 ((x.finished.filterMap (relayed y.C)).zip ks) (relayAll X y.C s0 (delivered x.w)).1 := by
    obtain ⟨S, hre, ⟨ops', os', k, e1, e2⟩, hh, _, hu⟩ := hx
    obtain ⟨C, B, user, fuel, ops, w, os⟩ := x
    simp only at *
    subst e1 e2
    exact C133_insists hy.ids hr S hre hh hu
  rw [g3] at k1 k2
  have hfst : (((l.map f).filterMap (relayed y.C)).zip ks).map (·.1) = (l.map f).filterMap (relayed y.C) :=
    List.map_fst_zip (by omega)
  have hcalls : (((l.map f).filterMap (relayed y.C)).zip ks).map (·.1.call) = l.map f := by
    have := congrArg (List.map Request.call) hfst
    rw [all_passed hf hy.ids hmsg, List.map_map] at this
    exact this
  obtain ⟨vs, v1, v2, _, v4⟩ := insists_line H (C := y.C) (r := ⟨y.C, ⟨0, []⟩, []⟩) (k := 0) ⟨_, k2, rfl⟩ h0 (fun q hq => by
    obtain ⟨c, hc, e⟩ := List.mem_filterMap.1 (List.of_mem_zip hq).1
    obtain ⟨m', hm', ec⟩ := hmsg c hc
    obtain ⟨i, _, rfl⟩ := List.mem_map.1 hc
    exact (passed_steadfast hf hy.ids hm' ec.symm e).1) (fun hk => absurd hk (by omega))
  exact ⟨vs, l, v1, g1, g5, by rw [v2, hcalls, if_pos rfl, List.append_nil], hfy.trans (v4 rfl)⟩

theorem route_risen {P : Numbering} (hP : P.Ok) {n : Nat} : ∀ {xs : List Station} {x : Station}, LedRoute (x :: xs) →
    RisenLine (fun i => (P.data i).call) n x.C x.w.fed → (∀ y ∈ xs, PassedBy (fun i => (P.data i).call) y.C) →
    ∀ z ∈ x :: xs, P.taken z.finished = (List.range n).map (fun i => (P.data i).call) ∧
      P.taken (delivered z.w) = (List.range n).map fun i => (P.data i).call := by
  intro xs
  induction xs with
  | nil =>
    intro x h hl _ z hz
    obtain ⟨l, l', h1, h2, h3, h4, h5, h6⟩ := risen_here h.head hl
    rw [List.mem_singleton.1 hz]
    exact ⟨by rw [h3, hP.taken_eq h1, h5], by rw [h4, hP.taken_eq h2, h6]⟩
  | cons y xs ih =>
    intro x h hl hf z hz
    cases h with
    | cons hx hp hs =>
      rcases List.mem_cons.1 hz with rfl | hz
      · obtain ⟨l, l', h1, h2, h3, h4, h5, h6⟩ := risen_here hx hl
        exact ⟨by rw [h3, hP.taken_eq h1, h5], by rw [h4, hP.taken_eq h2, h6]⟩
      · exact ih hs (risen_next hx hs.head hp hl (hf y (by simp))) (fun z hz => hf z (by simp [hz])) z hz

/-- C144. When everything has arrived everywhere and `processMessages` has returned in each of the programs, each of them has
taken each message exactly once, in order. -/
theorem C144_exactly_once {P : Numbering} (hP : P.Ok) (hD : ∀ i, Steadfast P.C (P.data i)) {X : ThrowTx σ} {log : σ → List Byte}
    (H : Honest X log) {s s' : σ} {rs : List (Request × Nat)} (hx : Insists X s rs s') (h0 : log s = [])
    (hrs : rs.map (·.1) = (List.range rs.length).map P.data) {x : Station} {xs : List Station} (h : LedRoute (x :: xs))
    (hC : x.C = P.C) (hfed : x.w.fed = log s') (hf : ∀ y ∈ xs, PassedBy (fun i => (P.data i).call) y.C) :
    ∀ z ∈ x :: xs, P.taken z.finished = rs.map (·.1.call) ∧ P.taken (delivered z.w) = rs.map (·.1.call) := by
  obtain ⟨hst, hc⟩ := numbered_steadfast hD hrs
  obtain ⟨us, hfit, hm, _, hl⟩ := insists_line H (r := P.data 0) (k := 0) ⟨s', hx, rfl⟩ h0 hst (fun h => absurd h (by omega))
  rw [if_pos rfl, List.append_nil, hc] at hm
  rw [hc]
  refine route_risen hP h ?_ hf
  generalize x.w.fed = b at hfed ⊢
  rw [hC]
  exact ⟨us, _, hfit, (range_rising _).1, (range_rising _).2, hm, hfed.trans (hl rfl)⟩

/-! ### Examples -/

/-- Calls 6 and 15 throw: `outputFinished` for the first message, and the second byte of the third attempt. -/
def gateThrows (i : Nat) : Bool := i == 6 || i == 15

/-- The program in the middle of the examples. -/
def gateUser : UserCode := relayUser (flaky gateThrows true) (fourTypes .basic) ([], 0)

/-- What it sends: the first message three times, the second twice. -/
def gateLine : List Byte := [1, 1, 2, 0, 3, 4] ++ [1, 1, 2, 0, 3, 4] ++ [1] ++ [1, 1, 2, 0, 3, 4] ++ [1, 1, 2, 1, 3, 4] ++ [1, 1, 2, 1, 3, 4]

def gateOps : List Op := [.setHandler Sample.h0, .append lateLine, .process, .process] ++ [.process]

def behindOps : List Op := [.setHandler Sample.h0, .append gateLine, .process, .process, .process, .process, .process] ++ [.process]

theorem twoNumbers_passed : PassedBy (fun i => (twoNumbers.data i).call) (fourTypes .basic) := by
  intro i
  have e : (twoNumbers.data i).call = (Sample.level, [[UInt8.ofNat (i % 2)]]) := rfl
  simp only [e]
  refine ⟨by decide, ?_⟩
  intro r hr
  rcases Nat.mod_two_eq_zero_or_one i with e' | e'
  · rw [e'] at hr
    have : r = ⟨fourTypes .basic, Sample.level, [⟨.uint8, [0]⟩]⟩ := (Option.some.inj hr).symm
    subst this
    decide +kernel
  · rw [e'] at hr
    have : r = ⟨fourTypes .basic, Sample.level, [⟨.uint8, [1]⟩]⟩ := (Option.some.inj hr).symm
    subst this
    decide +kernel

/-- The sender of C143, a gateway and a program behind it, all of which throw. The gateway gets both messages twice; the last
program gets one of them three times and the other one twice, and its handler is called ten times. Each of them has taken both
messages once. -/
example : ∃ x z : Station, LedRoute [x, z] ∧ (delivered x.w).length = 6 ∧ z.finished.length = 5 ∧ (delivered z.w).length = 10 ∧
    ∀ y ∈ [x, z], twoNumbers.taken y.finished = [(Sample.level, [[0]]), (Sample.level, [[1]])] ∧
      twoNumbers.taken (delivered y.w) = [(Sample.level, [[0]]), (Sample.level, [[1]])] := by
  obtain ⟨w, os, h1, h2⟩ := Sample.reached (C := Sample.checked) (B := Sample.dbg) (user := gateUser) (fuel := 50) (ops := gateOps)
    (fun w os => decide (os = [.unit, .unit, .processed .threw, .processed .threw] ++ [.processed (.returned 3)]) &&
      decide (w.fed = lateLine) && w.trace.all (fun i => (userCall i).isSome) && w.rx.hasHandler &&
      decide ((delivered w).length = 6) &&
      decide ((relayAll (flaky gateThrows true) (fourTypes .basic) ([], 0) (delivered w)).1.1 = gateLine)) (by decide +kernel)
  obtain ⟨w2, os2, g1, g2⟩ := Sample.reached (C := fourTypes .basic) (B := Sample.dbg) (user := stubborn) (fuel := 50)
    (ops := behindOps) (fun w os => decide (os = [.unit, .unit, .processed .threw, .processed .threw, .processed .threw,
        .processed .threw, .processed .threw] ++ [.processed (.returned 1)]) &&
      decide (w.fed = gateLine) && w.trace.all (fun i => (userCall i).isSome) && w.rx.hasHandler &&
      decide ((delivered w).length = 10)) (by decide +kernel)
  simp only [Bool.and_eq_true, decide_eq_true_eq, List.all_eq_true] at h2 g2
  obtain ⟨⟨⟨⟨⟨a1, a2⟩, a3⟩, a4⟩, a5⟩, a6⟩ := h2
  obtain ⟨⟨⟨⟨b1, b2⟩, b3⟩, b4⟩, b5⟩ := g2
  have hs1 : Setting Sample.checked Sample.dbg gateUser := ⟨⟨by decide, by decide⟩, relayUser_benign _ _ _⟩
  have l1 : Sample.checked.messages.length ≤ 255 := by decide
  have l2 : (fourTypes .basic).messages.length ≤ 255 := by decide
  have hx : (Station.mk Sample.checked Sample.dbg gateUser 50 gateOps w os).Returned :=
    ⟨hs1, h1, ⟨_, _, _, rfl, a1⟩, a4, l1, fun i hi e => by have := a3 i hi; simp [e] at this⟩
  have hz : (Station.mk (fourTypes .basic) Sample.dbg stubborn 50 behindOps w2 os2).Returned :=
    ⟨stubborn_four .basic, g1, ⟨_, _, _, rfl, b1⟩, b4, l2, fun i hi e => by have := b3 i hi; simp [e] at this⟩
  have hr : LedRoute [Station.mk Sample.checked Sample.dbg gateUser 50 gateOps w os,
      Station.mk (fourTypes .basic) Sample.dbg stubborn 50 behindOps w2 os2] :=
    .cons hx ⟨_, _, (·.1), _, flaky_honest gateThrows true, rfl, relayUser_relays _ _ _, b2.trans a6.symm⟩ (.one hz)
  refine ⟨_, _, hr, a5, ?_, b5, ?_⟩
  · show (List.map seen (completed Sample.dbg stubborn 50 (World.new (fourTypes .basic)) behindOps)).length = 5
    decide +kernel
  · exact C144_exactly_once twoNumbers_ok twoNumbers_steadfast (flaky_honest lateThrows true) late_example rfl rfl hr rfl a2
      (fun y hy => by rw [List.mem_singleton.1 hy]; exact twoNumbers_passed)

def gateSoFar : List Op := [.setHandler Sample.h0, .append (lateLine.take 23), .process]

def behindSoFar : List Op := [.setHandler Sample.h0, .append [1, 1, 2, 0, 3, 4], .process]

/-- The same before it has come to an end: the handler of the gateway has been called once and has thrown, and so has that of the
program behind it. Both have taken the first message, if they take it at the beginning of their handlers; neither has completed a
call. -/
example : ∃ x z : Station, LeadingRoute [x, z] ∧ x.finished = [] ∧ delivered z.w = [(Sample.level, [[0]])] ∧
    [x, z].Pairwise fun y z => twoNumbers.taken (delivered z.w) <+: twoNumbers.taken (delivered y.w) := by
  obtain ⟨w, os, h1, h2⟩ := Sample.reached (C := Sample.checked) (B := Sample.dbg) (user := gateUser) (fuel := 50) (ops := gateSoFar)
    (fun w _ => decide (w.fed = lateLine.take 23) && w.trace.all (fun i => (userCall i).isSome) &&
      decide ((relayAll (flaky gateThrows true) (fourTypes .basic) ([], 0) (delivered w)).1.1 = [1, 1, 2, 0, 3, 4]))
    (by decide +kernel)
  obtain ⟨w2, os2, g1, g2⟩ := Sample.reached (C := fourTypes .basic) (B := Sample.dbg) (user := stubborn) (fuel := 50)
    (ops := behindSoFar) (fun w _ => decide (w.fed = [1, 1, 2, 0, 3, 4]) && w.trace.all (fun i => (userCall i).isSome) &&
      decide (delivered w = [(Sample.level, [[0]])])) (by decide +kernel)
  simp only [Bool.and_eq_true, decide_eq_true_eq, List.all_eq_true] at h2 g2
  obtain ⟨⟨a1, a2⟩, a3⟩ := h2
  obtain ⟨⟨b1, b2⟩, b3⟩ := g2
  have hs1 : Setting Sample.checked Sample.dbg gateUser := ⟨⟨by decide, by decide⟩, relayUser_benign _ _ _⟩
  have l1 : Sample.checked.messages.length ≤ 255 := by decide
  have l2 : (fourTypes .basic).messages.length ≤ 255 := by decide
  have hx : (Station.mk Sample.checked Sample.dbg gateUser 50 gateSoFar w os).Going :=
    ⟨hs1, h1, l1, fun i hi e => by have := a2 i hi; simp [e] at this⟩
  have hz : (Station.mk (fourTypes .basic) Sample.dbg stubborn 50 behindSoFar w2 os2).Going :=
    ⟨stubborn_four .basic, g1, l2, fun i hi e => by have := b2 i hi; simp [e] at this⟩
  have hr : LeadingRoute [Station.mk Sample.checked Sample.dbg gateUser 50 gateSoFar w os,
      Station.mk (fourTypes .basic) Sample.dbg stubborn 50 behindSoFar w2 os2] :=
    .cons hx ⟨_, _, (·.1), _, flaky_honest gateThrows true, rfl, relayUser_relays _ _ _,
      ⟨[], by rw [List.append_nil]; exact b1.trans a3.symm⟩⟩ (.one hz)
  refine ⟨_, _, hr, ?_, b3, ?_⟩
  · show List.map seen (completed Sample.dbg gateUser 50 (World.new Sample.checked) gateSoFar) = []
    decide +kernel
  · exact (C144_any_time twoNumbers_ok twoNumbers_steadfast (flaky_honest lateThrows true) late_so_far rfl rfl hr rfl
      (by rw [a1]; exact List.prefix_rfl) (fun y hy => by rw [List.mem_singleton.1 hy]; exact twoNumbers_passed)).2

end TT.Properties
