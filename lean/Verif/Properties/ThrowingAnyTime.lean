import Verif.Properties.ThrowingGateway

/-!
# Property C134: senders and gateways that send again, at any time

The programs of C132 and C133 before they have come to an end: a message is being attempted, bytes are on their way, some
of the programs have not been called for a while or have just been left by an exception.
-/

namespace TT.Properties
open Spec

variable {C D : Collection} {B : Build} {user : UserCode} {fuel : Nat} {σ : Type}

/-- A message at the end of the stream is not skipped. -/
theorem no_skip_last {m : Msg} (hm : IsMsg C m) : ∀ x : List Byte, ¬ Run C (x ++ frame C.envelope m) [] [] := by
  intro x
  induction x with
  | nil =>
    intro h
    rcases h.nil_cases with e | ⟨b, s, _, hs, _, _⟩
    · obtain ⟨t, ht⟩ := frame_head_three C.envelope m
      rw [ht] at e
      simp at e
    · exact hs ⟨m, [], hm, by simp⟩
  | cons a x ih =>
    intro h
    rcases h.nil_cases with e | ⟨b, s, e, _, _, hr⟩
    · simp at e
    · simp only [List.cons_append, List.cons.injEq] at e
      obtain ⟨rfl, rfl⟩ := e
      exact ih hr

theorem run_retried_part {us : List Retried} (hu : ∀ u ∈ us, u.Fit C) {s r t : List Byte} {ms : List Msg}
    (h : Run C s ms r) (e : s ++ t = retriedLine C.envelope us) :
    ∃ es, ms ++ es = retriedMsgs C.envelope us ∧ Decodes C (r ++ t) es [] := by
  obtain ⟨es, q, hd⟩ := decodes_exists C (r ++ t)
  have := (show Decodes C (s ++ t) (ms ++ es) q from ⟨(h.append t).trans hd.1, hd.2⟩)
  rw [e] at this
  obtain ⟨e', hq⟩ := this.unique (decodes_retried hu)
  subst hq
  exact ⟨es, e', hd⟩

theorem retriedLine_snoc (E : Envelope) (us : List Retried) (u : Retried) :
    retriedLine E (us ++ [u]) = retriedLine E us ++ u.tries.flatten ++ frame E u.m := by
  simp [retriedLine, Retried.line]

theorem retriedMsgs_snoc (E : Envelope) (us : List Retried) {u : Retried}
    (h : ∀ q ∈ u.tries, q.length < (frame E u.m).length) : retriedMsgs E (us ++ [u]) = retriedMsgs E us ++ [u.m] := by
  have : u.tries.countP (· == frame E u.m) = 0 := by
    rw [List.countP_eq_zero]
    intro q hq e
    have := h q hq
    rw [eq_of_beq e] at this
    omega
  simp [retriedMsgs, Retried.copies, this]

/-- C134, the receiver. Of messages that were sent after any number of attempts that broke off, and of further attempts at
one more message, of which none was complete, the receiver takes no more than the former. -/
theorem C134_receiver {us : List Retried} (hu : ∀ u ∈ us, u.Fit C) {u : Retried} (hf : u.Fit C)
    (hc : ∀ q ∈ u.tries, q.length < (frame C.envelope u.m).length) {s r : List Byte} {ms : List Msg} (h : Run C s ms r)
    (hs : s <+: retriedLine C.envelope us ++ u.tries.flatten) : ms <+: retriedMsgs C.envelope us := by
  obtain ⟨t, ht⟩ := hs
  obtain ⟨es, e, hd⟩ := run_retried_part (us := us ++ [u]) (t := t ++ frame C.envelope u.m) (by
    intro v hv
    rcases List.mem_append.1 hv with hv | hv
    · exact hu v hv
    · simp only [List.mem_singleton] at hv
      subst hv
      exact hf) h (by rw [retriedLine_snoc, ← ht]; simp)
  rw [retriedMsgs_snoc _ _ hc] at e
  have hne : es ≠ [] := by
    rintro rfl
    rw [← List.append_assoc] at hd
    exact no_skip_last hf.isMsg _ hd.1
  obtain ⟨es', b, rfl⟩ : ∃ es' b, es = es' ++ [b] := ⟨es.dropLast, es.getLast hne, (List.dropLast_concat_getLast hne).symm⟩
  rw [← List.append_assoc] at e
  exact ⟨es', (List.append_inj' e rfl).1⟩

/-- Sends of one message that all throw. -/
theorem throws_only {X : ThrowTx σ} {log : σ → List Byte} (H : Honest X log) {r : Request} (h : Sendable r.C r.t r.vs) :
    ∀ (k : Nat) {s s' : σ}, sendEach X s (List.replicate k r) = some (.ok (s', List.replicate k true)) →
    ∃ qs : List (List Byte), (∀ q ∈ qs, q <+: wire r.C r.t r.vs) ∧ log s' = log s ++ qs.flatten ∧
      (Prompt X log → ∀ q ∈ qs, q.length < (wire r.C r.t r.vs).length) := by
  intro k
  induction k with
  | zero =>
    intro s s' e
    simp only [List.replicate_zero, sendEach, Option.some.injEq, Except.ok.injEq, Prod.mk.injEq, and_true] at e
    subst e
    exact ⟨[], by simp, by simp, by simp⟩
  | succ k ih =>
    intro s s' e
    obtain ⟨s1, th, q, e1, hl, hq, hf⟩ := C74_prefix H r.C r.t r.vs h s
    rw [List.replicate_succ, sendEach, e1] at e
    simp only at e
    cases e2 : sendEach X s1 (List.replicate k r) with
    | none => rw [e2] at e; cases e
    | some v =>
      cases v with
      | error f => rw [e2] at e; cases e
      | ok v =>
        obtain ⟨s2, bs⟩ := v
        rw [e2] at e
        simp only [Option.some.injEq, Except.ok.injEq, Prod.mk.injEq, List.replicate_succ, List.cons.injEq] at e
        obtain ⟨rfl, rfl, rfl⟩ := e
        obtain ⟨qs, h2, h3, h4⟩ := ih e2
        refine ⟨q :: qs, ?_, by rw [h3, hl]; simp, ?_⟩
        · intro q' hq'
          rcases List.mem_cons.1 hq' with rfl | hq'
          · exact hq
          · exact h2 q' hq'
        · intro hp q' hq'
          rcases List.mem_cons.1 hq' with rfl | hq'
          · have := thrown_prompt H hp h e1
            rw [hl, List.length_append] at this
            omega
          · exact h4 hp q' hq'

/-- The program has insisted on the messages `rs`, and has then tried `k` times to send `r`, in vain. -/
def InsistsSoFar (X : ThrowTx σ) (s : σ) (rs : List (Request × Nat)) (r : Request) (k : Nat) (s' : σ) : Prop :=
  ∃ s1, Insists X s rs s1 ∧ sendEach X s1 (List.replicate k r) = some (.ok (s', List.replicate k true))

/-- What a message must be like to be sent again safely. -/
def Steadfast (C : Collection) (r : Request) : Prop :=
  r.Good C ∧ Retriable C r.msg ∧ (r.msg.id = 0x02 → typeOf C 0x01 = none)

theorem steadfast_fit {r : Request} (h : Steadfast C r) {qs : List (List Byte)} (hq : ∀ q ∈ qs, q <+: frame C.envelope r.msg)
    (hm : IsMsg C r.msg) : Retried.Fit C ⟨r.msg, qs⟩ :=
  ⟨hm, h.2.1, hq, fun e hn => absurd (h.2.2 e) hn⟩

/-- What a receiver takes out of the bytes that have arrived from such a sender. -/
theorem run_so_far {X : ThrowTx σ} {log : σ → List Byte} (H : Honest X log) (hp : Prompt X log) {s s' : σ}
    {rs : List (Request × Nat)} {r : Request} {k : Nat} (hx : InsistsSoFar X s rs r k s') (h0 : log s = [])
    (hr : ∀ q ∈ rs, Steadfast C q.1) (hk : 0 < k → Steadfast C r) {t t' : List Byte} {ms : List Msg} (ht : t <+: log s')
    (h : Run C t ms t') : ms.map (meaning C) <+: rs.map (·.1.call) := by
  obtain ⟨s1, h1, h2⟩ := hx
  obtain ⟨us, e, hl, h3, h4⟩ := C132_sender H h1 fun q hq => (hr q hq).1
  rw [h0, List.nil_append] at hl
  have hfit : ∀ u ∈ us, u.Fit C := by
    intro u hu
    have : (u.m, u.tries.length) ∈ rs.map (fun r => (r.1.msg, r.2)) := by
      rw [← e]
      exact List.mem_map.2 ⟨u, hu, rfl⟩
    obtain ⟨q, hq, e'⟩ := List.mem_map.1 this
    obtain ⟨e1, _⟩ := Prod.mk.inj e'
    have hs := hr q hq
    exact ⟨(h3 u hu).1, by rw [← e1]; exact hs.2.1, (h3 u hu).2, fun e hn => absurd (hs.2.2 (by rw [e1]; exact e)) hn⟩
  have hms : (retriedMsgs C.envelope us).map (meaning C) = rs.map (·.1.call) := by
    clear hl hfit h1 h2 h hk ht
    induction us generalizing rs with
    | nil =>
      cases rs with
      | nil => rfl
      | cons q rs => simp at e
    | cons u us ih =>
      cases rs with
      | nil => simp at e
      | cons q rs =>
        simp only [List.map_cons, List.cons.injEq, Prod.mk.injEq] at e
        have ih := ih (fun q hq => hr q (by simp [hq])) e.2 (fun u hu => h3 u (by simp [hu]))
          (fun hp u hu => h4 hp u (by simp [hu]))
        have hone : retriedMsgs C.envelope (u :: us) = u.m :: retriedMsgs C.envelope us := by
          have := retriedMsgs_snoc C.envelope [] (h4 hp u (by simp))
          simp only [retriedMsgs, List.nil_append, List.flatMap_cons, List.flatMap_nil, List.append_nil] at this ⊢
          rw [this]
          rfl
        rw [hone, List.map_cons, List.map_cons, ih, e.1.1, (hr q (by simp)).1.meaning]
        rfl
  rw [← hms]
  suffices ms <+: retriedMsgs C.envelope us by
    obtain ⟨es, e⟩ := this
    exact ⟨es.map (meaning C), by rw [← e]; simp⟩
  by_cases hk0 : 0 < k
  · have hs := hk hk0
    have hg := hs.1
    obtain ⟨qs, g2, g3, g4⟩ := throws_only H (r := r) (by rw [hg.1]; exact hg.2.1) k h2
    rw [hg.wire] at g2 g4
    rw [g3, hl] at ht
    exact C134_receiver hfit (u := ⟨r.msg, qs⟩) (steadfast_fit hs g2 hg.isMsg) (g4 hp) h ht
  · have : k = 0 := by omega
    subst this
    simp only [List.replicate_zero, sendEach, Option.some.injEq, Except.ok.injEq, Prod.mk.injEq, and_true] at h2
    subst h2
    rw [hl] at ht
    obtain ⟨u, hu⟩ := ht
    obtain ⟨es, e, _⟩ := run_retried_part hfit h hu
    exact ⟨es, e⟩

/-- C134, the sender and the receiver. The program has insisted on some messages and perhaps tried another one in vain;
some of the bytes have arrived; the handlers may throw. What has been handled to the end is a beginning of the messages
whose `send` has returned, each once. -/
theorem C134_any_time {X : ThrowTx σ} {log : σ → List Byte} (H : Honest X log) (hp : Prompt X log) {s s' : σ}
    {rs : List (Request × Nat)} {r : Request} {k : Nat} (hx : InsistsSoFar X s rs r k s') (h0 : log s = [])
    (hr : ∀ q ∈ rs, Steadfast C q.1) (hk : 0 < k → Steadfast C r)
    (S : Setting C B user) {ops : List Op} {w : World C} {os : List Obs} (h : Reached B user fuel ops w os)
    (hfed : w.fed <+: log s') :
    (completed B user fuel (World.new C) ops).map seen <+: rs.map (·.1.call) := by
  obtain ⟨ms, hm, e⟩ := C95_once S h
  rw [e]
  exact run_so_far H hp hx h0 hr hk hfed hm

/-- What the handlers have been called with, completed or not, are messages of that kind, too. -/
theorem delivered_run (S : Setting C B user) {ops : List Op} {w : World C} {os : List Obs} (h : Reached B user fuel ops w os)
    {c : Call} (hc : c ∈ delivered w) : ∃ ms t, Run C w.fed ms t ∧ c ∈ ms.map (meaning C) := by
  obtain ⟨ms, hm, e⟩ := C95_once S h
  obtain ⟨ps, j, m, e1, e2, h3, _⟩ := C95_attempts S h
  rw [e2] at hc
  rcases List.mem_append.1 hc with hc | hc
  · refine ⟨ms, _, hm, ?_⟩
    rw [← e, e1]
    simp only [attempts, List.mem_flatMap, List.mem_replicate] at hc
    obtain ⟨p, hp, _, rfl⟩ := hc
    exact List.mem_map.2 ⟨p.1, List.mem_map.2 ⟨p, hp, rfl⟩, rfl⟩
  · obtain ⟨hj, rfl⟩ := List.mem_replicate.1 hc
    rcases h3 with h3 | ⟨hi, t, hb⟩
    · exact absurd h3 hj
    · rw [hb] at hm
      exact ⟨_, t, hm.trans (Run.take hi (Run.refl t)), by simp⟩

/-! ### Gateways -/

theorem relayAll_length {X : ThrowTx σ} : ∀ (cs : List Call) (s : σ), (relayAll X D s cs).2.length = cs.length := by
  intro cs
  induction cs with
  | nil => intro s; rfl
  | cons c cs ih => intro s; simp [relayAll, ih]

theorem relayAll_none {X : ThrowTx σ} {c : Call} (hr : relayed D c = none) : ∀ (n : Nat) (s : σ),
    relayAll X D s (List.replicate n c) = (s, List.replicate n false) := by
  intro n
  induction n with
  | zero => intro s; rfl
  | succ n ih => intro s; simp [List.replicate_succ, relayAll, relayOne, hr, ih]

/-- What the handlers of a gateway have been called for, and what it has sent. -/
theorem gateway_pending {X : ThrowTx σ} {s0 : σ} (hl : D.messages.length ≤ 255) (hr : Relays X D s0 user)
    (S : Setting C B user) {ops : List Op} {w : World C} {os : List Obs} (h : Reached B user fuel ops w os)
    (hu : ∀ i ∈ w.trace, userCall i ≠ none) :
    ∃ (ps : List (Msg × Nat)) (j : Nat) (m : Msg) (rs : List (Request × Nat)) (r : Request) (k : Nat),
      (completed B user fuel (World.new C) ops).map seen = (ps.map (·.1)).map (meaning C) ∧
      delivered w = attempts C ps ++ List.replicate j (meaning C m) ∧ Pending C (buffered w) j m ∧
      rs.map (·.1) = ((completed B user fuel (World.new C) ops).map seen).filterMap (relayed D) ∧
      InsistsSoFar X s0 rs r k (relayAll X D s0 (delivered w)).1 ∧
      (0 < k → k = j ∧ relayed D (meaning C m) = some r) := by
  obtain ⟨s, ms, ha, he, hc⟩ := completed_exec S (abs_new C) h.legal h.run
  obtain ⟨calls, flags, ps, j, m, h1, h2, h3, h4, h5, h6, h7⟩ := exec_flagged he (j := 0) (m := ⟨0, []⟩) (.inl rfl)
  simp only [List.replicate_zero, List.nil_append] at h4 h6
  have htr : s.trace = calls := by rw [h1]; simp [AState.new]
  rw [← ha.trace] at htr
  have hfl := flagged_relay hr h5 (by simp [AState.new]) (by rw [← htr]; exact hu)
  have hdel : delivered w = attempts C ps ++ List.replicate j (meaning C m) := by rw [delivered, htr, h4]
  have hfl' : flagsOf ps ++ List.replicate j true =
      (relayAll X D s0 (attempts C ps ++ List.replicate j (meaning C m))).2 := by
    rw [← h6, ← h4]
    exact hfl
  rw [relayAll_append] at hfl'
  have hlen : (flagsOf ps).length = (relayAll X D s0 (attempts C ps)).2.length := by
    rw [relayAll_length]
    simp [flagsOf, attempts, List.length_flatMap]
  obtain ⟨f1, f2⟩ := List.append_inj hfl' hlen
  have hin := relays_insist (X := X) hl ps s0 h7 f1.symm
  have hpas : (passedAlong C D ps).map (·.1) =
      ((completed B user fuel (World.new C) ops).map seen).filterMap (relayed D) := by
    rw [hc, ← h2]
    clear hc h2 h1 h3 h4 h5 h6 h7 hfl hdel hfl' hlen f1 f2 hin
    induction ps with
    | nil => rfl
    | cons p ps ih =>
      cases hq : relayed D (meaning C p.1) with
      | none => simpa [passedAlong, hq] using ih
      | some r => simpa [passedAlong, hq] using ih
  refine ⟨ps, j, m, ?_⟩
  suffices ∃ (rs : List (Request × Nat)) (r : Request) (k : Nat),
      rs.map (·.1) = ((completed B user fuel (World.new C) ops).map seen).filterMap (relayed D) ∧
      InsistsSoFar X s0 rs r k (relayAll X D s0 (delivered w)).1 ∧ (0 < k → k = j ∧ relayed D (meaning C m) = some r) by
    obtain ⟨rs, r, k, hrs⟩ := this
    exact ⟨rs, r, k, by rw [hc, h2], hdel, by rw [ha.buffered]; exact h3, hrs⟩
  rw [hdel, relayAll_append]
  cases hq : relayed D (meaning C m) with
  | none =>
    refine ⟨_, ⟨D, ⟨0, []⟩, []⟩, 0, hpas, ⟨_, hin, ?_⟩, fun hk => absurd hk (by omega)⟩
    simp [relayAll_none hq, sendEach]
  | some r =>
    rcases id h3 with rfl | ⟨hm, _, _⟩
    · exact ⟨_, r, 0, hpas, ⟨_, hin, by simp [sendEach, relayAll]⟩, fun hk => absurd hk (by omega)⟩
    · obtain ⟨hg, _⟩ := relayed_good hl hm hq
      refine ⟨_, r, j, hpas, ⟨_, hin, ?_⟩, fun _ => ⟨rfl, rfl⟩⟩
      rw [relay_one (X := X) hq (by rw [hg.1]; exact hg.2.1) j, f2]

/-- C134, what the gateway has done. At any time it has insisted on each message handled to the end that it can pass on, and
has perhaps tried another one in vain. -/
theorem C134_gateway {X : ThrowTx σ} {s0 : σ} (hl : D.messages.length ≤ 255) (hr : Relays X D s0 user)
    (S : Setting C B user) {ops : List Op} {w : World C} {os : List Obs} (h : Reached B user fuel ops w os)
    (hu : ∀ i ∈ w.trace, userCall i ≠ none) :
    ∃ (rs : List (Request × Nat)) (r : Request) (k : Nat),
      rs.map (·.1) = ((completed B user fuel (World.new C) ops).map seen).filterMap (relayed D) ∧
      InsistsSoFar X s0 rs r k (relayAll X D s0 (delivered w)).1 ∧
      (0 < k → ∃ c ∈ delivered w, relayed D c = some r) := by
  obtain ⟨ps, j, m, rs, r, k, _, h2, _, h4, h5, h6⟩ := gateway_pending (X := X) (s0 := s0) hl hr S h hu
  refine ⟨rs, r, k, h4, h5, fun hk => ⟨meaning C m, ?_, (h6 hk).2⟩⟩
  rw [h2]
  exact List.mem_append.2 (.inr (List.mem_replicate.2 ⟨by have := (h6 hk).1; omega, rfl⟩))

theorem relayed_calls (hl : D.messages.length ≤ 255) {cs : List Call} (hmsg : ∀ c ∈ cs, ∃ m, IsMsg C m ∧ c = meaning C m) :
    (cs.filterMap (relayed D)).map Request.call = cs.filter (fun c => c.1 ∈ D.messages) := by
  induction cs with
  | nil => rfl
  | cons c cs ih =>
    have ih := ih fun c hc => hmsg c (by simp [hc])
    by_cases hmem : c.1 ∈ D.messages
    · obtain ⟨r, e⟩ : ∃ r, relayed D c = some r := by simp [relayed, hmem]
      obtain ⟨m, hm, rfl⟩ := hmsg c (by simp)
      rw [List.filterMap_cons_some e, List.filter_cons_of_pos (by simpa using hmem), List.map_cons, ih,
        (relayed_good hl hm e).2]
    · have e : relayed D c = none := by simp [relayed, hmem]
      rw [List.filterMap_cons_none e, List.filter_cons_of_neg (by simpa using hmem), ih]

/-- What a receiver takes out of the bytes that have arrived from a gateway. -/
theorem run_gateway {X : ThrowTx σ} {log : σ → List Byte} (H : Honest X log) (hp : Prompt X log) {s0 : σ} (h0 : log s0 = [])
    (hl : D.messages.length ≤ 255) (hr : Relays X D s0 user)
    (S : Setting C B user) {ops : List Op} {w : World C} {os : List Obs} (h : Reached B user fuel ops w os)
    (hu : ∀ i ∈ w.trace, userCall i ≠ none) (hrep : ∀ c ∈ delivered w, Resendable D c)
    {t t' : List Byte} {ms : List Msg} (ht : t <+: log (relayAll X D s0 (delivered w)).1) (hrun : Run D t ms t') :
    ms.map (meaning D) <+: ((completed B user fuel (World.new C) ops).map seen).filter (fun c => c.1 ∈ D.messages) := by
  obtain ⟨rs, r, k, e, hx, hk⟩ := C134_gateway (X := X) (s0 := s0) hl hr S h hu
  have hmsg : ∀ c ∈ delivered w, ∃ m, IsMsg C m ∧ c = meaning C m := by
    intro c hc
    obtain ⟨ms, t, hm, hc⟩ := delivered_run S h hc
    obtain ⟨m, hmem, rfl⟩ := List.mem_map.1 hc
    exact ⟨m, hm.isMsg m hmem, rfl⟩
  have hsub : ∀ c ∈ (completed B user fuel (World.new C) ops).map seen, c ∈ delivered w := by
    intro c hc
    obtain ⟨ps, j, m, e1, e2, _, _⟩ := C95_attempts S h
    rw [e1] at hc
    rw [e2]
    obtain ⟨m', hm', rfl⟩ := List.mem_map.1 hc
    obtain ⟨p, hp', rfl⟩ := List.mem_map.1 hm'
    refine List.mem_append.2 (.inl ?_)
    simp only [attempts, List.mem_flatMap, List.mem_replicate]
    exact ⟨p, hp', by omega, rfl⟩
  have steady : ∀ c ∈ delivered w, ∀ r, relayed D c = some r → Steadfast D r := by
    intro c hc r hr'
    obtain ⟨m, hm, rfl⟩ := hmsg c hc
    exact ⟨(relayed_good hl hm hr').1, hrep _ hc r hr'⟩
  have key := run_so_far H hp hx h0 (fun q hq => by
    have : q.1 ∈ rs.map (·.1) := List.mem_map.2 ⟨q, hq, rfl⟩
    rw [e] at this
    obtain ⟨c, hc, e'⟩ := List.mem_filterMap.1 this
    exact steady c (hsub c hc) _ e') (fun hk0 => by
    obtain ⟨c, hc, e'⟩ := hk hk0
    exact steady c hc _ e') ht hrun
  rw [← relayed_calls hl fun c hc => hmsg c (hsub c hc), ← e, List.map_map]
  exact key

/-! ### Any number of gateways -/

/-- A program that keeps the rules, at any time; its handlers may throw. -/
structure Station.Going (x : Station) : Prop where
  setting : Setting x.C x.B x.user
  reached : Reached x.B x.user x.fuel x.ops x.w x.os
  ids : x.C.messages.length ≤ 255
  sees : ∀ i ∈ x.w.trace, userCall i ≠ none

/-- The handler of the first program sends to the second what it can, over a transmitter that may throw, but not after it
has put the bytes of a call on the line. Some of it has arrived at the second. -/
def PassesSome (x y : Station) : Prop :=
  ∃ (σ : Type) (X : ThrowTx σ) (log : σ → List Byte) (s0 : σ), Honest X log ∧ Prompt X log ∧ log s0 = [] ∧
    Relays X y.C s0 x.user ∧ y.w.fed <+: log (relayAll X y.C s0 (delivered x.w)).1

/-- Programs one behind the other. -/
inductive GoingRoute : List Station → Prop where
  | one {x : Station} (hx : x.Going) : GoingRoute [x]
  | cons {x y : Station} {xs : List Station} (hx : x.Going) (hp : PassesSome x y) (hs : GoingRoute (y :: xs)) :
      GoingRoute (x :: y :: xs)

theorem GoingRoute.head {x : Station} {xs : List Station} (h : GoingRoute (x :: xs)) : x.Going := by
  cases h <;> assumption

theorem Station.Going.types {x : Station} (hx : x.Going) {c : Call} (hc : c ∈ x.finished) : c.1 ∈ x.C.messages := by
  obtain ⟨m, ⟨t, ht, _⟩, rfl⟩ := completed_isMsg hx.setting hx.reached hc
  have : (meaning x.C m).1 = t := by simp [meaning, ht]
  rw [this]
  exact List.mem_of_getElem? ht

/-- The second program has handled to the end a beginning of what the first has; and its handlers have been called with
nothing else. -/
theorem passes_some {x y : Station} (hx : x.Going) (hy : y.Going) (hp : PassesSome x y)
    (hrep : ∀ c ∈ delivered x.w, Resendable y.C c) :
    y.finished <+: x.finished.filter (fun c => c.1 ∈ y.C.messages) ∧ ∀ c ∈ delivered y.w, c ∈ x.finished := by
  obtain ⟨σ, X, log, s0, H, hpr, h0, hr, hf⟩ := hp
  constructor
  · obtain ⟨ms, hm, e⟩ := C95_once hy.setting hy.reached
    rw [Station.finished, e]
    exact run_gateway H hpr h0 hy.ids hr hx.setting hx.reached hx.sees hrep hf hm
  · intro c hc
    obtain ⟨ms, t, hm, hc⟩ := delivered_run hy.setting hy.reached hc
    exact (List.mem_filter.1 ((run_gateway H hpr h0 hy.ids hr hx.setting hx.reached hx.sees hrep hf hm).subset hc)).1

/-- C134, any number of gateways. Programs pass on what they receive, one to the next, over transmitters that throw now and
then. Whenever one looks, each of them has completed calls for a beginning of the messages completed by the first whose
types it and all in between have, each once, in order and with the same contents. -/
theorem C134_route {x z : Station} {xs ys zs : List Station} (h : GoingRoute (x :: xs)) (e : x :: xs = ys ++ z :: zs)
    (hrep : ∀ c ∈ delivered x.w, ∀ y ∈ xs, Resendable y.C c) :
    z.finished <+: x.finished.filter (fun c => shared (ys ++ [z]) c.1) := by
  induction ys generalizing x xs with
  | nil =>
    obtain ⟨rfl, rfl⟩ := List.cons.inj e
    rw [List.filter_eq_self.2 fun c hc => ?_]
    · exact List.prefix_refl _
    · have := h.head.types hc
      simpa [shared] using this
  | cons y ys ih =>
    obtain ⟨rfl, e'⟩ := List.cons.inj e
    clear e
    have e : xs = ys ++ z :: zs := e'
    clear e'
    cases h with
    | one hx => simp at e
    | @cons _ y' xs' hx hp hs =>
      obtain ⟨hy, hd⟩ := passes_some hx hs.head hp fun c hc => hrep c hc y' (by simp)
      have hfin : ∀ c ∈ x.finished, c ∈ delivered x.w := by
        intro c hc
        obtain ⟨ps, j, m, e1, e2, _, _⟩ := C95_attempts hx.setting hx.reached
        rw [Station.finished, e1] at hc
        rw [e2]
        obtain ⟨m', hm', rfl⟩ := List.mem_map.1 hc
        obtain ⟨p, hp', rfl⟩ := List.mem_map.1 hm'
        refine List.mem_append.2 (.inl ?_)
        simp only [attempts, List.mem_flatMap, List.mem_replicate]
        exact ⟨p, hp', by omega, rfl⟩
      refine (ih hs e fun c hc y hy' => hrep c (hfin c (hd c hc)) y (by simp [hy'])).trans ?_
      refine (hy.filter _).trans ?_
      rw [List.filter_filter, List.filter_congr fun c hc => ?_]
      · exact List.prefix_refl _
      have hx' := hx.types hc
      have hmem : y' ∈ ys ++ [z] := by
        cases ys with
        | nil => simp at e; simp [e.1]
        | cons a ys => simp at e; simp [e.1]
      by_cases hs' : shared (ys ++ [z]) c.1 = true
      · have : c.1 ∈ y'.C.messages := by
          simp only [shared, List.all_eq_true, decide_eq_true_eq] at hs'
          exact hs' y' hmem
        simp only [hs', this, decide_true, Bool.and_self]
        simp only [shared, List.cons_append, List.all_cons] at hs' ⊢
        simp [hx', hs']
      · rw [Bool.not_eq_true] at hs'
        rw [hs', Bool.false_and]
        simp only [shared, List.cons_append, List.all_cons] at hs' ⊢
        rw [hs', Bool.and_false]

/-- C134, from end to end. The first program gets its messages from a sender that insists on each of them. Whenever one
looks, what any of the programs has handled to the end is a beginning of the messages whose `send` has returned and which
it can get at all, each once. -/
theorem C134_end_to_end {X : ThrowTx σ} {log : σ → List Byte} (H : Honest X log) (hp : Prompt X log) {s s' : σ}
    {rs : List (Request × Nat)} {r : Request} {k : Nat} (hx : InsistsSoFar X s rs r k s') (h0 : log s = [])
    {x z : Station} {xs ys zs : List Station} (hr : ∀ q ∈ rs, Steadfast x.C q.1 ∧ ∀ y ∈ xs, Resendable y.C q.1.call)
    (hk : 0 < k → Steadfast x.C r) (h : GoingRoute (x :: xs)) (hfed : x.w.fed <+: log s') (e : x :: xs = ys ++ z :: zs) :
    z.finished <+: (rs.filter fun q => shared (ys ++ [z]) q.1.t).map (·.1.call) := by
  have hrun := fun {t' : List Byte} {ms : List Msg} (hm : Run x.C x.w.fed ms t') =>
    run_so_far H hp hx h0 (fun q hq => (hr q hq).1) hk hfed hm
  refine (C134_route h e fun c hc y hy => ?_).trans ?_
  · obtain ⟨ms, t, hm, hc⟩ := delivered_run h.head.setting h.head.reached hc
    obtain ⟨q, hq, rfl⟩ := List.mem_map.1 ((hrun hm).subset hc)
    exact (hr q hq).2 y hy
  · obtain ⟨ms, hm, e'⟩ := C95_once h.head.setting h.head.reached
    have := (hrun hm).filter (fun c => shared (ys ++ [z]) c.1)
    rw [List.filter_map (f := fun q : Request × Nat => q.1.call)] at this
    rw [Station.finished, e']
    exact this

/-! ### An example -/

/-- The sender of the example of C132 after its first exception at `ping`. -/
theorem so_far_example : InsistsSoFar (flaky thrice false) ([], 0) [((insisted .basic)[0], 2)] (insisted .basic)[1] 1
    (insistedLine.take 19, 19) :=
  ⟨(insistedLine.take 17, 16), .cons (by decide +kernel) (.nil _), by decide +kernel⟩

/-- The calls on the gateway and on the far end up to now. -/
def midSoFar : List Op := [.setHandler Sample.h0, .append (insistedLine.take 18), .process, .process, .process]
def farSoFar : List Op := [.setHandler Sample.h0, .append (midLine.take 18), .process]

/-- `pose` has been sent, `ping` is being tried; the gateway has passed `pose` on, at the third attempt; the handler of the
far end has been called for it and has thrown. The hypotheses of the theorems above hold. -/
example : ∃ x z : Station, GoingRoute [x, z] ∧ x.C = fourTypes .basic ∧ z.C = farSide ∧
    x.w.fed = insistedLine.take 18 ∧ exceptions x.os = 2 ∧ exceptions z.os = 1 ∧
    delivered z.w = [(insisted .basic)[0].call] ∧
    z.finished <+: [(insisted .basic)[0].call] := by
  obtain ⟨w, os, h1, h2⟩ := Sample.reached (C := fourTypes .basic) (B := Sample.dbg) (user := midUser) (fuel := 50)
    (ops := midSoFar) (fun w os =>
      decide (os = [.unit, .unit, .processed .threw, .processed .threw, .processed (.returned 1)]) &&
      decide (w.fed = insistedLine.take 18) && w.trace.all (fun i => (userCall i).isSome) &&
      decide ((relayAll (flaky thrice false) farSide ([], 0) (delivered w)).1.1 = midLine.take 18)) (by decide +kernel)
  obtain ⟨w2, os2, g1, g2⟩ := Sample.reached (C := farSide) (B := Sample.dbg) (user := stubborn) (fuel := 50)
    (ops := farSoFar) (fun w os => decide (os = [.unit, .unit, .processed .threw]) &&
      decide (w.fed = midLine.take 18) && w.trace.all (fun i => (userCall i).isSome) &&
      decide (delivered w = [(insisted .basic)[0].call])) (by decide +kernel)
  simp only [Bool.and_eq_true, decide_eq_true_eq, List.all_eq_true] at h2 g2
  obtain ⟨⟨⟨a2, a3⟩, a4⟩, a5⟩ := h2
  obtain ⟨⟨⟨b2, b3⟩, b4⟩, b5⟩ := g2
  have hs1 : Setting (fourTypes .basic) Sample.dbg midUser := ⟨⟨by decide, by decide⟩, relayUser_benign _ _ _⟩
  have hs2 : Setting farSide Sample.dbg stubborn := ⟨⟨by decide, by decide⟩, (stubborn_four .basic).benign⟩
  have l1 : (fourTypes .basic).messages.length ≤ 255 := by decide
  have l2 : farSide.messages.length ≤ 255 := by decide
  have hx : (Station.mk (fourTypes .basic) Sample.dbg midUser 50 midSoFar w os).Going :=
    ⟨hs1, h1, l1, fun i hi e => by have := a4 i hi; simp [e] at this⟩
  have hz : (Station.mk farSide Sample.dbg stubborn 50 farSoFar w2 os2).Going :=
    ⟨hs2, g1, l2, fun i hi e => by have := b4 i hi; simp [e] at this⟩
  have hr : GoingRoute [Station.mk (fourTypes .basic) Sample.dbg midUser 50 midSoFar w os,
      Station.mk farSide Sample.dbg stubborn 50 farSoFar w2 os2] :=
    .cons hx ⟨_, _, (·.1), _, flaky_honest thrice false, flaky_prompt thrice, rfl, relayUser_relays _ _ _,
      ⟨[], by rw [List.append_nil]; exact b3.trans a5.symm⟩⟩ (.one hz)
  have s0 : Steadfast (fourTypes .basic) (insisted .basic)[0] := by unfold Steadfast; decide
  have s1 : Steadfast (fourTypes .basic) (insisted .basic)[1] := by unfold Steadfast; decide
  have p1 : Retriable farSide (Request.msg ⟨farSide, Sample.pose, (insisted .basic)[0].vs⟩) := by decide
  have n1 : (Request.msg ⟨farSide, Sample.pose, (insisted .basic)[0].vs⟩).id ≠ 0x02 := by decide
  refine ⟨_, _, hr, rfl, rfl, a3, by subst a2; rfl, by subst b2; rfl, b5, ?_⟩
  refine C134_end_to_end (flaky_honest thrice false) (flaky_prompt thrice) so_far_example rfl (ys := [_]) (zs := [])
    ?_ (fun _ => s1) hr (by rw [a3]; exact ⟨[0], rfl⟩) rfl
  intro q hq
  simp only [List.mem_cons, List.not_mem_nil, or_false] at hq
  subst hq
  refine ⟨s0, fun y hy => ?_⟩
  simp only [List.mem_cons, List.not_mem_nil, or_false] at hy
  subst hy
  intro r e
  have : r = ⟨farSide, Sample.pose, (insisted .basic)[0].vs⟩ := (Option.some.inj e).symm
  subst this
  exact ⟨p1, fun e => absurd e n1⟩

/-- Without `Prompt` it is false: if `outputFinished` throws, a message has been handled whose `send` has not returned. -/
theorem C134_finished_witness : ∃ (bad : Nat → Bool) (w : World (fourTypes .basic)) (os : List Obs) (s' : List Byte × Nat),
    Honest (flaky bad true) (·.1) ∧ InsistsSoFar (flaky bad true) ([], 0) [] (insisted .basic)[1] 1 s' ∧
    Steadfast (fourTypes .basic) (insisted .basic)[1] ∧
    Reached Sample.dbg Sample.passive 50 [.setHandler Sample.h0, .append s'.1, .process] w os ∧
    delivered w = [(insisted .basic)[1].call] := by
  obtain ⟨w, os, h1, h2⟩ := Sample.reached (C := fourTypes .basic) (B := Sample.dbg) (user := Sample.passive) (fuel := 50)
    (ops := [.setHandler Sample.h0, .append [1, 0, 2, 3, 4], .process])
    (fun w _ => decide (delivered w = [(insisted .basic)[1].call])) (by decide +kernel)
  exact ⟨(· == 5), w, os, ([1, 0, 2, 3, 4], 6), flaky_honest _ _, ⟨_, .nil _, by decide +kernel⟩, by unfold Steadfast; decide,
    h1, by simpa using h2⟩

end TT.Properties
