import Verif.Properties.Completion
import Verif.Properties.Forever

/-!
# Property C139: programs that run forever, with handlers that throw
-/

namespace TT.Properties
open Spec

variable {C : Collection} {B : Build} {user : UserCode} {fuel : Nat}

/-- What has been handled to the end after the first `n` calls of an endless program: the handler calls that returned. -/
def finished (B : Build) (user : UserCode) (fuel : Nat) (C : Collection) (ops : Nat → Op) (n : Nat) : List (MsgType × List (List Byte)) :=
  (completed B user fuel (World.new C) (firstCalls ops n)).map seen

/-- Again and again `processMessages` is called with a handler set and is not left by an exception. -/
def ReturnsForever {ops : Nat → Op} (E : Execution C B user fuel ops) : Prop :=
  ∀ n, ∃ k c, n ≤ k ∧ ops k = .process ∧ (E.state (k + 1)).rx.hasHandler = true ∧
    E.observed (k + 1) = E.observed k ++ [.processed (.returned c)]

theorem completed_append {w w1 : World C} {ops ops' : List Op} {os : List Obs} (h : w.run B user fuel ops = .ok (w1, os)) :
    completed B user fuel w (ops ++ ops') = completed B user fuel w ops ++ completed B user fuel w1 ops' := by
  induction ops generalizing w os with
  | nil =>
    simp only [World.run, Except.ok.injEq, Prod.mk.injEq] at h
    rw [h.1]
    rfl
  | cons op ops ih =>
    simp only [World.run] at h
    cases hs : w.step B user fuel op with
    | error e => simp [hs] at h
    | ok r =>
      obtain ⟨w2, o⟩ := r
      simp only [hs, ok_bind] at h
      cases hr : w2.run B user fuel ops with
      | error e => simp [hr] at h
      | ok r =>
        obtain ⟨w3, os3⟩ := r
        simp only [hr, ok_bind, pure_eq_ok, Except.ok.injEq, Prod.mk.injEq] at h
        obtain ⟨rfl, rfl⟩ := h
        simp only [List.cons_append, completed, hs, ih hr, List.append_assoc]

theorem finished_grows {ops : Nat → Op} (E : Execution C B user fuel ops) {n k : Nat} (h : n ≤ k) :
    finished B user fuel C ops n <+: finished B user fuel C ops k := by
  obtain ⟨d, rfl⟩ := Nat.exists_eq_add_of_le h
  unfold finished
  rw [firstCalls_add, completed_append (E.reached n).run, List.map_append]
  exact List.prefix_append _ _

/-- One call of an endless program. -/
theorem stage (S : Setting C B user) {ops : Nat → Op} (E : Execution C B user fuel ops) (k : Nat) :
    ∃ s s' ms ms1 o, Abs (E.state k) s ∧ Abs (E.state (k + 1)) s' ∧ Run C (E.state k).fed ms s.buf ∧
      Run C (E.state (k + 1)).fed (ms ++ ms1) s'.buf ∧
      finished B user fuel C ops k = ms.map (meaning C) ∧ Step C user s (ops k) ms1 s' o ∧
      E.observed (k + 1) = E.observed k ++ [o] ∧ finished B user fuel C ops (k + 1) = (ms ++ ms1).map (meaning C) := by
  obtain ⟨s, ms, ha, he, hc⟩ := completed_exec S (abs_new C) (E.reached k).legal (E.reached k).run
  have h1 := E.reached (k + 1)
  rw [firstCalls_succ] at h1
  obtain ⟨w1, os1, os2, e1, e2, e3⟩ := run_append h1.run
  rw [(E.reached k).run] at e1
  simp only [Except.ok.injEq, Prod.mk.injEq] at e1
  obtain ⟨rfl, rfl⟩ := e1
  obtain ⟨s', ms1, ha', he', hc'⟩ := completed_exec S ha (Legal.drop _ h1.legal (E.reached k).run) e2
  have hr : Run C s.fed ms s.buf := by simpa using he.sound (D := []) (Run.refl _)
  have hr' : Run C s'.fed (ms ++ ms1) s'.buf := he'.sound hr
  have hf : finished B user fuel C ops (k + 1) = (ms ++ ms1).map (meaning C) := by
    unfold finished
    rw [firstCalls_succ, completed_append (E.reached k).run, List.map_append, hc, hc', List.map_append]
  rw [← ha.fed] at hr
  rw [← ha'.fed] at hr'
  cases he' with
  | cons hs hnil =>
    cases hnil
    rw [List.append_nil] at hf hr'
    exact ⟨s, s', ms, _, _, ha, ha', hr, hr', hc, hs, e3, hf⟩

/-- Bytes never leave the record of what has come in. -/
theorem fed_grows (S : Setting C B user) {ops : Nat → Op} (E : Execution C B user fuel ops) {n k : Nat} (h : n ≤ k) :
    (E.state n).fed <+: (E.state k).fed := by
  induction k with
  | zero => rw [Nat.le_zero.mp h]; exact List.prefix_refl _
  | succ k ih =>
    rcases Nat.lt_or_ge k n with hk | hk
    · rw [show n = k + 1 by omega]; exact List.prefix_refl _
    · refine (ih hk).trans ?_
      obtain ⟨s, s', _, _, _, ha, ha', _, _, _, hs, _, _⟩ := stage S E k
      rw [ha.fed, ha'.fed]
      generalize ops k = op at hs
      cases hs with
      | append _ => exact List.prefix_append _ _
      | receive _ _ => exact List.prefix_append _ _
      | setHandler => exact List.prefix_refl _
      | clearHandler => exact List.prefix_refl _
      | copy => exact List.prefix_refl _
      | idle _ => exact List.prefix_refl _
      | process _ hp =>
        obtain ⟨app, _, _, e, _⟩ := hp.sound
        exact ⟨app, e.symm⟩
      | thrown _ hp =>
        obtain ⟨app, _, _, e, _⟩ := hp.sound
        exact ⟨app, e.symm⟩

/-- Two scans of the beginnings of a stream agree as far as both go. -/
theorem scans_agree {s t r r' : List Byte} {ms ms' : List Msg} (hp : s <+: t) (h : Decodes C s ms r) (h' : Run C t ms' r') :
    ms <+: ms' ∨ ms' <+: ms := by
  obtain ⟨u, rfl⟩ := hp
  obtain ⟨es, q, hd⟩ := decodes_exists C r'
  have h1 : Decodes C (s ++ u) (ms' ++ es) q := ⟨h'.trans hd.1, hd.2⟩
  exact List.prefix_or_prefix_of_prefix (decodes_grows h h1) (List.prefix_append _ _)

/-- C139. At each moment of an endless program the handler calls that returned are those for the first messages
that have come in, each once and in order. -/
theorem C139_safe (S : Setting C B user) {ops : Nat → Op} (E : Execution C B user fuel ops) {n k : Nat} (h : n ≤ k)
    {ms : List Msg} {r : List Byte} (hd : Decodes C (E.state k).fed ms r) :
    finished B user fuel C ops n <+: ms.map (meaning C) := by
  obtain ⟨ms', hr, e⟩ := C95_once S (E.reached k)
  refine (finished_grows E h).trans ?_
  obtain ⟨es, q, hd'⟩ := decodes_exists C (buffered (E.state k))
  obtain ⟨rfl, _⟩ := (show Decodes C _ (ms' ++ es) q from ⟨hr.trans hd'.1, hd'.2⟩).unique hd
  unfold finished
  rw [e, List.map_append]
  exact List.prefix_append _ _

theorem bounded_stops {f : Nat → Nat} (hm : ∀ n k, n ≤ k → f n ≤ f k) {b : Nat} (hb : ∀ n, f n < b) :
    ∃ n, ∀ k, n ≤ k → f k = f n := by
  induction b with
  | zero => exact absurd (hb 0) (by omega)
  | succ b ih =>
    rcases Classical.em (∃ n, f n = b) with ⟨n, hn⟩ | hn
    · refine ⟨n, fun k hk => ?_⟩
      have := hm n k hk
      have := hb k
      omega
    · exact ih fun n => by
        have := hb n
        have : f n ≠ b := fun e => hn ⟨n, e⟩
        omega

/-- C139. Only a handler that throws forever keeps messages from being handled. In an endless program either all messages that have come in at some moment are handled to the end after some
number of calls; or from some moment on every call of `processMessages` makes one handler call, always for the same
one of these messages, and is left by an exception, and exactly the messages before that one have been handled to the end. -/
theorem C139_dichotomy (S : Setting C B user) {ops : Nat → Op} (E : Execution C B user fuel ops) {n : Nat}
    {ms : List Msg} {r : List Byte} (hd : Decodes C (E.state n).fed ms r) :
    (∃ N, ∀ k, N ≤ k → ms.map (meaning C) <+: finished B user fuel C ops k) ∨
    ∃ ds m es, ms = ds ++ m :: es ∧ ∃ N, ∀ k, N ≤ k → finished B user fuel C ops k = ds.map (meaning C) ∧
      (ops k = .process → (E.state (k + 1)).rx.hasHandler = true →
        E.observed (k + 1) = E.observed k ++ [.processed .threw] ∧
        delivered (E.state (k + 1)) = delivered (E.state k) ++ [meaning C m]) := by
  rcases Classical.em (∃ k, n ≤ k ∧ ms.length ≤ (finished B user fuel C ops k).length) with ⟨N, hn, hl⟩ | hno
  · left
    refine ⟨N, fun k hk => List.IsPrefix.trans ?_ (finished_grows E hk)⟩
    obtain ⟨ms', hr, e⟩ := C95_once S (E.reached N)
    unfold finished at hl ⊢
    rw [e] at hl ⊢
    rw [List.length_map] at hl
    rcases scans_agree (fed_grows S E hn) hd hr with h | h
    · exact h.map _
    · rw [h.eq_of_length (Nat.le_antisymm h.length_le hl)]
      exact List.prefix_refl _
  · right
    have hlt : ∀ k, (finished B user fuel C ops k).length < ms.length := by
      intro k
      have h1 : (finished B user fuel C ops k).length ≤ (finished B user fuel C ops (n + k)).length :=
        (finished_grows E (by omega)).length_le
      have h2 : ¬ ms.length ≤ (finished B user fuel C ops (n + k)).length := fun h => hno ⟨n + k, by omega, h⟩
      omega
    obtain ⟨N, hN⟩ := bounded_stops (f := fun k => (finished B user fuel C ops k).length)
      (fun a b h => (finished_grows E h).length_le) hlt
    have hds : ∀ k, max n N ≤ k → ∀ ms' q, Run C (E.state k).fed ms' q → finished B user fuel C ops k = ms'.map (meaning C) →
        ms' <+: ms ∧ ms'.length = (finished B user fuel C ops N).length := by
      intro k hk ms' q hr e
      have h1 := hN k (by omega)
      simp only [e, List.length_map] at h1
      refine ⟨?_, h1⟩
      rcases scans_agree (fed_grows S E (show n ≤ k by omega)) hd hr with h | h
      · have h2 := h.length_le
        have h3 := hlt N
        omega
      · exact h
    obtain ⟨ms0, hr0, e0⟩ := C95_once S (E.reached (max n N))
    obtain ⟨⟨rest, hrest⟩, hl0⟩ := hds _ (Nat.le_refl _) ms0 _ hr0 e0
    have hlN := hlt N
    have hfin : ∀ k, max n N ≤ k → finished B user fuel C ops k = ms0.map (meaning C) := by
      intro k hk
      rw [show ms0.map (meaning C) = finished B user fuel C ops (max n N) from e0.symm]
      refine ((finished_grows E hk).eq_of_length ?_).symm
      have h1 := hN k (by omega)
      have h2 := hN (max n N) (by omega)
      rw [h1, h2]
    cases rest with
    | nil =>
      rw [List.append_nil] at hrest
      rw [← hrest, hl0] at hlN
      exact absurd hlN (Nat.lt_irrefl _)
    | cons m es =>
      refine ⟨ms0, m, es, hrest.symm, max n N, fun k hk => ⟨hfin k hk, fun hop hh => ?_⟩⟩
      obtain ⟨s, s', msk, ms1, o, ha, ha', hr, hr', hf, hs, ho, hf'⟩ := stage S E k
      have h1 := hds k hk _ _ hr hf
      have h2 := hds (k + 1) (by omega) _ _ hr' hf'
      have hms1 : ms1 = [] := by
        have := h1.2.trans h2.2.symm
        rw [List.length_append] at this
        exact List.length_eq_zero_iff.mp (by omega)
      subst hms1
      have hk0 : msk = ms0 := by
        have hp2 : ms0 <+: ms := ⟨_, hrest⟩
        have := List.prefix_of_prefix_length_le h1.1 hp2 (by omega)
        exact this.eq_of_length (by omega)
      subst hk0
      rw [List.append_nil] at hr'
      rw [hop] at hs
      rw [ha'.hasHandler] at hh
      generalize hms0 : ([] : List Msg) = ms1 at hs
      cases hs with
      | idle hno => simp [hno] at hh
      | process _ hpr =>
        obtain ⟨_, _, _, _, _, _, _, _, _, h7, _⟩ := hpr.sound
        have hfin' := (h7 rfl).1
        obtain ⟨u, hu⟩ := fed_grows S E (show n ≤ k + 1 by omega)
        rw [← hu] at hr'
        have := (decodes_grows hd ⟨hr', hfin'⟩).length_le
        rw [← hrest] at this
        simp at this
        omega
      | thrown _ hpr =>
        refine ⟨ho, ?_⟩
        obtain ⟨_, calls, cms, _, c2, _, c4, _, _, _, c8⟩ := hpr.sound
        obtain ⟨m', t, hm', hb, e⟩ := c8 rfl
        rw [← hms0, List.nil_append] at e
        rw [e] at c4
        rw [ha.delivered, ha'.delivered, c2, List.map_append, c4]
        rw [hb] at hr'
        have hr2 : Run C (E.state (k + 1)).fed (msk ++ [m']) t := hr'.trans (.take hm' (Run.refl t))
        have : msk ++ [m'] <+: msk ++ m :: es := by
          rcases scans_agree (fed_grows S E (show n ≤ k + 1 by omega)) hd hr2 with h | h
          · rw [← hrest] at h
            have hle := h.length_le
            simp only [List.length_append, List.length_cons, List.length_nil] at hle
            rw [← h.eq_of_length (by simp only [List.length_append, List.length_cons, List.length_nil]; omega)]
            exact List.prefix_refl _
          · rwa [← hrest] at h
        rw [List.prefix_append_right_inj] at this
        rw [(List.cons_prefix_cons.mp this).1]
        rfl

/-- C139. If again and again some call of `processMessages` is not left by an exception, all messages that have come in at
some moment are handled to the end after some number of calls. -/
theorem C139_live (S : Setting C B user) {ops : Nat → Op} (E : Execution C B user fuel ops) (hp : ReturnsForever E) {n : Nat}
    {ms : List Msg} {r : List Byte} (hd : Decodes C (E.state n).fed ms r) :
    ∃ N, ∀ k, N ≤ k → ms.map (meaning C) <+: finished B user fuel C ops k := by
  rcases C139_dichotomy S E hd with h | ⟨ds, m, es, _, N, h⟩
  · exact h
  · obtain ⟨k, c, h1, h2, h3, h4⟩ := hp N
    have h5 := ((h k h1).2 h2 h3).1
    rw [h4] at h5
    simp at h5

/-- User code that throws at most `T` times in a row when it is called with the same message: of `T + 1` such calls in a row
one returns. -/
def Relents (user : UserCode) (T : Nat) : Prop :=
  ∀ calls last, last.length = T + 1 → (∀ c ∈ last, ∀ d ∈ last, c.msg = d.msg ∧ c.args = d.args) →
    ∃ p q, last = p ++ q ∧ p ≠ [] ∧ ∀ free, (user (calls ++ p) free).throws = false

/-- A call of `processMessages` that makes one handler call and is left by its exception. -/
theorem one_thrown {s s' : AState} {ms : List Msg} (h : Proc C user s ms s' true) (e : ms = []) {c : MsgType × List (List Byte)}
    (hc : s'.trace.map seen = s.trace.map seen ++ [c]) :
    ∃ u free, s'.trace.filterMap userCall = s.trace.filterMap userCall ++ [u] ∧ (u.msg, u.args) = c ∧
      (user (s'.trace.filterMap userCall) free).throws = true := by
  cases h with
  | throw hm hr hh ht =>
    rename_i m t hd
    have ht' : (reaction user s.trace (callOf C hd m) (capacity C - (frame C.envelope m ++ t).length)).throws = true := ht
    have e1 : (afterCall C user s hd m t).1.trace = s.trace ++ [callOf C hd m] := rfl
    rw [e1] at hc ⊢
    rw [List.map_append, List.append_cancel_left_eq] at hc
    simp only [List.map_cons, List.map_nil, List.cons.injEq, and_true] at hc
    unfold reaction at ht'
    rw [List.filterMap_append]
    cases hu : userCall (callOf C hd m) with
    | none => simp [hu] at ht'
    | some u =>
      rw [hu] at ht'
      simp only [List.filterMap_append] at ht'
      refine ⟨u, _, by simp [hu], ?_, ht'⟩
      rw [← hc]
      unfold userCall at hu
      split at hu
      · cases hu; rfl
      · cases hu; rfl
      · split at hu
        · cases hu; rfl
        · simp at hu
  | msg _ _ _ _ _ => simp at e

/-- C139. If handlers throw at most `T` times in a row for the same message, whatever number that is, and `processMessages` is
called again and again, all messages that have come in at some moment are handled to the end after some number of calls. -/
theorem C139_patient (S : Setting C B user) {T : Nat} (hT : Relents user T) {ops : Nat → Op} (E : Execution C B user fuel ops)
    (hp : PollsForever E) {n : Nat} {ms : List Msg} {r : List Byte} (hd : Decodes C (E.state n).fed ms r) :
    ∃ N, ∀ k, N ≤ k → ms.map (meaning C) <+: finished B user fuel C ops k := by
  rcases C139_dichotomy S E hd with h | ⟨ds, m, es, _, N, h⟩
  · exact h
  · exfalso
    have hstep : ∀ k, N ≤ k → ∃ x, (E.state (k + 1)).trace.filterMap userCall = (E.state k).trace.filterMap userCall ++ x ∧
        (x = [] ∨ ∃ u free, x = [u] ∧ (u.msg, u.args) = meaning C m ∧
          (user ((E.state (k + 1)).trace.filterMap userCall) free).throws = true) ∧
        (ops k = .process → (E.state (k + 1)).rx.hasHandler = true → x ≠ []) := by
      intro k hk
      obtain ⟨s, s', msk, ms1, o, ha, ha', _, _, hf, hs, ho, hf'⟩ := stage S E k
      have hms1 : ms1 = [] := by
        rw [(h k hk).1] at hf
        rw [(h (k + 1) (by omega)).1] at hf'
        rw [hf, List.map_append] at hf'
        have := congrArg List.length hf'
        simp only [List.length_append, List.length_map] at this
        exact List.length_eq_zero_iff.mp (by omega)
      have hh := (h k hk).2
      rw [ha.trace, ha'.trace]
      rw [ha.delivered, ha'.delivered] at hh
      rw [ha'.hasHandler] at hh ⊢
      generalize ops k = op at hs hh ⊢
      cases hs with
      | append _ => exact ⟨[], by simp, by simp, by simp⟩
      | receive _ _ => exact ⟨[], by simp, by simp, by simp⟩
      | setHandler => exact ⟨[], by simp, by simp, by simp⟩
      | clearHandler => exact ⟨[], by simp, by simp, by simp⟩
      | copy => exact ⟨[], by simp, by simp, by simp⟩
      | idle hno => exact ⟨[], by simp, by simp, by simp [hno]⟩
      | process _ hpr =>
        obtain ⟨_, calls, cms, _, c2, _, c4, _, _, c7, _⟩ := hpr.sound
        have : calls = [] := by
          have := c4
          rw [(c7 rfl).2, hms1] at this
          simpa using this
        refine ⟨[], by rw [c2, this]; simp, by simp, fun h1 h2 => ?_⟩
        have h3 := (hh h1 h2).1
        rw [ho] at h3
        simp at h3
      | thrown hs1 hpr =>
        have h2 : s'.handler.isSome := by
          subst hms1
          cases hpr with
          | throw _ _ _ _ => 
            obtain ⟨_, e⟩ := handlerAfter_isSome _ _ _ (reaction_benign S.benign _ _ _)
            exact Option.isSome_iff_exists.mpr ⟨_, e⟩
        obtain ⟨u, free, e1, e2, e3⟩ := one_thrown hpr hms1 (hh rfl h2).2
        exact ⟨[u], e1, .inr ⟨u, free, rfl, e2, e3⟩, fun _ _ => by simp⟩
    have hrow : ∀ d, ∃ x, (E.state (N + d)).trace.filterMap userCall = (E.state N).trace.filterMap userCall ++ x ∧
        (∀ c ∈ x, (c.msg, c.args) = meaning C m) ∧
        ∀ p q, x = p ++ q → p ≠ [] → ∃ free, (user ((E.state N).trace.filterMap userCall ++ p) free).throws = true := by
      intro d
      induction d with
      | zero => exact ⟨[], by simp, by simp, fun p q e hp => absurd (List.append_eq_nil_iff.mp e.symm).1 hp⟩
      | succ d ih =>
        obtain ⟨x, h1, h2, h2'⟩ := ih
        obtain ⟨y, h3, h4, _⟩ := hstep (N + d) (by omega)
        rcases h4 with rfl | ⟨u, free, rfl, h4, h5⟩
        · exact ⟨x, by rw [← Nat.add_assoc, h3, h1, List.append_nil], h2, h2'⟩
        · refine ⟨x ++ [u], by rw [← Nat.add_assoc, h3, h1, List.append_assoc], fun c hc => ?_, fun p q e hp => ?_⟩
          · rcases List.mem_append.mp hc with hc | hc
            · exact h2 c hc
            · rw [List.mem_singleton.mp hc]; exact h4
          · rcases List.eq_nil_or_concat q with rfl | ⟨q', a, rfl⟩
            · rw [List.append_nil] at e
              subst e
              rw [h3, h1, List.append_assoc] at h5
              exact ⟨free, h5⟩
            · rw [List.concat_eq_append, ← List.append_assoc] at e
              exact h2' p q' (List.append_inj' e rfl).1 hp
    have hmono : ∀ d e, ((E.state (N + d)).trace.filterMap userCall).length ≤
        ((E.state (N + d + e)).trace.filterMap userCall).length := by
      intro d e
      induction e with
      | zero => exact Nat.le_refl _
      | succ e ih =>
        obtain ⟨y, h3, _, _⟩ := hstep (N + d + e) (by omega)
        rw [← Nat.add_assoc, h3, List.length_append]
        omega
    have hmany : ∀ t, ∃ d, t ≤ ((E.state (N + d)).trace.filterMap userCall).length := by
      intro t
      induction t with
      | zero => exact ⟨0, Nat.zero_le _⟩
      | succ t ih =>
        obtain ⟨d, hd⟩ := ih
        obtain ⟨k, h1, h2, h3⟩ := hp (N + d)
        obtain ⟨e, rfl⟩ := Nat.exists_eq_add_of_le h1
        obtain ⟨y, h4, _, h5⟩ := hstep (N + d + e) (by omega)
        have h6 := hmono d e
        have h7 := List.length_pos_iff.mpr (h5 h2 h3)
        refine ⟨d + e + 1, ?_⟩
        rw [show N + (d + e + 1) = N + d + e + 1 by omega, h4, List.length_append]
        omega
    obtain ⟨d, hd⟩ := hmany (((E.state N).trace.filterMap userCall).length + (T + 1))
    obtain ⟨x, h7, h8, h9⟩ := hrow d
    rw [h7, List.length_append] at hd
    have hx : x = x.take (x.length - (T + 1)) ++ x.drop (x.length - (T + 1)) := (List.take_append_drop _ _).symm
    obtain ⟨p, q, e1, e2, e3⟩ := hT ((E.state N).trace.filterMap userCall ++ x.take (x.length - (T + 1)))
      (x.drop (x.length - (T + 1))) (by rw [List.length_drop]; omega) (by
        intro c hc c' hc'
        have e1 := h8 c (List.mem_of_mem_drop hc)
        have e2 := h8 c' (List.mem_of_mem_drop hc')
        have := e1.trans e2.symm
        simp only [Prod.mk.injEq] at this
        exact this)
    obtain ⟨free, h10⟩ := h9 (x.take (x.length - (T + 1)) ++ p) q (by rw [List.append_assoc, ← e1]; exact hx) (by simp [e2])
    rw [← List.append_assoc, e3 free] at h10
    simp at h10

/-- C139. If the line carries an endless sequence of messages, and again and again some call of `processMessages` is not left by
an exception, then at each moment the first ones of them have been handled to the end, once each and in order,
and each one is after some number of calls. -/
theorem C139_messages (S : Setting C B user) {ops : Nat → Op} {E : Execution C B user fuel ops} {line : Nat → Byte}
    (hl : Listens E line) (hp : ReturnsForever E) {msgs : Nat → Msg} (hm : ∀ i, IsMsg C (msgs i))
    (hline : LineOf C.envelope msgs line) :
    (∀ n, ∃ i, finished B user fuel C ops n = (List.range i).map fun i => meaning C (msgs i)) ∧
    ∀ i, ∃ n, ∀ k, n ≤ k → (finished B user fuel C ops k)[i]? = some (meaning C (msgs i)) := by
  have hdec : ∀ n len, firstBytes line len = frames C.envelope ((List.range n).map msgs) →
      Decodes C (firstBytes line len) ((List.range n).map msgs) [] := by
    intro n len e
    refine ⟨?_, Or.inl rfl⟩
    rw [e]
    have := run_frames (C := C) (ms := (List.range n).map msgs) (by
      intro m hm'
      obtain ⟨i, _, rfl⟩ := List.mem_map.mp hm'
      exact hm i) []
    rwa [List.append_nil] at this
  have hge : ∀ n len, firstBytes line len = frames C.envelope ((List.range n).map msgs) → n ≤ len := by
    intro n len e
    have h1 := congrArg List.length e
    have h2 := frames_enough C.envelope msgs n
    simp only [firstBytes, List.length_map, List.length_range] at h1
    omega
  have hshort : ∀ n len, (E.state n).fed.length ≤ len → (E.state n).fed <+: firstBytes line len := by
    intro n len h
    obtain ⟨d, rfl⟩ := Nat.exists_eq_add_of_le h
    rw [firstBytes_add, ← hl.order n]
    exact List.prefix_append _ _
  constructor
  · intro n
    obtain ⟨len, hlen⟩ := hline ((E.state n).fed.length)
    obtain ⟨u, hu⟩ := hshort n len (hge _ _ hlen)
    obtain ⟨ms, r, hd⟩ := decodes_exists C (E.state n).fed
    have h1 := C139_safe S E (Nat.le_refl n) hd
    have h2 := decodes_grows hd (by rw [hu]; exact hdec _ _ hlen)
    have hpre := h1.trans (h2.map (meaning C))
    refine ⟨(finished B user fuel C ops n).length, ?_⟩
    have h3 := List.prefix_iff_eq_take.mp hpre
    have hle := hpre.length_le
    simp only [List.length_map, List.length_range] at hle
    rw [← List.map_take, ← List.map_take, List.take_range, Nat.min_eq_left hle, List.map_map] at h3
    exact h3
  · intro i
    obtain ⟨len, hlen⟩ := hline (i + 1)
    obtain ⟨n, hn⟩ := hl.all len
    obtain ⟨ms, r, hd⟩ := decodes_exists C (E.state n).fed
    obtain ⟨N, h⟩ := C139_live S E hp hd
    refine ⟨N, fun k hk => ?_⟩
    have h1 : (List.range (i + 1)).map msgs <+: ms := by
      obtain ⟨d, hdd⟩ := Nat.exists_eq_add_of_le hn
      have hd' := hd
      rw [hl.order n, hdd, firstBytes_add] at hd'
      exact decodes_grows (hdec _ _ hlen) hd'
    obtain ⟨t, e⟩ := (h1.map (meaning C)).trans (h k hk)
    rw [← e, List.getElem?_append_left (by simp)]
    simp

/-! ### A program that runs forever and whose handler throws at every other call -/

/-- Throws at the first call, the third, the fifth, … -/
def moody : UserCode := fun calls _ => ⟨[], decide (calls.length % 2 = 1)⟩

/-- Set a handler, then forever: append a message, call `processMessages` twice. -/
def loopTwice (E : Envelope) (h : Handler) (msgs : Nat → Msg) : Nat → Op
  | 0 => .setHandler h
  | n + 1 => if n % 3 = 0 then .append (frame E (msgs (n / 3))) else .process

theorem moody_relents : Relents moody 1 := by
  intro calls last hl _
  match last, hl with
  | [a, b], _ =>
    rcases Nat.mod_two_eq_zero_or_one calls.length with h | h
    · refine ⟨[a, b], [], rfl, by simp, fun _ => ?_⟩
      simp [moody]; omega
    · refine ⟨[a], [b], rfl, by simp, fun _ => ?_⟩
      simp [moody]; omega

theorem moody_benign : BenignUser moody := fun _ _ => ⟨by simp [moody], by simp [moody, appended]⟩

theorem moody_quiet : Quiet moody := fun _ _ => rfl

theorem moody_setting : Setting Sample.checked Sample.dbg moody := ⟨Sample.setting_checked.arith, moody_benign⟩

/-- What is known between two rounds. -/
structure Rested (s : AState) (n : Nat) : Prop where
  buf : s.buf = []
  handler : s.handler = some Sample.h0
  calls : (s.trace.filterMap userCall).length = 2 * n

theorem moody_round {s s' : AState} {n : Nat} {m : Msg} {ms : List Msg} {os : List Obs} (hs : Rested s n)
    (hm : IsMsg Sample.checked m)
    (h : Exec Sample.checked moody s [.append (frame Sample.checked.envelope m), .process, .process] ms s' os) :
    Rested s' (n + 1) ∧ s'.fed = s.fed ++ frame Sample.checked.envelope m ∧
      os = [.unit, .processed .threw, .processed (.returned 1)] := by
  have hr : ∀ (tr : List Invocation) free, reaction moody tr (callOf Sample.checked Sample.h0 m) free =
      ⟨[], decide (((tr.filterMap userCall).length + 1) % 2 = 1)⟩ := by
    intro tr free
    have hu : userCall (callOf Sample.checked Sample.h0 m) = some ⟨Sample.h0.obj, (meaning Sample.checked m).1, (meaning Sample.checked m).2, false⟩ := rfl
    unfold reaction
    rw [hu]
    simp only [moody, List.filterMap_append, List.length_append]
    rw [show (List.filterMap userCall [callOf Sample.checked Sample.h0 m]).length = 1 from rfl]
  have hc : ∀ s : AState, ∀ t, afterCall Sample.checked moody s Sample.h0 m t =
      (⟨frame Sample.checked.envelope m ++ t, some Sample.h0, some m.id, s.trace ++ [callOf Sample.checked Sample.h0 m], s.fed⟩,
        decide (((s.trace.filterMap userCall).length + 1) % 2 = 1)) := by
    intro s t
    simp only [afterCall, hr, appended, handlerAfter, List.append_nil]
  have hl : ∀ tr : List Invocation, ((tr ++ [callOf Sample.checked Sample.h0 m]).filterMap userCall).length =
      (tr.filterMap userCall).length + 1 := by
    intro tr
    rw [List.filterMap_append, List.length_append]
    rfl
  have hs1 := hs.calls
  cases h with
  | cons ha h =>
    cases ha with
    | append _ =>
      rw [hs.buf, List.nil_append] at h
      cases h with
      | cons h1 h =>
        have p1 : Proc Sample.checked moody { s with buf := frame Sample.checked.envelope m, fed := s.fed ++ frame Sample.checked.envelope m } []
            ⟨frame Sample.checked.envelope m, some Sample.h0, some m.id, s.trace ++ [callOf Sample.checked Sample.h0 m],
              s.fed ++ frame Sample.checked.envelope m⟩ true := by
          have := Proc.throw (C := Sample.checked) (user := moody)
            (s := { s with buf := frame Sample.checked.envelope m, fed := s.fed ++ frame Sample.checked.envelope m }) (t := [])
            hm (by rw [List.append_nil]; exact Run.refl _) hs.handler (by
              rw [hc]
              simp only [decide_eq_true_eq]
              omega)
          rw [hc, List.append_nil] at this
          exact this
        cases h1 with
        | idle hno => simp [hs.handler] at hno
        | process _ hp => simpa using (p1.unique hp).2.2
        | thrown _ hp =>
          obtain ⟨rfl, rfl, _⟩ := p1.unique hp
          cases h with
          | cons h2 h =>
            cases h
            have p2 : Proc Sample.checked moody ⟨frame Sample.checked.envelope m, some Sample.h0, some m.id,
                s.trace ++ [callOf Sample.checked Sample.h0 m], s.fed ++ frame Sample.checked.envelope m⟩ [m]
                ⟨[], some Sample.h0, some m.id, s.trace ++ [callOf Sample.checked Sample.h0 m] ++ [callOf Sample.checked Sample.h0 m],
                  s.fed ++ frame Sample.checked.envelope m⟩ false := by
              refine Proc.msg (t := []) (h := Sample.h0) hm (by rw [List.append_nil]; exact Run.refl _) rfl (by
                rw [hc]
                simp only [hl, decide_eq_false_iff_not]
                omega) ?_
              rw [hc]
              refine Proc.done (s := ⟨_, _, _, _, _⟩) (r := []) ?_
              simp only [List.append_nil, List.drop_length]
              exact ⟨Run.refl _, Or.inl rfl⟩
            cases h2 with
            | idle hno => simp at hno
            | process _ hp =>
              obtain ⟨rfl, rfl, _⟩ := p2.unique hp
              refine ⟨⟨rfl, rfl, ?_⟩, rfl, rfl⟩
              rw [hl, hl]
              omega
            | thrown _ hp => simpa using (p2.unique hp).2.2

theorem loopTwice_round (E : Envelope) (h : Handler) (msgs : Nat → Msg) (n : Nat) :
    firstCalls (loopTwice E h msgs) (3 * (n + 1) + 1) =
      firstCalls (loopTwice E h msgs) (3 * n + 1) ++ [.append (frame E (msgs n)), .process, .process] := by
  rw [show 3 * (n + 1) + 1 = (3 * n + 1) + 1 + 1 + 1 by omega, firstCalls_succ, firstCalls_succ, firstCalls_succ]
  have h1 : loopTwice E h msgs (3 * n + 1) = .append (frame E (msgs n)) := by
    show (if (3 * n) % 3 = 0 then _ else _) = _
    rw [if_pos (by omega), show 3 * n / 3 = n by omega]
  have h2 : loopTwice E h msgs (3 * n + 1 + 1) = .process := by
    show (if (3 * n + 1) % 3 = 0 then _ else _) = _
    rw [if_neg (by omega)]
  have h3 : loopTwice E h msgs (3 * n + 1 + 1 + 1) = .process := by
    show (if (3 * n + 1 + 1) % 3 = 0 then _ else _) = _
    rw [if_neg (by omega)]
  rw [h1, h2, h3]
  simp

theorem loopTwice_rounds {msgs : Nat → Msg} (hm : ∀ i, IsMsg Sample.checked (msgs i)) (n : Nat) :
    ∃ w s os, Reached (C := Sample.checked) Sample.dbg moody 100 (firstCalls (loopTwice Sample.checked.envelope Sample.h0 msgs) (3 * n + 1)) w os ∧
      Abs w s ∧ Rested s n ∧ w.fed = frames Sample.checked.envelope ((List.range n).map msgs) ∧
      (n ≠ 0 → ∃ os', os = os' ++ [.processed (.returned 1)]) := by
  induction n with
  | zero =>
    refine ⟨{ World.new Sample.checked with rx := (World.new Sample.checked).rx.setHandler Sample.h0 },
      { AState.new with handler := some Sample.h0 }, [.unit], ⟨⟨trivial, fun _ _ _ => trivial⟩, rfl⟩,
      ⟨(abs_new _).buf, rfl, rfl, rfl, rfl, rfl⟩, ⟨rfl, rfl, rfl⟩, rfl, by simp⟩
  | succ n ih =>
    obtain ⟨w, s, os, hr, ha, hs, hf, _⟩ := ih
    have hfit : s.buf.length + (frame Sample.checked.envelope (msgs n)).length ≤ capacity Sample.checked := by
      have := announced_le (hm n).announced
      rw [← maxLen_eq] at this
      rw [hs.buf]
      unfold capacity
      simp only [List.length_nil]
      omega
    have hleg : Legal Sample.dbg moody 100 w [.append (frame Sample.checked.envelope (msgs n)), .process, .process] := by
      refine ⟨?_, fun _ _ _ => ⟨trivial, fun _ _ _ => ⟨trivial, fun _ _ _ => trivial⟩⟩⟩
      simp only [OpLegal, ha.space moody_setting.arith.lt64]
      omega
    obtain ⟨w', os', e⟩ := run_total moody_setting.arith.lt64 moody_benign moody_quiet (fuel := 100) (by decide) moody_setting.arith ha hleg
    obtain ⟨s', ms, ha', he⟩ := run_exec moody_setting.arith.lt64 moody_benign moody_setting.arith ha hleg e
    obtain ⟨h1, h2, h3⟩ := moody_round hs (hm n) he
    refine ⟨w', s', os ++ os', ?_, ha', h1, ?_, fun _ => ⟨os ++ [.unit, .processed .threw], by rw [h3]; simp⟩⟩
    · rw [loopTwice_round]
      exact ⟨hr.legal.append hr.run hleg, run_append_ok hr.run e⟩
    · rw [ha'.fed, h2, ← ha.fed, hf, List.range_succ, List.map_append, frames_append]
      simp [frames]

/-- The hypotheses can be met: every message is handled at the second attempt. -/
example : ∃ E : Execution Sample.checked Sample.dbg moody 100 (loopTwice Sample.checked.envelope Sample.h0 counting),
    Relents moody 1 ∧ PollsForever E ∧ ReturnsForever E ∧ Listens E (endless Sample.checked.envelope counting) ∧
    (∀ n, ∃ i, finished Sample.dbg moody 100 Sample.checked (loopTwice Sample.checked.envelope Sample.h0 counting) n =
      (List.range i).map fun i => meaning Sample.checked (counting i)) ∧
    ∀ i, ∃ n, ∀ k, n ≤ k → (finished Sample.dbg moody 100 Sample.checked (loopTwice Sample.checked.envelope Sample.h0 counting) k)[i]? =
      some (meaning Sample.checked (counting i)) := by
  have hm : ∀ i, IsMsg Sample.checked (counting i) := fun _ => ⟨Sample.level, by show typeOf Sample.checked 1 = _; decide, rfl⟩
  have hex : ∀ n, ∃ x : World Sample.checked × List Obs,
      Reached Sample.dbg moody 100 (firstCalls (loopTwice Sample.checked.envelope Sample.h0 counting) n) x.1 x.2 := by
    intro n
    obtain ⟨w, _, os, hr, _⟩ := loopTwice_rounds hm n
    rw [show 3 * n + 1 = n + (2 * n + 1) by omega, firstCalls_add] at hr
    obtain ⟨w1, os1, _, e1, _⟩ := run_append hr.run
    exact ⟨(w1, os1), hr.legal.of_append, e1⟩
  let E : Execution Sample.checked Sample.dbg moody 100 (loopTwice Sample.checked.envelope Sample.h0 counting) :=
    ⟨fun n => (Classical.choose (hex n)).1, fun n => (Classical.choose (hex n)).2, fun n => Classical.choose_spec (hex n)⟩
  have hE : ∀ n, (E.state (3 * n + 1)).rx.hasHandler = true ∧
      (E.state (3 * n + 1)).fed = frames Sample.checked.envelope ((List.range n).map counting) ∧
      (n ≠ 0 → ∃ os', E.observed (3 * n + 1) = os' ++ [.processed (.returned 1)]) := by
    intro n
    obtain ⟨w, s, os, hr, ha, hs, hf, ho⟩ := loopTwice_rounds hm n
    have := (E.reached (3 * n + 1)).run
    rw [hr.run] at this
    simp only [Except.ok.injEq, Prod.mk.injEq] at this
    rw [← this.1, ← this.2, ha.hasHandler, hs.handler]
    exact ⟨rfl, hf, ho⟩
  have hret : ReturnsForever E := by
    intro n
    refine ⟨3 * n + 3, 1, by omega, ?_, (hE (n + 1)).1, ?_⟩
    · show (if (3 * n + 2) % 3 = 0 then _ else _) = _
      rw [if_neg (by omega)]
    · obtain ⟨os', e⟩ := (hE (n + 1)).2.2 (by omega)
      obtain ⟨_, _, _, _, o, _, _, _, _, _, _, e2, _⟩ := stage moody_setting E (3 * n + 3)
      rw [e2]
      rw [show 3 * (n + 1) + 1 = 3 * n + 3 + 1 by omega, e2] at e
      rw [(List.append_inj' e rfl).2]
  have hpoll : PollsForever E := fun n => by
    obtain ⟨k, _, h1, h2, h3, _⟩ := hret n
    exact ⟨k, h1, h2, h3⟩
  have hlis : Listens E (endless Sample.checked.envelope counting) := by
    constructor
    · intro n
      have h1 := fed_grows moody_setting E (show n ≤ 3 * n + 1 by omega)
      rw [(hE n).2.1, ← endless_frames] at h1
      have h2 := List.prefix_iff_eq_take.mp h1
      have h3 := h1.length_le
      simp only [firstBytes, List.length_map, List.length_range] at h3
      unfold firstBytes at h2
      rw [← List.map_take, List.take_range, Nat.min_eq_left h3] at h2
      exact h2
    · intro n
      refine ⟨3 * n + 1, ?_⟩
      rw [(hE n).2.1]
      exact frames_enough _ _ n
  exact ⟨E, moody_relents, hpoll, hret, hlis, C139_messages moody_setting hlis hret hm (endless_line _ _)⟩

/-! ### A handler that throws forever -/

/-- Throws whenever it is called. -/
def hopeless : UserCode := fun _ _ => ⟨[], true⟩

/-- Set a handler, append two messages, then call `processMessages` forever. -/
def pollAlways (xs : List Byte) (h : Handler) : Nat → Op
  | 0 => .setHandler h
  | 1 => .append xs
  | _ => .process

theorem hopeless_setting : Setting Sample.checked Sample.dbg hopeless :=
  ⟨Sample.setting_checked.arith, fun _ _ => ⟨by simp [hopeless], by simp [hopeless, appended]⟩⟩

theorem hopeless_polls {m : Msg} (hm : IsMsg Sample.checked m) {t : List Byte}
    (hfit : (frame Sample.checked.envelope m ++ t).length ≤ capacity Sample.checked) (n : Nat) :
    ∃ w s os, Reached (C := Sample.checked) Sample.dbg hopeless 100
      (firstCalls (pollAlways (frame Sample.checked.envelope m ++ t) Sample.h0) (n + 2)) w os ∧
      Abs w s ∧ s.buf = frame Sample.checked.envelope m ++ t ∧ s.fed = s.buf ∧ s.handler = some Sample.h0 := by
  induction n with
  | zero =>
    obtain ⟨w0, hr, ha⟩ : ∃ w0, Reached (C := Sample.checked) Sample.dbg hopeless 100 [.setHandler Sample.h0] w0 [.unit] ∧
        Abs w0 ⟨[], some Sample.h0, none, [], []⟩ :=
      ⟨{ World.new Sample.checked with rx := (World.new Sample.checked).rx.setHandler Sample.h0 },
        ⟨⟨trivial, fun _ _ _ => trivial⟩, rfl⟩, ⟨(abs_new _).buf, rfl, rfl, rfl, rfl, rfl⟩⟩
    obtain ⟨w1, h1, ha1, _⟩ := append_ok hopeless_setting.arith.lt64 ha (xs := frame Sample.checked.envelope m ++ t)
      (by simpa using hfit)
    have hleg : Legal Sample.dbg hopeless 100 w0 [.append (frame Sample.checked.envelope m ++ t)] := by
      refine ⟨?_, fun _ _ _ => trivial⟩
      simp only [OpLegal, ha.space hopeless_setting.arith.lt64]
      simpa using hfit
    have hrun : w0.run Sample.dbg hopeless 100 [.append (frame Sample.checked.envelope m ++ t)] = .ok (w1, [.unit]) := by
      simp [World.run, World.step, h1 _ hopeless_setting.arith]
    have hall : Reached (C := Sample.checked) Sample.dbg hopeless 100
        ([.setHandler Sample.h0] ++ [.append (frame Sample.checked.envelope m ++ t)]) w1 ([.unit] ++ [.unit]) :=
      ⟨hr.legal.append hr.run hleg, run_append_ok hr.run hrun⟩
    exact ⟨w1, _, _, hall, ha1, rfl, rfl, rfl⟩
  | succ n ih =>
    obtain ⟨w, s, os, hr, ha, hb, hf, hh⟩ := ih
    have hleg : Legal Sample.dbg hopeless 100 w [.process] := ⟨trivial, fun _ _ _ => trivial⟩
    obtain ⟨w', os', e⟩ := run_total hopeless_setting.arith.lt64 hopeless_setting.benign (fun _ _ => rfl) (fuel := 100) (by decide)
      hopeless_setting.arith ha hleg
    obtain ⟨s', ms, ha', he⟩ := run_exec hopeless_setting.arith.lt64 hopeless_setting.benign hopeless_setting.arith ha hleg e
    refine ⟨w', s', os ++ os', ?_, ha', ?_⟩
    · rw [show n + 1 + 2 = n + 2 + 1 by omega, firstCalls_succ]
      exact ⟨hr.legal.append hr.run hleg, run_append_ok hr.run e⟩
    · have p := Proc.throw (C := Sample.checked) (user := hopeless) (s := s) (t := t) hm (by rw [hb]; exact Run.refl _) hh rfl
      cases he with
      | cons hs hnil =>
        cases hnil
        cases hs with
        | idle hno => simp [hh] at hno
        | process _ hp => simpa using (p.unique hp).2.2
        | thrown _ hp =>
          obtain ⟨_, rfl, _⟩ := p.unique hp
          have hb' : (afterCall Sample.checked hopeless s Sample.h0 m t).1.buf = frame Sample.checked.envelope m ++ t :=
            List.append_nil _
          have hf' : (afterCall Sample.checked hopeless s Sample.h0 m t).1.fed = s.fed := List.append_nil _
          exact ⟨hb', by rw [hf', hb', hf, hb], rfl⟩

/-- C139, witness. The second case is possible: a handler that throws forever at the first message keeps the second one from being
handled. -/
theorem C139_forever_witness : ∃ E : Execution Sample.checked Sample.dbg hopeless 100
      (pollAlways (frames Sample.checked.envelope [⟨1, [5]⟩, ⟨1, [6]⟩]) Sample.h0),
    PollsForever E ∧ Decodes Sample.checked (E.state 2).fed [⟨1, [5]⟩, ⟨1, [6]⟩] [] ∧
    ∀ n, finished Sample.dbg hopeless 100 Sample.checked (pollAlways (frames Sample.checked.envelope [⟨1, [5]⟩, ⟨1, [6]⟩]) Sample.h0) n = [] := by
  have i5 : IsMsg Sample.checked ⟨1, [5]⟩ := by decide +kernel
  have hp := hopeless_polls i5 (t := frame Sample.checked.envelope ⟨1, [6]⟩) (by decide +kernel)
  rw [show frame Sample.checked.envelope ⟨1, [5]⟩ ++ frame Sample.checked.envelope ⟨1, [6]⟩ =
    frames Sample.checked.envelope [⟨1, [5]⟩, ⟨1, [6]⟩] by decide +kernel] at hp
  have hex : ∀ n, ∃ x : World Sample.checked × List Obs, Reached Sample.dbg hopeless 100
      (firstCalls (pollAlways (frames Sample.checked.envelope [⟨1, [5]⟩, ⟨1, [6]⟩]) Sample.h0) n) x.1 x.2 := by
    intro n
    obtain ⟨w, _, os, hr, _⟩ := hp n
    rw [firstCalls_add] at hr
    obtain ⟨w1, os1, _, e1, _⟩ := run_append hr.run
    exact ⟨(w1, os1), hr.legal.of_append, e1⟩
  let E : Execution Sample.checked Sample.dbg hopeless 100 (pollAlways (frames Sample.checked.envelope [⟨1, [5]⟩, ⟨1, [6]⟩]) Sample.h0) :=
    ⟨fun n => (Classical.choose (hex n)).1, fun n => (Classical.choose (hex n)).2, fun n => Classical.choose_spec (hex n)⟩
  have hE : ∀ n, ∃ s, Abs (E.state (n + 2)) s ∧ s.buf = frames Sample.checked.envelope [⟨1, [5]⟩, ⟨1, [6]⟩] ∧ s.fed = s.buf ∧
      s.handler = some Sample.h0 := by
    intro n
    obtain ⟨w, s, os, hr, ha, h⟩ := hp n
    have := (E.reached (n + 2)).run
    rw [hr.run] at this
    simp only [Except.ok.injEq, Prod.mk.injEq] at this
    rw [← this.1]
    exact ⟨s, ha, h⟩
  have hd : ∀ n, Decodes Sample.checked (E.state (n + 2)).fed [⟨1, [5]⟩, ⟨1, [6]⟩] [] := by
    intro n
    obtain ⟨s, ha, hb, hf, _⟩ := hE n
    rw [ha.fed, hf, hb]
    refine ⟨?_, Or.inl rfl⟩
    have := run_frames (C := Sample.checked) (ms := [⟨1, [5]⟩, ⟨1, [6]⟩]) (by decide +kernel) []
    rwa [List.append_nil] at this
  refine ⟨E, fun n => ⟨n + 2, by omega, rfl, ?_⟩, hd 0, fun n => ?_⟩
  · obtain ⟨s, ha, _, _, hh⟩ := hE (n + 1)
    rw [show n + 2 + 1 = n + 1 + 2 by omega, ha.hasHandler, hh]
    rfl
  · obtain ⟨ms, hr, e⟩ := C95_once hopeless_setting (E.reached (n + 2))
    obtain ⟨s, ha, hb, hf, _⟩ := hE n
    rw [ha.buffered, ha.fed, hf] at hr
    have hms : ms = [] := by
      have h1 := hr.total_le
      cases ms with
      | nil => rfl
      | cons a ms =>
        have h3 := List.length_pos_iff.mpr (frame_ne_nil Sample.checked.envelope a)
        rw [frames_cons, List.length_append] at h1
        omega
    have h2 := finished_grows E (show n ≤ n + 2 by omega)
    unfold finished at h2 ⊢
    rw [e, hms] at h2
    simpa using h2

end TT.Properties
