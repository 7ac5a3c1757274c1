import Verif.Properties.Reactions

/-!
# Property about messages whose handlers throw: C95
-/

namespace TT.Properties
open Spec

variable {C : Collection} {B : Build} {user : UserCode} {fuel : Nat}

/-! ### C95: every message is handled to the end exactly once -/

/-- The handler calls of a history that returned: all that were made, except the last one of each
`processMessages` call that was left by an exception. -/
def completed (B : Build) (user : UserCode) (fuel : Nat) : World C → List Op → List Invocation
  | _, [] => []
  | w, op :: ops =>
    match w.step B user fuel op with
    | .error _ => []
    | .ok (w', o) =>
      let calls := w'.trace.drop w.trace.length
      (if o = .processed .threw then calls.dropLast else calls) ++ completed B user fuel w' ops

/-- The exceptions a program has seen. -/
def exceptions (os : List Obs) : Nat := os.count (.processed .threw)

/-- Attempts to handle messages: `p.2` calls that were left by an exception, then one that
returned. -/
def attempts (C : Collection) (ps : List (Msg × Nat)) : List (MsgType × List (List Byte)) :=
  ps.flatMap fun p => List.replicate (p.2 + 1) (meaning C p.1)

/-- The message in front of the buffer has been tried `j` times in vain. -/
def Pending (C : Collection) (buf : List Byte) (j : Nat) (m : Msg) : Prop :=
  j = 0 ∨ IsMsg C m ∧ ∃ t, buf = frame C.envelope m ++ t

theorem Pending.append {buf : List Byte} {j : Nat} {m : Msg} (h : Pending C buf j m)
    (xs : List Byte) : Pending C (buf ++ xs) j m := by
  rcases h with h | ⟨hm, t, rfl⟩
  · exact .inl h
  · exact .inr ⟨hm, t ++ xs, by simp⟩

theorem step_calls {s s' : AState} {op : Op} {ms : List Msg} {o : Obs}
    (h : Step C user s op ms s' o) : ∃ calls, s'.trace = s.trace ++ calls ∧
      (if o = .processed .threw then calls.dropLast else calls).map seen = ms.map (meaning C) := by
  cases h with
  | append _ => exact ⟨[], by simp, by simp⟩
  | receive _ _ => exact ⟨[], by simp, by simp⟩
  | setHandler => exact ⟨[], by simp, by simp⟩
  | clearHandler => exact ⟨[], by simp, by simp⟩
  | copy => exact ⟨[], by simp, by simp⟩
  | idle _ => exact ⟨[], by simp, by simp⟩
  | process _ hp =>
    obtain ⟨_, calls, cms, _, h2, _, h4, _, _, h7, _⟩ := hp.sound
    exact ⟨calls, h2, by rw [if_neg (by simp), h4, (h7 rfl).2]⟩
  | thrown _ hp =>
    obtain ⟨_, calls, cms, _, h2, _, h4, _, _, _, h8⟩ := hp.sound
    obtain ⟨m, t, _, _, e⟩ := h8 rfl
    refine ⟨calls, h2, ?_⟩
    rw [if_pos rfl, List.map_dropLast, h4, e, List.map_append, List.map_singleton,
      List.dropLast_concat]

theorem completed_exec (S : Setting C B user) : ∀ {ops : List Op} {w w' : World C} {s : AState}
    {os : List Obs}, Abs w s → Legal B user fuel w ops → w.run B user fuel ops = .ok (w', os) →
    ∃ s' ms, Abs w' s' ∧ Exec C user s ops ms s' os ∧
      (completed B user fuel w ops).map seen = ms.map (meaning C) := by
  intro ops
  induction ops with
  | nil =>
    intro w w' s os ha _ hr
    simp only [World.run, Except.ok.injEq, Prod.mk.injEq] at hr
    obtain ⟨rfl, rfl⟩ := hr
    exact ⟨s, [], ha, .nil s, rfl⟩
  | cons op ops ih =>
    intro w w' s os ha hl hr
    rcases step_ok S.arith.lt64 S.benign fuel ha hl.1 with ⟨_, _, hd⟩ | ⟨w1, s1, ms, o, h1, h2, h3⟩
    · simp [World.run, hd B S.arith] at hr
    · have hs := h1 B S.arith
      simp only [World.run, hs, ok_bind] at hr
      cases hr1 : w1.run B user fuel ops with
      | error e => simp [hr1] at hr
      | ok r =>
        obtain ⟨w2, os2⟩ := r
        simp only [hr1, ok_bind, pure_eq_ok, Except.ok.injEq, Prod.mk.injEq] at hr
        obtain ⟨rfl, rfl⟩ := hr
        obtain ⟨s', ms', ha', he, hc⟩ := ih h2 (hl.2 _ _ hs) hr1
        refine ⟨s', ms ++ ms', ha', .cons h3 he, ?_⟩
        obtain ⟨calls, ht, hm⟩ := step_calls h3
        have : w1.trace.drop w.trace.length = calls := by
          rw [h2.trace, ha.trace, ht, List.drop_left]
        simp only [completed, hs, this, List.map_append, hm, hc]

theorem proc_attempts {s s' : AState} {ms : List Msg} {th : Bool} (h : Proc C user s ms s' th) :
    ∀ {j : Nat} {m : Msg}, Pending C s.buf j m → ∃ calls ps j' m',
      s'.trace = s.trace ++ calls ∧ ps.map (·.1) = ms ∧ Pending C s'.buf j' m' ∧
      List.replicate j (meaning C m) ++ calls.map seen
        = attempts C ps ++ List.replicate j' (meaning C m') ∧
      (ps.map (·.2)).sum + j' = j + (if th then 1 else 0) := by
  induction h with
  | @done s r hd =>
    intro j m hp
    rcases hp with rfl | ⟨hm, t, hb⟩
    · exact ⟨[], [], 0, m, by simp, rfl, .inl rfl, by simp [attempts], by simp⟩
    · exact (hd.no_first hm (t := t) (by rw [hb]; exact Run.refl _)).elim
  | @throw s m' t h hm hr hh ht =>
    intro j m hp
    have hmm : j = 0 ∨ m = m' := by
      rcases hp with rfl | ⟨hm0, t0, hb⟩
      · exact .inl rfl
      · exact .inr (first_unique hm0 hm (t := t0) (by rw [hb]; exact Run.refl _) hr).1
    refine ⟨[callOf C h m'], [], j + 1, m', rfl, rfl, .inr ⟨hm, _, by simp [afterCall]; rfl⟩,
      ?_, by simp⟩
    rcases hmm with rfl | rfl
    · simp [attempts]; rfl
    · simp [attempts, List.replicate_succ']; rfl
  | @msg s s' m' t h ms th hm hr hh ht _ ih =>
    intro j m hp
    have hmm : j = 0 ∨ m = m' := by
      rcases hp with rfl | ⟨hm0, t0, hb⟩
      · exact .inl rfl
      · exact .inr (first_unique hm0 hm (t := t0) (by rw [hb]; exact Run.refl _) hr).1
    obtain ⟨calls, ps, j', m'', h1, h2, h3, h4, h5⟩ := ih (j := 0) (m := m') (.inl rfl)
    refine ⟨callOf C h m' :: calls, (m', j) :: ps, j', m'', ?_, by simp [h2], h3, ?_, ?_⟩
    · rw [h1]; simp [afterCall]
    · have h4' : calls.map seen = attempts C ps ++ List.replicate j' (meaning C m'') := by
        simpa using h4
      have : attempts C ((m', j) :: ps) = List.replicate (j + 1) (meaning C m') ++ attempts C ps := by
        simp [attempts]
      rw [this, List.map_cons, h4', List.append_assoc]
      have e : seen (callOf C h m') = meaning C m' := rfl
      rcases hmm with rfl | rfl
      · simp [e]
      · simp [e, List.replicate_succ']
    · simp only [List.map_cons, List.sum_cons]; omega

theorem exec_attempts {s s' : AState} {ops : List Op} {ms : List Msg} {os : List Obs}
    (h : Exec C user s ops ms s' os) :
    ∀ {j : Nat} {m : Msg}, Pending C s.buf j m → ∃ calls ps j' m',
      s'.trace = s.trace ++ calls ∧ ps.map (·.1) = ms ∧ Pending C s'.buf j' m' ∧
      List.replicate j (meaning C m) ++ calls.map seen
        = attempts C ps ++ List.replicate j' (meaning C m') ∧
      (ps.map (·.2)).sum + j' = j + exceptions os := by
  induction h with
  | nil s =>
    intro j m hp
    exact ⟨[], [], j, m, by simp, rfl, hp, by simp [attempts], by simp [exceptions]⟩
  | @cons s s1 s' op ops ms ms' o os hs _ ih =>
    intro j m hp
    have key : ∃ calls ps j' m', s1.trace = s.trace ++ calls ∧ ps.map (·.1) = ms ∧
        Pending C s1.buf j' m' ∧ List.replicate j (meaning C m) ++ calls.map seen
          = attempts C ps ++ List.replicate j' (meaning C m') ∧
        (ps.map (·.2)).sum + j' = j + exceptions [o] := by
      cases hs with
      | append _ =>
        exact ⟨[], [], j, m, by simp, rfl, hp.append _, by simp [attempts], by simp [exceptions]⟩
      | receive _ _ =>
        exact ⟨[], [], j, m, by simp, rfl, hp.append _, by simp [attempts], by simp [exceptions]⟩
      | setHandler => exact ⟨[], [], j, m, by simp, rfl, hp, by simp [attempts], by simp [exceptions]⟩
      | clearHandler => exact ⟨[], [], j, m, by simp, rfl, hp, by simp [attempts], by simp [exceptions]⟩
      | copy => exact ⟨[], [], j, m, by simp, rfl, hp, by simp [attempts], by simp [exceptions]⟩
      | idle _ => exact ⟨[], [], j, m, by simp, rfl, hp, by simp [attempts], by simp [exceptions]⟩
      | process _ hpr =>
        obtain ⟨calls, ps, j', m', h1, h2, h3, h4, h5⟩ := proc_attempts hpr hp
        exact ⟨calls, ps, j', m', h1, h2, h3, h4, by rw [h5]; simp [exceptions]⟩
      | thrown _ hpr =>
        obtain ⟨calls, ps, j', m', h1, h2, h3, h4, h5⟩ := proc_attempts hpr hp
        exact ⟨calls, ps, j', m', h1, h2, h3, h4, by rw [h5]; simp [exceptions]⟩
    obtain ⟨calls, ps, j1, m1, h1, h2, h3, h4, h5⟩ := key
    obtain ⟨calls', ps', j2, m2, k1, k2, k3, k4, k5⟩ := ih h3
    refine ⟨calls ++ calls', ps ++ ps', j2, m2, by rw [k1, h1]; simp, by simp [h2, k2], k3, ?_, ?_⟩
    · have : attempts C (ps ++ ps') = attempts C ps ++ attempts C ps' := by simp [attempts]
      rw [this, List.map_append, ← List.append_assoc, h4, List.append_assoc, k4, List.append_assoc]
    · have : exceptions (o :: os) = exceptions [o] + exceptions os := by
        simp [exceptions, List.count_cons, Nat.add_comm]
      rw [this]
      simp only [List.map_append, List.sum_append]
      omega

/-- C95, at any time. However often handlers throw, the calls that returned are those for messages that a
scan of the bytes received finds, each once and in order, and the buffer holds the rest. -/
theorem C95_once (S : Setting C B user) {ops : List Op} {w : World C} {os : List Obs}
    (h : Reached B user fuel ops w os) :
    ∃ ms, Run C w.fed ms (buffered w) ∧
      (completed B user fuel (World.new C) ops).map seen = ms.map (meaning C) := by
  obtain ⟨s, ms, ha, he, hc⟩ := completed_exec S (abs_new C) h.legal h.run
  refine ⟨ms, ?_, hc⟩
  rw [ha.fed, ha.buffered]
  simpa using he.sound (D := []) (Run.refl _)

/-- C95, in the end. Once a `processMessages` call has returned (with a handler set), the calls that returned are
those for exactly the messages in the bytes received, each once and in order. So they are the same as if no handler
had ever thrown. -/
theorem C95_all (S : Setting C B user) {ops : List Op} {w : World C} {os : List Obs} {n : Byte}
    (h : Reached B user fuel (ops ++ [.process]) w (os ++ [.processed (.returned n)]))
    (hh : w.rx.hasHandler = true) :
    ∃ ms, Decodes C w.fed ms (buffered w) ∧
      (completed B user fuel (World.new C) (ops ++ [.process])).map seen = ms.map (meaning C) := by
  obtain ⟨s, ms, ha, he, hc⟩ := completed_exec S (abs_new C) h.legal h.run
  refine ⟨ms, ⟨?_, ?_⟩, hc⟩
  · rw [ha.fed, ha.buffered]
    simpa using he.sound (D := []) (Run.refl _)
  · obtain ⟨s1, ms1, ms2, os1, os2, _, h2, _, e⟩ := Exec.append_iff.mp he
    rw [ha.hasHandler] at hh
    rw [ha.buffered]
    cases h2 with
    | cons hs hnil =>
      cases hnil
      have e' := (List.append_inj' e rfl).2
      cases hs with
      | idle hno => simp [hno] at hh
      | process _ hp =>
        obtain ⟨_, _, _, _, _, _, _, _, _, h7, _⟩ := hp.sound
        exact (h7 rfl).1
      | thrown _ hp => simp at e'

/-- C95, independence. Two receivers that were given the same bytes, in whatever pieces, polled in whatever way,
with handlers that threw whenever they liked, have completed the same handler calls when the last poll returned. -/
theorem C95_same {B2 : Build} {user2 : UserCode} {fuel2 : Nat} (S : Setting C B user) (S2 : Setting C B2 user2)
    {ops ops2 : List Op} {w w2 : World C} {os os2 : List Obs} {n n2 : Byte}
    (h : Reached B user fuel (ops ++ [.process]) w (os ++ [.processed (.returned n)]))
    (h2 : Reached B2 user2 fuel2 (ops2 ++ [.process]) w2 (os2 ++ [.processed (.returned n2)]))
    (hh : w.rx.hasHandler = true) (hh2 : w2.rx.hasHandler = true) (hfed : w.fed = w2.fed) :
    (completed B user fuel (World.new C) (ops ++ [.process])).map seen =
      (completed B2 user2 fuel2 (World.new C) (ops2 ++ [.process])).map seen := by
  obtain ⟨ms, hd, hc⟩ := C95_all S h hh
  obtain ⟨ms2, hd2, hc2⟩ := C95_all S2 h2 hh2
  rw [← hfed] at hd2
  rw [hc, hc2, (hd.unique hd2).1]

/-- C95, messages sent. If the bytes are those of messages sent, exactly these messages have been handled to the
end, each once and in order, and nothing is left. -/
theorem C95_sent (S : Setting C B user) {ops : List Op} {w : World C} {os : List Obs} {n : Byte}
    (h : Reached B user fuel (ops ++ [.process]) w (os ++ [.processed (.returned n)]))
    (hh : w.rx.hasHandler = true) {ms : List Msg} (hms : ∀ m ∈ ms, IsMsg C m)
    (hfed : w.fed = frames C.envelope ms) :
    (completed B user fuel (World.new C) (ops ++ [.process])).map seen = ms.map (meaning C) ∧
      buffered w = [] := by
  obtain ⟨ms', hd, hc⟩ := C95_all S h hh
  rw [hfed] at hd
  have hd' : Decodes C (frames C.envelope ms) ms [] := ⟨by simpa using run_frames hms [], Or.inl rfl⟩
  obtain ⟨rfl, e⟩ := hd.unique hd'
  exact ⟨hc, e⟩

/-- C95, the calls in between. All handler calls of a history are attempts at these messages: for each message some calls
that were left by an exception, then the one that returned, and the next message is not tried before. Then
there may be calls in vain for one more message, which is then first in the buffer. There are as many calls in
vain as the program has seen exceptions. -/
theorem C95_attempts (S : Setting C B user) {ops : List Op} {w : World C} {os : List Obs}
    (h : Reached B user fuel ops w os) :
    ∃ (ps : List (Msg × Nat)) (j : Nat) (m : Msg),
      (completed B user fuel (World.new C) ops).map seen = (ps.map (·.1)).map (meaning C) ∧
      delivered w = attempts C ps ++ List.replicate j (meaning C m) ∧ Pending C (buffered w) j m ∧
      (ps.map (·.2)).sum + j = exceptions os := by
  obtain ⟨s, ms, ha, he, hc⟩ := completed_exec S (abs_new C) h.legal h.run
  obtain ⟨calls, ps, j, m, h1, h2, h3, h4, h5⟩ :=
    exec_attempts he (j := 0) (m := ⟨0, []⟩) (.inl rfl)
  refine ⟨ps, j, m, by rw [hc, h2], ?_, by rw [ha.buffered]; exact h3, by simpa using h5⟩
  rw [ha.delivered, h1, ← h4]
  simp [AState.new]

theorem proc_returned {s s' : AState} {ms : List Msg} {th : Bool} (h : Proc C user s ms s' th) :
    ∃ calls, s'.trace = s.trace ++ calls ∧ (th = true → calls ≠ []) ∧
      ∀ i ∈ (if th then calls.dropLast else calls), ∃ past free,
        (reaction user past i free).throws = false := by
  induction h with
  | done _ => exact ⟨[], by simp, by simp, by simp⟩
  | @throw s m t h _ _ _ _ => exact ⟨[callOf C h m], rfl, by simp, by simp⟩
  | @msg s s' m t h ms th _ _ _ ht _ ih =>
    obtain ⟨calls, h1, h2, h3⟩ := ih
    refine ⟨callOf C h m :: calls, by rw [h1]; simp [afterCall], by simp, ?_⟩
    have e : (if th then (callOf C h m :: calls).dropLast else callOf C h m :: calls)
        = callOf C h m :: (if th then calls.dropLast else calls) := by
      cases th
      · rfl
      · simp [List.dropLast_cons_of_ne_nil (h2 rfl)]
    rw [e]
    intro i hi
    rcases List.mem_cons.1 hi with rfl | hi
    · exact ⟨_, _, ht⟩
    · exact h3 i hi

theorem completed_returned (S : Setting C B user) : ∀ {ops : List Op} {w w' : World C} {s : AState}
    {os : List Obs}, Abs w s → Legal B user fuel w ops → w.run B user fuel ops = .ok (w', os) →
    (∃ calls, w'.trace = w.trace ++ calls ∧ (completed B user fuel w ops).Sublist calls) ∧
    ∀ i ∈ completed B user fuel w ops, ∃ past free, (reaction user past i free).throws = false := by
  intro ops
  induction ops with
  | nil =>
    intro w w' s os ha _ hr
    simp only [World.run, Except.ok.injEq, Prod.mk.injEq] at hr
    obtain ⟨rfl, rfl⟩ := hr
    exact ⟨⟨[], by simp, by simp [completed]⟩, by simp [completed]⟩
  | cons op ops ih =>
    intro w w' s os ha hl hr
    rcases step_ok S.arith.lt64 S.benign fuel ha hl.1 with ⟨_, _, hd⟩ | ⟨w1, s1, ms, o, h1, h2, h3⟩
    · simp [World.run, hd B S.arith] at hr
    · have hs := h1 B S.arith
      simp only [World.run, hs, ok_bind] at hr
      cases hr1 : w1.run B user fuel ops with
      | error e => simp [hr1] at hr
      | ok r =>
        obtain ⟨w2, os2⟩ := r
        simp only [hr1, ok_bind, pure_eq_ok, Except.ok.injEq, Prod.mk.injEq] at hr
        obtain ⟨rfl, rfl⟩ := hr
        obtain ⟨⟨calls', k1, k2⟩, k3⟩ := ih h2 (hl.2 _ _ hs) hr1
        have key : ∃ calls, s1.trace = s.trace ++ calls ∧
            ∀ i ∈ (if o = .processed .threw then calls.dropLast else calls), ∃ past free,
              (reaction user past i free).throws = false := by
          cases h3 with
          | append _ => exact ⟨[], by simp, by simp⟩
          | receive _ _ => exact ⟨[], by simp, by simp⟩
          | setHandler => exact ⟨[], by simp, by simp⟩
          | clearHandler => exact ⟨[], by simp, by simp⟩
          | copy => exact ⟨[], by simp, by simp⟩
          | idle _ => exact ⟨[], by simp, by simp⟩
          | process _ hp =>
            obtain ⟨calls, a, _, c⟩ := proc_returned hp
            exact ⟨calls, a, by simpa using c⟩
          | thrown _ hp =>
            obtain ⟨calls, a, _, c⟩ := proc_returned hp
            exact ⟨calls, a, by simpa using c⟩
        obtain ⟨calls, ht, hcl⟩ := key
        have : w1.trace.drop w.trace.length = calls := by
          rw [h2.trace, ha.trace, ht, List.drop_left]
        simp only [completed, hs, this]
        refine ⟨⟨calls ++ calls', by rw [k1, h2.trace, ht, ha.trace, List.append_assoc], ?_⟩, ?_⟩
        · refine List.Sublist.append ?_ k2
          split
          · exact List.dropLast_sublist _
          · exact List.Sublist.refl _
        · intro i hi
          rcases List.mem_append.1 hi with hi | hi
          · exact hcl i hi
          · exact k3 i hi

/-- User code that throws whenever it is called for the given message. -/
def AlwaysThrowsFor (user : UserCode) (c : MsgType × List (List Byte)) : Prop :=
  ∀ calls call free, (call.msg, call.args) = c → (user (calls ++ [call]) free).throws = true

/-- C95, a message that the handler never accepts. If user code throws whenever it is called for a certain message (and
all handlers pass calls on to user code), then from the first call for it on, all calls are for it: nothing behind it is
ever handled, whatever the program does. -/
theorem C95_stuck (S : Setting C B user) {ops : List Op} {w : World C} {os : List Obs}
    (h : Reached B user fuel ops w os) {c : MsgType × List (List Byte)} (hc : AlwaysThrowsFor user c)
    (hu : ∀ i ∈ w.trace, userCall i ≠ none) :
    ∃ pre k, delivered w = pre ++ List.replicate k c ∧ c ∉ pre := by
  obtain ⟨ps, j, m, h1, h2, _, _⟩ := C95_attempts S h
  obtain ⟨⟨calls, k1, k2⟩, k3⟩ := completed_returned S (abs_new C) h.legal h.run
  have hnot : ∀ p ∈ ps, meaning C p.1 ≠ c := by
    intro p hp e
    have : meaning C p.1 ∈ (completed B user fuel (World.new C) ops).map seen := by
      rw [h1]; exact List.mem_map_of_mem (List.mem_map_of_mem hp)
    obtain ⟨i, hi, he⟩ := List.mem_map.1 this
    obtain ⟨past, free, ht⟩ := k3 i hi
    have hi' : i ∈ w.trace := by rw [k1]; exact List.mem_append_right _ (k2.subset hi)
    have hui := hu i hi'
    cases hcall : userCall i with
    | none => exact hui hcall
    | some call =>
      simp only [reaction, hcall, List.filterMap_append, List.filterMap_cons, List.filterMap_nil] at ht
      have hs : (call.msg, call.args) = c := by
        rw [← e, ← he]
        unfold userCall at hcall
        split at hcall <;> first | (cases hcall; rfl) | (split at hcall <;> cases hcall; rfl)
      rw [hc _ _ _ hs] at ht
      cases ht
  have hps : c ∉ attempts C ps := by
    intro hm
    obtain ⟨p, hp, hr⟩ := List.mem_flatMap.1 hm
    exact hnot p hp (List.eq_of_mem_replicate hr).symm
  by_cases hm : meaning C m = c
  · exact ⟨attempts C ps, j, by rw [h2, hm], hps⟩
  · refine ⟨delivered w, 0, by simp, ?_⟩
    rw [h2]
    intro h'
    rcases List.mem_append.1 h' with h' | h'
    · exact hps h'
    · exact hm (List.eq_of_mem_replicate h').symm

/-- User code that throws at every other call, the first one included. -/
def stubborn : UserCode := fun calls _ => ⟨[], calls.length % 2 == 1⟩

theorem stubborn_setting : Setting Sample.basic Sample.dbg stubborn :=
  ⟨⟨by decide, by decide⟩, fun _ _ => ⟨by simp [stubborn], by simp [stubborn, appended]⟩⟩

/-- Three messages, each handled at the second attempt. -/
def stubbornOps : List Op :=
  [.setHandler Sample.h0, .append (frames .basic [Sample.mPing, Sample.mLevel, Sample.mPose]), .process,
    .process, .setHandler Sample.h1, .process] ++ [.process]

/-- Six handler calls and three exceptions; each message is handled to the end once. The hypotheses of C95_all, C95_same
and C95_sent hold. -/
example : Setting Sample.basic Sample.dbg stubborn ∧ ∃ (w : World Sample.basic) (os : List Obs),
    Reached Sample.dbg stubborn 50 stubbornOps w (os ++ [.processed (.returned 1)]) ∧
    w.rx.hasHandler = true ∧ exceptions os = 3 ∧
    w.fed = frames .basic [Sample.mPing, Sample.mLevel, Sample.mPose] ∧
    delivered w = [Sample.mPing, Sample.mPing, Sample.mLevel, Sample.mLevel, Sample.mPose,
      Sample.mPose].map (meaning Sample.basic) ∧
    (completed Sample.dbg stubborn 50 (World.new Sample.basic) stubbornOps).map seen =
      [Sample.mPing, Sample.mLevel, Sample.mPose].map (meaning Sample.basic) := by
  refine ⟨stubborn_setting, ?_⟩
  obtain ⟨w, os, h1, h2⟩ := Sample.reached (B := Sample.dbg) (user := stubborn) (fuel := 50) (ops := stubbornOps)
    (fun (w : World Sample.basic) os => w.rx.hasHandler &&
      decide (os = [.unit, .unit, .processed .threw, .processed .threw, .unit, .processed .threw,
        .processed (.returned 1)]) &&
      decide (w.fed = frames .basic [Sample.mPing, Sample.mLevel, Sample.mPose]) &&
      decide (delivered w = [Sample.mPing, Sample.mPing, Sample.mLevel, Sample.mLevel, Sample.mPose,
        Sample.mPose].map (meaning Sample.basic))) (by decide +kernel)
  simp only [Bool.and_eq_true, decide_eq_true_eq] at h2
  obtain ⟨⟨⟨a, rfl⟩, b⟩, c⟩ := h2
  exact ⟨w, [.unit, .unit, .processed .threw, .processed .threw, .unit, .processed .threw], h1, a, by decide, b, c,
    by decide +kernel⟩

/-- User code that does not accept the message `level` with contents 7. -/
def picky : UserCode := fun calls _ => ⟨[], match calls.getLast? with
  | some c => decide ((c.msg, c.args) = (Sample.level, [[7]]))
  | none => false⟩

/-- The message in the middle is tried again and again; the last one never arrives. The hypotheses of C95_stuck hold. -/
example : AlwaysThrowsFor picky (Sample.level, [[7]]) ∧ ∃ (w : World Sample.basic) (os : List Obs),
    Reached Sample.dbg picky 50 [.setHandler Sample.h0,
      .append (frames .basic [Sample.mPing, ⟨1, [7]⟩, Sample.mPose]), .process, .process, .process] w os ∧
    (∀ i ∈ w.trace, userCall i ≠ none) ∧
    delivered w = [(Sample.ping, [])] ++ List.replicate 3 (Sample.level, [[7]]) := by
  refine ⟨fun calls call free h => by simp [picky, h], ?_⟩
  obtain ⟨w, os, h1, h2⟩ := Sample.reached (B := Sample.dbg) (user := picky) (fuel := 50)
    (ops := [.setHandler Sample.h0,
      .append (frames .basic [Sample.mPing, ⟨1, [7]⟩, Sample.mPose]), .process, .process, .process])
    (fun (w : World Sample.basic) _ => w.trace.all (fun i => (userCall i).isSome) &&
      decide (delivered w = [(Sample.ping, [])] ++ List.replicate 3 (Sample.level, [[7]])))
    (by decide +kernel)
  simp only [Bool.and_eq_true, decide_eq_true_eq, List.all_eq_true] at h2
  exact ⟨w, os, h1, fun i hi e => by have := h2.1 i hi; simp [e] at this, h2.2⟩

end TT.Properties
