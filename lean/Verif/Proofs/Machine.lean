import Verif.Spec.Machine
import Verif.Proofs.Stream

/-!
# Helper lemmas about the abstract machine only (no model functions)
-/

namespace TT.Spec

variable {C : Collection} {user : UserCode}

/-! ### Determinism -/

theorem Run.nil_cases {s q : List Byte} (h : Run C s [] q) :
    q = s ∨ ∃ b s', s = b :: s' ∧ ¬ Starts C s ∧ ¬ Waiting C s ∧ Run C s' [] q := by
  generalize hm : ([] : List Msg) = ms at h
  cases h with
  | refl => exact Or.inl rfl
  | take _ _ => simp at hm
  | skip a b h => subst hm; exact Or.inr ⟨_, _, rfl, a, b, h⟩

theorem Starts.no_skip {r q : List Byte} (h : Starts C r) (hr : Run C r [] q) : q = r := by
  rcases hr.nil_cases with e | ⟨_, _, _, a, _, _⟩
  · exact e
  · exact absurd h a

theorem Run.linear {s r q : List Byte} (h : Run C s [] r) (h' : Run C s [] q) :
    Run C r [] q ∨ Run C q [] r := by
  generalize hm : ([] : List Msg) = ms at h
  induction h with
  | refl => exact Or.inl h'
  | take _ _ _ => simp at hm
  | skip a b h0 ih =>
    rcases h'.nil_cases with rfl | ⟨b', s', e, _, _, h1⟩
    · subst hm; exact Or.inr (Run.skip a b h0)
    · simp at e
      obtain ⟨_, rfl⟩ := e
      exact ih h1 hm

theorem first_unique {s t t' : List Byte} {m m' : Msg} (hm : IsMsg C m) (hm' : IsMsg C m')
    (h : Run C s [] (frame C.envelope m ++ t)) (h' : Run C s [] (frame C.envelope m' ++ t')) :
    m = m' ∧ t = t' := by
  rcases h.linear h' with h | h
  · exact frame_append_inj hm hm' ((starts_frame hm t).no_skip h).symm
  · exact frame_append_inj hm hm' ((starts_frame hm' t').no_skip h)

theorem Decodes.no_first {s t r : List Byte} {m : Msg} (hm : IsMsg C m)
    (h : Decodes C s [] r) (h' : Run C s [] (frame C.envelope m ++ t)) : False := by
  rcases h.1.linear h' with hr | hr
  · obtain ⟨_, e⟩ := h.2.no_step hr
    rcases h.2 with hf | hf
    · rw [hf] at e
      have := frame_ne_nil C.envelope m
      simp [this] at e
    · rw [← e] at hf
      exact not_waiting_frame hm t hf
  · have e := (starts_frame hm t).no_skip hr
    rcases h.2 with hf | hf
    · rw [hf] at e
      have := frame_ne_nil C.envelope m
      simp [this] at e
    · rw [e] at hf
      exact not_waiting_frame hm t hf

theorem Proc.unique {s s1 : AState} {ms : List Msg} {th : Bool}
    (h : Proc C user s ms s1 th) : ∀ {ms' : List Msg} {s2 : AState} {th' : Bool},
    Proc C user s ms' s2 th' → ms = ms' ∧ s1 = s2 ∧ th = th' := by
  induction h with
  | done hd =>
    intro ms' s2 th' h'
    cases h' with
    | done hd' => obtain ⟨_, rfl⟩ := hd.unique hd'; simp
    | throw hm hr _ _ => exact (hd.no_first hm hr).elim
    | msg hm hr _ _ _ => exact (hd.no_first hm hr).elim
  | throw hm hr hh ht =>
    intro ms' s2 th' h'
    cases h' with
    | done hd' => exact (hd'.no_first hm hr).elim
    | throw hm' hr' hh' ht' =>
      obtain ⟨rfl, rfl⟩ := first_unique hm hm' hr hr'
      rw [hh] at hh'; cases hh'; simp
    | msg hm' hr' hh' ht' _ =>
      obtain ⟨rfl, rfl⟩ := first_unique hm hm' hr hr'
      rw [hh] at hh'; cases hh'; simp [ht] at ht'
  | msg hm hr hh ht _ ih =>
    intro ms' s2 th' h'
    cases h' with
    | done hd' => exact (hd'.no_first hm hr).elim
    | throw hm' hr' hh' ht' =>
      obtain ⟨rfl, rfl⟩ := first_unique hm hm' hr hr'
      rw [hh] at hh'; cases hh'; simp [ht] at ht'
    | msg hm' hr' hh' ht' h1 =>
      obtain ⟨rfl, rfl⟩ := first_unique hm hm' hr hr'
      rw [hh] at hh'; cases hh'
      obtain ⟨rfl, rfl, rfl⟩ := ih h1
      simp

theorem Step.unique {s s1 s2 : AState} {op : Op} {ms ms' : List Msg} {o o' : Obs}
    (h : Step C user s op ms s1 o) (h' : Step C user s op ms' s2 o') :
    ms = ms' ∧ s1 = s2 ∧ o = o' := by
  cases h with
  | append _ => cases h'; simp
  | receive hl _ => cases h' with | receive hl' _ => subst hl; subst hl'; simp
  | setHandler => cases h'; simp
  | clearHandler => cases h'; simp
  | copy => cases h'; simp
  | idle hn =>
    cases h' with
    | idle _ => simp
    | process hs _ => simp [hn] at hs
    | thrown hs _ => simp [hn] at hs
  | process hs hp =>
    cases h' with
    | idle hn => simp [hn] at hs
    | process _ hp' => obtain ⟨rfl, rfl, _⟩ := hp.unique hp'; simp
    | thrown _ hp' => obtain ⟨_, _, e⟩ := hp.unique hp'; simp at e
  | thrown hs hp =>
    cases h' with
    | idle hn => simp [hn] at hs
    | process _ hp' => obtain ⟨_, _, e⟩ := hp.unique hp'; simp at e
    | thrown _ hp' => obtain ⟨rfl, rfl, _⟩ := hp.unique hp'; simp

theorem Proc.keeps_le {s s1 : AState} {ms : List Msg} {th : Bool}
    (h : Proc C user s ms s1 th) : ∀ {n : Nat}, Keeps C user n s → n ≤ ms.length := by
  induction h with
  | done hd =>
    intro n hk
    cases hk with
    | zero => exact Nat.zero_le _
    | succ hm hr _ _ _ => exact (hd.no_first hm hr).elim
  | throw hm hr hh ht =>
    intro n hk
    cases hk with
    | zero => exact Nat.zero_le _
    | succ hm' hr' hh' ht' _ =>
      obtain ⟨rfl, rfl⟩ := first_unique hm hm' hr hr'
      rw [hh] at hh'; cases hh'; simp [ht] at ht'
  | msg hm hr hh ht _ ih =>
    intro n hk
    cases hk with
    | zero => exact Nat.zero_le _
    | succ hm' hr' hh' ht' hk' =>
      obtain ⟨rfl, rfl⟩ := first_unique hm hm' hr hr'
      rw [hh] at hh'; cases hh'
      have := ih hk'
      simp; omega

/-! ### What one `processMessages` does -/

theorem reaction_benign (hu : BenignUser user) (tr : List Invocation) (i : Invocation)
    (free : Nat) : Benign (reaction user tr i free).acts free := by
  unfold reaction
  split
  · exact ⟨by simp, by simp [appended]⟩
  · exact hu _ _

theorem reaction_quiet (hu : Quiet user) (tr : List Invocation) (i : Invocation)
    (free : Nat) : appended (reaction user tr i free).acts = [] := by
  unfold reaction
  split
  · rfl
  · exact hu _ _

theorem reaction_neverThrows (hu : NeverThrows user) (tr : List Invocation) (i : Invocation)
    (free : Nat) : (reaction user tr i free).throws = false := by
  unfold reaction
  split
  · rfl
  · exact hu _ _

theorem reaction_keepsHandler (hu : KeepsHandler user) (tr : List Invocation) (i : Invocation)
    (free : Nat) (h : Option Handler) : handlerAfter h (reaction user tr i free).acts = h := by
  unfold reaction
  split
  · rfl
  · exact hu _ _ _

theorem seen_callOf (C : Collection) (h : Handler) (m : Msg) :
    seen (callOf C h m) = meaning C m := rfl

/-- The bytes still buffered right after message `m` has been removed. -/
theorem afterCall_drop (C : Collection) (user : UserCode) (s : AState) (h : Handler) (m : Msg)
    (t : List Byte) :
    (afterCall C user s h m t).1.buf.drop (frame C.envelope m).length =
      t ++ appended (reaction user s.trace (callOf C h m)
        (capacity C - (frame C.envelope m ++ t).length)).acts := by
  simp [afterCall]

/-- Everything about one call of `processMessages`: `app` is what handlers appended. -/
theorem Proc.sound {s s' : AState} {ms : List Msg} {th : Bool} (h : Proc C user s ms s' th) :
    ∃ (app : List Byte) (calls : List Invocation) (cms : List Msg),
      s'.fed = s.fed ++ app ∧ s'.trace = s.trace ++ calls ∧
      Run C (s.buf ++ app) ms s'.buf ∧ calls.map seen = cms.map (meaning C) ∧
      (∀ m ∈ cms, IsMsg C m) ∧
      s'.last = ((cms.map (·.id)).getLast?).or s.last ∧
      (th = false → Final C s'.buf ∧ cms = ms) ∧
      (th = true → ∃ m t, IsMsg C m ∧ s'.buf = frame C.envelope m ++ t ∧ cms = ms ++ [m]) := by
  induction h with
  | done hd => exact ⟨[], [], [], by simp, by simp, by simpa using hd.1, rfl, by simp, by simp,
      fun _ => ⟨hd.2, rfl⟩, by simp⟩
  | @throw s m t h hm hr hh ht =>
    refine ⟨appended (reaction user s.trace (callOf C h m)
        (capacity C - (frame C.envelope m ++ t).length)).acts, [callOf C h m], [m], rfl, rfl,
      ?_, rfl, by simpa using hm, by simp [afterCall], by simp,
      fun _ => ⟨m, t ++ appended (reaction user s.trace (callOf C h m)
        (capacity C - (frame C.envelope m ++ t).length)).acts, hm, by simp [afterCall], rfl⟩⟩
    exact hr.append _
  | @msg s s' m t h ms th hm hr hh ht hp ih =>
    obtain ⟨app, calls, cms, h1, h2, h3, h4, h5, h6, h7, h8⟩ := ih
    rw [afterCall_drop] at h3
    refine ⟨appended (reaction user s.trace (callOf C h m)
        (capacity C - (frame C.envelope m ++ t).length)).acts ++ app, callOf C h m :: calls,
        m :: cms, ?_, ?_, ?_, ?_, ?_, ?_, ?_, ?_⟩
    · rw [h1]; simp [afterCall]
    · rw [h2]; simp [afterCall]
    · have := (hr.append (appended (reaction user s.trace (callOf C h m)
        (capacity C - (frame C.envelope m ++ t).length)).acts ++ app)).trans
        (ms := []) (ns := m :: ms) (q := s'.buf) (by
          rw [List.append_assoc]
          refine Run.take hm ?_
          rw [← List.append_assoc]
          exact h3)
      simpa using this
    · simp [h4, seen_callOf]
    · simpa [hm] using h5
    · rw [h6]
      cases cms with
      | nil => simp [afterCall]
      | cons c cs =>
        have : ((m :: c :: cs).map (·.id)).getLast? = ((c :: cs).map (·.id)).getLast? := by
          simp only [List.map_cons, List.getLast?_cons_cons]
        rw [this]
        cases hx : ((c :: cs).map (·.id)).getLast? with
        | none => simp at hx
        | some x => rfl
    · intro e
      obtain ⟨a, b⟩ := h7 e
      exact ⟨a, by rw [b]⟩
    · intro e
      obtain ⟨m', t', a, b, c⟩ := h8 e
      exact ⟨m', t', a, b, by simp [c]⟩

theorem Proc.no_throw (hu : NeverThrows user) {s s' : AState} {ms : List Msg} {th : Bool}
    (h : Proc C user s ms s' th) : th = false := by
  induction h with
  | done => rfl
  | throw _ _ _ ht =>
    simp only [afterCall] at ht
    rw [reaction_neverThrows hu] at ht
    exact ht.symm
  | msg _ _ _ _ _ ih => exact ih

theorem Proc.quiet (hu : Quiet user) {s s' : AState} {ms : List Msg} {th : Bool}
    (h : Proc C user s ms s' th) : s'.fed = s.fed := by
  induction h with
  | done => rfl
  | throw _ _ _ _ => simp only [afterCall]; rw [reaction_quiet hu]; simp
  | msg _ _ _ _ _ ih => rw [ih]; simp only [afterCall]; rw [reaction_quiet hu]; simp

theorem Proc.handlers (hu : KeepsHandler user) {s s' : AState} {ms : List Msg} {th : Bool}
    (h : Proc C user s ms s' th) :
    s'.handler = s.handler ∧
    ∃ calls, s'.trace = s.trace ++ calls ∧ ∀ i ∈ calls, s.handler = some i.handler := by
  induction h with
  | done => exact ⟨rfl, [], by simp⟩
  | @throw s m t h _ _ hh _ =>
    refine ⟨?_, [callOf C h m], rfl, by simp [callOf, hh]⟩
    simp only [afterCall]
    rw [reaction_keepsHandler hu, hh]
  | @msg s s' m t h ms th _ _ hh _ _ ih =>
    obtain ⟨h1, calls, h2, h3⟩ := ih
    simp only [afterCall] at h1 h2 h3
    rw [reaction_keepsHandler hu] at h1 h3
    refine ⟨by rw [h1, hh], callOf C h m :: calls, by rw [h2]; simp, ?_⟩
    intro i hi
    rcases List.mem_cons.mp hi with rfl | hi
    · simpa [callOf] using hh
    · rw [hh]; exact h3 i hi

theorem overhead_pos (E : Envelope) : 5 ≤ overhead E := by cases E <;> simp [overhead]

theorem Keeps.quiet_le (hu : Quiet user) {s : AState} {n : Nat} (h : Keeps C user n s) :
    5 * n ≤ s.buf.length := by
  induction h with
  | zero => omega
  | @succ s m t h n hm hr _ _ _ ih =>
    have hl := hr.length_le
    simp only at ih
    rw [afterCall_drop, reaction_quiet hu] at ih
    rw [List.length_append, frame_length] at hl
    simp only [List.append_nil] at ih
    have := overhead_pos C.envelope
    omega

/-! ### Histories -/

theorem Step.sound {s s' : AState} {op : Op} {ms : List Msg} {o : Obs}
    (h : Step C user s op ms s' o) {D : List Msg} (hr : Run C s.fed D s.buf) :
    Run C s'.fed (D ++ ms) s'.buf := by
  cases h with
  | append _ => simpa using hr.append _
  | receive _ _ => simpa using hr.append _
  | setHandler => simpa using hr
  | clearHandler => simpa using hr
  | copy => simpa using hr
  | idle _ => simpa using hr
  | process _ hp =>
    obtain ⟨app, _, _, h1, _, h3, _⟩ := hp.sound
    rw [h1]; exact (hr.append app).trans h3
  | thrown _ hp =>
    obtain ⟨app, _, _, h1, _, h3, _⟩ := hp.sound
    rw [h1]; exact (hr.append app).trans h3

theorem Exec.sound {s s' : AState} {ops : List Op} {ms : List Msg} {os : List Obs}
    (h : Exec C user s ops ms s' os) : ∀ {D : List Msg}, Run C s.fed D s.buf →
    Run C s'.fed (D ++ ms) s'.buf := by
  induction h with
  | nil => intro D hr; simpa using hr
  | cons hs _ ih => intro D hr; rw [← List.append_assoc]; exact ih (hs.sound hr)

theorem Step.calls (hu : NeverThrows user) {s s' : AState} {op : Op} {ms : List Msg} {o : Obs}
    (h : Step C user s op ms s' o) :
    ∃ calls, s'.trace = s.trace ++ calls ∧ calls.map seen = ms.map (meaning C) := by
  cases h with
  | append _ => exact ⟨[], by simp⟩
  | receive _ _ => exact ⟨[], by simp⟩
  | setHandler => exact ⟨[], by simp⟩
  | clearHandler => exact ⟨[], by simp⟩
  | copy => exact ⟨[], by simp⟩
  | idle _ => exact ⟨[], by simp⟩
  | process _ hp =>
    obtain ⟨_, calls, cms, _, h2, _, h4, _, _, h7, _⟩ := hp.sound
    exact ⟨calls, h2, by rw [h4, (h7 rfl).2]⟩
  | thrown _ hp => have := hp.no_throw hu; simp at this

theorem Exec.calls (hu : NeverThrows user) {s s' : AState} {ops : List Op} {ms : List Msg}
    {os : List Obs} (h : Exec C user s ops ms s' os) :
    ∃ calls, s'.trace = s.trace ++ calls ∧ calls.map seen = ms.map (meaning C) := by
  induction h with
  | nil => exact ⟨[], by simp⟩
  | cons hs _ ih =>
    obtain ⟨c1, a1, b1⟩ := hs.calls hu
    obtain ⟨c2, a2, b2⟩ := ih
    exact ⟨c1 ++ c2, by rw [a2, a1]; simp, by simp [b1, b2]⟩

theorem Exec.append_iff {s s' : AState} {ops ops' : List Op} {ms : List Msg} {os : List Obs} :
    Exec C user s (ops ++ ops') ms s' os ↔ ∃ s1 ms1 ms2 os1 os2,
      Exec C user s ops ms1 s1 os1 ∧ Exec C user s1 ops' ms2 s' os2 ∧ ms = ms1 ++ ms2 ∧
      os = os1 ++ os2 := by
  induction ops generalizing s ms os with
  | nil =>
    constructor
    · intro h; exact ⟨s, [], ms, [], os, Exec.nil _, h, rfl, rfl⟩
    · rintro ⟨s1, ms1, ms2, os1, os2, h1, h2, rfl, rfl⟩
      cases h1
      exact h2
  | cons op ops ih =>
    constructor
    · intro h
      cases h with
      | cons hs hr =>
        obtain ⟨s1, ms1, ms2, os1, os2, h1, h2, rfl, rfl⟩ := ih.mp hr
        exact ⟨s1, _, ms2, _, os2, Exec.cons hs h1, h2, by simp, by simp⟩
    · rintro ⟨s1, ms1, ms2, os1, os2, h1, h2, rfl, rfl⟩
      cases h1 with
      | cons hs hr =>
        rw [List.append_assoc, List.cons_append]
        exact Exec.cons hs (ih.mpr ⟨_, _, _, _, _, hr, h2, rfl, rfl⟩)

/-- Call by call: what handlers appended and which handler got each call. -/
theorem Proc.follows {s s' : AState} {ms : List Msg} {th : Bool} (h : Proc C user s ms s' th) :
    ∃ calls : List (Invocation × Nat), s'.trace = s.trace ++ calls.map (·.1) ∧
      s'.fed = s.fed ++ appendedBy user s.trace calls ∧
      Follows user s'.handler s.handler s.trace calls := by
  induction h with
  | done => exact ⟨[], by simp, by simp [appendedBy], rfl⟩
  | @throw s m t h hm hr hh ht =>
    refine ⟨[(callOf C h m, capacity C - (frame C.envelope m ++ t).length)], rfl, ?_, ?_⟩
    · simp [afterCall, appendedBy]
    · exact ⟨hh, by simp [Follows, afterCall, hh]⟩
  | @msg s s' m t h ms th hm hr hh ht _ ih =>
    obtain ⟨calls, a, b, c⟩ := ih
    refine ⟨(callOf C h m, capacity C - (frame C.envelope m ++ t).length) :: calls, ?_, ?_, ?_⟩
    · rw [a]; simp [afterCall]
    · rw [b]; simp [afterCall, appendedBy]
    · refine ⟨hh, ?_⟩
      simp only [afterCall] at c
      rw [hh]
      exact c

/-- If a message is at the front, its call comes first. -/
theorem Proc.first {s s' : AState} {ms : List Msg} {th : Bool} {m : Msg} {t : List Byte}
    (h : Proc C user s ms s' th) (hm : IsMsg C m) (hb : s.buf = frame C.envelope m ++ t)
    {hd : Handler} (hh : s.handler = some hd) :
    ∃ rest, s'.trace = s.trace ++ callOf C hd m :: rest := by
  have hrun : Run C s.buf [] (frame C.envelope m ++ t) := by rw [hb]; exact Run.refl _
  cases h with
  | done hdn => exact (hdn.no_first hm hrun).elim
  | throw hm' hr' hh' _ =>
    obtain ⟨rfl, rfl⟩ := first_unique hm hm' hrun hr'
    rw [hh] at hh'
    cases hh'
    exact ⟨[], rfl⟩
  | msg hm' hr' hh' _ hp =>
    obtain ⟨rfl, rfl⟩ := first_unique hm hm' hrun hr'
    rw [hh] at hh'
    cases hh'
    obtain ⟨_, calls, _, _, e, _⟩ := hp.sound
    exact ⟨calls, by rw [e]; simp [afterCall]⟩

/-- API calls other than `processMessages` only add bytes at the end and call nothing. -/
theorem Exec.no_process {s s' : AState} {ops : List Op} {ms : List Msg} {os : List Obs}
    (h : Exec C user s ops ms s' os) (hno : Op.process ∉ ops) :
    s'.trace = s.trace ∧ ms = [] ∧ s'.last = s.last ∧
    ∃ app, s'.buf = s.buf ++ app ∧ s'.fed = s.fed ++ app := by
  induction h with
  | nil => exact ⟨rfl, rfl, rfl, [], by simp⟩
  | cons hs _ ih =>
    simp only [List.mem_cons, not_or] at hno
    obtain ⟨a, b, c, app, d, e⟩ := ih hno.2
    cases hs with
    | append _ => exact ⟨a, by simp [b], c, _, by rw [d, List.append_assoc], by
        rw [e, List.append_assoc]⟩
    | receive _ _ => exact ⟨a, by simp [b], c, _, by rw [d, List.append_assoc], by
        rw [e, List.append_assoc]⟩
    | setHandler => exact ⟨a, by simp [b], c, _, d, e⟩
    | clearHandler => exact ⟨a, by simp [b], c, _, d, e⟩
    | copy => exact ⟨a, by simp [b], c, _, d, e⟩
    | idle _ => exact absurd rfl hno.1
    | process _ _ => exact absurd rfl hno.1
    | thrown _ _ => exact absurd rfl hno.1

end TT.Spec
