import Verif.Properties.Ports
import Verif.Properties.EndToEnd

/-!
# Two programs that talk to each other: C75
-/

namespace TT.Properties
open Spec

/-- What a handler is called with. -/
abbrev Call := MsgType × List (List Byte)

/-- Type and contents of a `send`. -/
def Request.call (r : Request) : Call := (r.t, r.vs.map (·.bytes))

/-- Two nodes `false` and `true`. Node `j` has a receiver for the collection `C j`, `line j` are the bytes
on their way to it, and `sent j` logs the `send` calls made by the other node. -/
structure Net (C : Bool → Collection) where
  rx : (j : Bool) → World (C j)
  line : Bool → List Byte
  sent : Bool → List Request

/-- How the nodes are built and what they do. `answer j calls` are the messages node `j`'s handler sends
in its last call, given all calls so far. -/
structure Nodes (C : Bool → Collection) where
  build : Bool → Build
  user : Bool → UserCode
  fuel : Bool → Nat
  handler : Bool → Handler
  answer : Bool → List Call → List Request

/-- One step of the network. -/
inductive Event where
  /-- the node other than `j` sends `r` to `j` -/
  | say (j : Bool) (r : Request)
  /-- at most `n` bytes of those on the line, and no more than there is room for, reach node `j`, which
  appends them to its receive buffer -/
  | arrive (j : Bool) (n : Nat)
  /-- node `j` calls `processMessages` -/
  | process (j : Bool)

/-- Replace one value of a function. -/
def updNode {α : Bool → Type} (f : ∀ j, α j) (j : Bool) (x : α j) : ∀ k, α k :=
  fun k => if h : j = k then h ▸ x else f k

variable {C : Bool → Collection}

@[simp] theorem updNode_same {α : Bool → Type} (f : ∀ j, α j) (j : Bool) (x : α j) : updNode f j x j = x := by
  simp [updNode]

theorem updNode_other {α : Bool → Type} (f : ∀ j, α j) {j k : Bool} (h : j ≠ k) (x : α j) :
    updNode f j x k = f k := by
  simp [updNode, h]

/-- The messages a handler sends in the calls `new`, made after the calls `old`. -/
def answers (answer : List Call → List Request) : List Call → List Call → List Request
  | _, [] => []
  | old, c :: new => answer (old ++ [c]) ++ answers answer (old ++ [c]) new

/-- Send `rs` to node `j`: the sender's transmitter puts the bytes at the end of the line. (`sendAll`
gives `none` for a call that does not compile.) -/
def Net.put (N : Net C) (j : Bool) (rs : List Request) : Res (Net C) := do
  let bytes ← (sendAll vectorBuffer (N.line j) rs).getD (.error .ub)
  return { N with line := updNode N.line j bytes, sent := updNode N.sent j (N.sent j ++ rs) }

/-- One step. The messages a handler sends are put on the line after `processMessages`; as the calls of
`send` touch neither receiver, and node `j` reads nothing meanwhile, it makes no difference whether the
other node gets some of these bytes a little earlier. -/
def Net.step (P : Nodes C) (N : Net C) : Event → Res (Net C)
  | .say j r => N.put j [r]
  | .arrive j n => do
    let k := min n (N.rx j).rx.getBufferAvailableSpace
    let w ← (N.rx j).append (P.build j) ((N.line j).take k)
    return { N with rx := updNode N.rx j w, line := updNode N.line j ((N.line j).drop k) }
  | .process j => do
    let (w, _) ← (N.rx j).processMessages (P.build j) (P.user j) (P.fuel j)
    let new := (delivered w).drop (delivered (N.rx j)).length
    ({ N with rx := updNode N.rx j w } : Net C).put (!j)
      (answers (P.answer j) (delivered (N.rx j)) new)

/-- Any schedule. -/
def Net.run (P : Nodes C) : Net C → List Event → Res (Net C)
  | N, [] => .ok N
  | N, e :: es => do
    let N ← N.step P e
    Net.run P N es

/-- Both receivers new, nothing sent. -/
def Net.start (P : Nodes C) : Net C :=
  { rx := fun j => withHandler (C j) (P.handler j), line := fun _ => [], sent := fun _ => [] }

/-- Assumptions on the nodes: the standing ones on the receivers; handlers do not throw or append to
their own receiver; the messages sent from handlers compile for the other node's collection. -/
structure Nodes.Good (P : Nodes C) : Prop where
  setting : ∀ j, Setting (C j) (P.build j) (P.user j)
  quiet : ∀ j, Quiet (P.user j)
  noThrow : ∀ j, NeverThrows (P.user j)
  nonempty : ∀ j, (C j).messages ≠ []
  fuel : ∀ j, capacity (C j) < P.fuel j
  answers : ∀ j calls, ∀ r ∈ P.answer j calls, r.Good (C (!j))

/-- The messages sent by the main programs compile. -/
def EventsGood (C : Bool → Collection) (es : List Event) : Prop :=
  ∀ j r, Event.say j r ∈ es → r.Good (C j)

/-- What holds of one node at any time. -/
structure NodeInv (C : Collection) (w : World C) (s : AState) (D : List Msg) (line : List Byte)
    (sent : List Request) : Prop where
  abs : Abs w s
  handler : s.handler.isSome
  run : Run C s.fed D s.buf
  calls : s.trace.map seen = D.map (meaning C)
  bytes : s.fed ++ line = frames C.envelope (sent.map Request.msg)
  good : ∀ r ∈ sent, r.Good C

/-- What holds of the network at any time. -/
def NetInv (N : Net C) : Prop :=
  ∀ j, ∃ s D, NodeInv (C j) (N.rx j) s D (N.line j) (N.sent j)

/-- `processMessages` with handlers that neither throw nor append. -/
theorem process_quiet {C : Collection} {B : Build} {user : UserCode} {fuel : Nat}
    (S : Setting C B user) (hq : Quiet user) (hn : NeverThrows user) (hf : capacity C < fuel)
    {w : World C} {s : AState} (ha : Abs w s) (hh : s.handler.isSome) :
    ∃ (w' : World C) (s' : AState) (ms : List Msg) (o : Outcome),
      w.processMessages B user fuel = .ok (w', o) ∧ Abs w' s' ∧ s'.handler.isSome ∧
      s'.fed = s.fed ∧ Run C s.buf ms s'.buf ∧ Final C s'.buf ∧
      ∃ calls, s'.trace = s.trace ++ calls ∧ calls.map seen = ms.map (meaning C) := by
  rcases processMessages_spec S.arith.lt64 S.benign fuel ha hh with
    ⟨hk, _⟩ | ⟨w', s', ms, th, h3, h4, h5, h6, _⟩
  · exfalso
    have := hk.quiet_le hq
    have hle := RB.Holds.length_le ha.buf
    rw [← capacity_eq] at hle
    omega
  · have hth := h5.no_throw hn
    subst hth
    obtain ⟨app, calls, cms, a1, a2, a3, a4, a5, a6, a7, _⟩ := h5.sound
    have hfed := h5.quiet hq
    rw [a1] at hfed
    have happ : app = [] := by simpa using hfed
    subst happ
    rw [List.append_nil] at a3 a1
    exact ⟨w', s', ms, _, h3 B S.arith, h4, h6, a1, a3, (a7 rfl).1, calls, a2, by rw [a4, (a7 rfl).2]⟩

theorem frames_append' (E : Envelope) (a b : List Msg) :
    frames E (a ++ b) = frames E a ++ frames E b := by simp [frames]

/-- Putting messages on a line. -/
theorem put_ok {N : Net C} (hN : NetInv N) (j : Bool) {rs : List Request}
    (hrs : ∀ r ∈ rs, r.Good (C j)) :
    ∃ N', N.put j rs = .ok N' ∧ NetInv N' ∧ N'.rx = N.rx ∧ N'.sent = updNode N.sent j (N.sent j ++ rs) ∧
      N'.line = updNode N.line j (N.line j ++ frames (C j).envelope (rs.map Request.msg)) := by
  obtain ⟨s', h1, h2⟩ := sendAll_faithful vectorBuffer_faithful rs hrs (N.line j)
  simp only [id_eq] at h2
  refine ⟨{ N with line := updNode N.line j s', sent := updNode N.sent j (N.sent j ++ rs) },
    by simp [Net.put, h1], ?_, rfl, rfl, by rw [h2]⟩
  intro k
  obtain ⟨s, D, h⟩ := hN k
  refine ⟨s, D, ?_⟩
  by_cases hk : j = k
  · subst hk
    simp only [updNode_same]
    refine ⟨h.abs, h.handler, h.run, h.calls, ?_, ?_⟩
    · rw [h2, ← List.append_assoc, h.bytes, List.map_append, frames_append']
    · intro r hr
      rcases List.mem_append.mp hr with hr | hr
      · exact h.good r hr
      · exact hrs r hr
  · simp only [updNode_other _ hk]
    exact h

theorem answers_mem {answer : List Call → List Request} {r : Request} :
    ∀ {new old : List Call}, r ∈ answers answer old new → ∃ calls, r ∈ answer calls := by
  intro new
  induction new with
  | nil => intro old h; simp [answers] at h
  | cons c new ih =>
    intro old h
    rcases List.mem_append.mp h with h | h
    · exact ⟨_, h⟩
    · exact ih h

theorem answers_append (answer : List Call → List Request) (b : List Call) :
    ∀ (a old : List Call), answers answer old (a ++ b) =
      answers answer old a ++ answers answer (old ++ a) b := by
  intro a
  induction a with
  | nil => intro old; simp [answers]
  | cons c a ih => intro old; simp [answers, ih]

/-- What one step does. -/
theorem step_inv {P : Nodes C} (hP : P.Good) {N : Net C} (hN : NetInv N) (e : Event)
    (he : EventsGood C [e]) :
    ∃ N', N.step P e = .ok N' ∧ NetInv N' ∧
      match e with
      | .say j r => N'.rx = N.rx ∧ N'.sent = updNode N.sent j (N.sent j ++ [r])
      | .arrive j n => N'.sent = N.sent ∧ (∀ k, delivered (N'.rx k) = delivered (N.rx k)) ∧
          N'.line = updNode N.line j ((N.line j).drop (min n (N.rx j).rx.getBufferAvailableSpace))
      | .process j => ∃ new, delivered (N'.rx j) = delivered (N.rx j) ++ new ∧
          delivered (N'.rx (!j)) = delivered (N.rx (!j)) ∧
          N'.sent = updNode N.sent (!j) (N.sent (!j) ++ answers (P.answer j) (delivered (N.rx j)) new) ∧
          N'.line j = N.line j ∧ (N'.rx j).fed = (N.rx j).fed ∧ Final (C j) (buffered (N'.rx j)) := by
  cases e with
  | say j r =>
    obtain ⟨N', h1, h2, h3, h4, _⟩ := put_ok hN j (rs := [r]) (by
      intro r' hr'
      rw [List.mem_singleton.mp hr']
      exact he j r (by simp))
    exact ⟨N', h1, h2, h3, h4⟩
  | arrive j n =>
    obtain ⟨s, D, h⟩ := hN j
    have hsp := h.abs.space (hP.setting j).arith.lt64
    have hle := RB.Holds.length_le h.abs.buf
    rw [← capacity_eq] at hle
    obtain ⟨w, h1, h2, _⟩ := append_ok (hP.setting j).arith.lt64 h.abs
      (xs := (N.line j).take (min n (N.rx j).rx.getBufferAvailableSpace)) (by
        rw [List.length_take, hsp]; omega)
    refine ⟨{ N with
      rx := updNode N.rx j w
      line := updNode N.line j ((N.line j).drop (min n (N.rx j).rx.getBufferAvailableSpace)) }, ?_, ?_,
      rfl, ?_, rfl⟩
    · simp [Net.step, h1 _ (hP.setting j).arith]
    · intro k
      by_cases hk : j = k
      · subst hk
        simp only [updNode_same]
        refine ⟨_, D, h2, h.handler, h.run.append _, h.calls, ?_, h.good⟩
        rw [List.append_assoc, List.take_append_drop]
        exact h.bytes
      · simp only [updNode_other _ hk]
        exact hN k
    · intro k
      by_cases hk : j = k
      · subst hk
        simp only [updNode_same]
        rw [h2.delivered, h.abs.delivered]
      · simp only [updNode_other _ hk]
  | process j =>
    obtain ⟨s, D, h⟩ := hN j
    obtain ⟨w', s', ms, o, h1, h2, h3, h4, h5, h6, calls, h7, h8⟩ :=
      process_quiet (hP.setting j) (hP.quiet j) (hP.noThrow j) (hP.fuel j) h.abs h.handler
    have hdel : delivered w' = delivered (N.rx j) ++ calls.map seen := by
      rw [h2.delivered, h.abs.delivered, h7, List.map_append]
    have hN1 : NetInv ({ N with rx := updNode N.rx j w' } : Net C) := by
      intro k
      by_cases hk : j = k
      · subst hk
        simp only [updNode_same]
        refine ⟨s', D ++ ms, h2, h3, ?_, ?_, by rw [h4]; exact h.bytes, h.good⟩
        · rw [h4]
          exact h.run.trans h5
        · rw [h7, List.map_append, h.calls, h8, List.map_append]
      · simp only [updNode_other _ hk]
        exact hN k
    obtain ⟨N', g1, g2, g3, g4, g5⟩ := put_ok hN1 (!j)
      (rs := answers (P.answer j) (delivered (N.rx j)) (calls.map seen)) (by
        intro r hr
        obtain ⟨calls, hr⟩ := answers_mem hr
        exact hP.answers j calls r hr)
    have hj : (!j) ≠ j := by cases j <;> simp
    refine ⟨N', ?_, g2, calls.map seen, ?_, ?_, g4, ?_, ?_, ?_⟩
    · simp only [Net.step, h1, ok_bind]
      rw [hdel, List.drop_left]
      exact g1
    · rw [g3]; simp only [updNode_same]; exact hdel
    · rw [g3]; simp only [updNode_other _ (Ne.symm hj)]
    · rw [g5, updNode_other _ hj]
    · rw [g3]; simp only [updNode_same]; rw [h2.fed, h4, h.abs.fed]
    · rw [g3]; simp only [updNode_same]; rw [h2.buffered]; exact h6

theorem run_append (P : Nodes C) (N : Net C) (a b : List Event) :
    N.run P (a ++ b) = (N.run P a).bind (fun N => N.run P b) := by
  induction a generalizing N with
  | nil => rfl
  | cons e a ih =>
    simp only [List.cons_append, Net.run]
    cases N.step P e with
    | error f => rfl
    | ok N1 => exact ih N1

theorem run_inv {P : Nodes C} (hP : P.Good) (es : List Event) : ∀ {N : Net C}, NetInv N →
    EventsGood C es → ∃ N', N.run P es = .ok N' ∧ NetInv N' := by
  induction es with
  | nil => intro N hN _; exact ⟨N, rfl, hN⟩
  | cons e es ih =>
    intro N hN he
    obtain ⟨N1, h1, h2, _⟩ := step_inv hP hN e (fun j r h => he j r (by simp at h; simp [h]))
    obtain ⟨N2, h3, h4⟩ := ih h2 (fun j r h => he j r (by simp [h]))
    exact ⟨N2, by simp [Net.run, h1, h3], h4⟩

theorem start_inv (P : Nodes C) (hP : P.Good) : NetInv (Net.start P) := by
  intro j
  exact ⟨_, [], (between_new (hP.nonempty j) (P.handler j)).abs, rfl, Run.refl _, rfl, rfl, by simp [Net.start]⟩

theorem NodeInv.prefix {C : Collection} {w : World C} {s : AState} {D : List Msg} {line : List Byte}
    {sent : List Request} (h : NodeInv C w s D line sent) :
    D <+: sent.map Request.msg := by
  have h1 := h.run.append line
  rw [h.bytes] at h1
  have h2 := run_frames (C := C) (ms := sent.map Request.msg) (by
    intro m hm
    obtain ⟨r, hr, rfl⟩ := List.mem_map.mp hm
    exact (h.good r hr).isMsg) []
  rw [List.append_nil] at h2
  obtain ⟨ns, e, _⟩ := h1.confluent h2 (Or.inl rfl)
  exact ⟨ns, e.symm⟩

theorem meaning_sent {C : Collection} {sent : List Request} (h : ∀ r ∈ sent, r.Good C) :
    (sent.map Request.msg).map (meaning C) = sent.map Request.call := by
  rw [List.map_map]
  exact List.map_congr_left fun r hr => (h r hr).meaning

/-- C75. Under every schedule the network runs without failure, and at every moment each node has been
called for the first so many messages sent to it: in order, with the contents they were sent with,
none twice, none left out. -/
theorem C75_in_order {P : Nodes C} (hP : P.Good) {es : List Event} (he : EventsGood C es) :
    ∃ N, (Net.start P).run P es = .ok N ∧
      ∀ j, delivered (N.rx j) <+: (N.sent j).map Request.call ∧
        (N.rx j).fed ++ N.line j = frames (C j).envelope ((N.sent j).map Request.msg) := by
  obtain ⟨N, h1, h2⟩ := run_inv hP es (start_inv P hP) he
  refine ⟨N, h1, fun j => ?_⟩
  obtain ⟨s, D, h⟩ := h2 j
  refine ⟨?_, by rw [h.abs.fed]; exact h.bytes⟩
  rw [h.abs.delivered, h.calls, ← meaning_sent h.good]
  obtain ⟨t, ht⟩ := h.prefix
  exact ⟨t.map (meaning (C j)), by rw [← ht, List.map_append]⟩

/-- C75. When everything on the line has arrived at a node and it has then called `processMessages`, it
has been called for exactly the messages sent to it. -/
theorem C75_complete {P : Nodes C} (hP : P.Good) {es : List Event} (he : EventsGood C es) {j : Bool}
    {N : Net C} (h : (Net.start P).run P (es ++ [.process j]) = .ok N) (hl : N.line j = []) :
    delivered (N.rx j) = (N.sent j).map Request.call := by
  obtain ⟨N1, h1, h2⟩ := run_inv hP es (start_inv P hP) he
  obtain ⟨N2, h3, h4, new, _, _, _, h8, h9, h10⟩ := step_inv hP h2 (.process j) (by intro _ _ h; simp at h)
  rw [run_append, h1] at h
  simp [Except.bind, Net.run, h3] at h
  subst h
  obtain ⟨s, D, hi⟩ := h4 j
  have hb := hi.bytes
  rw [hl, List.append_nil] at hb
  have h2 := run_frames (C := C j) (ms := (N2.sent j).map Request.msg) (by
    intro m hm
    obtain ⟨r, hr, rfl⟩ := List.mem_map.mp hm
    exact (hi.good r hr).isMsg) []
  rw [List.append_nil, ← hb] at h2
  rw [hi.abs.buffered] at h10
  obtain ⟨e, _⟩ := Decodes.unique ⟨hi.run, h10⟩ ⟨h2, Or.inl rfl⟩
  rw [hi.abs.delivered, hi.calls, e, meaning_sent hi.good]

/-- Node `j` alone keeps polling: it processes, then takes up to `n` bytes. -/
def polling (j : Bool) (n : Nat) : Nat → List Event
  | 0 => []
  | k + 1 => .process j :: .arrive j n :: polling j n k

theorem not_say_polling (j : Bool) (n k : Nat) (i : Bool) (r : Request) :
    Event.say i r ∉ polling j n k := by
  induction k with
  | zero => simp [polling]
  | succ k ih => simp [polling, ih]

theorem polling_inv {P : Nodes C} (hP : P.Good) (j : Bool) (n : Nat) (k : Nat) : ∀ {N : Net C},
    NetInv N → ∃ N', N.run P (polling j n k) = .ok N' ∧ NetInv N' ∧ N'.sent j = N.sent j ∧
      (N'.line j).length ≤ (N.line j).length - min n (2 * maxLen (C j) + 1) * k := by
  induction k with
  | zero => intro N hN; exact ⟨N, rfl, hN, rfl, by simp⟩
  | succ k ih =>
    intro N hN
    have hj : (!j) ≠ j := by cases j <;> simp
    obtain ⟨N1, a1, a2, new, _, _, a5, a6, _, a8⟩ :=
      step_inv hP hN (.process j) (by intro _ _ h; simp at h)
    obtain ⟨N2, b1, b2, b3, _, b5⟩ := step_inv hP a2 (.arrive j n) (by intro _ _ h; simp at h)
    obtain ⟨N3, c1, c2, c3, c4⟩ := ih b2
    refine ⟨N3, by simp [polling, Net.run, a1, b1, c1], c2, ?_, ?_⟩
    · rw [c3, b3, a5, updNode_other _ hj]
    · obtain ⟨s, D, h⟩ := a2 j
      have hsp := h.abs.space (hP.setting j).arith.lt64
      have hlen := final_length_lt (hP.nonempty j) a8
      rw [h.abs.buffered] at hlen
      rw [b5, updNode_same, List.length_drop, a6] at c4
      rw [hsp] at c4
      have : capacity (C j) = 3 * maxLen (C j) := rfl
      rw [Nat.mul_succ]
      omega

/-- C75. A node that keeps polling catches up, whatever state the network is in: each round takes at
least `min(n, 2 * longest message + 1)` bytes, so after enough rounds it has been called for everything
that had been sent to it. -/
theorem C75_catches_up {P : Nodes C} (hP : P.Good) {es : List Event} (he : EventsGood C es) {j : Bool}
    {N : Net C} (h : (Net.start P).run P es = .ok N) (n k : Nat)
    (hk : (N.line j).length ≤ min n (2 * maxLen (C j) + 1) * k) :
    ∃ N', (Net.start P).run P (es ++ polling j n k ++ [.process j]) = .ok N' ∧
      N'.line j = [] ∧ delivered (N'.rx j) = (N.sent j).map Request.call := by
  obtain ⟨N1, h1, h2⟩ := run_inv hP es (start_inv P hP) he
  rw [h] at h1
  simp only [Except.ok.injEq] at h1
  subst h1
  obtain ⟨N2, a1, a2, a3, a4⟩ := polling_inv hP j n k h2
  obtain ⟨N3, b1, b2, new, _, _, b5, b6, _, b8⟩ :=
    step_inv hP a2 (.process j) (by intro _ _ h; simp at h)
  have hj : (!j) ≠ j := by cases j <;> simp
  have hrun : (Net.start P).run P (es ++ polling j n k ++ [.process j]) = .ok N3 := by
    rw [run_append, run_append, h]
    simp [Except.bind, a1, Net.run, b1]
  have hnil : N3.line j = [] := by
    rw [b6]
    exact List.eq_nil_of_length_eq_zero (by omega)
  refine ⟨N3, hrun, hnil, ?_⟩
  have he' : EventsGood C (es ++ polling j n k) := by
    intro i r hm
    rcases List.mem_append.mp hm with hm | hm
    · exact he i r hm
    · exact absurd hm (not_say_polling j n k i r)
  rw [C75_complete hP he' hrun hnil, b5, updNode_other _ hj, a3]

theorem run_answers {P : Nodes C} (hP : P.Good) {j : Bool} (es : List Event) : ∀ {N N' : Net C},
    NetInv N → EventsGood C es → (∀ r, Event.say (!j) r ∉ es) → N.run P es = .ok N' →
    N.sent (!j) = answers (P.answer j) [] (delivered (N.rx j)) →
    N'.sent (!j) = answers (P.answer j) [] (delivered (N'.rx j)) := by
  induction es with
  | nil => intro N N' _ _ _ h hs; simp [Net.run] at h; subst h; exact hs
  | cons e es ih =>
    intro N N' hN he hns h hs
    obtain ⟨N1, h1, h2, h3⟩ := step_inv hP hN e (fun j r h => he j r (by simp at h; simp [h]))
    simp only [Net.run, h1, ok_bind] at h
    refine ih h2 (fun j r h => he j r (by simp [h])) (fun r h => hns r (by simp [h])) h ?_
    have hj : (!j) ≠ j := by cases j <;> simp
    cases e with
    | say i r =>
      have : i ≠ !j := by intro e; subst e; exact hns r (by simp)
      rw [h3.1, h3.2, updNode_other _ this, hs]
    | arrive i n => rw [h3.1, h3.2.1 j, hs]
    | process i =>
      obtain ⟨new, a1, a2, a3, _⟩ := h3
      by_cases hi : i = j
      · subst hi
        rw [a1, a3, updNode_same, hs, answers_append, List.nil_append]
      · have hi' : (!i) = j := by cases i <;> cases j <;> simp_all
        have hi2 : (!i) ≠ (!j) := by cases i <;> cases j <;> simp_all
        rw [a3, updNode_other _ hi2, ← hi', a2, hi', hs]

/-- C75. If node `j` sends only from its handler, then under every schedule what it has sent are the
answers to the calls made so far, in the order of the calls. -/
theorem C75_answers {P : Nodes C} (hP : P.Good) {es : List Event} (he : EventsGood C es) {j : Bool}
    (hns : ∀ r, Event.say (!j) r ∉ es) {N : Net C} (h : (Net.start P).run P es = .ok N) :
    N.sent (!j) = answers (P.answer j) [] (delivered (N.rx j)) :=
  run_answers hP es (start_inv P hP) he hns h rfl

/-- C75. Requests and responses: node `true` answers, node `false` only listens. If at the end of any
schedule node `true` has been called for all requests, all its answers have arrived at node `false` and
that has processed them, then node `false` has been called for exactly the answers to all requests, in
the order of the requests. -/
theorem C75_responses {P : Nodes C} (hP : P.Good) {es : List Event} (he : EventsGood C es)
    (hns : ∀ r, Event.say false r ∉ es) {N : Net C}
    (h : (Net.start P).run P (es ++ [.process false]) = .ok N)
    (hreq : delivered (N.rx true) = (N.sent true).map Request.call) (hl : N.line false = []) :
    delivered (N.rx false) =
      (answers (P.answer true) [] ((N.sent true).map Request.call)).map Request.call := by
  rw [C75_complete hP he h hl, ← hreq]
  have := C75_answers (j := true) hP (es := es ++ [.process false])
    (by intro j r hm; exact he j r (by simpa using hm)) (by intro r hm; exact hns r (by simpa using hm)) h
  rw [← this]
  rfl

/-! An example: a server that sends back every `level` it gets, with checksums. -/

/-- What the server's handler sends in its last call. -/
def echo (calls : List Call) : List Request :=
  match calls.getLast? with
  | some (t, [[b]]) => if t = Sample.level then [⟨Sample.checked, Sample.level, [⟨.uint8, [b]⟩]⟩] else []
  | _ => []

/-- The client receives `checked`, the server `basic` messages. -/
def pair : Bool → Collection
  | false => Sample.checked
  | true => Sample.basic

/-- The two programs. -/
def echoNodes : Nodes pair where
  build := fun _ => Sample.dbg
  user := fun _ => Sample.passive
  fuel := fun _ => 50
  handler := fun _ => Sample.h0
  answer := fun j calls => match j with
    | true => echo calls
    | false => []

theorem echoNodes_good : echoNodes.Good where
  setting j := by cases j; exact Sample.setting_checked; exact Sample.setting_basic
  quiet _ := Sample.passive_quiet
  noThrow _ := Sample.passive_neverThrows
  nonempty j := by cases j <;> decide
  fuel j := by cases j <;> decide +kernel
  answers j calls r hr := by
    cases j with
    | false => simp [echoNodes] at hr
    | true =>
      simp only [echoNodes, echo] at hr
      split at hr
      · split at hr
        · rename_i b _ _
          rw [List.mem_singleton.mp hr]
          exact ⟨rfl, ⟨by decide, show Sample.level ∈ Sample.checked.messages by decide, rfl⟩,
            by simp [Value.Fits, fieldSize]⟩
        · simp at hr
      · simp at hr

/-- A `level` request. -/
def levelReq (b : Byte) : Request := ⟨Sample.basic, Sample.level, [⟨.uint8, [b]⟩]⟩

/-- A schedule with bytes arriving in pieces, processing too early, and requests while answers are on
their way. -/
def schedule : List Event :=
  [.say true (levelReq 1), .arrive true 4, .process true, .say true (levelReq 7), .arrive true 5,
   .process true, .arrive false 3, .process false, .arrive true 50, .process true, .arrive false 50]

/-- Its result. -/
def scheduled : Option (Net pair) := ((Net.start echoNodes).run echoNodes (schedule ++ [.process false])).toOption

example : scheduled.any (fun N => decide (delivered (N.rx false) = [(Sample.level, [[1]]),
    (Sample.level, [[7]])]) && decide (N.line false = []) && decide (N.line true = []) &&
    decide (delivered (N.rx true) = (N.sent true).map Request.call)) = true := by decide +kernel

theorem schedule_good : EventsGood pair schedule := by
  intro j r h
  simp [schedule] at h
  rcases h with ⟨rfl, rfl⟩ | ⟨rfl, rfl⟩ <;>
    exact ⟨rfl, ⟨by decide, by decide, rfl⟩, by simp [levelReq, Value.Fits, fieldSize]⟩

example := C75_in_order echoNodes_good schedule_good

/-- The hypotheses of the other theorems hold for it. -/
example : ∃ N, (Net.start echoNodes).run echoNodes (schedule ++ [.process false]) = .ok N ∧
    delivered (N.rx false) =
      (answers echo [] ((N.sent true).map Request.call)).map Request.call := by
  obtain ⟨N, h, _⟩ := C75_in_order echoNodes_good (es := schedule ++ [.process false])
    (by intro j r hm; exact schedule_good j r (by simpa using hm))
  have key : scheduled.any (fun N => decide (N.line false = []) &&
      decide (delivered (N.rx true) = (N.sent true).map Request.call)) = true := by decide +kernel
  unfold scheduled at key
  rw [h] at key
  simp only [Except.toOption, Option.any_some, Bool.and_eq_true, decide_eq_true_eq] at key
  exact ⟨N, h, C75_responses echoNodes_good schedule_good (by simp [schedule]) h key.2 key.1⟩

/-- After any part of the schedule the server catches up within three rounds of seven bytes. -/
example : ∃ N N', (Net.start echoNodes).run echoNodes (schedule.take 4) = .ok N ∧
    (Net.start echoNodes).run echoNodes (schedule.take 4 ++ polling true 7 3 ++ [.process true]) =
      .ok N' ∧ delivered (N'.rx true) = (N.sent true).map Request.call := by
  have hg : EventsGood pair (schedule.take 4) :=
    fun j r hm => schedule_good j r (List.mem_of_mem_take hm)
  obtain ⟨N, h, _⟩ := C75_in_order echoNodes_good hg
  have key : ((Net.start echoNodes).run echoNodes (schedule.take 4)).toOption.any (fun N =>
      decide ((N.line true).length ≤ min 7 (2 * maxLen (pair true) + 1) * 3)) = true := by
    decide +kernel
  rw [h] at key
  simp only [Except.toOption, Option.any_some, decide_eq_true_eq] at key
  obtain ⟨N', h', _, hd⟩ := C75_catches_up echoNodes_good hg h 7 3 key
  exact ⟨N, N', h, h', hd⟩

end TT.Properties
