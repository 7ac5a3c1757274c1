import Verif.Properties.Receiver
import Verif.Properties.LineErrors
import Verif.Proofs.AssertHandler

/-!
# Property C123: programs that run forever
-/

namespace TT.Properties
open Spec

variable {C : Collection} {B : Build} {user : UserCode} {fuel : Nat}

/-- The first `n` of infinitely many calls. -/
def firstCalls (ops : Nat → Op) (n : Nat) : List Op := (List.range n).map ops

/-- A program that makes infinitely many calls, keeping the rules: its states after each number of calls. -/
structure Execution (C : Collection) (B : Build) (user : UserCode) (fuel : Nat) (ops : Nat → Op) where
  state : Nat → World C
  observed : Nat → List Obs
  reached : ∀ n, Reached B user fuel (firstCalls ops n) (state n) (observed n)

/-- The first bytes of an endless line. -/
def firstBytes (line : Nat → Byte) (n : Nat) : List Byte := (List.range n).map line

/-- The bytes of an endless line come in, in order, and never stop coming. -/
structure Listens {ops : Nat → Op} (E : Execution C B user fuel ops) (line : Nat → Byte) : Prop where
  order : ∀ n, (E.state n).fed = firstBytes line (E.state n).fed.length
  all : ∀ n, ∃ k, n ≤ (E.state k).fed.length

/-- `processMessages` is called again and again with a handler set. -/
def PollsForever {ops : Nat → Op} (E : Execution C B user fuel ops) : Prop :=
  ∀ n, ∃ k, n ≤ k ∧ ops k = .process ∧ (E.state (k + 1)).rx.hasHandler = true

theorem firstCalls_succ (ops : Nat → Op) (n : Nat) : firstCalls ops (n + 1) = firstCalls ops n ++ [ops n] := by
  simp [firstCalls, List.range_succ]

theorem firstCalls_add (ops : Nat → Op) (n k : Nat) :
    firstCalls ops (n + k) = firstCalls ops n ++ (List.range k).map fun i => ops (n + i) := by
  unfold firstCalls
  rw [List.range_add, List.map_append, List.map_map]
  rfl

theorem firstBytes_add (line : Nat → Byte) (n k : Nat) :
    firstBytes line (n + k) = firstBytes line n ++ (List.range k).map fun i => line (n + i) := by
  unfold firstBytes
  rw [List.range_add, List.map_append, List.map_map]
  rfl

/-- Later in the same history more bytes have come in and more messages have been delivered. -/
theorem reached_later (S : Setting C B user) (hn : NeverThrows user) {ops ops' : List Op} {w w' : World C}
    {os os' : List Obs} (h : Reached B user fuel ops w os) (h' : Reached B user fuel (ops ++ ops') w' os') :
    w.fed <+: w'.fed ∧ delivered w <+: delivered w' := by
  obtain ⟨w1, os1, os2, e1, e2, _⟩ := run_append h'.run
  rw [h.run] at e1
  simp only [Except.ok.injEq, Prod.mk.injEq] at e1
  obtain ⟨rfl, rfl⟩ := e1
  obtain ⟨s, _, ha, _⟩ := h.exec S
  obtain ⟨s', ms, ha', he⟩ := run_exec S.arith.lt64 S.benign S.arith ha (Legal.drop _ h'.legal h.run) e2
  obtain ⟨new, h1, _⟩ := he.since
  obtain ⟨calls, h2, _⟩ := he.calls hn
  refine ⟨⟨new, by rw [ha.fed, ha'.fed, h1]⟩, ⟨calls.map seen, ?_⟩⟩
  unfold delivered
  rw [ha.trace, ha'.trace, h2, List.map_append]

theorem execution_later (S : Setting C B user) (hn : NeverThrows user) {ops : Nat → Op} (E : Execution C B user fuel ops)
    {n k : Nat} (hk : n ≤ k) :
    (E.state n).fed <+: (E.state k).fed ∧ delivered (E.state n) <+: delivered (E.state k) := by
  obtain ⟨d, rfl⟩ := Nat.exists_eq_add_of_le hk
  refine reached_later S hn (E.reached n) ?_ (os' := E.observed (n + d)) (ops' := (List.range d).map fun i => ops (n + i))
  rw [← firstCalls_add]
  exact E.reached (n + d)

/-- What a longer stream decodes to begins with what its first bytes decode to. -/
theorem decodes_grows {s t r r' : List Byte} {ms ms' : List Msg} (h : Decodes C s ms r) (h' : Decodes C (s ++ t) ms' r') :
    ms <+: ms' := by
  obtain ⟨es, q, hd⟩ := decodes_exists C (r ++ t)
  have := (show Decodes C (s ++ t) (ms ++ es) q from ⟨(h.1.append t).trans hd.1, hd.2⟩).unique h'
  exact ⟨es, this.1⟩

/-- C123. At each moment of an endless program, what has been delivered is the beginning of what the line decodes to: of
what any number of its first bytes decode to that includes those that have come in. -/
theorem C123_safe (S : Setting C B user) (hn : NeverThrows user) {ops : Nat → Op} {E : Execution C B user fuel ops}
    {line : Nat → Byte} (hl : Listens E line) {n len : Nat} (hlen : (E.state n).fed.length ≤ len) {ms : List Msg}
    {r : List Byte} (hd : Decodes C (firstBytes line len) ms r) :
    delivered (E.state n) <+: ms.map (meaning C) := by
  obtain ⟨ms', h1, h2⟩ := (E.reached n).partly S hn
  obtain ⟨d, rfl⟩ := Nat.exists_eq_add_of_le hlen
  obtain ⟨es, q, hd'⟩ := decodes_exists C (buffered (E.state n) ++ (List.range d).map fun i => line ((E.state n).fed.length + i))
  have hu : Decodes C (firstBytes line ((E.state n).fed.length + d)) (ms' ++ es) q := by
    rw [firstBytes_add, ← hl.order n]
    exact ⟨(h1.append _).trans hd'.1, hd'.2⟩
  obtain ⟨e, _⟩ := hu.unique hd
  rw [h2, ← e, List.map_append]
  exact List.prefix_append _ _

/-- C123. Nothing is postponed forever: whatever some first bytes of the line decode to is delivered after some number of
calls, and stays delivered. -/
theorem C123_live (S : Setting C B user) (hn : NeverThrows user) {ops : Nat → Op} {E : Execution C B user fuel ops}
    {line : Nat → Byte} (hl : Listens E line) (hp : PollsForever E) {len : Nat} {ms : List Msg} {r : List Byte}
    (hd : Decodes C (firstBytes line len) ms r) :
    ∃ n, ∀ k, n ≤ k → ms.map (meaning C) <+: delivered (E.state k) := by
  obtain ⟨n, hlen⟩ := hl.all len
  obtain ⟨k, hk, hop, hh⟩ := hp n
  refine ⟨k + 1, fun k' hk' => ?_⟩
  refine List.IsPrefix.trans ?_ (execution_later S hn E hk').2
  have hr : Reached B user fuel (firstCalls ops k ++ [.process]) (E.state (k + 1)) (E.observed (k + 1)) := by
    rw [← hop, ← firstCalls_succ]
    exact E.reached (k + 1)
  obtain ⟨ms', hd', e⟩ := hr.polled S hn hh
  have hge : len ≤ (E.state (k + 1)).fed.length :=
    Nat.le_trans hlen (execution_later S hn E (show n ≤ k + 1 by omega)).1.length_le
  obtain ⟨d, hdd⟩ := Nat.exists_eq_add_of_le hge
  rw [hl.order (k + 1), hdd, firstBytes_add] at hd'
  obtain ⟨es, rfl⟩ := decodes_grows hd hd'
  rw [e, List.map_append]
  exact List.prefix_append _ _

/-- The messages of an endless sequence, one after the other on the line. -/
def LineOf (E : Envelope) (msgs : Nat → Msg) (line : Nat → Byte) : Prop :=
  ∀ n, ∃ len, firstBytes line len = frames E ((List.range n).map msgs)

/-- C123. If the line carries an endless sequence of messages, at each moment the first ones of them have been delivered,
and each one is delivered after some number of calls. -/
theorem C123_messages (S : Setting C B user) (hn : NeverThrows user) {ops : Nat → Op} {E : Execution C B user fuel ops}
    {line : Nat → Byte} (hl : Listens E line) (hp : PollsForever E) {msgs : Nat → Msg} (hm : ∀ i, IsMsg C (msgs i))
    (hline : LineOf C.envelope msgs line) :
    (∀ n, ∃ i, delivered (E.state n) = (List.range i).map fun i => meaning C (msgs i)) ∧
    ∀ i, ∃ n, ∀ k, n ≤ k → (delivered (E.state k))[i]? = some (meaning C (msgs i)) := by
  have hdec : ∀ n len, firstBytes line len = frames C.envelope ((List.range n).map msgs) →
      Decodes C (firstBytes line len) ((List.range n).map msgs) [] := by
    intro n len e
    refine ⟨?_, Or.inl rfl⟩
    rw [e]
    have := run_frames (C := C) (ms := (List.range n).map msgs) (by
      intro m hm'
      obtain ⟨i, _, rfl⟩ := List.mem_map.mp hm'
      exact hm i) []
    rwa [List.append_nil] at this
  constructor
  · intro n
    obtain ⟨len, hlen⟩ := hline ((E.state n).fed.length)
    have hge : (E.state n).fed.length ≤ len := by
      have h1 := congrArg List.length hlen
      have : ∀ k, k ≤ (frames C.envelope ((List.range k).map msgs)).length := by
        intro k
        induction k with
        | zero => omega
        | succ k ih =>
          rw [List.range_succ, List.map_append, frames_append, List.length_append]
          have : 0 < (frames C.envelope ([k].map msgs)).length := by
            obtain ⟨t, e⟩ := frame_cons C.envelope (msgs k)
            simp [frames, e]
          omega
      have h2 := this (E.state n).fed.length
      simp only [firstBytes, List.length_map, List.length_range] at h1
      omega
    have hpre := C123_safe S hn hl hge (hdec _ _ hlen)
    refine ⟨(delivered (E.state n)).length, ?_⟩
    have h1 := List.prefix_iff_eq_take.mp hpre
    have hle := hpre.length_le
    simp only [List.length_map, List.length_range] at hle
    rw [← List.map_take, ← List.map_take, List.take_range, Nat.min_eq_left hle, List.map_map] at h1
    exact h1
  · intro i
    obtain ⟨len, hlen⟩ := hline (i + 1)
    obtain ⟨n, h⟩ := C123_live S hn hl hp (hdec _ _ hlen)
    refine ⟨n, fun k hk => ?_⟩
    obtain ⟨t, e⟩ := h k hk
    rw [← e, List.getElem?_append_left (by simp)]
    simp

/-! ### A loop -/

/-- Set a handler, then forever: append some bytes, process. -/
def loopCalls (h : Handler) (parts : Nat → List Byte) : Nat → Op
  | 0 => .setHandler h
  | n + 1 => if n % 2 = 0 then .append (parts (n / 2)) else .process

theorem loopCalls_rounds (h : Handler) (parts : Nat → List Byte) (n : Nat) :
    firstCalls (loopCalls h parts) (2 * n + 1) = .setHandler h :: rounds ((List.range n).map parts) := by
  induction n with
  | zero => rfl
  | succ n ih =>
    rw [show 2 * (n + 1) + 1 = (2 * n + 1) + 1 + 1 by omega, firstCalls_succ, firstCalls_succ, ih, List.range_succ]
    have h1 : loopCalls h parts (2 * n + 1) = .append (parts n) := by
      show (if (2 * n) % 2 = 0 then _ else _) = _
      rw [if_pos (by omega), show 2 * n / 2 = n by omega]
    have h2 : loopCalls h parts (2 * n + 1 + 1) = .process := by
      show (if (2 * n + 1) % 2 = 0 then _ else _) = _
      rw [if_neg (by omega)]
    rw [h1, h2]
    simp [rounds]

theorem rounds_handler (S : Setting C B user) (hn : NeverThrows user) (hne : C.messages ≠ [])
    (parts : List (List Byte)) (hc : ∀ xs ∈ parts, xs.length ≤ 2 * maxLen C + 1) :
    ∀ {w w' : World C} {s : AState} {os : List Obs}, Abs w s → s.handler.isSome → s.buf.length < maxLen C →
      w.run B user fuel (rounds parts) = .ok (w', os) → w'.rx.hasHandler = true := by
  induction parts with
  | nil =>
    intro w w' s os ha hh _ hr
    simp only [rounds, List.flatMap_nil, World.run, Except.ok.injEq, Prod.mk.injEq] at hr
    rw [← hr.1, ha.hasHandler]
    exact hh
  | cons xs parts ih =>
    intro w w' s os ha hh hl hr
    have hx := hc xs (by simp)
    have hfit : s.buf.length + xs.length ≤ capacity C := by unfold capacity; omega
    have e : rounds (xs :: parts) = [.append xs] ++ ([.process] ++ rounds parts) := rfl
    rw [e] at hr
    obtain ⟨w1, _, _, r1, r2, _⟩ := run_append hr
    obtain ⟨w2, _, _, r3, r4, _⟩ := run_append r2
    obtain ⟨w1', h1', ha1, _⟩ := append_ok S.arith.lt64 ha hfit
    simp [World.run, World.step, h1' B S.arith] at r1
    obtain ⟨rfl, _⟩ := r1
    rcases processMessages_spec S.arith.lt64 S.benign fuel ha1 hh with
      ⟨_, hd⟩ | ⟨w3, s', ms, th, h3, h4, h5, h6⟩
    · simp [World.run, World.step, hd B S.arith] at r3
    · simp [World.run, World.step, h3 B S.arith] at r3
      obtain ⟨rfl, _⟩ := r3
      have hth := h5.no_throw hn
      subst hth
      obtain ⟨_, _, _, _, _, _, _, _, _, h7, _⟩ := h5.sound
      exact ih (fun ys hy => hc ys (by simp [hy])) h4 h6.1 (final_length_lt hne (h7 rfl).1) r4

/-- C123. A program that sets a handler and then forever appends at most `2 * maxLen + 1` bytes and processes them runs
forever, in every build: it keeps the rules, no call fails or does not return, and what it appended is what comes in. -/
theorem C123_loop (S : Setting C B user) (hq : Quiet user) (hn : NeverThrows user) (hne : C.messages ≠ [])
    (hf : capacity C < fuel) (h : Handler) {parts : Nat → List Byte} (hc : ∀ n, (parts n).length ≤ 2 * maxLen C + 1) :
    ∃ E : Execution C B user fuel (loopCalls h parts), PollsForever E ∧
      ∀ n, (E.state (2 * n + 1)).rx.hasHandler = true ∧ (E.state (2 * n + 1)).fed = ((List.range n).map parts).flatten := by
  have hmem : ∀ n, ∀ xs ∈ (List.range n).map parts, xs.length ≤ 2 * maxLen C + 1 := by
    intro n xs hx
    obtain ⟨i, _, rfl⟩ := List.mem_map.mp hx
    exact hc i
  have hlegal : ∀ n, Legal B user fuel (World.new C) (firstCalls (loopCalls h parts) n) := by
    intro n
    have h1 := C33_rounds_legal (fuel := fuel) S hn hne h _ (hmem n)
    rw [← loopCalls_rounds, show 2 * n + 1 = n + (n + 1) by omega, firstCalls_add] at h1
    exact h1.of_append
  have hex : ∀ n, ∃ x : World C × List Obs,
      (World.new C).run B user fuel (firstCalls (loopCalls h parts) n) = .ok x := by
    intro n
    obtain ⟨w, os, e⟩ := run_total S.arith.lt64 S.benign hq hf S.arith (abs_new C) (hlegal n)
    exact ⟨(w, os), e⟩
  have hhand : ∀ n, (Classical.choose (hex (2 * n + 1))).1.rx.hasHandler = true := by
    intro n
    have e := Classical.choose_spec (hex (2 * n + 1))
    generalize Classical.choose (hex (2 * n + 1)) = x at e ⊢
    obtain ⟨w, os⟩ := x
    rw [loopCalls_rounds, show ∀ l, (Op.setHandler h :: l) = [.setHandler h] ++ l from fun _ => rfl] at e
    obtain ⟨w1, _, _, r1, r2, _⟩ := run_append e
    simp [World.run, World.step] at r1
    obtain ⟨rfl, _⟩ := r1
    have ha : Abs ({ World.new C with rx := (World.new C).rx.setHandler h })
        { AState.new with handler := some h } :=
      ⟨(abs_new C).buf, rfl, rfl, rfl, rfl, rfl⟩
    have hpos : 0 < maxLen C := by
      have := final_length_lt (C := C) hne (r := []) (Or.inl rfl)
      simpa using this
    exact rounds_handler S hn hne _ (hmem n) ha rfl (by simpa [AState.new] using hpos) r2
  refine ⟨⟨fun n => (Classical.choose (hex n)).1, fun n => (Classical.choose (hex n)).2,
    fun n => ⟨hlegal n, Classical.choose_spec (hex n)⟩⟩, ?_, fun n => ⟨hhand n, ?_⟩⟩
  · intro n
    refine ⟨2 * n + 2, by omega, ?_, hhand (n + 1)⟩
    show (if (2 * n + 1) % 2 = 0 then _ else _) = _
    rw [if_neg (by omega)]
  · have hr : Reached B user fuel (firstCalls (loopCalls h parts) (2 * n + 1))
        (Classical.choose (hex (2 * n + 1))).1 (Classical.choose (hex (2 * n + 1))).2 :=
      ⟨hlegal _, Classical.choose_spec (hex _)⟩
    have := C25_fed_is_chunks S hq (by
      intro a r hm
      rw [loopCalls_rounds] at hm
      simp [rounds] at hm) hr
    refine this.trans ?_
    rw [loopCalls_rounds]
    show chunks (rounds _) = _
    generalize (List.range n).map parts = ps
    induction ps with
    | nil => rfl
    | cons p ps ih =>
      rw [List.flatten_cons, ← ih]
      rfl

/-- C123. If each piece is one message, then after each round exactly the messages of the rounds made have been
delivered, forever. -/
theorem C123_loop_messages (S : Setting C B user) (hq : Quiet user) (hn : NeverThrows user) (hne : C.messages ≠ [])
    (hf : capacity C < fuel) (h : Handler) {msgs : Nat → Msg} (hm : ∀ i, IsMsg C (msgs i)) :
    ∃ E : Execution C B user fuel (loopCalls h fun n => frame C.envelope (msgs n)), PollsForever E ∧
      (∀ n, (E.state (2 * n + 1)).fed = frames C.envelope ((List.range n).map msgs)) ∧
      ∀ n, delivered (E.state (2 * n + 1)) = (List.range n).map fun i => meaning C (msgs i) := by
  obtain ⟨E, hp, hE⟩ := C123_loop (B := B) S hq hn hne hf h (parts := fun n => frame C.envelope (msgs n)) (by
    intro n
    have : (frame C.envelope (msgs n)).length ≤ maxLen C := by
      have := announced_le (hm n).announced
      rwa [← maxLen_eq] at this
    omega)
  have hfed : ∀ n, (E.state (2 * n + 1)).fed = frames C.envelope ((List.range n).map msgs) := by
    intro n
    rw [(hE n).2]
    simp [frames, Function.comp_def]
  refine ⟨E, hp, hfed, fun n => ?_⟩
  have hd : Decodes C (E.state (2 * n + 1)).fed ((List.range n).map msgs) [] := by
    refine ⟨?_, Or.inl rfl⟩
    have h1 := run_frames (C := C) (ms := (List.range n).map msgs) (by
      intro m hm'
      obtain ⟨i, _, rfl⟩ := List.mem_map.mp hm'
      exact hm i) []
    rw [List.append_nil] at h1
    rwa [hfed n]
  cases n with
  | zero =>
    obtain ⟨ms, h1, h2⟩ := (E.reached (2 * 0 + 1)).partly S hn
    obtain ⟨es, q, h3⟩ := decodes_exists C (buffered (E.state (2 * 0 + 1)))
    have h4 := (show Decodes C _ (ms ++ es) q from ⟨h1.trans h3.1, h3.2⟩).unique hd
    have h5 : ms = [] := (List.append_eq_nil_iff.mp h4.1).1
    rw [h2, h5]
    rfl
  | succ n =>
    have hr : Reached B user fuel (firstCalls (loopCalls h fun n => frame C.envelope (msgs n)) (2 * n + 2) ++ [.process])
        (E.state (2 * (n + 1) + 1)) (E.observed (2 * (n + 1) + 1)) := by
      have : loopCalls h (fun n => frame C.envelope (msgs n)) (2 * n + 2) = .process := by
        show (if (2 * n + 1) % 2 = 0 then _ else _) = _
        rw [if_neg (by omega)]
      rw [← this, ← firstCalls_succ]
      exact E.reached _
    have := (polled_eq S hn hr (hE (n + 1)).1 hd).1
    rw [this, List.map_map]
    rfl

/-! ### The line of an endless sequence of messages -/

/-- Every byte of the line that carries the messages one after the other. -/
def endless (E : Envelope) (msgs : Nat → Msg) (n : Nat) : Byte :=
  (frames E ((List.range (n + 1)).map msgs)).getD n 0

theorem frames_grow (E : Envelope) (msgs : Nat → Msg) {n k : Nat} (h : n ≤ k) :
    frames E ((List.range n).map msgs) <+: frames E ((List.range k).map msgs) := by
  obtain ⟨d, rfl⟩ := Nat.exists_eq_add_of_le h
  rw [List.range_add, List.map_append, frames_append]
  exact List.prefix_append _ _

theorem frames_enough (E : Envelope) (msgs : Nat → Msg) (n : Nat) :
    n ≤ (frames E ((List.range n).map msgs)).length := by
  induction n with
  | zero => omega
  | succ n ih =>
    rw [List.range_succ, List.map_append, frames_append, List.length_append]
    have : 0 < (frames E ([n].map msgs)).length := by
      obtain ⟨t, e⟩ := frame_cons E (msgs n)
      simp [frames, e]
    omega

theorem endless_frames (E : Envelope) (msgs : Nat → Msg) (n : Nat) :
    firstBytes (endless E msgs) (frames E ((List.range n).map msgs)).length = frames E ((List.range n).map msgs) := by
  refine List.ext_getElem (by simp [firstBytes]) fun i _ hi => ?_
  simp only [firstBytes, List.getElem_map, List.getElem_range, endless]
  have h1 : i < (frames E ((List.range (i + 1)).map msgs)).length := frames_enough E msgs (i + 1)
  rw [List.getD_eq_getElem?_getD, List.getElem?_eq_getElem h1, Option.getD_some]
  rcases Nat.le_total (i + 1) n with h | h
  · exact (frames_grow E msgs h).getElem h1
  · exact ((frames_grow E msgs h).getElem hi).symm

theorem endless_line (E : Envelope) (msgs : Nat → Msg) : LineOf E msgs (endless E msgs) :=
  fun n => ⟨_, endless_frames E msgs n⟩

/-- The loop over the messages listens to that line. -/
theorem loop_listens (S : Setting C B user) (hn : NeverThrows user) {h : Handler} {msgs : Nat → Msg}
    (E : Execution C B user fuel (loopCalls h fun n => frame C.envelope (msgs n)))
    (hfed : ∀ n, (E.state (2 * n + 1)).fed = frames C.envelope ((List.range n).map msgs)) :
    Listens E (endless C.envelope msgs) := by
  constructor
  · intro n
    have h1 := (execution_later S hn E (show n ≤ 2 * n + 1 by omega)).1
    rw [hfed n, ← endless_frames] at h1
    have h2 := List.prefix_iff_eq_take.mp h1
    have h3 := h1.length_le
    simp only [firstBytes, List.length_map, List.length_range] at h3
    unfold firstBytes at h2
    rw [← List.map_take, List.take_range, Nat.min_eq_left h3] at h2
    exact h2
  · intro n
    refine ⟨2 * n + 1, ?_⟩
    rw [hfed n]
    exact frames_enough _ _ n

/-- Messages of the same type forever, their contents counting. -/
def counting (n : Nat) : Msg := ⟨1, [UInt8.ofNat n]⟩

/-- The hypotheses can be met. -/
example : ∃ E : Execution Sample.checked Sample.dbg Sample.passive 100
      (loopCalls Sample.h0 fun n => frame Sample.checked.envelope (counting n)),
    (∀ n, delivered (E.state (2 * n + 1)) = (List.range n).map fun i => meaning Sample.checked (counting i)) ∧
    (∀ n, ∃ i, delivered (E.state n) = (List.range i).map fun i => meaning Sample.checked (counting i)) ∧
    ∀ i, ∃ n, ∀ k, n ≤ k → (delivered (E.state k))[i]? = some (meaning Sample.checked (counting i)) := by
  have hm : ∀ i, IsMsg Sample.checked (counting i) := fun _ => ⟨Sample.level, by show typeOf Sample.checked 1 = _; decide, rfl⟩
  obtain ⟨E, hp, hfed, hd⟩ := C123_loop_messages (B := Sample.dbg) (fuel := 100) Sample.setting_checked
    Sample.passive_quiet Sample.passive_neverThrows (by decide) (by decide) Sample.h0 hm
  exact ⟨E, hd, C123_messages Sample.setting_checked Sample.passive_neverThrows
    (loop_listens Sample.setting_checked Sample.passive_neverThrows E hfed) hp hm (endless_line _ _)⟩

end TT.Properties
