import Verif.Properties.Gateway

/-!
# Property C92 for any number of senders
-/

namespace TT.Properties
open Spec

variable {C : Collection} {B : Build} {user : UserCode} {fuel : Nat}

/-- `l` says whose turn it is, and with which of their pieces: each of the senders, who have `ns[0]`, `ns[1]`, … pieces, is
through with all of them in order. -/
def Turns (ns : List Nat) (l : List (Nat × Nat)) : Prop :=
  (∀ p ∈ l, p.1 < ns.length) ∧ ∀ i n, ns[i]? = some n → (l.filter fun p => p.1 == i).map (·.2) = List.range n

/-- The piece of a turn. -/
def turnOf {α : Type} (xss : List (List α)) (p : Nat × Nat) : Option α := xss[p.1]?.bind fun xs => xs[p.2]?

/-- `zs` consists of the elements of all lists in `xss`, those of each list in their order. -/
def Interleaved {α : Type} (xss : List (List α)) (zs : List α) : Prop :=
  ∃ l, Turns (xss.map List.length) l ∧ zs.map some = l.map (turnOf xss)

theorem turnOf_map {α β : Type} (f : α → β) (xss : List (List α)) (p : Nat × Nat) :
    turnOf (xss.map (List.map f)) p = (turnOf xss p).map f := by
  unfold turnOf
  rw [List.getElem?_map]
  cases xss[p.1]? with
  | none => rfl
  | some xs => simp

theorem Interleaved.map {α β : Type} (f : α → β) {xss : List (List α)} {zs : List α} (h : Interleaved xss zs) :
    Interleaved (xss.map (List.map f)) (zs.map f) := by
  obtain ⟨l, h1, h2⟩ := h
  refine ⟨l, by simpa [Function.comp_def] using h1, ?_⟩
  have := congrArg (List.map (Option.map f)) h2
  rw [List.map_map, List.map_map] at this
  rw [List.map_map]
  calc zs.map (some ∘ f) = _ := this
    _ = _ := List.map_congr_left fun p _ => (turnOf_map f xss p).symm

theorem Interleaved.mem {α : Type} {xss : List (List α)} {zs : List α} (h : Interleaved xss zs) {z : α} (hz : z ∈ zs) :
    ∃ xs ∈ xss, z ∈ xs := by
  obtain ⟨l, _, h2⟩ := h
  have h3 : some z ∈ l.map (turnOf xss) := by rw [← h2]; exact List.mem_map_of_mem hz
  obtain ⟨p, _, h4⟩ := List.mem_map.mp h3
  obtain ⟨xs, h5, h6⟩ := Option.bind_eq_some_iff.mp h4
  exact ⟨xs, List.mem_of_getElem? h5, List.mem_of_getElem? h6⟩

theorem Interleaved.of_map {α β : Type} (f : α → β) {xss : List (List α)} {zs : List β}
    (h : Interleaved (xss.map (List.map f)) zs) : ∃ ws, Interleaved xss ws ∧ zs = ws.map f := by
  obtain ⟨l, h1, h2⟩ := h
  have h3 : ∃ ws : List α, ws.map some = l.map (turnOf xss) ∧ zs = ws.map f := by
    clear h1
    induction l generalizing zs with
    | nil => exact ⟨[], rfl, by simpa using h2⟩
    | cons p l ih =>
      cases zs with
      | nil => simp at h2
      | cons z zs =>
        simp only [List.map_cons, List.cons.injEq] at h2
        obtain ⟨ws, e1, e2⟩ := ih h2.2
        have h4 := h2.1
        rw [turnOf_map] at h4
        obtain ⟨x, hx, hf⟩ := Option.map_eq_some_iff.mp h4.symm
        exact ⟨x :: ws, by simp [e1, hx], by rw [e2, ← hf]; rfl⟩
  obtain ⟨ws, e1, e2⟩ := h3
  exact ⟨ws, ⟨l, by simpa [Function.comp_def] using h1, e1⟩, e2⟩

/-- C92, whole messages, for any number of senders: the handler calls are the messages of all of them, each sender's in the
order sent, nothing else. -/
theorem C92_many (S : Setting C B user) (hn : NeverThrows user) (rss : List (List Request))
    (hrs : ∀ rs ∈ rss, ∀ r ∈ rs, r.Good C) {line : List (List Byte)}
    (hline : Interleaved (rss.map fun rs => rs.map fun r => wire r.C r.t r.vs) line)
    {ops : List Op} {w : World C} {os : List Obs} (h : Reached B user fuel (ops ++ [.process]) w os)
    (hh : w.rx.hasHandler = true) (hfed : w.fed = line.flatten) :
    Interleaved (rss.map fun rs => rs.map fun r => (r.t, r.vs.map (·.bytes))) (delivered w) ∧ buffered w = [] := by
  obtain ⟨ws, hm, rfl⟩ := Interleaved.of_map (fun r : Request => wire r.C r.t r.vs) hline
  have hws : ∀ r ∈ ws, r.Good C := fun r hr => by
    obtain ⟨rs, h1, h2⟩ := hm.mem hr
    exact hrs rs h1 r h2
  obtain ⟨e1, e2⟩ := arrives_frames hws B user fuel ops w os S hn h hh (by
    rw [hfed, frames, List.map_map]
    exact congrArg List.flatten (List.map_congr_left fun r hr => (hws r hr).wire))
  exact ⟨by rw [e1]; exact hm.map _, e2⟩

/-- Each sender has sent their messages, from a fresh `ArduinoI2C` transmitter, and this is what went over the bus. -/
inductive AllSent : List (List Request) → List (List (List Byte)) → Prop
  | nil : AllSent [] []
  | cons {rs : List Request} {rss : List (List Request)} {s : I2CState} {wires : List (List (List Byte))} :
      sendAll arduinoI2C ⟨ArrayBuf.new 255, []⟩ rs = some (.ok s) → AllSent rss wires → AllSent (rs :: rss) (s.wire :: wires)

theorem AllSent.wires {rss : List (List Request)} {wires : List (List (List Byte))} (h : AllSent rss wires)
    (hrs : ∀ rs ∈ rss, ∀ r ∈ rs, r.Good C) (hl : ∀ rs ∈ rss, ∀ r ∈ rs, sizeofBound C r.t ≤ 255) :
    wires = rss.map fun rs => rs.map fun r => wire r.C r.t r.vs := by
  induction h with
  | nil => rfl
  | @cons rs rss s wires hs _ ih =>
    obtain ⟨s', h1, h2⟩ := C48_i2c_sequence ⟨ArrayBuf.new 255, []⟩ ⟨rfl, List.length_replicate⟩ rs
      (fun r hr => by rw [(hrs rs (by simp) r hr).1]; exact (hrs rs (by simp) r hr).2.1)
      (fun r hr => by rw [(hrs rs (by simp) r hr).wire, (hrs rs (by simp) r hr).length]; exact hl rs (by simp) r hr)
    rw [hs] at h1
    obtain rfl : s = s' := by simpa using h1
    rw [ih (fun rs h => hrs rs (by simp [h])) (fun rs h => hl rs (by simp [h])), List.map_cons]
    rw [show s.wire = _ by simpa using h2]

/-- C92, I2C, for any number of masters on one bus: whatever the order in which their transactions get onto the bus, all
messages of all of them arrive, each sender's in the order sent, and nothing else. -/
theorem C92_many_i2c (S : Setting C B user) (hn : NeverThrows user) (rss : List (List Request))
    (hrs : ∀ rs ∈ rss, ∀ r ∈ rs, r.Good C) (hl : ∀ rs ∈ rss, ∀ r ∈ rs, sizeofBound C r.t ≤ 255) :
    ∃ wires, AllSent rss wires ∧
      ∀ (bus : List (List Byte)) (ops : List Op) (w : World C) (os : List Obs), Interleaved wires bus →
        Reached B user fuel (ops ++ [.process]) w os → w.rx.hasHandler = true → w.fed = bus.flatten →
        Interleaved (rss.map fun rs => rs.map fun r => (r.t, r.vs.map (·.bytes))) (delivered w) ∧ buffered w = [] := by
  have go : ∃ wires, AllSent rss wires := by
    induction rss with
    | nil => exact ⟨[], .nil⟩
    | cons rs rss ih =>
      obtain ⟨wires, hw⟩ := ih (fun rs h => hrs rs (by simp [h])) (fun rs h => hl rs (by simp [h]))
      obtain ⟨s, h1, _⟩ := C48_i2c_sequence ⟨ArrayBuf.new 255, []⟩ ⟨rfl, List.length_replicate⟩ rs
        (fun r hr => by rw [(hrs rs (by simp) r hr).1]; exact (hrs rs (by simp) r hr).2.1)
        (fun r hr => by rw [(hrs rs (by simp) r hr).wire, (hrs rs (by simp) r hr).length]; exact hl rs (by simp) r hr)
      exact ⟨_, .cons h1 hw⟩
  obtain ⟨wires, hw⟩ := go
  refine ⟨wires, hw, fun bus ops w os hm h hh hfed => ?_⟩
  rw [hw.wires hrs hl] at hm
  exact C92_many S hn rss hrs hm h hh hfed

/-- C92. What an interleaving is: as many calls as messages were sent by all senders together. -/
theorem C92_many_length {α : Type} {xss : List (List α)} {zs : List α} (h : Interleaved xss zs) :
    zs.length = (xss.map List.length).sum := by
  obtain ⟨l, ⟨h1, h2⟩, h3⟩ := h
  have h4 : zs.length = l.length := by simpa using congrArg List.length h3
  rw [h4]
  clear h3 h4
  -- as many turns as pieces
  have key : ∀ (ns : List Nat) (k : Nat) (l : List (Nat × Nat)), (∀ p ∈ l, k ≤ p.1 ∧ p.1 < k + ns.length) →
      (∀ i n, ns[i]? = some n → (l.filter fun p => p.1 == k + i).length = n) → l.length = ns.sum := by
    intro ns
    induction ns with
    | nil =>
      intro k l h _
      cases l with
      | nil => rfl
      | cons p l =>
        have := h p (by simp)
        simp only [List.length_nil] at this
        omega
    | cons n ns ih =>
      intro k l h h'
      have e0 := h' 0 n rfl
      have hsplit : l.length = (l.filter fun p => p.1 == k + 0).length + (l.filter fun p => !(p.1 == k + 0)).length :=
        by
          rw [← List.countP_eq_length_filter, ← List.countP_eq_length_filter]
          rw [List.length_eq_countP_add_countP fun p : Nat × Nat => p.1 == k + 0]
          congr 2
          funext p
          cases p.1 == k + 0 <;> rfl
      rw [hsplit, e0, List.sum_cons]
      congr 1
      refine ih (k + 1) _ ?_ ?_
      · intro p hp
        obtain ⟨a, b⟩ := List.mem_filter.mp hp
        have := h p a
        have : p.1 ≠ k := by simpa using b
        simp only [List.length_cons] at *
        omega
      · intro i n' hi
        have := h' (i + 1) n' (by simpa using hi)
        rw [← this, List.filter_filter]
        congr 1
        apply List.filter_congr
        intro p _
        rw [show k + (i + 1) = k + 1 + i by omega]
        by_cases e : p.1 = k + 1 + i
        · simp [e]; omega
        · simp [e]
  refine key _ 0 l (fun p hp => ⟨Nat.zero_le _, by simpa using h1 p hp⟩) ?_
  intro i n hi
  have := congrArg List.length (h2 i n hi)
  simpa using this

/-- The turns of three senders with two, one and three pieces. -/
def sixTurns : List (Nat × Nat) := [(2, 0), (0, 0), (2, 1), (1, 0), (0, 1), (2, 2)]

theorem sixTurns_turns : Turns [2, 1, 3] sixTurns := by
  refine ⟨by decide, ?_⟩
  intro i n h
  match i, h with
  | 0, h => obtain rfl : 2 = n := by simpa using h
            decide
  | 1, h => obtain rfl : 1 = n := by simpa using h
            decide
  | 2, h => obtain rfl : 3 = n := by simpa using h
            decide
  | i + 3, h => simp at h

/-- What three senders send. -/
def threeSenders : List (List Request) :=
  [[⟨Sample.checked, Sample.level, [⟨.uint8, [7]⟩]⟩, ⟨Sample.checked, Sample.ping, []⟩],
    [⟨Sample.checked, Sample.level, [⟨.uint8, [9]⟩]⟩], requests3]

/-- It happens: three senders on one bus. -/
example : ∃ (wires : List (List (List Byte))) (bus : List (List Byte)) (w : World Sample.checked) (os : List Obs),
    AllSent threeSenders wires ∧ Interleaved wires bus ∧
    Reached Sample.dbg Sample.passive 50 ([.setHandler Sample.h0, .append (bus.flatten.take 20), .process,
      .append (bus.flatten.drop 20)] ++ [.process]) w os ∧
    w.rx.hasHandler = true ∧ w.fed = bus.flatten ∧
    Interleaved (threeSenders.map fun rs => rs.map fun r => (r.t, r.vs.map (·.bytes))) (delivered w) ∧ (delivered w).length = 6 := by
  have hg : ∀ rs ∈ threeSenders, ∀ r ∈ rs, r.Good Sample.checked := by decide +kernel
  have hl : ∀ rs ∈ threeSenders, ∀ r ∈ rs, sizeofBound Sample.checked r.t ≤ 255 := by decide +kernel
  obtain ⟨wires, hw, hall⟩ := C92_many_i2c (fuel := 50) Sample.setting_checked Sample.passive_neverThrows threeSenders hg hl
  have hb : Interleaved wires (sixTurns.filterMap (turnOf (threeSenders.map fun rs => rs.map fun r => wire r.C r.t r.vs))) := by
    rw [hw.wires hg hl]
    exact ⟨sixTurns, sixTurns_turns, by decide +kernel⟩
  obtain ⟨w, os, h, hp⟩ := Sample.reached (C := Sample.checked) (B := Sample.dbg) (user := Sample.passive) (fuel := 50)
    (ops := [.setHandler Sample.h0, .append
      ((sixTurns.filterMap (turnOf (threeSenders.map fun rs => rs.map fun r => wire r.C r.t r.vs))).flatten.take 20), .process,
      .append ((sixTurns.filterMap (turnOf (threeSenders.map fun rs => rs.map fun r => wire r.C r.t r.vs))).flatten.drop 20)] ++ [.process])
    (fun w _ => w.rx.hasHandler && decide (w.fed =
      (sixTurns.filterMap (turnOf (threeSenders.map fun rs => rs.map fun r => wire r.C r.t r.vs))).flatten) &&
      decide ((delivered w).length = 6)) (by decide +kernel)
  simp only [Bool.and_eq_true, decide_eq_true_eq] at hp
  exact ⟨wires, _, w, os, hw, hb, h, hp.1.1, hp.1.2, (hall _ _ w os hb h hp.1.1 hp.1.2).1, hp.2⟩

end TT.Properties
