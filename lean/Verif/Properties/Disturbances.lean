import Verif.Properties.Recovery

/-!
# Property about lines that are disturbed again and again: C94
-/

namespace TT.Properties
open Spec

variable {C : Collection} {B : Build} {user : UserCode} {fuel : Nat}

/-! ### C94: the harm done by disturbances is local -/

/-- What comes in over a line that is disturbed again and again: garbage, then messages that arrive
undisturbed, and so on. -/
def disturbed (E : Envelope) (line : List (List Byte × List Msg)) : List Byte :=
  line.flatMap fun p => p.1 ++ frames E p.2

/-- The stretch of messages behind a disturbance is one that the receiver can rely on: no other
messages begin within them, and they are together at least as long as the longest message minus one. Without garbage before
it there is no condition. -/
def Stretch (C : Collection) (p : List Byte × List Msg) : Prop :=
  (∀ m ∈ p.2, IsMsg C m) ∧ (p.1 ≠ [] → p.2 ≠ [] ∧ (∀ m ∈ p.2, Solid C m) ∧
    maxLen C ≤ (frames C.envelope p.2).length + 1)

/-- How many messages one disturbance can cost: those that begin less than the length of the longest
message minus one behind it. -/
def lossBound (C : Collection) : Nat := (maxLen C - 2) / overhead C.envelope + 1

/-- What is delivered (second argument) when messages come in over a disturbed line. Of each stretch
behind a disturbance the first `k` messages may be missing and forged messages `fs` may come
instead. They are made of the garbage and of the messages that are missing. -/
inductive Survives (C : Collection) : List (List Byte × List Msg) → List Msg → Prop where
  | nil : Survives C [] []
  | cons {g : List Byte} {ms : List Msg} {line : List (List Byte × List Msg)} {ds : List Msg}
      (fs : List Msg) (k : Nat) :
      (g = [] → fs = [] ∧ k = 0) → k ≤ ms.length → k ≤ lossBound C →
      (k = 0 ∨ (frames C.envelope (ms.take (k - 1))).length + 1 < maxLen C) →
      (frames C.envelope fs).length ≤ g.length + (frames C.envelope (ms.take k)).length →
      Survives C line ds → Survives C ((g, ms) :: line) (fs ++ ms.drop k ++ ds)

theorem frames_length_append (E : Envelope) (a b : List Msg) :
    (frames E (a ++ b)).length = (frames E a).length + (frames E b).length := by
  simp [frames]

/-- What is taken or left over was there. -/
theorem Run.bytes {s r : List Byte} {ms : List Msg} (h : Run C s ms r) :
    (frames C.envelope ms).length + r.length ≤ s.length := by
  induction h with
  | refl => simp [frames]
  | take _ _ ih => rw [frames_cons]; simp only [List.length_append]; omega
  | skip _ _ _ ih => simp only [List.length_cons]; omega

theorem overhead_le_frame (E : Envelope) (m : Msg) : overhead E ≤ (frame E m).length := by
  cases E <;> simp [frame, overhead] <;> omega

theorem run_disturbed : ∀ {line : List (List Byte × List Msg)}, (∀ p ∈ line, Stretch C p) →
    ∃ ds, Survives C line ds ∧ Run C (disturbed C.envelope line) ds [] := by
  intro line
  induction line with
  | nil => intro _; exact ⟨[], .nil, Run.refl _⟩
  | cons p line ih =>
    intro h
    obtain ⟨g, ms⟩ := p
    obtain ⟨ds, hs, hr⟩ := ih fun p hp => h p (by simp [hp])
    obtain ⟨hms, hg⟩ := h (g, ms) (by simp)
    have hd : disturbed C.envelope ((g, ms) :: line)
        = g ++ frames C.envelope ms ++ disturbed C.envelope line := by simp [disturbed]
    rw [hd]
    by_cases hnil : g = []
    · subst hnil
      refine ⟨[] ++ ms.drop 0 ++ ds, .cons [] 0 (fun _ => ⟨rfl, rfl⟩) (by simp) (by simp)
        (Or.inl rfl) (by simp [frames]) hs, ?_⟩
      simpa using (run_frames hms _).trans hr
    · obtain ⟨hne, hp, hlen⟩ := hg hnil
      obtain ⟨fs, k, hrun, hk, hb⟩ := run_garbage hne hms hp hlen g.length g (Nat.le_refl _)
      have hbytes := Run.bytes hrun
      have hsplit := frames_length_append C.envelope (ms.take k) (ms.drop k)
      rw [List.take_append_drop] at hsplit
      rw [frames_length_append, List.length_append] at hbytes
      refine ⟨_, .cons fs k (fun e => absurd e hnil) hk ?_ hb (by simp only [List.length_nil] at hbytes; omega) hs, ?_⟩
      · rcases C67_count (C := C) (n := overhead C.envelope)
          (fun m _ => overhead_le_frame C.envelope m) hk hb with h' | h'
        · have hpos : 0 < overhead C.envelope := by cases C.envelope <;> simp [overhead]
          have : k - 1 ≤ (maxLen C - 2) / overhead C.envelope := by
            rw [Nat.le_div_iff_mul_le hpos, Nat.mul_comm]
            omega
          unfold lossBound
          omega
        · omega
      · exact (hrun.append _).trans hr

/-- For every disturbed line and whatever comes in after it: each disturbance costs only messages that
begin within the length of the longest message behind it, everything else is delivered, in order,
and the receiver goes on with what comes after. -/
theorem C94_local (S : Setting C B user) (hn : NeverThrows user) {ops : List Op} {w : World C}
    {os : List Obs} (h : Reached B user fuel (ops ++ [.process]) w os)
    (hh : w.rx.hasHandler = true) {line : List (List Byte × List Msg)} (hl : ∀ p ∈ line, Stretch C p)
    (after : List Byte) (hfed : w.fed = disturbed C.envelope line ++ after) :
    ∃ ds es, Survives C line ds ∧ Decodes C after es (buffered w) ∧
      delivered w = (ds ++ es).map (meaning C) := by
  obtain ⟨ds, hs, hr⟩ := run_disturbed hl
  obtain ⟨es, r, hd⟩ := decodes_exists C after
  obtain ⟨e1, e2⟩ := polled_eq S hn h hh (ms := ds ++ es) (r := r)
    ⟨by rw [hfed]; exact (by simpa using hr.append after : Run C _ ds after).trans hd.1, hd.2⟩
  exact ⟨ds, es, hs, e2 ▸ hd, e1⟩

/-- The messages that survive are some of those sent, in order, and at most `lossBound` are missing
for each disturbance. -/
theorem C94_lost {line : List (List Byte × List Msg)} {ds : List Msg} (h : Survives C line ds) :
    ∃ good : List Msg, good.Sublist ds ∧ good.Sublist (line.flatMap (·.2)) ∧
      (line.flatMap (·.2)).length
        ≤ good.length + lossBound C * (line.filter fun p => !p.1.isEmpty).length := by
  induction h with
  | nil => exact ⟨[], by simp, by simp, by simp⟩
  | @cons g ms line ds fs k hg hk hb _ _ _ ih =>
    obtain ⟨good, h1, h2, h3⟩ := ih
    refine ⟨ms.drop k ++ good, ?_, ?_, ?_⟩
    · rw [List.append_assoc]
      exact ((List.Sublist.refl _).append h1).trans (List.sublist_append_right _ _)
    · rw [List.flatMap_cons]
      exact (List.drop_sublist k ms).append h2
    · rw [List.flatMap_cons, List.length_append, List.length_append, List.length_drop]
      by_cases hnil : g = []
      · obtain ⟨-, rfl⟩ := hg hnil
        simp only [hnil, List.filter_cons, List.isEmpty_nil, Bool.not_true, Bool.false_eq_true,
          if_false]
        omega
      · have : (!g.isEmpty) = true := by cases g <;> simp_all
        simp only [List.filter_cons, this, if_true, List.length_cons, Nat.mul_succ]
        omega

/-- Seen from outside: of the messages sent, all but `lossBound` for each disturbance are among those delivered, in order;
and of those delivered at the end, the ones that come in after the line are again found by decoding. -/
theorem C94_count (S : Setting C B user) (hn : NeverThrows user) {ops : List Op} {w : World C}
    {os : List Obs} (h : Reached B user fuel (ops ++ [.process]) w os)
    (hh : w.rx.hasHandler = true) {line : List (List Byte × List Msg)} (hl : ∀ p ∈ line, Stretch C p)
    (after : List Byte) (hfed : w.fed = disturbed C.envelope line ++ after) :
    ∃ good es : List Msg, good.Sublist (line.flatMap (·.2)) ∧ Decodes C after es (buffered w) ∧
      ((good ++ es).map (meaning C)).Sublist (delivered w) ∧
      (line.flatMap (·.2)).length
        ≤ good.length + lossBound C * (line.filter fun p => !p.1.isEmpty).length := by
  obtain ⟨ds, es, hs, hd, e⟩ := C94_local S hn h hh hl after hfed
  obtain ⟨good, h1, h2, h3⟩ := C94_lost hs
  exact ⟨good, es, h2, hd, by rw [e]; exact (h1.append (List.Sublist.refl es)).map _, h3⟩

/-- In particular a message arrives if nothing was wrong with the line for the length of the longest
message, minus one, before it; whatever came in earlier and whatever comes in later. -/
theorem C94_message (S : Setting C B user) (hn : NeverThrows user) {ops : List Op} {w : World C}
    {os : List Obs} (h : Reached B user fuel (ops ++ [.process]) w os)
    (hh : w.rx.hasHandler = true) (before after : List Byte) {ms : List Msg} {m : Msg}
    (hms : ∀ m ∈ ms, IsMsg C m) (hp : ∀ m ∈ ms, Solid C m) (hne : ms ≠ [])
    (hlen : maxLen C ≤ (frames C.envelope ms).length + 1) (hm : IsMsg C m)
    (hfed : w.fed = before ++ frames C.envelope ms ++ frame C.envelope m ++ after) :
    ∃ ds es, Decodes C after es (buffered w) ∧
      delivered w = (ds ++ m :: es).map (meaning C) := by
  obtain ⟨fs, k, hrun, -, -⟩ := run_garbage hne hms hp hlen before.length before (Nat.le_refl _)
  obtain ⟨es, r, hd⟩ := decodes_exists C after
  have hr : Run C w.fed ((fs ++ ms.drop k) ++ m :: es) r := by
    rw [hfed, List.append_assoc]
    exact (by simpa using hrun.append (frame C.envelope m ++ after)
      : Run C _ (fs ++ ms.drop k) (frame C.envelope m ++ after)).trans (.take hm hd.1)
  obtain ⟨e1, e2⟩ := polled_eq S hn h hh ⟨hr, hd.2⟩
  exact ⟨_, es, e2 ▸ hd, e1⟩

/-- Two disturbances, the second in the middle of a message, and a message that is not complete. -/
def twice : List (List Byte × List Msg) :=
  [([], [⟨1, [7]⟩]), (falsePose, afterNoise), ([1, 2, 2, 5], [⟨0, []⟩, ⟨2, [9, 8, 7, 6, 5, 4, 3]⟩])]

theorem twice_stretch : ∀ p ∈ twice, Stretch Sample.basic p := by
  intro p hp
  simp only [twice, List.mem_cons, List.not_mem_nil, or_false] at hp
  rcases hp with rfl | rfl | rfl <;> (unfold Stretch; decide +kernel)

example : ∃ (w : World Sample.basic) (os : List Obs),
    Reached Sample.dbg Sample.passive 50
      ([.setHandler Sample.h0, .append [1, 1, 2, 7, 3, 4, 9, 1, 2, 2, 8, 8, 8, 8], .process,
        .append (frames .basic afterNoise), .process, .append [1, 2, 2, 5, 1, 0, 2, 3, 4],
        .append [1, 2, 2, 9, 8, 7, 6, 5, 4, 3, 3, 4], .append [1, 2]] ++ [.process]) w os ∧
    ∃ ds es, Survives Sample.basic twice ds ∧ Decodes Sample.basic [1, 2] es (buffered w) ∧
      delivered w = (ds ++ es).map (meaning Sample.basic) := by
  obtain ⟨w, os, h, hp⟩ := Sample.reached (C := Sample.basic) (B := Sample.dbg)
    (user := Sample.passive) (fuel := 50)
    (ops := [.setHandler Sample.h0, .append [1, 1, 2, 7, 3, 4, 9, 1, 2, 2, 8, 8, 8, 8], .process,
        .append (frames .basic afterNoise), .process, .append [1, 2, 2, 5, 1, 0, 2, 3, 4],
        .append [1, 2, 2, 9, 8, 7, 6, 5, 4, 3, 3, 4], .append [1, 2]] ++ [.process])
    (fun w _ => w.rx.hasHandler) (by decide +kernel)
  have hf := C25_fed_is_chunks Sample.setting_basic Sample.passive_quiet (by simp) h
  exact ⟨w, os, h, C94_local Sample.setting_basic Sample.passive_neverThrows h hp twice_stretch
    [1, 2] (by rw [hf]; decide +kernel)⟩

example : lossBound Sample.basic = 3 := by decide +kernel

/-- A collection with a short and a long message. -/
def shortLong : Collection := ⟨[Sample.ping, ⟨7, [.pod 0 10]⟩], .basic⟩

/-- One disturbance can cost more than one message: five bytes swallow two messages and a wrong one is
delivered instead. -/
theorem C94_two_witness : ∃ (w : World shortLong) (os : List Obs),
    Reached Sample.dbg Sample.passive 50
      ([.setHandler Sample.h0, .append [1, 1, 2, 9, 9],
        .append (frames .basic (List.replicate 4 ⟨0, []⟩))] ++ [.process]) w os ∧
    delivered w = ([⟨1, [9, 9, 1, 0, 2, 3, 4, 1, 0, 2]⟩, ⟨0, []⟩, ⟨0, []⟩] : List Msg).map
      (meaning shortLong) ∧
    Stretch shortLong ([1, 1, 2, 9, 9], List.replicate 4 ⟨0, []⟩) := by
  obtain ⟨w, os, h, hp⟩ := Sample.reached (C := shortLong) (B := Sample.dbg)
    (user := Sample.passive) (fuel := 50)
    (ops := [.setHandler Sample.h0, .append [1, 1, 2, 9, 9],
        .append (frames .basic (List.replicate 4 ⟨0, []⟩))] ++ [.process])
    (fun w _ => decide (delivered w = ([⟨1, [9, 9, 1, 0, 2, 3, 4, 1, 0, 2]⟩, ⟨0, []⟩, ⟨0, []⟩]
      : List Msg).map (meaning shortLong))) (by decide +kernel)
  exact ⟨w, os, h, by simpa using hp, by unfold Stretch; decide +kernel⟩

example : ∃ (w : World Sample.basic) (os : List Obs),
    Reached Sample.dbg Sample.passive 50
      ([.setHandler Sample.h0, .append falsePose, .append (frames .basic afterNoise),
        .process, .append [1, 1, 2, 1, 3, 4, 1, 1]] ++ [.process]) w os ∧
    ∃ ds es, Decodes Sample.basic [1, 1] es (buffered w) ∧
      delivered w = (ds ++ ⟨1, [1]⟩ :: es).map (meaning Sample.basic) := by
  obtain ⟨w, os, h, hp⟩ := Sample.reached (C := Sample.basic) (B := Sample.dbg)
    (user := Sample.passive) (fuel := 50)
    (ops := [.setHandler Sample.h0, .append falsePose, .append (frames .basic afterNoise),
        .process, .append [1, 1, 2, 1, 3, 4, 1, 1]] ++ [.process])
    (fun w _ => w.rx.hasHandler) (by decide +kernel)
  have hf := C25_fed_is_chunks Sample.setting_basic Sample.passive_quiet (by simp) h
  exact ⟨w, os, h, C94_message Sample.setting_basic Sample.passive_neverThrows h hp falsePose [1, 1]
    (ms := afterNoise) (m := ⟨1, [1]⟩) (by decide +kernel) (by decide +kernel) (by decide)
    (by decide +kernel) (by decide +kernel) (by rw [hf]; decide +kernel)⟩

end TT.Properties
