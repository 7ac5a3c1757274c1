import Verif.Properties.ThrowingAnyTime
import Verif.Properties.Numbered

/-!
# Property C143: numbered messages, sent again until `send` returns

The programs of C132, with transmitters that may also throw after the last byte, and with numbers in the messages.
-/

namespace TT.Properties
open Spec

variable {C : Collection} {B : Build} {user : UserCode} {fuel : Nat} {σ : Type}

/-! ### Numbers that come up several times -/

theorem rising_replicate {l : List Nat} {a : Nat} (h : Rising l) (h1 : a ≤ risen l) (h2 : risen l ≤ a + 1) (k : Nat) :
    Rising (l ++ List.replicate k a) ∧ a ≤ risen (l ++ List.replicate k a) ∧ risen (l ++ List.replicate k a) ≤ a + 1 ∧
      (0 < k → risen (l ++ List.replicate k a) = a + 1) := by
  induction k with
  | zero => simpa using ⟨h, h1, h2⟩
  | succ k ih =>
    obtain ⟨i1, i2, i3, _⟩ := ih
    rw [List.replicate_succ', ← List.append_assoc]
    refine ⟨i1.snoc i2 i3, ?_⟩
    rw [risen_snoc]
    split <;> omega

theorem range_rising (n : Nat) : Rising (List.range n) ∧ risen (List.range n) = n := by
  induction n with
  | zero => exact ⟨fun p a q e => by simp at e, rfl⟩
  | succ n ih =>
    rw [List.range_succ]
    exact ⟨ih.1.snoc (by omega) (by omega), by rw [risen_snoc, ih.2]; simp⟩

/-- Numbers, each as often as this and once more. -/
def stutter (l : List (Nat × Nat)) : List Nat := l.flatMap fun p => List.replicate (p.2 + 1) p.1

theorem stutter_rising (l : List (Nat × Nat)) (h : Rising (l.map Prod.fst)) :
    Rising (stutter l) ∧ risen (stutter l) = risen (l.map Prod.fst) := by
  induction l using list_snoc_induction with
  | h0 => exact ⟨h, rfl⟩
  | hs l p ih =>
    rw [List.map_append, List.map_singleton] at h ⊢
    obtain ⟨i1, i2⟩ := ih h.prefix
    obtain ⟨h1, h2⟩ := h.last
    have e : stutter (l ++ [p]) = stutter l ++ List.replicate (p.2 + 1) p.1 := by simp [stutter]
    obtain ⟨k1, _, _, k4⟩ := rising_replicate i1 (a := p.1) (by omega) (by omega) (p.2 + 1)
    rw [e]
    refine ⟨k1, ?_⟩
    rw [k4 (by omega), risen_snoc]
    split <;> omega

theorem attempts_stutter {f : Nat → Call} : ∀ {ps : List (Msg × Nat)} {l : List Nat}, (ps.map (·.1)).map (meaning C) = l.map f →
    attempts C ps = (stutter (l.zip (ps.map (·.2)))).map f
  | [], [], _ => rfl
  | [], _ :: _, h => by simp at h
  | _ :: _, [], h => by simp at h
  | p :: ps, a :: l, h => by
    simp only [List.map_cons, List.cons.injEq] at h
    have ih := attempts_stutter h.2
    simp only [attempts, stutter, List.flatMap_cons, List.map_cons, List.zip_cons_cons, List.map_append, List.map_replicate] at ih ⊢
    rw [ih, h.1]

/-! ### What the receiver handles -/

theorem retriedMsgs_stutter {f : Nat → Call} : ∀ {us : List Retried} {l : List Nat},
    us.map (fun u => meaning C u.m) = l.map f → (retriedMsgs C.envelope us).map (meaning C) =
      (stutter (l.zip (us.map fun u => u.copies C.envelope - 1))).map f
  | [], [], _ => rfl
  | [], _ :: _, h => by simp at h
  | _ :: _, [], h => by simp at h
  | u :: us, a :: l, h => by
    simp only [List.map_cons, List.cons.injEq] at h
    have ih := retriedMsgs_stutter h.2
    have hc : u.copies C.envelope - 1 + 1 = u.copies C.envelope := by simp [Retried.copies]
    simp only [retriedMsgs, stutter, List.flatMap_cons, List.map_cons, List.zip_cons_cons, List.map_append, List.map_replicate]
      at ih ⊢
    rw [ih, h.1, hc]

theorem copies_rising {f : Nat → Call} {us : List Retried} {l : List Nat} (hl : Rising l)
    (hm : us.map (fun u => meaning C u.m) = l.map f) :
    ∃ l', (retriedMsgs C.envelope us).map (meaning C) = l'.map f ∧ Rising l' ∧ risen l' = risen l := by
  have hlen : us.length = l.length := by simpa using congrArg List.length hm
  have hz : (l.zip (us.map fun u => u.copies C.envelope - 1)).map Prod.fst = l := List.map_fst_zip (by simp [hlen])
  obtain ⟨s1, s2⟩ := stutter_rising (l.zip (us.map fun u => u.copies C.envelope - 1)) (by rw [hz]; exact hl)
  rw [hz] at s2
  exact ⟨_, retriedMsgs_stutter hm, s1, s2⟩

/-- If the numbers on the line rise, so do those of what has been handled to the end, those of all calls of handlers, and
those of what has been handled to the end and what the last calls have been for. -/
theorem rising_handled (S : Setting C B user) {ops : List Op} {w : World C} {os : List Obs} (h : Reached B user fuel ops w os)
    {us : List Retried} (hu : ∀ u ∈ us, u.Fit C) {f : Nat → Call} {n : List Nat} (hn : Rising n)
    (hm : us.map (fun u => meaning C u.m) = n.map f) (hfed : w.fed <+: retriedLine C.envelope us)
    {ps : List (Msg × Nat)} {j : Nat} {m : Msg}
    (h1 : (completed B user fuel (World.new C) ops).map seen = (ps.map (·.1)).map (meaning C))
    (h2 : delivered w = attempts C ps ++ List.replicate j (meaning C m)) (h3 : Pending C (buffered w) j m) :
    ∃ l l', Rising l ∧ Rising l' ∧ (completed B user fuel (World.new C) ops).map seen = l.map f ∧ delivered w = l'.map f ∧
      risen l ≤ risen l' ∧ risen l' ≤ risen n ∧ (j = 0 → risen l' = risen l) ∧
      (0 < j → ∃ a, meaning C m = f a ∧ Rising (l ++ [a]) ∧ risen (l ++ [a]) = risen l') := by
  obtain ⟨ms, hr, ec⟩ := C95_once S h
  obtain ⟨t, ht⟩ := hfed
  obtain ⟨N, hN, hN1, hN2⟩ := copies_rising hn hm
  -- every scan of what has arrived finds a beginning of the numbers
  have key : ∀ {ms' : List Msg} {r : List Byte}, Run C w.fed ms' r → ∃ l, l <+: N ∧ ms'.map (meaning C) = l.map f := by
    intro ms' r hr'
    obtain ⟨es, e, _⟩ := run_retried_part hu hr' ht
    have hp : ms'.map (meaning C) <+: N.map f := by
      rw [← hN, ← e]
      exact ⟨es.map (meaning C), by simp⟩
    exact ⟨_, List.take_prefix _ _, prefix_map hp⟩
  have bound : ∀ {l : List Nat}, l <+: N → Rising l ∧ risen l ≤ risen n := by
    rintro l ⟨q, hq⟩
    rw [← hq] at hN1 hN2
    exact ⟨hN1.prefix, by rw [← hN2]; exact risen_mono l q⟩
  obtain ⟨l, hl, el⟩ := key hr
  obtain ⟨b1, b2⟩ := bound hl
  have hps : (ps.map (·.1)).map (meaning C) = l.map f := by rw [← h1, ec, el]
  have hlen : ps.length = l.length := by simpa using congrArg List.length hps
  have hz : (l.zip (ps.map (·.2))).map Prod.fst = l := List.map_fst_zip (by simp [hlen])
  obtain ⟨s1, s2⟩ := stutter_rising (l.zip (ps.map (·.2))) (by rw [hz]; exact b1)
  rw [hz] at s2
  have ha := attempts_stutter hps
  by_cases hj : j = 0
  · subst hj
    exact ⟨l, _, b1, s1, by rw [ec, el], by rw [h2, ha]; simp, by omega, by omega, fun _ => s2, fun h => absurd h (by omega)⟩
  · rcases h3 with h3 | ⟨him, t', hbuf⟩
    · exact absurd h3 hj
    have hr2 : Run C w.fed (ms ++ [m]) t' := by
      rw [hbuf] at hr
      exact hr.trans (Run.take him (Run.refl t'))
    obtain ⟨l2, hl2, el2⟩ := key hr2
    obtain ⟨c1, c2⟩ := bound hl2
    cases l2 using list_snoc_induction with
    | h0 => simp at el2
    | hs l2 a =>
      rw [List.map_append, List.map_append, el] at el2
      obtain ⟨e1, e2⟩ := List.append_inj' el2 rfl
      simp only [List.map_cons, List.map_nil, List.cons.injEq, and_true] at e2
      have hl2' : l2 = l := by
        have hlen2 : l.length = l2.length := by simpa using congrArg List.length e1
        obtain ⟨q, hq⟩ := hl
        obtain ⟨q', hq'⟩ := hl2
        rw [← hq', List.append_assoc] at hq
        exact (List.append_inj hq hlen2).1.symm
      subst hl2'
      obtain ⟨d1, d2⟩ := c1.last
      obtain ⟨k1, k2, k3, k4⟩ := rising_replicate s1 (a := a) (by omega) (by omega) j
      have hk := k4 (by omega)
      have hra : risen (l2 ++ [a]) = a + 1 := by
        rw [risen_snoc]
        split <;> omega
      refine ⟨l2, stutter (l2.zip (ps.map (·.2))) ++ List.replicate j a, b1, k1, by rw [ec, el], ?_, ?_, by omega,
        fun e => absurd e hj, fun _ => ⟨a, e2, c1, by omega⟩⟩
      · rw [h2, ha, e2]
        simp
      · rw [← s2]
        exact risen_mono _ _

/-- When all has arrived and `processMessages` has returned, all numbers have been handled. -/
theorem rising_all (S : Setting C B user) {ops : List Op} {w : World C} {os : List Obs} {n : Byte}
    (h : Reached B user fuel (ops ++ [.process]) w (os ++ [.processed (.returned n)])) (hh : w.rx.hasHandler = true)
    {us : List Retried} (hu : ∀ u ∈ us, u.Fit C) {f : Nat → Call} {l : List Nat} (hl : Rising l)
    (hm : us.map (fun u => meaning C u.m) = l.map f) (hfed : w.fed = retriedLine C.envelope us) :
    ∃ l' l'', Rising l' ∧ Rising l'' ∧ (completed B user fuel (World.new C) (ops ++ [.process])).map seen = l'.map f ∧
      delivered w = l''.map f ∧ risen l' = risen l ∧ risen l'' = risen l := by
  obtain ⟨ps, j, m, h1, h2, h3, _⟩ := C95_attempts S h
  obtain ⟨hd, hb⟩ := C132_both S h hh hu hfed
  obtain ⟨l', e1, e2, e3⟩ := copies_rising hl hm
  rw [e1] at hd
  have hj : j = 0 := by
    rcases h3 with hj | ⟨_, t, e⟩
    · exact hj
    · rw [hb] at e
      obtain ⟨t', ht'⟩ := frame_head_three C.envelope m
      rw [ht'] at e
      simp at e
  subst hj
  have hps : (ps.map (·.1)).map (meaning C) = l'.map f := by rw [← h1, hd]
  have hlen : ps.length = l'.length := by simpa using congrArg List.length hps
  have hz : (l'.zip (ps.map (·.2))).map Prod.fst = l' := List.map_fst_zip (by simp [hlen])
  obtain ⟨s1, s2⟩ := stutter_rising (l'.zip (ps.map (·.2))) (by rw [hz]; exact e2)
  rw [hz] at s2
  exact ⟨l', _, e2, s1, hd, by rw [h2, attempts_stutter hps]; simp, e3, by omega⟩

/-! ### The sender -/

/-- What a sender has put on the line: the messages it has insisted on and the one it has tried in vain, if any, without the end
of the latter. -/
theorem insists_line {X : ThrowTx σ} {log : σ → List Byte} (H : Honest X log) {s s' : σ} {rs : List (Request × Nat)} {r : Request}
    {k : Nat} (hx : InsistsSoFar X s rs r k s') (h0 : log s = []) (hst : ∀ q ∈ rs, Steadfast C q.1) (hk : 0 < k → Steadfast C r) :
    ∃ us : List Retried, (∀ u ∈ us, u.Fit C) ∧
      us.map (fun u => meaning C u.m) = rs.map (·.1.call) ++ (if k = 0 then [] else [r.call]) ∧
      log s' <+: retriedLine C.envelope us ∧ (k = 0 → log s' = retriedLine C.envelope us) := by
  obtain ⟨s1, hx1, hx2⟩ := hx
  obtain ⟨us, e, hl, h3, _⟩ := C132_sender H hx1 fun q hq => (hst q hq).1
  rw [h0, List.nil_append] at hl
  have hfit : ∀ u ∈ us, u.Fit C := by
    intro u hu
    have : (u.m, u.tries.length) ∈ rs.map (fun r => (r.1.msg, r.2)) := by
      rw [← e]
      exact List.mem_map.2 ⟨u, hu, rfl⟩
    obtain ⟨q, hq, e'⟩ := List.mem_map.1 this
    obtain ⟨e1, _⟩ := Prod.mk.inj e'
    have hs := hst q hq
    exact ⟨(h3 u hu).1, by rw [← e1]; exact hs.2.1, (h3 u hu).2, fun e hn => absurd (hs.2.2 (by rw [e1]; exact e)) hn⟩
  have hm : us.map (fun u => meaning C u.m) = rs.map (·.1.call) := by
    have e1 := congrArg (List.map fun p : Msg × Nat => meaning C p.1) e
    rw [List.map_map, List.map_map] at e1
    refine e1.trans (List.map_congr_left fun q hq => ?_)
    exact (hst q hq).1.meaning
  by_cases hk0 : k = 0
  · subst hk0
    simp only [List.replicate_zero, sendEach, Option.some.injEq, Except.ok.injEq, Prod.mk.injEq, and_true] at hx2
    subst hx2
    exact ⟨us, hfit, by simp [hm], by rw [hl]; exact List.prefix_rfl, fun _ => hl⟩
  · have hs := hk (by omega)
    have hg := hs.1
    obtain ⟨qs, g2, g3, _⟩ := throws_only H (r := r) (by rw [hg.1]; exact hg.2.1) k hx2
    rw [hg.wire] at g2
    refine ⟨us ++ [⟨r.msg, qs⟩], fun u hu => ?_, ?_, ?_, fun e => absurd e hk0⟩
    · rcases List.mem_append.mp hu with hu | hu
      · exact hfit u hu
      · rw [List.mem_singleton.mp hu]
        exact steadfast_fit hs g2 hg.isMsg
    · rw [List.map_append, hm, if_neg hk0]
      simp only [List.map_cons, List.map_nil]
      rw [hg.meaning]
      rfl
    · rw [g3, hl]
      exact ⟨frame C.envelope r.msg, by rw [retriedLine_snoc]⟩

theorem numbered_steadfast {P : Numbering} (hD : ∀ i, Steadfast P.C (P.data i)) {rs : List (Request × Nat)}
    (hrs : rs.map (·.1) = (List.range rs.length).map P.data) :
    (∀ r ∈ rs, Steadfast P.C r.1) ∧ rs.map (·.1.call) = (List.range rs.length).map fun i => (P.data i).call := by
  constructor
  · intro r hr
    have : r.1 ∈ rs.map (·.1) := List.mem_map.mpr ⟨r, hr, rfl⟩
    rw [hrs] at this
    obtain ⟨i, _, e⟩ := List.mem_map.mp this
    rw [← e]
    exact hD i
  · have := congrArg (List.map Request.call) hrs
    rw [List.map_map, List.map_map] at this
    exact this

/-- C143. A program numbers its messages and sends each of them until `send` returns; the transmitter may throw anywhere, also
after the last byte, and so may the handlers. When all bytes have arrived and `processMessages` has returned, a receiver that
takes for new only what has the next number has taken each message exactly once, in order: no matter whether it does so at the
end of its handlers or already at their beginning. -/
theorem C143_exactly_once {P : Numbering} (hP : P.Ok) (hD : ∀ i, Steadfast P.C (P.data i)) {X : ThrowTx σ} {log : σ → List Byte}
    (H : Honest X log) {s s' : σ} {rs : List (Request × Nat)} (hx : Insists X s rs s') (h0 : log s = [])
    (hrs : rs.map (·.1) = (List.range rs.length).map P.data) (S : Setting P.C B user) {ops : List Op} {w : World P.C} {os : List Obs}
    {n : Byte} (h : Reached B user fuel (ops ++ [.process]) w (os ++ [.processed (.returned n)])) (hh : w.rx.hasHandler = true)
    (hfed : w.fed = log s') :
    P.taken ((completed B user fuel (World.new P.C) (ops ++ [.process])).map seen) = rs.map (·.1.call) ∧
      P.taken (delivered w) = rs.map (·.1.call) := by
  obtain ⟨hst, hc⟩ := numbered_steadfast hD hrs
  obtain ⟨us, hfit, hm, _, hl⟩ := insists_line H (r := P.data 0) (k := 0) ⟨s', hx, rfl⟩ h0 hst (fun h => absurd h (by omega))
  rw [if_pos rfl, List.append_nil, hc] at hm
  obtain ⟨l, l', h1, h2, h3, h4, h5, h6⟩ := rising_all S h hh hfit (range_rising _).1 hm (hfed.trans (hl rfl))
  rw [(range_rising _).2] at h5 h6
  rw [h3, h4, hP.taken_eq h1, hP.taken_eq h2, hc, h5, h6]
  exact ⟨rfl, rfl⟩

/-- C143, at any time. While messages are still being sent, also if the attempts at one more message have failed so far, a
receiver that takes for new only what has the next number has taken the first so many messages, once each and in order. -/
theorem C143_any_time {P : Numbering} (hP : P.Ok) (hD : ∀ i, Steadfast P.C (P.data i)) {X : ThrowTx σ} {log : σ → List Byte}
    (H : Honest X log) {s s' : σ} {rs : List (Request × Nat)} {k : Nat} (hx : InsistsSoFar X s rs (P.data rs.length) k s')
    (h0 : log s = []) (hrs : rs.map (·.1) = (List.range rs.length).map P.data) (S : Setting P.C B user) {ops : List Op}
    {w : World P.C} {os : List Obs} (h : Reached B user fuel ops w os) (hfed : w.fed <+: log s') :
    ∃ n n', n ≤ n' ∧ n' ≤ rs.length + 1 ∧
      P.taken ((completed B user fuel (World.new P.C) ops).map seen) = (List.range n).map (fun i => (P.data i).call) ∧
      P.taken (delivered w) = (List.range n').map fun i => (P.data i).call := by
  obtain ⟨hst, hc⟩ := numbered_steadfast hD hrs
  obtain ⟨us, hfit, hm, hl, _⟩ := insists_line H hx h0 hst (fun _ => hD _)
  obtain ⟨N, hN, hN1, hN2⟩ : ∃ N, us.map (fun u => meaning P.C u.m) = N.map (fun i => (P.data i).call) ∧ Rising N ∧
      risen N ≤ rs.length + 1 := by
    by_cases hk : k = 0
    · refine ⟨List.range rs.length, by rw [hm, hc, if_pos hk, List.append_nil], (range_rising _).1, ?_⟩
      rw [(range_rising _).2]
      omega
    · refine ⟨List.range (rs.length + 1), by rw [hm, hc, if_neg hk, List.range_succ]; simp, (range_rising _).1, ?_⟩
      rw [(range_rising _).2]
      omega
  obtain ⟨ps, j, m, h1, h2, h3, _⟩ := C95_attempts S h
  obtain ⟨l, l', g1, g2, g3, g4, g5, g6, _⟩ := rising_handled S h hfit hN1 hN (hfed.trans hl) h1 h2 h3
  exact ⟨risen l, risen l', g5, by omega, by rw [g3, hP.taken_eq g1], by rw [g4, hP.taken_eq g2]⟩

/-! ### Examples -/

/-- Calls 7, 10 and 26 throw: `outputFinished` in the first attempt at the first message, the third byte of the second attempt,
and `outputFinished` in the first attempt at the second message. -/
def lateThrows (i : Nat) : Bool := i == 7 || i == 10 || i == 26

/-- What the two messages put on the line. -/
def lateLine : List Byte :=
  frame .basicChecksum ⟨1, [0]⟩ ++ [1, 1] ++ frame .basicChecksum ⟨1, [0]⟩ ++ frame .basicChecksum ⟨1, [1]⟩ ++
    frame .basicChecksum ⟨1, [1]⟩

theorem late_example : Insists (flaky lateThrows true) ([], 0) [(twoNumbers.data 0, 2), (twoNumbers.data 1, 1)] (lateLine, 35) :=
  .cons (s1 := (lateLine.take 16, 19)) (by decide +kernel) (.cons (by decide +kernel) (.nil _))

theorem late_so_far : InsistsSoFar (flaky lateThrows true) ([], 0) [(twoNumbers.data 0, 2)] (twoNumbers.data 1) 1
    (lateLine.take 23, 27) :=
  ⟨(lateLine.take 16, 19), .cons (by decide +kernel) (.nil _), by decide +kernel⟩

theorem twoNumbers_steadfast (i : Nat) : Steadfast twoNumbers.C (twoNumbers.data i) := by
  show Steadfast Sample.checked ⟨Sample.checked, Sample.level, [⟨.uint8, [UInt8.ofNat (i % 2)]⟩]⟩
  unfold Steadfast
  rcases Nat.mod_two_eq_zero_or_one i with e | e <;> rw [e] <;> decide +kernel

theorem stubborn_checked : Setting Sample.checked Sample.dbg stubborn :=
  ⟨⟨by decide, by decide⟩, fun _ _ => ⟨by simp [stubborn], by simp [stubborn, appended]⟩⟩

/-- Both messages arrive twice, and the handler throws at every other call: eight calls, of which four return. Each message has
been taken once. -/
example : ∃ (w : World Sample.checked) (os : List Obs),
    Reached Sample.dbg stubborn 50 ([.setHandler Sample.h0, .append lateLine, .process, .process, .process, .process] ++ [.process]) w
      (os ++ [.processed (.returned 1)]) ∧ exceptions os = 4 ∧ (delivered w).length = 8 ∧
    twoNumbers.taken ((completed Sample.dbg stubborn 50 (World.new Sample.checked)
      ([.setHandler Sample.h0, .append lateLine, .process, .process, .process, .process] ++ [.process])).map seen) =
      [(Sample.level, [[0]]), (Sample.level, [[1]])] ∧
    twoNumbers.taken (delivered w) = [(Sample.level, [[0]]), (Sample.level, [[1]])] := by
  obtain ⟨w, os, h1, h2⟩ := Sample.reached (C := Sample.checked) (B := Sample.dbg) (user := stubborn) (fuel := 50)
    (ops := [.setHandler Sample.h0, .append lateLine, .process, .process, .process, .process] ++ [.process])
    (fun w os => w.rx.hasHandler &&
      decide (os = [.unit, .unit, .processed .threw, .processed .threw, .processed .threw, .processed .threw,
        .processed (.returned 1)]) && decide ((delivered w).length = 8) && decide (w.fed = lateLine)) (by decide +kernel)
  simp only [Bool.and_eq_true, decide_eq_true_eq] at h2
  obtain ⟨⟨⟨hh, ho⟩, hd⟩, hf⟩ := h2
  rw [ho] at h1
  refine ⟨w, [.unit, .unit, .processed .threw, .processed .threw, .processed .threw, .processed .threw], h1, by decide, hd, ?_⟩
  exact C143_exactly_once twoNumbers_ok twoNumbers_steadfast (flaky_honest lateThrows true) late_example rfl rfl stubborn_checked
    (os := [.unit, .unit, .processed .threw, .processed .threw, .processed .threw, .processed .threw]) h1 hh hf

/-- The first message has been sent, and of the second one all bytes are out though `send` has thrown. The handler has been
called for it, but has not returned. -/
example : ∃ (w : World Sample.checked) (os : List Obs),
    Reached Sample.dbg stubborn 50 [.setHandler Sample.h0, .append (lateLine.take 23), .process, .process, .process] w os ∧
    (delivered w).length = 5 ∧ exceptions os = 3 ∧ ∃ n n', n ≤ n' ∧ n' ≤ 2 ∧
    twoNumbers.taken ((completed Sample.dbg stubborn 50 (World.new Sample.checked)
      [.setHandler Sample.h0, .append (lateLine.take 23), .process, .process, .process]).map seen) =
      (List.range n).map (fun i => (twoNumbers.data i).call) ∧
    twoNumbers.taken (delivered w) = (List.range n').map fun i => (twoNumbers.data i).call := by
  obtain ⟨w, os, h1, h2⟩ := Sample.reached (C := Sample.checked) (B := Sample.dbg) (user := stubborn) (fuel := 50)
    (ops := [.setHandler Sample.h0, .append (lateLine.take 23), .process, .process, .process])
    (fun w os => decide ((delivered w).length = 5) && decide (exceptions os = 3) && decide (w.fed = lateLine.take 23))
    (by decide +kernel)
  simp only [Bool.and_eq_true, decide_eq_true_eq] at h2
  exact ⟨w, os, h1, h2.1.1, h2.1.2, C143_any_time twoNumbers_ok twoNumbers_steadfast (flaky_honest lateThrows true) late_so_far rfl
    rfl stubborn_checked h1 (by rw [h2.2]; exact List.prefix_rfl)⟩

end TT.Properties
