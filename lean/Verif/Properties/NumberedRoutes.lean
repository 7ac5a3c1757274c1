import Verif.Properties.Window

/-!
# Property C142: numbered messages over routes of programs

The two programs of C141, with any number of other programs between them, in either direction.
-/

namespace TT.Properties
open Spec

/-- Which messages pass a line and the lines behind it. -/
def bothFates : List Bool → List Bool → List Bool
  | [], g => g
  | false :: f, g => false :: bothFates f g
  | true :: f, [] => true :: bothFates f []
  | true :: f, b :: g => b :: bothFates f g

theorem pick_bothFates {α : Type} : ∀ (f g : List Bool) (l : List α), pick (bothFates f g) l = pick g (pick f l)
  | [], _, _ => rfl
  | false :: _, [], [] => rfl
  | false :: _, _ :: _, [] => rfl
  | true :: _, [], [] => rfl
  | true :: _, _ :: _, [] => rfl
  | false :: f, g, _ :: l => pick_bothFates f g l
  | true :: f, [], a :: l => by simp [bothFates, pick, pick_bothFates f [] l]
  | true :: f, true :: g, a :: l => by simp [bothFates, pick, pick_bothFates f g l]
  | true :: f, false :: g, a :: l => by simp [bothFates, pick, pick_bothFates f g l]

/-- Which messages arrive whole at the end of a route. -/
def fates (ks : List Link) : List Bool := ks.foldr (fun k f => bothFates k.fate f) []

theorem survivors_fates (ks : List Link) : ∀ {cs : List Call}, (∀ k ∈ ks, ∀ c ∈ cs, c.1 ∈ k.x.C.messages) →
    survivors cs ks = pick (fates ks) cs := by
  induction ks with
  | nil => intro _ _; rfl
  | cons k ks ih =>
    intro cs h
    have e : (cs.filter fun c => decide (c.1 ∈ k.x.C.messages)) = cs :=
      List.filter_eq_self.mpr fun c hc => decide_eq_true (h k (by simp) c hc)
    show survivors (pick k.fate (cs.filter fun c => decide (c.1 ∈ k.x.C.messages))) ks = pick (bothFates k.fate (fates ks)) cs
    rw [e, pick_bothFates]
    exact ih fun l hl c hc => h l (by simp [hl]) c ((pick_sublist _ _).subset hc)

/-- Requests have been sent to the first of these programs, which have these collections and pass on what they handle. The last
one has handled `got`; `fate` says for each request whether it arrives there. -/
inductive OverRoute (Cs : List Collection) (rs : List Request) : (fate : List Bool) → (got : List Call) → Prop
  | mk {bytes : List Byte} {ks : List Link} {z : Link} (hb : Carried rs bytes) (hr : HurtSoFar bytes (ks ++ [z]))
      (hc : (ks ++ [z]).map (·.x.C) = Cs) : OverRoute Cs rs (fates (ks ++ [z])) (delivered z.x.w)

theorem OverRoute.prefix {C : Collection} {Cs : List Collection} {rs : List Request} {fate : List Bool} {got : List Call}
    (h : OverRoute (C :: Cs) rs fate got) (hg : ∀ r ∈ rs, r.Good C) (ht : ∀ D ∈ Cs, ∀ r ∈ rs, r.t ∈ D.messages) :
    got <+: pick fate (rs.map Request.call) := by
  obtain @⟨bytes, ks, z, hb, hr, hc⟩ := h
  obtain ⟨k, ls, e⟩ : ∃ k ls, ks ++ [z] = k :: ls := by
    cases ks with
    | nil => exact ⟨_, _, rfl⟩
    | cons k ks => exact ⟨_, _, rfl⟩
  have hc' := hc
  rw [e, List.map_cons, List.cons.injEq] at hc'
  have hp := C137_any_time (rs := rs) (bytes := bytes) (ys := ks) (zs := []) (z := z) (k := k) (ks := ls) e.symm
    (by rw [hc'.1]; exact hg) hb (by rw [← e]; exact hr)
  rw [survivors_fates] at hp
  · exact hp
  · intro l hl c hc1
    obtain ⟨r, hr1, rfl⟩ := List.mem_map.mp hc1
    have hm : l.x.C ∈ (ks ++ [z]).map (·.x.C) := List.mem_map.mpr ⟨l, hl, rfl⟩
    rw [hc] at hm
    rcases List.mem_cons.mp hm with h1 | h1
    · rw [h1]
      exact (hg r hr1).2.1.2.1
    · exact ht _ h1 r hr1

/-- The programs on the ways have the types of the messages and of the answers. -/
structure Numbering.Passable (P : Numbering) (Cs Ds : List Collection) : Prop where
  data : ∀ C ∈ Cs, ∀ i, (P.data i).t ∈ C.messages
  ack : ∀ D ∈ Ds, ∀ n < P.K, (P.ack n).t ∈ D.messages

/-- What may happen next. As in C141, but messages and answers take ways over further programs; the last one on the way of the
messages takes and answers them. -/
inductive Numbering.Hops (P : Numbering) (W : Nat) (Cs Ds : List Collection) : Exchange → Exchange → Prop
  | transmit {s : Exchange} {i : Nat} (whole : Bool) (h1 : P.passed W s.ha ≤ i) (h2 : i < P.passed W s.ha + W) :
      P.Hops W Cs Ds s { s with tx := s.tx ++ [i], fb := s.fb ++ [whole] }
  | receive {s : Exchange} {got : List Call} {more : List Bool} (hw : OverRoute (P.C :: Cs) (s.tx.map P.data) s.fb got)
      (hl : s.hb.length + more.length = got.length) : P.Hops W Cs Ds s { s with hb := got, fa := s.fa ++ more }
  | answer {s : Exchange} {got : List Call} (hw : OverRoute (P.D :: Ds) ((P.counts s.hb).map fun n => P.ack (n % P.K)) s.fa got)
      (hl : s.ha.length ≤ got.length) : P.Hops W Cs Ds s { s with ha := got }

/-- The exchange, after any number of steps. -/
inductive Numbering.Relayed (P : Numbering) (W : Nat) (Cs Ds : List Collection) : Exchange → Prop
  | start : P.Relayed W Cs Ds .none
  | next {s s' : Exchange} (h : P.Relayed W Cs Ds s) (hn : P.Hops W Cs Ds s s') : P.Relayed W Cs Ds s'

theorem Numbering.Hops.moves {P : Numbering} (hP : P.Ok) {W : Nat} {Cs Ds : List Collection} (hD : P.Passable Cs Ds) {s s' : Exchange}
    (hn : P.Hops W Cs Ds s s') : P.Moves W s s' := by
  have hK : ∀ i, i % P.K < P.K := fun i => Nat.mod_lt _ (by have := hP.two; omega)
  cases hn with
  | transmit whole h1 h2 => exact .transmit whole h1 h2
  | receive hw hl =>
    have hp := hw.prefix (fun q hq => by
        obtain ⟨i, _, rfl⟩ := List.mem_map.mp hq
        exact hP.data i) (fun D hd q hq => by
        obtain ⟨i, _, rfl⟩ := List.mem_map.mp hq
        exact hD.data D hd i)
    rw [List.map_map] at hp
    exact .receive hp hl
  | answer hw hl =>
    have hp := hw.prefix (fun q hq => by
        obtain ⟨i, _, rfl⟩ := List.mem_map.mp hq
        exact hP.ack _ (hK i)) (fun D hd q hq => by
        obtain ⟨i, _, rfl⟩ := List.mem_map.mp hq
        exact hD.ack D hd _ (hK i))
    rw [List.map_map] at hp
    exact .answer hp hl

theorem Numbering.Relayed.moved {P : Numbering} (hP : P.Ok) {W : Nat} {Cs Ds : List Collection} (hD : P.Passable Cs Ds) {s : Exchange}
    (hg : P.Relayed W Cs Ds s) : P.Moved W s := by
  induction hg with
  | start => exact .start
  | next _ hn ih => exact ih.next (hn.moves hP hD)

/-- C142. At any time the last program on the way of the messages has taken for new exactly the first so many of them, once each and
in order, namely those which the first program takes for delivered and at most `W` more. -/
theorem C142_once {P : Numbering} (hP : P.Ok) {W : Nat} (hW : W < P.K) {Cs Ds : List Collection} (hD : P.Passable Cs Ds) {s : Exchange}
    (hg : P.Relayed W Cs Ds s) :
    ∃ n, P.taken s.hb = (List.range n).map (fun i => (P.data i).call) ∧ P.passed W s.ha ≤ n ∧ n ≤ P.passed W s.ha + W :=
  (hg.moved hP hD).once hP hW

/-- C142. When the last answer has passed all lines and has been handled, the first program knows how many messages have been
taken. -/
theorem C142_settled {P : Numbering} (hP : P.Ok) {W : Nat} (hW : W < P.K) {Cs Ds : List Collection} (hD : P.Passable Cs Ds) {s : Exchange}
    (hg : P.Relayed W Cs Ds s) (h3 : s.fa.getLast? = some true) (h4 : s.ha.length = (pick s.fa s.hb).length) :
    P.passed W s.ha = (P.taken s.hb).length :=
  (hg.moved hP hD).settled hP hW h3 h4

/-- C142. If the last transmission is not of a message ahead of the first one that is not acknowledged, it passes all lines,
everything that arrives at the last program has been handled, and the last answer passes all lines and has been handled too, then
that message is acknowledged. -/
theorem C142_progress {P : Numbering} (hP : P.Ok) {W : Nat} (hW : W < P.K) {Cs Ds : List Collection} (hD : P.Passable Cs Ds) {s : Exchange}
    (hg : P.Relayed W Cs Ds s) {i : Nat} (hi : s.tx.getLast? = some i) (h1 : s.fb.getLast? = some true)
    (h2 : s.hb.length = (pick s.fb s.tx).length) (h3 : s.fa.getLast? = some true) (h4 : s.ha.length = (pick s.fa s.hb).length)
    (h5 : i ≤ P.passed W s.ha) : i < P.passed W s.ha :=
  (hg.moved hP hD).progress hP hW hi h1 h2 h3 h4 h5

/-- C142. In an exchange that goes on forever and in which this happens again and again, every message is taken for new at some time,
in its place, and acknowledged. -/
theorem C142_eventually {P : Numbering} (hP : P.Ok) {W : Nat} (hW : W < P.K) {Cs Ds : List Collection} (hD : P.Passable Cs Ds)
    {st : Nat → Exchange} (h0 : st 0 = .none) (hs : ∀ n, P.Hops W Cs Ds (st n) (st (n + 1)))
    (hr : ∀ n, ∃ k i, n ≤ k ∧ P.Round W st n k i) (i : Nat) :
    ∃ n, ∀ k, n ≤ k → i < P.passed W (st k).ha ∧ (P.taken (st k).hb)[i]? = some (P.data i).call :=
  Numbering.moves_eventually hP hW h0 (fun n => (hs n).moves hP hD) hr i

/-! ### Routes exist -/

/-- A program for this collection, with this build and these handlers, which neither throw nor append. -/
structure Runs (C : Collection) (B : Build) (user : UserCode) : Prop where
  setting : Setting C B user
  quiet : Quiet user
  calm : NeverThrows user
  ids : C.messages.length ≤ 255

/-- Some program for this collection can be written. -/
def Runnable (C : Collection) : Prop := ∃ B user, Runs C B user

/-- A route of programs that receive one message after the other, undamaged. -/
theorem routes (h : Handler) (n : Nat) : ∀ (Cs : List Collection) {C : Collection}
    (_ : ∀ D ∈ C :: Cs, Runnable D) {rs : Nat → Request} (_ : ∀ i, (rs i).Good C)
    (_ : ∀ D ∈ Cs, ∀ i, (rs i).t ∈ D.messages), ∃ bytes ks z, Carried ((List.range n).map rs) bytes ∧ HurtSoFar bytes (ks ++ [z]) ∧
      (ks ++ [z]).map (fun k : Link => k.x.C) = C :: Cs ∧ (∀ k ∈ ks ++ [z], k.fate = List.replicate n true) ∧
      delivered z.x.w = (List.range n).map fun i => (rs i).call
  | [], C, hC, rs, hr, _ => by
    obtain ⟨B, user, R⟩ := hC C (by simp)
    obtain ⟨X, hX, hXC, _, _, hdel, bytes, hb, hf⟩ := stations R.setting R.quiet R.calm R.ids (Nat.lt_succ_self _) h hr n
    exact ⟨bytes, [], ⟨X, List.replicate n true⟩, hb, ⟨hX, hf⟩, by simp [hXC], by simp, hdel⟩
  | D :: Cs, C, hC, rs, hr, ht => by
    obtain ⟨B, user, R⟩ := hC C (by simp)
    obtain ⟨_, _, RD⟩ := hC D (by simp)
    obtain ⟨X, hX, hXC, _, _, hdel, bytes, hb, hf⟩ := stations R.setting R.quiet R.calm R.ids (Nat.lt_succ_self _) h hr n
    obtain ⟨g1, g2⟩ := hX.passedOn_good RD.ids
    have hall : ((delivered X.w).filter fun c => decide (c.1 ∈ D.messages)) = delivered X.w := by
      refine List.filter_eq_self.mpr fun c hc => ?_
      rw [hdel] at hc
      obtain ⟨i, _, rfl⟩ := List.mem_map.mp hc
      exact decide_eq_true (ht D (by simp) i)
    rw [hall, hdel] at g2
    generalize hLX : X.passedOn D = L at g1 g2
    -- the requests the first program makes, continued
    let rs' : Nat → Request := fun i => (L[i]?).getD ⟨D, (rs i).t, (rs i).vs⟩
    have hlen : L.length = n := by
      have := congrArg List.length g2
      simpa using this
    have hcall : ∀ i, (rs' i).call = (rs i).call := by
      intro i
      by_cases hi : i < n
      · have e := congrArg (·[i]?) g2
        simp only [List.getElem?_map, List.getElem?_range hi, Option.map_some] at e
        rw [List.getElem?_eq_getElem (by omega)] at e
        simp only [Option.map_some, Option.some.injEq] at e
        simp only [rs', List.getElem?_eq_getElem (show i < L.length by omega), Option.getD_some]
        exact e
      · simp only [rs', List.getElem?_eq_none (show L.length ≤ i by omega), Option.getD_none]
        rfl
    have hL : (List.range n).map rs' = L := by
      refine List.ext_getElem (by simp [hlen]) fun i h1 h2 => ?_
      simp [rs', List.getElem?_eq_getElem h2]
    have hgood : ∀ i, (rs' i).Good D := by
      intro i
      by_cases hi : i < L.length
      · simp only [rs', List.getElem?_eq_getElem hi, Option.getD_some]
        exact g1 _ (List.getElem_mem hi)
      · simp only [rs', List.getElem?_eq_none (show L.length ≤ i by omega), Option.getD_none]
        exact ⟨rfl, ⟨RD.ids, ht D (by simp) i, (hr i).2.1.2.2⟩, (hr i).2.2⟩
    obtain ⟨bytes', ks, z, hb', hr', hc', hf', hd'⟩ := routes h n Cs (C := D) (fun E hE => hC E (by simp at hE ⊢; right; exact hE))
      hgood (fun E hE i => by
        have : (rs' i).t = (rs i).t := congrArg Prod.fst (hcall i)
        rw [this]
        exact ht E (by simp [hE]) i)
    obtain ⟨l, ls, e⟩ : ∃ l ls, ks ++ [z] = l :: ls := by
      cases ks with
      | nil => exact ⟨_, _, rfl⟩
      | cons l ls => exact ⟨_, _, rfl⟩
    have hlD : l.x.C = D := by
      rw [e] at hc'
      exact (List.cons.inj hc').1
    refine ⟨bytes, ⟨X, List.replicate n true⟩ :: ks, z, hb, ?_, ?_, ?_, ?_⟩
    · rw [List.cons_append, e]
      refine ⟨hX, hf, bytes', ?_, by rw [← e]; exact hr'⟩
      rw [hlD, hLX, ← hL]
      exact hb'
    · rw [List.cons_append, List.map_cons, hc', hXC]
    · intro k hk
      rw [List.cons_append] at hk
      rcases List.mem_cons.mp hk with rfl | hk
      · rfl
      · exact hf' k hk
    · rw [hd']
      exact List.map_congr_left fun i _ => hcall i

theorem bothFates_all (n : Nat) : bothFates (List.replicate n true) (List.replicate n true) = List.replicate n true := by
  induction n with
  | zero => rfl
  | succ n ih => simp [List.replicate_succ, bothFates, ih]

theorem bothFates_nil (f : List Bool) : bothFates f [] = f := by
  induction f with
  | nil => rfl
  | cons b f ih => cases b <;> simp [bothFates, ih]

theorem fates_all {n : Nat} : ∀ {ks : List Link} {z : Link}, (∀ k ∈ ks ++ [z], k.fate = List.replicate n true) →
    fates (ks ++ [z]) = List.replicate n true
  | [], z, h => by
    show bothFates z.fate [] = _
    rw [bothFates_nil, h z (by simp)]
  | k :: ks, z, h => by
    show bothFates k.fate (fates (ks ++ [z])) = _
    rw [fates_all fun l hl => h l (by simp at hl ⊢; right; exact hl), h k (by simp), bothFates_all]

/-- C142. Such exchanges exist, for every numbering, and for routes of all lengths over programs with all collections that have the
types. -/
theorem C142_possible {P : Numbering} (hP : P.Ok) {W : Nat} (hW1 : 1 ≤ W) (hW : W < P.K) {Cs Ds : List Collection} (hD : P.Passable Cs Ds)
    (hC : ∀ C ∈ P.C :: Cs, Runnable C) (hC' : ∀ C ∈ P.D :: Ds, Runnable C) (h : Handler) :
    ∃ st : Nat → Exchange, st 0 = .none ∧ (∀ n, P.Hops W Cs Ds (st n) (st (n + 1))) ∧ ∀ n, ∃ k i, n ≤ k ∧ P.Round W st n k i := by
  have hK : ∀ i, i % P.K < P.K := fun i => Nat.mod_lt _ (by have := hP.two; omega)
  refine Numbering.steady hP hW1 hW (fun h1 h2 => .transmit true h1 h2) (fun {s} n e1 e2 e3 => ?_) (fun {s} n e1 e2 e3 => ?_)
  · obtain ⟨bytes, ks, z, hb, hr, hc, hf, hdel⟩ := routes h n Cs hC hP.data hD.data
    rw [← hdel]
    have := OverRoute.mk hb hr hc
    rw [fates_all hf, ← e1, ← e2] at this
    exact .receive this (by simp [hdel, e3])
  · obtain ⟨bytes, ks, z, hb, hr, hc, hf, hdel⟩ := routes h n Ds hC' (rs := fun i => P.ack ((i + 1) % P.K))
      (fun i => hP.ack _ (hK _)) (fun D hd i => hD.ack D hd _ (hK _))
    rw [← hdel]
    have := OverRoute.mk hb hr hc
    rw [fates_all hf, ← e1, ← e2] at this
    exact .answer this (by simp [hdel, e3])

/-! ### Exchanges over routes -/

theorem runnable_checked : Runnable Sample.checked :=
  ⟨Sample.dbg, Sample.passive, Sample.setting_checked, Sample.passive_quiet, Sample.passive_neverThrows, by decide⟩

theorem runnable_basic : Runnable Sample.basic :=
  ⟨Sample.dbg, Sample.passive, Sample.setting_basic, Sample.passive_quiet, Sample.passive_neverThrows, by decide⟩

theorem someNumbers_passable (K : Nat) : (someNumbers K).Passable [Sample.basic, Sample.checked] [Sample.checked] := by
  refine ⟨fun C hC i => ?_, fun D hD n _ => ?_⟩
  · simp only [List.mem_cons, List.not_mem_nil, or_false] at hC
    rcases hC with rfl | rfl
    · exact (by decide : Sample.level ∈ Sample.basic.messages)
    · exact (by decide : Sample.level ∈ Sample.checked.messages)
  · simp only [List.mem_cons, List.not_mem_nil, or_false] at hD
    subst hD
    exact (by decide : Sample.level ∈ Sample.checked.messages)

/-- Two programs between the two, one on the way back; message 7 is taken. -/
example : ∃ st : Nat → Exchange, (∀ n, (someNumbers 3).Hops 2 [Sample.basic, Sample.checked] [Sample.checked] (st n) (st (n + 1))) ∧
    ∃ k, ((someNumbers 3).taken (st k).hb)[7]? = some (Sample.level, [[1]]) := by
  have hP := someNumbers_ok (K := 3) (by decide) (by decide)
  have hD := someNumbers_passable 3
  have hC : ∀ C ∈ [Sample.checked, Sample.basic, Sample.checked], Runnable C := by
    intro C hC
    simp only [List.mem_cons, List.not_mem_nil, or_false] at hC
    rcases hC with rfl | rfl | rfl
    · exact runnable_checked
    · exact runnable_basic
    · exact runnable_checked
  have hC' : ∀ C ∈ [Sample.basic, Sample.checked], Runnable C := fun C h => hC C (by simp at h ⊢; rcases h with h | h <;> simp [h])
  obtain ⟨st, h0, hs, hr⟩ := C142_possible hP (W := 2) (by decide) (by decide) hD hC hC' Sample.h0
  obtain ⟨k, hk⟩ := C142_eventually hP (by decide) hD h0 hs hr 7
  exact ⟨st, hs, k, (hk k (Nat.le_refl _)).2.trans (by decide +kernel)⟩

/-- Messages 0, 1, 0 and 1 are transmitted over one program to another. Nothing of the first one arrives at the first of these, and
nothing of the second one at the second; the others are taken and answered. The first answer breaks off. At this moment the
conditions of `C142_progress` are met. -/
example : ∃ s : Exchange, (someNumbers 3).Relayed 2 [Sample.basic] [] s ∧ s.tx = [0, 1, 0, 1] ∧ s.fb = [false, false, true, true] ∧
    s.hb.length = (pick s.fb s.tx).length ∧ s.fa = [false, true] ∧ s.ha.length = (pick s.fa s.hb).length ∧
    (someNumbers 3).passed 2 s.ha = 2 := by
  let m0 : Msg := ⟨1, [0]⟩
  let m1 : Msg := ⟨1, [1]⟩
  let m2 : Msg := ⟨1, [2]⟩
  obtain ⟨w1, os1, k1, p1, f1⟩ := station_of Sample.setting_checked (by decide)
    ([.setHandler Sample.h0, .append (frame .basicChecksum m1), .append (frame .basicChecksum m0), .process,
      .append (frame .basicChecksum m1)] ++ [.process]) (by simp)
    (fun w => decide (sendAll vectorBuffer [] ((w.trace.filter fun i => i.msg ∈ Sample.basic.messages).map (forward Sample.basic)) =
      some (.ok (frames .basic [m1, m0, m1])))) (Sample.reached (fun w _ => _) (by decide +kernel))
  obtain ⟨w2, os2, k2, p2, f2⟩ := station_of Sample.setting_basic (by decide)
    ([.setHandler Sample.h0, .append (frame .basic m0), .append (frame .basic m1)] ++ [.process]) (by simp)
    (fun w => decide (delivered w = [(Sample.level, [[0]]), (Sample.level, [[1]])])) (Sample.reached (fun w _ => _) (by decide +kernel))
  obtain ⟨w3, os3, k3, p3, f3⟩ := station_of Sample.setting_basic (by decide)
    ([.setHandler Sample.h0, .append ((frame .basic m1).take 3), .append (frame .basic m2)] ++ [.process]) (by simp)
    (fun w => decide (delivered w = [(Sample.level, [[2]])])) (Sample.reached (fun w _ => _) (by decide +kernel))
  simp only [decide_eq_true_eq] at p1 p2 p3
  have i0 : IsMsg Sample.checked m0 := by decide +kernel
  have i1 : IsMsg Sample.checked m1 := by decide +kernel
  have b0 : IsMsg Sample.basic m0 := by decide +kernel
  have b1 : IsMsg Sample.basic m1 := by decide +kernel
  have b2 : IsMsg Sample.basic m2 := by decide +kernel
  have g1 : (someNumbers 3).Relayed 2 [Sample.basic] [] ⟨[0, 1, 0, 1], [false, false, true, true], [], [], []⟩ :=
    (((Numbering.Relayed.start.next (.transmit (i := 0) false (by decide) (by decide))).next
      (.transmit (i := 1) false (by decide) (by decide))).next (.transmit (i := 0) true (by decide) (by decide))).next
      (.transmit (i := 1) true (by decide) (by decide))
  have r1 := OverRoute.mk (Cs := [Sample.checked, Sample.basic]) (rs := [0, 1, 0, 1].map (someNumbers 3).data)
    (bytes := frames .basicChecksum [m0, m1, m0, m1]) (ks := [⟨_, [false, true, true, true]⟩])
    (z := ⟨⟨Sample.basic, _, _, _, _, w2, os2⟩, [false, true, true]⟩)
    (carried_vector (by decide +kernel))
    ⟨k1, partFed_of [m0, m1, m0, m1] (by simp [i0, i1]) (.gone i0 (.whole i1 (.whole i0 (.whole i1 .nil)))) (f1.trans (by decide +kernel)),
      frames .basic [m1, m0, m1], carried_vector p1, k2,
      partFed_of [m1, m0, m1] (by simp [b0, b1]) (.gone b1 (.whole b0 (.whole b1 .nil))) (f2.trans (by decide +kernel))⟩ rfl
  have g2 := g1.next (.receive (got := delivered w2) (more := [false, true]) r1 (by
    show 0 + 2 = (delivered w2).length
    rw [p2]; rfl))
  have r2 := OverRoute.mk (Cs := [Sample.basic]) (rs := ((someNumbers 3).counts (delivered w2)).map fun n => (someNumbers 3).ack (n % 3))
    (bytes := frames .basic [m1, m2]) (ks := []) (z := ⟨_, [false, true]⟩) (carried_vector (by rw [p2]; decide +kernel))
    ⟨k3, partFed_of [m1, m2] (by simp [b1, b2]) (.moved (d := (frame .basic m1).take 3) (b := 2) b1 rfl (by decide +kernel) (by decide)
      (by decide +kernel) (.whole b2 .nil)) (f3.trans (by decide +kernel))⟩ rfl
  have g3 := g2.next (.answer (got := delivered w3) r2 (Nat.zero_le _))
  refine ⟨_, g3, rfl, rfl, ?_, rfl, ?_, ?_⟩
  · show (delivered w2).length = 2
    rw [p2]; rfl
  · show (delivered w3).length = (pick [false, true] (delivered w2)).length
    rw [p2, p3]; rfl
  · show (someNumbers 3).passed 2 (delivered w3) = 2
    rw [p3]; decide +kernel

end TT.Properties
