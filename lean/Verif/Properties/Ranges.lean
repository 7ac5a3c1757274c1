import Verif.Model.Ranges
import Verif.Properties.Reactions
import Verif.Properties.EndToEnd

/-!
# Property about ranges of elements of other types: C110
-/

namespace TT.Properties
open Spec

variable {C : Collection} {B : Build} {user : UserCode} {fuel : Nat}

/-! ### C110 -/

/-- The byte that stands for an element: an integer that differs from it by a multiple of 256, or the number with its fraction
dropped. -/
inductive StandsFor : Item → Byte → Prop where
  | int {x k : Int} {b : Byte} (h : x = b.toNat + 256 * k) : StandsFor (.int x) b
  | real {n d : Nat} {b : Byte} (h1 : b.toNat * d ≤ n) (h2 : n < (b.toNat + 1) * d) : StandsFor (.real n d) b
  | small {n : Int} {d : Nat} (h1 : -(d : Int) < n) (h2 : n < 0) : StandsFor (.real n d) 0

/-- What comes of a range: bytes, or an exception at some element. -/
inductive Yields : List Item → Option (List Byte) → Prop where
  | nil : Yields [] (some [])
  | throws (xs : List Item) : Yields (.throws :: xs) none
  | cons {x : Item} {b : Byte} {xs : List Item} {r : Option (List Byte)} (h : StandsFor x b) (hs : Yields xs r) :
      Yields (x :: xs) (r.map (b :: ·))

/-- The program with bytes for a program with ranges: for a range that throws there is no call at all. -/
inductive Translates : List (List Item ⊕ Op) → List (Option Op) → Prop where
  | nil : Translates [] []
  | range {xs : List Item} {r : Option (List Byte)} {ps : List (List Item ⊕ Op)} {qs : List (Option Op)} (h : Yields xs r)
      (hs : Translates ps qs) : Translates (.inl xs :: ps) (r.map .append :: qs)
  | other {op : Op} {ps : List (List Item ⊕ Op)} {qs : List (Option Op)} (hs : Translates ps qs) :
      Translates (.inr op :: ps) (some op :: qs)

/-- The rules: a range is not longer than the free space; the other calls as usual. -/
def RangesLegal (B : Build) (user : UserCode) (fuel : Nat) : World C → List (List Item ⊕ Op) → Prop
  | _, [] => True
  | w, p :: ps => (match p with
      | .inl xs => xs.length ≤ w.rx.getBufferAvailableSpace
      | .inr op => OpLegal w op) ∧
    ∀ w' o, w.stepI B user fuel p = .ok (w', o) → RangesLegal B user fuel w' ps

theorem assign_of {x : Item} {b : Byte} (h : StandsFor x b) : x.assign = .ok (some b) := by
  cases h with
  | @int x k b h =>
    subst h
    have hb := b.toNat_lt
    have : ((b.toNat + 256 * k : Int) % 256).toNat = b.toNat := by omega
    simp only [Item.assign, this, UInt8.ofNat_toNat]
  | @real n d b h1 h2 =>
    have hd : d ≠ 0 := by rintro rfl; simp at h2
    have hq : n / d = b.toNat := by
      apply Nat.div_eq_of_lt_le
      · rw [Nat.mul_comm] at h1; rw [Nat.mul_comm]; exact h1
      · exact h2
    have ht : (n : Int).tdiv d = (b.toNat : Int) := by
      rw [← hq]; exact (Int.ofNat_tdiv n d).symm
    have hb := b.toNat_lt
    simp only [Item.assign, if_neg hd, ht]
    rw [if_pos ⟨by omega, by omega⟩]
    simp
  | @small n d h1 h2 =>
    have hd : d ≠ 0 := by rintro rfl; simp at h1; omega
    have ht : n.tdiv d = 0 := by
      have h3 : (-n).tdiv d = 0 := Int.tdiv_eq_zero_of_lt (by omega) (by omega)
      rw [Int.neg_tdiv] at h3
      omega
    simp [Item.assign, hd, ht]

/-- C110. Every element stands for at most one byte. -/
theorem C110_unique {x : Item} {b b' : Byte} (h : StandsFor x b) (h' : StandsFor x b') : b = b' := by
  have := (assign_of h).symm.trans (assign_of h')
  simpa using this

theorem copyItems_of {xs : List Item} {r : Option (List Byte)} (h : Yields xs r) :
    ∃ bs, (∀ l i, copyItems l i xs = (RB.writeAt l i bs >>= fun l => .ok (l, r.isSome))) ∧ bs.length ≤ xs.length ∧
      (∀ cs, r = some cs → cs = bs ∧ bs.length = xs.length ∧ xs.filterMap (fun x => x.assign.toOption.join) = bs) := by
  induction h with
  | nil => exact ⟨[], fun l i => rfl, by simp, fun cs h => by simp at h; simp [h]⟩
  | throws xs => exact ⟨[], fun l i => rfl, by simp, fun cs h => by simp at h⟩
  | @cons x b xs r hx _ ih =>
    obtain ⟨bs, h1, h2, h3⟩ := ih
    refine ⟨b :: bs, fun l i => ?_, by simp; omega, ?_⟩
    · simp only [copyItems, assign_of hx, ok_bind, RB.writeAt]
      cases RB.rawSet l i b with
      | error f => rfl
      | ok l' =>
        simp only [ok_bind, h1]
        simp
    · intro cs hcs
      cases r with
      | none => simp at hcs
      | some ds =>
        simp only [Option.map_some, Option.some.injEq] at hcs
        obtain ⟨rfl, h4, h5⟩ := h3 ds rfl
        subst hcs
        refine ⟨rfl, by simp [h4], ?_⟩
        have hb : x.assign.toOption.join = some b := by rw [assign_of hx]; rfl
        rw [List.filterMap_cons, hb]
        simp only
        rw [h5]

theorem appendItems_ok (hc : recvBufferSize C < 2 ^ 64) {w : World C} {s : AState} (h : Abs w s) {xs : List Item}
    {r : Option (List Byte)} (hy : Yields xs r) (hl : s.buf.length + xs.length ≤ capacity C) :
    ∃ w' : World C, (∀ B, Arith B (recvBufferSize C) → w.appendItems B xs = .ok (w', r.isSome)) ∧
      Abs w' { s with buf := s.buf ++ r.getD [], fed := s.fed ++ r.getD [] } := by
  rw [capacity_eq] at hl
  obtain ⟨bs, h1, h2, h3⟩ := copyItems_of hy
  obtain ⟨b1, e1, hh1, hs1⟩ := RB.Holds.ensureSpace_ok hc h.buf hl
  cases r with
  | some cs =>
    obtain ⟨rfl, h4, h5⟩ := h3 cs rfl
    obtain ⟨l, e2, hh2⟩ := hh1.writeAt_pastEnd hc (by omega) (Nat.le_refl cs.length)
    rw [List.take_length] at hh2
    refine ⟨{ w with rx := { w.rx with recv := { w.rx.recv with
      buf := { b1 with contents := l, pastEnd := trunc (recvBufferSize C) (b1.pastEnd + cs.length) } } }, fed := w.fed ++ cs },
      fun B ha => ?_, ⟨hh2, h.invoker, h.functor, h.last, h.trace, by simp [h.fed]⟩⟩
    unfold World.appendItems RB.pushBackItems
    rw [trunc_of_le hc (by omega)]
    have := hh2.verifyInvariants_ok (B := B)
    rw [h4] at this
    simp only [e1 B ha, ok_bind, h1, e2, Option.isSome_some, if_true, this, pure_eq_ok, h5, h4]
  | none =>
    obtain ⟨l, e2, hh2⟩ := hh1.writeAt_pastEnd (ys := bs) hc (by omega) (Nat.zero_le _)
    have hp : trunc (recvBufferSize C) (b1.pastEnd + 0) = b1.pastEnd := by
      rw [Nat.add_zero]; exact trunc_of_le hc hh1.pastEnd_le
    rw [hp] at hh2
    simp only [List.take_zero, List.append_nil] at hh2
    refine ⟨{ w with rx := { w.rx with recv := { w.rx.recv with buf := { b1 with contents := l } } } },
      fun B ha => ?_, ⟨by simpa using hh2, h.invoker, h.functor, h.last, h.trace, by simp [h.fed]⟩⟩
    unfold World.appendItems RB.pushBackItems
    rw [trunc_of_le hc (by omega)]
    simp [e1 B ha, h1, e2]

theorem ranges_run (S : Setting C B user) {ps : List (List Item ⊕ Op)} {qs : List (Option Op)} (ht : Translates ps qs) :
    ∀ {w w1 : World C} {s : AState}, Abs w s → Abs w1 s → RangesLegal B user fuel w ps →
      Legal B user fuel w1 (qs.filterMap id) ∧
      ((∃ w' is w1' s', w.runI B user fuel ps = .ok (w', is) ∧ is.map Option.isSome = qs.map Option.isSome ∧
          w1.run B user fuel (qs.filterMap id) = .ok (w1', is.filterMap id) ∧ Abs w' s' ∧ Abs w1' s') ∨
        (w.runI B user fuel ps = .error .diverge ∧ w1.run B user fuel (qs.filterMap id) = .error .diverge)) := by
  have hc := S.arith.lt64
  induction ht with
  | nil =>
    intro w w1 s ha hb _
    exact ⟨trivial, .inl ⟨w, [], w1, s, rfl, rfl, rfl, ha, hb⟩⟩
  | @range xs r ps qs hy _ ih =>
    intro w w1 s ha hb hl
    have hle : s.buf.length ≤ capacity C := by
      rw [capacity_eq]; exact RB.Holds.length_le ha.buf
    have hfit : s.buf.length + xs.length ≤ capacity C := by
      have := hl.1
      simp only [ha.space hc] at this
      omega
    obtain ⟨w2, e2, ha2⟩ := appendItems_ok hc ha hy hfit
    have hstep : w.stepI B user fuel (.inl xs) = .ok (w2, if r.isSome then some .unit else none) := by
      simp [World.stepI, e2 B S.arith]
    have hl2 := hl.2 _ _ hstep
    cases r with
    | none =>
      simp only [Option.getD_none, List.append_nil] at ha2
      obtain ⟨g1, g2⟩ := ih ha2 hb hl2
      refine ⟨g1, ?_⟩
      rcases g2 with ⟨w', is, w1', s', k1, k2, k3, k4, k5⟩ | ⟨k1, k2⟩
      · refine .inl ⟨w', none :: is, w1', s', ?_, by simp [k2], by simpa using k3, k4, k5⟩
        simp only [World.runI, hstep, ok_bind, k1]
        rfl
      · refine .inr ⟨?_, by simpa using k2⟩
        simp only [World.runI, hstep, ok_bind, k1]
        rfl
    | some cs =>
      have hlen : cs.length = xs.length := by
        obtain ⟨bs, _, _, h3⟩ := copyItems_of hy
        obtain ⟨rfl, h4, _⟩ := h3 cs rfl
        exact h4
      obtain ⟨w3, e3, ha3, _⟩ := append_ok hc hb (xs := cs) (by omega)
      simp only [Option.getD_some] at ha2
      obtain ⟨g1, g2⟩ := ih ha2 ha3 hl2
      have hs3 : w1.step B user fuel (.append cs) = .ok (w3, .unit) := by
        simp [World.step, e3 B S.arith]
      refine ⟨⟨?_, fun w' o' e => ?_⟩, ?_⟩
      · simp only [OpLegal, hb.space hc]; omega
      · rw [hs3] at e
        simp only [Except.ok.injEq, Prod.mk.injEq] at e
        rw [← e.1]; exact g1
      · rcases g2 with ⟨w', is, w1', s', k1, k2, k3, k4, k5⟩ | ⟨k1, k2⟩
        · refine .inl ⟨w', some .unit :: is, w1', s', ?_, by simp [k2], ?_, k4, k5⟩
          · simp only [World.runI, hstep, ok_bind, k1]
            rfl
          · simp only [Option.map_some, List.filterMap_cons, id, World.run, hs3, ok_bind]
            rw [k3]
            rfl
        · refine .inr ⟨?_, ?_⟩
          · simp only [World.runI, hstep, ok_bind, k1]
            rfl
          · simp only [Option.map_some, List.filterMap_cons, id, World.run, hs3, ok_bind]
            rw [k2]
            rfl
  | @other op ps qs _ ih =>
    intro w w1 s ha hb hl
    have hl1 : OpLegal w op := hl.1
    have hsp : w1.rx.getBufferAvailableSpace = w.rx.getBufferAvailableSpace := by
      rw [ha.space hc, hb.space hc]
    have hleg : OpLegal w1 op := by
      cases op <;> simp only [OpLegal, hsp] at hl1 ⊢ <;> exact hl1
    rcases step_ok hc S.benign fuel ha hl1 with ⟨hk, hop, hd⟩ | ⟨wa, sa, ms, o, e, haa, hst⟩
    · have hd1 : w1.step B user fuel op = .error .diverge := by
        subst hop
        cases hh : s.handler with
        | none =>
          have := hd B S.arith
          simp [World.step, processMessages_none ha hh] at this
        | some x =>
          rw [World.step, processMessages_keeps hc S.benign hb (by simp [hh]) hk B S.arith]
          rfl
      have hdI : w.stepI B user fuel (.inr op) = .error .diverge := by
        simp [World.stepI, hd B S.arith]
      refine ⟨⟨hleg, fun w' o' e => ?_⟩, .inr ⟨?_, ?_⟩⟩
      · rw [hd1] at e; simp at e
      · simp only [World.runI, hdI]; rfl
      · simp only [List.filterMap_cons, id, World.run, hd1]; rfl
    · have hstep : w.stepI B user fuel (.inr op) = .ok (wa, some o) := by
        simp [World.stepI, e B S.arith]
      rcases step_ok hc S.benign fuel hb hleg with ⟨hk, hop, hdv⟩ | ⟨wb, sb, ms', o', e', hbb, hst'⟩
      · exfalso
        subst hop
        cases hh : s.handler with
        | none =>
          have := hdv B S.arith
          simp [World.step, processMessages_none hb hh] at this
        | some x =>
          have := e B S.arith
          rw [World.step, processMessages_keeps hc S.benign ha (by simp [hh]) hk B S.arith] at this
          simp at this
      · obtain ⟨rfl, rfl, rfl⟩ := hst.unique hst'
        obtain ⟨g1, g2⟩ := ih haa hbb (hl.2 _ _ hstep)
        refine ⟨⟨hleg, fun w' o' e2 => ?_⟩, ?_⟩
        · rw [e' B S.arith] at e2
          simp only [Except.ok.injEq, Prod.mk.injEq] at e2
          rw [← e2.1]; exact g1
        · rcases g2 with ⟨w', is, w1', s', k1, k2, k3, k4, k5⟩ | ⟨k1, k2⟩
          · refine .inl ⟨w', some o :: is, w1', s', ?_, by simp [k2], ?_, k4, k5⟩
            · simp only [World.runI, hstep, ok_bind, k1]
              rfl
            · simp only [List.filterMap_cons, id, World.run, e' B S.arith, ok_bind]
              rw [k3]
              rfl
          · refine .inr ⟨?_, ?_⟩
            · simp only [World.runI, hstep, ok_bind, k1]
              rfl
            · simp only [List.filterMap_cons, id, World.run, e' B S.arith, ok_bind]
              rw [k2]
              rfl

/-- C110, whole programs. A program that appends ranges of any types, some of which throw while they are read, does what the
program does that appends the bytes for which the elements stand and leaves out the calls that throw: the calls that are left
by an exception have no effect. (Both do not end if one does not.) -/
theorem C110_program (S : Setting C B user) {ps : List (List Item ⊕ Op)} {qs : List (Option Op)} (ht : Translates ps qs)
    (hl : RangesLegal B user fuel (World.new C) ps) :
    Legal B user fuel (World.new C) (qs.filterMap id) ∧
    ((∃ (w : World C) (is : List (Option Obs)) (w1 : World C), (World.new C).runI B user fuel ps = .ok (w, is) ∧
        is.map Option.isSome = qs.map Option.isSome ∧
        Reached B user fuel (qs.filterMap id) w1 (is.filterMap id) ∧
        w.trace = w1.trace ∧ w.fed = w1.fed ∧ buffered w = buffered w1 ∧
        w.rx.getBufferAvailableSpace = w1.rx.getBufferAvailableSpace ∧
        w.rx.getLastMessageId = w1.rx.getLastMessageId ∧ currentHandler w = currentHandler w1) ∨
      ((World.new C).runI B user fuel ps = .error .diverge ∧
        (World.new C).run B user fuel (qs.filterMap id) = .error .diverge)) := by
  have hc := S.arith.lt64
  obtain ⟨h1, h2⟩ := ranges_run S ht (abs_new C) (abs_new C) hl
  refine ⟨h1, ?_⟩
  rcases h2 with ⟨w, is, w1, s, k1, k2, k3, h5, h4⟩ | h2
  · refine .inl ⟨w, is, w1, k1, k2, ⟨h1, k3⟩, by rw [h5.trace, h4.trace], by rw [h5.fed, h4.fed],
      by rw [h5.buffered, h4.buffered], by rw [h5.space hc, h4.space hc], ?_, ?_⟩
    · unfold Receiver.getLastMessageId; rw [h5.last, h4.last]
    · rw [currentHandler_abs h5, currentHandler_abs h4]
  · exact .inr h2

/-- A message that comes as numbers of several types, after a range that throws at its third element. -/
example :
    let ps : List (List Item ⊕ Op) := [.inr (.setHandler Sample.h0), .inl [.int 9, .int 8, .throws, .int 7],
      .inl [.int 1, .int 257, .int (-254), .real 5 2, .int 3, .real 9 2], .inr .process]
    Translates ps [some (.setHandler Sample.h0), none, some (.append [1, 1, 2, 2, 3, 4]), some .process] ∧
    ((World.new Sample.basic).runI Sample.dbg Sample.passive 50 ps).map (fun p => (delivered p.1, p.2)) =
      .ok ([(Sample.level, [[2]])], [some .unit, none, some .unit, some (.processed (.returned 1))]) := by
  refine ⟨.other (.range (r := none) ?_ (.range (r := some [1, 1, 2, 2, 3, 4]) ?_ (.other .nil))), by decide +kernel⟩
  · exact .cons (r := none) (b := 9) (.int (k := 0) (by decide))
      (.cons (r := none) (b := 8) (.int (k := 0) (by decide)) (.throws _))
  · refine .cons (r := some [1, 2, 2, 3, 4]) (.int (k := 0) (by decide)) ?_
    refine .cons (r := some [2, 2, 3, 4]) (.int (k := 1) (by decide)) ?_
    refine .cons (r := some [2, 3, 4]) (.int (k := -1) (by decide)) ?_
    refine .cons (r := some [3, 4]) (.real (n := 5) (d := 2) (by decide) (by decide)) ?_
    refine .cons (r := some [4]) (.int (k := 0) (by decide)) ?_
    exact .cons (r := some []) (.real (n := 9) (d := 2) (by decide) (by decide)) .nil

/-- C110, `char`. Bytes that are stored as elements of a signed type with eight or more bits stand for themselves, as do bytes
stored in an unsigned or wider type. -/
theorem C110_char (bs : List Byte) :
    Yields (bs.map fun b => .int (if b.toNat < 128 then b.toNat else (b.toNat : Int) - 256)) (some bs) ∧
    Yields (bs.map fun b => .int b.toNat) (some bs) ∧
    Yields (bs.map fun b => .real b.toNat 1) (some bs) := by
  induction bs with
  | nil => exact ⟨.nil, .nil, .nil⟩
  | cons b bs ih =>
    obtain ⟨h1, h2, h3⟩ := ih
    refine ⟨?_, ?_, ?_⟩
    · refine .cons (r := some bs) ?_ h1
      simp only
      split
      · exact .int (k := 0) (by omega)
      · exact .int (k := -1) (by omega)
    · exact .cons (r := some bs) (.int (k := 0) (by omega)) h2
    · exact .cons (r := some bs) (.real (n := b.toNat) (by omega) (by omega)) h3

/-- C110, error codes. The result -1 of functions like `read` is a byte like any other. -/
theorem C110_minus_one : StandsFor (.int (-1)) 0xFF ∧ StandsFor (.int 255) 0xFF :=
  ⟨.int (k := -1) (by decide), .int (k := 0) (by decide)⟩

/-- C110, floating point numbers. Appending is undefined in every state if a number comes up whose whole part is not a byte. -/
theorem C110_undefined (S : Setting C B user) {ops : List Op} {w : World C} {os : List Obs}
    (h : Reached B user fuel ops w os) {xs ys : List Item} {bs : List Byte} (hx : Yields xs (some bs)) {y : Item}
    (hy : y = .nan ∨ ∃ (n : Int) (d : Nat), y = .real n d ∧ (n ≤ -(d : Int) ∨ 256 * (d : Int) ≤ n))
    (hl : (xs ++ y :: ys).length ≤ w.rx.getBufferAvailableSpace) :
    w.appendItems B (xs ++ y :: ys) = .error .ub := by
  have hc := S.arith.lt64
  obtain ⟨s, _, ha, _⟩ := h.exec S
  have hle : s.buf.length ≤ capacity C := by
    rw [capacity_eq]; exact RB.Holds.length_le ha.buf
  have hfit : s.buf.length + (xs ++ y :: ys).length ≤ recvBufferSize C := by
    rw [ha.space hc] at hl
    rw [← capacity_eq]
    omega
  have hay : y.assign = .error .ub := by
    rcases hy with rfl | ⟨n, d, rfl, hn⟩
    · rfl
    · simp only [Item.assign]
      by_cases hd : d = 0
      · rw [if_pos hd]
      · rw [if_neg hd]
        rw [if_neg]
        rintro ⟨g1, g2⟩
        have hm := Int.tmod_add_mul_tdiv n d
        rcases hn with hn | hn
        · have : n.tdiv d ≤ -1 := by
            have hd' : (0 : Int) < d := by omega
            have h4 := Int.lt_tmod_of_pos n hd'
            have h5 : 0 ≤ (d : Int) * n.tdiv d := Int.mul_nonneg (by omega) g1
            omega
          omega
        · have hd' : (0 : Int) < d := by omega
          have h3 := Int.tmod_lt_of_pos n hd'
          have h4 : (d : Int) * n.tdiv d ≤ d * 255 := Int.mul_le_mul_of_nonneg_left g2 (by omega)
          omega
  have hcopy : ∀ (xs : List Item) (r : Option (List Byte)), Yields xs r → ∀ bs, r = some bs →
      ∀ l i, i + (xs ++ y :: ys).length ≤ l.length →
      copyItems l i (xs ++ y :: ys) = .error .ub := by
    intro xs r hx
    induction hx with
    | nil =>
      intro bs _ l i _
      simp [copyItems, hay]
    | throws xs => intro bs h; simp at h
    | @cons x b xs r hxb _ ih =>
      intro bs hr l i hi
      cases r with
      | none => simp at hr
      | some cs =>
        simp only [List.cons_append, List.length_cons] at hi
        simp only [List.cons_append, copyItems, assign_of hxb, ok_bind]
        unfold RB.rawSet
        rw [if_pos (by omega)]
        simp only [ok_bind]
        exact ih cs rfl _ _ (by rw [List.length_set]; omega)
  obtain ⟨b1, e1, hh1, hs1⟩ := RB.Holds.ensureSpace_ok hc ha.buf hfit
  unfold World.appendItems RB.pushBackItems
  rw [trunc_of_le hc (by omega)]
  simp only [e1 B S.arith, ok_bind]
  rw [hcopy xs _ hx bs rfl _ _ (by rw [hh1.len]; exact hs1)]
  rfl

/-- Three numbers in a new receiver, the last of which is too large. -/
example : ((World.new Sample.basic).appendItems Sample.dbg [.int 300, .real (-1) 2, .real 256 1] = .error .ub) ∧
    (((World.new Sample.basic).appendItems Sample.dbg [.int 300, .real (-1) 2, .real 511 2]).map fun p => p.1.fed) =
      .ok [44, 0, 255] := by
  decide +kernel

end TT.Properties
