import Verif.Properties.Numbered

/-!
# Property C141: several numbered messages on their way at once
-/

namespace TT.Properties
open Spec

/-- How many messages the receiving program has taken for new after each of the messages it has handled. -/
def Numbering.counts (P : Numbering) (cs : List Call) : List Nat :=
  (List.range cs.length).map fun i => (P.taken (cs.take (i + 1))).length

/-- How many messages the sending program takes for delivered: an answer contains how many the receiving program has taken, modulo
`K`; the sending program goes on by the difference, if that is at most `W`. -/
def Numbering.passed (P : Numbering) (W : Nat) (cs : List Call) : Nat :=
  cs.foldl (fun i c => if (P.ackNum c + P.K - i % P.K) % P.K ≤ W then i + (P.ackNum c + P.K - i % P.K) % P.K else i) 0

/-- What may happen next. The sending program may at any time transmit any of the `W` messages from the first one on that is not
acknowledged, in any order. The receiving program answers everything it handles with the number of messages taken so far. -/
inductive Numbering.Slides (P : Numbering) (W : Nat) : Exchange → Exchange → Prop
  | transmit {s : Exchange} {i : Nat} (whole : Bool) (h1 : P.passed W s.ha ≤ i) (h2 : i < P.passed W s.ha + W) :
      P.Slides W s { s with tx := s.tx ++ [i], fb := s.fb ++ [whole] }
  | receive {s : Exchange} {X : Station} {bytes : List Byte} {more : List Bool} (hX : X.Ok) (hC : X.C = P.C)
      (hb : Carried (s.tx.map P.data) bytes) (hf : Link.PartFed ⟨X, s.fb⟩ bytes)
      (hl : s.hb.length + more.length = (delivered X.w).length) :
      P.Slides W s { s with hb := delivered X.w, fa := s.fa ++ more }
  | answer {s : Exchange} {Y : Station} {bytes : List Byte} (hY : Y.Ok) (hD : Y.C = P.D)
      (hb : Carried ((P.counts s.hb).map fun n => P.ack (n % P.K)) bytes) (hf : Link.PartFed ⟨Y, s.fa⟩ bytes)
      (hl : s.ha.length ≤ (delivered Y.w).length) : P.Slides W s { s with ha := delivered Y.w }

/-- The exchange, after any number of steps. -/
inductive Numbering.Window (P : Numbering) (W : Nat) : Exchange → Prop
  | start : P.Window W .none
  | next {s s' : Exchange} (h : P.Window W s) (hn : P.Slides W s s') : P.Window W s'

/-! ### Lists every element of which stands in some relation to what is before it -/

/-- Every element stands in this relation to what is before it. -/
def Splits {α : Type} (R : List α → α → Prop) (l : List α) : Prop := ∀ p a q, l = p ++ a :: q → R p a

theorem Splits.nil {α : Type} (R : List α → α → Prop) : Splits R [] := by
  intro p a q e
  simp at e

theorem Splits.prefix {α : Type} {R : List α → α → Prop} {p q : List α} (h : Splits R (p ++ q)) : Splits R p := by
  intro p' a q' e
  exact h p' a (q' ++ q) (by rw [e]; simp)

theorem Splits.last {α : Type} {R : List α → α → Prop} {p : List α} {a : α} (h : Splits R (p ++ [a])) : R p a := h p a [] rfl

theorem Splits.snoc {α : Type} {R : List α → α → Prop} {p : List α} {a : α} (h : Splits R p) (h1 : R p a) : Splits R (p ++ [a]) := by
  intro p' b q e
  cases q using list_snoc_induction with
  | h0 =>
    obtain ⟨rfl, e2⟩ := List.append_inj' e rfl
    simp at e2
    subst e2
    exact h1
  | hs q c =>
    rw [← List.cons_append, ← List.append_assoc] at e
    obtain ⟨rfl, _⟩ := List.append_inj' e rfl
    exact h p' b q rfl

/-! ### How many have come up in order, and the answers -/

/-- Every number is at most `W` from the next one in order. -/
def Near (W : Nat) : List Nat → Prop := Splits fun p a => a ≤ risen p + W ∧ risen p ≤ a + W

/-- How many have come up in order after each element. -/
def heights (l : List Nat) : List Nat := (List.range l.length).map fun i => risen (l.take (i + 1))

/-- The last element, or 0. -/
def lastOr (l : List Nat) : Nat := l.getLast?.getD 0

/-- Every element is at least the one before it, and by at most `W` larger. -/
def Steps (W : Nat) : List Nat → Prop := Splits fun p a => lastOr p ≤ a ∧ a ≤ lastOr p + W

theorem heights_length (l : List Nat) : (heights l).length = l.length := by simp [heights]

theorem heights_snoc (l : List Nat) (a : Nat) : heights (l ++ [a]) = heights l ++ [risen (l ++ [a])] := by
  unfold heights
  rw [List.length_append, List.length_singleton, List.range_succ, List.map_append, List.map_singleton]
  congr 1
  · refine List.map_congr_left fun i hi => ?_
    rw [List.take_append_of_le_length (by have := List.mem_range.mp hi; omega)]
  · rw [List.take_of_length_le (by simp)]

theorem heights_append (l q : List Nat) : ∃ t, heights (l ++ q) = heights l ++ t := by
  induction q using list_snoc_induction with
  | h0 => exact ⟨[], by simp⟩
  | hs q a ih =>
    obtain ⟨t, ht⟩ := ih
    exact ⟨t ++ [risen (l ++ q ++ [a])], by rw [← List.append_assoc, heights_snoc, ht, List.append_assoc]⟩

theorem heights_le {l : List Nat} {a : Nat} (h : a ∈ heights l) : a ≤ risen l := by
  induction l using list_snoc_induction with
  | h0 => simp [heights] at h
  | hs l b ih =>
    rw [heights_snoc] at h
    rcases List.mem_append.mp h with h | h
    · exact Nat.le_trans (ih h) (risen_mono l [b])
    · rw [List.mem_singleton.mp h]
      exact Nat.le_refl _

theorem heights_sorted (l : List Nat) : (heights l).Pairwise (· ≤ ·) := by
  induction l using list_snoc_induction with
  | h0 => simp [heights]
  | hs l b ih =>
    rw [heights_snoc]
    refine List.pairwise_append.mpr ⟨ih, by simp, fun x hx y hy => ?_⟩
    rw [List.mem_singleton.mp hy]
    exact Nat.le_trans (heights_le hx) (risen_mono l [b])

theorem risen_bound {l : List Nat} {n : Nat} (h : ∀ t ∈ l, t < n) : risen l ≤ n := by
  rcases risen_mem l with e | e
  · omega
  · have := h _ e
    omega

theorem lastOr_snoc (l : List Nat) (a : Nat) : lastOr (l ++ [a]) = a := by simp [lastOr]

theorem lastOr_mem (l : List Nat) : lastOr l = 0 ∨ lastOr l ∈ l := by
  cases l using list_snoc_induction with
  | h0 => exact Or.inl rfl
  | hs l a => rw [lastOr_snoc]; right; simp

theorem lastOr_le {l : List Nat} {a : Nat} (h : (l ++ [a]).Pairwise (· ≤ ·)) : lastOr l ≤ a := by
  rcases lastOr_mem l with e | e
  · omega
  · exact (List.pairwise_append.mp h).2.2 _ e a (by simp)

theorem lastOr_mono {l q : List Nat} (h : (l ++ q).Pairwise (· ≤ ·)) : lastOr l ≤ lastOr (l ++ q) := by
  induction q using list_snoc_induction with
  | h0 => simp
  | hs q a ih =>
    rw [← List.append_assoc] at h ⊢
    rw [lastOr_snoc]
    exact Nat.le_trans (ih (List.pairwise_append.mp h).1) (lastOr_le h)

theorem steps_append {W : Nat} {p q : List Nat} (h : Steps W p) (hs : (p ++ q).Pairwise (· ≤ ·)) (hq : ∀ a ∈ q, a ≤ lastOr p + W) :
    Steps W (p ++ q) := by
  induction q using list_snoc_induction with
  | h0 => simpa using h
  | hs q a ih =>
    rw [← List.append_assoc] at hs ⊢
    have s1 := (List.pairwise_append.mp hs).1
    refine Splits.snoc (ih s1 fun b hb => hq b (by simp [hb])) ⟨lastOr_le hs, ?_⟩
    have h1 := hq a (by simp)
    have h2 := lastOr_mono s1
    omega

/-- Messages `x.1` transmitted when `x.2` messages were acknowledged. -/
theorem near_append {W : Nat} {p q : List (Nat × Nat)} (h : Near W (p.map Prod.fst)) (hw : ∀ x ∈ p ++ q, x.2 ≤ x.1 ∧ x.1 < x.2 + W)
    (hs : (p ++ q).Pairwise fun x y => x.2 ≤ y.2) (hq : ∀ x ∈ q, x.2 ≤ risen (p.map Prod.fst)) : Near W ((p ++ q).map Prod.fst) := by
  induction q using list_snoc_induction with
  | h0 => simpa using h
  | hs q x ih =>
    rw [← List.append_assoc] at hs hw ⊢
    obtain ⟨s1, _, s3⟩ := List.pairwise_append.mp hs
    rw [List.map_append, List.map_singleton]
    refine Splits.snoc (ih (fun y hy => hw y (by simp only [List.mem_append] at hy ⊢; exact Or.inl hy)) s1 fun y hy => hq y (by simp [hy])) ?_
    have h1 := hw x (by simp)
    have h2 := hq x (by simp)
    have h3 := risen_mono (p.map Prod.fst) (q.map Prod.fst)
    rw [← List.map_append] at h3
    have h4 : risen ((p ++ q).map Prod.fst) ≤ x.2 + W := by
      refine risen_bound fun t ht => ?_
      obtain ⟨y, hy, rfl⟩ := List.mem_map.mp ht
      have := (hw y (by simp only [List.mem_append] at hy ⊢; exact Or.inl hy)).2
      have := s3 y hy x (by simp)
      omega
    omega

theorem near_iff {K W a c : Nat} (hK : W < K) (h1 : a ≤ c + W) (h2 : c ≤ a + W) : a % K = c % K ↔ a = c := by
  constructor
  · intro e
    rcases Nat.le_total a c with h | h
    · have := Nat.sub_mod_eq_zero_of_mod_eq e.symm
      rw [Nat.mod_eq_of_lt (by omega)] at this
      omega
    · have := Nat.sub_mod_eq_zero_of_mod_eq e
      rw [Nat.mod_eq_of_lt (by omega)] at this
      omega
  · rintro rfl; rfl

theorem difference {K W i a : Nat} (hK : W < K) (h1 : i ≤ a) (h2 : a ≤ i + W) : (a % K + K - i % K) % K = a - i := by
  obtain ⟨d, rfl⟩ := Nat.exists_eq_add_of_le h1
  have hd : d < K := by omega
  have hx : i % K < K := Nat.mod_lt _ (by omega)
  rw [Nat.add_sub_cancel_left, Nat.add_mod, Nat.mod_eq_of_lt hd]
  by_cases h : i % K + d < K
  · rw [Nat.mod_eq_of_lt h, show i % K + d + K - i % K = d + K by omega, Nat.add_mod_right, Nat.mod_eq_of_lt hd]
  · rw [Nat.mod_eq_sub_mod (by omega : K ≤ i % K + d), Nat.mod_eq_of_lt (by omega : i % K + d - K < K),
      show i % K + d - K + K - i % K = d by omega, Nat.mod_eq_of_lt hd]

theorem Numbering.Ok.taken_near {P : Numbering} (hP : P.Ok) {W : Nat} (hW : W < P.K) {l : List Nat} (h : Near W l) :
    P.taken (l.map fun i => (P.data i).call) = (List.range (risen l)).map fun i => (P.data i).call := by
  induction l using list_snoc_induction with
  | h0 => rfl
  | hs l a ih =>
    have ih := ih (Splits.prefix h)
    obtain ⟨h1, h2⟩ := Splits.last h
    have e : P.taken ((l ++ [a]).map fun i => (P.data i).call) =
        if P.num (P.data a).call = (P.taken (l.map fun i => (P.data i).call)).length % P.K then
          P.taken (l.map fun i => (P.data i).call) ++ [(P.data a).call] else P.taken (l.map fun i => (P.data i).call) := by
      unfold Numbering.taken
      rw [List.map_append, List.foldl_append]
      rfl
    rw [e, ih, List.length_map, List.length_range, hP.num, risen_snoc]
    by_cases he : a = risen l
    · rw [if_pos ((near_iff hW h1 h2).2 he), if_pos he, List.range_succ, List.map_append, List.map_singleton, he]
    · rw [if_neg fun e => he ((near_iff hW h1 h2).1 e), if_neg he]

theorem Numbering.Ok.counts_near {P : Numbering} (hP : P.Ok) {W : Nat} (hW : W < P.K) {l : List Nat} (h : Near W l) :
    P.counts (l.map fun i => (P.data i).call) = heights l := by
  unfold Numbering.counts heights
  rw [List.length_map]
  refine List.map_congr_left fun i _ => ?_
  rw [← List.map_take, hP.taken_near hW (Splits.prefix (q := l.drop (i + 1)) (by rw [List.take_append_drop]; exact h)),
    List.length_map, List.length_range]

theorem Numbering.Ok.passed_steps {P : Numbering} (hP : P.Ok) {W : Nat} (hW : W < P.K) {l : List Nat} (h : Steps W l) :
    P.passed W (l.map fun n => (P.ack (n % P.K)).call) = lastOr l := by
  induction l using list_snoc_induction with
  | h0 => rfl
  | hs l a ih =>
    have ih := ih (Splits.prefix h)
    obtain ⟨h1, h2⟩ := Splits.last h
    have e : P.passed W ((l ++ [a]).map fun n => (P.ack (n % P.K)).call) =
        (fun i c => if (P.ackNum c + P.K - i % P.K) % P.K ≤ W then i + (P.ackNum c + P.K - i % P.K) % P.K else i)
          (P.passed W (l.map fun n => (P.ack (n % P.K)).call)) (P.ack (a % P.K)).call := by
      unfold Numbering.passed
      rw [List.map_append, List.foldl_append]
      rfl
    have hK := hP.two
    rw [e, ih]
    simp only
    rw [hP.ackNum _ (Nat.mod_lt _ (by omega)), difference hW h1 h2, if_pos (by omega), lastOr_snoc]
    omega

/-! ### The invariant -/

/-- The messages transmitted, those handled, each with the number acknowledged when it was transmitted, and the answers handled. -/
structure Numbering.WInv (P : Numbering) (W : Nat) (s : Exchange) (x h : List (Nat × Nat)) (r : List Nat) : Prop where
  tx : s.tx = x.map Prod.fst
  fb : s.fb.length = x.length
  fa : s.fa.length = h.length
  hb : s.hb = (h.map Prod.fst).map fun i => (P.data i).call
  ha : s.ha = r.map fun n => (P.ack (n % P.K)).call
  hp : h <+: pick s.fb x
  rp : r <+: pick s.fa (heights (h.map Prod.fst))
  win : ∀ y ∈ x, y.2 ≤ y.1 ∧ y.1 < y.2 + W
  sorted : x.Pairwise fun y z => y.2 ≤ z.2
  low : ∀ y ∈ x, y.2 ≤ lastOr r
  near : Near W (h.map Prod.fst)
  steps : Steps W r

theorem Numbering.WInv.acked_le {P : Numbering} {W : Nat} {s : Exchange} {x h : List (Nat × Nat)} {r : List Nat} (I : P.WInv W s x h r) :
    lastOr r ≤ risen (h.map Prod.fst) := by
  rcases lastOr_mem r with e | e
  · omega
  · exact heights_le ((I.rp.sublist.trans (pick_sublist _ _)).subset e)

theorem Numbering.WInv.le_acked {P : Numbering} {W : Nat} {s : Exchange} {x h : List (Nat × Nat)} {r : List Nat} (I : P.WInv W s x h r) :
    risen (h.map Prod.fst) ≤ lastOr r + W := by
  refine risen_bound fun t ht => ?_
  obtain ⟨y, hy, rfl⟩ := List.mem_map.mp ht
  have hx := (I.hp.sublist.trans (pick_sublist _ _)).subset hy
  have := (I.win y hx).2
  have := I.low y hx
  omega

/-- What is needed of a step: each program has handled the first ones of the messages sent to it that arrive whole. -/
inductive Numbering.Moves (P : Numbering) (W : Nat) : Exchange → Exchange → Prop
  | transmit {s : Exchange} {i : Nat} (whole : Bool) (h1 : P.passed W s.ha ≤ i) (h2 : i < P.passed W s.ha + W) :
      P.Moves W s { s with tx := s.tx ++ [i], fb := s.fb ++ [whole] }
  | receive {s : Exchange} {hb : List Call} {more : List Bool} (hp : hb <+: pick s.fb (s.tx.map fun i => (P.data i).call))
      (hl : s.hb.length + more.length = hb.length) : P.Moves W s { s with hb := hb, fa := s.fa ++ more }
  | answer {s : Exchange} {ha : List Call} (hp : ha <+: pick s.fa ((P.counts s.hb).map fun n => (P.ack (n % P.K)).call))
      (hl : s.ha.length ≤ ha.length) : P.Moves W s { s with ha := ha }

/-- Any number of such steps. -/
inductive Numbering.Moved (P : Numbering) (W : Nat) : Exchange → Prop
  | start : P.Moved W .none
  | next {s s' : Exchange} (h : P.Moved W s) (hn : P.Moves W s s') : P.Moved W s'

theorem Numbering.Slides.moves {P : Numbering} (hP : P.Ok) {W : Nat} {s s' : Exchange} (hn : P.Slides W s s') : P.Moves W s s' := by
  cases hn with
  | transmit whole h1 h2 => exact .transmit whole h1 h2
  | @receive X bytes more hX hC hb hf hl =>
    have hgood : ∀ q ∈ s.tx.map P.data, q.Good X.C := by
      intro q hq
      obtain ⟨i, _, rfl⟩ := List.mem_map.mp hq
      rw [hC]
      exact hP.data i
    have hp := Link.soFar (k := ⟨X, s.fb⟩) hX hgood hb hf
    rw [List.map_map] at hp
    exact .receive hp hl
  | @answer Y bytes hY hD hb hf hl =>
    have hgood : ∀ q ∈ (P.counts s.hb).map (fun n => P.ack (n % P.K)), q.Good Y.C := by
      intro q hq
      obtain ⟨i, _, rfl⟩ := List.mem_map.mp hq
      rw [hD]
      exact hP.ack _ (Nat.mod_lt _ (by have := hP.two; omega))
    have hp := Link.soFar (k := ⟨Y, s.fa⟩) hY hgood hb hf
    rw [List.map_map] at hp
    exact .answer hp hl

theorem Numbering.Window.moved {P : Numbering} (hP : P.Ok) {W : Nat} {s : Exchange} (hg : P.Window W s) : P.Moved W s := by
  induction hg with
  | start => exact .start
  | next _ hn ih => exact ih.next (hn.moves hP)

theorem Numbering.Moves.inv {P : Numbering} (hP : P.Ok) {W : Nat} (hW : W < P.K) {s s' : Exchange} {x h : List (Nat × Nat)}
    {r : List Nat} (I : P.WInv W s x h r) (hn : P.Moves W s s') :
    ∃ x' h' r', P.WInv W s' x' h' r' ∧ lastOr r ≤ lastOr r' := by
  cases hn with
  | @transmit i whole h1 h2 =>
    have hd : P.passed W s.ha = lastOr r := by rw [I.ha, hP.passed_steps hW I.steps]
    rw [hd] at h1 h2
    refine ⟨x ++ [(i, lastOr r)], h, r, ⟨?_, ?_, I.fa, I.hb, I.ha, ?_, I.rp, ?_, ?_, ?_, I.near, I.steps⟩, Nat.le_refl _⟩
    · simp [I.tx]
    · simp [I.fb]
    · exact I.hp.trans (by rw [pick_append _ _ _ _ I.fb]; exact List.prefix_append _ _)
    · intro y hy
      rcases List.mem_append.mp hy with hy | hy
      · exact I.win y hy
      · rw [List.mem_singleton.mp hy]
        exact ⟨h1, h2⟩
    · refine List.pairwise_append.mpr ⟨I.sorted, by simp, fun y hy z hz => ?_⟩
      rw [List.mem_singleton.mp hz]
      exact I.low y hy
    · intro y hy
      rcases List.mem_append.mp hy with hy | hy
      · exact I.low y hy
      · rw [List.mem_singleton.mp hy]
        exact Nat.le_refl _
  | @receive hb' more hp hl =>
    rw [I.tx, List.map_map, pick_map] at hp
    have hp' := prefix_map hp
    generalize hh : (pick s.fb x).take hb'.length = h' at hp'
    have hpre : h' <+: pick s.fb x := by rw [← hh]; exact List.take_prefix _ _
    have hlen : h'.length = hb'.length := by rw [hp', List.length_map]
    have hlh : s.hb.length = h.length := by rw [I.hb, List.length_map, List.length_map]
    obtain ⟨q, rfl⟩ := prefix_of_le I.hp hpre (by omega)
    have hsub := hpre.sublist.trans (pick_sublist s.fb x)
    refine ⟨x, h ++ q, r, ⟨I.tx, I.fb, ?_, ?_, I.ha, hpre, ?_, I.win, I.sorted, I.low, ?_, I.steps⟩, Nat.le_refl _⟩
    · have := I.fa
      simp only [List.length_append] at hlen ⊢
      omega
    · rw [List.map_map]
      exact hp'
    · obtain ⟨t, ht⟩ := heights_append (h.map Prod.fst) (q.map Prod.fst)
      rw [List.map_append, ht, pick_append _ _ _ _ (by rw [heights_length, List.length_map]; exact I.fa)]
      exact I.rp.trans (List.prefix_append _ _)
    · refine near_append I.near (fun y hy => I.win y (hsub.subset hy)) (I.sorted.sublist hsub) fun y hy => ?_
      exact Nat.le_trans (I.low y (hsub.subset (by simp [hy]))) I.acked_le
  | @answer ha' hp hl =>
    rw [I.hb, hP.counts_near hW I.near, pick_map] at hp
    have hp' := prefix_map hp
    generalize hh : (pick s.fa (heights (h.map Prod.fst))).take ha'.length = r' at hp'
    have hpre : r' <+: pick s.fa (heights (h.map Prod.fst)) := by rw [← hh]; exact List.take_prefix _ _
    have hlen : r'.length = ha'.length := by rw [hp', List.length_map]
    have hlr : s.ha.length = r.length := by rw [I.ha, List.length_map]
    obtain ⟨q, rfl⟩ := prefix_of_le I.rp hpre (by omega)
    have hsub := hpre.sublist.trans (pick_sublist s.fa _)
    have hsort := (heights_sorted _).sublist hsub
    exact ⟨x, h, r ++ q, ⟨I.tx, I.fb, I.fa, I.hb, hp', I.hp, hpre, I.win, I.sorted,
      fun y hy => Nat.le_trans (I.low y hy) (lastOr_mono hsort), I.near, steps_append I.steps hsort fun a ha =>
        Nat.le_trans (heights_le (hsub.subset (by simp [ha]))) I.le_acked⟩, lastOr_mono hsort⟩

theorem Numbering.Moved.inv {P : Numbering} (hP : P.Ok) {W : Nat} (hW : W < P.K) {s : Exchange} (hg : P.Moved W s) :
    ∃ x h r, P.WInv W s x h r := by
  induction hg with
  | start =>
    exact ⟨[], [], [], rfl, rfl, rfl, rfl, rfl, List.nil_prefix, List.nil_prefix, by simp, List.Pairwise.nil, by simp,
      Splits.nil _, Splits.nil _⟩
  | next _ hn ih =>
    obtain ⟨x, h, r, I⟩ := ih
    obtain ⟨x', h', r', I', _⟩ := hn.inv hP hW I
    exact ⟨x', h', r', I'⟩

/-- The number of acknowledged messages does not decrease. -/
theorem Numbering.Moves.passed_le {P : Numbering} (hP : P.Ok) {W : Nat} (hW : W < P.K) {s s' : Exchange} (hg : P.Moved W s)
    (hn : P.Moves W s s') : P.passed W s.ha ≤ P.passed W s'.ha := by
  obtain ⟨x, h, r, I⟩ := hg.inv hP hW
  obtain ⟨x', h', r', I', hl⟩ := hn.inv hP hW I
  rw [I.ha, hP.passed_steps hW I.steps, I'.ha, hP.passed_steps hW I'.steps]
  exact hl

theorem Numbering.Moved.once {P : Numbering} (hP : P.Ok) {W : Nat} (hW : W < P.K) {s : Exchange} (hg : P.Moved W s) :
    ∃ n, P.taken s.hb = (List.range n).map (fun i => (P.data i).call) ∧ P.passed W s.ha ≤ n ∧ n ≤ P.passed W s.ha + W := by
  obtain ⟨x, h, r, I⟩ := hg.inv hP hW
  refine ⟨risen (h.map Prod.fst), ?_, ?_, ?_⟩
  · rw [I.hb, hP.taken_near hW I.near]
  · rw [I.ha, hP.passed_steps hW I.steps]
    exact I.acked_le
  · rw [I.ha, hP.passed_steps hW I.steps]
    exact I.le_acked

/-- C141. At any time the receiving program has taken for new exactly the first so many messages, once each and in order, namely
those which the sending program takes for delivered and at most `W` more. -/
theorem C141_once {P : Numbering} (hP : P.Ok) {W : Nat} (hW : W < P.K) {s : Exchange} (hg : P.Window W s) :
    ∃ n, P.taken s.hb = (List.range n).map (fun i => (P.data i).call) ∧ P.passed W s.ha ≤ n ∧ n ≤ P.passed W s.ha + W :=
  (hg.moved hP).once hP hW

theorem pick_length_eq {α β : Type} : ∀ (fl : List Bool) {l : List α} {l' : List β}, l.length = l'.length →
    (pick fl l).length = (pick fl l').length
  | [], _, _, h => h
  | _ :: _, [], [], _ => rfl
  | _ :: _, [], _ :: _, h => by simp at h
  | _ :: _, _ :: _, [], h => by simp at h
  | true :: fl, _ :: _, _ :: _, h => by simp [pick, pick_length_eq fl (Nat.succ.inj h)]
  | false :: fl, _ :: _, _ :: _, h => pick_length_eq fl (Nat.succ.inj h)

theorem Numbering.Moved.settled {P : Numbering} (hP : P.Ok) {W : Nat} (hW : W < P.K) {s : Exchange} (hg : P.Moved W s)
    (h3 : s.fa.getLast? = some true) (h4 : s.ha.length = (pick s.fa s.hb).length) : P.passed W s.ha = (P.taken s.hb).length := by
  obtain ⟨x, h, r, I⟩ := hg.inv hP hW
  rw [I.hb, hP.taken_near hW I.near, List.length_map, List.length_range, I.ha, hP.passed_steps hW I.steps]
  have e2 : r = pick s.fa (heights (h.map Prod.fst)) := I.rp.eq_of_length (by
    have h5 : s.ha.length = r.length := by rw [I.ha, List.length_map]
    rw [← h5, h4, I.hb, pick_map, List.length_map]
    refine pick_length_eq _ ?_
    rw [heights_length])
  obtain ⟨f', hf'⟩ := List.getLast?_eq_some_iff.mp h3
  have hfa := I.fa
  cases hh : h using list_snoc_induction with
  | h0 => rw [hh, hf'] at hfa; simp at hfa
  | hs h' y =>
    rw [hh] at e2 hfa
    rw [hf'] at e2 hfa
    rw [List.map_append, List.map_singleton, heights_snoc, pick_append _ _ _ _ (by
      rw [heights_length, List.length_map]
      simpa using hfa)] at e2
    rw [e2]
    simp [pick, lastOr]

/-- C141. When the last answer has arrived whole and has been handled, the sending program knows how many messages have been
taken. -/
theorem C141_settled {P : Numbering} (hP : P.Ok) {W : Nat} (hW : W < P.K) {s : Exchange} (hg : P.Window W s)
    (h3 : s.fa.getLast? = some true) (h4 : s.ha.length = (pick s.fa s.hb).length) : P.passed W s.ha = (P.taken s.hb).length :=
  (hg.moved hP).settled hP hW h3 h4

theorem Numbering.Moved.progress {P : Numbering} (hP : P.Ok) {W : Nat} (hW : W < P.K) {s : Exchange} (hg : P.Moved W s) {i : Nat}
    (hi : s.tx.getLast? = some i) (h1 : s.fb.getLast? = some true) (h2 : s.hb.length = (pick s.fb s.tx).length)
    (h3 : s.fa.getLast? = some true) (h4 : s.ha.length = (pick s.fa s.hb).length) (h5 : i ≤ P.passed W s.ha) :
    i < P.passed W s.ha := by
  rw [hg.settled hP hW h3 h4] at h5 ⊢
  obtain ⟨x, h, r, I⟩ := hg.inv hP hW
  rw [I.hb, hP.taken_near hW I.near, List.length_map, List.length_range] at h5 ⊢
  have e1 : h = pick s.fb x := I.hp.eq_of_length (by
    rw [I.hb, I.tx, List.length_map, List.length_map, pick_map, List.length_map] at h2
    exact h2)
  obtain ⟨l', hl'⟩ := List.getLast?_eq_some_iff.mp hi
  obtain ⟨f', hf'⟩ := List.getLast?_eq_some_iff.mp h1
  have hfb := I.fb
  have e2 : h.map Prod.fst = pick f' l' ++ [i] := by
    rw [e1, ← pick_map, ← I.tx, hl', hf', pick_append _ _ _ _ (by
      have : s.fb.length = s.tx.length := by rw [I.tx, List.length_map]; exact hfb
      rw [hl', hf'] at this
      simpa using this)]
    simp [pick]
  rw [e2, risen_snoc] at h5 ⊢
  split <;> split at h5 <;> omega

/-- C141. If the last transmission is not of a message ahead of the first one that is not acknowledged, it arrives whole, everything
that arrives has been handled, and the last answer arrives whole and has been handled too, then that message is acknowledged. -/
theorem C141_progress {P : Numbering} (hP : P.Ok) {W : Nat} (hW : W < P.K) {s : Exchange} (hg : P.Window W s) {i : Nat}
    (hi : s.tx.getLast? = some i) (h1 : s.fb.getLast? = some true) (h2 : s.hb.length = (pick s.fb s.tx).length)
    (h3 : s.fa.getLast? = some true) (h4 : s.ha.length = (pick s.fa s.hb).length) (h5 : i ≤ P.passed W s.ha) :
    i < P.passed W s.ha :=
  (hg.moved hP).progress hP hW hi h1 h2 h3 h4 h5

/-! ### An exchange that goes on forever -/

/-- At time `k` the last transmission is one of the first message that was not acknowledged at time `n` or became the first one
since; it has arrived whole, and so has the answer to it, and everything that has arrived has been handled. -/
structure Numbering.Round (P : Numbering) (W : Nat) (st : Nat → Exchange) (n k i : Nat) : Prop where
  last : (st k).tx.getLast? = some i
  after : P.passed W (st n).ha ≤ i
  first : i ≤ P.passed W (st k).ha
  whole : (st k).fb.getLast? = some true
  handled : (st k).hb.length = (pick (st k).fb (st k).tx).length
  answered : (st k).fa.getLast? = some true
  known : (st k).ha.length = (pick (st k).fa (st k).hb).length

theorem Numbering.moves_eventually {P : Numbering} (hP : P.Ok) {W : Nat} (hW : W < P.K) {st : Nat → Exchange} (h0 : st 0 = .none)
    (hs : ∀ n, P.Moves W (st n) (st (n + 1))) (hr : ∀ n, ∃ k i, n ≤ k ∧ P.Round W st n k i) (i : Nat) :
    ∃ n, ∀ k, n ≤ k → i < P.passed W (st k).ha ∧ (P.taken (st k).hb)[i]? = some (P.data i).call := by
  have hg : ∀ n, P.Moved W (st n) := by
    intro n
    induction n with
    | zero => rw [h0]; exact .start
    | succ n ih => exact ih.next (hs n)
  have hm : ∀ n d, P.passed W (st n).ha ≤ P.passed W (st (n + d)).ha := by
    intro n d
    induction d with
    | zero => exact Nat.le_refl _
    | succ d ih => exact Nat.le_trans ih ((hs (n + d)).passed_le hP hW (hg (n + d)))
  obtain ⟨n, hn⟩ : ∃ n, i < P.passed W (st n).ha := by
    have hstep : ∀ n, ∃ k, P.passed W (st n).ha < P.passed W (st k).ha := by
      intro n
      obtain ⟨k, j, _, R⟩ := hr n
      exact ⟨k, Nat.lt_of_le_of_lt R.after ((hg k).progress hP hW R.last R.whole R.handled R.answered R.known R.first)⟩
    induction i with
    | zero =>
      obtain ⟨k, hk⟩ := hstep 0
      exact ⟨k, by omega⟩
    | succ i ih =>
      obtain ⟨n, hn⟩ := ih
      obtain ⟨k, hk⟩ := hstep n
      exact ⟨k, by omega⟩
  refine ⟨n, fun k hk => ?_⟩
  obtain ⟨d, rfl⟩ := Nat.exists_eq_add_of_le hk
  have h1 := hm n d
  obtain ⟨c, e, h2, _⟩ := (hg (n + d)).once hP hW
  refine ⟨by omega, ?_⟩
  rw [e, List.getElem?_map, List.getElem?_range (by omega)]
  rfl

/-- C141. In an exchange that goes on forever and in which this happens again and again, every message is taken for new at some time,
in its place, and acknowledged. -/
theorem C141_eventually {P : Numbering} (hP : P.Ok) {W : Nat} (hW : W < P.K) {st : Nat → Exchange} (h0 : st 0 = .none)
    (hs : ∀ n, P.Slides W (st n) (st (n + 1))) (hr : ∀ n, ∃ k i, n ≤ k ∧ P.Round W st n k i) (i : Nat) :
    ∃ n, ∀ k, n ≤ k → i < P.passed W (st k).ha ∧ (P.taken (st k).hb)[i]? = some (P.data i).call :=
  Numbering.moves_eventually hP hW h0 (fun n => (hs n).moves hP) hr i

/-- An exchange that goes on forever, if messages and answers can be transmitted one by one and handled at once. -/
theorem Numbering.steady {P : Numbering} (hP : P.Ok) {W : Nat} (hW1 : 1 ≤ W) (hW : W < P.K) {R : Exchange → Exchange → Prop}
    (ht : ∀ {s : Exchange} {i : Nat}, P.passed W s.ha ≤ i → i < P.passed W s.ha + W →
      R s { s with tx := s.tx ++ [i], fb := s.fb ++ [true] })
    (hrc : ∀ {s : Exchange} (n : Nat), s.tx = List.range n → s.fb = List.replicate n true → s.hb.length + 1 = n →
      R s { s with hb := (List.range n).map (fun i => (P.data i).call), fa := s.fa ++ [true] })
    (han : ∀ {s : Exchange} (n : Nat), ((P.counts s.hb).map fun k => P.ack (k % P.K)) = ((List.range n).map fun i => P.ack ((i + 1) % P.K)) →
      s.fa = List.replicate n true → s.ha.length ≤ n → R s { s with ha := (List.range n).map fun i => (P.ack ((i + 1) % P.K)).call }) :
    ∃ st : Nat → Exchange, st 0 = .none ∧ (∀ n, R (st n) (st (n + 1))) ∧ ∀ n, ∃ k i, n ≤ k ∧ P.Round W st n k i := by
  have hnear : ∀ q, Near W (List.range q) := by
    intro q
    induction q with
    | zero => exact Splits.nil _
    | succ q ih =>
      rw [List.range_succ]
      exact Splits.snoc ih (by rw [risen_range]; omega)
  have hheights : ∀ q, heights (List.range q) = (List.range q).map (· + 1) := by
    intro q
    induction q with
    | zero => rfl
    | succ q ih => rw [List.range_succ, heights_snoc, ih, ← List.range_succ, risen_range, List.range_succ, List.map_append]; rfl
  have hlast : ∀ q, lastOr ((List.range q).map (· + 1)) = q := by
    intro q
    cases q with
    | zero => rfl
    | succ q => rw [List.range_succ, List.map_append, List.map_singleton, lastOr_snoc]
  have hsteps : ∀ q, Steps W ((List.range q).map (· + 1)) := by
    intro q
    induction q with
    | zero => exact Splits.nil _
    | succ q ih =>
      rw [List.range_succ, List.map_append]
      refine Splits.snoc ih ?_
      rw [hlast]
      exact ⟨by simp, by simp; omega⟩
  have hpassed : ∀ q, P.passed W ((List.range q).map fun i => (P.ack ((i + 1) % P.K)).call) = q := by
    intro q
    have := hP.passed_steps hW (hsteps q)
    rw [List.map_map, hlast] at this
    exact this
  let st : Nat → Exchange := fun n => ⟨List.range ((n + 2) / 3), List.replicate ((n + 2) / 3) true,
    (List.range ((n + 1) / 3)).map (fun i => (P.data i).call), List.replicate ((n + 1) / 3) true,
    (List.range (n / 3)).map (fun i => (P.ack ((i + 1) % P.K)).call)⟩
  refine ⟨st, rfl, fun n => ?_, fun n => ⟨3 * (n + 1), n, by omega, ?_⟩⟩
  · obtain ⟨q, e⟩ : ∃ q, n = 3 * q ∨ n = 3 * q + 1 ∨ n = 3 * q + 2 := ⟨n / 3, by omega⟩
    rcases e with rfl | rfl | rfl
    · have e1 : (3 * q + 2) / 3 = q := by omega
      have e2 : (3 * q + 1 + 2) / 3 = q + 1 := by omega
      have e3 : (3 * q + 1) / 3 = q := by omega
      have e4 : 3 * q / 3 = q := by omega
      have hd : P.passed W (st (3 * q)).ha = q := by simp only [st, e4, hpassed]
      have := ht (s := st (3 * q)) (i := q) (by omega) (by omega)
      simp only [st, e1, e2, e3, e4, List.range_succ, List.replicate_succ'] at this ⊢
      exact this
    · have e1 : (3 * q + 1 + 2) / 3 = q + 1 := by omega
      have e2 : (3 * q + 1 + 1 + 2) / 3 = q + 1 := by omega
      have e3 : (3 * q + 1 + 1) / 3 = q := by omega
      have e5 : (3 * q + 1) / 3 = q := by omega
      have := hrc (s := st (3 * q + 1)) (q + 1) (by simp only [st, e1]) (by simp only [st, e1]) (by simp [st, e3])
      simp only [st, e1, e2, e3, e5, List.replicate_succ'] at this ⊢
      exact this
    · have e1 : (3 * q + 2 + 2) / 3 = q + 1 := by omega
      have e2 : (3 * q + 2 + 1 + 2) / 3 = q + 1 := by omega
      have e3 : (3 * q + 2 + 1) / 3 = q + 1 := by omega
      have e5 : (3 * q + 2) / 3 = q := by omega
      have := han (s := st (3 * q + 2)) (q + 1) (by
        simp only [st, e3]
        rw [hP.counts_near hW (hnear _), hheights, List.map_map]
        rfl) (by simp only [st, e3]) (by simp [st, e5])
      simp only [st, e1, e2, e3, e5] at this ⊢
      exact this
  · have e1 : (3 * (n + 1) + 2) / 3 = n + 1 := by omega
    have e2 : (3 * (n + 1) + 1) / 3 = n + 1 := by omega
    have e3 : 3 * (n + 1) / 3 = n + 1 := by omega
    refine ⟨?_, ?_, ?_, ?_, ?_, ?_, ?_⟩
    · simp only [st, e1, List.range_succ, List.getLast?_append]
      rfl
    · simp only [st, hpassed]
      omega
    · simp only [st, hpassed, e3]
      omega
    · simp only [st, e1, List.replicate_succ', List.getLast?_append]
      rfl
    · simp only [st, e1, e2, pick_all, List.length_map]
    · simp only [st, e2, List.replicate_succ', List.getLast?_append]
      rfl
    · simp only [st, e2, e3, pick_all, List.length_map]

/-- C141. Such exchanges exist, for every numbering and all programs whose handlers neither throw nor append. -/
theorem C141_possible {P : Numbering} (hP : P.Ok) {W : Nat} (hW1 : 1 ≤ W) (hW : W < P.K) {B B' : Build} {user user' : UserCode}
    (S : Setting P.C B user) (S' : Setting P.D B' user') (hq : Quiet user) (hq' : Quiet user') (hn : NeverThrows user)
    (hn' : NeverThrows user') (hi : P.C.messages.length ≤ 255) (hi' : P.D.messages.length ≤ 255) (h : Handler) :
    ∃ st : Nat → Exchange, st 0 = .none ∧ (∀ n, P.Slides W (st n) (st (n + 1))) ∧ ∀ n, ∃ k i, n ≤ k ∧ P.Round W st n k i := by
  refine Numbering.steady hP hW1 hW (fun h1 h2 => .transmit true h1 h2) (fun {s} n e1 e2 e3 => ?_) (fun {s} n e1 e2 e3 => ?_)
  · obtain ⟨X, hX, hC, _, _, hdel, bytes, hb, hf⟩ := stations S hq hn hi (Nat.lt_succ_self _) h hP.data n
    rw [← hdel]
    exact .receive hX hC (bytes := bytes) (by rw [e1]; exact hb) (by rw [e2]; exact hf) (by simp [hdel, e3])
  · obtain ⟨Y, hY, hD, _, _, hdel, bytes, hb, hf⟩ := stations S' hq' hn' hi' (Nat.lt_succ_self _) h
      (rs := fun i => P.ack ((i + 1) % P.K)) (fun i => hP.ack _ (Nat.mod_lt _ (by have := hP.two; omega))) n
    rw [← hdel]
    exact .answer hY hD (bytes := bytes) (by rw [e1]; exact hb) (by rw [e2]; exact hf) (by simp [hdel, e3])

/-! ### An exchange -/

/-- The number is contained in the only field, together with more; `K` numbers are used. -/
def someNumbers (K : Nat) : Numbering where
  K := K
  C := Sample.checked
  D := Sample.basic
  data i := ⟨Sample.checked, Sample.level, [⟨.uint8, [UInt8.ofNat (i % (K * 2))]⟩]⟩
  num c := match c.2 with
    | [[b]] => b.toNat % K
    | _ => K
  ack n := ⟨Sample.basic, Sample.level, [⟨.uint8, [UInt8.ofNat n]⟩]⟩
  ackNum c := match c.2 with
    | [[b]] => b.toNat
    | _ => K

theorem level_good (C : Collection) (h : Sendable C Sample.level [⟨.uint8, [0]⟩]) (b : Byte) :
    Request.Good C ⟨C, Sample.level, [⟨.uint8, [b]⟩]⟩ := by
  refine ⟨rfl, h, ?_⟩
  intro v hv
  simp only [List.mem_singleton] at hv
  subst hv
  rfl

theorem someNumbers_ok {K : Nat} (h1 : 2 ≤ K) (h2 : K ≤ 128) : (someNumbers K).Ok where
  two := h1
  data i := level_good Sample.checked (by decide) _
  num i := by
    show (UInt8.ofNat (i % (K * 2))).toNat % K = i % K
    have : i % (K * 2) < K * 2 := Nat.mod_lt _ (by omega)
    rw [UInt8.toNat_ofNat', Nat.mod_eq_of_lt (by omega : i % (K * 2) < 2 ^ 8), Nat.mod_mul_right_mod]
  ack n _ := level_good Sample.basic (by decide) _
  ackNum n hn := by
    show (UInt8.ofNat n).toNat = n
    have hn : n < K := hn
    rw [UInt8.toNat_ofNat', Nat.mod_eq_of_lt (by omega)]

/-- Messages 0 and 1 are transmitted at once. Both arrive; the first answer is lost, the second acknowledges both. At this moment the
conditions of `C141_progress` are met. Then message 3 is transmitted before message 2. -/
example : (∃ s : Exchange, (someNumbers 3).Window 2 s ∧ s.tx.getLast? = some 1 ∧ s.fb.getLast? = some true ∧
      s.hb.length = (pick s.fb s.tx).length ∧ s.fa.getLast? = some true ∧ s.ha.length = (pick s.fa s.hb).length ∧
      (someNumbers 3).passed 2 s.ha = 2) ∧
    ∃ s : Exchange, (someNumbers 3).Window 2 s ∧ s.tx = [0, 1, 3] := by
  let m0 : Msg := ⟨1, [0]⟩
  let m1 : Msg := ⟨1, [1]⟩
  let m2 : Msg := ⟨1, [2]⟩
  obtain ⟨w1, os1, k1, p1, f1⟩ := station_of Sample.setting_checked (by decide)
    ([.setHandler Sample.h0, .append (frame .basicChecksum m0), .append (frame .basicChecksum m1)] ++ [.process]) (by simp)
    (fun w => decide (delivered w = [(Sample.level, [[0]]), (Sample.level, [[1]])])) (Sample.reached (fun w _ => _) (by decide +kernel))
  obtain ⟨w2, os2, k2, p2, f2⟩ := station_of Sample.setting_basic (by decide)
    ([.setHandler Sample.h0, .append (frame .basic m2)] ++ [.process]) (by simp)
    (fun w => decide (delivered w = [(Sample.level, [[2]])])) (Sample.reached (fun w _ => _) (by decide +kernel))
  simp only [decide_eq_true_eq] at p1 p2
  have i0 : IsMsg Sample.checked m0 := by decide +kernel
  have i1 : IsMsg Sample.checked m1 := by decide +kernel
  have b1 : IsMsg Sample.basic m1 := by decide +kernel
  have b2 : IsMsg Sample.basic m2 := by decide +kernel
  have g1 : (someNumbers 3).Window 2 ⟨[0, 1], [true, true], [], [], []⟩ :=
    (Numbering.Window.start.next (.transmit (i := 0) true (by decide) (by decide))).next (.transmit (i := 1) true (by decide) (by decide))
  have g2 : (someNumbers 3).Window 2 ⟨[0, 1], [true, true], delivered w1, [false, true], []⟩ :=
    g1.next (.receive (bytes := frames .basicChecksum [m0, m1]) (more := [false, true]) k1 rfl (carried_vector (by decide +kernel))
      (partFed_of [m0, m1] (by simp [i0, i1]) (.whole i0 (.whole i1 .nil)) (f1.trans (by decide +kernel))) (by
        show 0 + 2 = (delivered w1).length
        rw [p1]; rfl))
  have g3 : (someNumbers 3).Window 2 ⟨[0, 1], [true, true], delivered w1, [false, true], delivered w2⟩ :=
    g2.next (.answer (bytes := frames .basic [m1, m2]) k2 rfl (carried_vector (by
        show sendAll vectorBuffer [] (((someNumbers 3).counts (delivered w1)).map fun n => (someNumbers 3).ack (n % 3)) = _
        rw [p1]; decide +kernel))
      (partFed_of [m1, m2] (by simp [b1, b2]) (.gone b1 (.whole b2 .nil)) (f2.trans (by decide +kernel))) (Nat.zero_le _))
  have hp : (someNumbers 3).passed 2 (delivered w2) = 2 := by rw [p2]; decide +kernel
  refine ⟨⟨_, g3, rfl, rfl, ?_, rfl, ?_, hp⟩, _, g3.next (.transmit (i := 3) true ?_ ?_), rfl⟩
  · show (delivered w1).length = 2
    rw [p1]; rfl
  · show (delivered w2).length = (pick [false, true] (delivered w1)).length
    rw [p1, p2]; rfl
  · show (someNumbers 3).passed 2 (delivered w2) ≤ 3
    omega
  · show 3 < (someNumbers 3).passed 2 (delivered w2) + 2
    omega

/-- With three numbers and two messages on their way; message 7 is taken. -/
example : ∃ st : Nat → Exchange, (∀ n, (someNumbers 3).Slides 2 (st n) (st (n + 1))) ∧
    ∃ k, ((someNumbers 3).taken (st k).hb)[7]? = some (Sample.level, [[1]]) := by
  have hP := someNumbers_ok (K := 3) (by decide) (by decide)
  obtain ⟨st, h0, hs, hr⟩ := C141_possible hP (W := 2) (by decide) (by decide) (B := Sample.dbg) (B' := Sample.dbg) Sample.setting_checked
    Sample.setting_basic Sample.passive_quiet Sample.passive_quiet Sample.passive_neverThrows Sample.passive_neverThrows (by decide)
    (by decide) Sample.h0
  obtain ⟨k, hk⟩ := C141_eventually hP (by decide) h0 hs hr 7
  exact ⟨st, hs, k, (hk k (Nat.le_refl _)).2.trans (by decide +kernel)⟩

/-- C141. As many numbers as messages on their way are not enough: both messages are taken, and the first one, transmitted again
because no answer has come, is taken for the third one. -/
theorem C141_numbers_needed : (someNumbers 2).Ok ∧ ∃ s, (someNumbers 2).Window 2 s ∧
    ∀ n, (someNumbers 2).taken s.hb ≠ (List.range n).map fun i => ((someNumbers 2).data i).call := by
  refine ⟨someNumbers_ok (by decide) (by decide), ?_⟩
  let m0 : Msg := ⟨1, [0]⟩
  let m1 : Msg := ⟨1, [1]⟩
  obtain ⟨w1, os1, k1, p1, f1⟩ := station_of Sample.setting_checked (by decide)
    ([.setHandler Sample.h0, .append (frame .basicChecksum m0), .append (frame .basicChecksum m1),
      .append (frame .basicChecksum m0)] ++ [.process]) (by simp)
    (fun w => decide (delivered w = [(Sample.level, [[0]]), (Sample.level, [[1]]), (Sample.level, [[0]])]))
    (Sample.reached (fun w _ => _) (by decide +kernel))
  simp only [decide_eq_true_eq] at p1
  have i0 : IsMsg Sample.checked m0 := by decide +kernel
  have i1 : IsMsg Sample.checked m1 := by decide +kernel
  have g1 : (someNumbers 2).Window 2 ⟨[0, 1, 0], [true, true, true], [], [], []⟩ :=
    ((Numbering.Window.start.next (.transmit (i := 0) true (by decide) (by decide))).next
      (.transmit (i := 1) true (by decide) (by decide))).next (.transmit (i := 0) true (by decide) (by decide))
  have g2 : (someNumbers 2).Window 2 ⟨[0, 1, 0], [true, true, true], delivered w1, [false, false, false], []⟩ :=
    g1.next (.receive (bytes := frames .basicChecksum [m0, m1, m0]) (more := [false, false, false]) k1 rfl (carried_vector (by decide +kernel))
      (partFed_of [m0, m1, m0] (by simp [i0, i1]) (.whole i0 (.whole i1 (.whole i0 .nil))) (f1.trans (by decide +kernel))) (by
        show 0 + 3 = (delivered w1).length
        rw [p1]; rfl))
  refine ⟨_, g2, fun n e => ?_⟩
  have e' : (someNumbers 2).taken (delivered w1) = (List.range n).map fun i => ((someNumbers 2).data i).call := e
  rw [p1, show (someNumbers 2).taken [(Sample.level, [[0]]), (Sample.level, [[1]]), (Sample.level, [[0]])] =
    [(Sample.level, [[0]]), (Sample.level, [[1]]), (Sample.level, [[0]])] by decide +kernel] at e'
  have hn : n = 3 := by
    have := congrArg List.length e'
    simpa using this.symm
  subst hn
  revert e'
  decide +kernel

end TT.Properties
