import Verif.Spec.Overloads

/-!
# Helper lemmas: overload resolution
-/

namespace TT
open Spec

/-- The outcome if `c` is chosen. -/
def Candidate.chosen (c : Candidate) : Resolution :=
  match c.fn with
  | some o => .call o
  | none => .default

theorem zip_le {as bs : List Nat} (hl : as.length = bs.length)
    (h1 : (List.zipWith (fun a b => decide (a ≤ b)) as bs).all id = true)
    (h2 : (List.zipWith (fun a b => decide (a ≤ b)) bs as).all id = true) : as = bs := by
  induction as generalizing bs with
  | nil => cases bs with
    | nil => rfl
    | cons b bs => simp at hl
  | cons a as ih => cases bs with
    | nil => simp at hl
    | cons b bs =>
      simp only [List.zipWith_cons_cons, List.all_cons, id, Bool.and_eq_true,
        decide_eq_true_eq] at h1 h2
      rw [ih (by simpa using hl) h1.2 h2.2, Nat.le_antisymm h1.1 h2.1]

theorem zip_lt_self (as : List Nat) :
    (List.zipWith (fun a b => decide (a < b)) as as).any id = false := by
  induction as with
  | nil => rfl
  | cons a as ih => simp [ih]

theorem better_asymm {c d : Candidate} (hl : c.ranks.length = d.ranks.length)
    (h : c.better d = true) : d.better c = false := by
  cases h2 : d.better c with
  | false => rfl
  | true =>
    unfold Candidate.better at h h2
    simp only [Bool.and_eq_true, Bool.or_eq_true] at h h2
    have e := zip_le hl h.1 h2.1
    rw [e, zip_lt_self] at h h2
    obtain ⟨_, h⟩ := h
    obtain ⟨_, h2⟩ := h2
    cases hc : c.fn <;> cases hd : d.fn <;> simp_all

theorem zeros_le (fs : List FieldType) : ∀ rs : List Nat,
    (List.zipWith (fun a b => decide (a ≤ b)) (fs.map fun _ => 0) rs).all id = true := by
  induction fs with
  | nil => intro rs; rfl
  | cons f fs ih => intro rs; cases rs with
    | nil => rfl
    | cons r rs => simpa using ih rs

theorem zeros_lt (fs : List FieldType) : ∀ rs : List Nat, rs.length = fs.length →
    (List.zipWith (fun a b => decide (a < b)) (fs.map fun _ => 0) rs).any id =
      !decide (rs = fs.map fun _ => 0) := by
  induction fs with
  | nil => intro rs h; cases rs with
    | nil => rfl
    | cons r rs => simp at h
  | cons f fs ih => intro rs h; cases rs with
    | nil => simp at h
    | cons r rs =>
      have := ih rs (by simpa using h)
      simp only [List.map_cons, List.zipWith_cons_cons, List.any_cons, id, this]
      by_cases h0 : r = 0
      · subst h0; simp
      · have : 0 < r := by omega
        simp [h0, this]

/-- The candidate with the defaults' ranks loses against nothing but an exact overload. -/
theorem exact_better {fs : List FieldType} {o : Overload} {d : Candidate}
    (hl : d.ranks.length = fs.length) (h : d.fn = none ∨ d.ranks ≠ fs.map fun _ => 0) :
    Candidate.better ⟨some o, fs.map fun _ => 0⟩ d = true := by
  unfold Candidate.better
  simp only [zeros_le, Bool.true_and, zeros_lt fs d.ranks hl]
  rcases h with h | h
  · simp [h]
  · simp [h]

theorem default_better {fs : List FieldType} {d : Candidate}
    (hl : d.ranks.length = fs.length) (h : d.ranks ≠ fs.map fun _ => 0) :
    Candidate.better ⟨none, fs.map fun _ => 0⟩ d = true := by
  unfold Candidate.better
  simp only [zeros_le, Bool.true_and, zeros_lt fs d.ranks hl]
  simp [h]

theorem not_better_exact {fs : List FieldType} {o : Overload} {d : Candidate}
    (hl : d.ranks.length = fs.length) :
    d.better ⟨some o, fs.map fun _ => 0⟩ = false := by
  by_cases h : d.fn = none ∨ d.ranks ≠ fs.map fun _ => 0
  · exact better_asymm (by simp [hl]) (exact_better hl h)
  · simp only [not_or, Decidable.not_not] at h
    unfold Candidate.better
    simp [h.2, zip_lt_self]

/-- The winner is chosen. -/
theorem resolve_winner {l1 l2 : List Candidate} {c : Candidate} {n : Nat}
    (hn : ∀ d ∈ l1 ++ c :: l2, d.ranks.length = n)
    (h : ∀ d ∈ l1 ++ l2, c.better d = true) : resolve (l1 ++ c :: l2) = c.chosen := by
  have hne : l1 ++ c :: l2 ≠ [] := by simp
  generalize hcs : l1 ++ c :: l2 = cs at hn hne
  have hget : cs[l1.length]? = some c := by rw [← hcs]; simp
  have hwin : ∀ j d, cs[j]? = some d → l1.length = j ∨ c.better d = true := by
    intro j d hj
    by_cases e : l1.length = j
    · exact Or.inl e
    · refine Or.inr (h d ?_)
      rw [← hcs] at hj
      rw [List.mem_append]
      by_cases hlt : j < l1.length
      · rw [List.getElem?_append_left hlt] at hj
        exact Or.inl (List.mem_of_getElem? hj)
      · rw [List.getElem?_append_right (by omega)] at hj
        have : j - l1.length = (j - l1.length - 1) + 1 := by omega
        rw [this, List.getElem?_cons_succ] at hj
        exact Or.inr (List.mem_of_getElem? hj)
  have key : cs.zipIdx.find? (fun c => cs.zipIdx.all fun d => decide (c.2 = d.2) || c.1.better d.1) =
      some (c, l1.length) := by
    cases hf : cs.zipIdx.find? (fun c => cs.zipIdx.all fun d => decide (c.2 = d.2) || c.1.better d.1) with
    | none =>
      have := List.find?_eq_none.mp hf (c, l1.length)
        (List.mem_zipIdx_iff_getElem?.mpr (by simpa using hget))
      refine absurd ?_ this
      rw [List.all_eq_true]
      rintro ⟨d, j⟩ hd
      have hj := List.mem_zipIdx_iff_getElem?.mp hd
      rcases hwin j d (by simpa using hj) with e | e <;> simp [e]
    | some x =>
      obtain ⟨x, i⟩ := x
      have hx := List.mem_of_find?_eq_some hf
      have hall := List.find?_some hf
      rw [List.all_eq_true] at hall
      have h1 := hall (c, l1.length) (List.mem_zipIdx_iff_getElem?.mpr (by simpa using hget))
      have hi : cs[i]? = some x := by simpa using List.mem_zipIdx_iff_getElem?.mp hx
      simp only [Bool.or_eq_true, decide_eq_true_eq] at h1
      have hlc : c.ranks.length = n := hn c (List.mem_of_getElem? hget)
      have hlx : x.ranks.length = n := hn x (List.mem_of_getElem? hi)
      rcases h1 with e | e
      · subst e; rw [hget] at hi; cases hi; rfl
      · rcases hwin i x hi with e' | e'
        · subst e'; rw [hget] at hi; cases hi; rfl
        · rw [better_asymm (by rw [hlc, hlx]) e'] at e
          cases e
  unfold resolve
  cases cs with
  | nil => exact absurd rfl hne
  | cons a as =>
    simp only
    rw [key]
    obtain ⟨fn, rs⟩ := c
    cases fn <;> rfl

/-- Two candidates that nothing beats: ambiguous. -/
theorem resolve_ambiguous {cs : List Candidate} {i j : Nat} {c d : Candidate} (hij : i ≠ j)
    (hc : cs[i]? = some c) (hd : cs[j]? = some d)
    (h1 : ∀ x ∈ cs, x.better c = false) (h2 : ∀ x ∈ cs, x.better d = false) :
    resolve cs = .ambiguous := by
  have key : cs.zipIdx.find? (fun c => cs.zipIdx.all fun d => decide (c.2 = d.2) || c.1.better d.1) =
      none := by
    rw [List.find?_eq_none]
    rintro ⟨x, k⟩ hx hall
    rw [List.all_eq_true] at hall
    have hk : cs[k]? = some x := by simpa using List.mem_zipIdx_iff_getElem?.mp hx
    have hxm := List.mem_of_getElem? hk
    have a := hall (c, i) (List.mem_zipIdx_iff_getElem?.mpr (by simpa using hc))
    have b := hall (d, j) (List.mem_zipIdx_iff_getElem?.mpr (by simpa using hd))
    simp only [h1 x hxm, h2 x hxm, Bool.or_false, decide_eq_true_eq] at a b
    exact hij (a.symm.trans b)
  unfold resolve
  cases cs with
  | nil => simp at hc
  | cons a as => simp only; rw [key]

theorem ranksOf_length {conv : Conversions} {ps : List Param} {fs : List FieldType} :
    ∀ {rs : List Nat}, ranksOf conv ps fs = some rs → rs.length = fs.length := by
  induction ps generalizing fs with
  | nil => intro rs h; cases fs with
    | nil => simp only [ranksOf, Option.some.injEq] at h; subst h; rfl
    | cons f fs => simp [ranksOf] at h
  | cons p ps ih => intro rs h; cases fs with
    | nil => simp [ranksOf] at h
    | cons f fs =>
      unfold ranksOf at h
      cases h1 : p.rank conv f with
      | none => simp [h1] at h
      | some r =>
        cases h2 : ranksOf conv ps fs with
        | none => simp [h1, h2] at h
        | some rs' =>
          simp only [h1, h2, Option.some.injEq] at h
          subst h
          simp [ih h2]

theorem rank_zero {conv : Conversions} {p : Param} {f : FieldType} :
    p.rank conv f = some 0 ↔ p.ty = f ∧ p.mode ≠ .mutRef := by
  unfold Param.rank
  cases p.mode <;> by_cases h : p.ty = f <;> simp [h] <;> cases conv f p.ty <;> simp

theorem ranksOf_zeros {conv : Conversions} {ps : List Param} {fs : List FieldType} :
    ranksOf conv ps fs = some (fs.map fun _ => 0) ↔
      ps.map (·.ty) = fs ∧ ∀ p ∈ ps, p.mode ≠ .mutRef := by
  induction ps generalizing fs with
  | nil => cases fs <;> simp [ranksOf]
  | cons p ps ih => cases fs with
    | nil => simp [ranksOf]
    | cons f fs =>
      unfold ranksOf
      have hr := rank_zero (conv := conv) (p := p) (f := f)
      have := ih (fs := fs)
      cases h1 : p.rank conv f with
      | none =>
        rw [h1] at hr
        simp only [reduceCtorEq, false_iff, not_and] at hr
        simp only [reduceCtorEq, false_iff, List.map_cons, List.cons.injEq, List.mem_cons,
          forall_eq_or_imp, not_and]
        rintro ⟨h2, _⟩ h3
        exact absurd h3 (hr h2)
      | some r =>
        rw [h1] at hr
        cases h2 : ranksOf conv ps fs with
        | none =>
          rw [h2] at this
          simp only [reduceCtorEq, false_iff, not_and] at this
          simp only [reduceCtorEq, false_iff, List.map_cons, List.cons.injEq, List.mem_cons,
            forall_eq_or_imp, not_and]
          rintro ⟨_, h3⟩ _
          exact this h3
        | some rs =>
          rw [h2] at this
          simp only [Option.some.injEq] at this hr
          simp only [List.map_cons, Option.some.injEq, List.cons.injEq, List.mem_cons,
            forall_eq_or_imp]
          rw [hr, this]
          constructor
          · rintro ⟨⟨a, b⟩, c, d⟩; exact ⟨⟨a, c⟩, b, d⟩
          · rintro ⟨⟨a, c⟩, b, d⟩; exact ⟨⟨a, b⟩, c, d⟩

theorem userCandidates_length {conv : Conversions} {os : List Overload} {m : MsgType} :
    ∀ d ∈ userCandidates conv os m, d.ranks.length = m.fields.length := by
  intro d hd
  unfold userCandidates at hd
  obtain ⟨o, _, h⟩ := List.mem_filterMap.mp hd
  split at h
  · obtain ⟨rs, h1, rfl⟩ := Option.map_eq_some_iff.mp h
    exact ranksOf_length h1
  · cases h

theorem userCandidates_exact {conv : Conversions} {os : List Overload} {m : MsgType}
    (h : ∀ o ∈ os, ¬ FitsExactly o m) :
    ∀ d ∈ userCandidates conv os m, d.ranks ≠ m.fields.map fun _ => 0 := by
  intro d hd e
  unfold userCandidates at hd
  obtain ⟨o, ho, h'⟩ := List.mem_filterMap.mp hd
  split at h'
  · rename_i hm
    obtain ⟨rs, h1, rfl⟩ := Option.map_eq_some_iff.mp h'
    simp only at e
    rw [e] at h1
    exact h o ho ⟨hm, ranksOf_zeros.mp h1⟩
  · cases h'

theorem userCandidates_append (conv : Conversions) (l1 l2 : List Overload) (m : MsgType) :
    userCandidates conv (l1 ++ l2) m = userCandidates conv l1 m ++ userCandidates conv l2 m := by
  unfold userCandidates; rw [List.filterMap_append]

theorem userCandidates_cons {conv : Conversions} {o : Overload} {os : List Overload} {m : MsgType}
    (h : FitsExactly o m) :
    userCandidates conv (o :: os) m =
      ⟨some o, m.fields.map fun _ => 0⟩ :: userCandidates conv os m := by
  unfold userCandidates
  rw [List.filterMap_cons, if_pos h.1, ranksOf_zeros.mpr h.2]
  rfl

/-- One exact overload: it is called, with or without the defaults. -/
theorem resolve_one {conv : Conversions} {os : List Overload} {m : MsgType} {o : Overload}
    (h : os.filter (FitsExactly · m) = [o]) {tail : List Candidate}
    (ht : ∀ d ∈ tail, d.fn = none ∧ d.ranks.length = m.fields.length) :
    resolve (userCandidates conv os m ++ tail) = .call o := by
  obtain ⟨l1, l2, rfl, h1, ho, h2⟩ := List.filter_eq_cons_iff.mp h
  have h2' : ∀ o ∈ l2, ¬ FitsExactly o m := by
    have := List.filter_eq_nil_iff.mp h2
    simpa using this
  have h1' : ∀ o ∈ l1, ¬ FitsExactly o m := by simpa using h1
  rw [userCandidates_append, userCandidates_cons (by simpa using ho), List.append_assoc,
    List.cons_append]
  refine resolve_winner (n := m.fields.length) ?_ ?_
  · intro d hd
    simp only [List.mem_append, List.mem_cons] at hd
    rcases hd with hd | rfl | hd | hd
    · exact userCandidates_length d hd
    · simp
    · exact userCandidates_length d hd
    · exact (ht d hd).2
  · intro d hd
    simp only [List.mem_append] at hd
    rcases hd with hd | hd | hd
    · exact exact_better (userCandidates_length d hd) (Or.inr (userCandidates_exact h1' d hd))
    · exact exact_better (userCandidates_length d hd) (Or.inr (userCandidates_exact h2' d hd))
    · exact exact_better (ht d hd).2 (Or.inl (ht d hd).1)

/-- Several exact overloads: ambiguous. -/
theorem resolve_many {conv : Conversions} {os : List Overload} {m : MsgType}
    (h : 2 ≤ (os.filter (FitsExactly · m)).length) {tail : List Candidate}
    (ht : ∀ d ∈ tail, d.ranks.length = m.fields.length) :
    resolve (userCandidates conv os m ++ tail) = .ambiguous := by
  cases he : os.filter (FitsExactly · m) with
  | nil => rw [he] at h; simp at h
  | cons o es =>
    obtain ⟨l1, l2, rfl, h1, ho, h2⟩ := List.filter_eq_cons_iff.mp he
    cases es with
    | nil => rw [he] at h; simp at h
    | cons o' es =>
      obtain ⟨l3, l4, rfl, h3, ho', h4⟩ := List.filter_eq_cons_iff.mp h2
      have hlen : ∀ d ∈ userCandidates conv (l1 ++ o :: (l3 ++ o' :: l4)) m ++ tail,
          d.ranks.length = m.fields.length := by
        intro d hd
        rcases List.mem_append.mp hd with hd | hd
        · exact userCandidates_length d hd
        · exact ht d hd
      have e : userCandidates conv (l1 ++ o :: (l3 ++ o' :: l4)) m ++ tail =
          userCandidates conv l1 m ++ (⟨some o, m.fields.map fun _ => 0⟩ ::
            (userCandidates conv l3 m ++ (⟨some o', m.fields.map fun _ => 0⟩ ::
              (userCandidates conv l4 m ++ tail)))) := by
        rw [userCandidates_append, userCandidates_cons (by simpa using ho), userCandidates_append,
          userCandidates_cons (by simpa using ho')]
        simp
      rw [e] at hlen ⊢
      generalize userCandidates conv l1 m = L1 at hlen ⊢
      generalize userCandidates conv l3 m = L3 at hlen ⊢
      generalize userCandidates conv l4 m ++ tail = L4 at hlen ⊢
      refine resolve_ambiguous (i := L1.length) (j := L1.length + 1 + L3.length)
        (c := ⟨some o, m.fields.map fun _ => 0⟩) (d := ⟨some o', m.fields.map fun _ => 0⟩)
        (by omega) (by simp) ?_ (fun x hx => not_better_exact (hlen x hx))
        (fun x hx => not_better_exact (hlen x hx))
      rw [List.getElem?_append_right (by omega)]
      have : L1.length + 1 + L3.length - L1.length = L3.length + 1 := by omega
      rw [this, List.getElem?_cons_succ]
      simp

/-- No exact overload: the default is called. -/
theorem resolve_default {conv : Conversions} {os : List Overload} {m : MsgType}
    (h : os.filter (FitsExactly · m) = []) :
    resolve (userCandidates conv os m ++ [⟨none, m.fields.map fun _ => 0⟩]) = .default := by
  have h' : ∀ o ∈ os, ¬ FitsExactly o m := by
    have := List.filter_eq_nil_iff.mp h
    simpa using this
  refine resolve_winner (c := ⟨none, m.fields.map fun _ => 0⟩) (n := m.fields.length) ?_ ?_
  · intro d hd
    simp only [List.mem_append, List.mem_cons, List.not_mem_nil, or_false] at hd
    rcases hd with hd | rfl
    · exact userCandidates_length d hd
    · simp
  · intro d hd
    simp only [List.append_nil] at hd
    exact default_better (userCandidates_length d hd) (userCandidates_exact h' d hd)

theorem rank_some {conv : Conversions} {p : Param} {f : FieldType} :
    p.rank conv f ≠ none ↔ p.mode ≠ .mutRef ∧ (p.ty = f ∨ conv f p.ty ≠ .impossible) := by
  unfold Param.rank
  cases p.mode <;> by_cases h : p.ty = f <;> simp [h] <;> cases conv f p.ty <;> simp

theorem ranksOf_some {conv : Conversions} {ps : List Param} {fs : List FieldType} :
    ranksOf conv ps fs ≠ none ↔ ps.length = fs.length ∧
      ∀ (i : Nat) (p : Param) (f : FieldType), ps[i]? = some p → fs[i]? = some f →
        p.mode ≠ .mutRef ∧ (p.ty = f ∨ conv f p.ty ≠ .impossible) := by
  induction ps generalizing fs with
  | nil => cases fs <;> simp [ranksOf]
  | cons p ps ih => cases fs with
    | nil => simp [ranksOf]
    | cons f fs =>
      have hr := rank_some (conv := conv) (p := p) (f := f)
      have := ih (fs := fs)
      have e : ranksOf conv (p :: ps) (f :: fs) ≠ none ↔
          p.rank conv f ≠ none ∧ ranksOf conv ps fs ≠ none := by
        simp only [ranksOf]
        cases p.rank conv f <;> cases ranksOf conv ps fs <;> simp
      rw [e, hr, this]
      constructor
      · rintro ⟨h1, h2, h3⟩
        refine ⟨by simp [h2], fun i q g hq hg => ?_⟩
        cases i with
        | zero => simp only [List.getElem?_cons_zero, Option.some.injEq] at hq hg; subst hq hg; exact h1
        | succ i => exact h3 i q g (by simpa using hq) (by simpa using hg)
      · rintro ⟨h1, h2⟩
        exact ⟨h2 0 p f rfl rfl, by simpa using h1, fun i q g hq hg =>
          h2 (i + 1) q g (by simpa using hq) (by simpa using hg)⟩

end TT
