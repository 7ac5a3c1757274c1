import Verif.Proofs.Overloads
import Verif.Properties.Reactions

/-!
# Property of overloads in handlers: C79
-/

namespace TT.Properties
open Spec

variable {C : Collection} {B : Build} {user : UserCode} {fuel : Nat}

/-! ### C79 -/

/-- C79. In a handler derived from `PartialHandlerBase` a message goes to the user's overload that is
declared with exactly the types of the fields, if there is one; to the empty default if there is
none, whatever overloads could be called with converted arguments; the class does not compile if
there are several. -/
theorem C79_partial_handler (conv : Conversions) (os : List Overload) {m : MsgType}
    (hm : m.fields.length ≤ 9) :
    resolvePartial conv os m = match os.filter (FitsExactly · m) with
      | [] => .default
      | [o] => .call o
      | _ => .ambiguous := by
  unfold resolvePartial defaultCandidates
  rw [if_pos hm]
  cases he : os.filter (FitsExactly · m) with
  | nil => exact resolve_default he
  | cons o es =>
    cases es with
    | nil => exact resolve_one he (by simp)
    | cons o' es => exact resolve_many (by rw [he]; simp) (by simp)

/-- C79. In a handler derived from `ParameterHandlerBase` only, the exact overload is called as well if
there is one. -/
theorem C79_parameter_exact (conv : Conversions) {os : List Overload} {m : MsgType} {o : Overload}
    (h : os.filter (FitsExactly · m) = [o]) : resolveParameter conv os m = .call o := by
  have := resolve_one (conv := conv) h (tail := []) (by simp)
  rwa [List.append_nil] at this

/-- C79. But there an overload with other parameter types is called, with converted arguments, if it is
the only one that can be. -/
theorem C79_parameter_converted (conv : Conversions) {l1 l2 : List Overload} {m : MsgType}
    {o : Overload} (ho : Callable conv o m)
    (h : ∀ o' ∈ l1 ++ l2, ¬ Callable conv o' m) :
    resolveParameter conv (l1 ++ o :: l2) m = .call o := by
  have hnone : ∀ l : List Overload, (∀ o' ∈ l, ¬ Callable conv o' m) →
      userCandidates conv l m = [] := by
    intro l hl
    unfold userCandidates
    rw [List.filterMap_eq_nil_iff]
    intro o' ho'
    split
    · rename_i hm
      cases hr : ranksOf conv o'.params m.fields with
      | none => rfl
      | some rs =>
        have := ranksOf_some.mp (by rw [hr]; simp)
        exact absurd ⟨hm, this.1, this.2⟩ (hl o' ho')
    · rfl
  have h1 := hnone l1 fun o' h' => h o' (by simp [h'])
  have h2 := hnone l2 fun o' h' => h o' (by simp [h'])
  unfold resolveParameter
  rw [userCandidates_append, h1, List.nil_append]
  have e : o :: l2 = [o] ++ l2 := rfl
  rw [e, userCandidates_append, h2, List.append_nil]
  unfold userCandidates
  rw [List.filterMap_cons, if_pos ho.1]
  cases hr : ranksOf conv o.params m.fields with
  | none => exact absurd hr (ranksOf_some.mpr ho.2)
  | some rs =>
    simp only [Option.map_some, List.filterMap_nil]
    have := resolve_winner (l1 := []) (l2 := []) (c := ⟨some o, rs⟩) (n := rs.length)
      (by simp) (by simp)
    simpa [Candidate.chosen] using this

/-- C79. When a handler class made from `PartialHandlerBase` compiles. -/
theorem C79_compiles (conv : Conversions) (os : List Overload)
    (ha : ∀ m ∈ C.messages, m.fields.length ≤ 9) :
    (∃ k, partialKind conv os C = some k) ↔
      ∀ m ∈ C.messages, (os.filter (FitsExactly · m)).length ≤ 1 := by
  have key : ∀ m ∈ C.messages, (resolvePartial conv os m).ok = true ↔
      (os.filter (FitsExactly · m)).length ≤ 1 := by
    intro m hm
    rw [C79_partial_handler conv os (ha m hm)]
    cases os.filter (FitsExactly · m) with
    | nil => simp [Resolution.ok]
    | cons o es => cases es <;> simp [Resolution.ok]
  unfold partialKind
  constructor
  · rintro ⟨k, hk⟩ m hm
    split at hk
    · rename_i h
      rw [List.all_eq_true] at h
      exact (key m hm).mp (h m hm)
    · cases hk
  · intro h
    refine ⟨_, if_pos ?_⟩
    rw [List.all_eq_true]
    exact fun m hm => (key m hm).mpr (h m hm)

/-- C79. On a stream: a handler derived from `PartialHandlerBase` with overloads `os` receives, in order,
exactly the messages for which it has an overload with exactly the fields' types. All others are
consumed and counted without any effect, also those with an overload that needs a conversion. -/
theorem C79_stream (S : Setting C B user) (hk : KeepsHandler user)
    (ha : ∀ m ∈ C.messages, m.fields.length ≤ 9)
    {conv : Conversions} {os : List Overload} {k : HandlerKind}
    (hkind : partialKind conv os C = some k) {ops : List Op}
    {w w' : World C} {obs : List Obs} {n : Byte} {obj : Nat}
    (h : Reached B user fuel ops w obs) (hc : currentHandler w = some ⟨k, obj⟩)
    (hp : w.processMessages B user fuel = .ok (w', .returned n)) :
    ∃ app ms, w'.fed = w.fed ++ app ∧ Decodes C (buffered w ++ app) ms (buffered w') ∧
      n = UInt8.ofNat ms.length ∧
      w'.userCalls = w.userCalls ++ ((ms.map (meaning C)).filter
          (fun c => decide (∃ o ∈ os, FitsExactly o c.1))).map
        (fun c => ⟨obj, c.1, c.2, true⟩) := by
  unfold partialKind at hkind
  split at hkind
  · rename_i hall
    cases hkind
    obtain ⟨app, ms, h1, h2, h3, h4⟩ := C45_partial_base S hk h hc hp
    refine ⟨app, ms, h1, h2, h3, ?_⟩
    rw [h4]
    congr 2
    refine List.filter_congr fun c hcm => ?_
    obtain ⟨m, hm, rfl⟩ := List.mem_map.mp hcm
    obtain ⟨t, ht, _⟩ := h2.1.isMsg m hm
    have hmem : t ∈ C.messages := List.mem_of_getElem? ht
    have e : (meaning C m).1 = t := by unfold meaning; simp [ht]
    rw [e]
    rw [List.all_eq_true] at hall
    have hok := hall t hmem
    rw [C79_partial_handler conv os (ha t hmem)] at hok
    rw [decide_eq_decide, List.mem_filter, C79_partial_handler conv os (ha t hmem)]
    cases he : os.filter (FitsExactly · t) with
    | nil =>
      have := List.filter_eq_nil_iff.mp he
      simp only [hmem, true_and, Bool.false_eq_true, false_iff, not_exists, not_and]
      intro o ho
      simpa using this o ho
    | cons o es =>
      cases es with
      | nil =>
        have : o ∈ os.filter (FitsExactly · t) := by rw [he]; simp
        have := List.mem_filter.mp this
        simp only [hmem, true_and, true_iff]
        exact ⟨o, this.1, by simpa using this.2⟩
      | cons o' es => rw [he] at hok; simp [Resolution.ok] at hok
  · cases hkind

/-- Two integer types, a byte promotes to the one and converts to the other; nothing else. -/
def sampleConv : Conversions := fun f g => match f, g with
  | .uint8, .pod 9 4 => .promotion
  | .pod 0 4, .uint8 => .conversion
  | .uint8, .pod 0 4 => .conversion
  | _, _ => .impossible

/-- `operator()(level const &, int)`: `int` instead of `uint8_t`. -/
def levelInt : Overload := ⟨Sample.level, [⟨.pod 9 4, .value⟩]⟩
/-- `operator()(pose const &, uint8_t, T0 const &, T1)`, as the fields are. -/
def poseExact : Overload :=
  ⟨Sample.pose, [⟨.uint8, .value⟩, ⟨.pod 0 4, .constRef⟩, ⟨.pod 1 2, .value⟩]⟩
/-- `operator()(pose const &, uint8_t &, T0 const &, T1)`. -/
def poseMutable : Overload :=
  ⟨Sample.pose, [⟨.uint8, .mutRef⟩, ⟨.pod 0 4, .constRef⟩, ⟨.pod 1 2, .value⟩]⟩

example : resolvePartial sampleConv [levelInt, poseMutable, poseExact] Sample.level = .default ∧
    resolvePartial sampleConv [levelInt, poseMutable, poseExact] Sample.pose = .call poseExact ∧
    resolvePartial sampleConv [levelInt, poseMutable] Sample.pose = .default ∧
    resolvePartial sampleConv [poseExact, poseExact] Sample.pose = .ambiguous := by
  rw [C79_partial_handler _ _ (by decide), C79_partial_handler _ _ (by decide), C79_partial_handler _ _ (by decide),
    C79_partial_handler _ _ (by decide)]
  decide +kernel

example : resolveParameter sampleConv [levelInt, poseExact] Sample.pose = .call poseExact :=
  C79_parameter_exact _ (by decide +kernel)

example : resolveParameter sampleConv [poseExact, levelInt] Sample.level = .call levelInt := by
  refine C79_parameter_converted sampleConv (l1 := [poseExact]) (l2 := []) ⟨rfl, rfl, ?_⟩ ?_
  · intro i p f hp hf
    cases i with
    | zero =>
      simp only [levelInt, Sample.level, List.getElem?_cons_zero, Option.some.injEq] at hp hf
      subst hp hf
      decide
    | succ i => simp [levelInt] at hp
  · intro o ho hc
    simp only [List.append_nil, List.mem_singleton] at ho
    subst ho
    exact absurd hc.1 (by decide +kernel)

example : (∃ k, partialKind sampleConv [levelInt, poseMutable, poseExact] Sample.basic = some k) ∧
    ¬ ∃ k, partialKind sampleConv [levelInt, poseExact, poseExact] Sample.basic = some k := by
  rw [C79_compiles _ _ (by decide +kernel), C79_compiles _ _ (by decide +kernel)]
  decide +kernel

/-- A handler class with an overload for `level` that takes an `int`: two messages arrive, both are
consumed, only `pose` is seen. -/
example : partialKind sampleConv [levelInt, poseExact] Sample.basic =
      some (.partialBase [Sample.pose]) ∧
    ∃ (w w' : World Sample.basic) (obs : List Obs), Reached Sample.dbg Sample.passive 50
      [.append (frame .basic ⟨1, [42]⟩ ++ frame .basic Sample.mPose),
       .setHandler ⟨.partialBase [Sample.pose], 7⟩] w obs ∧
    w.processMessages Sample.dbg Sample.passive 50 = .ok (w', .returned 2) ∧
    (decide (currentHandler w = some ⟨.partialBase [Sample.pose], 7⟩) &&
      decide (w'.userCalls.map (·.msg) = [Sample.pose])) = true :=
  ⟨by decide +kernel, Sample.processes (.returned 2) (fun w w' =>
    decide (currentHandler w = some ⟨.partialBase [Sample.pose], 7⟩) &&
      decide (w'.userCalls.map (·.msg) = [Sample.pose])) (by decide +kernel)⟩

end TT.Properties
