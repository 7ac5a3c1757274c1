import Verif.Proofs.GeneratedHandler
import Verif.Model.Overloads
import Verif.Properties.SendCalls

/-!
# Property of the generated defaults of `PartialHandlerBase`: C87
-/

namespace TT.Properties
open TT.Gen TT.Cpp

/-- The functions that can be called with the tag of a message and the arguments `as` (is it a sequence?). -/
def callable (fs : List Fn) (as : List Bool) : List Fn := fs.filter fun f => handlerViable true as f == some true

/-- C87. The header generated for arities up to `k` declares, for every number of fields up to `k`, exactly one
function that can be called with the tag and that many arguments, and none for more; a single sequence is not taken,
so it goes on to `ParameterHandlerBase`. -/
theorem C87_defaults {ms : Macros} {k : Nat} {fs : List Fn}
    (hfs : readFns ms (body PartialHandler.generate 0 k) = some fs) (as : List Bool) :
    (callable fs as).length = if as.length ≤ k ∧ as ≠ [true] then 1 else 0 := by
  rw [readFns_handler] at hfs
  cases hfs
  unfold callable
  have h : ∀ k, (((List.range (k + 1)).map defaultFn).filter fun f => handlerViable true as f == some true).length =
      if as.length ≤ k ∧ as ≠ [true] then 1 else 0 := by
    intro k
    induction k with
    | zero =>
      simp only [Nat.zero_add, List.range_one, List.map_cons, List.map_nil, List.filter_cons, List.filter_nil,
        viable_default, Bool.and_true]
      by_cases h0 : as.length = 0
      · have : as = [] := List.length_eq_zero_iff.mp h0
        subst this
        simp
      · have : ¬ as.length ≤ 0 := by omega
        simp [h0]
    | succ k ih =>
      rw [List.range_succ, List.map_append, List.filter_append, List.length_append, ih]
      simp only [List.map_cons, List.map_nil, List.filter_cons, List.filter_nil, viable_default, Bool.and_true]
      by_cases hs : as = [true]
      · simp [hs]
      · by_cases h1 : as.length = k + 1
        · have : ¬ as.length ≤ k := by omega
          simp [h1, hs]
        · by_cases h2 : as.length ≤ k
          · have : as.length ≤ k + 1 := by omega
            simp [h1, h2, hs, this]
          · have : ¬ as.length ≤ k + 1 := by omega
            simp [h1, h2, this]
  exact h k

/-- C87. All of them do nothing, and none can be called with something that is not a message. -/
theorem C87_empty {ms : Macros} {k : Nat} {fs : List Fn}
    (hfs : readFns ms (body PartialHandler.generate 0 k) = some fs) {f : Fn} (hf : f ∈ fs) :
    f.body = [] ∧ ∀ as, handlerViable false as f = some false := by
  rw [readFns_handler] at hfs
  cases hfs
  obtain ⟨n, _, rfl⟩ := List.mem_map.mp hf
  refine ⟨rfl, fun as => ?_⟩
  rw [viable_default]
  simp

/-- C87. The header can be read, for every arity. -/
theorem C87_reads (ms : Macros) (k : Nat) : ∃ fs, readFns ms (body PartialHandler.generate 0 k) = some fs :=
  ⟨_, readFns_handler ms k⟩

/-- C87. The limits agree: when both headers are generated with the same arity for receiving, there is a default for
as many fields as `fusion::invoke_procedure` can pass together with the tag. -/
theorem C87_limits {sendMax receiveMax : Nat} {ts : List Tok} {ms : Macros}
    (hms : preprocess [] [] (lex (cat (ArityConfig.generate sendMax receiveMax) (chars! "\n") ++ chars! "\n")) =
      some (ts, ms)) {fs : List Fn} (hfs : readFns ms (body PartialHandler.generate 0 receiveMax) = some fs) (n : Nat) :
    (callable fs (List.replicate n false)).length = 1 ↔
      n + 1 ≤ (ms.lookup (chars! "BOOST_FUSION_INVOKE_PROCEDURE_MAX_ARITY")).getD 0 := by
  obtain ⟨ts', ms', h, _, h2, _⟩ := C86_config [] sendMax receiveMax
  rw [hms] at h
  cases h
  rw [h2, C87_defaults hfs]
  have hne : List.replicate n false ≠ [true] := by
    intro e
    have : true ∈ List.replicate n false := by rw [e]; simp
    have := List.eq_of_mem_replicate this
    cases this
  rw [List.length_replicate]
  simp only [hne, ne_eq, not_false_eq_true, and_true, List.lookup_nil, Option.getD_none, Option.getD_some]
  by_cases h : n ≤ receiveMax
  · simp [h]
  · simp [h]

/-- C87. The same for sending: there is a call with `n` separate fields exactly if a list can have `n` elements. -/
theorem C87_send_limits {sendMax receiveMax : Nat} {ts : List Tok} {ms : Macros}
    (hms : preprocess [] [] (lex (cat (ArityConfig.generate sendMax receiveMax) (chars! "\n") ++ chars! "\n")) =
      some (ts, ms)) : listLimit ms = sendMax := by
  obtain ⟨ts', ms', h, h1, _, _⟩ := C86_config [] sendMax receiveMax
  rw [hms] at h
  cases h
  unfold listLimit
  rw [h1]
  rfl

/-- C87. In terms of C79: the header as shipped gives the default candidates assumed there. -/
theorem C87_candidates {ms : Macros} {fs : List Fn} (hfs : readFns ms (body PartialHandler.generate 0 9) = some fs)
    (m : MsgType) : (defaultCandidates m).length = (callable fs (m.fields.map fun _ => false)).length := by
  rw [C87_defaults hfs]
  have hne : (m.fields.map fun _ => false) ≠ [true] := by
    intro e
    have : true ∈ m.fields.map fun _ => false := by rw [e]; simp
    obtain ⟨_, _, h⟩ := List.mem_map.mp this
    cases h
  unfold defaultCandidates
  by_cases h : m.fields.length ≤ 9
  · simp [h, hne]
  · simp [h]

/-! ### Examples -/

/-- Three fields: one function. A tuple: none. Ten fields: none. -/
example {fs : List Fn} (h : readFns [] (body PartialHandler.generate 0 9) = some fs) :
    (callable fs [false, false, false]).length = 1 ∧ (callable fs [true]).length = 0 ∧
    (callable fs (List.replicate 10 false)).length = 0 ∧ (callable fs [false]).length = 1 := by
  refine ⟨?_, ?_, ?_, ?_⟩ <;> (rw [C87_defaults h]; decide)

example {fs : List Fn} (h : readFns [] (body PartialHandler.generate 0 9) = some fs) :
    (callable fs [false, false, false]).length = (defaultCandidates Sample.pose).length :=
  (C87_candidates h Sample.pose).symm

/-- Headers generated for twelve fields when receiving. -/
example {ts : List Tok} {ms : Macros} (h : preprocess [] [] (lex (cat (ArityConfig.generate 9 12) (chars! "\n") ++ chars! "\n")) =
      some (ts, ms)) {fs : List Fn} (hfs : readFns ms (body PartialHandler.generate 0 12) = some fs) :
    13 ≤ (ms.lookup (chars! "BOOST_FUSION_INVOKE_PROCEDURE_MAX_ARITY")).getD 0 :=
  (C87_limits h hfs 12).mp (by rw [C87_defaults hfs]; decide)

example {ts : List Tok} {ms : Macros} (h : preprocess [] [] (lex (cat (ArityConfig.generate 7 12) (chars! "\n") ++ chars! "\n")) =
      some (ts, ms)) : listLimit ms = 7 := C87_send_limits h

example {fs : List Fn} (h : readFns [] (body PartialHandler.generate 0 9) = some fs) (f : Fn)
    (hf : f ∈ callable fs [false, false]) : f.body = [] := (C87_empty h (List.mem_filter.mp hf).1).1

end TT.Properties
