import Verif.Proofs.Includes

/-!
# C89: the order of `#include` lines
-/

namespace TT.Properties
open TT TT.Inc

/-- C89 (each header once, after the headers it needs): whatever a user includes, in whatever order, the headers of the
library that are read are exactly those included and those they include in turn; each is read once, and after all the
headers it includes. Includes are nested far less deeply than every compiler allows. -/
theorem C89_order (boost : Boost) (ms : Macro → Option Nat) (items : List Item) :
    let s := preprocess boost ms items
    s.tooDeep = false ∧ s.read.Nodup ∧ (∀ h, h ∈ s.read ↔ ∃ k, .lib k ∈ items ∧ Includes k h) ∧
      ∀ pre h post, s.read = pre ++ h :: post → ∀ h', .include h' ∈ body h → h' ∈ pre := by
  intro s
  obtain ⟨a, -, c⟩ := readItems_ok (boost := boost) items _ (between_start ms)
  refine ⟨a.inv.deep, a.inv.nodup, fun h => ⟨fun hh => ?_, ?_⟩, a.inv.ordered⟩
  · rcases read_readItems boost items _ h hh with h1 | h2
    · cases h1
    · exact h2
  · rintro ⟨k, hk, hi⟩
    exact a.inv.includes hi (c k hk)

/-- C89 (the macros the library uses are defined): every place in a header of the library that uses one of the macros
sees a definition of it. For `BOOST_TEST_MESSAGE` it is the one that was there before the first header, if any, and
otherwise the empty one. -/
theorem C89_uses (boost : Boost) (ms : Macro → Option Nat) (items : List Item) :
    ∀ u ∈ (preprocess boost ms items).uses,
      u.2.2 ≠ none ∧ (u.2.1 = .testMessage → u.2.2 = some ((ms .testMessage).getD 0)) := by
  intro u hu
  obtain ⟨a, -, -⟩ := readItems_ok (boost := boost) items _ (between_start ms)
  refine ⟨fun e => ?_, a.inv.messages u hu⟩
  have := a.inv.uses u hu
  rw [e] at this
  cases this

/-- C89 (the limits): if no header of Boost.Fusion is included before the first header of the library that brings
`ArityConfig.h` with it (in particular if only headers of the library are included, in any order), then Boost.Fusion is
set up with the limits that the user defined or, for macros the user did not define, those of `ArityConfig.h`: 9 for lists
and 10 for procedures. The `send` overloads are cut off at the same limit that lists have. -/
theorem C89_limits (boost : Boost) (ms : Macro → Option Nat) (items : List Item) (h : ConfiguredFirst items) :
    let s := preprocess boost ms items
    (∀ m v, s.fixed m = some v → v = limit ms m) ∧ (∀ m v, s.macros m = some v → v = limit ms m) ∧
      (∀ u ∈ s.uses, u.2.2 = some (limit ms u.2.1)) ∧
      ((∃ k, .lib k ∈ items ∧ Configures k) → ∀ m, m ≠ .testMessage → s.macros m = some (limit ms m)) := by
  intro s
  obtain ⟨a, -, c⟩ := readItems_ok (boost := boost) items _ (between_start ms)
  have hv := readItems_values (boost := boost) items [] _ (between_start ms) (values_start ms) (by simp) h
  refine ⟨fun m v e => hv.macros m v (a.inv.fixed m v e), hv.macros, hv.uses, ?_⟩
  rintro ⟨k, hk, hc⟩ m hm
  obtain ⟨x, y⟩ := a.inv.configured (c k hk) hc
  have z : (s.macros m).isSome := by
    cases m with
    | listSize => exact x
    | invokeArity => exact y
    | testMessage => exact absurd rfl hm
  obtain ⟨v, e⟩ := Option.isSome_iff_exists.1 z
  rw [e, hv.macros m v e]

/-- C89 (which headers configure): the headers that bring `ArityConfig.h` with them. The others include no header of
Boost.Fusion, directly or indirectly. -/
theorem C89_which (h : Header) :
    (Configures h ↔ h ∈
    ([.boundMessageType, .parameterHandlerBase, .partialHandlerBase, .receiver, .send, .serializerBase,
     .arityConfig, .computeReceiveBufferSize, .deserializeAndInvoke, .deserializeToFusion, .maxMessageLength,
     .messageLength, .sendOverloads, .envelopeReceiveBuffer, .messageSizeType, .basic, .basicChecksum,
     .bitwiseCopySerialization, .autosizedBoostArrayBuffer, .vectorBuffer] : List Header)) ∧
      (¬ Configures h → ∀ k f, Includes h k → .fusion f ∉ body k) := by
  have hr : rank h < 10 := by cases h <;> decide
  refine ⟨(includes_iff 10 hr).symm.trans ?_, ?_⟩
  · cases h <;> decide
  · intro hn k f hk hf
    have hc : Configures k := by
      have hr' : rank k < 10 := by cases k <;> decide
      refine (includes_iff 10 hr').1 ?_
      cases k <;> first | decide | simp [body] at hf
    refine hn ?_
    clear hf hn hr
    induction hk with
    | self => exact hc
    | step hm _ ih => exact .step hm (ih hc)

/-- C89 (Boost.Fusion first): if a file includes a header of Boost.Fusion first and that header fixes a limit nobody has
defined, then this limit is Boost's default for good, whatever the file includes later, `ArityConfig.h` included. -/
theorem C89_fusion_first (boost : Boost) (ms : Macro → Option Nat) (items : List Item) (f : Fusion) (m : Macro) (d : Nat)
    (hm : m ≠ .testMessage) (hf : boost.fixes f m = some d) (hms : ms m = none) :
    let s := preprocess boost ms (.fusion f :: items)
    s.fixed m = some d ∧ s.macros m = some d := by
  intro s
  obtain ⟨a, -, -⟩ := readItem_ok (boost := boost) (between_start ms) (.fusion f)
  obtain ⟨-, c, -⟩ := readItems_ok (boost := boost) items _ a
  have key : (readItem boost { macros := ms } (.fusion f)).fixed m = some d := by
    cases m with
    | testMessage => exact absurd rfl hm
    | listSize =>
      cases hi : boost.fixes f .invokeArity with
      | none => simp [readItem, readFusion, fixMacro, hf, hi, setDefault, hms]
      | some d' =>
        cases hmi : ms .invokeArity <;> simp [readItem, readFusion, fixMacro, hf, hi, setDefault, hms, hmi]
    | invokeArity =>
      cases hi : boost.fixes f .listSize with
      | none => simp [readItem, readFusion, fixMacro, hf, hi, setDefault, hms]
      | some d' =>
        cases hmi : ms .listSize <;> simp [readItem, readFusion, fixMacro, hf, hi, setDefault, hms, hmi]
  exact ⟨c.fixed m d key, c.macros m d (a.inv.fixed m d key)⟩

/-! ### Examples -/

/-- Boost.Fusion as it comes: lists of ten elements, procedures with six parameters. -/
def Sample.fusion : Boost where
  fixes
    | .invokeProcedure, .invokeArity => some 6
    | .makeList, .listSize => some 10
    | .asList, .listSize => some 10
    | .other _, .listSize => some 10
    | _, _ => none

/-- Headers of transmitters and lists of messages first, then the library, then Fusion. -/
def Sample.goodOrder : List Item :=
  [.lib .vrpnSerialTransmitter, .lib .basic, .fusion .makeList, .lib .partialHandlerBase, .lib .send]

example : ConfiguredFirst Sample.goodOrder := by
  intro pre f post e
  have hb : Configures .basic := (C89_which .basic).1.2 (by decide)
  match pre, e with
  | [_, _], e => simp [Sample.goodOrder] at e; exact ⟨.basic, by simp [← e.2.1], hb⟩
  | _ :: _ :: _ :: pre, e =>
    simp [Sample.goodOrder] at e
    exact ⟨.basic, by simp [← e.2.1], hb⟩

example :
    let s := preprocess Sample.fusion (fun _ => none) Sample.goodOrder
    s.fixed .listSize = some 9 ∧ s.fixed .invokeArity = some 10 ∧ (Header.sendOverloads, Macro.listSize, some 9) ∈ s.uses ∧
      s.read.length = 40 := by decide +kernel

/-- With `invoke_procedure.hpp` included first, handlers get at most five fields (and the message type), although
`ReceiveMaxArity` is still 9. -/
example :
    let s := preprocess Sample.fusion (fun _ => none) [.fusion .invokeProcedure, .lib .partialHandlerBase, .lib .send]
    s.fixed .invokeArity = some 6 ∧ s.fixed .listSize = some 9 := by decide +kernel

end TT.Properties
