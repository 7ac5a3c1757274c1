import Verif.Model.Includes

/-!
# Including headers: specification
-/

namespace TT.Inc

/-- Reading `h` means reading `k`, directly or through other headers. -/
inductive Includes : Header → Header → Prop where
  | self (h : Header) : Includes h h
  | step {h h' k : Header} : .include h' ∈ body h → Includes h' k → Includes h k

/-- The headers that bring the configuration `detail/constants/ArityConfig.h` with them. -/
def Configures (h : Header) : Prop := Includes h .arityConfig

/-- The limits the library asks for: lists of nine elements, and procedures with ten parameters (the message type and
nine fields). -/
def wanted : Macro → Nat
  | .listSize => 9
  | .invokeArity => 10
  | .testMessage => 0

/-- The limits a user gets who defines the macros `ms` before everything else. -/
def limit (ms : Macro → Option Nat) (m : Macro) : Nat := (ms m).getD (wanted m)

/-- The user includes no header of Boost.Fusion before the first header of the library that configures it. -/
def ConfiguredFirst (items : List Item) : Prop :=
  ∀ pre f post, items = pre ++ .fusion f :: post → ∃ h, .lib h ∈ pre ∧ Configures h

end TT.Inc
