import Verif.Spec.Send
import Verif.Spec.Machine

/-!
# Concrete data used by the non-vacuity examples beside the theorems
-/

deriving instance DecidableEq for Except

namespace TT.Sample
open Spec

/-- A message without fields. -/
def ping : MsgType := ⟨0, []⟩
/-- A message with one byte. -/
def level : MsgType := ⟨1, [.uint8]⟩
/-- A message with a byte, a 4-byte and a 2-byte field. -/
def pose : MsgType := ⟨2, [.uint8, .pod 0 4, .pod 1 2]⟩

/-- The three messages in the Basic envelope. -/
def basic : Collection := ⟨[ping, level, pose], .basic⟩
/-- The three messages in the BasicChecksum envelope. -/
def checked : Collection := ⟨[ping, level, pose], .basicChecksum⟩

/-- Contents for `pose`, full of control codes. -/
def poseVals : List Value :=
  [⟨.uint8, [0x01]⟩, ⟨.pod 0 4, [0x01, 0x00, 0x02, 0x03]⟩, ⟨.pod 1 2, [0x03, 0x04]⟩]

/-- Contents for `level`. -/
def levelVals : List Value := [⟨.uint8, [0x2A]⟩]

instance (C : Collection) (t : MsgType) (vs : List Value) : Decidable (Sendable C t vs) := by
  unfold Sendable; infer_instance

instance (C : Collection) (t : MsgType) (id : Byte) : Decidable (idOf C t id) := by
  unfold idOf; infer_instance

instance (v : Value) : Decidable (Value.Fits v) := by unfold Value.Fits; infer_instance

instance (C : Collection) (m : Msg) : Decidable (IsMsg C m) :=
  match h : typeOf C m.id with
  | none => isFalse (by rintro ⟨t, ht, _⟩; simp [h] at ht)
  | some t =>
    if hl : m.payload.length = payloadSize t then isTrue ⟨t, h, hl⟩
    else isFalse (by rintro ⟨t', ht, hl'⟩; rw [h] at ht; cases ht; exact hl hl')

/-- A functor handler object. -/
def h0 : Handler := ⟨.functor, 0⟩
/-- Another handler object. -/
def h1 : Handler := ⟨.parameterBase, 1⟩

/-- User code that does nothing. -/
def passive : UserCode := fun _ _ => ⟨[], false⟩

theorem passive_benign : BenignUser passive := fun _ _ => ⟨by simp [passive], by
  simp [passive, appended]⟩
theorem passive_quiet : Quiet passive := fun _ _ => rfl
theorem passive_neverThrows : NeverThrows passive := fun _ _ => rfl
theorem passive_keepsHandler : KeepsHandler passive := fun _ _ _ => rfl

/-- Debug build with 32-bit `int`. -/
def dbg : Build := ⟨true, 32⟩
/-- Release build with 16-bit `int`. -/
def rel16 : Build := ⟨false, 16⟩

end TT.Sample
