import Verif.Model.Receive
import Verif.Proofs.Protocol
import Verif.Proofs.Stream

/-!
# Helper lemmas: `checkBufferForMessage` refines the scan of the specification
-/

namespace TT
open Spec

variable {C : Collection}

/-- `e`'s buffer is valid and holds `xs`. -/
abbrev ERB.Holds (e : ERB C) (xs : List Byte) : Prop := e.buf.Holds xs

/-- The envelope-specific end of `checkBufferForMessage`: is the message of length `n` at the front
well-formed? -/
def trailerOk (B : Build) (r : ERB C) (n : Nat) : Res Bool :=
  match C.envelope with
  | .basic => do
    let e2 ← r.buffer B (subT (recvBufferSize C) n 2)
    if e2 ≠ ETX then return false
    else
      let e1 ← r.buffer B (subT (recvBufferSize C) n 1)
      return decide (e1 = EOT)
  | .basicChecksum => do
    let e3 ← r.buffer B (subT (recvBufferSize C) n 3)
    if e3 ≠ ETX then return false
    else
      let e1 ← r.buffer B (subT (recvBufferSize C) n 1)
      if e1 ≠ EOT then return false
      else
        let ck ← checksumLoop B r checksumInit 0 (n - 2)
        let fm ← r.buffer B (subT (recvBufferSize C) n 2)
        return decide (ck = fm)

/-- Common shape of both `checkBufferForMessage` functions. -/
def checkG (B : Build) : Nat → ERB C → Res (ERB C × Bool)
  | 0, _ => .error .diverge
  | depth + 1, r => do
    let r ← skipToSOH B (r.bufferSize + 1) r
    if r.bufferSize < 2 then return (r, false)
    let idByte ← r.buffer B 1
    let r := r.setCurrentMessageId idByte
    if !r.isCurrentMessageIdValid then popAndRetry B (checkG B depth) r
    else if r.bufferSize < 3 then return (r, false)
    else
      let c2 ← r.buffer B 2
      if c2 ≠ STX then popAndRetry B (checkG B depth) r
      else
        let msgLength ← r.getMessageLength B
        if r.bufferSize < msgLength then return (r, false)
        else
          let good ← trailerOk B r msgLength
          if good then return (r, true)
          else popAndRetry B (checkG B depth) r

theorem checkBasic_eq (hE : C.envelope = .basic) (B : Build) (d : Nat) :
    ∀ r : ERB C, checkBasic B d r = checkG B d r := by
  induction d with
  | zero => intro r; rfl
  | succ d ih =>
    intro r
    have hf : checkBasic (C := C) B d = checkG B d := funext ih
    unfold checkBasic checkG
    rw [hf]
    cases skipToSOH B (r.bufferSize + 1) r with
    | error _ => rfl
    | ok r1 =>
      simp only [ok_bind]
      split
      · rfl
      · cases r1.buffer B 1 with
        | error _ => rfl
        | ok idByte =>
          simp only [ok_bind]
          generalize r1.setCurrentMessageId idByte = r2
          split
          · rfl
          · split
            · rfl
            · cases r2.buffer B 2 with
              | error _ => rfl
              | ok c2 =>
                simp only [ok_bind]
                split
                · rfl
                · cases r2.getMessageLength B with
                  | error _ => rfl
                  | ok n =>
                    simp only [ok_bind]
                    split
                    · rfl
                    · simp only [trailerOk, hE]
                      cases r2.buffer B (subT (recvBufferSize C) n 2) with
                      | error _ => rfl
                      | ok e2 =>
                        simp only [ok_bind]
                        by_cases h2 : e2 ≠ ETX
                        · simp [h2]
                        · simp only [h2, if_false]
                          cases r2.buffer B (subT (recvBufferSize C) n 1) with
                          | error _ => rfl
                          | ok e1 =>
                            by_cases h1 : e1 = EOT <;> simp [h1]

theorem checkChecksum_eq (hE : C.envelope = .basicChecksum) (B : Build) (d : Nat) :
    ∀ r : ERB C, checkChecksum B d r = checkG B d r := by
  induction d with
  | zero => intro r; rfl
  | succ d ih =>
    intro r
    have hf : checkChecksum (C := C) B d = checkG B d := funext ih
    unfold checkChecksum checkG
    rw [hf]
    cases skipToSOH B (r.bufferSize + 1) r with
    | error _ => rfl
    | ok r1 =>
      simp only [ok_bind]
      split
      · rfl
      · cases r1.buffer B 1 with
        | error _ => rfl
        | ok idByte =>
          simp only [ok_bind]
          generalize r1.setCurrentMessageId idByte = r2
          split
          · rfl
          · split
            · rfl
            · cases r2.buffer B 2 with
              | error _ => rfl
              | ok c2 =>
                simp only [ok_bind]
                split
                · rfl
                · cases r2.getMessageLength B with
                  | error _ => rfl
                  | ok n =>
                    simp only [ok_bind]
                    split
                    · rfl
                    · simp only [trailerOk, hE]
                      cases r2.buffer B (subT (recvBufferSize C) n 3) with
                      | error _ => rfl
                      | ok e2 =>
                        simp only [ok_bind]
                        by_cases h2 : e2 ≠ ETX
                        · simp [h2]
                        · simp only [h2, if_false]
                          cases r2.buffer B (subT (recvBufferSize C) n 1) with
                          | error _ => rfl
                          | ok e1 =>
                            by_cases h1 : e1 = EOT
                            · simp only [h1, ne_eq, not_true_eq_false, decide_false, ok_bind,
                                pure_eq_ok, if_false, Bool.false_eq_true]
                              cases checksumLoop B r2 checksumInit 0 (n - 2) with
                              | error _ => rfl
                              | ok ck =>
                                simp only [ok_bind]
                                cases r2.buffer B (subT (recvBufferSize C) n 2) with
                                | error _ => rfl
                                | ok fm => by_cases h0 : ck = fm <;> simp [h0]
                            · simp [h1]

theorem checkDepth_eq (B : Build) (d : Nat) (r : ERB C) : r.checkDepth B d = checkG B d r := by
  unfold ERB.checkDepth
  cases hE : C.envelope with
  | basic => exact checkBasic_eq hE B d r
  | basicChecksum => exact checkChecksum_eq hE B d r

end TT
