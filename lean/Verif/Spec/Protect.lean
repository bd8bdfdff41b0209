import Verif.Model.Protect
import Verif.Spec.Cpu
/-
  Specification: a processor that executes code from executable memory only.
-/

namespace X86

/-- One step of the processor if the memory `X` is executable: it can only be made if all bytes of the
    instruction are executable (otherwise the processor raises an exception). -/
inductive NxStep (X : BitVec 64 → Prop) (E : Effect) : State → State → Prop where
  | mk {rip d I rest rip' d'} : decode (fetch d.mem rip) = some (I, rest) →
      X rip → (∀ j, j < 15 - rest.length → X (rip + BitVec.ofNat 64 j)) →
      Exec E (rip + BitVec.ofNat 64 (15 - rest.length)) I d rip' d' → NxStep X E ⟨rip, d⟩ ⟨rip', d'⟩

/-- `n` steps. -/
inductive NxSteps (X : BitVec 64 → Prop) (E : Effect) : Nat → State → State → Prop where
  | zero {s} : NxSteps X E 0 s s
  | succ {n s s' s''} : NxStep X E s s' → NxSteps X E n s' s'' → NxSteps X E (n + 1) s s''

end X86

namespace Spec
open Monoasm

/-- Executable memory, as a processor with 64-bit addresses sees it. -/
def executable (P : Nat → Protection) (a : BitVec 64) : Prop := (P a.toNat).execute = true

end Spec
