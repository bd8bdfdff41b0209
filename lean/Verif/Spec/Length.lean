import Verif.Spec.Link
import Verif.Spec.Runtime
/-
  Specification: length of code.
-/

namespace Spec
open Monoasm

/-- Whenever the statement is assembled, `n` bytes are added to the selected page, and none to the others. -/
def HasLength (i : Inst Val Nat) (n : Nat) : Prop :=
  ∀ s s', Runs i s s' → s'.page = s.page ∧ ∀ p, cursor s' p = cursor s p + if p = s.page then n else 0

end Spec
