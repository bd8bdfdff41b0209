import Verif.Spec.Capacity
import Verif.Spec.Past
/-
  Vocabulary for calls of `finalize` that panic.
-/

namespace Spec
open Monoasm

/-- Position `pos` of page `p` has been emitted and is not part of a field still to be filled, not even
    of one that crosses the end of the page (which only a statement whose emission panicked leaves). -/
def Sealed (s : JitMemory) (p : Page) (pos : Nat) : Prop :=
  pos < cursor s p ∧ ∀ l t, t ∈ targets s l → ¬ Covers t p pos

end Spec
