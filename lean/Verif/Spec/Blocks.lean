import Verif.Spec.Past
/-
  Vocabulary for code blocks.
-/

namespace Spec
open Monoasm

/-- The blocks `(start, code_end, end)` follow one another without gaps from `a` to `z`, inside the
    page. -/
def Tiles (a : Nat) : List (Nat × Nat × Nat) → Nat → Prop
  | [], z => a = z
  | (start, code_end, stop) :: bs, z =>
    start = a ∧ start ≤ code_end ∧ code_end ≤ stop ∧ stop ≤ PAGE_SIZE ∧ Tiles stop bs z

/-- Number of `finalize` calls. -/
def countFinalize : List Op → Nat
  | [] => 0
  | .finalize :: ops => countFinalize ops + 1
  | _ :: ops => countFinalize ops

end Spec
