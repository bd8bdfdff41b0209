import Verif.Spec.Trial
import Verif.Spec.Retarget
/-
  Specification: patches as changes of the source program. A history that assembles code and patches
  jumps is compared with the history that assembles the jumps with their last labels in the first place
  and does not patch.
-/

namespace Spec
open Monoasm

section
variable (base : Nat) (mem : Nat → Byte)

/-- Statement `n` of the program `H` is a jump or call to a label, `d` is a label of the program that
    existed when the statement was assembled; the program is complete. -/
structure CanGo (H : List Op) (n : Nat) (i : Inst Val Nat) (d : DestLabel) : Prop where
  complete : trial base mem H = true
  stmt : H[n]? = some (.inst i)
  jump : ∃ l, Patchable i l
  placed : .bind_label d ∈ H ∨ .inst (.Label d) ∈ H
  exists_ : d < (reach base mem (H.take n)).labels.length

/-- The history `K`, in which jumps are patched, and the program `H` that it amounts to. -/
inductive Amounts : List Op → List Op → Prop where
  | start : Amounts [] []
  | call {K H op} : Amounts K H → Amounts (K ++ [op]) (H ++ [op])
  | patch {K H n i p d} : Amounts K H → CanGo base mem H n i d → HasAddress (reach base mem H) p (place base mem H n) →
      Amounts (K ++ [.apply_jmp_patch p d]) (H.set n (.inst (retarget d i)))
  | patchAddress {K H n i d} : Amounts K H → CanGo base mem H n i d →
      Amounts (K ++ [.apply_jmp_patch_address (place base mem H n) d]) (H.set n (.inst (retarget d i)))

end
end Spec
