import Verif.Spec.Past
import Verif.Spec.Objects
/-
  Vocabulary for comparing runs with different allocation addresses.
-/

namespace Monoasm

/-- The same call in a run whose allocation is at `b2` instead of `b1`: the only call that takes an
    address as an argument is `apply_jmp_patch_address`. -/
def Op.move (b1 b2 : Nat) : Op → Op
  | .apply_jmp_patch_address a l => .apply_jmp_patch_address (b2 + (a - b1)) l
  | op => op

end Monoasm

namespace Spec
open Monoasm

/-- Addresses handed to `apply_jmp_patch_address` are not below `b`. -/
def PatchesFrom (b : Nat) (h : List Op) : Prop := ∀ a l, .apply_jmp_patch_address a l ∈ h → b ≤ a

/-- The part of `finalize` that comes before the references to labels are filled in,
    jit_memory.rs:280-287. -/
def placing : M Unit := do
  JitMemory.forPages JitMemory.openBlock
  JitMemory.resolve_constants
  JitMemory.resolve_data

/-- A `finalize` of the history gave address `a` to the label of an object made by `abs_address`. (If
    the `finalize` returns the label is still there, see `C45_slots`; if it panics later on the label
    may be lost.) -/
def AbsSlot (a : Nat) (s : JitMemory) : List Op → Prop
  | [] => False
  | op :: ops => (op = .finalize ∧ ∃ p x l, Waits s p (.absAddress x) l ∧ HasAddress (placing s).state l a)
      ∨ AbsSlot a (op.run s).state ops

end Spec
