import Verif.Spec.Source
/-
  Vocabulary for jumps that are patched at run time.
-/

namespace Spec
open Monoasm

/-- Jumps and calls to a label, the statements that can be patched. -/
def Patchable (i : Inst Val Nat) (l : DestLabel) : Prop := i = .Jmp (.rel l) ∨ i = .Call (.rel l)

/-- The statement with another label. -/
def retarget (d : DestLabel) : Inst Val Nat → Inst Val Nat
  | .Jmp (.rel _) => .Jmp (.rel d)
  | .Call (.rel _) => .Call (.rel d)
  | i => i

/-- The history assembles the jump or call `i` at position `n`; a later `finalize` resolves it; the call
    at position `m` patches it to go to `d`; and nothing overwrites it after that. (Between positions `n`
    and `m` the field of the jump may be overwritten, for example by other patches.) -/
structure Patched (base : Nat) (mem : Nat → Byte) (H : List Op) (n m : Nat) (i : Inst Val Nat) (d : DestLabel) : Prop where
  stmt : H[n]? = some (.inst i)
  label : ∃ l, Patchable i l ∧ ∃ k, n < k ∧ k < m ∧ Finishes base mem H k
    ∧ ∃ a, HasAddress (reach base mem (H.take (k + 1))) l a
  runs : ∃ s1, Runs i (reach base mem (H.take n)) s1
  /-- `apply_jmp_patch` with a label at the place of the jump, or `apply_jmp_patch_address` -/
  patch : (∃ p, H[m]? = some (.apply_jmp_patch p d) ∧ HasAddress (reach base mem (H.take m)) p (place base mem H n))
    ∨ H[m]? = some (.apply_jmp_patch_address (place base mem H n) d)
  bound : ∃ a, HasAddress (reach base mem (H.take m)) d a
  once : BindsOnce d (JitMemory.new base mem) H
  opcode : SparesRange (place base mem H n) 1 (reach base mem (H.take (n + 1))) (H.drop (n + 1))
  field : SparesRange (place base mem H n + 1) 4 (reach base mem (H.take (m + 1))) (H.drop (m + 1))

end Spec
