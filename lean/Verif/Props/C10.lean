import Verif.Proofs.History
/-
  C10: no relocation overflow.
-/

namespace Monoasm
open Spec

/-- After any history (caught panics, raw `save_reloc`, patches, anything), and for any allocation
    address, `finalize` does not panic with "Relocation overflow". -/
theorem C10 (base : Nat) (mem : Nat → Byte) (h : List Op) (s' : JitMemory) :
    JitMemory.finalize (reach base mem h) ≠ .panic .relocOverflow s' :=
  (safe_op (ro := True) (ps := fun _ => True) (op := .finalize) 0 (by simp) (by simp [Op.isPatch])
    (by simp) (by simp) (fun _ _ => trivial) _ (inv_reach base mem h) trivial).2 trivial s'

/-- The panic does exist in the model: the displacement check rejects distances that do not fit. -/
example (s : JitMemory) (h : (s.pages 0).contents = 0) :
    JitMemory.fillTarget 0x80000000 (.rel 0 0 0) s = .panic .relocOverflow s := by
  simp [JitMemory.fillTarget, M.bind_def, M.get, h, JitMemory.i32TryFromInt, M.panic]

end Monoasm
