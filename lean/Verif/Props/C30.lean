import Verif.Proofs.Correct
/-
  C30: data movement instructions.
-/

namespace Monoasm
open Spec

/-- mov, movsx, movzx, lea, xchgq, push, pop, cmov: accepted, assembled and decoded to the same
    operation, size, operands and direction. -/
theorem C30_move (i : Inst Val Nat) (h : IsMove i) : Correct i :=
  correct (isMove_accepted h) (by cases h <;> simp) (by cases h <;> simp)

/-- `movq r15, 0x123456789abcdef0`: the 64-bit immediate form. -/
example : ∃ s', Runs (.Movq (.reg (.reg 15)) (.imm 0x123456789abcdef0 none)) ex0 s'
    ∧ ∀ rest, X86.decode (bytes s'.mem (here ex0) (here s' - here ex0) ++ rest)
      = some (.mov .q (.gpr 15) (.imm 0x123456789abcdef0), rest) :=
  assembled (C30_move _ (.movq _ _ (by simp) (by simp))) (fun _ => rfl) (fun _ _ h => by cases h)
    (by simp [Inst.mentions, Inst.labels, MovOperand.labels])

/-- `xchgq rax, r9` is the one-byte form with the operands the other way round. -/
example : ∃ s', Runs (.Xchg .QWORD (.reg (.reg 0)) (.reg (.reg 9))) ex0 s'
    ∧ ∀ rest, X86.decode (bytes s'.mem (here ex0) (here s' - here ex0) ++ rest)
      = some (.xchg .q (.gpr 9) (.gpr 0), rest) :=
  assembled (C30_move _ (.xchgq _ _)) (fun _ => rfl) (fun _ _ h => by cases h)
    (by simp [Inst.mentions, Inst.labels, RmOperand.labels])

/-- `popq [rbp]`. -/
example : ∃ s', Runs (.Popq (.ind ⟨.reg 5, .none, .imm 0⟩)) ex0 s'
    ∧ ∀ rest, X86.decode (bytes s'.mem (here ex0) (here s' - here ex0) ++ rest)
      = some (.pop (.mem ⟨.gpr 5, none, 0⟩), rest) :=
  assembled (C30_move _ (.popq _)) (fun _ => rfl) (fun _ _ h => by cases h)
    (by simp [Inst.mentions, Inst.labels, RmOperand.labels, IndAddr.labels, MDisp.labels])

end Monoasm
