import Verif.Proofs.Correct
/-
  C28: integer ALU instructions.
-/

namespace Monoasm
open Spec

/-- add/or/adc/sbb/and/sub/xor/cmp in all sizes and with all operands: accepted by the macro
    whenever x86 has the instruction, assembled if the immediate fits and there is room, and decoded
    to the same operation, size, destination and source. -/
theorem C28_alu (i : Inst Val Nat) (h : IsAlu i) : Correct i :=
  correct (isAlu_accepted h) (by cases h <;> simp) (by cases h <;> simp)

/-- What `addq`, `cmpb` denote (the other operations are alike). -/
theorem C28_denotes (rel) (a : Register Val) (m : IndAddr Val Nat) (g A v) (ha : gpr a = some g)
    (hm : addr rel m = some A) :
    meaning rel (.Add .QWORD (.reg a) (.ind m)) = some (.alu .add .q (.gpr g) (.mem A))
    ∧ meaning rel (.Cmp .BYTE (.ind m) (.imm v)) = some (.alu .cmp .b (.mem A) (.imm v)) := by
  simp [meaning, alu, rm, rmi, ha, hm, notBothMem, size]

/-- `sbbw [r12 + rax*2 + 1000], -300`. -/
example : ∃ s', Runs (.Sbb .WORD (.ind ⟨.reg 12, .s1 1 (.reg 0), .imm 1000⟩) (.imm (-300))) ex0 s'
    ∧ ∀ rest, X86.decode (bytes s'.mem (here ex0) (here s' - here ex0) ++ rest)
      = some (.alu .sbb .w (.mem ⟨.gpr 12, some (0, 1), 1000⟩) (.imm (-300)), rest) :=
  assembled (C28_alu _ (.sbb _ _ _)) (fun _ => rfl)
    (fun _ _ h => by
      simp only [imm, rmiImm, immWidth, Option.some.injEq, Prod.mk.injEq] at h
      obtain ⟨rfl, rfl⟩ := h; decide)
    (by simp [Inst.mentions, Inst.labels, RmOperand.labels, RmiOperand.labels, IndAddr.labels, MDisp.labels])

end Monoasm
