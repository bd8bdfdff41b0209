import Verif.Proofs.Correct
/-
  C32: multiplication, division, negation, test, bit counts, set, sign extension.
-/

namespace Monoasm
open Spec

/-- imul, idiv, div, negq, testq/testb, lzcnt/tzcnt/popcnt, setcc, cqo, cdq. -/
theorem C32_arith (i : Inst Val Nat) (h : IsArith i) : Correct i :=
  correct (isArith_accepted h) (by cases h <;> simp) (by cases h <;> simp)

/-- `testb sil, -1`: needs a REX prefix. -/
example : ∃ s', Runs (.Testb (.reg (.reg 6)) (.imm (-1))) ex0 s'
    ∧ ∀ rest, X86.decode (bytes s'.mem (here ex0) (here s' - here ex0) ++ rest)
      = some (.test .b (.gpr 6) (.imm (-1)), rest) :=
  assembled (C32_arith _ (.testb _ _)) (fun _ => rfl)
    (fun _ _ h => by
      simp only [imm, riImm, Option.some.injEq, Prod.mk.injEq] at h
      obtain ⟨rfl, rfl⟩ := h; decide)
    (by simp [Inst.mentions, Inst.labels, RmOperand.labels])

/-- `popcntl r8, [r13]`. -/
example : ∃ s', Runs (.Popcnt .DWORD (.reg 8) (.ind ⟨.reg 13, .none, .imm 0⟩)) ex0 s'
    ∧ ∀ rest, X86.decode (bytes s'.mem (here ex0) (here s' - here ex0) ++ rest)
      = some (.cnt .popcnt .d (.gpr 8) (.mem ⟨.gpr 13, none, 0⟩), rest) :=
  assembled (C32_arith _ (.popcnt _ _ _ (.inr rfl))) (fun _ => rfl) (fun _ _ h => by cases h)
    (by simp [Inst.mentions, Inst.labels, RmOperand.labels, IndAddr.labels, MDisp.labels])

/-- `setne spl`. -/
example : ∃ s', Runs (.Setcc .Ne (.reg (.reg 4))) ex0 s'
    ∧ ∀ rest, X86.decode (bytes s'.mem (here ex0) (here s' - here ex0) ++ rest)
      = some (.setcc 5 (.gpr 4), rest) :=
  assembled (C32_arith _ (.setcc _ _)) (fun _ => rfl) (fun _ _ h => by cases h)
    (by simp [Inst.mentions, Inst.labels, RmOperand.labels])

end Monoasm
