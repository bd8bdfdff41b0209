import Verif.Proofs.Correct
/-
  C31: shifts and rotates.
-/

namespace Monoasm
open Spec

/-- rol/ror/shl/sal/shr/sar by an immediate (1 included) or by `cl`. -/
theorem C31_shift (i : Inst Val Nat) (h : IsShift i) : Correct i :=
  correct (fun _ => isShift_accepted h) (by cases h <;> simp) (by cases h <;> simp)

/-- Count register of a shift statement. -/
def countReg : Inst Val Nat → Option (Register Val)
  | .Rol _ _ (.reg r) | .Ror _ _ (.reg r) | .Shl _ _ (.reg r) | .Sal _ _ (.reg r) | .Shr _ _ (.reg r)
  | .Sar _ _ (.reg r) => some r
  | _ => none

/-- Any other count register panics, and nothing is emitted. (For a computed register see C39:
    the number is reduced modulo 256.) -/
theorem C31_not_cl (i : Inst Val Nat) (h : IsShift i) (r) (hr : countReg i = some r)
    (h1 : (regVal r).setWidth 8 ≠ 1#8) (s : JitMemory) : Panics i s .regShouldBeCl s := by
  have hcl : r.toReg.is_cl = false := by
    cases r <;> simpa [Register.toReg, Reg.is_cl, Reg.from, Reg.rcx, regVal] using h1
  have key : ∀ {sz d a}, (sz = .QWORD ∨ sz = .DWORD) →
      It.shift_op sz d a (.reg r) = .ok [.fail .regShouldBeCl] := by
    rintro sz d a (rfl | rfl) <;> simp [It.shift_op, hcl]
  cases h <;> (rename_i sz a b hsz; cases b <;> simp only [countReg, Option.some.injEq, reduceCtorEq] at hr) <;>
    subst hr <;> exact panics_of_items (key hsz) rfl

/-- `sarl r10, cl`. -/
example : ∃ s', Runs (.Sar .DWORD (.reg (.reg 10)) (.reg (.reg 1))) ex0 s'
    ∧ ∀ rest, X86.decode (bytes s'.mem (here ex0) (here s' - here ex0) ++ rest)
      = some (.shift .sar .d (.gpr 10) (.gpr 1), rest) :=
  assembled (C31_shift _ (.sar _ _ _ (.inr rfl))) (fun _ => rfl) (fun _ _ h => by cases h)
    (by simp [Inst.mentions, Inst.labels, RmOperand.labels])

/-- `rolq [rsp - 8], 63`. -/
example : ∃ s', Runs (.Rol .QWORD (.ind ⟨.reg 4, .none, .imm (-8)⟩) (.imm 63)) ex0 s'
    ∧ ∀ rest, X86.decode (bytes s'.mem (here ex0) (here s' - here ex0) ++ rest)
      = some (.shift .rol .q (.mem ⟨.gpr 4, none, -8⟩) (.imm 63), rest) :=
  assembled (C31_shift _ (.rol _ _ _ (.inl rfl))) (fun _ => rfl)
    (fun _ _ h => by
      simp only [imm, riImm, Option.some.injEq, Prod.mk.injEq] at h
      obtain ⟨rfl, rfl⟩ := h; decide)
    (by simp [Inst.mentions, Inst.labels, RmOperand.labels, IndAddr.labels, MDisp.labels])

/-- `shlq rax, rdx` panics. -/
example : Panics (.Shl .QWORD (.reg (.reg 0)) (.reg (.reg 2))) ex0 .regShouldBeCl ex0 :=
  C31_not_cl _ (.shl _ _ _ (.inl rfl)) (.reg 2) rfl (by decide) ex0

end Monoasm
