import Verif.Spec.Meaning
/-
  Replacing memory operands, and leaving out an index register `rsp`, which x86 cannot encode.
-/

namespace Monoasm
variable {ε lam : Type} (δ : IndAddr ε lam → IndAddr ε lam)

def RmOperand.mapAddr : RmOperand ε lam → RmOperand ε lam
  | .reg r => .reg r
  | .ind a => .ind (δ a)
def RmiOperand.mapAddr : RmiOperand ε lam → RmiOperand ε lam
  | .imm i => .imm i
  | .reg r => .reg r
  | .ind a => .ind (δ a)
def XmOperand.mapAddr : XmOperand ε lam → XmOperand ε lam
  | .xmm x => .xmm x
  | .ind a => .ind (δ a)
def MovOperand.mapAddr : MovOperand ε lam → MovOperand ε lam
  | .imm i s => .imm i s
  | .reg r => .reg r
  | .xmm x => .xmm x
  | .ind a => .ind (δ a)
def Dest.mapAddr : Dest ε lam → Dest ε lam
  | .reg r => .reg r
  | .rel l => .rel l
  | .disp e => .disp e
  | .ind a => .ind (δ a)

/-- The same statement with every memory operand `a` replaced by `δ a`. -/
def Inst.mapAddr : Inst ε lam → Inst ε lam
  | .Label l => .Label l
  | .F64 bits => .F64 bits
  | .I64 v => .I64 v
  | .Movq op1 op2 => .Movq (op1.mapAddr δ) (op2.mapAddr δ)
  | .Movl op1 op2 => .Movl (op1.mapAddr δ) (op2.mapAddr δ)
  | .Movw op1 op2 => .Movw (op1.mapAddr δ) (op2.mapAddr δ)
  | .Movb op1 op2 => .Movb (op1.mapAddr δ) (op2.mapAddr δ)
  | .Movsxl op1 op2 => .Movsxl op1 (op2.mapAddr δ)
  | .Movzxw op1 op2 => .Movzxw op1 (op2.mapAddr δ)
  | .Movsxw op1 op2 => .Movsxw op1 (op2.mapAddr δ)
  | .Movzxb op1 op2 => .Movzxb op1 (op2.mapAddr δ)
  | .Movsxb op1 op2 => .Movsxb op1 (op2.mapAddr δ)
  | .Add size op1 op2 => .Add size (op1.mapAddr δ) (op2.mapAddr δ)
  | .Sub size op1 op2 => .Sub size (op1.mapAddr δ) (op2.mapAddr δ)
  | .Adc size op1 op2 => .Adc size (op1.mapAddr δ) (op2.mapAddr δ)
  | .Sbb size op1 op2 => .Sbb size (op1.mapAddr δ) (op2.mapAddr δ)
  | .And size op1 op2 => .And size (op1.mapAddr δ) (op2.mapAddr δ)
  | .Or size op1 op2 => .Or size (op1.mapAddr δ) (op2.mapAddr δ)
  | .Xor size op1 op2 => .Xor size (op1.mapAddr δ) (op2.mapAddr δ)
  | .Cmp size op1 op2 => .Cmp size (op1.mapAddr δ) (op2.mapAddr δ)
  | .Xchg size op1 op2 => .Xchg size (op1.mapAddr δ) (op2.mapAddr δ)
  | .Negq op => .Negq (op.mapAddr δ)
  | .Shl size op1 op2 => .Shl size (op1.mapAddr δ) op2
  | .Shr size op1 op2 => .Shr size (op1.mapAddr δ) op2
  | .Sal size op1 op2 => .Sal size (op1.mapAddr δ) op2
  | .Sar size op1 op2 => .Sar size (op1.mapAddr δ) op2
  | .Rol size op1 op2 => .Rol size (op1.mapAddr δ) op2
  | .Ror size op1 op2 => .Ror size (op1.mapAddr δ) op2
  | .Imul op1 op2 => .Imul (op1.mapAddr δ) (op2.mapAddr δ)
  | .Idiv op => .Idiv (op.mapAddr δ)
  | .Idivl op => .Idivl (op.mapAddr δ)
  | .Div op => .Div (op.mapAddr δ)
  | .Divl op => .Divl (op.mapAddr δ)
  | .Lea op1 op2 => .Lea (op1.mapAddr δ) (op2.mapAddr δ)
  | .Testq op1 op2 => .Testq (op1.mapAddr δ) op2
  | .Testb op1 op2 => .Testb (op1.mapAddr δ) op2
  | .Setcc cond op => .Setcc cond (op.mapAddr δ)
  | .Cmovcc size cond op1 op2 => .Cmovcc size cond op1 (op2.mapAddr δ)
  | .Cqo => .Cqo
  | .Cdq => .Cdq
  | .Movsd op1 op2 => .Movsd (op1.mapAddr δ) (op2.mapAddr δ)
  | .Addsd op1 op2 => .Addsd op1 (op2.mapAddr δ)
  | .Subsd op1 op2 => .Subsd op1 (op2.mapAddr δ)
  | .Mulsd op1 op2 => .Mulsd op1 (op2.mapAddr δ)
  | .Divsd op1 op2 => .Divsd op1 (op2.mapAddr δ)
  | .Xorps op1 op2 => .Xorps op1 (op2.mapAddr δ)
  | .UComIsd op1 op2 => .UComIsd op1 (op2.mapAddr δ)
  | .Minsd op1 op2 => .Minsd op1 (op2.mapAddr δ)
  | .Maxsd op1 op2 => .Maxsd op1 (op2.mapAddr δ)
  | .Andpd op1 op2 => .Andpd op1 (op2.mapAddr δ)
  | .Xorpd op1 op2 => .Xorpd op1 (op2.mapAddr δ)
  | .Roundpd op1 op2 op3 => .Roundpd op1 (op2.mapAddr δ) op3
  | .Cvtsi2sdq op1 op2 => .Cvtsi2sdq op1 (op2.mapAddr δ)
  | .Cvttsd2siq op1 op2 => .Cvttsd2siq op1 (op2.mapAddr δ)
  | .Sqrtpd op1 op2 => .Sqrtpd op1 (op2.mapAddr δ)
  | .Sqrtsd op1 op2 => .Sqrtsd op1 (op2.mapAddr δ)
  | .Pushq op => .Pushq (op.mapAddr δ)
  | .Popq op => .Popq (op.mapAddr δ)
  | .Jmp dest => .Jmp (dest.mapAddr δ)
  | .Jcc cond dest => .Jcc cond dest
  | .Call dest => .Call (dest.mapAddr δ)
  | .Leave => .Leave
  | .Ret => .Ret
  | .Syscall => .Syscall
  | .Lzcnt size op1 op2 => .Lzcnt size op1 (op2.mapAddr δ)
  | .Tzcnt size op1 op2 => .Tzcnt size op1 (op2.mapAddr δ)
  | .Popcnt size op1 op2 => .Popcnt size op1 (op2.mapAddr δ)
  | .Int3 => .Int3

end Monoasm

namespace Spec
open Monoasm

/-- A memory operand whose index register is `rsp`, without its index; other operands, and
    `[rip + rsp]`, are left as they are. -/
def dropRsp (a : IndAddr Val Nat) : IndAddr Val Nat :=
  match a.scale with
  | .none => a
  | .s1 sc r => if regVal r = 4 ∧ sc < 4 ∧ regVal a.base ≠ 16 then { a with scale := .none } else a

end Spec
