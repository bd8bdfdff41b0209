import Verif.Spec.Accept
/-
  The operands a statement mentions, and replacing register operands.
-/

namespace Monoasm
variable {ε lam : Type}

def IndAddr.regs (a : IndAddr ε lam) : List (Register ε) :=
  a.base :: match a.scale with
    | .none => []
    | .s1 _ r => [r]

def RmOperand.regs : RmOperand ε lam → List (Register ε)
  | .reg r => [r]
  | .ind a => a.regs
def RmiOperand.regs : RmiOperand ε lam → List (Register ε)
  | .imm _ => []
  | .reg r => [r]
  | .ind a => a.regs
def RiOperand.regs : RiOperand ε → List (Register ε)
  | .imm _ => []
  | .reg r => [r]
def XmOperand.regs : XmOperand ε lam → List (Register ε)
  | .xmm _ => []
  | .ind a => a.regs
def MovOperand.regs : MovOperand ε lam → List (Register ε)
  | .imm _ _ => []
  | .reg r => [r]
  | .xmm _ => []
  | .ind a => a.regs
def Dest.regs : Dest ε lam → List (Register ε)
  | .reg n => [.reg n]
  | .rel _ => []
  | .disp _ => []
  | .ind a => a.regs

def XmOperand.xmms : XmOperand ε lam → List (XmmReg ε)
  | .xmm x => [x]
  | .ind _ => []
def MovOperand.xmms : MovOperand ε lam → List (XmmReg ε)
  | .xmm x => [x]
  | _ => []

def RmOperand.addrs : RmOperand ε lam → List (IndAddr ε lam)
  | .ind a => [a]
  | _ => []
def RmiOperand.addrs : RmiOperand ε lam → List (IndAddr ε lam)
  | .ind a => [a]
  | _ => []
def XmOperand.addrs : XmOperand ε lam → List (IndAddr ε lam)
  | .ind a => [a]
  | _ => []
def MovOperand.addrs : MovOperand ε lam → List (IndAddr ε lam)
  | .ind a => [a]
  | _ => []
def Dest.addrs : Dest ε lam → List (IndAddr ε lam)
  | .ind a => [a]
  | _ => []

def IndAddr.mapRegs (f : Register ε → Register ε) (a : IndAddr ε lam) : IndAddr ε lam where
  base := f a.base
  scale := match a.scale with
    | .none => .none
    | .s1 sc r => .s1 sc (f r)
  disp := a.disp
def RmOperand.mapRegs (f : Register ε → Register ε) : RmOperand ε lam → RmOperand ε lam
  | .reg r => .reg (f r)
  | .ind a => .ind (a.mapRegs f)
def RmiOperand.mapRegs (f : Register ε → Register ε) : RmiOperand ε lam → RmiOperand ε lam
  | .imm i => .imm i
  | .reg r => .reg (f r)
  | .ind a => .ind (a.mapRegs f)
def RiOperand.mapRegs (f : Register ε → Register ε) : RiOperand ε → RiOperand ε
  | .imm i => .imm i
  | .reg r => .reg (f r)
def XmOperand.mapRegs (f : Register ε → Register ε) (g : XmmReg ε → XmmReg ε) : XmOperand ε lam → XmOperand ε lam
  | .xmm x => .xmm (g x)
  | .ind a => .ind (a.mapRegs f)
def MovOperand.mapRegs (f : Register ε → Register ε) (g : XmmReg ε → XmmReg ε) :
    MovOperand ε lam → MovOperand ε lam
  | .imm i sz => .imm i sz
  | .reg r => .reg (f r)
  | .xmm x => .xmm (g x)
  | .ind a => .ind (a.mapRegs f)
/-- A register destination of `jmp` and `call` is always written by name. -/
def Dest.mapRegs (f : Register ε → Register ε) : Dest ε lam → Dest ε lam
  | .ind a => .ind (a.mapRegs f)
  | d => d

/-- Register operands of a statement, base and index registers included. -/
def Inst.regs : Inst ε lam → List (Register ε)
  | .Label _ => []
  | .F64 _ => []
  | .I64 _ => []
  | .Movq op1 op2 => op1.regs ++ op2.regs
  | .Movl op1 op2 => op1.regs ++ op2.regs
  | .Movw op1 op2 => op1.regs ++ op2.regs
  | .Movb op1 op2 => op1.regs ++ op2.regs
  | .Movsxl op1 op2 => [op1] ++ op2.regs
  | .Movzxw op1 op2 => [op1] ++ op2.regs
  | .Movsxw op1 op2 => [op1] ++ op2.regs
  | .Movzxb op1 op2 => [op1] ++ op2.regs
  | .Movsxb op1 op2 => [op1] ++ op2.regs
  | .Add _ op1 op2 => op1.regs ++ op2.regs
  | .Sub _ op1 op2 => op1.regs ++ op2.regs
  | .Adc _ op1 op2 => op1.regs ++ op2.regs
  | .Sbb _ op1 op2 => op1.regs ++ op2.regs
  | .And _ op1 op2 => op1.regs ++ op2.regs
  | .Or _ op1 op2 => op1.regs ++ op2.regs
  | .Xor _ op1 op2 => op1.regs ++ op2.regs
  | .Cmp _ op1 op2 => op1.regs ++ op2.regs
  | .Xchg _ op1 op2 => op1.regs ++ op2.regs
  | .Negq op => op.regs
  | .Shl _ op1 op2 => op1.regs ++ op2.regs
  | .Shr _ op1 op2 => op1.regs ++ op2.regs
  | .Sal _ op1 op2 => op1.regs ++ op2.regs
  | .Sar _ op1 op2 => op1.regs ++ op2.regs
  | .Rol _ op1 op2 => op1.regs ++ op2.regs
  | .Ror _ op1 op2 => op1.regs ++ op2.regs
  | .Imul op1 op2 => op1.regs ++ op2.regs
  | .Idiv op => op.regs
  | .Idivl op => op.regs
  | .Div op => op.regs
  | .Divl op => op.regs
  | .Lea op1 op2 => op1.regs ++ op2.regs
  | .Testq op1 op2 => op1.regs ++ op2.regs
  | .Testb op1 op2 => op1.regs ++ op2.regs
  | .Setcc _ op => op.regs
  | .Cmovcc _ _ op1 op2 => [op1] ++ op2.regs
  | .Cqo => []
  | .Cdq => []
  | .Movsd op1 op2 => op1.regs ++ op2.regs
  | .Addsd _ op2 => op2.regs
  | .Subsd _ op2 => op2.regs
  | .Mulsd _ op2 => op2.regs
  | .Divsd _ op2 => op2.regs
  | .Xorps _ op2 => op2.regs
  | .UComIsd _ op2 => op2.regs
  | .Minsd _ op2 => op2.regs
  | .Maxsd _ op2 => op2.regs
  | .Andpd _ op2 => op2.regs
  | .Xorpd _ op2 => op2.regs
  | .Roundpd _ op2 _ => op2.regs
  | .Cvtsi2sdq _ op2 => op2.regs
  | .Cvttsd2siq op1 op2 => [op1] ++ op2.regs
  | .Sqrtpd _ op2 => op2.regs
  | .Sqrtsd _ op2 => op2.regs
  | .Pushq op => op.regs
  | .Popq op => op.regs
  | .Jmp dest => dest.regs
  | .Jcc _ _ => []
  | .Call dest => dest.regs
  | .Leave => []
  | .Ret => []
  | .Syscall => []
  | .Lzcnt _ op1 op2 => [op1] ++ op2.regs
  | .Tzcnt _ op1 op2 => [op1] ++ op2.regs
  | .Popcnt _ op1 op2 => [op1] ++ op2.regs
  | .Int3 => []

/-- xmm operands of a statement. -/
def Inst.xmms : Inst ε lam → List (XmmReg ε)
  | .Label _ => []
  | .F64 _ => []
  | .I64 _ => []
  | .Movq op1 op2 => op1.xmms ++ op2.xmms
  | .Movl _ _ => []
  | .Movw _ _ => []
  | .Movb _ _ => []
  | .Movsxl _ _ => []
  | .Movzxw _ _ => []
  | .Movsxw _ _ => []
  | .Movzxb _ _ => []
  | .Movsxb _ _ => []
  | .Add _ _ _ => []
  | .Sub _ _ _ => []
  | .Adc _ _ _ => []
  | .Sbb _ _ _ => []
  | .And _ _ _ => []
  | .Or _ _ _ => []
  | .Xor _ _ _ => []
  | .Cmp _ _ _ => []
  | .Xchg _ _ _ => []
  | .Negq _ => []
  | .Shl _ _ _ => []
  | .Shr _ _ _ => []
  | .Sal _ _ _ => []
  | .Sar _ _ _ => []
  | .Rol _ _ _ => []
  | .Ror _ _ _ => []
  | .Imul _ _ => []
  | .Idiv _ => []
  | .Idivl _ => []
  | .Div _ => []
  | .Divl _ => []
  | .Lea _ _ => []
  | .Testq _ _ => []
  | .Testb _ _ => []
  | .Setcc _ _ => []
  | .Cmovcc _ _ _ _ => []
  | .Cqo => []
  | .Cdq => []
  | .Movsd op1 op2 => op1.xmms ++ op2.xmms
  | .Addsd op1 op2 => [op1] ++ op2.xmms
  | .Subsd op1 op2 => [op1] ++ op2.xmms
  | .Mulsd op1 op2 => [op1] ++ op2.xmms
  | .Divsd op1 op2 => [op1] ++ op2.xmms
  | .Xorps op1 op2 => [op1] ++ op2.xmms
  | .UComIsd op1 op2 => [op1] ++ op2.xmms
  | .Minsd op1 op2 => [op1] ++ op2.xmms
  | .Maxsd op1 op2 => [op1] ++ op2.xmms
  | .Andpd op1 op2 => [op1] ++ op2.xmms
  | .Xorpd op1 op2 => [op1] ++ op2.xmms
  | .Roundpd op1 op2 _ => [op1] ++ op2.xmms
  | .Cvtsi2sdq op1 _ => [op1]
  | .Cvttsd2siq _ op2 => op2.xmms
  | .Sqrtpd op1 op2 => [op1] ++ op2.xmms
  | .Sqrtsd op1 op2 => [op1] ++ op2.xmms
  | .Pushq _ => []
  | .Popq _ => []
  | .Jmp _ => []
  | .Jcc _ _ => []
  | .Call _ => []
  | .Leave => []
  | .Ret => []
  | .Syscall => []
  | .Lzcnt _ _ _ => []
  | .Tzcnt _ _ _ => []
  | .Popcnt _ _ _ => []
  | .Int3 => []

/-- Memory operands of a statement. -/
def Inst.addrs : Inst ε lam → List (IndAddr ε lam)
  | .Label _ => []
  | .F64 _ => []
  | .I64 _ => []
  | .Movq op1 op2 => op1.addrs ++ op2.addrs
  | .Movl op1 op2 => op1.addrs ++ op2.addrs
  | .Movw op1 op2 => op1.addrs ++ op2.addrs
  | .Movb op1 op2 => op1.addrs ++ op2.addrs
  | .Movsxl _ op2 => op2.addrs
  | .Movzxw _ op2 => op2.addrs
  | .Movsxw _ op2 => op2.addrs
  | .Movzxb _ op2 => op2.addrs
  | .Movsxb _ op2 => op2.addrs
  | .Add _ op1 op2 => op1.addrs ++ op2.addrs
  | .Sub _ op1 op2 => op1.addrs ++ op2.addrs
  | .Adc _ op1 op2 => op1.addrs ++ op2.addrs
  | .Sbb _ op1 op2 => op1.addrs ++ op2.addrs
  | .And _ op1 op2 => op1.addrs ++ op2.addrs
  | .Or _ op1 op2 => op1.addrs ++ op2.addrs
  | .Xor _ op1 op2 => op1.addrs ++ op2.addrs
  | .Cmp _ op1 op2 => op1.addrs ++ op2.addrs
  | .Xchg _ op1 op2 => op1.addrs ++ op2.addrs
  | .Negq op => op.addrs
  | .Shl _ op1 _ => op1.addrs
  | .Shr _ op1 _ => op1.addrs
  | .Sal _ op1 _ => op1.addrs
  | .Sar _ op1 _ => op1.addrs
  | .Rol _ op1 _ => op1.addrs
  | .Ror _ op1 _ => op1.addrs
  | .Imul op1 op2 => op1.addrs ++ op2.addrs
  | .Idiv op => op.addrs
  | .Idivl op => op.addrs
  | .Div op => op.addrs
  | .Divl op => op.addrs
  | .Lea op1 op2 => op1.addrs ++ op2.addrs
  | .Testq op1 _ => op1.addrs
  | .Testb op1 _ => op1.addrs
  | .Setcc _ op => op.addrs
  | .Cmovcc _ _ _ op2 => op2.addrs
  | .Cqo => []
  | .Cdq => []
  | .Movsd op1 op2 => op1.addrs ++ op2.addrs
  | .Addsd _ op2 => op2.addrs
  | .Subsd _ op2 => op2.addrs
  | .Mulsd _ op2 => op2.addrs
  | .Divsd _ op2 => op2.addrs
  | .Xorps _ op2 => op2.addrs
  | .UComIsd _ op2 => op2.addrs
  | .Minsd _ op2 => op2.addrs
  | .Maxsd _ op2 => op2.addrs
  | .Andpd _ op2 => op2.addrs
  | .Xorpd _ op2 => op2.addrs
  | .Roundpd _ op2 _ => op2.addrs
  | .Cvtsi2sdq _ op2 => op2.addrs
  | .Cvttsd2siq _ op2 => op2.addrs
  | .Sqrtpd _ op2 => op2.addrs
  | .Sqrtsd _ op2 => op2.addrs
  | .Pushq op => op.addrs
  | .Popq op => op.addrs
  | .Jmp dest => dest.addrs
  | .Jcc _ _ => []
  | .Call dest => dest.addrs
  | .Leave => []
  | .Ret => []
  | .Syscall => []
  | .Lzcnt _ _ op2 => op2.addrs
  | .Tzcnt _ _ op2 => op2.addrs
  | .Popcnt _ _ op2 => op2.addrs
  | .Int3 => []

/-- The same statement with every register operand `r` replaced by `f r` and every xmm operand `x`
    by `g x`. -/
def Inst.mapRegs (f : Register ε → Register ε) (g : XmmReg ε → XmmReg ε) : Inst ε lam → Inst ε lam
  | .Label l => .Label l
  | .F64 bits => .F64 bits
  | .I64 v => .I64 v
  | .Movq op1 op2 => .Movq (op1.mapRegs f g) (op2.mapRegs f g)
  | .Movl op1 op2 => .Movl (op1.mapRegs f) (op2.mapRegs f)
  | .Movw op1 op2 => .Movw (op1.mapRegs f) (op2.mapRegs f)
  | .Movb op1 op2 => .Movb (op1.mapRegs f) (op2.mapRegs f)
  | .Movsxl op1 op2 => .Movsxl (f op1) (op2.mapRegs f)
  | .Movzxw op1 op2 => .Movzxw (f op1) (op2.mapRegs f)
  | .Movsxw op1 op2 => .Movsxw (f op1) (op2.mapRegs f)
  | .Movzxb op1 op2 => .Movzxb (f op1) (op2.mapRegs f)
  | .Movsxb op1 op2 => .Movsxb (f op1) (op2.mapRegs f)
  | .Add size op1 op2 => .Add size (op1.mapRegs f) (op2.mapRegs f)
  | .Sub size op1 op2 => .Sub size (op1.mapRegs f) (op2.mapRegs f)
  | .Adc size op1 op2 => .Adc size (op1.mapRegs f) (op2.mapRegs f)
  | .Sbb size op1 op2 => .Sbb size (op1.mapRegs f) (op2.mapRegs f)
  | .And size op1 op2 => .And size (op1.mapRegs f) (op2.mapRegs f)
  | .Or size op1 op2 => .Or size (op1.mapRegs f) (op2.mapRegs f)
  | .Xor size op1 op2 => .Xor size (op1.mapRegs f) (op2.mapRegs f)
  | .Cmp size op1 op2 => .Cmp size (op1.mapRegs f) (op2.mapRegs f)
  | .Xchg size op1 op2 => .Xchg size (op1.mapRegs f) (op2.mapRegs f)
  | .Negq op => .Negq (op.mapRegs f)
  | .Shl size op1 op2 => .Shl size (op1.mapRegs f) (op2.mapRegs f)
  | .Shr size op1 op2 => .Shr size (op1.mapRegs f) (op2.mapRegs f)
  | .Sal size op1 op2 => .Sal size (op1.mapRegs f) (op2.mapRegs f)
  | .Sar size op1 op2 => .Sar size (op1.mapRegs f) (op2.mapRegs f)
  | .Rol size op1 op2 => .Rol size (op1.mapRegs f) (op2.mapRegs f)
  | .Ror size op1 op2 => .Ror size (op1.mapRegs f) (op2.mapRegs f)
  | .Imul op1 op2 => .Imul (op1.mapRegs f) (op2.mapRegs f)
  | .Idiv op => .Idiv (op.mapRegs f)
  | .Idivl op => .Idivl (op.mapRegs f)
  | .Div op => .Div (op.mapRegs f)
  | .Divl op => .Divl (op.mapRegs f)
  | .Lea op1 op2 => .Lea (op1.mapRegs f) (op2.mapRegs f)
  | .Testq op1 op2 => .Testq (op1.mapRegs f) (op2.mapRegs f)
  | .Testb op1 op2 => .Testb (op1.mapRegs f) (op2.mapRegs f)
  | .Setcc cond op => .Setcc cond (op.mapRegs f)
  | .Cmovcc size cond op1 op2 => .Cmovcc size cond (f op1) (op2.mapRegs f)
  | .Cqo => .Cqo
  | .Cdq => .Cdq
  | .Movsd op1 op2 => .Movsd (op1.mapRegs f g) (op2.mapRegs f g)
  | .Addsd op1 op2 => .Addsd (g op1) (op2.mapRegs f g)
  | .Subsd op1 op2 => .Subsd (g op1) (op2.mapRegs f g)
  | .Mulsd op1 op2 => .Mulsd (g op1) (op2.mapRegs f g)
  | .Divsd op1 op2 => .Divsd (g op1) (op2.mapRegs f g)
  | .Xorps op1 op2 => .Xorps (g op1) (op2.mapRegs f g)
  | .UComIsd op1 op2 => .UComIsd (g op1) (op2.mapRegs f g)
  | .Minsd op1 op2 => .Minsd (g op1) (op2.mapRegs f g)
  | .Maxsd op1 op2 => .Maxsd (g op1) (op2.mapRegs f g)
  | .Andpd op1 op2 => .Andpd (g op1) (op2.mapRegs f g)
  | .Xorpd op1 op2 => .Xorpd (g op1) (op2.mapRegs f g)
  | .Roundpd op1 op2 op3 => .Roundpd (g op1) (op2.mapRegs f g) op3
  | .Cvtsi2sdq op1 op2 => .Cvtsi2sdq (g op1) (op2.mapRegs f)
  | .Cvttsd2siq op1 op2 => .Cvttsd2siq (f op1) (op2.mapRegs f g)
  | .Sqrtpd op1 op2 => .Sqrtpd (g op1) (op2.mapRegs f g)
  | .Sqrtsd op1 op2 => .Sqrtsd (g op1) (op2.mapRegs f g)
  | .Pushq op => .Pushq (op.mapRegs f)
  | .Popq op => .Popq (op.mapRegs f)
  | .Jmp dest => .Jmp (dest.mapRegs f)
  | .Jcc cond dest => .Jcc cond dest
  | .Call dest => .Call (dest.mapRegs f)
  | .Leave => .Leave
  | .Ret => .Ret
  | .Syscall => .Syscall
  | .Lzcnt size op1 op2 => .Lzcnt size (f op1) (op2.mapRegs f)
  | .Tzcnt size op1 op2 => .Tzcnt size (f op1) (op2.mapRegs f)
  | .Popcnt size op1 op2 => .Popcnt size (f op1) (op2.mapRegs f)
  | .Int3 => .Int3

end Monoasm

namespace Spec
open Monoasm

/-- All registers named or computed exist (`rip` counts as number 16) and scale factors are 1, 2, 4 or 8. -/
structure InFile (i : Inst Val Nat) : Prop where
  regs : ∀ r ∈ i.regs, regVal r ≤ 16
  xmms : ∀ x ∈ i.xmms, xmmVal x < 16
  scale : ∀ a ∈ i.addrs, ∀ sc r, a.scale = .s1 sc r → sc < 4

/-- All registers named or computed exist (`rip` counts as number 16), scale factors are 1, 2, 4 or 8
    and the index register is not `rsp`. -/
structure InRange (i : Inst Val Nat) : Prop where
  regs : ∀ r ∈ i.regs, regVal r ≤ 16
  xmms : ∀ x ∈ i.xmms, xmmVal x < 16
  scale : ∀ a ∈ i.addrs, ∀ sc r, a.scale = .s1 sc r → sc < 4 ∧ regVal r ≠ 4

/-- A computed register written by name. -/
def named : Register Val → Register Val
  | .reg n => .reg n
  | .expr e => .reg (e.setWidth 8)

def namedXmm : XmmReg Val → XmmReg Val
  | .no n => .no n
  | .expr e => .no (e.setWidth 8)

end Spec
