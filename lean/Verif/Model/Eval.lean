import Verif.Model.Inst
/-
  The syntax tree with its Rust expressions evaluated: `i.map f g` has the expression `e` replaced by
  `f e` and the label `l` by `g l`. The code that the macro generates for the statement `i` does
  `compile (i.map ρ σ)`, where `ρ e` is the value of the expression `e` and `σ l` the `DestLabel`
  that the variable `l` holds.
-/

namespace Monoasm
variable {ε ε' lam lam' : Type} (f : ε → ε') (g : lam → lam')

def Register.map : Register ε → Register ε'
  | .reg n => .reg n
  | .expr e => .expr (f e)

def XmmReg.map : XmmReg ε → XmmReg ε'
  | .no n => .no n
  | .expr e => .expr (f e)

def MScale.map : MScale ε → MScale ε'
  | .none => .none
  | .s1 k r => .s1 k (r.map f)

def MDisp.map : MDisp ε lam → MDisp ε' lam'
  | .imm d => .imm d
  | .expr n e => .expr n (f e)
  | .label l => .label (g l)

def IndAddr.map (a : IndAddr ε lam) : IndAddr ε' lam' := ⟨a.base.map f, a.scale.map f, a.disp.map f g⟩

def RmOperand.map : RmOperand ε lam → RmOperand ε' lam'
  | .reg r => .reg (r.map f)
  | .ind a => .ind (a.map f g)

def RmiOperand.map : RmiOperand ε lam → RmiOperand ε' lam'
  | .imm i => .imm (f i)
  | .reg r => .reg (r.map f)
  | .ind a => .ind (a.map f g)

def RiOperand.map : RiOperand ε → RiOperand ε'
  | .imm i => .imm (f i)
  | .reg r => .reg (r.map f)

def XmOperand.map : XmOperand ε lam → XmOperand ε' lam'
  | .xmm x => .xmm (x.map f)
  | .ind a => .ind (a.map f g)

def MovOperand.map : MovOperand ε lam → MovOperand ε' lam'
  | .imm i sz => .imm (f i) sz
  | .reg r => .reg (r.map f)
  | .xmm x => .xmm (x.map f)
  | .ind a => .ind (a.map f g)

def Dest.map : Dest ε lam → Dest ε' lam'
  | .reg n => .reg n
  | .rel l => .rel (g l)
  | .disp e => .disp (f e)
  | .ind a => .ind (a.map f g)

def Inst.map : Inst ε lam → Inst ε' lam'
  | .Label l => .Label (g l)
  | .F64 v => .F64 v
  | .I64 v => .I64 v
  | .Movq a b => .Movq (a.map f g) (b.map f g)
  | .Movl a b => .Movl (a.map f g) (b.map f g)
  | .Movw a b => .Movw (a.map f g) (b.map f g)
  | .Movb a b => .Movb (a.map f g) (b.map f g)
  | .Movsxl a b => .Movsxl (a.map f) (b.map f g)
  | .Movzxw a b => .Movzxw (a.map f) (b.map f g)
  | .Movsxw a b => .Movsxw (a.map f) (b.map f g)
  | .Movzxb a b => .Movzxb (a.map f) (b.map f g)
  | .Movsxb a b => .Movsxb (a.map f) (b.map f g)
  | .Add sz a b => .Add sz (a.map f g) (b.map f g)
  | .Sub sz a b => .Sub sz (a.map f g) (b.map f g)
  | .Adc sz a b => .Adc sz (a.map f g) (b.map f g)
  | .Sbb sz a b => .Sbb sz (a.map f g) (b.map f g)
  | .And sz a b => .And sz (a.map f g) (b.map f g)
  | .Or sz a b => .Or sz (a.map f g) (b.map f g)
  | .Xor sz a b => .Xor sz (a.map f g) (b.map f g)
  | .Cmp sz a b => .Cmp sz (a.map f g) (b.map f g)
  | .Xchg sz a b => .Xchg sz (a.map f g) (b.map f g)
  | .Negq a => .Negq (a.map f g)
  | .Shl sz a b => .Shl sz (a.map f g) (b.map f)
  | .Shr sz a b => .Shr sz (a.map f g) (b.map f)
  | .Sal sz a b => .Sal sz (a.map f g) (b.map f)
  | .Sar sz a b => .Sar sz (a.map f g) (b.map f)
  | .Rol sz a b => .Rol sz (a.map f g) (b.map f)
  | .Ror sz a b => .Ror sz (a.map f g) (b.map f)
  | .Imul a b => .Imul (a.map f g) (b.map f g)
  | .Idiv a => .Idiv (a.map f g)
  | .Idivl a => .Idivl (a.map f g)
  | .Div a => .Div (a.map f g)
  | .Divl a => .Divl (a.map f g)
  | .Lea a b => .Lea (a.map f g) (b.map f g)
  | .Testq a b => .Testq (a.map f g) (b.map f)
  | .Testb a b => .Testb (a.map f g) (b.map f)
  | .Setcc c a => .Setcc c (a.map f g)
  | .Cmovcc sz c a b => .Cmovcc sz c (a.map f) (b.map f g)
  | .Cqo => .Cqo
  | .Cdq => .Cdq
  | .Movsd a b => .Movsd (a.map f g) (b.map f g)
  | .Addsd a b => .Addsd (a.map f) (b.map f g)
  | .Subsd a b => .Subsd (a.map f) (b.map f g)
  | .Mulsd a b => .Mulsd (a.map f) (b.map f g)
  | .Divsd a b => .Divsd (a.map f) (b.map f g)
  | .Xorps a b => .Xorps (a.map f) (b.map f g)
  | .UComIsd a b => .UComIsd (a.map f) (b.map f g)
  | .Minsd a b => .Minsd (a.map f) (b.map f g)
  | .Maxsd a b => .Maxsd (a.map f) (b.map f g)
  | .Andpd a b => .Andpd (a.map f) (b.map f g)
  | .Xorpd a b => .Xorpd (a.map f) (b.map f g)
  | .Roundpd a b e => .Roundpd (a.map f) (b.map f g) (f e)
  | .Cvtsi2sdq a b => .Cvtsi2sdq (a.map f) (b.map f g)
  | .Cvttsd2siq a b => .Cvttsd2siq (a.map f) (b.map f g)
  | .Sqrtpd a b => .Sqrtpd (a.map f) (b.map f g)
  | .Sqrtsd a b => .Sqrtsd (a.map f) (b.map f g)
  | .Pushq a => .Pushq (a.map f g)
  | .Popq a => .Popq (a.map f g)
  | .Jmp d => .Jmp (d.map f g)
  | .Jcc c d => .Jcc c (g d)
  | .Call d => .Call (d.map f g)
  | .Leave => .Leave
  | .Ret => .Ret
  | .Syscall => .Syscall
  | .Lzcnt sz a b => .Lzcnt sz (a.map f) (b.map f g)
  | .Tzcnt sz a b => .Tzcnt sz (a.map f) (b.map f g)
  | .Popcnt sz a b => .Popcnt sz (a.map f) (b.map f g)
  | .Int3 => .Int3

end Monoasm
