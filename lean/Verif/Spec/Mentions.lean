import Verif.Model.Inst
/-
  The labels an instruction refers to.
-/

namespace Monoasm
variable {ε lam : Type}

def MDisp.labels : MDisp ε lam → List lam
  | .label l => [l]
  | _ => []

def IndAddr.labels (a : IndAddr ε lam) : List lam := a.disp.labels

def RmOperand.labels : RmOperand ε lam → List lam
  | .ind a => a.labels
  | _ => []

def RmiOperand.labels : RmiOperand ε lam → List lam
  | .ind a => a.labels
  | _ => []

def XmOperand.labels : XmOperand ε lam → List lam
  | .ind a => a.labels
  | _ => []

def MovOperand.labels : MovOperand ε lam → List lam
  | .ind a => a.labels
  | _ => []

def Dest.labels : Dest ε lam → List lam
  | .rel l => [l]
  | .ind a => a.labels
  | _ => []

/-- Labels referred to (or, for a label statement, bound) by a statement. -/
def Inst.labels : Inst ε lam → List lam
  | .Label l => [l]
  | .F64 _ => []
  | .I64 _ => []
  | .Movq op1 op2 => op1.labels ++ op2.labels
  | .Movl op1 op2 => op1.labels ++ op2.labels
  | .Movw op1 op2 => op1.labels ++ op2.labels
  | .Movb op1 op2 => op1.labels ++ op2.labels
  | .Movsxl _ op2 => op2.labels
  | .Movzxw _ op2 => op2.labels
  | .Movsxw _ op2 => op2.labels
  | .Movzxb _ op2 => op2.labels
  | .Movsxb _ op2 => op2.labels
  | .Add _ op1 op2 => op1.labels ++ op2.labels
  | .Sub _ op1 op2 => op1.labels ++ op2.labels
  | .Adc _ op1 op2 => op1.labels ++ op2.labels
  | .Sbb _ op1 op2 => op1.labels ++ op2.labels
  | .And _ op1 op2 => op1.labels ++ op2.labels
  | .Or _ op1 op2 => op1.labels ++ op2.labels
  | .Xor _ op1 op2 => op1.labels ++ op2.labels
  | .Cmp _ op1 op2 => op1.labels ++ op2.labels
  | .Xchg _ op1 op2 => op1.labels ++ op2.labels
  | .Negq op => op.labels
  | .Shl _ op1 _ => op1.labels
  | .Shr _ op1 _ => op1.labels
  | .Sal _ op1 _ => op1.labels
  | .Sar _ op1 _ => op1.labels
  | .Rol _ op1 _ => op1.labels
  | .Ror _ op1 _ => op1.labels
  | .Imul op1 op2 => op1.labels ++ op2.labels
  | .Idiv op => op.labels
  | .Idivl op => op.labels
  | .Div op => op.labels
  | .Divl op => op.labels
  | .Lea op1 op2 => op1.labels ++ op2.labels
  | .Testq op1 _ => op1.labels
  | .Testb op1 _ => op1.labels
  | .Setcc _ op => op.labels
  | .Cmovcc _ _ _ op2 => op2.labels
  | .Cqo => []
  | .Cdq => []
  | .Movsd op1 op2 => op1.labels ++ op2.labels
  | .Addsd _ op2 => op2.labels
  | .Subsd _ op2 => op2.labels
  | .Mulsd _ op2 => op2.labels
  | .Divsd _ op2 => op2.labels
  | .Xorps _ op2 => op2.labels
  | .UComIsd _ op2 => op2.labels
  | .Minsd _ op2 => op2.labels
  | .Maxsd _ op2 => op2.labels
  | .Andpd _ op2 => op2.labels
  | .Xorpd _ op2 => op2.labels
  | .Roundpd _ op2 _ => op2.labels
  | .Cvtsi2sdq _ op2 => op2.labels
  | .Cvttsd2siq _ op2 => op2.labels
  | .Sqrtpd _ op2 => op2.labels
  | .Sqrtsd _ op2 => op2.labels
  | .Pushq op => op.labels
  | .Popq op => op.labels
  | .Jmp dest => dest.labels
  | .Jcc _ dest => [dest]
  | .Call dest => dest.labels
  | .Leave => []
  | .Ret => []
  | .Syscall => []
  | .Lzcnt _ _ op2 => op2.labels
  | .Tzcnt _ _ op2 => op2.labels
  | .Popcnt _ _ op2 => op2.labels
  | .Int3 => []

/-- The statement refers to (or binds) label `l`. -/
def Inst.mentions (i : Inst ε lam) (l : lam) : Prop := l ∈ i.labels

end Monoasm
