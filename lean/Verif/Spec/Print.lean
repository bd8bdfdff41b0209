import Verif.Spec.Grammar
/-
  Specification: a printer for statements, and which statements have a text.
-/

namespace Spec
open Monoasm

/-- Operands by class. -/
inductive Written where
  | reg (r : Register (List Tok))
  | rm (a : RmOperand (List Tok) String)
  | rmi (a : RmiOperand (List Tok) String)
  | ri (a : RiOperand (List Tok))
  | xmm (x : XmmReg (List Tok))
  | xm (a : XmOperand (List Tok) String)
  | mov (a : MovOperand (List Tok) String)
  | dest (d : Dest (List Tok) String)
  | label (l : String)
  | imm (e : List Tok)
  | f64 (b : BitVec 64)
  | i64 (v : BitVec 64)

/-- The operands of a statement. -/
def writtens : TInst → List Written
  | .Label _ => []
  | .F64 b => [.f64 b]
  | .I64 v => [.i64 v]
  | .Movq a b => [.mov a, .mov b]
  | .Movl a b => [.rm a, .rmi b]
  | .Movw a b => [.rm a, .rmi b]
  | .Movb a b => [.rm a, .rmi b]
  | .Movsxl a b => [.reg a, .rm b]
  | .Movzxw a b => [.reg a, .rm b]
  | .Movsxw a b => [.reg a, .rm b]
  | .Movzxb a b => [.reg a, .rm b]
  | .Movsxb a b => [.reg a, .rm b]
  | .Add _ a b => [.rm a, .rmi b]
  | .Sub _ a b => [.rm a, .rmi b]
  | .Adc _ a b => [.rm a, .rmi b]
  | .Sbb _ a b => [.rm a, .rmi b]
  | .And _ a b => [.rm a, .rmi b]
  | .Or _ a b => [.rm a, .rmi b]
  | .Xor _ a b => [.rm a, .rmi b]
  | .Cmp _ a b => [.rm a, .rmi b]
  | .Xchg _ a b => [.rm a, .rm b]
  | .Negq a => [.rm a]
  | .Shl _ a b => [.rm a, .ri b]
  | .Shr _ a b => [.rm a, .ri b]
  | .Sal _ a b => [.rm a, .ri b]
  | .Sar _ a b => [.rm a, .ri b]
  | .Rol _ a b => [.rm a, .ri b]
  | .Ror _ a b => [.rm a, .ri b]
  | .Imul a b => [.rmi a, .rmi b]
  | .Idiv a => [.rm a]
  | .Idivl a => [.rm a]
  | .Div a => [.rm a]
  | .Divl a => [.rm a]
  | .Lea a b => [.rm a, .rm b]
  | .Testq a b => [.rm a, .ri b]
  | .Testb a b => [.rm a, .ri b]
  | .Setcc _ a => [.rm a]
  | .Cmovcc _ _ a b => [.reg a, .rm b]
  | .Cqo => []
  | .Cdq => []
  | .Movsd a b => [.xm a, .xm b]
  | .Addsd a b => [.xmm a, .xm b]
  | .Subsd a b => [.xmm a, .xm b]
  | .Mulsd a b => [.xmm a, .xm b]
  | .Divsd a b => [.xmm a, .xm b]
  | .Xorps a b => [.xmm a, .xm b]
  | .UComIsd a b => [.xmm a, .xm b]
  | .Minsd a b => [.xmm a, .xm b]
  | .Maxsd a b => [.xmm a, .xm b]
  | .Andpd a b => [.xmm a, .xm b]
  | .Xorpd a b => [.xmm a, .xm b]
  | .Roundpd a b c => [.xmm a, .xm b, .imm c]
  | .Cvtsi2sdq a b => [.xmm a, .rm b]
  | .Cvttsd2siq a b => [.reg a, .xm b]
  | .Sqrtpd a b => [.xmm a, .xm b]
  | .Sqrtsd a b => [.xmm a, .xm b]
  | .Pushq a => [.rm a]
  | .Popq a => [.rm a]
  | .Jmp d => [.dest d]
  | .Jcc _ l => [.label l]
  | .Call d => [.dest d]
  | .Leave => []
  | .Ret => []
  | .Syscall => []
  | .Lzcnt _ a b => [.reg a, .rm b]
  | .Tzcnt _ a b => [.reg a, .rm b]
  | .Popcnt _ a b => [.reg a, .rm b]
  | .Int3 => []

/-- The name is that of a register. -/
def isRegister (s : String) : Bool := regNames.contains (lowercase s) || lowercase s == "cl"

def printReg : Register (List Tok) → List Tok
  | .reg n => [.ident (regNames.getD n.toNat "")]
  | .expr e => [.ident "R", .group .paren e]

def printXmm : XmmReg (List Tok) → List Tok
  | .no n => [.ident ("xmm" ++ toString n.toNat)]
  | .expr e => [.ident "xmm", .group .paren e]

/-- A displacement with its sign. The least 32-bit number has no negative that fits. A label with the name of
    a register is written with a minus sign: with a plus sign it would be an index register. -/
def printDisp : MDisp (List Tok) String → List Tok
  | .imm d =>
    if d = 0 then []
    else if 0 ≤ d.toInt then [.punct '+', .int d.toInt.natAbs ""]
    else if d.toInt = -2147483648 then [.punct '+', .punct '-', .int d.toInt.natAbs ""]
    else [.punct '-', .int d.toInt.natAbs ""]
  | .expr false e => [.punct '+', .group .paren e]
  | .expr true e => [.punct '-', .group .paren e]
  | .label l => if l = "R" || isRegister l then [.punct '-', .ident l] else [.punct '+', .ident l]

def printScale (k : BitVec 8) : List Tok := if k = 0 then [] else [.punct '*', .int (2 ^ k.toNat) ""]

def printAddr : IndAddr (List Tok) String → List Tok
  | ⟨b, .none, d⟩ => [.group .bracket (printReg b ++ printDisp d)]
  | ⟨b, .s1 k i, d⟩ => [.group .bracket (printReg b ++ .punct '+' :: (printReg i ++ printScale k ++ printDisp d))]

/-- Literals as they are, other expressions in parentheses. -/
def printImm : List Tok → List Tok
  | [.int n suf] => [.int n suf]
  | e => [.group .paren e]

def printOperand : Written → List Tok
  | .reg r => printReg r
  | .rm (.reg r) => printReg r
  | .rm (.ind a) => printAddr a
  | .rmi (.imm e) => printImm e
  | .rmi (.reg r) => printReg r
  | .rmi (.ind a) => printAddr a
  | .ri (.imm e) => printImm e
  | .ri (.reg r) => printReg r
  | .xmm x => printXmm x
  | .xm (.xmm x) => printXmm x
  | .xm (.ind a) => printAddr a
  | .mov (.imm e none) => printImm e
  | .mov (.imm e (some _)) => .ident "qword" :: printImm e
  | .mov (.reg r) => printReg r
  | .mov (.xmm x) => printXmm x
  | .mov (.ind a) => printAddr a
  | .dest (.reg n) => [.ident (regNames.getD n.toNat "")]
  | .dest (.rel l) => [.ident l]
  | .dest (.disp e) => [.group .paren e]
  | .dest (.ind a) => printAddr a
  | .label l => [.ident l]
  | .imm e => printImm e
  | .f64 b => [.float b]
  | .i64 v => if 0 ≤ v.toInt then [.int v.toInt.natAbs ""] else [.punct '-', .int v.toInt.natAbs ""]

/-- The text of a statement. -/
def print : TInst → List Tok
  | .Label l => [.ident l, .punct ':']
  | i => .ident ((spellings i).headD "") :: (commas ((writtens i).map printOperand) ++ [.punct ';'])

/-- The text of a program. -/
def printAll (is : List TInst) : List Tok := is.flatMap print

section
variable (X : RustExpr)

def RegOk : Register (List Tok) → Prop
  | .reg n => n.toNat < 17
  | .expr e => IsExpr X e

def XmmOk : XmmReg (List Tok) → Prop
  | .no n => n.toNat < 16
  | .expr _ => True

def DispOk : MDisp (List Tok) String → Prop
  | .expr _ e => IsExpr X e
  | _ => True

def ScaleOk : MScale (List Tok) → Prop
  | .none => True
  | .s1 k i => k < 4 ∧ RegOk X i

def AddrOk (a : IndAddr (List Tok) String) : Prop := RegOk X a.base ∧ ScaleOk X a.scale ∧ DispOk X a.disp

/-- Operands that can be written: registers exist, factors are 1, 2, 4 or 8, computed registers and
    displacements are expressions, destinations of jumps and calls are not named like registers. -/
def OperandOk : Written → Prop
  | .reg r => RegOk X r
  | .rm (.reg r) => RegOk X r
  | .rm (.ind a) => AddrOk X a
  | .rmi (.imm _) => True
  | .rmi (.reg r) => RegOk X r
  | .rmi (.ind a) => AddrOk X a
  | .ri (.imm _) => True
  | .ri (.reg r) => RegOk X r
  | .xmm x => XmmOk x
  | .xm (.xmm x) => XmmOk x
  | .xm (.ind a) => AddrOk X a
  | .mov (.imm _ none) => True
  | .mov (.imm _ (some sz)) => sz = .QWORD
  | .mov (.reg r) => RegOk X r
  | .mov (.xmm x) => XmmOk x
  | .mov (.ind a) => AddrOk X a
  | .dest (.reg n) => n.toNat < 17
  | .dest (.rel l) => isRegister l = false
  | .dest (.disp _) => True
  | .dest (.ind a) => AddrOk X a
  | _ => True

/-- Statements that can be written: there is a mnemonic, and the operands can be written. -/
def Expressible (i : TInst) : Prop :=
  ((∃ l, i = .Label l) ∨ spellings i ≠ []) ∧ ∀ o ∈ writtens i, OperandOk X o

/-- The grammar of the operands by class. -/
def OperandSyn : Written → List Tok → Prop
  | .reg r => RegSyn X r
  | .rm a => RmSyn X a
  | .rmi a => RmiSyn X a
  | .ri a => RiSyn X a
  | .xmm x => XmmSyn x
  | .xm a => XmSyn X a
  | .mov a => MovSyn X a
  | .dest d => DestSyn X d
  | .label l => LabelSyn l
  | .imm e => ImmSyn e
  | .f64 b => FloatSyn b
  | .i64 v => I64Syn v

end
end Spec
