import Verif.Model.Display
/-
  The places where the macro puts an operand next to other tokens of the expansion, as tokens.
  (`Model/Compile.lean` and `Model/Expand.lean` take the operand for a unit.)

  A negative literal made by `quote!` out of a number is the token `-` followed by the literal.
-/

namespace Monoasm

/-- `e as T` -/
def asTokens (ts : List Tok) (T : String) : List Tok := ts ++ [.other "as", .ident T]

/-- The argument of `Disp::from_disp`/`Disp::from_label` in `ToTokens for Disp`, parse.rs:453-468, with
    `quote!(#expr as i32)`, parse.rs:487, and `quote!(-(#ts))`, parse.rs:447 -/
def MDisp.tokens : MDisp Texpr String → List Tok
  | .imm d => intTokens d.toInt "i32"
  | .expr false e => asTokens e "i32"
  | .expr true e => [.punct '-', .group .paren (asTokens e "i32")]
  | .label l => [.ident l]

/-- The argument of `Reg::from` in `ToTokens for Register`, parse.rs:131-140, and of the quoted
    registers of `parse_xmm`, parse.rs:207, inst.rs:746 -/
def regTokens (n : BitVec 8) : List Tok := asTokens [.int n.toNat "u8"] "u64"

/-- `(#i) as i64`: asm.rs:67, 82, 100, 115, 374, 382, 401, 437, 453, 479, 495, 526, 542, 607, 666, 725,
    791, 880, 908 -/
def immTokens (i : Texpr) : List Tok := asTokens [.group .paren i] "i64"

/-- `#imm as i64` in `call (e)`, asm.rs:289 -/
def callTokens (imm : Texpr) : List Tok := asTokens imm "i64"

/-- `#i as u64`, asm.rs:12 -/
def dqTokens (v : BitVec 64) : List Tok := asTokens (intTokens v.toInt "i64") "u64"

/-- `&#f.to_ne_bytes()`, asm.rs:9. `quote!` panics if the number is not finite
    (`proc_macro2::Literal::f64_suffixed`). -/
def dqFloatTokens (b : BitVec 64) : Option (List Tok) :=
  if b &&& 0x7ff0000000000000 = 0x7ff0000000000000 then none else
  some (.punct '&' ::
    ((if b.msb then [.punct '-', .float (b ^^^ 0x8000000000000000)] else [.float b]) ++
      [.punct '.', .ident "to_ne_bytes", .group .paren []]))

/-- Where the operand `e` of the user stands in the expansion. -/
inductive Place where
  /-- immediate: `(e) as i64` -/
  | imm
  /-- register number: `Reg::from(e)` -/
  | reg
  /-- displacement: `e as i32` -/
  | disp
  /-- displacement after `-`: `-(e as i32)` -/
  | minus
  /-- distance of a call: `e as i64` -/
  | call
  /-- rounding mode: `jit.emitb(e)` -/
  | mode
deriving DecidableEq, Repr

/-- The tokens around the operand: the lines given above; parse.rs:136, inst.rs:782, 850; asm.rs:243 -/
def Place.tokens : Place → Texpr → List Tok
  | .imm, e => immTokens e
  | .reg, e => e
  | .disp, e => (MDisp.expr (lam := String) false e).tokens
  | .minus, e => (MDisp.expr (lam := String) true e).tokens
  | .call, e => callTokens e
  | .mode, e => e

/-! A statement with each operand marked by its place. -/

section
variable {ε lam : Type}

def Register.placed : Register ε → Register (Place × ε)
  | .reg n => .reg n
  | .expr e => .expr (.reg, e)

def XmmReg.placed : XmmReg ε → XmmReg (Place × ε)
  | .no n => .no n
  | .expr e => .expr (.reg, e)

def MScale.placed : MScale ε → MScale (Place × ε)
  | .none => .none
  | .s1 k r => .s1 k r.placed

def MDisp.placed : MDisp ε lam → MDisp (Place × ε) lam
  | .imm d => .imm d
  | .expr false e => .expr false (.disp, e)
  | .expr true e => .expr true (.minus, e)
  | .label l => .label l

def IndAddr.placed (a : IndAddr ε lam) : IndAddr (Place × ε) lam := ⟨a.base.placed, a.scale.placed, a.disp.placed⟩

def RmOperand.placed : RmOperand ε lam → RmOperand (Place × ε) lam
  | .reg r => .reg r.placed
  | .ind a => .ind a.placed

def RmiOperand.placed : RmiOperand ε lam → RmiOperand (Place × ε) lam
  | .imm i => .imm (.imm, i)
  | .reg r => .reg r.placed
  | .ind a => .ind a.placed

def RiOperand.placed : RiOperand ε → RiOperand (Place × ε)
  | .imm i => .imm (.imm, i)
  | .reg r => .reg r.placed

def XmOperand.placed : XmOperand ε lam → XmOperand (Place × ε) lam
  | .xmm x => .xmm x.placed
  | .ind a => .ind a.placed

def MovOperand.placed : MovOperand ε lam → MovOperand (Place × ε) lam
  | .imm i sz => .imm (.imm, i) sz
  | .reg r => .reg r.placed
  | .xmm x => .xmm x.placed
  | .ind a => .ind a.placed

def Dest.placed : Dest ε lam → Dest (Place × ε) lam
  | .reg n => .reg n
  | .rel l => .rel l
  | .disp e => .disp (.call, e)
  | .ind a => .ind a.placed

def Inst.placed : Inst ε lam → Inst (Place × ε) lam
  | .Label l => .Label l
  | .F64 v => .F64 v
  | .I64 v => .I64 v
  | .Movq a b => .Movq a.placed b.placed
  | .Movl a b => .Movl a.placed b.placed
  | .Movw a b => .Movw a.placed b.placed
  | .Movb a b => .Movb a.placed b.placed
  | .Movsxl a b => .Movsxl a.placed b.placed
  | .Movzxw a b => .Movzxw a.placed b.placed
  | .Movsxw a b => .Movsxw a.placed b.placed
  | .Movzxb a b => .Movzxb a.placed b.placed
  | .Movsxb a b => .Movsxb a.placed b.placed
  | .Add sz a b => .Add sz a.placed b.placed
  | .Sub sz a b => .Sub sz a.placed b.placed
  | .Adc sz a b => .Adc sz a.placed b.placed
  | .Sbb sz a b => .Sbb sz a.placed b.placed
  | .And sz a b => .And sz a.placed b.placed
  | .Or sz a b => .Or sz a.placed b.placed
  | .Xor sz a b => .Xor sz a.placed b.placed
  | .Cmp sz a b => .Cmp sz a.placed b.placed
  | .Xchg sz a b => .Xchg sz a.placed b.placed
  | .Negq a => .Negq a.placed
  | .Shl sz a b => .Shl sz a.placed b.placed
  | .Shr sz a b => .Shr sz a.placed b.placed
  | .Sal sz a b => .Sal sz a.placed b.placed
  | .Sar sz a b => .Sar sz a.placed b.placed
  | .Rol sz a b => .Rol sz a.placed b.placed
  | .Ror sz a b => .Ror sz a.placed b.placed
  | .Imul a b => .Imul a.placed b.placed
  | .Idiv a => .Idiv a.placed
  | .Idivl a => .Idivl a.placed
  | .Div a => .Div a.placed
  | .Divl a => .Divl a.placed
  | .Lea a b => .Lea a.placed b.placed
  | .Testq a b => .Testq a.placed b.placed
  | .Testb a b => .Testb a.placed b.placed
  | .Setcc c a => .Setcc c a.placed
  | .Cmovcc sz c a b => .Cmovcc sz c a.placed b.placed
  | .Cqo => .Cqo
  | .Cdq => .Cdq
  | .Movsd a b => .Movsd a.placed b.placed
  | .Addsd a b => .Addsd a.placed b.placed
  | .Subsd a b => .Subsd a.placed b.placed
  | .Mulsd a b => .Mulsd a.placed b.placed
  | .Divsd a b => .Divsd a.placed b.placed
  | .Xorps a b => .Xorps a.placed b.placed
  | .UComIsd a b => .UComIsd a.placed b.placed
  | .Minsd a b => .Minsd a.placed b.placed
  | .Maxsd a b => .Maxsd a.placed b.placed
  | .Andpd a b => .Andpd a.placed b.placed
  | .Xorpd a b => .Xorpd a.placed b.placed
  | .Roundpd a b e => .Roundpd a.placed b.placed (.mode, e)
  | .Cvtsi2sdq a b => .Cvtsi2sdq a.placed b.placed
  | .Cvttsd2siq a b => .Cvttsd2siq a.placed b.placed
  | .Sqrtpd a b => .Sqrtpd a.placed b.placed
  | .Sqrtsd a b => .Sqrtsd a.placed b.placed
  | .Pushq a => .Pushq a.placed
  | .Popq a => .Popq a.placed
  | .Jmp d => .Jmp d.placed
  | .Jcc c d => .Jcc c d
  | .Call d => .Call d.placed
  | .Leave => .Leave
  | .Ret => .Ret
  | .Syscall => .Syscall
  | .Lzcnt sz a b => .Lzcnt sz a.placed b.placed
  | .Tzcnt sz a b => .Tzcnt sz a.placed b.placed
  | .Popcnt sz a b => .Popcnt sz a.placed b.placed
  | .Int3 => .Int3

end

end Monoasm
