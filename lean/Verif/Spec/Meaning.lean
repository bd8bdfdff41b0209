import Verif.Spec.X86
import Verif.Model.Inst
/-
  Specification: the x86-64 instruction a macro statement *means*.

  `meaning rel i` is the machine instruction written by the user in statement `i`, or `none` if `i`
  denotes no machine instruction (label or data statements, operand combinations that x86 does not
  have, register numbers outside the register file, `rsp` as an index, `rip` as an operand, ...).

  `rel l` is the distance from the end of the instruction to the label `l` (i.e. the address of `l`
  minus the address of the next instruction), as a 64-bit number.

  Immediates in the result are the user's full 64-bit values: that some encoding field is narrower
  is no excuse for using another value.

  This file does not depend on the model of the encoder, only on the instruction AST.
-/

namespace Spec
open Monoasm X86

/-- Run-time values of operand expressions. -/
abbrev Val := BitVec 64

variable (rel : Nat → BitVec 64)

/-- The number denoted by a register operand: `rax` .. `r15` are 0 .. 15, `rip` is 16, `R(e)` is
    the value of `e`. -/
def regVal : Register Val → Val
  | .reg n => n.setWidth 64
  | .expr e => e

/-- General purpose register. -/
def gpr (r : Register Val) : Option Gpr :=
  if regVal r < 16 then some ((regVal r).setWidth 4) else none

def xmmVal : XmmReg Val → Val
  | .no n => n.setWidth 64
  | .expr e => e

/-- xmm register. -/
def xmm (x : XmmReg Val) : Option (BitVec 4) :=
  if xmmVal x < 16 then some ((xmmVal x).setWidth 4) else none

/-- Displacement as a 64-bit number. A displacement is an `i32`. -/
def disp : MDisp Val Nat → BitVec 64
  | .imm d => d.signExtend 64
  | .expr false e => (e.setWidth 32).signExtend 64
  | .expr true e => (-(e.setWidth 32)).signExtend 64
  | .label l => rel l

/-- Memory operand `[base + index * 2^scale + disp]` or `[rip + disp]`. -/
def addr (a : IndAddr Val Nat) : Option Addr :=
  match a.scale with
  | .none =>
    if regVal a.base = 16 then some ⟨.rip, none, disp rel a.disp⟩
    else do return ⟨.gpr (← gpr a.base), none, disp rel a.disp⟩
  | .s1 sc idx => do
    let b ← gpr a.base
    let i ← gpr idx
    if i = 4#4 then none
    else if sc < 4 then return ⟨.gpr b, some (i, sc.setWidth 2), disp rel a.disp⟩
    else none

/-- Register or memory operand. -/
def rm : RmOperand Val Nat → Option Opd
  | .reg r => do return .gpr (← gpr r)
  | .ind a => do return .mem (← addr rel a)

/-- Register, memory or immediate operand. -/
def rmi : RmiOperand Val Nat → Option Opd
  | .imm i => some (.imm i)
  | .reg r => do return .gpr (← gpr r)
  | .ind a => do return .mem (← addr rel a)

/-- Register or immediate operand. -/
def ri : RiOperand Val → Option Opd
  | .imm i => some (.imm i)
  | .reg r => do return .gpr (← gpr r)

/-- xmm register or memory operand. -/
def xm : XmOperand Val Nat → Option Opd
  | .xmm x => do return .xmm (← xmm x)
  | .ind a => do return .mem (← addr rel a)

def size : OperandSize → Size
  | .QWORD => .q | .DWORD => .d | .WORD => .w | .BYTE => .b

/-- x86 has no instruction with two memory operands (among those of this assembler). -/
def notBothMem : Opd → Opd → Bool
  | .mem _, .mem _ => false
  | _, _ => true

/-- Hardware condition number (Intel SDM vol. 1, appendix B). -/
def cc : Cond → CC
  | .O => 0x0 | .No => 0x1 | .B => 0x2 | .Ae => 0x3 | .Eq => 0x4 | .Ne => 0x5 | .Be => 0x6 | .A => 0x7
  | .S => 0x8 | .Ns => 0x9 | .P => 0xa | .Np => 0xb | .Lt => 0xc | .Ge => 0xd | .Le => 0xe | .Gt => 0xf

/-- two-operand ALU instruction -/
def alu (op : AluOp) (sz : OperandSize) (op1 : RmOperand Val Nat) (op2 : RmiOperand Val Nat) :
    Option Instr := do
  let d ← rm rel op1
  let s ← rmi rel op2
  if notBothMem d s then return .alu op (size sz) d s else none

/-- integer move -/
def mov (sz : Size) (op1 : RmOperand Val Nat) (op2 : RmiOperand Val Nat) : Option Instr := do
  let d ← rm rel op1
  let s ← rmi rel op2
  if notBothMem d s then return .mov sz d s else none

/-- `movq`: integer moves, and moves from/to xmm registers -/
def movq (op1 op2 : MovOperand Val Nat) : Option Instr :=
  match op1, op2 with
  | .imm _ _, _ => none
  | .reg d, .imm i _ => do return .mov .q (.gpr (← gpr d)) (.imm i)
  | .reg d, .reg s => do return .mov .q (.gpr (← gpr d)) (.gpr (← gpr s))
  | .reg d, .ind s => do return .mov .q (.gpr (← gpr d)) (.mem (← addr rel s))
  | .ind d, .imm i _ => do return .mov .q (.mem (← addr rel d)) (.imm i)
  | .ind d, .reg s => do return .mov .q (.mem (← addr rel d)) (.gpr (← gpr s))
  | .ind _, .ind _ => none
  | .xmm _, .imm _ _ => none
  | .xmm d, .reg s => do return .movgx .q (.xmm (← xmm d)) (.gpr (← gpr s))
  | .reg d, .xmm s => do return .movgx .q (.gpr (← gpr d)) (.xmm (← xmm s))
  | .xmm d, .xmm s => do return .movqx (.xmm (← xmm d)) (.xmm (← xmm s))
  | .xmm d, .ind s => do return .movqx (.xmm (← xmm d)) (.mem (← addr rel s))
  | .ind d, .xmm s => do return .movqx (.mem (← addr rel d)) (.xmm (← xmm s))

/-- `movsx`/`movzx` into a 64-bit register -/
def ext (f : Opd → Opd → Instr) (op1 : Register Val) (op2 : RmOperand Val Nat) : Option Instr := do
  return f (.gpr (← gpr op1)) (← rm rel op2)

/-- shift by an immediate or by `cl`; 64-bit and 32-bit only -/
def shift (op : ShiftOp) (sz : OperandSize) (op1 : RmOperand Val Nat) (op2 : RiOperand Val) :
    Option Instr := do
  let d ← rm rel op1
  let c ← ri op2
  match c with
  | .imm i => return .shift op (size sz) d (.imm i)
  | .gpr r => if r = 1#4 then return .shift op (size sz) d (.gpr r) else none
  | _ => none

/-- `xchgq`. The exchange is symmetric; as in disassembly the memory operand comes first, or the
    register that is not rax. Exchanging rax with itself is `nop`. -/
def xchg (sz : OperandSize) (op1 op2 : RmOperand Val Nat) : Option Instr := do
  let a ← rm rel op1
  let b ← rm rel op2
  match a, b with
  | .mem _, .mem _ => none
  | .gpr _, .mem _ => return .xchg (size sz) b a
  | .gpr r, .gpr s =>
    if r = 0#4 then (if s = 0#4 ∧ sz = .QWORD then return .nop else return .xchg (size sz) b a)
    else return .xchg (size sz) a b
  | _, _ => return .xchg (size sz) a b

def un (op : UnOp) (sz : Size) (o : RmOperand Val Nat) : Option Instr := do
  return .un op sz (← rm rel o)

def sse (f : Opd → Opd → Instr) (op1 : XmmReg Val) (op2 : XmOperand Val Nat) : Option Instr := do
  return f (.xmm (← xmm op1)) (← xm rel op2)

/-- The machine instruction denoted by a statement. -/
def meaning : Inst Val Nat → Option Instr
  | .Label _ => none
  | .F64 _ => none
  | .I64 _ => none
  | .Movq a b => movq rel a b
  | .Movl a b => mov rel .d a b
  | .Movw a b => mov rel .w a b
  | .Movb a b => mov rel .b a b
  | .Movsxl a b => ext rel (.movsx .q .d) a b
  | .Movzxw a b => ext rel (.movzx .q .w) a b
  | .Movsxw a b => ext rel (.movsx .q .w) a b
  | .Movzxb a b => ext rel (.movzx .q .b) a b
  | .Movsxb a b => ext rel (.movsx .q .b) a b
  | .Add sz a b => alu rel .add sz a b
  | .Sub sz a b => alu rel .sub sz a b
  | .Adc sz a b => alu rel .adc sz a b
  | .Sbb sz a b => alu rel .sbb sz a b
  | .And sz a b => alu rel .and sz a b
  | .Or sz a b => alu rel .or sz a b
  | .Xor sz a b => alu rel .xor sz a b
  | .Cmp sz a b => alu rel .cmp sz a b
  | .Xchg sz a b => xchg rel sz a b
  | .Negq a => un rel .neg .q a
  | .Shl sz a b => shift rel .shl sz a b
  | .Shr sz a b => shift rel .shr sz a b
  | .Sal sz a b => shift rel .shl sz a b
  | .Sar sz a b => shift rel .sar sz a b
  | .Rol sz a b => shift rel .rol sz a b
  | .Ror sz a b => shift rel .ror sz a b
  | .Imul a b =>
    match a with
    | .reg r => do
      let d ← gpr r
      match ← rmi rel b with
      | .imm i => return .imul3 .q (.gpr d) (.gpr d) (.imm i)
      | s => return .imul2 .q (.gpr d) s
    | _ => none
  | .Idiv a => un rel .idiv .q a
  | .Idivl a => un rel .idiv .d a
  | .Div a => un rel .div .q a
  | .Divl a => un rel .div .d a
  | .Lea a b =>
    match a, b with
    | .reg r, .ind m => do return .lea .q (.gpr (← gpr r)) (← addr rel m)
    | _, _ => none
  | .Testq a b => do return .test .q (← rm rel a) (← ri b)
  | .Testb a b => do return .test .b (← rm rel a) (← ri b)
  | .Setcc c a => do return .setcc (cc c) (← rm rel a)
  | .Cmovcc sz c a b =>
    if sz = .BYTE then none
    else do return .cmovcc (cc c) (size sz) (.gpr (← gpr a)) (← rm rel b)
  | .Cqo => some (.signExtDx .q)
  | .Cdq => some (.signExtDx .d)
  | .Movsd a b => do
    let d ← xm rel a
    let s ← xm rel b
    if notBothMem d s then return .fmov .sd d s else none
  | .Addsd a b => sse rel (.fop .add .sd) a b
  | .Subsd a b => sse rel (.fop .sub .sd) a b
  | .Mulsd a b => sse rel (.fop .mul .sd) a b
  | .Divsd a b => sse rel (.fop .div .sd) a b
  | .Xorps a b => sse rel (.flogic .xor .ps) a b
  | .UComIsd a b => sse rel (.ucomi .sd) a b
  | .Minsd a b => sse rel (.fop .min .sd) a b
  | .Maxsd a b => sse rel (.fop .max .sd) a b
  | .Andpd a b => sse rel (.flogic .and .pd) a b
  | .Xorpd a b => sse rel (.flogic .xor .pd) a b
  | .Roundpd a b m => sse rel (fun d s => .round .pd d s (m.setWidth 8)) a b
  | .Cvtsi2sdq a b => do return .cvtsi2f .sd .q (.xmm (← xmm a)) (← rm rel b)
  | .Cvttsd2siq a b => do return .cvttf2si .sd .q (.gpr (← gpr a)) (← xm rel b)
  | .Sqrtpd a b => sse rel (.fop .sqrt .pd) a b
  | .Sqrtsd a b => sse rel (.fop .sqrt .sd) a b
  | .Pushq a => do return .push (← rm rel a)
  | .Popq a => do return .pop (← rm rel a)
  | .Jmp d =>
    match d with
    | .reg n => do return .jmpInd (.gpr (← gpr (.reg n)))
    | .rel l => some (.jmpRel (rel l))
    | .disp e => some (.jmpRel e)
    | .ind a => do return .jmpInd (.mem (← addr rel a))
  | .Jcc c l => some (.jcc (cc c) (rel l))
  | .Call d =>
    match d with
    | .reg n => do return .callInd (.gpr (← gpr (.reg n)))
    | .rel l => some (.callRel (rel l))
    | .disp e => some (.callRel e)
    | .ind a => do return .callInd (.mem (← addr rel a))
  | .Leave => some .leave
  | .Ret => some .ret
  | .Syscall => some .syscall
  | .Lzcnt sz a b => if sz = .BYTE then none else do return .cnt .lzcnt (size sz) (.gpr (← gpr a)) (← rm rel b)
  | .Tzcnt sz a b => if sz = .BYTE then none else do return .cnt .tzcnt (size sz) (.gpr (← gpr a)) (← rm rel b)
  | .Popcnt sz a b => if sz = .BYTE then none else do return .cnt .popcnt (size sz) (.gpr (← gpr a)) (← rm rel b)
  | .Int3 => some .int3

end Spec
