import Verif.Model.Basic
/-
  Model of the instruction AST of the macro: `monoasm_macro/src/inst.rs` (types) and
  `monoasm_macro/src/parse.rs` (operand types).

  The AST is parametrised by the type `ε` of Rust expressions (`TokenStream` in the source) and
  the type `lam` of label identifiers. The parser produces `ε = List Tok`, `lam = String`; the code
  generator is applied to the run-time values `ε = BitVec 64`, `lam = DestLabel`.
-/

namespace Monoasm

/-- `enum OperandSize`, inst.rs:141-146 -/
inductive OperandSize where
  | QWORD | DWORD | WORD | BYTE
deriving DecidableEq, Repr

/-- `enum Cond`, inst.rs:154-171 -/
inductive Cond where
  | O | No | B | Ae | Eq | Ne | Be | A | S | Ns | P | Np | Lt | Ge | Le | Gt
deriving DecidableEq, Repr

/-- `cond as u8`, discriminants of inst.rs:154-171 -/
def Cond.code : Cond → BitVec 8
  | .O => 0 | .No => 1 | .B => 2 | .Ae => 3 | .Eq => 4 | .Ne => 5 | .Be => 6 | .A => 7
  | .S => 8 | .Ns => 9 | .P => 10 | .Np => 11 | .Lt => 12 | .Ge => 13 | .Le => 14 | .Gt => 15

/-- `enum Register`, parse.rs:121-124 -/
inductive Register (ε : Type) where
  | reg (n : BitVec 8)
  | expr (e : ε)
deriving DecidableEq, Repr

/-- `struct Xmm(TokenStream)`, parse.rs:189, and `XmOperand::Xmm(TokenStream)`. The token stream
    is `#no as u64` for a named register and the user's expression for `xmm(e)`
    (`parse_xmm`, parse.rs:191-212 = inst.rs:730-751). -/
inductive XmmReg (ε : Type) where
  | no (n : BitVec 8)
  | expr (e : ε)
deriving DecidableEq, Repr

/-- `enum Scale`, parse.rs:354-357 -/
inductive MScale (ε : Type) where
  | none
  | s1 (scale : BitVec 8) (index : Register ε)
deriving DecidableEq, Repr

/-- `enum Disp`, parse.rs:437-441. `Disp::Expr` is `e as i32`, or `-(e as i32)` when negated by
    `Disp::neg` (parse.rs:444-450, 486-488); the flag says which. -/
inductive MDisp (ε lam : Type) where
  | imm (d : BitVec 32)
  | expr (negated : Bool) (e : ε)
  | label (l : lam)
deriving DecidableEq, Repr

/-- `struct IndAddr`, parse.rs:249-253 -/
structure IndAddr (ε lam : Type) where
  base : Register ε
  scale : MScale ε
  disp : MDisp ε lam
deriving DecidableEq, Repr

/-- `enum RmOperand`, inst.rs:513-516 -/
inductive RmOperand (ε lam : Type) where
  | reg (r : Register ε)
  | ind (a : IndAddr ε lam)
deriving DecidableEq, Repr

/-- `enum RmiOperand`, inst.rs:564-568 -/
inductive RmiOperand (ε lam : Type) where
  | imm (i : ε)
  | reg (r : Register ε)
  | ind (a : IndAddr ε lam)
deriving DecidableEq, Repr

/-- `enum RiOperand`, inst.rs:627-630 -/
inductive RiOperand (ε : Type) where
  | imm (i : ε)
  | reg (r : Register ε)
deriving DecidableEq, Repr

/-- `enum XmOperand`, inst.rs:725-728 -/
inductive XmOperand (ε lam : Type) where
  | xmm (x : XmmReg ε)
  | ind (a : IndAddr ε lam)
deriving DecidableEq, Repr

/-- `enum MovOperand`, inst.rs:795-800 -/
inductive MovOperand (ε lam : Type) where
  | imm (i : ε) (size : Option OperandSize)
  | reg (r : Register ε)
  | xmm (x : XmmReg ε)
  | ind (a : IndAddr ε lam)
deriving DecidableEq, Repr

/-- `enum Dest`, parse.rs:374-379. `Dest::Reg` holds a macro-level `Reg` (0..=16). -/
inductive Dest (ε lam : Type) where
  | reg (n : BitVec 8)
  | rel (l : lam)
  | disp (e : ε)
  | ind (a : IndAddr ε lam)
deriving DecidableEq, Repr

/-- `enum Inst`, inst.rs:50-133. `F64` carries the bit pattern of the literal. -/
inductive Inst (ε lam : Type) where
  | Label (l : lam)
  | F64 (bits : BitVec 64)
  | I64 (v : BitVec 64)
  | Movq (op1 op2 : MovOperand ε lam)
  | Movl (op1 : RmOperand ε lam) (op2 : RmiOperand ε lam)
  | Movw (op1 : RmOperand ε lam) (op2 : RmiOperand ε lam)
  | Movb (op1 : RmOperand ε lam) (op2 : RmiOperand ε lam)
  | Movsxl (op1 : Register ε) (op2 : RmOperand ε lam)
  | Movzxw (op1 : Register ε) (op2 : RmOperand ε lam)
  | Movsxw (op1 : Register ε) (op2 : RmOperand ε lam)
  | Movzxb (op1 : Register ε) (op2 : RmOperand ε lam)
  | Movsxb (op1 : Register ε) (op2 : RmOperand ε lam)
  | Add (size : OperandSize) (op1 : RmOperand ε lam) (op2 : RmiOperand ε lam)
  | Sub (size : OperandSize) (op1 : RmOperand ε lam) (op2 : RmiOperand ε lam)
  | Adc (size : OperandSize) (op1 : RmOperand ε lam) (op2 : RmiOperand ε lam)
  | Sbb (size : OperandSize) (op1 : RmOperand ε lam) (op2 : RmiOperand ε lam)
  | And (size : OperandSize) (op1 : RmOperand ε lam) (op2 : RmiOperand ε lam)
  | Or (size : OperandSize) (op1 : RmOperand ε lam) (op2 : RmiOperand ε lam)
  | Xor (size : OperandSize) (op1 : RmOperand ε lam) (op2 : RmiOperand ε lam)
  | Cmp (size : OperandSize) (op1 : RmOperand ε lam) (op2 : RmiOperand ε lam)
  | Xchg (size : OperandSize) (op1 op2 : RmOperand ε lam)
  | Negq (op : RmOperand ε lam)
  | Shl (size : OperandSize) (op1 : RmOperand ε lam) (op2 : RiOperand ε)
  | Shr (size : OperandSize) (op1 : RmOperand ε lam) (op2 : RiOperand ε)
  | Sal (size : OperandSize) (op1 : RmOperand ε lam) (op2 : RiOperand ε)
  | Sar (size : OperandSize) (op1 : RmOperand ε lam) (op2 : RiOperand ε)
  | Rol (size : OperandSize) (op1 : RmOperand ε lam) (op2 : RiOperand ε)
  | Ror (size : OperandSize) (op1 : RmOperand ε lam) (op2 : RiOperand ε)
  | Imul (op1 op2 : RmiOperand ε lam)
  | Idiv (op : RmOperand ε lam)
  | Idivl (op : RmOperand ε lam)
  | Div (op : RmOperand ε lam)
  | Divl (op : RmOperand ε lam)
  | Lea (op1 op2 : RmOperand ε lam)
  | Testq (op1 : RmOperand ε lam) (op2 : RiOperand ε)
  | Testb (op1 : RmOperand ε lam) (op2 : RiOperand ε)
  | Setcc (cond : Cond) (op : RmOperand ε lam)
  | Cmovcc (size : OperandSize) (cond : Cond) (op1 : Register ε) (op2 : RmOperand ε lam)
  | Cqo
  | Cdq
  | Movsd (op1 op2 : XmOperand ε lam)
  | Addsd (op1 : XmmReg ε) (op2 : XmOperand ε lam)
  | Subsd (op1 : XmmReg ε) (op2 : XmOperand ε lam)
  | Mulsd (op1 : XmmReg ε) (op2 : XmOperand ε lam)
  | Divsd (op1 : XmmReg ε) (op2 : XmOperand ε lam)
  | Xorps (op1 : XmmReg ε) (op2 : XmOperand ε lam)
  | UComIsd (op1 : XmmReg ε) (op2 : XmOperand ε lam)
  | Minsd (op1 : XmmReg ε) (op2 : XmOperand ε lam)
  | Maxsd (op1 : XmmReg ε) (op2 : XmOperand ε lam)
  | Andpd (op1 : XmmReg ε) (op2 : XmOperand ε lam)
  | Xorpd (op1 : XmmReg ε) (op2 : XmOperand ε lam)
  | Roundpd (op1 : XmmReg ε) (op2 : XmOperand ε lam) (op3 : ε)
  | Cvtsi2sdq (op1 : XmmReg ε) (op2 : RmOperand ε lam)
  | Cvttsd2siq (op1 : Register ε) (op2 : XmOperand ε lam)
  | Sqrtpd (op1 : XmmReg ε) (op2 : XmOperand ε lam)
  | Sqrtsd (op1 : XmmReg ε) (op2 : XmOperand ε lam)
  | Pushq (op : RmOperand ε lam)
  | Popq (op : RmOperand ε lam)
  | Jmp (dest : Dest ε lam)
  | Jcc (cond : Cond) (dest : lam)
  | Call (dest : Dest ε lam)
  | Leave
  | Ret
  | Syscall
  | Lzcnt (size : OperandSize) (op1 : Register ε) (op2 : RmOperand ε lam)
  | Tzcnt (size : OperandSize) (op1 : Register ε) (op2 : RmOperand ε lam)
  | Popcnt (size : OperandSize) (op1 : Register ε) (op2 : RmOperand ε lam)
  | Int3
deriving DecidableEq, Repr

end Monoasm
