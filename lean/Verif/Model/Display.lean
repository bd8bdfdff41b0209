import Verif.Model.Parse
/-
  The `Display` implementations for operands and the panic messages made of them. A text is given by
  its tokens (`write!(f, "R({})", n)` gives `R`, `(`, `n`, `)`); a message by the name it gives for the
  instruction and the operands it shows.
-/

namespace Monoasm

abbrev Texpr := List Tok

/-- `Display for Register`, parse.rs:142-149 -/
def Register.display : Register Texpr → List Tok
  | .reg n => [.ident "R", .group .paren [.int n.toNat ""]]
  | .expr e => [.ident "R", .group .paren e]

/-- `Display for Reg` (of the run-time library), lib.rs:83-87 -/
def Reg.display (r : Reg) : List Tok := [.ident "R", .group .paren [.int r.num.toNat ""]]

/-- `xmm({})`: `Display for Xmm`, parse.rs:229-233, and inst.rs:773, 839. The token stream of a named
    register is `quote!(#no as u64)` with `no: u8` (parse.rs:207, inst.rs:746). -/
def XmmReg.display : XmmReg Texpr → List Tok
  | .no n => [.ident "xmm", .group .paren [.int n.toNat "u8", .other "as", .ident "u64"]]
  | .expr e => [.ident "xmm", .group .paren e]

/-- `Display for Disp`, parse.rs:470-478; `Disp::Expr` holds `e as i32` or `-(e as i32)` -/
def MDisp.display : MDisp Texpr String → List Tok
  | .imm d => intTokens d.toInt ""
  | .expr false e => e ++ [.other "as", .ident "i32"]
  | .expr true e => [.punct '-', .group .paren (e ++ [.other "as", .ident "i32"])]
  | .label l => [.ident l]

/-- `Display for IndAddr`, parse.rs:340-344: `[{base} + ({disp})]` -/
def IndAddr.display (a : IndAddr Texpr String) : List Tok :=
  [.group .bracket (a.base.display ++ [.punct '+', .group .paren a.disp.display])]

/-- `Display for RmOperand`, inst.rs:533-540 -/
def RmOperand.display : RmOperand Texpr String → List Tok
  | .reg r => r.display
  | .ind a => a.display

/-- `Display for RmiOperand`, inst.rs:594-602 -/
def RmiOperand.display : RmiOperand Texpr String → List Tok
  | .imm i => i
  | .reg r => r.display
  | .ind a => a.display

/-- `Display for RiOperand`, inst.rs:652-659 -/
def RiOperand.display : RiOperand Texpr → List Tok
  | .imm i => i
  | .reg r => r.display

/-- `Display for XmOperand`, inst.rs:770-777 -/
def XmOperand.display : XmOperand Texpr String → List Tok
  | .xmm x => x.display
  | .ind a => a.display

/-- `{:?}` of an operand size (derived), inst.rs:140 -/
def OperandSize.debug : OperandSize → String
  | .QWORD => "QWORD" | .DWORD => "DWORD" | .WORD => "WORD" | .BYTE => "BYTE"

/-- `Display for MovOperand`, inst.rs:831-843 -/
def MovOperand.display : MovOperand Texpr String → List Tok
  | .imm i (some size) => i ++ [.punct ':', .ident size.debug]
  | .imm i none => i
  | .reg r => r.display
  | .xmm x => x.display
  | .ind a => a.display

/-- What a panic message says: a name for the instruction (empty if there is none), and operands. -/
structure Message where
  name : String
  operands : List (List Tok)

/-- `movq`, asm.rs:351, 362, 426. The failure of `assert_eq!`, asm.rs:372, shows no operand. -/
def movqMessage : MovOperand Texpr String → MovOperand Texpr String → Option Message
  | .xmm _, .imm _ _ => some ⟨"MOV", [[.ident "xmm"], [.ident "Imm"]]⟩
  | .imm _ _, op2 => some ⟨"MOV", [[.ident "Imm"], op2.display]⟩
  | .reg _, .imm _ (some size) => if size = .QWORD then none else some ⟨"", []⟩
  | .ind a, .imm i (some size) => some ⟨"MOV", [a.display, MovOperand.display (.imm i (some size))]⟩
  | .ind a, .ind b => some ⟨"MOV", [a.display, b.display]⟩
  | _, _ => none

/-- `unimplemented!("NAME {}, {}", op1, op2)`: asm.rs:469, 516, 562 (`movl`, `movw`, `movb`), 637, 696,
    762, 819 (`binary_opq` .. `binary_opb`) -/
def memMemMessage (name : String) : RmOperand Texpr String → RmiOperand Texpr String → Option Message
  | .ind a, .ind b => some ⟨name, [a.display, b.display]⟩
  | _, _ => none

/-- `shift_op`, asm.rs:930 -/
def shiftMessage : OperandSize → Option Message
  | .QWORD => none
  | .DWORD => none
  | _ => some ⟨"", []⟩

/-- `count_op`, asm.rs:972: "Count operation for .. is not yet supported." -/
def countMessage : OperandSize → Option Message
  | .QWORD => none
  | .DWORD => none
  | _ => some ⟨"Count operation", []⟩

/-- The message with which expansion panics, for the statements for which it does: the `panic!`,
    `unimplemented!`, `todo!`, `assert_eq!` and `unreachable!` of asm.rs, and the one of inst.rs:607. -/
def rejection : TInst → Option Message
  | .Movq a b => movqMessage a b
  | .Movl a b => memMemMessage "MOV" a b
  | .Movw a b => memMemMessage "MOV" a b
  | .Movb a b => memMemMessage "MOV" a b
  | .Add _ a b => memMemMessage "ADD" a b                                   -- names: asm.rs:24-31
  | .Or _ a b => memMemMessage "OR" a b
  | .Adc _ a b => memMemMessage "ADC" a b
  | .Sbb _ a b => memMemMessage "SBB" a b
  | .And _ a b => memMemMessage "AND" a b
  | .Sub _ a b => memMemMessage "SUB" a b
  | .Xor _ a b => memMemMessage "XOR" a b
  | .Cmp _ a b => memMemMessage "CMP" a b
  | .Xchg .QWORD (.ind a) (.ind b) => some ⟨"Xchg", [a.display, b.display]⟩ -- asm.rs:55
  | .Xchg .QWORD _ _ => none
  | .Xchg _ a b => some ⟨"Xchg", [a.display, b.display]⟩                    -- asm.rs:58
  | .Shl sz _ _ => shiftMessage sz
  | .Shr sz _ _ => shiftMessage sz
  | .Sal sz _ _ => shiftMessage sz
  | .Sar sz _ _ => shiftMessage sz
  | .Rol sz _ _ => shiftMessage sz
  | .Ror sz _ _ => shiftMessage sz
  | .Cmovcc .BYTE _ _ _ => some ⟨"", []⟩                                     -- asm.rs:148
  | .Imul (.reg _) (.imm _) => some ⟨"", [[.ident "immediate"]]⟩             -- inst.rs:607
  | .Imul (.reg _) _ => none
  | .Imul _ _ => some ⟨"", []⟩                                               -- asm.rs:168
  | .Movsd (.ind _) (.ind _) => some ⟨"MOVSD", [[.ident "m64"], [.ident "m64"]]⟩  -- asm.rs:187
  | .Lea (.reg _) (.ind _) => none
  | .Lea a b => some ⟨"Lea", [a.display, b.display]⟩                        -- asm.rs:207
  | .Jmp (.disp e) => some ⟨"JMP", [e]⟩                                      -- asm.rs:321, `{:?}`
  | .Lzcnt sz _ _ => countMessage sz
  | .Tzcnt sz _ _ => countMessage sz
  | .Popcnt sz _ _ => countMessage sz
  | _ => none

/-- Name in the messages of the run-time check of an immediate in `binary_opq`, `binary_opl`,
    `binary_opw` (asm.rs:613, 672, 732) and `binary_opb` (asm.rs:795: only the value is shown) -/
def aluComplaint (name : String) : OperandSize → RmiOperand Texpr String → Option String
  | .BYTE, .imm _ => some ""
  | _, .imm _ => some name
  | _, _ => none

/-- The name in the message with which the code made for a statement panics if the immediate is out of
    range, or the register with the count of a shift is not `cl`. -/
def complaint : TInst → Option String
  | .Movq (.ind _) (.imm _ none) => some "MOV"                              -- asm.rs:405
  | .Movl _ (.imm _) => some "MOVL"                                         -- asm.rs:443, 457
  | .Movw _ (.imm _) => some "MOVW"                                         -- asm.rs:486, 500
  | .Movb _ (.imm _) => some "MOVW"                                         -- asm.rs:533, 546
  | .Add sz _ b => aluComplaint "ADD" sz b
  | .Or sz _ b => aluComplaint "OR" sz b
  | .Adc sz _ b => aluComplaint "ADC" sz b
  | .Sbb sz _ b => aluComplaint "SBB" sz b
  | .And sz _ b => aluComplaint "AND" sz b
  | .Sub sz _ b => aluComplaint "SUB" sz b
  | .Xor sz _ b => aluComplaint "XOR" sz b
  | .Cmp sz _ b => aluComplaint "CMP" sz b
  | .Testq _ (.imm _) => some "TEST"                                        -- asm.rs:76, 86
  | .Testb _ (.imm _) => some "TEST"                                        -- asm.rs:109, 119
  | .Rol _ _ _ => some "ROL"                                                -- asm.rs:128-133, 886-924
  | .Ror _ _ _ => some "ROR"
  | .Shl _ _ _ => some "SHL"
  | .Shr _ _ _ => some "SHR"
  | .Sal _ _ _ => some "SAL"
  | .Sar _ _ _ => some "SAR"
  | .Call (.disp _) => some "CALL"                                          -- asm.rs:293
  | _ => none

end Monoasm
