import Verif.Proofs.Trace
/-
  The item list of every macro statement, and the proof that `compile` runs it.
-/

set_option linter.unusedSimpArgs false

namespace Monoasm
open JitMemory

namespace It

def o (k : Rex) (op : Byte) (reg : Reg) : List Item :=
  if reg.is_rip then [.fail .assertFailed]
  else rexItems k ⟨0⟩ reg ⟨0⟩ .reg ++ [.i8 (op ||| (reg.num &&& 0b0111))]

def mi (op : Byte) (rm : Rm) (imm : Imm) := encItems [op] .none (.reg ⟨0⟩) rm imm
def rexw_mi (op : Byte) (rm : Rm) (imm : Imm) := encItems [op] .rexw (.reg ⟨0⟩) rm imm
def mi_byte (op : Byte) (rm : Rm) (imm : Imm) := encItems [op] .byte (.reg ⟨0⟩) rm imm
def mr (op : List Byte) (r : Reg) (rm : Rm) := encItems op .none (.reg r) rm .none
def mr_byte (op : List Byte) (r : Reg) (rm : Rm) := encItems op .byte (.reg r) rm .none
def rexw_mr (op : List Byte) (r : Reg) (rm : Rm) := encItems op .rexw (.reg r) rm .none
def m_byte (op : List Byte) (rm : Rm) := encItems op .byte (.reg ⟨0⟩) rm .none
def d (op : List Byte) (l : DestLabel) : List Item := op.map .i8 ++ [.rel l 4]
def digit (op : List Byte) (rm : Rm) (dg : BitVec 8) := encItems op .none (.digit dg) rm .none
def digit_imm (op : List Byte) (rm : Rm) (dg : BitVec 8) (imm : Imm) :=
  encItems op .none (.digit dg) rm imm
def digit_imm_byte (op : List Byte) (op_al : Byte) (rm : Rm) (dg : BitVec 8) (imm : Imm) :=
  if rm.is_rax then .i8 op_al :: immItems imm
  else if rm.is_reg then encItems op .byte (.digit dg) rm imm
  else encItems op .none (.digit dg) rm imm
def rexw_digit (op : List Byte) (rm : Rm) (dg : BitVec 8) (imm : Imm) :=
  encItems op .rexw (.digit dg) rm imm

def movq (op1 op2 : MovOperand V DestLabel) : Except CompileError (List Item) :=
  match op1, op2 with
  | .xmm _, .imm _ _ => .error .doesNotExist
  | .xmm x, .reg r => .ok (.i8 0x66 :: rexw_mr [0x0f, 0x6e] x.toReg (Rm.reg r.toReg))
  | .xmm x, .xmm y => .ok (.i8 0xf3 :: mr [0x0f, 0x7e] x.toReg (Rm.reg y.toReg))
  | .xmm x, .ind a => .ok (.i8 0xf3 :: mr [0x0f, 0x7e] x.toReg a.toRm)
  | .imm _ _, _ => .error .doesNotExist
  | .reg r, .imm i size =>
    if size = none ∨ size = some .QWORD then .ok (o .rexw 0xb8 r.toReg ++ [.i64 i])
    else .error .doesNotExist
  | .ind a, .imm i none => .ok
    (match i32TryFrom i with
    | some imm => rexw_mi 0xc7 a.toRm (.l imm)
    | none => [.fail .immOutOfRange])
  | .ind _, .imm _ (some _) => .error .unimplemented
  | .reg r1, .reg r2 => .ok (rexw_mr [0x89] r2.toReg (Rm.reg r1.toReg))
  | .ind a, .reg r2 => .ok (rexw_mr [0x89] r2.toReg a.toRm)
  | .reg r1, .xmm y => .ok (.i8 0x66 :: rexw_mr [0x0f, 0x7e] y.toReg (Rm.reg r1.toReg))
  | .ind a, .xmm y => .ok (.i8 0x66 :: mr [0x0f, 0xd6] y.toReg a.toRm)
  | .reg r1, .ind a => .ok (rexw_mr [0x8b] r1.toReg a.toRm)
  | .ind _, .ind _ => .error .unimplemented

def movl (op1 : RmOperand V DestLabel) (op2 : RmiOperand V DestLabel) :
    Except CompileError (List Item) :=
  match op1, op2 with
  | .reg r, .imm i => .ok
    (match i32TryFrom i with
    | some imm => o .none 0xb8 r.toReg ++ [.i32 imm]
    | none => [.fail .immOutOfRange])
  | .ind a, .imm i => .ok
    (match i32TryFrom i with
    | some imm => mi 0xc7 a.toRm (.l imm)
    | none => [.fail .immOutOfRange])
  | op1, .reg r => .ok (mr [0x89] r.toReg op1.toRm)
  | .reg r, .ind a => .ok (mr [0x8b] r.toReg a.toRm)
  | .ind _, .ind _ => .error .unimplemented

def movw (op1 : RmOperand V DestLabel) (op2 : RmiOperand V DestLabel) :
    Except CompileError (List Item) :=
  match op1, op2 with
  | .reg r, .imm i => .ok
    (match i16TryFrom i with
    | some imm => .i8 0x66 :: o .none 0xb8 r.toReg ++ [.i16 imm]
    | none => [.fail .immOutOfRange])
  | .ind a, .imm i => .ok
    (match i16TryFrom i with
    | some imm => .i8 0x66 :: mi 0xc7 a.toRm (.w imm)
    | none => [.fail .immOutOfRange])
  | op1, .reg r => .ok (.i8 0x66 :: mr [0x89] r.toReg op1.toRm)
  | .reg r, .ind a => .ok (.i8 0x66 :: mr [0x8b] r.toReg a.toRm)
  | .ind _, .ind _ => .error .unimplemented

def movb (op1 : RmOperand V DestLabel) (op2 : RmiOperand V DestLabel) :
    Except CompileError (List Item) :=
  match op1, op2 with
  | .reg r, .imm i => .ok
    (match i8TryFrom i with
    | some imm => o .byte 0xb0 r.toReg ++ [.i8 imm]
    | none => [.fail .immOutOfRange])
  | .ind a, .imm i => .ok
    (match i8TryFrom i with
    | some imm => mi_byte 0xc6 a.toRm (.b imm)
    | none => [.fail .immOutOfRange])
  | op1, .reg r => .ok (mr_byte [0x88] r.toReg op1.toRm)
  | .reg r, .ind a => .ok (mr_byte [0x8a] r.toReg a.toRm)
  | .ind _, .ind _ => .error .unimplemented

def binary_opq (op_mr dg : BitVec 8) (op1 : RmOperand V DestLabel) (op2 : RmiOperand V DestLabel) :
    Except CompileError (List Item) :=
  match op1, op2 with
  | op1, .imm i => .ok
    (match i8TryFrom i with
    | some imm => rexw_digit [0x83] op1.toRm dg (.b imm)
    | none => match i32TryFrom i with
      | some imm => rexw_digit [0x81] op1.toRm dg (.l imm)
      | none => [.fail .immOutOfRange])
  | op1, .reg r => .ok (rexw_mr [op_mr] r.toReg op1.toRm)
  | .reg r, .ind a => .ok (rexw_mr [op_mr + 2] r.toReg a.toRm)
  | .ind _, .ind _ => .error .unimplemented

def binary_opl (op_mr dg : BitVec 8) (op1 : RmOperand V DestLabel) (op2 : RmiOperand V DestLabel) :
    Except CompileError (List Item) :=
  match op1, op2 with
  | op1, .imm i => .ok
    (match i8TryFrom i with
    | some imm => digit_imm [0x83] op1.toRm dg (.b imm)
    | none => match i32TryFrom i with
      | some imm => digit_imm [0x81] op1.toRm dg (.l imm)
      | none => [.fail .immOutOfRange])
  | op1, .reg r => .ok (mr [op_mr] r.toReg op1.toRm)
  | .reg r, .ind a => .ok (mr [op_mr + 2] r.toReg a.toRm)
  | .ind _, .ind _ => .error .unimplemented

def binary_opw (op_mr dg : BitVec 8) (op1 : RmOperand V DestLabel) (op2 : RmiOperand V DestLabel) :
    Except CompileError (List Item) :=
  match op1, op2 with
  | op1, .imm i => .ok (.i8 0x66 ::
    (match i8TryFrom i with
    | some imm => digit_imm [0x83] op1.toRm dg (.b imm)
    | none => match i16TryFrom i with
      | some imm => digit_imm [0x81] op1.toRm dg (.w imm)
      | none => [.fail .immOutOfRange]))
  | op1, .reg r => .ok (.i8 0x66 :: mr [op_mr] r.toReg op1.toRm)
  | .reg r, .ind a => .ok (.i8 0x66 :: mr [op_mr + 2] r.toReg a.toRm)
  | .ind _, .ind _ => .error .unimplemented

def binary_opb (op_mr dg : BitVec 8) (op1 : RmOperand V DestLabel) (op2 : RmiOperand V DestLabel) :
    Except CompileError (List Item) :=
  match op1, op2 with
  | op1, .imm i => .ok
    (match i8TryFrom i with
    | some imm => digit_imm_byte [0x80] (op_mr + 4) op1.toRm dg (.b imm)
    | none => [.fail .immOutOfRange])
  | op1, .reg r => .ok (mr_byte [op_mr] r.toReg op1.toRm)
  | .reg r, .ind a => .ok (mr_byte [op_mr + 2] r.toReg a.toRm)
  | .ind _, .ind _ => .error .unimplemented

def binary_op (size : OperandSize) (op_mr dg : BitVec 8) (op1 : RmOperand V DestLabel)
    (op2 : RmiOperand V DestLabel) : Except CompileError (List Item) :=
  match size with
  | .QWORD => binary_opq op_mr dg op1 op2
  | .DWORD => binary_opl op_mr dg op1 op2
  | .WORD => binary_opw op_mr dg op1 op2
  | .BYTE => binary_opb (op_mr - 1) dg op1 op2

def shift_op (width : OperandSize) (dg : BitVec 8) (op1 : RmOperand V DestLabel)
    (op2 : RiOperand V) : Except CompileError (List Item) :=
  match width with
  | .QWORD =>
    match op2 with
    | .imm i => .ok
      (if i = 1 then rexw_digit [0xd1] op1.toRm dg .none
       else match i8TryFrom i with
        | some imm => rexw_digit [0xc1] op1.toRm dg (.b imm)
        | none => [.fail .immOutOfRange])
    | .reg r => .ok
      (if r.toReg.is_cl then rexw_digit [0xd3] op1.toRm dg .none else [.fail .regShouldBeCl])
  | .DWORD =>
    match op2 with
    | .imm i => .ok
      (if i = 1 then digit [0xd1] op1.toRm dg
       else match i8TryFrom i with
        | some imm => digit_imm [0xc1] op1.toRm dg (.b imm)
        | none => [.fail .immOutOfRange])
    | .reg r => .ok
      (if r.toReg.is_cl then digit [0xd3] op1.toRm dg else [.fail .regShouldBeCl])
  | .WORD => .error .unimplemented
  | .BYTE => .error .unimplemented

def sd (op : BitVec 8) (op1 : XmmReg V) (op2 : XmOperand V DestLabel) : List Item :=
  .i8 0xf2 :: mr [0x0f, op] op1.toReg op2.toRm

def push_pop (opcode_r : BitVec 8) (opcode_m : BitVec 8 × BitVec 8) (op : RmOperand V DestLabel) :
    List Item :=
  match op with
  | .reg r => o .none opcode_r r.toReg
  | .ind a => digit [opcode_m.1] a.toRm opcode_m.2

def count_op (width : OperandSize) (opcode : BitVec 8) (op1 : Register V)
    (op2 : RmOperand V DestLabel) : Except CompileError (List Item) :=
  match width with
  | .QWORD => .ok (.i8 0xf3 :: rexw_mr [0x0f, opcode] op1.toReg op2.toRm)
  | .DWORD => .ok (.i8 0xf3 :: mr [0x0f, opcode] op1.toReg op2.toRm)
  | _ => .error .unimplemented

end It

open It in
/-- The items run by a macro statement. -/
def items (inst : Inst V DestLabel) : Except CompileError (List Item) :=
  match inst with
  | .Label l => .ok [.bind l]
  | .F64 bits => .ok ((bytes64 bits).map .i8)
  | .I64 v => .ok [.i64 v]
  | .Movq op1 op2 => It.movq op1 op2
  | .Movl op1 op2 => It.movl op1 op2
  | .Movw op1 op2 => It.movw op1 op2
  | .Movb op1 op2 => It.movb op1 op2
  | .Movsxl op1 op2 => .ok (rexw_mr [0x63] op1.toReg op2.toRm)
  | .Movzxw op1 op2 => .ok (rexw_mr [0x0f, 0xb7] op1.toReg op2.toRm)
  | .Movsxw op1 op2 => .ok (rexw_mr [0x0f, 0xbf] op1.toReg op2.toRm)
  | .Movzxb op1 op2 => .ok (rexw_mr [0x0f, 0xb6] op1.toReg op2.toRm)
  | .Movsxb op1 op2 => .ok (rexw_mr [0x0f, 0xbe] op1.toReg op2.toRm)
  | .Add size op1 op2 => It.binary_op size 0x01 0 op1 op2
  | .Or size op1 op2 => It.binary_op size 0x09 1 op1 op2
  | .Adc size op1 op2 => It.binary_op size 0x11 2 op1 op2
  | .Sbb size op1 op2 => It.binary_op size 0x19 3 op1 op2
  | .And size op1 op2 => It.binary_op size 0x21 4 op1 op2
  | .Sub size op1 op2 => It.binary_op size 0x29 5 op1 op2
  | .Xor size op1 op2 => It.binary_op size 0x31 6 op1 op2
  | .Cmp size op1 op2 => It.binary_op size 0x39 7 op1 op2
  | .Xchg size op1 op2 =>
    match size with
    | .QWORD =>
      match op1, op2 with
      | .reg r1, .reg r2 => .ok
        (if r1.toReg = Reg.from 0 then
          if r2.toReg = Reg.from 0 then [.i8 0x90] else o .rexw 0x90 r2.toReg
        else if r2.toReg = Reg.from 0 then o .rexw 0x90 r1.toReg
        else rexw_mr [0x87] r2.toReg (Rm.reg r1.toReg))
      | .ind a, .reg r2 => .ok (rexw_mr [0x87] r2.toReg a.toRm)
      | .reg r1, .ind a => .ok (rexw_mr [0x87] r1.toReg a.toRm)
      | .ind _, .ind _ => .error .doesNotExist
    | _ => .error .doesNotExist
  | .Testq op1 op2 =>
    match op2 with
    | .imm i =>
      match op1 with
      | .reg r => .ok
        (match i32TryFrom i with
        | some imm =>
          if r.toReg.is_rax then [.i8 0x48, .i8 0xa9, .i32 imm]
          else rexw_mi 0xf7 (Rm.reg r.toReg) (.l imm)
        | none => [.fail .immOutOfRange])
      | .ind a => .ok
        (match i32TryFrom i with
        | some imm => rexw_mi 0xf7 a.toRm (.l imm)
        | none => [.fail .immOutOfRange])
    | .reg r => .ok (rexw_mr [0x85] r.toReg op1.toRm)
  | .Testb op1 op2 =>
    match op2 with
    | .imm i =>
      match op1 with
      | .reg r => .ok
        (match i8TryFrom i with
        | some imm =>
          if r.toReg.is_rax then [.i8 0xa8, .i8 imm]
          else mi_byte 0xf6 (Rm.reg r.toReg) (.b imm)
        | none => [.fail .immOutOfRange])
      | .ind a => .ok
        (match i8TryFrom i with
        | some imm => mi_byte 0xf6 a.toRm (.b imm)
        | none => [.fail .immOutOfRange])
    | .reg r => .ok (mr_byte [0x84] r.toReg op1.toRm)
  | .Rol width op1 op2 => It.shift_op width 0 op1 op2
  | .Ror width op1 op2 => It.shift_op width 1 op1 op2
  | .Shl width op1 op2 => It.shift_op width 4 op1 op2
  | .Shr width op1 op2 => It.shift_op width 5 op1 op2
  | .Sal width op1 op2 => It.shift_op width 4 op1 op2
  | .Sar width op1 op2 => It.shift_op width 7 op1 op2
  | .Setcc cond op => .ok (m_byte [0x0f, 0x90 + cond.code] op.toRm)
  | .Cmovcc size cond op1 op2 =>
    match size with
    | .QWORD => .ok (rexw_mr [0x0f, 0x40 + cond.code] op1.toReg op2.toRm)
    | .DWORD => .ok (mr [0x0f, 0x40 + cond.code] op1.toReg op2.toRm)
    | .WORD => .ok (.i8 0x66 :: mr [0x0f, 0x40 + cond.code] op1.toReg op2.toRm)
    | .BYTE => .error .unimplemented
  | .Cqo => .ok [.i8 0x48, .i8 0x99]
  | .Cdq => .ok [.i8 0x99]
  | .Int3 => .ok [.i8 0xcc]
  | .Negq op => .ok (rexw_digit [0xf7] op.toRm 3 .none)
  | .Imul op1 op2 =>
    match op1, op2 with
    | .reg r, .reg r2 => .ok (rexw_mr [0x0f, 0xaf] r.toReg (Rm.reg r2.toReg))
    | .reg r, .ind a => .ok (rexw_mr [0x0f, 0xaf] r.toReg a.toRm)
    | .reg _, .imm _ => .error .unreachable
    | _, _ => .error .unimplemented
  | .Idiv op => .ok (rexw_digit [0xf7] op.toRm 7 .none)
  | .Idivl op => .ok (digit [0xf7] op.toRm 7)
  | .Div op => .ok (rexw_digit [0xf7] op.toRm 6 .none)
  | .Divl op => .ok (digit [0xf7] op.toRm 6)
  | .Movsd op1 op2 =>
    match op1, op2 with
    | .xmm x, op2 => .ok (sd 0x10 x op2)
    | .ind a, .xmm y => .ok (sd 0x11 y (.ind a))
    | .ind _, .ind _ => .error .doesNotExist
  | .Addsd op1 op2 => .ok (sd 0x58 op1 op2)
  | .Subsd op1 op2 => .ok (sd 0x5c op1 op2)
  | .Mulsd op1 op2 => .ok (sd 0x59 op1 op2)
  | .Divsd op1 op2 => .ok (sd 0x5e op1 op2)
  | .Minsd op1 op2 => .ok (sd 0x5d op1 op2)
  | .Maxsd op1 op2 => .ok (sd 0x5f op1 op2)
  | .Xorps op1 op2 => .ok (mr [0x0f, 0x57] op1.toReg op2.toRm)
  | .Lea op1 op2 =>
    match op1, op2 with
    | .reg r, .ind a => .ok (rexw_mr [0x8d] r.toReg a.toRm)
    | _, _ => .error .doesNotExist
  | .Cvtsi2sdq op1 op2 => .ok (.i8 0xf2 :: rexw_mr [0x0f, 0x2a] op1.toReg op2.toRm)
  | .Cvttsd2siq op1 op2 => .ok (.i8 0xf2 :: mr [0x0f, 0x2c] op1.toReg op2.toRm)
  | .Andpd op1 op2 => .ok (.i8 0x66 :: mr [0x0f, 0x54] op1.toReg op2.toRm)
  | .Xorpd op1 op2 => .ok (.i8 0x66 :: mr [0x0f, 0x57] op1.toReg op2.toRm)
  | .Roundpd op1 op2 op3 =>
    .ok (.i8 0x66 :: mr [0x0f, 0x3a, 0x09] op1.toReg op2.toRm ++ [.i8 (op3.setWidth 8)])
  | .Sqrtpd op1 op2 => .ok (.i8 0x66 :: mr [0x0f, 0x51] op1.toReg op2.toRm)
  | .Sqrtsd op1 op2 => .ok (sd 0x51 op1 op2)
  | .Pushq op => .ok (It.push_pop 0x50 (0xff, 6) op)
  | .Popq op => .ok (It.push_pop 0x58 (0x8f, 0) op)
  | .Call dest =>
    match dest with
    | .reg n => .ok (digit [0xff] (Rm.reg (Reg.from (n.setWidth 64))) 2)
    | .ind a => .ok (digit [0xff] a.toRm 2)
    | .rel l => .ok [.i8 0xe8, .rel l 4]
    | .disp i => .ok
      (match i32TryFrom i with
      | some imm => [.i8 0xe8, .i32 imm]
      | none => [.fail .immOutOfRange])
  | .Ret => .ok [.i8 0xc3]
  | .Jmp dest =>
    match dest with
    | .reg n => .ok (digit [0xff] (Rm.reg (Reg.from (n.setWidth 64))) 4)
    | .ind a => .ok (digit [0xff] a.toRm 4)
    | .rel l => .ok (d [0xe9] l)
    | .disp _ => .error .unimplemented
  | .Jcc cond dest => .ok (d [0x0f, 0x80 + cond.code] dest)
  | .UComIsd op1 op2 => .ok (.i8 0x66 :: mr [0x0f, 0x2e] op1.toReg op2.toRm)
  | .Syscall => .ok [.i8 0x0f, .i8 0x05]
  | .Leave => .ok [.i8 0xc9]
  | .Tzcnt width op1 op2 => It.count_op width 0xbc op1 op2
  | .Lzcnt width op1 op2 => It.count_op width 0xbd op1 op2
  | .Popcnt width op1 op2 => It.count_op width 0xb8 op1 op2

/-! ### `compile` runs the items -/

theorem enc_o_eq (op reg) : enc_o op reg = runItems (It.o .none op reg) := by
  simp only [enc_o, It.o]
  cases reg.is_rip
  · simp only [Bool.not_false, M.assert_true, pure_bind, Bool.false_eq_true, if_false,
      runItems_append, runItems_single]
    rw [← rexFn_eq]; rfl
  · simp [Item.run]

theorem enc_oi_eq (op reg) : enc_oi op reg = runItems (It.o .none op reg) := enc_o_eq op reg

theorem enc_oi_byte_eq (op reg) : enc_oi_byte op reg = runItems (It.o .byte op reg) := by
  simp only [enc_oi_byte, It.o]
  cases reg.is_rip
  · simp only [Bool.not_false, M.assert_true, pure_bind, Bool.false_eq_true, if_false,
      runItems_append, runItems_single]
    rw [← rexFn_eq]; rfl
  · simp [Item.run]

theorem enc_rexw_o_eq (op reg) : enc_rexw_o op reg = runItems (It.o .rexw op reg) := by
  simp only [enc_rexw_o, It.o]
  cases reg.is_rip
  · simp only [Bool.not_false, M.assert_true, pure_bind, Bool.false_eq_true, if_false,
      runItems_append, runItems_single]
    rw [← rexFn_eq]; rfl
  · simp [Item.run]

theorem enc_mi_eq (op rm imm) : enc_mi op rm imm = runItems (It.mi op rm imm) := encode_eq ..
theorem enc_rexw_mi_eq (op rm imm) : enc_rexw_mi op rm imm = runItems (It.rexw_mi op rm imm) :=
  encode_eq ..
theorem enc_mi_byte_eq (op rm imm) : enc_mi_byte op rm imm = runItems (It.mi_byte op rm imm) :=
  encode_eq ..
theorem enc_mr_eq (op r rm) : enc_mr op r rm = runItems (It.mr op r rm) := encode_eq ..
theorem enc_mr_byte_eq (op r rm) : enc_mr_byte op r rm = runItems (It.mr_byte op r rm) :=
  encode_eq ..
theorem enc_rexw_mr_eq (op r rm) : enc_rexw_mr op r rm = runItems (It.rexw_mr op r rm) :=
  encode_eq ..
theorem enc_m_byte_eq (op rm) : enc_m_byte op rm = runItems (It.m_byte op rm) := encode_eq ..
theorem enc_digit_eq (op rm dg) : enc_digit op rm dg = runItems (It.digit op rm dg) := encode_eq ..
theorem enc_digit_imm_eq (op rm dg imm) :
    enc_digit_imm op rm dg imm = runItems (It.digit_imm op rm dg imm) := encode_eq ..
theorem enc_rexw_digit_eq (op rm dg imm) :
    enc_rexw_digit op rm dg imm = runItems (It.rexw_digit op rm dg imm) := encode_eq ..

theorem enc_d_eq (op l) : enc_d op l = runItems (It.d op l) := by
  simp [enc_d, It.d, emit_eq, runItems_append, Item.run]

theorem enc_digit_imm_byte_eq (op op_al rm dg imm) :
    enc_digit_imm_byte op op_al rm dg imm = runItems (It.digit_imm_byte op op_al rm dg imm) := by
  simp only [enc_digit_imm_byte, It.digit_imm_byte]
  split
  · simp [emit_disp_imm_eq, dispItems, runItems_cons, Item.run]
  · split <;> exact encode_eq ..

theorem except_map_ok (l : List Item) :
    (Except.ok l : Except CompileError (List Item)).map runItems = .ok (runItems l) := rfl
theorem except_map_error (e) :
    (Except.error e : Except CompileError (List Item)).map runItems = .error e := rfl

theorem bind_pure_unit (m : M Unit) : (m >>= fun _ => pure ()) = m := by
  have : (fun _ : Unit => (pure () : M Unit)) = pure := rfl
  rw [this, bind_pure]

theorem movq_eq (op1 op2) : movq op1 op2 = (It.movq op1 op2).map runItems := by
  cases op1 <;> cases op2 <;>
    simp only [movq, It.movq, except_map_ok, except_map_error, runItems_cons, run_i8,
      enc_rexw_mr_eq, enc_mr_eq]
  · rename_i a _ size
    cases size with
    | none =>
      simp [except_map_ok, runItems_append, enc_rexw_o_eq, Item.run]
    | some size =>
      cases size <;> simp [except_map_ok, except_map_error, runItems_append, enc_rexw_o_eq, Item.run]
  · rename_i a i size
    cases size with
    | none =>
      simp only [except_map_ok]
      congr 1
      cases i32TryFrom i <;> simp [enc_rexw_mi_eq, Item.run]
    | some size => rfl

theorem movl_eq (op1 op2) : movl op1 op2 = (It.movl op1 op2).map runItems := by
  cases op1 <;> cases op2 <;>
    simp only [movl, It.movl, except_map_ok, except_map_error, enc_mr_eq]
  · rename_i r i; congr 1
    cases i32TryFrom i <;> simp [enc_oi_eq, Item.run, runItems_append]
  · rename_i r i; congr 1
    cases i32TryFrom i <;> simp [enc_mi_eq, Item.run, runItems_append]

theorem movw_eq (op1 op2) : movw op1 op2 = (It.movw op1 op2).map runItems := by
  cases op1 <;> cases op2 <;>
    simp only [movw, It.movw, except_map_ok, except_map_error, enc_mr_eq, runItems_cons, run_i8]
  · rename_i r i; congr 1
    cases i16TryFrom i <;> simp [enc_oi_eq, Item.run, runItems_append, runItems_cons]
  · rename_i r i; congr 1
    cases i16TryFrom i <;> simp [enc_mi_eq, Item.run, runItems_append, runItems_cons]

theorem movb_eq (op1 op2) : movb op1 op2 = (It.movb op1 op2).map runItems := by
  cases op1 <;> cases op2 <;>
    simp only [movb, It.movb, except_map_ok, except_map_error, enc_mr_byte_eq]
  · rename_i r i; congr 1
    cases i8TryFrom i <;> simp [enc_oi_byte_eq, Item.run, runItems_append]
  · rename_i r i; congr 1
    cases i8TryFrom i <;> simp [enc_mi_byte_eq, Item.run, runItems_append]

theorem binary_opq_eq (a b op1 op2) :
    binary_opq a b op1 op2 = (It.binary_opq a b op1 op2).map runItems := by
  cases op1 <;> cases op2 <;>
    simp only [binary_opq, It.binary_opq, except_map_ok, except_map_error, enc_rexw_mr_eq]
  all_goals
    congr 1
    rename_i i
    cases i8TryFrom i <;> cases i32TryFrom i <;> simp [enc_rexw_digit_eq, Item.run]

theorem binary_opl_eq (a b op1 op2) :
    binary_opl a b op1 op2 = (It.binary_opl a b op1 op2).map runItems := by
  cases op1 <;> cases op2 <;>
    simp only [binary_opl, It.binary_opl, except_map_ok, except_map_error, enc_mr_eq]
  all_goals
    congr 1
    rename_i i
    cases i8TryFrom i <;> cases i32TryFrom i <;> simp [enc_digit_imm_eq, Item.run]

theorem binary_opw_eq (a b op1 op2) :
    binary_opw a b op1 op2 = (It.binary_opw a b op1 op2).map runItems := by
  cases op1 <;> cases op2 <;>
    simp only [binary_opw, It.binary_opw, except_map_ok, except_map_error, enc_mr_eq,
      runItems_cons, run_i8]
  all_goals
    congr 1
    rename_i i
    cases i8TryFrom i <;> cases i16TryFrom i <;> simp [enc_digit_imm_eq, Item.run]

theorem binary_opb_eq (a b op1 op2) :
    binary_opb a b op1 op2 = (It.binary_opb a b op1 op2).map runItems := by
  cases op1 <;> cases op2 <;>
    simp only [binary_opb, It.binary_opb, except_map_ok, except_map_error, enc_mr_byte_eq]
  all_goals
    congr 1
    rename_i i
    cases i8TryFrom i <;> simp [enc_digit_imm_byte_eq, Item.run]

theorem binary_op_eq (sz a b op1 op2) :
    binary_op sz a b op1 op2 = (It.binary_op sz a b op1 op2).map runItems := by
  cases sz
  · exact binary_opq_eq ..
  · exact binary_opl_eq ..
  · exact binary_opw_eq ..
  · exact binary_opb_eq ..

theorem shift_op_eq (w dg op1 op2) :
    Monoasm.shift_op w dg op1 op2 = (It.shift_op w dg op1 op2).map runItems := by
  cases w <;> cases op2 <;>
    simp only [shift_op, It.shift_op, except_map_ok, except_map_error]
  all_goals congr 1
  · rename_i i; split <;> (try cases i8TryFrom i) <;> simp [enc_rexw_digit_eq, Item.run]
  · rename_i r; cases r.toReg.is_cl <;> simp [enc_rexw_digit_eq, Item.run]
  · rename_i i; split <;> (try cases i8TryFrom i) <;> simp [enc_digit_imm_eq, enc_digit_eq, Item.run]
  · rename_i r; cases r.toReg.is_cl <;> simp [enc_digit_eq, Item.run]

theorem compile_eq (i : Inst V DestLabel) : compile i = (items i).map runItems := by
  cases i <;>
    simp only [compile, items, movq_eq, movl_eq, movw_eq, movb_eq, binary_op_eq, shift_op_eq,
      except_map_ok, enc_rexw_mr_eq, enc_mr_eq, enc_m_byte_eq, enc_rexw_digit_eq, binary_sd_op,
      It.sd, runItems_cons, runItems_append, run_i8, emit_eq, runItems_single, divide_op,
      enc_digit_eq, enc_d_eq, runItems_nil, bind_pure_unit, List.map_cons, List.map_nil]
  case Roundpd => simp
  case Label => rfl
  case I64 => rfl
  case Idiv => rfl
  case Idivl => rfl
  case Div => rfl
  case Divl => rfl
  case Xchg sz op1 op2 =>
    cases sz <;> try rfl
    cases op1 <;> cases op2 <;> simp only [except_map_ok, except_map_error]
    congr 1
    split <;> split <;> simp [enc_rexw_o_eq, Item.run]
  case Testq op1 op2 =>
    cases op2 <;> cases op1 <;> simp only [except_map_ok, except_map_error] <;> congr 1
    · rename_i i r
      cases i32TryFrom i
      · simp [Item.run]
      · cases r.toReg.is_rax <;> simp [runItems_cons, Item.run, enc_rexw_mi_eq]
    · rename_i i r
      cases i32TryFrom i <;> simp [Item.run, enc_rexw_mi_eq]
  case Testb op1 op2 =>
    cases op2 <;> cases op1 <;> simp only [except_map_ok, except_map_error, enc_mr_byte_eq] <;> congr 1
    · rename_i i r
      cases i8TryFrom i
      · simp [Item.run]
      · cases r.toReg.is_rax <;> simp [runItems_cons, Item.run, enc_mi_byte_eq]
    · rename_i i r
      cases i8TryFrom i <;> simp [Item.run, enc_mi_byte_eq]
  case Cmovcc sz c op1 op2 =>
    cases sz <;> simp only [except_map_ok, except_map_error, runItems_cons, run_i8]
  case Imul op1 op2 =>
    cases op1 <;> cases op2 <;> rfl
  case Movsd op1 op2 =>
    cases op1 <;> cases op2 <;>
      simp only [except_map_ok, except_map_error, runItems_cons, run_i8, It.sd, XmOperand.toRm]
  case Lea op1 op2 =>
    cases op1 <;> cases op2 <;> rfl
  case Pushq op =>
    cases op <;> simp only [push_pop, It.push_pop, enc_o_eq, enc_digit_eq]
  case Popq op =>
    cases op <;> simp only [push_pop, It.push_pop, enc_o_eq, enc_digit_eq]
  case Call d =>
    cases d <;> simp only [except_map_ok, except_map_error, runItems_cons, run_i8, runItems_nil,
      bind_pure_unit, Item.run]
    rename_i i
    congr 1
    cases i32TryFrom i <;> simp [Item.run, runItems_cons]
  case Jmp d => cases d <;> rfl
  case Lzcnt w a b =>
    cases w <;> simp only [count_op, It.count_op, except_map_ok, except_map_error, runItems_cons,
      run_i8, enc_rexw_mr_eq, enc_mr_eq]
  case Tzcnt w a b =>
    cases w <;> simp only [count_op, It.count_op, except_map_ok, except_map_error, runItems_cons,
      run_i8, enc_rexw_mr_eq, enc_mr_eq]
  case Popcnt w a b =>
    cases w <;> simp only [count_op, It.count_op, except_map_ok, except_map_error, runItems_cons,
      run_i8, enc_rexw_mr_eq, enc_mr_eq]

end Monoasm
