import Verif.Model.Encode
import Verif.Model.Inst
/-
  Model of `monoasm_macro/src/asm.rs` (`compile` and its helpers).

  The source produces a Rust token stream at macro-expansion time; running the expansion performs
  the calls on `jit`. The model returns the expansion-time outcome (`Except CompileError`) and, if
  expansion succeeds, the run-time computation in `M`.

  Rust expressions have been evaluated (`ε = BitVec 64`, the value as a 64-bit word); how often and
  in which scope they are evaluated is the subject of property C47, not of this file.
-/

namespace Monoasm

/-- Panics during macro expansion: `panic!`, `unimplemented!`, `todo!`, `unreachable!`, `assert_eq!`
    in asm.rs and inst.rs. They abort compilation of the user's crate. -/
inductive CompileError where
  | doesNotExist
  | unimplemented
  | unreachable
deriving DecidableEq, Repr

/-- Run-time values of Rust expressions. -/
abbrev V := BitVec 64

/-- `ToTokens for Register`, parse.rs:132-140: `Reg::from(#n as u64)` / `Reg::from(#ts)`. -/
def Register.toReg : Register V → Reg
  | .reg n => Reg.from (n.setWidth 64)
  | .expr v => Reg.from v

/-- `Reg::from(#op)` for an xmm operand, e.g. asm.rs:180 (`parse_xmm` yields `#no as u64` or the
    expression). -/
def XmmReg.toReg : XmmReg V → Reg
  | .no n => Reg.from (n.setWidth 64)
  | .expr v => Reg.from v

/-- `ToTokens for Scale`, parse.rs:359-366 -/
def MScale.toScale : MScale V → Scale
  | .none => .none
  | .s1 sc r => .s1 sc r.toReg

/-- `ToTokens for Disp`, parse.rs:453-468. `as i32` truncates; the negation is `i32` negation
    (its overflow for `i32::MIN` panics in debug builds and wraps otherwise; the model wraps). -/
def MDisp.toDisp : MDisp V DestLabel → Disp
  | .imm d => Disp.from_disp d
  | .expr false v => Disp.from_disp (v.setWidth 32)
  | .expr true v => Disp.from_disp (-(v.setWidth 32))
  | .label l => Disp.from_label l

/-- `ToTokens for IndAddr`, parse.rs:346-351 -/
def IndAddr.toRm (a : IndAddr V DestLabel) : Rm :=
  Rm.ind a.base.toReg a.disp.toDisp a.scale.toScale

/-- `ToTokens for RmOperand`, inst.rs:542-550 -/
def RmOperand.toRm : RmOperand V DestLabel → Rm
  | .reg r => Rm.reg r.toReg
  | .ind a => a.toRm

/-- `ToTokens for XmOperand`, inst.rs:779-787 -/
def XmOperand.toRm : XmOperand V DestLabel → Rm
  | .xmm x => Rm.reg x.toReg
  | .ind a => a.toRm

open JitMemory

/-- Result of macro expansion. -/
abbrev Expansion := Except CompileError (M Unit)

/-- `movq`, asm.rs:348-428 -/
def movq (op1 op2 : MovOperand V DestLabel) : Expansion :=
  match op1, op2 with
  | .xmm x, op2 => match op2 with
    | .imm _ _ => .error .doesNotExist
    | .reg r => .ok do
      let op2 := Rm.reg r.toReg
      emitb 0x66
      enc_rexw_mr [0x0f, 0x6e] x.toReg op2
    | .xmm y => .ok do
      emitb 0xf3
      enc_mr [0x0f, 0x7e] x.toReg (Rm.reg y.toReg)
    | .ind a => .ok do
      emitb 0xf3
      enc_mr [0x0f, 0x7e] x.toReg a.toRm
  | .imm _ _, _ => .error .doesNotExist
  | .reg r, .imm i size =>
    match size with
    | some size =>
      -- `assert_eq!(OperandSize::QWORD, size)`
      if size = .QWORD then .ok do
        enc_rexw_o 0xb8 r.toReg
        emitq i
      else .error .doesNotExist
    | none => .ok do
      enc_rexw_o 0xb8 r.toReg
      emitq i
  | .ind a, .imm i none => .ok do
    match i32TryFrom i with
    | some imm => enc_rexw_mi 0xc7 a.toRm (.l imm)
    | none => M.panic .immOutOfRange
  | .ind _, .imm _ (some _) => .error .unimplemented
  | .reg r1, .reg r2 => .ok (enc_rexw_mr [0x89] r2.toReg (Rm.reg r1.toReg))
  | .ind a, .reg r2 => .ok (enc_rexw_mr [0x89] r2.toReg a.toRm)
  | .reg r1, .xmm y => .ok do
    let op1 := Rm.reg r1.toReg
    emitb 0x66
    enc_rexw_mr [0x0f, 0x7e] y.toReg op1
  | .ind a, .xmm y => .ok do
    emitb 0x66
    enc_mr [0x0f, 0xd6] y.toReg a.toRm
  | .reg r1, .ind a => .ok (enc_rexw_mr [0x8b] r1.toReg a.toRm)
  | .ind _, .ind _ => .error .unimplemented

/-- `movl`, asm.rs:430-471 -/
def movl (op1 : RmOperand V DestLabel) (op2 : RmiOperand V DestLabel) : Expansion :=
  match op1, op2 with
  | .reg r, .imm i => .ok do
    match i32TryFrom i with
    | some imm =>
      enc_oi 0xb8 r.toReg
      emitl imm
    | none => M.panic .immOutOfRange
  | .ind a, .imm i => .ok do
    match i32TryFrom i with
    | some imm => enc_mi 0xc7 a.toRm (.l imm)
    | none => M.panic .immOutOfRange
  | op1, .reg r => .ok (enc_mr [0x89] r.toReg op1.toRm)
  | .reg r, .ind a => .ok (enc_mr [0x8b] r.toReg a.toRm)
  | .ind _, .ind _ => .error .unimplemented

/-- `movw`, asm.rs:473-518 -/
def movw (op1 : RmOperand V DestLabel) (op2 : RmiOperand V DestLabel) : Expansion :=
  match op1, op2 with
  | .reg r, .imm i => .ok do
    match i16TryFrom i with
    | some imm =>
      emitb 0x66
      enc_oi 0xb8 r.toReg
      emitw imm
    | none => M.panic .immOutOfRange
  | .ind a, .imm i => .ok do
    match i16TryFrom i with
    | some imm =>
      emitb 0x66
      enc_mi 0xc7 a.toRm (.w imm)
    | none => M.panic .immOutOfRange
  | op1, .reg r => .ok do
    emitb 0x66
    enc_mr [0x89] r.toReg op1.toRm
  | .reg r, .ind a => .ok do
    emitb 0x66
    enc_mr [0x8b] r.toReg a.toRm
  | .ind _, .ind _ => .error .unimplemented

/-- `movb`, asm.rs:520-564 -/
def movb (op1 : RmOperand V DestLabel) (op2 : RmiOperand V DestLabel) : Expansion :=
  match op1, op2 with
  | .reg r, .imm i => .ok do
    match i8TryFrom i with
    | some imm =>
      enc_oi_byte 0xb0 r.toReg
      emitb imm
    | none => M.panic .immOutOfRange
  | .ind a, .imm i => .ok do
    match i8TryFrom i with
    | some imm => enc_mi_byte 0xc6 a.toRm (.b imm)
    | none => M.panic .immOutOfRange
  | op1, .reg r => .ok (enc_mr_byte [0x88] r.toReg op1.toRm)
  | .reg r, .ind a => .ok (enc_mr_byte [0x8a] r.toReg a.toRm)
  | .ind _, .ind _ => .error .unimplemented

/-- `binary_opq`, asm.rs:582-639 -/
def binary_opq (op_mr digit : BitVec 8) (op1 : RmOperand V DestLabel)
    (op2 : RmiOperand V DestLabel) : Expansion :=
  let op_rm := op_mr + 2
  match op1, op2 with
  | op1, .imm i => .ok do
    match i8TryFrom i with
    | some imm => enc_rexw_digit [0x83] op1.toRm digit (.b imm)
    | none =>
      match i32TryFrom i with
      | some imm => enc_rexw_digit [0x81] op1.toRm digit (.l imm)
      | none => M.panic .immOutOfRange
  | op1, .reg r => .ok (enc_rexw_mr [op_mr] r.toReg op1.toRm)
  | .reg r, .ind a => .ok (enc_rexw_mr [op_rm] r.toReg a.toRm)
  | .ind _, .ind _ => .error .unimplemented

/-- `binary_opl`, asm.rs:641-698 -/
def binary_opl (op_mr digit : BitVec 8) (op1 : RmOperand V DestLabel)
    (op2 : RmiOperand V DestLabel) : Expansion :=
  let op_rm := op_mr + 2
  match op1, op2 with
  | op1, .imm i => .ok do
    match i8TryFrom i with
    | some imm => enc_digit_imm [0x83] op1.toRm digit (.b imm)
    | none =>
      match i32TryFrom i with
      | some imm => enc_digit_imm [0x81] op1.toRm digit (.l imm)
      | none => M.panic .immOutOfRange
  | op1, .reg r => .ok (enc_mr [op_mr] r.toReg op1.toRm)
  | .reg r, .ind a => .ok (enc_mr [op_rm] r.toReg a.toRm)
  | .ind _, .ind _ => .error .unimplemented

/-- `binary_opw`, asm.rs:700-764. The `0x66` prefix is emitted before the immediate is checked. -/
def binary_opw (op_mr digit : BitVec 8) (op1 : RmOperand V DestLabel)
    (op2 : RmiOperand V DestLabel) : Expansion :=
  let op_rm := op_mr + 2
  match op1, op2 with
  | op1, .imm i => .ok do
    emitb 0x66
    match i8TryFrom i with
    | some imm => enc_digit_imm [0x83] op1.toRm digit (.b imm)
    | none =>
      match i16TryFrom i with
      | some imm => enc_digit_imm [0x81] op1.toRm digit (.w imm)
      | none => M.panic .immOutOfRange
  | op1, .reg r => .ok do
    emitb 0x66
    enc_mr [op_mr] r.toReg op1.toRm
  | .reg r, .ind a => .ok do
    emitb 0x66
    enc_mr [op_rm] r.toReg a.toRm
  | .ind _, .ind _ => .error .unimplemented

/-- `binary_opb`, asm.rs:766-821 -/
def binary_opb (op_mr digit : BitVec 8) (op1 : RmOperand V DestLabel)
    (op2 : RmiOperand V DestLabel) : Expansion :=
  let op_rm := op_mr + 2
  match op1, op2 with
  | op1, .imm i =>
    let op_al := op_mr + 4
    .ok do
      match i8TryFrom i with
      | some imm => enc_digit_imm_byte [0x80] op_al op1.toRm digit (.b imm)
      | none => M.panic .immOutOfRange
  | op1, .reg r => .ok (enc_mr_byte [op_mr] r.toReg op1.toRm)
  | .reg r, .ind a => .ok (enc_mr_byte [op_rm] r.toReg a.toRm)
  | .ind _, .ind _ => .error .unimplemented

/-- `binary_op`, asm.rs:566-580 -/
def binary_op (size : OperandSize) (op_mr digit : BitVec 8) (op1 : RmOperand V DestLabel)
    (op2 : RmiOperand V DestLabel) : Expansion :=
  match size with
  | .QWORD => binary_opq op_mr digit op1 op2
  | .DWORD => binary_opl op_mr digit op1 op2
  | .WORD => binary_opw op_mr digit op1 op2
  | .BYTE => binary_opb (op_mr - 1) digit op1 op2

/-- `divide_op`, asm.rs:823-842 -/
def divide_op (width : OperandSize) (signed : Bool) (op : RmOperand V DestLabel) : Expansion :=
  let digit : BitVec 8 := if signed then 7 else 6
  match width with
  | .QWORD => .ok (enc_rexw_digit [0xf7] op.toRm digit .none)
  | .DWORD => .ok (enc_digit [0xf7] op.toRm digit)
  | _ => .error .unimplemented

/-- `shift_op`, asm.rs:866-932 -/
def shift_op (width : OperandSize) (digit : BitVec 8) (op1 : RmOperand V DestLabel)
    (op2 : RiOperand V) : Expansion :=
  match width with
  | .QWORD =>
    match op2 with
    | .imm i => .ok do
      if i = 1 then enc_rexw_digit [0xd1] op1.toRm digit .none
      else match i8TryFrom i with
        | some imm => enc_rexw_digit [0xc1] op1.toRm digit (.b imm)
        | none => M.panic .immOutOfRange
    | .reg r => .ok do
      if !r.toReg.is_cl then M.panic .regShouldBeCl
      enc_rexw_digit [0xd3] op1.toRm digit .none
  | .DWORD =>
    match op2 with
    | .imm i => .ok do
      if i = 1 then enc_digit [0xd1] op1.toRm digit
      else match i8TryFrom i with
        | some imm => enc_digit_imm [0xc1] op1.toRm digit (.b imm)
        | none => M.panic .immOutOfRange
    | .reg r => .ok do
      if !r.toReg.is_cl then M.panic .regShouldBeCl
      enc_digit [0xd3] op1.toRm digit
  | .WORD => .error .unimplemented
  | .BYTE => .error .unimplemented

/-- `binary_sd_op`, asm.rs:934-940 -/
def binary_sd_op (operand : BitVec 8) (op1 : XmmReg V) (op2 : XmOperand V DestLabel) : Expansion :=
  .ok do
    emitb 0xf2
    enc_mr [0x0f, operand] op1.toReg op2.toRm

/-- `push_pop`, asm.rs:942-956 -/
def push_pop (opcode_r : BitVec 8) (opcode_m : BitVec 8 × BitVec 8) (op : RmOperand V DestLabel) :
    Expansion :=
  match op with
  | .reg r => .ok (enc_o opcode_r r.toReg)
  | .ind a => .ok (enc_digit [opcode_m.1] a.toRm opcode_m.2)

/-- `count_op`, asm.rs:958-974 -/
def count_op (width : OperandSize) (opcode : BitVec 8) (op1 : Register V)
    (op2 : RmOperand V DestLabel) : Expansion :=
  match width with
  | .QWORD => .ok do
    emitb 0xf3
    enc_rexw_mr [0x0f, opcode] op1.toReg op2.toRm
  | .DWORD => .ok do
    emitb 0xf3
    enc_mr [0x0f, opcode] op1.toReg op2.toRm
  | _ => .error .unimplemented

/-- the eight bytes of `f64::to_ne_bytes` (little-endian), asm.rs:9 -/
def bytes64 (v : BitVec 64) : List Byte :=
  [v.setWidth 8, (v >>> 8).setWidth 8, (v >>> 16).setWidth 8, (v >>> 24).setWidth 8,
   (v >>> 32).setWidth 8, (v >>> 40).setWidth 8, (v >>> 48).setWidth 8, (v >>> 56).setWidth 8]

/-- `compile`, asm.rs:5-346 -/
def compile (inst : Inst V DestLabel) : Expansion :=
  match inst with
  | .Label l => .ok (bind_label l)                                          -- asm.rs:7
  | .F64 bits => .ok (emit (bytes64 bits))                                  -- asm.rs:8-10
  | .I64 v => .ok (emitq v)                                                 -- asm.rs:11-13
  | .Movq op1 op2 => movq op1 op2
  | .Movl op1 op2 => movl op1 op2
  | .Movw op1 op2 => movw op1 op2
  | .Movb op1 op2 => movb op1 op2
  | .Movsxl op1 op2 => .ok (enc_rexw_mr [0x63] op1.toReg op2.toRm)          -- asm.rs:19
  | .Movzxw op1 op2 => .ok (enc_rexw_mr [0x0f, 0xb7] op1.toReg op2.toRm)
  | .Movsxw op1 op2 => .ok (enc_rexw_mr [0x0f, 0xbf] op1.toReg op2.toRm)
  | .Movzxb op1 op2 => .ok (enc_rexw_mr [0x0f, 0xb6] op1.toReg op2.toRm)
  | .Movsxb op1 op2 => .ok (enc_rexw_mr [0x0f, 0xbe] op1.toReg op2.toRm)
  | .Add size op1 op2 => binary_op size 0x01 0 op1 op2                      -- asm.rs:24-31
  | .Or size op1 op2 => binary_op size 0x09 1 op1 op2
  | .Adc size op1 op2 => binary_op size 0x11 2 op1 op2
  | .Sbb size op1 op2 => binary_op size 0x19 3 op1 op2
  | .And size op1 op2 => binary_op size 0x21 4 op1 op2
  | .Sub size op1 op2 => binary_op size 0x29 5 op1 op2
  | .Xor size op1 op2 => binary_op size 0x31 6 op1 op2
  | .Cmp size op1 op2 => binary_op size 0x39 7 op1 op2
  | .Xchg size op1 op2 =>                                                   -- asm.rs:33-59
    match size with
    | .QWORD =>
      match op1, op2 with
      | .reg r1, .reg r2 => .ok do
        if r1.toReg = Reg.from 0 then
          if r2.toReg = Reg.from 0 then emitb 0x90
          else enc_rexw_o 0x90 r2.toReg
        else if r2.toReg = Reg.from 0 then enc_rexw_o 0x90 r1.toReg
        else enc_rexw_mr [0x87] r2.toReg (Rm.reg r1.toReg)
      | .ind a, .reg r2 => .ok (enc_rexw_mr [0x87] r2.toReg a.toRm)
      | .reg r1, .ind a => .ok (enc_rexw_mr [0x87] r1.toReg a.toRm)
      | .ind _, .ind _ => .error .doesNotExist
    | _ => .error .doesNotExist
  | .Testq op1 op2 =>                                                       -- asm.rs:61-93
    match op2 with
    | .imm i =>
      match op1 with
      | .reg r => .ok do
        match i32TryFrom i with
        | some imm =>
          if r.toReg.is_rax then
            emit [0x48, 0xa9]
            emitl imm
          else enc_rexw_mi 0xf7 (Rm.reg r.toReg) (.l imm)
        | none => M.panic .immOutOfRange
      | .ind a => .ok do
        match i32TryFrom i with
        | some imm => enc_rexw_mi 0xf7 a.toRm (.l imm)
        | none => M.panic .immOutOfRange
    | .reg r => .ok (enc_rexw_mr [0x85] r.toReg op1.toRm)
  | .Testb op1 op2 =>                                                       -- asm.rs:94-126
    match op2 with
    | .imm i =>
      match op1 with
      | .reg r => .ok do
        match i8TryFrom i with
        | some imm =>
          if r.toReg.is_rax then
            emit [0xa8]
            emitb imm
          else enc_mi_byte 0xf6 (Rm.reg r.toReg) (.b imm)
        | none => M.panic .immOutOfRange
      | .ind a => .ok do
        match i8TryFrom i with
        | some imm => enc_mi_byte 0xf6 a.toRm (.b imm)
        | none => M.panic .immOutOfRange
    | .reg r => .ok (enc_mr_byte [0x84] r.toReg op1.toRm)
  | .Rol width op1 op2 => shift_op width 0 op1 op2                          -- asm.rs:128-133
  | .Ror width op1 op2 => shift_op width 1 op1 op2
  | .Shl width op1 op2 => shift_op width 4 op1 op2
  | .Shr width op1 op2 => shift_op width 5 op1 op2
  | .Sal width op1 op2 => shift_op width 4 op1 op2
  | .Sar width op1 op2 => shift_op width 7 op1 op2
  | .Setcc cond op => .ok (enc_m_byte [0x0f, 0x90 + cond.code] op.toRm)     -- asm.rs:135-138
  | .Cmovcc size cond op1 op2 =>                                            -- asm.rs:139-150
    let c := 0x40 + cond.code
    match size with
    | .QWORD => .ok (enc_rexw_mr [0x0f, c] op1.toReg op2.toRm)
    | .DWORD => .ok (enc_mr [0x0f, c] op1.toReg op2.toRm)
    | .WORD => .ok do
      emitb 0x66
      enc_mr [0x0f, c] op1.toReg op2.toRm
    | .BYTE => .error .unimplemented
  | .Cqo => .ok (emit [0x48, 0x99])                                         -- asm.rs:152-154
  | .Cdq => .ok (emit [0x99])
  | .Int3 => .ok (emit [0xcc])
  | .Negq op => .ok (enc_rexw_digit [0xf7] op.toRm 3 .none)                 -- asm.rs:156
  | .Imul op1 op2 =>                                                        -- asm.rs:158-170
    match op1, op2 with
    | .reg r, .reg r2 => .ok (enc_rexw_mr [0x0f, 0xaf] r.toReg (Rm.reg r2.toReg))
    | .reg r, .ind a => .ok (enc_rexw_mr [0x0f, 0xaf] r.toReg a.toRm)
    | .reg _, .imm _ => .error .unreachable     -- `ToTokens for RmiOperand`, inst.rs:607
    | _, _ => .error .unimplemented
  | .Idiv op => divide_op .QWORD true op                                    -- asm.rs:172-175
  | .Idivl op => divide_op .DWORD true op
  | .Div op => divide_op .QWORD false op
  | .Divl op => divide_op .DWORD false op
  | .Movsd op1 op2 =>                                                       -- asm.rs:177-189
    match op1, op2 with
    | .xmm x, op2 => .ok do
      emitb 0xf2
      enc_mr [0x0f, 0x10] x.toReg op2.toRm
    | .ind a, .xmm y => .ok do
      emitb 0xf2
      enc_mr [0x0f, 0x11] y.toReg a.toRm
    | .ind _, .ind _ => .error .doesNotExist
  | .Addsd op1 op2 => binary_sd_op 0x58 op1 op2                             -- asm.rs:190-195
  | .Subsd op1 op2 => binary_sd_op 0x5c op1 op2
  | .Mulsd op1 op2 => binary_sd_op 0x59 op1 op2
  | .Divsd op1 op2 => binary_sd_op 0x5e op1 op2
  | .Minsd op1 op2 => binary_sd_op 0x5d op1 op2
  | .Maxsd op1 op2 => binary_sd_op 0x5f op1 op2
  | .Xorps op1 op2 => .ok (enc_mr [0x0f, 0x57] op1.toReg op2.toRm)          -- asm.rs:196-200
  | .Lea op1 op2 =>                                                         -- asm.rs:202-209
    match op1, op2 with
    | .reg r, .ind a => .ok (enc_rexw_mr [0x8d] r.toReg a.toRm)
    | _, _ => .error .doesNotExist
  | .Cvtsi2sdq op1 op2 => .ok do                                            -- asm.rs:211-216
    emitb 0xf2
    enc_rexw_mr [0x0f, 0x2a] op1.toReg op2.toRm
  | .Cvttsd2siq op1 op2 => .ok do                                           -- asm.rs:218-223
    emitb 0xf2
    enc_mr [0x0f, 0x2c] op1.toReg op2.toRm
  | .Andpd op1 op2 => .ok do                                                -- asm.rs:225-230
    emitb 0x66
    enc_mr [0x0f, 0x54] op1.toReg op2.toRm
  | .Xorpd op1 op2 => .ok do                                                -- asm.rs:232-237
    emitb 0x66
    enc_mr [0x0f, 0x57] op1.toReg op2.toRm
  | .Roundpd op1 op2 op3 => .ok do                                          -- asm.rs:239-245
    emitb 0x66
    enc_mr [0x0f, 0x3a, 0x09] op1.toReg op2.toRm
    -- `jit.emitb(#op3)`: rustc requires `op3 : u8`
    emitb (op3.setWidth 8)
  | .Sqrtpd op1 op2 => .ok do                                               -- asm.rs:247-252
    emitb 0x66
    enc_mr [0x0f, 0x51] op1.toReg op2.toRm
  | .Sqrtsd op1 op2 => .ok do                                               -- asm.rs:253-258
    emitb 0xf2
    enc_mr [0x0f, 0x51] op1.toReg op2.toRm
  | .Pushq op => push_pop 0x50 (0xff, 6) op                                 -- asm.rs:260-261
  | .Popq op => push_pop 0x58 (0x8f, 0) op
  | .Call dest =>                                                           -- asm.rs:263-298
    match dest with
    | .reg n => .ok (enc_digit [0xff] (Rm.reg (Reg.from (n.setWidth 64))) 2)
    | .ind a => .ok (enc_digit [0xff] a.toRm 2)
    | .rel l => .ok do
      emitb 0xe8
      save_reloc l 4
      emitl 0
    | .disp i => .ok do
      match i32TryFrom i with
      | some imm =>
        emitb 0xe8
        emitl imm
      | none => M.panic .immOutOfRange
  | .Ret => .ok (emitb 0xc3)                                                -- asm.rs:299
  | .Jmp dest =>                                                            -- asm.rs:300-322
    match dest with
    | .reg n => .ok (enc_digit [0xff] (Rm.reg (Reg.from (n.setWidth 64))) 4)
    | .ind a => .ok (enc_digit [0xff] a.toRm 4)
    | .rel l => .ok (enc_d [0xe9] l)
    | .disp _ => .error .unimplemented
  | .Jcc cond dest => .ok (enc_d [0x0f, 0x80 + cond.code] dest)             -- asm.rs:323-326
  | .UComIsd op1 op2 => .ok do                                              -- asm.rs:328-334
    emitb 0x66
    enc_mr [0x0f, 0x2e] op1.toReg op2.toRm
  | .Syscall => .ok (emit [0x0f, 0x05])                                     -- asm.rs:336-341
  | .Leave => .ok (emitb 0xc9)
  | .Tzcnt width op1 op2 => count_op width 0xbc op1 op2                     -- asm.rs:342-344
  | .Lzcnt width op1 op2 => count_op width 0xbd op1 op2
  | .Popcnt width op1 op2 => count_op width 0xb8 op1 op2

/-- Expansion of all statements of one `monoasm!` call: `stmts.contents.into_iter().map(compile)`,
    monoasm_macro/src/lib.rs:23-29. Expansion of the whole call fails if any statement fails. -/
def compileAll : List (Inst V DestLabel) → Except CompileError (M Unit)
  | [] => .ok (pure ())
  | i :: is =>
    match compile i with
    | .error e => .error e
    | .ok m =>
      match compileAll is with
      | .error e => .error e
      | .ok ms => .ok (do m; ms)

end Monoasm
