import Verif.Model.Compile
/-
  Model of what the expansion of `monoasm!` does when it runs: `monoasm_macro/src/asm.rs` and
  `monoasm_macro/src/lib.rs:23-29`, with the user's Rust expressions not yet evaluated.

  `compile` (Verif/Model/Compile.lean) works on values. Here the statements contain expressions, and
  the model follows the quoted code in evaluating them: where, how often, in which order, and which
  names introduced by the expansion are in scope at that point. `quote!` gives its identifiers
  call-site hygiene, so a `let` of the expansion hides a variable of the same name of the user from
  the expressions that come after it.

  The user's code is abstract (`User`): `value e hidden w` is the value of the expression `e` when the
  names in `hidden` are taken by the expansion, or `none` if it panics, and the new state of the user's
  world (side effects). An expression reads the hidden names but does not assign to them.
-/

namespace Monoasm

/-- What a variable introduced by the expansion holds. -/
inductive MVal where
  | jit
  | i64 (v : BitVec 64)
  | i32 (v : BitVec 32)
  | i16 (v : BitVec 16)
  | i8 (v : BitVec 8)
  | rm (rm : Rm)

/-- The variables that the expansion has introduced and that are in scope. -/
abbrev Hidden := String → Option MVal

/-- The user's side: meaning of expressions and of label variables. -/
structure User (ε lam ω : Type) where
  value : ε → Hidden → ω → Option V × ω
  label : lam → Hidden → DestLabel

/-- An evaluation of a user's expression, or a use of a label variable. -/
inductive Ev (ε lam : Type) where
  | expr (e : ε) (hidden : Hidden)
  | label (l : lam) (hidden : Hidden)

/-- State of the running expansion. `trace` records the evaluations, oldest first. -/
structure GState (ε lam ω : Type) where
  jit : JitMemory
  hidden : Hidden
  world : ω
  trace : List (Ev ε lam)

inductive GRes (ε lam ω α : Type) where
  | ok (a : α) (st : GState ε lam ω)
  | panic (e : Panic) (st : GState ε lam ω)

/-- Generated code. -/
def G (ε lam ω α : Type) : Type := GState ε lam ω → GRes ε lam ω α

namespace G
variable {ε lam ω : Type}

instance : Monad (G ε lam ω) where
  pure a := fun st => .ok a st
  bind g f := fun st => match g st with
    | .ok a st' => f a st'
    | .panic e st' => .panic e st'

/-- A call `jit.f(..);` whose arguments are evaluated. -/
def jit {α} (m : M α) : G ε lam ω α := fun st =>
  match m st.jit with
  | .ok a s => .ok a { st with jit := s }
  | .panic e s => .panic e { st with jit := s }

/-- `let x = v;` -/
def letVar (x : String) (v : MVal) : G ε lam ω Unit := fun st =>
  .ok () { st with hidden := fun y => if y = x then some v else st.hidden y }

/-- `{ .. }`: variables introduced inside go out of scope. -/
def block {α} (g : G ε lam ω α) : G ε lam ω α := fun st =>
  match g st with
  | .ok a st' => .ok a { st' with hidden := st.hidden }
  | .panic e st' => .panic e { st' with hidden := st.hidden }

/-- `panic!` -/
def panic {α} (e : Panic) : G ε lam ω α := fun st => .panic e st

variable (U : User ε lam ω)

/-- Evaluation of the user's expression `e`. -/
def eval (e : ε) : G ε lam ω V := fun st =>
  match U.value e st.hidden st.world with
  | (some v, w) => .ok v { st with world := w, trace := st.trace ++ [.expr e st.hidden] }
  | (none, w) => .panic .userCode { st with world := w, trace := st.trace ++ [.expr e st.hidden] }

/-- Use of the label variable `l`. -/
def label (l : lam) : G ε lam ω DestLabel := fun st =>
  .ok (U.label l st.hidden) { st with trace := st.trace ++ [.label l st.hidden] }

/-- `ToTokens for Register`, parse.rs:132-140 -/
def reg : Register ε → G ε lam ω Reg
  | .reg n => pure (Reg.from (n.setWidth 64))
  | .expr e => do
    let v ← eval U e
    pure (Reg.from v)

/-- `Reg::from(#op)` for an xmm operand, e.g. asm.rs:180 -/
def xmm : XmmReg ε → G ε lam ω Reg
  | .no n => pure (Reg.from (n.setWidth 64))
  | .expr e => do
    let v ← eval U e
    pure (Reg.from v)

/-- `ToTokens for Disp`, parse.rs:453-468 -/
def disp : MDisp ε lam → G ε lam ω Disp
  | .imm d => pure (Disp.from_disp d)
  | .expr false e => do
    let v ← eval U e
    pure (Disp.from_disp (v.setWidth 32))
  | .expr true e => do
    let v ← eval U e
    pure (Disp.from_disp (-(v.setWidth 32)))
  | .label l => do
    let l ← label U l
    pure (Disp.from_label l)

/-- `ToTokens for Scale`, parse.rs:359-366 -/
def scale : MScale ε → G ε lam ω Scale
  | .none => pure .none
  | .s1 sc r => do
    let r ← reg U r
    pure (.s1 sc r)

/-- `ToTokens for IndAddr`, parse.rs:346-351: `Rm::ind(#base, #disp, #scale)` -/
def ind (a : IndAddr ε lam) : G ε lam ω Rm := do
  let b ← reg U a.base
  let d ← disp U a.disp
  let s ← scale U a.scale
  pure (Rm.ind b d s)

/-- `ToTokens for RmOperand`, inst.rs:542-550 -/
def rm : RmOperand ε lam → G ε lam ω Rm
  | .reg r => do
    let r ← reg U r
    pure (Rm.reg r)
  | .ind a => ind U a

/-- `ToTokens for XmOperand`, inst.rs:779-787 -/
def xm : XmOperand ε lam → G ε lam ω Rm
  | .xmm x => do
    let r ← xmm U x
    pure (Rm.reg r)
  | .ind a => ind U a

/-- `jit.f(.., #reg, #rm);` -/
def regRm (f : Reg → Rm → M Unit) (r : G ε lam ω Reg) (a : G ε lam ω Rm) : G ε lam ω Unit := do
  let r ← r
  let a ← a
  jit (f r a)

/-- `jit.f(.., #rm, ..);` or `jit.f(.., #reg);` -/
def arg1 {β} (f : β → M Unit) (a : G ε lam ω β) : G ε lam ω Unit := do
  let a ← a
  jit (f a)

/-- `let imm = (#i) as i64;` -/
def letImm (i : ε) : G ε lam ω V := do
  let v ← eval U i
  letVar "imm" (.i64 v)
  pure v

/-- `if let Ok(imm) = i8::try_from(imm) { thn } else { els }` -/
def tryI8 (v : V) (thn : BitVec 8 → G ε lam ω Unit) (els : G ε lam ω Unit) : G ε lam ω Unit :=
  match i8TryFrom v with
  | some imm => block (do letVar "imm" (.i8 imm); thn imm)
  | none => block els

/-- `if let Ok(imm) = i16::try_from(imm) { thn } else { els }` -/
def tryI16 (v : V) (thn : BitVec 16 → G ε lam ω Unit) (els : G ε lam ω Unit) : G ε lam ω Unit :=
  match i16TryFrom v with
  | some imm => block (do letVar "imm" (.i16 imm); thn imm)
  | none => block els

/-- `if let Ok(imm) = i32::try_from(imm) { thn } else { els }` -/
def tryI32 (v : V) (thn : BitVec 32 → G ε lam ω Unit) (els : G ε lam ω Unit) : G ε lam ω Unit :=
  match i32TryFrom v with
  | some imm => block (do letVar "imm" (.i32 imm); thn imm)
  | none => block els

end G

namespace Expand
open JitMemory G
variable {ε lam ω : Type} (U : User ε lam ω)

/-- Result of macro expansion. -/
abbrev Code (ε lam ω : Type) := Except CompileError (G ε lam ω Unit)

/-- `movq`, asm.rs:348-428 -/
def movq (op1 op2 : MovOperand ε lam) : Code ε lam ω :=
  match op1, op2 with
  | .xmm x, op2 => match op2 with
    | .imm _ _ => .error .doesNotExist
    | .reg r => .ok do
      let r ← reg U r
      letVar "op2" (.rm (Rm.reg r))
      jit (emitb 0x66)
      arg1 (fun x => enc_rexw_mr [0x0f, 0x6e] x (Rm.reg r)) (xmm U x)
    | .xmm y => .ok do
      jit (emitb 0xf3)
      regRm (enc_mr [0x0f, 0x7e]) (xmm U x) (do let y ← xmm U y; pure (Rm.reg y))
    | .ind a => .ok do
      jit (emitb 0xf3)
      regRm (enc_mr [0x0f, 0x7e]) (xmm U x) (ind U a)
  | .imm _ _, _ => .error .doesNotExist
  | .reg r, .imm i size =>
    match size with
    | some size =>
      -- `assert_eq!(OperandSize::QWORD, size)`
      if size = .QWORD then .ok do
        let imm ← letImm U i
        let rm_op ← reg U r
        letVar "rm_op" (.rm (Rm.reg rm_op))
        arg1 (enc_rexw_o 0xb8) (reg U r)
        jit (emitq imm)
      else .error .doesNotExist
    | none => .ok do
      let imm ← letImm U i
      let rm_op ← reg U r
      letVar "rm_op" (.rm (Rm.reg rm_op))
      arg1 (enc_rexw_o 0xb8) (reg U r)
      jit (emitq imm)
  | .ind a, .imm i none => .ok do
    let imm ← letImm U i
    tryI32 imm (fun imm => arg1 (fun a => enc_rexw_mi 0xc7 a (.l imm)) (ind U a))
      (G.panic .immOutOfRange)
  | .ind _, .imm _ (some _) => .error .unimplemented
  | .reg r1, .reg r2 => .ok (regRm (enc_rexw_mr [0x89]) (reg U r2) (rm U (.reg r1)))
  | .ind a, .reg r2 => .ok (regRm (enc_rexw_mr [0x89]) (reg U r2) (ind U a))
  | .reg r1, .xmm y => .ok do
    let r1 ← reg U r1
    letVar "op1" (.rm (Rm.reg r1))
    jit (emitb 0x66)
    arg1 (fun y => enc_rexw_mr [0x0f, 0x7e] y (Rm.reg r1)) (xmm U y)
  | .ind a, .xmm y => .ok do
    jit (emitb 0x66)
    regRm (enc_mr [0x0f, 0xd6]) (xmm U y) (ind U a)
  | .reg r1, .ind a => .ok (regRm (enc_rexw_mr [0x8b]) (reg U r1) (ind U a))
  | .ind _, .ind _ => .error .unimplemented

/-- `movl`, asm.rs:430-471. The message of the `panic!` evaluates the register once more. -/
def movl (op1 : RmOperand ε lam) (op2 : RmiOperand ε lam) : Code ε lam ω :=
  match op1, op2 with
  | .reg r, .imm i => .ok do
    let imm ← letImm U i
    tryI32 imm (fun imm => do
        arg1 (enc_oi 0xb8) (reg U r)
        jit (emitl imm))
      (do let _ ← reg U r; G.panic .immOutOfRange)
  | .ind a, .imm i => .ok do
    let imm ← letImm U i
    tryI32 imm (fun imm => arg1 (fun a => enc_mi 0xc7 a (.l imm)) (ind U a))
      (G.panic .immOutOfRange)
  | op1, .reg r => .ok (regRm (enc_mr [0x89]) (reg U r) (rm U op1))
  | .reg r, .ind a => .ok (regRm (enc_mr [0x8b]) (reg U r) (ind U a))
  | .ind _, .ind _ => .error .unimplemented

/-- `movw`, asm.rs:473-518 -/
def movw (op1 : RmOperand ε lam) (op2 : RmiOperand ε lam) : Code ε lam ω :=
  match op1, op2 with
  | .reg r, .imm i => .ok do
    let imm ← letImm U i
    tryI16 imm (fun imm => do
        jit (emitb 0x66)
        arg1 (enc_oi 0xb8) (reg U r)
        jit (emitw imm))
      (do let _ ← reg U r; G.panic .immOutOfRange)
  | .ind a, .imm i => .ok do
    let imm ← letImm U i
    tryI16 imm (fun imm => do
        jit (emitb 0x66)
        arg1 (fun a => enc_mi 0xc7 a (.w imm)) (ind U a))
      (G.panic .immOutOfRange)
  | op1, .reg r => .ok do
    jit (emitb 0x66)
    regRm (enc_mr [0x89]) (reg U r) (rm U op1)
  | .reg r, .ind a => .ok do
    jit (emitb 0x66)
    regRm (enc_mr [0x8b]) (reg U r) (ind U a)
  | .ind _, .ind _ => .error .unimplemented

/-- `movb`, asm.rs:520-564 -/
def movb (op1 : RmOperand ε lam) (op2 : RmiOperand ε lam) : Code ε lam ω :=
  match op1, op2 with
  | .reg r, .imm i => .ok do
    let imm ← letImm U i
    tryI8 imm (fun imm => do
        arg1 (enc_oi_byte 0xb0) (reg U r)
        jit (emitb imm))
      (do let _ ← reg U r; G.panic .immOutOfRange)
  | .ind a, .imm i => .ok do
    let imm ← letImm U i
    tryI8 imm (fun imm => arg1 (fun a => enc_mi_byte 0xc6 a (.b imm)) (ind U a))
      (G.panic .immOutOfRange)
  | op1, .reg r => .ok (regRm (enc_mr_byte [0x88]) (reg U r) (rm U op1))
  | .reg r, .ind a => .ok (regRm (enc_mr_byte [0x8a]) (reg U r) (ind U a))
  | .ind _, .ind _ => .error .unimplemented

/-- `binary_opq`, asm.rs:582-639 -/
def binary_opq (op_mr digit : BitVec 8) (op1 : RmOperand ε lam) (op2 : RmiOperand ε lam) :
    Code ε lam ω :=
  let op_rm := op_mr + 2
  match op1, op2 with
  | op1, .imm i => .ok do
    let imm ← letImm U i
    tryI8 imm (fun imm => arg1 (fun a => enc_rexw_digit [0x83] a digit (.b imm)) (rm U op1))
      (tryI32 imm (fun imm => arg1 (fun a => enc_rexw_digit [0x81] a digit (.l imm)) (rm U op1))
        (G.panic .immOutOfRange))
  | op1, .reg r => .ok (regRm (enc_rexw_mr [op_mr]) (reg U r) (rm U op1))
  | .reg r, .ind a => .ok (regRm (enc_rexw_mr [op_rm]) (reg U r) (ind U a))
  | .ind _, .ind _ => .error .unimplemented

/-- `binary_opl`, asm.rs:641-698 -/
def binary_opl (op_mr digit : BitVec 8) (op1 : RmOperand ε lam) (op2 : RmiOperand ε lam) :
    Code ε lam ω :=
  let op_rm := op_mr + 2
  match op1, op2 with
  | op1, .imm i => .ok do
    let imm ← letImm U i
    tryI8 imm (fun imm => arg1 (fun a => enc_digit_imm [0x83] a digit (.b imm)) (rm U op1))
      (tryI32 imm (fun imm => arg1 (fun a => enc_digit_imm [0x81] a digit (.l imm)) (rm U op1))
        (G.panic .immOutOfRange))
  | op1, .reg r => .ok (regRm (enc_mr [op_mr]) (reg U r) (rm U op1))
  | .reg r, .ind a => .ok (regRm (enc_mr [op_rm]) (reg U r) (ind U a))
  | .ind _, .ind _ => .error .unimplemented

/-- `binary_opw`, asm.rs:700-764 -/
def binary_opw (op_mr digit : BitVec 8) (op1 : RmOperand ε lam) (op2 : RmiOperand ε lam) :
    Code ε lam ω :=
  let op_rm := op_mr + 2
  match op1, op2 with
  | op1, .imm i => .ok do
    let imm ← letImm U i
    jit (emitb 0x66)
    tryI8 imm (fun imm => arg1 (fun a => enc_digit_imm [0x83] a digit (.b imm)) (rm U op1))
      (tryI16 imm (fun imm => arg1 (fun a => enc_digit_imm [0x81] a digit (.w imm)) (rm U op1))
        (G.panic .immOutOfRange))
  | op1, .reg r => .ok do
    jit (emitb 0x66)
    regRm (enc_mr [op_mr]) (reg U r) (rm U op1)
  | .reg r, .ind a => .ok do
    jit (emitb 0x66)
    regRm (enc_mr [op_rm]) (reg U r) (ind U a)
  | .ind _, .ind _ => .error .unimplemented

/-- `binary_opb`, asm.rs:766-821. The message of the `panic!` evaluates the immediate again. -/
def binary_opb (op_mr digit : BitVec 8) (op1 : RmOperand ε lam) (op2 : RmiOperand ε lam) :
    Code ε lam ω :=
  let op_rm := op_mr + 2
  match op1, op2 with
  | op1, .imm i =>
    let op_al := op_mr + 4
    .ok do
      let imm ← letImm U i
      tryI8 imm (fun imm => arg1 (fun a => enc_digit_imm_byte [0x80] op_al a digit (.b imm)) (rm U op1))
        (do let _ ← eval U i; G.panic .immOutOfRange)
  | op1, .reg r => .ok (regRm (enc_mr_byte [op_mr]) (reg U r) (rm U op1))
  | .reg r, .ind a => .ok (regRm (enc_mr_byte [op_rm]) (reg U r) (ind U a))
  | .ind _, .ind _ => .error .unimplemented

/-- `binary_op`, asm.rs:566-580 -/
def binary_op (size : OperandSize) (op_mr digit : BitVec 8) (op1 : RmOperand ε lam)
    (op2 : RmiOperand ε lam) : Code ε lam ω :=
  match size with
  | .QWORD => binary_opq U op_mr digit op1 op2
  | .DWORD => binary_opl U op_mr digit op1 op2
  | .WORD => binary_opw U op_mr digit op1 op2
  | .BYTE => binary_opb U (op_mr - 1) digit op1 op2

/-- `divide_op`, asm.rs:823-842 -/
def divide_op (width : OperandSize) (signed : Bool) (op : RmOperand ε lam) : Code ε lam ω :=
  let digit : BitVec 8 := if signed then 7 else 6
  match width with
  | .QWORD => .ok (arg1 (fun a => enc_rexw_digit [0xf7] a digit .none) (rm U op))
  | .DWORD => .ok (arg1 (fun a => enc_digit [0xf7] a digit) (rm U op))
  | _ => .error .unimplemented

/-- `shift_op`, asm.rs:866-932 -/
def shift_op (width : OperandSize) (digit : BitVec 8) (op1 : RmOperand ε lam) (op2 : RiOperand ε) :
    Code ε lam ω :=
  match width with
  | .QWORD =>
    match op2 with
    | .imm i => .ok do
      let imm ← letImm U i
      if imm = 1 then block (arg1 (fun a => enc_rexw_digit [0xd1] a digit .none) (rm U op1))
      else
        tryI8 imm (fun imm => arg1 (fun a => enc_rexw_digit [0xc1] a digit (.b imm)) (rm U op1))
          (G.panic .immOutOfRange)
    | .reg r => .ok do
      let c ← reg U r
      if !c.is_cl then block (G.panic .regShouldBeCl)
      arg1 (fun a => enc_rexw_digit [0xd3] a digit .none) (rm U op1)
  | .DWORD =>
    match op2 with
    | .imm i => .ok do
      let imm ← letImm U i
      if imm = 1 then block (arg1 (fun a => enc_digit [0xd1] a digit) (rm U op1))
      else
        tryI8 imm (fun imm => arg1 (fun a => enc_digit_imm [0xc1] a digit (.b imm)) (rm U op1))
          (G.panic .immOutOfRange)
    | .reg r => .ok do
      let c ← reg U r
      if !c.is_cl then block (G.panic .regShouldBeCl)
      arg1 (fun a => enc_digit [0xd3] a digit) (rm U op1)
  | .WORD => .error .unimplemented
  | .BYTE => .error .unimplemented

/-- `binary_sd_op`, asm.rs:934-940 -/
def binary_sd_op (operand : BitVec 8) (op1 : XmmReg ε) (op2 : XmOperand ε lam) : Code ε lam ω :=
  .ok do
    jit (emitb 0xf2)
    regRm (enc_mr [0x0f, operand]) (xmm U op1) (xm U op2)

/-- `push_pop`, asm.rs:942-956 -/
def push_pop (opcode_r : BitVec 8) (opcode_m : BitVec 8 × BitVec 8) (op : RmOperand ε lam) :
    Code ε lam ω :=
  match op with
  | .reg r => .ok (arg1 (enc_o opcode_r) (reg U r))
  | .ind a => .ok (arg1 (fun a => enc_digit [opcode_m.1] a opcode_m.2) (ind U a))

/-- `count_op`, asm.rs:958-974 -/
def count_op (width : OperandSize) (opcode : BitVec 8) (op1 : Register ε) (op2 : RmOperand ε lam) :
    Code ε lam ω :=
  match width with
  | .QWORD => .ok do
    jit (emitb 0xf3)
    regRm (enc_rexw_mr [0x0f, opcode]) (reg U op1) (rm U op2)
  | .DWORD => .ok do
    jit (emitb 0xf3)
    regRm (enc_mr [0x0f, opcode]) (reg U op1) (rm U op2)
  | _ => .error .unimplemented

/-- `compile`, asm.rs:5-346 -/
def compile (inst : Inst ε lam) : Code ε lam ω :=
  match inst with
  | .Label l => .ok (arg1 bind_label (label U l))                            -- asm.rs:7
  | .F64 bits => .ok (jit (emit (bytes64 bits)))                             -- asm.rs:8-10
  | .I64 v => .ok (jit (emitq v))                                            -- asm.rs:11-13
  | .Movq op1 op2 => movq U op1 op2
  | .Movl op1 op2 => movl U op1 op2
  | .Movw op1 op2 => movw U op1 op2
  | .Movb op1 op2 => movb U op1 op2
  | .Movsxl op1 op2 => .ok (regRm (enc_rexw_mr [0x63]) (reg U op1) (rm U op2))   -- asm.rs:19
  | .Movzxw op1 op2 => .ok (regRm (enc_rexw_mr [0x0f, 0xb7]) (reg U op1) (rm U op2))
  | .Movsxw op1 op2 => .ok (regRm (enc_rexw_mr [0x0f, 0xbf]) (reg U op1) (rm U op2))
  | .Movzxb op1 op2 => .ok (regRm (enc_rexw_mr [0x0f, 0xb6]) (reg U op1) (rm U op2))
  | .Movsxb op1 op2 => .ok (regRm (enc_rexw_mr [0x0f, 0xbe]) (reg U op1) (rm U op2))
  | .Add size op1 op2 => binary_op U size 0x01 0 op1 op2                     -- asm.rs:24-31
  | .Or size op1 op2 => binary_op U size 0x09 1 op1 op2
  | .Adc size op1 op2 => binary_op U size 0x11 2 op1 op2
  | .Sbb size op1 op2 => binary_op U size 0x19 3 op1 op2
  | .And size op1 op2 => binary_op U size 0x21 4 op1 op2
  | .Sub size op1 op2 => binary_op U size 0x29 5 op1 op2
  | .Xor size op1 op2 => binary_op U size 0x31 6 op1 op2
  | .Cmp size op1 op2 => binary_op U size 0x39 7 op1 op2
  | .Xchg size op1 op2 =>                                                    -- asm.rs:33-59
    match size with
    | .QWORD =>
      match op1, op2 with
      | .reg r1, .reg r2 => .ok do
        let c1 ← reg U r1
        if c1 = Reg.from 0 then
          let c2 ← reg U r2
          if c2 = Reg.from 0 then jit (emitb 0x90)
          else arg1 (enc_rexw_o 0x90) (reg U r2)
        else
          let c2 ← reg U r2
          if c2 = Reg.from 0 then arg1 (enc_rexw_o 0x90) (reg U r1)
          else regRm (enc_rexw_mr [0x87]) (reg U r2) (rm U (.reg r1))
      | .ind a, .reg r2 => .ok (regRm (enc_rexw_mr [0x87]) (reg U r2) (ind U a))
      | .reg r1, .ind a => .ok (regRm (enc_rexw_mr [0x87]) (reg U r1) (ind U a))
      | .ind _, .ind _ => .error .doesNotExist
    | _ => .error .doesNotExist
  | .Testq op1 op2 =>                                                        -- asm.rs:61-93
    match op2 with
    | .imm i =>
      match op1 with
      | .reg r => .ok do
        let imm ← letImm U i
        tryI32 imm (fun imm => do
            let c ← reg U r
            if c.is_rax then
              jit (emit [0x48, 0xa9])
              jit (emitl imm)
            else arg1 (fun a => enc_rexw_mi 0xf7 a (.l imm)) (rm U (.reg r)))
          (G.panic .immOutOfRange)
      | .ind a => .ok do
        let imm ← letImm U i
        tryI32 imm (fun imm => arg1 (fun a => enc_rexw_mi 0xf7 a (.l imm)) (ind U a))
          (G.panic .immOutOfRange)
    | .reg r => .ok (regRm (enc_rexw_mr [0x85]) (reg U r) (rm U op1))
  | .Testb op1 op2 =>                                                        -- asm.rs:94-126
    match op2 with
    | .imm i =>
      match op1 with
      | .reg r => .ok do
        let imm ← letImm U i
        tryI8 imm (fun imm => do
            let c ← reg U r
            if c.is_rax then
              jit (emit [0xa8])
              jit (emitb imm)
            else arg1 (fun a => enc_mi_byte 0xf6 a (.b imm)) (rm U (.reg r)))
          (G.panic .immOutOfRange)
      | .ind a => .ok do
        let imm ← letImm U i
        tryI8 imm (fun imm => arg1 (fun a => enc_mi_byte 0xf6 a (.b imm)) (ind U a))
          (G.panic .immOutOfRange)
    | .reg r => .ok (regRm (enc_mr_byte [0x84]) (reg U r) (rm U op1))
  | .Rol width op1 op2 => shift_op U width 0 op1 op2                         -- asm.rs:128-133
  | .Ror width op1 op2 => shift_op U width 1 op1 op2
  | .Shl width op1 op2 => shift_op U width 4 op1 op2
  | .Shr width op1 op2 => shift_op U width 5 op1 op2
  | .Sal width op1 op2 => shift_op U width 4 op1 op2
  | .Sar width op1 op2 => shift_op U width 7 op1 op2
  | .Setcc cond op => .ok (arg1 (enc_m_byte [0x0f, 0x90 + cond.code]) (rm U op))  -- asm.rs:135-138
  | .Cmovcc size cond op1 op2 =>                                             -- asm.rs:139-150
    let c := 0x40 + cond.code
    match size with
    | .QWORD => .ok (regRm (enc_rexw_mr [0x0f, c]) (reg U op1) (rm U op2))
    | .DWORD => .ok (regRm (enc_mr [0x0f, c]) (reg U op1) (rm U op2))
    | .WORD => .ok do
      jit (emitb 0x66)
      regRm (enc_mr [0x0f, c]) (reg U op1) (rm U op2)
    | .BYTE => .error .unimplemented
  | .Cqo => .ok (jit (emit [0x48, 0x99]))                                    -- asm.rs:152-154
  | .Cdq => .ok (jit (emit [0x99]))
  | .Int3 => .ok (jit (emit [0xcc]))
  | .Negq op => .ok (arg1 (fun a => enc_rexw_digit [0xf7] a 3 .none) (rm U op))   -- asm.rs:156
  | .Imul op1 op2 =>                                                         -- asm.rs:158-170
    match op1, op2 with
    | .reg r, .reg r2 => .ok (regRm (enc_rexw_mr [0x0f, 0xaf]) (reg U r) (rm U (.reg r2)))
    | .reg r, .ind a => .ok (regRm (enc_rexw_mr [0x0f, 0xaf]) (reg U r) (ind U a))
    | .reg _, .imm _ => .error .unreachable     -- `ToTokens for RmiOperand`, inst.rs:607
    | _, _ => .error .unimplemented
  | .Idiv op => divide_op U .QWORD true op                                   -- asm.rs:172-175
  | .Idivl op => divide_op U .DWORD true op
  | .Div op => divide_op U .QWORD false op
  | .Divl op => divide_op U .DWORD false op
  | .Movsd op1 op2 =>                                                        -- asm.rs:177-189
    match op1, op2 with
    | .xmm x, op2 => .ok do
      jit (emitb 0xf2)
      regRm (enc_mr [0x0f, 0x10]) (xmm U x) (xm U op2)
    | .ind a, .xmm y => .ok do
      jit (emitb 0xf2)
      regRm (enc_mr [0x0f, 0x11]) (xmm U y) (ind U a)
    | .ind _, .ind _ => .error .doesNotExist
  | .Addsd op1 op2 => binary_sd_op U 0x58 op1 op2                            -- asm.rs:190-195
  | .Subsd op1 op2 => binary_sd_op U 0x5c op1 op2
  | .Mulsd op1 op2 => binary_sd_op U 0x59 op1 op2
  | .Divsd op1 op2 => binary_sd_op U 0x5e op1 op2
  | .Minsd op1 op2 => binary_sd_op U 0x5d op1 op2
  | .Maxsd op1 op2 => binary_sd_op U 0x5f op1 op2
  | .Xorps op1 op2 => .ok (regRm (enc_mr [0x0f, 0x57]) (xmm U op1) (xm U op2))    -- asm.rs:196-200
  | .Lea op1 op2 =>                                                          -- asm.rs:202-209
    match op1, op2 with
    | .reg r, .ind a => .ok (regRm (enc_rexw_mr [0x8d]) (reg U r) (ind U a))
    | _, _ => .error .doesNotExist
  | .Cvtsi2sdq op1 op2 => .ok do                                             -- asm.rs:211-216
    jit (emitb 0xf2)
    regRm (enc_rexw_mr [0x0f, 0x2a]) (xmm U op1) (rm U op2)
  | .Cvttsd2siq op1 op2 => .ok do                                            -- asm.rs:218-223
    jit (emitb 0xf2)
    regRm (enc_mr [0x0f, 0x2c]) (reg U op1) (xm U op2)
  | .Andpd op1 op2 => .ok do                                                 -- asm.rs:225-230
    jit (emitb 0x66)
    regRm (enc_mr [0x0f, 0x54]) (xmm U op1) (xm U op2)
  | .Xorpd op1 op2 => .ok do                                                 -- asm.rs:232-237
    jit (emitb 0x66)
    regRm (enc_mr [0x0f, 0x57]) (xmm U op1) (xm U op2)
  | .Roundpd op1 op2 op3 => .ok do                                           -- asm.rs:239-245
    jit (emitb 0x66)
    regRm (enc_mr [0x0f, 0x3a, 0x09]) (xmm U op1) (xm U op2)
    arg1 (fun v => emitb (v.setWidth 8)) (eval U op3)
  | .Sqrtpd op1 op2 => .ok do                                                -- asm.rs:247-252
    jit (emitb 0x66)
    regRm (enc_mr [0x0f, 0x51]) (xmm U op1) (xm U op2)
  | .Sqrtsd op1 op2 => .ok do                                                -- asm.rs:253-258
    jit (emitb 0xf2)
    regRm (enc_mr [0x0f, 0x51]) (xmm U op1) (xm U op2)
  | .Pushq op => push_pop U 0x50 (0xff, 6) op                                -- asm.rs:260-261
  | .Popq op => push_pop U 0x58 (0x8f, 0) op
  | .Call dest =>                                                            -- asm.rs:263-298
    match dest with
    | .reg n => .ok (jit (enc_digit [0xff] (Rm.reg (Reg.from (n.setWidth 64))) 2))
    | .ind a => .ok (arg1 (fun a => enc_digit [0xff] a 2) (ind U a))
    | .rel l => .ok do
      jit (emitb 0xe8)
      arg1 (fun l => save_reloc l 4) (label U l)
      jit (emitl 0)
    | .disp i => .ok do
      let v ← eval U i
      -- the message of the `panic!` evaluates the expression again
      tryI32 v (fun imm => do
          jit (emitb 0xe8)
          jit (emitl imm))
        (do let _ ← eval U i; G.panic .immOutOfRange)
  | .Ret => .ok (jit (emitb 0xc3))                                           -- asm.rs:299
  | .Jmp dest =>                                                             -- asm.rs:300-322
    match dest with
    | .reg n => .ok (jit (enc_digit [0xff] (Rm.reg (Reg.from (n.setWidth 64))) 4))
    | .ind a => .ok (arg1 (fun a => enc_digit [0xff] a 4) (ind U a))
    | .rel l => .ok (arg1 (enc_d [0xe9]) (label U l))
    | .disp _ => .error .unimplemented
  | .Jcc cond dest => .ok (arg1 (enc_d [0x0f, 0x80 + cond.code]) (label U dest))  -- asm.rs:323-326
  | .UComIsd op1 op2 => .ok do                                               -- asm.rs:328-334
    jit (emitb 0x66)
    regRm (enc_mr [0x0f, 0x2e]) (xmm U op1) (xm U op2)
  | .Syscall => .ok (jit (emit [0x0f, 0x05]))                                -- asm.rs:336-341
  | .Leave => .ok (jit (emitb 0xc9))
  | .Tzcnt width op1 op2 => count_op U width 0xbc op1 op2                    -- asm.rs:342-344
  | .Lzcnt width op1 op2 => count_op U width 0xbd op1 op2
  | .Popcnt width op1 op2 => count_op U width 0xb8 op1 op2

/-- The statements of one call: `stmts.contents.into_iter().map(compile)`, lib.rs:27 -/
def compileAll : List (Inst ε lam) → Code ε lam ω
  | [] => .ok (pure ())
  | i :: is =>
    match compile U i with
    | .error e => .error e
    | .ok g =>
      match compileAll is with
      | .error e => .error e
      | .ok gs => .ok (do g; gs)

/-- `monoasm!(base, ..)`, lib.rs:23-29: `{ let mut jit = #base; .. }`. Evaluating `base` gives the
    `JitMemory` of the state. -/
def monoasm (is : List (Inst ε lam)) : Code ε lam ω :=
  match compileAll U is with
  | .error e => .error e
  | .ok gs => .ok (block (do letVar "jit" .jit; gs))

end Expand
end Monoasm
