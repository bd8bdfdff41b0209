import Verif.Spec.Classes
/-
  Vocabulary for the properties about operands and immediates.
-/

namespace Spec
open Monoasm
open X86 (Instr Opd)

/-- The run-time register with hardware number `r`. -/
def regNo (r : BitVec 4) : Reg := ⟨r.setWidth 8⟩

/-- The x86 operand denoted by a run-time operand with a constant displacement. -/
inductive Denotes : Rm → X86.RM → Prop where
  | reg (r) : Denotes (Rm.reg (regNo r)) (.reg r)
  | base (b) (d : BitVec 32) :
      Denotes (Rm.ind (regNo b) (Disp.from_disp d) .none) (.mem ⟨.gpr b, none, d.signExtend 64⟩)
  | index (b x) (sc : BitVec 2) (d : BitVec 32) (h : x ≠ 4#4) :
      Denotes (Rm.ind (regNo b) (Disp.from_disp d) (.s1 (sc.setWidth 8) (regNo x)))
        (.mem ⟨.gpr b, some (x, sc), d.signExtend 64⟩)
  | rip (d : BitVec 32) :
      Denotes (Rm.ind ⟨16⟩ (Disp.from_disp d) .none) (.mem ⟨.rip, none, d.signExtend 64⟩)

/-- The bytes of an immediate field. -/
def immField : Imm → List (BitVec 8)
  | .none => []
  | .b v => littleEndian 1 v.toNat
  | .w v => littleEndian 2 v.toNat
  | .l v => littleEndian 4 v.toNat
  | .q v => littleEndian 8 v.toNat

/-- ModRM.reg operands: a register, or an opcode extension `/0` .. `/7`. -/
inductive DenotesReg : ModRM → BitVec 4 → Prop where
  | reg (r) : DenotesReg (.reg (regNo r)) r
  | digit (d : BitVec 3) : DenotesReg (.digit (d.setWidth 8)) (d.setWidth 4)

/-- Operands of an instruction. -/
def operands : Instr → List Opd
  | .alu _ _ a b | .mov _ a b | .movsx _ _ a b | .movzx _ _ a b | .xchg _ a b | .test _ a b
  | .shift _ _ a b | .imul2 _ a b | .cmovcc _ _ a b | .cnt _ _ a b | .fop _ _ a b
  | .flogic _ _ a b | .fmov _ a b | .fmova _ a b | .ucomi _ a b | .comi _ a b | .cvtsi2f _ _ a b
  | .cvttf2si _ _ a b | .cvtf2si _ _ a b | .round _ a b _ | .movgx _ a b | .movqx a b => [a, b]
  | .imul3 _ a b c => [a, b, c]
  | .lea _ a m => [a, .mem m]
  | .un _ _ a | .push a | .pop a | .jmpInd a | .callInd a | .setcc _ a => [a]
  | _ => []

/-- The value written by the user as an immediate operand (or as the displacement of `call`). -/
def immediate : Inst Val Nat → Option Val
  | .Movq (.reg _) (.imm i _) => some i
  | i => (imm i).map (·.2)

/-- The constants in a decoded instruction. -/
def constants : Instr → List Val
  | .callRel d => [d]
  | i => (operands i).filterMap fun | .imm v => some v | _ => none

/-- A fresh `JitMemory`; its memory is not zero. -/
def ex0 : JitMemory := JitMemory.new 0x10000000 fun _ => 0xcc

/-- `ex0` after a call of `label()`. -/
def ex1 : JitMemory := (JitMemory.label ex0).state

end Spec
