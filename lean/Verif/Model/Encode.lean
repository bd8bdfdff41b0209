import Verif.Model.Memory
/-
  Model of the instruction encoders of `monoasm/src/jit_memory.rs` (lines 162-171, 577-886).
-/

namespace Monoasm

/-- `enum ModRM`, jit_memory.rs:162-165 -/
inductive ModRM where
  | reg (r : Reg)
  | digit (d : BitVec 8)
deriving DecidableEq, Repr

/-- `enum Rex`, jit_memory.rs:167-171 -/
inductive Rex where
  | rexw
  | none
  | byte
deriving DecidableEq, Repr

namespace JitMemory

/-- `modrm`, jit_memory.rs:778-792 -/
def modrm (modrm_mode : ModRM) (mode : Mode) (base : Reg) : M Unit := do
  let base : Reg := match mode with
    | .reg => base
    | .ind .none _ => base
    | .ind _ _ => ⟨4⟩
  let m := mode.encode
  let r : BitVec 8 := match modrm_mode with
    | .digit d => d
    | .reg r => r.num
  emitb (m <<< 6 ||| (r &&& 0b111) <<< 3 ||| (base.num &&& 0b111))

/-- `rexw`, jit_memory.rs:810-813 -/
def rexw (reg base index : Reg) (_mode : Mode) : M Unit :=
  emitb (0x48 ||| (reg.num &&& 0b1000) >>> 1 ||| (index.num &&& 0b1000) >>> 2
    ||| (base.num &&& 0b1000) >>> 3)

/-- `rex`, jit_memory.rs:829-833 -/
def rex (reg base index : Reg) (_mode : Mode) : M Unit :=
  emitb (0x40 ||| (reg.num &&& 0b1000) >>> 1 ||| (index.num &&& 0b1000) >>> 2
    ||| (base.num &&& 0b1000) >>> 3)

/-- `rex_none`, jit_memory.rs:815-819 -/
def rex_none (reg base index : Reg) (mode : Mode) : M Unit :=
  if reg.num > 7 || base.num > 7 || index.num > 7 then rex reg base index mode
  else pure ()

/-- `rex_none_byte`, jit_memory.rs:821-827 -/
def rex_none_byte (reg base index : Reg) (mode : Mode) : M Unit :=
  if reg.num > 7 || base.num > 7 || index.num > 7 then rex reg base index mode
  else if reg.num > 3 || (base.num > 3 && mode = .reg) then rex ⟨0⟩ ⟨0⟩ ⟨0⟩ mode
  else pure ()

/-- `op_with_rd`, jit_memory.rs:835-838 -/
def op_with_rd (op : Byte) (reg : Reg) : M Unit :=
  emitb (op ||| (reg.num &&& 0b0111))

/-- `sib`, jit_memory.rs:861-866 -/
def sib (scale : BitVec 8) (index base : Reg) : M Unit := do
  M.assert (scale < 4)
  M.assert (index.num < 16)
  emitb ((scale <<< 6) ||| ((index.num &&& 0b111) <<< 3) ||| (base.num &&& 0b111))

/-- `emit_disp_imm`, jit_memory.rs:868-885 -/
def emit_disp_imm (disp : Disp) (imm : Imm) : M Unit := do
  match disp with
  | .d8 d => emitb d
  | .d32 d => emitl d
  | .label l => do
    save_reloc l (4 + imm.offset)
    emitl 0
  | .none => pure ()
  match imm with
  | .none => pure ()
  | .b b => emitb b
  | .w w => emitw w
  | .l l => emitl l
  | .q q => emitq q

/-- `rex_fn` selected in `encode`, jit_memory.rs:693-697 -/
def rexFn : Rex → Reg → Reg → Reg → Mode → M Unit
  | .rexw => rexw
  | .none => rex_none
  | .byte => rex_none_byte

/-- `encode`, jit_memory.rs:688-762 -/
def encode (op : List Byte) (rex : Rex) (modrm_mode : ModRM) (rm : Rm) (imm : Imm) : M Unit := do
  let reg : Reg := match modrm_mode with
    | .digit _ => ⟨0⟩
    | .reg r => r
  M.assert (!reg.is_rip)
  if rm.base.is_rip then
    match Rm.rip_ind_from rm with
    | .error e => M.panic e
    | .ok rm =>
      rexFn rex reg rm.base ⟨0⟩ rm.mode
      emit op
      modrm modrm_mode (.ind .none .none) rm.base
      emit_disp_imm rm.mode.disp imm
  else if rm.mode ≠ .reg ∧ (rm.base.num &&& 0b111) = 4 then
    match rm.mode with
    | .ind scale disp =>
      let (sc, index) : BitVec 8 × Reg := match scale with
        | .none => (0, ⟨4⟩)
        | .s1 sc index => (sc, index)
      let base := rm.base
      rexFn rex reg base index rm.mode
      emit op
      modrm modrm_mode rm.mode base
      sib sc index base
      emit_disp_imm disp imm
    | .reg => pure ()   -- `_ => unreachable!()`, excluded by the `if`
  else if rm.mode.is_indirect_no_disp ∧ (rm.base.num &&& 0b111) = 5 then
    let scale := rm.mode.scale
    rexFn rex reg rm.base scale.index rm.mode
    let mode : Mode := .ind scale (.d8 0)
    emit op
    modrm modrm_mode mode rm.base
    match scale with
    | .none => pure ()
    | .s1 sc index => sib sc index rm.base
    emit_disp_imm mode.disp imm
  else
    rexFn rex reg rm.base
      (match rm.mode with
        | .reg => ⟨0⟩
        | .ind scale _ => match scale with
          | .none => ⟨0⟩
          | .s1 _ index => index)
      rm.mode
    emit op
    modrm modrm_mode rm.mode rm.base
    match rm.mode with
    | .reg => pure ()
    | .ind scale _ => match scale with
      | .none => pure ()
      | .s1 sc index => sib sc index rm.base
    emit_disp_imm rm.mode.disp imm

/-- `enc_o`, jit_memory.rs:581-585 -/
def enc_o (op : Byte) (reg : Reg) : M Unit := do
  M.assert (!reg.is_rip)
  rex_none ⟨0⟩ reg ⟨0⟩ .reg
  op_with_rd op reg

/-- `enc_oi`, jit_memory.rs:589-593 -/
def enc_oi (op : Byte) (reg : Reg) : M Unit := do
  M.assert (!reg.is_rip)
  rex_none ⟨0⟩ reg ⟨0⟩ .reg
  op_with_rd op reg

/-- `enc_oi_byte`, jit_memory.rs:595-599 -/
def enc_oi_byte (op : Byte) (reg : Reg) : M Unit := do
  M.assert (!reg.is_rip)
  rex_none_byte ⟨0⟩ reg ⟨0⟩ .reg
  op_with_rd op reg

/-- `enc_rexw_o`, jit_memory.rs:603-607 -/
def enc_rexw_o (op : Byte) (reg : Reg) : M Unit := do
  M.assert (!reg.is_rip)
  rexw ⟨0⟩ reg ⟨0⟩ .reg
  op_with_rd op reg

/-- `enc_mi`, jit_memory.rs:611-613 -/
def enc_mi (op : Byte) (rm_op : Rm) (imm : Imm) : M Unit :=
  encode [op] .none (.reg ⟨0⟩) rm_op imm

/-- `enc_rexw_mi`, jit_memory.rs:617-619 -/
def enc_rexw_mi (op : Byte) (rm_op : Rm) (imm : Imm) : M Unit :=
  encode [op] .rexw (.reg ⟨0⟩) rm_op imm

/-- `enc_mi_byte`, jit_memory.rs:621-623 -/
def enc_mi_byte (op : Byte) (rm_op : Rm) (imm : Imm) : M Unit :=
  encode [op] .byte (.reg ⟨0⟩) rm_op imm

/-- `enc_mr`, jit_memory.rs:628-630 -/
def enc_mr (op : List Byte) (reg : Reg) (rm_op : Rm) : M Unit :=
  encode op .none (.reg reg) rm_op .none

/-- `enc_mr_byte`, jit_memory.rs:632-634 -/
def enc_mr_byte (op : List Byte) (reg : Reg) (rm_op : Rm) : M Unit :=
  encode op .byte (.reg reg) rm_op .none

/-- `enc_rexw_mr`, jit_memory.rs:639-641 -/
def enc_rexw_mr (op : List Byte) (reg : Reg) (rm_op : Rm) : M Unit :=
  encode op .rexw (.reg reg) rm_op .none

/-- `enc_m_byte`, jit_memory.rs:644-646 -/
def enc_m_byte (op : List Byte) (rm : Rm) : M Unit :=
  encode op .byte (.reg ⟨0⟩) rm .none

/-- `enc_d`, jit_memory.rs:650-654 -/
def enc_d (op : List Byte) (dest : DestLabel) : M Unit := do
  emit op
  save_reloc dest 4
  emitl 0

/-- `enc_digit`, jit_memory.rs:658-661 -/
def enc_digit (op : List Byte) (rm : Rm) (digit : BitVec 8) : M Unit :=
  encode op .none (.digit digit) rm .none

/-- `enc_digit_imm`, jit_memory.rs:663-665 -/
def enc_digit_imm (op : List Byte) (rm : Rm) (digit : BitVec 8) (imm : Imm) : M Unit :=
  encode op .none (.digit digit) rm imm

/-- `enc_digit_imm_byte`, jit_memory.rs:667-676 -/
def enc_digit_imm_byte (op : List Byte) (op_al : Byte) (rm : Rm) (digit : BitVec 8) (imm : Imm) :
    M Unit := do
  if rm.is_rax then
    emitb op_al
    emit_disp_imm .none imm
  else if rm.is_reg then
    encode op .byte (.digit digit) rm imm
  else
    encode op .none (.digit digit) rm imm

/-- `enc_rexw_digit`, jit_memory.rs:684-686 -/
def enc_rexw_digit (op : List Byte) (rm : Rm) (digit : BitVec 8) (imm : Imm) : M Unit :=
  encode op .rexw (.digit digit) rm imm

end JitMemory
end Monoasm
