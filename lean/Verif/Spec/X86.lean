/-
  Specification: an x86-64 (64-bit mode) instruction decoder, written from the architecture manual
  (Intel SDM vol. 2, chapter 2 "Instruction format", appendix A "Opcode map") without reference to
  monoasm. Bytes outside the modelled subset decode to `none`.

  The subset is larger than what monoasm emits (other operand sizes, prefixes and opcodes are
  decoded too), so that a wrong prefix or opcode decodes to a *different* instruction.
-/

namespace X86

abbrev Byte := BitVec 8

/-- Hardware number of a general purpose register: 0 = rax, 1 = rcx, 2 = rdx, 3 = rbx, 4 = rsp,
    5 = rbp, 6 = rsi, 7 = rdi, 8-15 = r8-r15. -/
abbrev Gpr := BitVec 4

/-- Operand size in an instruction: byte, word, doubleword, quadword. -/
inductive Size where
  | b | w | d | q
deriving DecidableEq, Repr

inductive Base where
  | none
  | gpr (r : Gpr)
  | rip
deriving DecidableEq, Repr

/-- Effective address `base + index * 2^scale + disp` (`disp` sign-extended to 64 bits). With base
    `rip` the base value is the address of the *next* instruction. -/
structure Addr where
  base : Base
  index : Option (Gpr × BitVec 2)
  disp : BitVec 64
deriving DecidableEq, Repr

/-- Operands. -/
inductive Opd where
  /-- general register (of the operand size of the instruction) -/
  | gpr (r : Gpr)
  /-- high byte register: 0 = ah, 1 = ch, 2 = dh, 3 = bh -/
  | high (r : BitVec 2)
  | xmm (r : BitVec 4)
  | mem (a : Addr)
  /-- immediate, sign-extended to 64 bits -/
  | imm (v : BitVec 64)
deriving DecidableEq, Repr

inductive AluOp where
  | add | or | adc | sbb | and | sub | xor | cmp
deriving DecidableEq, Repr

inductive ShiftOp where
  | rol | ror | rcl | rcr | shl | shr | sar
deriving DecidableEq, Repr

/-- one-operand group 3 operations -/
inductive UnOp where
  | not | neg | mul | imul | div | idiv | inc | dec
deriving DecidableEq, Repr

inductive CntOp where
  | tzcnt | lzcnt | popcnt | bsf | bsr
deriving DecidableEq, Repr

/-- Floating point type selected by the mandatory prefix: none, 66, F3, F2. -/
inductive FTy where
  | ps | pd | ss | sd
deriving DecidableEq, Repr

inductive FOp where
  | add | mul | sub | min | div | max | sqrt
deriving DecidableEq, Repr

inductive LOp where
  | and | andn | or | xor
deriving DecidableEq, Repr

/-- Condition codes, by hardware number (SDM vol. 1, appendix B). -/
abbrev CC := BitVec 4

inductive Instr where
  | alu (op : AluOp) (sz : Size) (dst src : Opd)
  | mov (sz : Size) (dst src : Opd)
  | movsx (dsz ssz : Size) (dst src : Opd)
  | movzx (dsz ssz : Size) (dst src : Opd)
  | lea (sz : Size) (dst : Opd) (a : Addr)
  | xchg (sz : Size) (a b : Opd)
  | nop
  | test (sz : Size) (a b : Opd)
  /-- shift or rotate by an immediate or by `cl` (`count = .gpr 1`) -/
  | shift (op : ShiftOp) (sz : Size) (dst count : Opd)
  | un (op : UnOp) (sz : Size) (dst : Opd)
  | imul2 (sz : Size) (dst src : Opd)
  | imul3 (sz : Size) (dst src imm : Opd)
  /-- cbw / cwde / cdqe -/
  | signExtAcc (sz : Size)
  /-- cwd / cdq / cqo -/
  | signExtDx (sz : Size)
  | push (src : Opd)
  | pop (dst : Opd)
  | jmpRel (disp : BitVec 64)
  | jcc (c : CC) (disp : BitVec 64)
  | callRel (disp : BitVec 64)
  | jmpInd (src : Opd)
  | callInd (src : Opd)
  | ret
  | leave
  | syscall
  | int3
  | ud2
  | cpuid
  | setcc (c : CC) (dst : Opd)
  | cmovcc (c : CC) (sz : Size) (dst src : Opd)
  | cnt (op : CntOp) (sz : Size) (dst src : Opd)
  | fop (op : FOp) (ty : FTy) (dst src : Opd)
  | flogic (op : LOp) (ty : FTy) (dst src : Opd)
  /-- movups / movupd / movss / movsd -/
  | fmov (ty : FTy) (dst src : Opd)
  /-- movaps / movapd -/
  | fmova (ty : FTy) (dst src : Opd)
  | ucomi (ty : FTy) (dst src : Opd)
  | comi (ty : FTy) (dst src : Opd)
  /-- cvtsi2ss / cvtsi2sd from an integer of size `isz` -/
  | cvtsi2f (ty : FTy) (isz : Size) (dst src : Opd)
  /-- cvttss2si / cvttsd2si to an integer of size `isz` -/
  | cvttf2si (ty : FTy) (isz : Size) (dst src : Opd)
  | cvtf2si (ty : FTy) (isz : Size) (dst src : Opd)
  | round (ty : FTy) (dst src : Opd) (mode : Byte)
  /-- movd / movq between a general register or memory and xmm -/
  | movgx (sz : Size) (dst src : Opd)
  /-- movq xmm, xmm/m64 and movq xmm/m64, xmm -/
  | movqx (dst src : Opd)
deriving DecidableEq, Repr

/-! ### Prefixes -/

inductive Rep where
  | none | f2 | f3
deriving DecidableEq, Repr

structure Pfx where
  /-- 66: operand size override -/
  opsize : Bool := false
  rep : Rep := .none
  /-- the low four bits W R X B of the REX prefix, if present -/
  rex : Option (BitVec 4) := .none
deriving DecidableEq, Repr

def Pfx.w (p : Pfx) : Bool := match p.rex with | some x => x.getLsbD 3 | none => false
def Pfx.r (p : Pfx) : BitVec 1 := match p.rex with | some x => x.extractLsb' 2 1 | none => 0
def Pfx.x (p : Pfx) : BitVec 1 := match p.rex with | some x => x.extractLsb' 1 1 | none => 0
def Pfx.b (p : Pfx) : BitVec 1 := match p.rex with | some x => x.extractLsb' 0 1 | none => 0

def isRex (b : Byte) : Bool := b.extractLsb' 4 4 == 4#4

def isLegacy (b : Byte) : Bool := b == 0x66#8 || b == 0xf2#8 || b == 0xf3#8

/-- Legacy prefixes in any order, then an optional REX which must immediately precede the opcode. -/
def prefixes : Pfx → List Byte → Option (Pfx × Byte × List Byte)
  | _, [] => none
  | p, b :: bs =>
    if b = 0x66#8 then prefixes { p with opsize := true } bs
    else if b = 0xf2#8 then prefixes { p with rep := .f2 } bs
    else if b = 0xf3#8 then prefixes { p with rep := .f3 } bs
    else if isRex b then
      match bs with
      | [] => none
      | c :: cs =>
        if isRex c || isLegacy c then none
        else some ({ p with rex := some (b.extractLsb' 0 4) }, c, cs)
    else some (p, b, bs)

/-- Operand size of a non-byte instruction. -/
def Pfx.size (p : Pfx) : Size := if p.w then .q else if p.opsize then .w else .d

/-- Size when the low opcode bit selects byte operands. -/
def Pfx.size' (p : Pfx) (wide : Bool) : Size := if wide then p.size else .b

/-! ### Little-endian fields -/

def rd8 : List Byte → Option (BitVec 8 × List Byte)
  | a :: r => some (a, r)
  | _ => none

def rd16 : List Byte → Option (BitVec 16 × List Byte)
  | a :: b :: r => some (b ++ a, r)
  | _ => none

def rd32 : List Byte → Option (BitVec 32 × List Byte)
  | a :: b :: c :: d :: r => some (d ++ c ++ b ++ a, r)
  | _ => none

def rd64 : List Byte → Option (BitVec 64 × List Byte)
  | a :: b :: c :: d :: e :: f :: g :: h :: r => some (h ++ g ++ f ++ e ++ d ++ c ++ b ++ a, r)
  | _ => none

/-- 8-bit immediate, sign-extended. -/
def imm8 (bs : List Byte) : Option (BitVec 64 × List Byte) := do
  let (v, r) ← rd8 bs
  return (v.signExtend 64, r)

def imm32 (bs : List Byte) : Option (BitVec 64 × List Byte) := do
  let (v, r) ← rd32 bs
  return (v.signExtend 64, r)

def imm16 (bs : List Byte) : Option (BitVec 64 × List Byte) := do
  let (v, r) ← rd16 bs
  return (v.signExtend 64, r)

/-- immediate of the operand size, at most 32 bits ("Iz") -/
def immz (sz : Size) (bs : List Byte) : Option (BitVec 64 × List Byte) :=
  match sz with
  | .b => imm8 bs
  | .w => imm16 bs
  | .d => imm32 bs
  | .q => imm32 bs

/-- immediate of the operand size ("Iv") -/
def immv (sz : Size) (bs : List Byte) : Option (BitVec 64 × List Byte) :=
  match sz with
  | .q => rd64 bs
  | sz => immz sz bs

/-! ### ModRM, SIB, displacement -/

/-- r/m operand before the register class is known. -/
inductive RM where
  | reg (r : BitVec 4)
  | mem (a : Addr)
deriving DecidableEq, Repr

/-- displacement selected by the `mod` field (SDM vol. 2, table 2-2) -/
def dispOf (md : BitVec 2) (bs : List Byte) : Option (BitVec 64 × List Byte) :=
  if md = 0#2 then some (0, bs)
  else if md = 1#2 then imm8 bs
  else imm32 bs

/-- ModRM byte with the optional SIB byte and displacement. Returns the reg field (extended by
    REX.R), the r/m operand, and the rest. -/
def modrm (p : Pfx) : List Byte → Option (BitVec 4 × RM × List Byte)
  | [] => none
  | m :: bs =>
    let md := m.extractLsb' 6 2
    let reg : BitVec 4 := p.r ++ m.extractLsb' 3 3
    let rm := m.extractLsb' 0 3
    if md = 3#2 then some (reg, .reg (p.b ++ rm), bs)
    else if rm = 4#3 then
      -- SIB byte
      match bs with
      | [] => none
      | s :: bs =>
        let idx : BitVec 4 := p.x ++ s.extractLsb' 3 3
        let index := if idx = 4#4 then none else some (idx, s.extractLsb' 6 2)
        let base := s.extractLsb' 0 3
        if base = 5#3 ∧ md = 0#2 then do
          let (d, bs) ← imm32 bs
          return (reg, .mem ⟨.none, index, d⟩, bs)
        else do
          let (d, bs) ← dispOf md bs
          return (reg, .mem ⟨.gpr (p.b ++ base), index, d⟩, bs)
    else if rm = 5#3 ∧ md = 0#2 then do
      let (d, bs) ← imm32 bs
      return (reg, .mem ⟨.rip, none, d⟩, bs)
    else do
      let (d, bs) ← dispOf md bs
      return (reg, .mem ⟨.gpr (p.b ++ rm), none, d⟩, bs)

/-- Register operand of size `sz`: without a REX prefix, byte registers 4-7 are ah, ch, dh, bh. -/
def regOpd (p : Pfx) (sz : Size) (r : BitVec 4) : Opd :=
  if sz = .b ∧ p.rex = none ∧ 4#4 ≤ r ∧ r < 8#4 then .high (r.extractLsb' 0 2) else .gpr r

/-- General register or memory operand of size `sz`. -/
def rmOpd (p : Pfx) (sz : Size) : RM → Opd
  | .reg r => regOpd p sz r
  | .mem a => .mem a

/-- xmm register or memory operand. -/
def xmOpd : RM → Opd
  | .reg r => .xmm r
  | .mem a => .mem a

/-! ### Opcode maps -/

def aluOp (n : BitVec 3) : AluOp :=
  if n = 0#3 then .add else if n = 1#3 then .or else if n = 2#3 then .adc else if n = 3#3 then .sbb
  else if n = 4#3 then .and else if n = 5#3 then .sub else if n = 6#3 then .xor else .cmp

/-- shift group (opcodes C0, C1, D0-D3); /6 is not documented -/
def shiftOp (n : BitVec 3) : Option ShiftOp :=
  if n = 0#3 then some .rol else if n = 1#3 then some .ror else if n = 2#3 then some .rcl
  else if n = 3#3 then some .rcr else if n = 4#3 then some .shl else if n = 5#3 then some .shr
  else if n = 7#3 then some .sar else none

/-- the `/digit` in the reg field (REX.R is ignored) -/
def digit (reg : BitVec 4) : BitVec 3 := reg.extractLsb' 0 3

abbrev Dec := Option (Instr × List Byte)

/-- register encoded in the low three opcode bits -/
def opReg (p : Pfx) (op : Byte) : BitVec 4 := p.b ++ op.extractLsb' 0 3

/-- group 3 (F6, F7) -/
def group3 (p : Pfx) (wide : Bool) (bs : List Byte) : Dec := do
  let sz := p.size' wide
  let (reg, rm, bs) ← modrm p bs
  let dst := rmOpd p sz rm
  let d := digit reg
  if d = 0#3 then
    let (v, bs) ← immz sz bs
    return (.test sz dst (.imm v), bs)
  else if d = 2#3 then return (.un .not sz dst, bs)
  else if d = 3#3 then return (.un .neg sz dst, bs)
  else if d = 4#3 then return (.un .mul sz dst, bs)
  else if d = 5#3 then return (.un .imul sz dst, bs)
  else if d = 6#3 then return (.un .div sz dst, bs)
  else if d = 7#3 then return (.un .idiv sz dst, bs)
  else none

/-- group 5 (FF) and group 4 (FE). Near branches and push have 64-bit operands. -/
def group5 (p : Pfx) (wide : Bool) (bs : List Byte) : Dec := do
  let sz := p.size' wide
  let (reg, rm, bs) ← modrm p bs
  let dst := rmOpd p sz rm
  let d := digit reg
  if d = 0#3 then return (.un .inc sz dst, bs)
  else if d = 1#3 then return (.un .dec sz dst, bs)
  else if !wide || p.opsize then none
  else if d = 2#3 then return (.callInd dst, bs)
  else if d = 4#3 then return (.jmpInd dst, bs)
  else if d = 6#3 then return (.push dst, bs)
  else none

/-- shifts: count given by the opcode -/
def shiftGroup (p : Pfx) (wide : Bool) (count : List Byte → Option (Opd × List Byte))
    (bs : List Byte) : Dec := do
  let sz := p.size' wide
  let (reg, rm, bs) ← modrm p bs
  let op ← shiftOp (digit reg)
  let (c, bs) ← count bs
  return (.shift op sz (rmOpd p sz rm) c, bs)

/-- One-byte opcode map. Instructions with F2/F3 prefixes in this map are not in the subset. -/
def map1 (p : Pfx) (op : Byte) (bs : List Byte) : Dec :=
  let wide := op.getLsbD 0
  let sz := p.size' wide
  let col := op.extractLsb' 0 3
  let row := op.extractLsb' 3 5
  if p.rep ≠ .none then none
  -- 00-3F: ALU operations
  else if op < 0x40#8 ∧ col < 6#3 then
    let alu := aluOp (op.extractLsb' 3 3)
    if col < 4#3 then do
      let (reg, rm, bs) ← modrm p bs
      if col < 2#3 then return (.alu alu sz (rmOpd p sz rm) (regOpd p sz reg), bs)
      else return (.alu alu sz (regOpd p sz reg) (rmOpd p sz rm), bs)
    else do
      let (v, bs) ← immz sz bs
      return (.alu alu sz (.gpr 0) (.imm v), bs)
  -- 50-5F: push/pop (64-bit)
  else if row = 0b01010#5 then
    if p.opsize then none else some (.push (.gpr (opReg p op)), bs)
  else if row = 0b01011#5 then
    if p.opsize then none else some (.pop (.gpr (opReg p op)), bs)
  -- 63: movsxd
  else if op = 0x63#8 then do
    let (reg, rm, bs) ← modrm p bs
    return (.movsx p.size .d (regOpd p p.size reg) (rmOpd p .d rm), bs)
  else if op = 0x68#8 then
    if p.opsize then none else do
      let (v, bs) ← imm32 bs
      return (.push (.imm v), bs)
  else if op = 0x6a#8 then
    if p.opsize then none else do
      let (v, bs) ← imm8 bs
      return (.push (.imm v), bs)
  else if op = 0x69#8 then do
    let (reg, rm, bs) ← modrm p bs
    let (v, bs) ← immz p.size bs
    return (.imul3 p.size (regOpd p p.size reg) (rmOpd p p.size rm) (.imm v), bs)
  else if op = 0x6b#8 then do
    let (reg, rm, bs) ← modrm p bs
    let (v, bs) ← imm8 bs
    return (.imul3 p.size (regOpd p p.size reg) (rmOpd p p.size rm) (.imm v), bs)
  -- 70-7F: jcc rel8
  else if op.extractLsb' 4 4 = 7#4 then
    if p.opsize then none else do
      let (v, bs) ← imm8 bs
      return (.jcc (op.extractLsb' 0 4) v, bs)
  -- 80, 81, 83: ALU with immediate
  else if op = 0x80#8 ∨ op = 0x81#8 then do
    let (reg, rm, bs) ← modrm p bs
    let (v, bs) ← immz sz bs
    return (.alu (aluOp (digit reg)) sz (rmOpd p sz rm) (.imm v), bs)
  else if op = 0x83#8 then do
    let (reg, rm, bs) ← modrm p bs
    let (v, bs) ← imm8 bs
    return (.alu (aluOp (digit reg)) sz (rmOpd p sz rm) (.imm v), bs)
  else if op = 0x84#8 ∨ op = 0x85#8 then do
    let (reg, rm, bs) ← modrm p bs
    return (.test sz (rmOpd p sz rm) (regOpd p sz reg), bs)
  else if op = 0x86#8 ∨ op = 0x87#8 then do
    let (reg, rm, bs) ← modrm p bs
    return (.xchg sz (rmOpd p sz rm) (regOpd p sz reg), bs)
  else if op = 0x88#8 ∨ op = 0x89#8 then do
    let (reg, rm, bs) ← modrm p bs
    return (.mov sz (rmOpd p sz rm) (regOpd p sz reg), bs)
  else if op = 0x8a#8 ∨ op = 0x8b#8 then do
    let (reg, rm, bs) ← modrm p bs
    return (.mov sz (regOpd p sz reg) (rmOpd p sz rm), bs)
  else if op = 0x8d#8 then do
    let (reg, rm, bs) ← modrm p bs
    match rm with
    | .mem a => return (.lea p.size (.gpr reg) a, bs)
    | .reg _ => none
  else if op = 0x8f#8 then do
    let (reg, rm, bs) ← modrm p bs
    if digit reg = 0#3 ∧ p.opsize = false then return (.pop (rmOpd p .q rm), bs) else none
  -- 90-97: xchg with the accumulator; number 0 is nop
  else if row = 0b10010#5 then
    if opReg p op = 0#4 then some (.nop, bs)
    else some (.xchg p.size (.gpr (opReg p op)) (.gpr 0), bs)
  else if op = 0x98#8 then some (.signExtAcc p.size, bs)
  else if op = 0x99#8 then some (.signExtDx p.size, bs)
  else if op = 0xa8#8 ∨ op = 0xa9#8 then do
    let (v, bs) ← immz sz bs
    return (.test sz (.gpr 0) (.imm v), bs)
  -- B0-BF: mov register, immediate
  else if row = 0b10110#5 then do
    let (v, bs) ← imm8 bs
    return (.mov .b (regOpd p .b (opReg p op)) (.imm v), bs)
  else if row = 0b10111#5 then do
    let (v, bs) ← immv p.size bs
    return (.mov p.size (.gpr (opReg p op)) (.imm v), bs)
  else if op = 0xc0#8 ∨ op = 0xc1#8 then
    shiftGroup p wide (fun bs => do let (v, bs) ← imm8 bs; return (.imm v, bs)) bs
  else if op = 0xd0#8 ∨ op = 0xd1#8 then shiftGroup p wide (fun bs => some (.imm 1, bs)) bs
  else if op = 0xd2#8 ∨ op = 0xd3#8 then shiftGroup p wide (fun bs => some (.gpr 1, bs)) bs
  else if op = 0xc3#8 then if p.opsize then none else some (.ret, bs)
  else if op = 0xc6#8 ∨ op = 0xc7#8 then do
    let (reg, rm, bs) ← modrm p bs
    let (v, bs) ← immz sz bs
    if digit reg = 0#3 then return (.mov sz (rmOpd p sz rm) (.imm v), bs) else none
  else if op = 0xc9#8 then if p.opsize then none else some (.leave, bs)
  else if op = 0xcc#8 then some (.int3, bs)
  else if op = 0xe8#8 then
    if p.opsize then none else do
      let (v, bs) ← imm32 bs
      return (.callRel v, bs)
  else if op = 0xe9#8 then
    if p.opsize then none else do
      let (v, bs) ← imm32 bs
      return (.jmpRel v, bs)
  else if op = 0xeb#8 then
    if p.opsize then none else do
      let (v, bs) ← imm8 bs
      return (.jmpRel v, bs)
  else if op = 0xf6#8 ∨ op = 0xf7#8 then group3 p wide bs
  else if op = 0xfe#8 ∨ op = 0xff#8 then group5 p wide bs
  else none

/-- Floating point type selected by the mandatory prefix. A combination of 66 with F2/F3 is not in
    the subset. -/
def Pfx.fty (p : Pfx) : Option FTy :=
  match p.opsize, p.rep with
  | false, .none => some .ps
  | true, .none => some .pd
  | false, .f3 => some .ss
  | false, .f2 => some .sd
  | _, _ => none

/-- packed types only (no F2/F3) -/
def FTy.packed : FTy → Bool
  | .ps => true | .pd => true | .ss => false | .sd => false

def fOp (op : Byte) : Option FOp :=
  if op = 0x51#8 then some .sqrt else if op = 0x58#8 then some .add
  else if op = 0x59#8 then some .mul else if op = 0x5c#8 then some .sub
  else if op = 0x5d#8 then some .min else if op = 0x5e#8 then some .div
  else if op = 0x5f#8 then some .max else none

def lOp (op : Byte) : Option LOp :=
  if op = 0x54#8 then some .and else if op = 0x55#8 then some .andn
  else if op = 0x56#8 then some .or else if op = 0x57#8 then some .xor else none

/-- size of the integer operand of conversions and of movd/movq -/
def Pfx.isize (p : Pfx) : Size := if p.w then .q else .d

/-- Two-byte opcode map (0F xx). -/
def map2 (p : Pfx) (op : Byte) (bs : List Byte) : Dec :=
  if op = 0x05#8 then some (.syscall, bs)
  else if op = 0x0b#8 then some (.ud2, bs)
  else if op = 0xa2#8 then some (.cpuid, bs)
  -- 10/11: movups, movupd, movss, movsd
  else if op = 0x10#8 ∨ op = 0x11#8 then do
    let ty ← p.fty
    let (reg, rm, bs) ← modrm p bs
    if op = 0x10#8 then return (.fmov ty (.xmm reg) (xmOpd rm), bs)
    else return (.fmov ty (xmOpd rm) (.xmm reg), bs)
  else if op = 0x28#8 ∨ op = 0x29#8 then do
    let ty ← p.fty
    let (reg, rm, bs) ← modrm p bs
    if ty.packed then
      if op = 0x28#8 then return (.fmova ty (.xmm reg) (xmOpd rm), bs)
      else return (.fmova ty (xmOpd rm) (.xmm reg), bs)
    else none
  -- 2A: cvtsi2ss, cvtsi2sd
  else if op = 0x2a#8 then do
    let ty ← p.fty
    let (reg, rm, bs) ← modrm p bs
    if ty.packed then none
    else return (.cvtsi2f ty p.isize (.xmm reg) (rmOpd p p.isize rm), bs)
  -- 2C/2D: cvttss2si, cvttsd2si, cvtss2si, cvtsd2si
  else if op = 0x2c#8 then do
    let ty ← p.fty
    let (reg, rm, bs) ← modrm p bs
    if ty.packed then none
    else return (.cvttf2si ty p.isize (.gpr reg) (xmOpd rm), bs)
  else if op = 0x2d#8 then do
    let ty ← p.fty
    let (reg, rm, bs) ← modrm p bs
    if ty.packed then none
    else return (.cvtf2si ty p.isize (.gpr reg) (xmOpd rm), bs)
  -- 2E/2F: ucomiss/ucomisd, comiss/comisd (no prefix: ss, 66: sd)
  else if op = 0x2e#8 ∨ op = 0x2f#8 then do
    let ty ← p.fty
    let (reg, rm, bs) ← modrm p bs
    if ty.packed then
      let ty := if ty = .ps then FTy.ss else FTy.sd
      if op = 0x2e#8 then return (.ucomi ty (.xmm reg) (xmOpd rm), bs)
      else return (.comi ty (.xmm reg) (xmOpd rm), bs)
    else none
  -- 40-4F: cmovcc
  else if op.extractLsb' 4 4 = 4#4 then
    if p.rep ≠ .none then none else do
      let (reg, rm, bs) ← modrm p bs
      return (.cmovcc (op.extractLsb' 0 4) p.size (.gpr reg) (rmOpd p p.size rm), bs)
  -- 51, 58-5F: arithmetic
  else if op = 0x51#8 ∨ op = 0x58#8 ∨ op = 0x59#8 ∨ op = 0x5c#8 ∨ op = 0x5d#8 ∨ op = 0x5e#8
      ∨ op = 0x5f#8 then do
    let ty ← p.fty
    let f ← fOp op
    let (reg, rm, bs) ← modrm p bs
    return (.fop f ty (.xmm reg) (xmOpd rm), bs)
  -- 54-57: logic
  else if op = 0x54#8 ∨ op = 0x55#8 ∨ op = 0x56#8 ∨ op = 0x57#8 then do
    let ty ← p.fty
    let f ← lOp op
    let (reg, rm, bs) ← modrm p bs
    if ty.packed then return (.flogic f ty (.xmm reg) (xmOpd rm), bs) else none
  -- 6E: movd/movq xmm, r/m (66)
  else if op = 0x6e#8 then do
    let ty ← p.fty
    let (reg, rm, bs) ← modrm p bs
    if ty = .pd then return (.movgx p.isize (.xmm reg) (rmOpd p p.isize rm), bs) else none
  -- 7E: movd/movq r/m, xmm (66); movq xmm, xmm/m64 (F3)
  else if op = 0x7e#8 then do
    let ty ← p.fty
    let (reg, rm, bs) ← modrm p bs
    if ty = .pd then return (.movgx p.isize (rmOpd p p.isize rm) (.xmm reg), bs)
    else if ty = .ss then return (.movqx (.xmm reg) (xmOpd rm), bs)
    else none
  -- D6: movq xmm/m64, xmm (66)
  else if op = 0xd6#8 then do
    let ty ← p.fty
    let (reg, rm, bs) ← modrm p bs
    if ty = .pd then return (.movqx (xmOpd rm) (.xmm reg), bs) else none
  -- 80-8F: jcc rel32
  else if op.extractLsb' 4 4 = 8#4 then
    if p.opsize ∨ p.rep ≠ .none then none else do
      let (v, bs) ← imm32 bs
      return (.jcc (op.extractLsb' 0 4) v, bs)
  -- 90-9F: setcc
  else if op.extractLsb' 4 4 = 9#4 then
    if p.rep ≠ .none then none else do
      let (_, rm, bs) ← modrm p bs
      return (.setcc (op.extractLsb' 0 4) (rmOpd p .b rm), bs)
  else if op = 0xaf#8 then
    if p.rep ≠ .none then none else do
      let (reg, rm, bs) ← modrm p bs
      return (.imul2 p.size (.gpr reg) (rmOpd p p.size rm), bs)
  else if op = 0xb6#8 ∨ op = 0xb7#8 then
    if p.rep ≠ .none then none else do
      let ssz := if op = 0xb6#8 then Size.b else Size.w
      let (reg, rm, bs) ← modrm p bs
      return (.movzx p.size ssz (.gpr reg) (rmOpd p ssz rm), bs)
  else if op = 0xbe#8 ∨ op = 0xbf#8 then
    if p.rep ≠ .none then none else do
      let ssz := if op = 0xbe#8 then Size.b else Size.w
      let (reg, rm, bs) ← modrm p bs
      return (.movsx p.size ssz (.gpr reg) (rmOpd p ssz rm), bs)
  -- B8, BC, BD: popcnt, tzcnt/bsf, lzcnt/bsr
  else if op = 0xb8#8 then
    if p.rep = .f3 then do
      let (reg, rm, bs) ← modrm p bs
      return (.cnt .popcnt p.size (.gpr reg) (rmOpd p p.size rm), bs)
    else none
  else if op = 0xbc#8 then
    if p.rep = .f2 then none else do
      let (reg, rm, bs) ← modrm p bs
      return (.cnt (if p.rep = .f3 then .tzcnt else .bsf) p.size (.gpr reg) (rmOpd p p.size rm), bs)
  else if op = 0xbd#8 then
    if p.rep = .f2 then none else do
      let (reg, rm, bs) ← modrm p bs
      return (.cnt (if p.rep = .f3 then .lzcnt else .bsr) p.size (.gpr reg) (rmOpd p p.size rm), bs)
  else none

/-- Three-byte opcode map 0F 3A xx (rounding instructions, mandatory prefix 66). -/
def map3A (p : Pfx) (op : Byte) (bs : List Byte) : Dec :=
  if p.opsize = false ∨ p.rep ≠ .none then none
  else if op = 0x08#8 ∨ op = 0x09#8 ∨ op = 0x0a#8 ∨ op = 0x0b#8 then do
    let ty := if op = 0x08#8 then FTy.ps else if op = 0x09#8 then FTy.pd
      else if op = 0x0a#8 then FTy.ss else FTy.sd
    let (reg, rm, bs) ← modrm p bs
    let (v, bs) ← rd8 bs
    return (.round ty (.xmm reg) (xmOpd rm) v, bs)
  else none

/-- Opcode dispatch. -/
def dispatch (p : Pfx) (op : Byte) (bs : List Byte) : Dec :=
  if op = 0x0f#8 then
    match bs with
    | [] => none
    | op2 :: bs =>
      if op2 = 0x3a#8 then
        match bs with
        | [] => none
        | op3 :: bs => map3A p op3 bs
      else map2 p op2 bs
  else map1 p op bs

/-- Decode one instruction from the front of a byte list. -/
def decode (bs : List Byte) : Dec :=
  match prefixes {} bs with
  | none => none
  | some (p, op, bs) => dispatch p op bs

/-! ### Conditions as predicates on flags (SDM vol. 1, appendix B) -/

structure Flags where
  cf : Bool
  pf : Bool
  zf : Bool
  sf : Bool
  of : Bool
deriving DecidableEq, Repr

/-- Does the condition with hardware number `c` hold? -/
def CC.holds (c : CC) (f : Flags) : Bool :=
  let t := c.extractLsb' 1 3
  let v : Bool :=
    if t = 0#3 then f.of
    else if t = 1#3 then f.cf
    else if t = 2#3 then f.zf
    else if t = 3#3 then f.cf || f.zf
    else if t = 4#3 then f.sf
    else if t = 5#3 then f.pf
    else if t = 6#3 then f.sf != f.of
    else f.zf || (f.sf != f.of)
  if c.getLsbD 0 then !v else v

end X86
