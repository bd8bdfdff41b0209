import Verif.Spec.X86
/-
  Specification: the fetch-decode-execute loop of the processor.

  Control transfer (jumps, calls, returns) is defined here. The effect of the other instructions on
  registers, flags and memory is a parameter `E`: what is proved holds for whatever they do, as long
  as it depends on the operands and not on the encoding.
-/

namespace X86

/-- Everything but the instruction pointer. -/
structure Data where
  gpr : Gpr → BitVec 64
  xmm : BitVec 4 → BitVec 128
  flags : Flags
  mem : BitVec 64 → Byte

/-- State of the processor. -/
structure State where
  rip : BitVec 64
  data : Data

/-- The eight bytes from address `a` on, as a little-endian number. -/
def Data.load64 (d : Data) (a : BitVec 64) : BitVec 64 :=
  d.mem (a + 7) ++ d.mem (a + 6) ++ d.mem (a + 5) ++ d.mem (a + 4)
    ++ d.mem (a + 3) ++ d.mem (a + 2) ++ d.mem (a + 1) ++ d.mem a

def Data.store64 (d : Data) (a v : BitVec 64) : Data :=
  { d with mem := fun x => if (x - a).toNat < 8 then v.extractLsb' (8 * (x - a).toNat) 8 else d.mem x }

def Data.setGpr (d : Data) (r : Gpr) (v : BitVec 64) : Data :=
  { d with gpr := fun q => if q = r then v else d.gpr q }

/-- rsp -/
def rsp : Gpr := 4

/-- Push a 64-bit value on the stack. -/
def Data.push (d : Data) (v : BitVec 64) : Data :=
  (d.setGpr rsp (d.gpr rsp - 8)).store64 (d.gpr rsp - 8) v

/-- Remove the top of the stack. -/
def Data.drop (d : Data) : Data := d.setGpr rsp (d.gpr rsp + 8)

/-- Effective address. `next` is the address of the next instruction. -/
def Addr.ea (a : Addr) (next : BitVec 64) (d : Data) : BitVec 64 :=
  (match a.base with
    | .none => 0
    | .gpr r => d.gpr r
    | .rip => next)
  + (match a.index with
    | none => 0
    | some (r, sc) => d.gpr r <<< sc.toNat)
  + a.disp

/-- 64-bit value of an operand. -/
def Opd.value (o : Opd) (next : BitVec 64) (d : Data) : BitVec 64 :=
  match o with
  | .gpr r => d.gpr r
  | .high r => (d.gpr (r.setWidth 4) >>> 8) &&& 0xff
  | .xmm r => (d.xmm r).setWidth 64
  | .mem a => d.load64 (a.ea next d)
  | .imm v => v

/-- The same address with a rip-relative base replaced by the absolute address it denotes. -/
def Addr.absolute (next : BitVec 64) (a : Addr) : Addr :=
  match a.base with
  | .rip => ⟨.none, a.index, next + a.disp⟩
  | _ => a

def Opd.absolute (next : BitVec 64) : Opd → Opd
  | .mem a => .mem (a.absolute next)
  | o => o

/-- The same instruction with absolute addresses. -/
def Instr.absolute (next : BitVec 64) : Instr → Instr
  | .alu op sz d s => .alu op sz (d.absolute next) (s.absolute next)
  | .mov sz d s => .mov sz (d.absolute next) (s.absolute next)
  | .movsx a b d s => .movsx a b (d.absolute next) (s.absolute next)
  | .movzx a b d s => .movzx a b (d.absolute next) (s.absolute next)
  | .lea sz d a => .lea sz (d.absolute next) (a.absolute next)
  | .xchg sz a b => .xchg sz (a.absolute next) (b.absolute next)
  | .test sz a b => .test sz (a.absolute next) (b.absolute next)
  | .shift op sz d c => .shift op sz (d.absolute next) (c.absolute next)
  | .un op sz d => .un op sz (d.absolute next)
  | .imul2 sz d s => .imul2 sz (d.absolute next) (s.absolute next)
  | .imul3 sz d s i => .imul3 sz (d.absolute next) (s.absolute next) (i.absolute next)
  | .push s => .push (s.absolute next)
  | .pop d => .pop (d.absolute next)
  | .jmpInd s => .jmpInd (s.absolute next)
  | .callInd s => .callInd (s.absolute next)
  | .setcc c d => .setcc c (d.absolute next)
  | .cmovcc c sz d s => .cmovcc c sz (d.absolute next) (s.absolute next)
  | .cnt op sz d s => .cnt op sz (d.absolute next) (s.absolute next)
  | .fop op ty d s => .fop op ty (d.absolute next) (s.absolute next)
  | .flogic op ty d s => .flogic op ty (d.absolute next) (s.absolute next)
  | .fmov ty d s => .fmov ty (d.absolute next) (s.absolute next)
  | .fmova ty d s => .fmova ty (d.absolute next) (s.absolute next)
  | .ucomi ty d s => .ucomi ty (d.absolute next) (s.absolute next)
  | .comi ty d s => .comi ty (d.absolute next) (s.absolute next)
  | .cvtsi2f ty sz d s => .cvtsi2f ty sz (d.absolute next) (s.absolute next)
  | .cvttf2si ty sz d s => .cvttf2si ty sz (d.absolute next) (s.absolute next)
  | .cvtf2si ty sz d s => .cvtf2si ty sz (d.absolute next) (s.absolute next)
  | .round ty d s m => .round ty (d.absolute next) (s.absolute next) m
  | .movgx sz d s => .movgx sz (d.absolute next) (s.absolute next)
  | .movqx d s => .movqx (d.absolute next) (s.absolute next)
  | .nop => .nop
  | .signExtAcc sz => .signExtAcc sz
  | .signExtDx sz => .signExtDx sz
  | .jmpRel d => .jmpRel d
  | .jcc c d => .jcc c d
  | .callRel d => .callRel d
  | .ret => .ret
  | .leave => .leave
  | .syscall => .syscall
  | .int3 => .int3
  | .ud2 => .ud2
  | .cpuid => .cpuid

/-- Control transfer instructions. -/
def Instr.isControl : Instr → Bool
  | .jmpRel _ => true
  | .jcc _ _ => true
  | .callRel _ => true
  | .jmpInd _ => true
  | .callInd _ => true
  | .ret => true
  | _ => false

/-- Effect of the instructions that are not control transfers: instruction (with absolute
    addresses), address of the next instruction (`syscall` saves it), state before and after. -/
abbrev Effect := Instr → BitVec 64 → Data → Data → Prop

/-- Execution of one instruction which is followed by the address `next`: the state before, the
    new instruction pointer and the state after. -/
inductive Exec (E : Effect) (next : BitVec 64) : Instr → Data → BitVec 64 → Data → Prop where
  | jmpRel {v d} : Exec E next (.jmpRel v) d (next + v) d
  | jcc {c v d} : Exec E next (.jcc c v) d (if c.holds d.flags then next + v else next) d
  | callRel {v d} : Exec E next (.callRel v) d (next + v) (d.push next)
  | jmpInd {o d} : Exec E next (.jmpInd o) d (o.value next d) d
  | callInd {o d} : Exec E next (.callInd o) d (o.value next d) (d.push next)
  | ret {d} : Exec E next .ret d (d.load64 (d.gpr rsp)) d.drop
  | other {I d d'} : I.isControl = false → E (I.absolute next) next d d' → Exec E next I d next d'

/-- The bytes the processor fetches: instructions have at most 15 bytes. -/
def fetch (mem : BitVec 64 → Byte) (rip : BitVec 64) : List Byte :=
  (List.range 15).map fun i => mem (rip + BitVec.ofNat 64 i)

/-- One step of the processor. -/
inductive Step (E : Effect) : State → State → Prop where
  | mk {rip d I rest rip' d'} : decode (fetch d.mem rip) = some (I, rest) →
      Exec E (rip + BitVec.ofNat 64 (15 - rest.length)) I d rip' d' → Step E ⟨rip, d⟩ ⟨rip', d'⟩

/-- `n` steps of the processor. -/
inductive Steps (E : Effect) : Nat → State → State → Prop where
  | zero {s} : Steps E 0 s s
  | succ {n s s' s''} : Step E s s' → Steps E n s' s'' → Steps E (n + 1) s s''

end X86
