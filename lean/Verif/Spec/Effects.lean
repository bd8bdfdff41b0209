import Verif.Spec.Cpu
import Verif.Spec.Double
/-
  Specification: what the instructions do to registers, flags and memory (Intel SDM vol. 2,
  "Operation" and "Flags affected" sections): integer instructions, moves, bitwise operations on xmm
  registers, and double precision arithmetic (Spec/Double.lean).

  `effect` gives the new state and the set of flags that the manual leaves undefined; `Described` is
  the corresponding relation, in which undefined flags may have any value. Instructions that fault
  (division error, misaligned 128-bit access) or are not described have no effect in the relation.
  Page faults are not modelled: all of memory is accessible.
-/

namespace X86

def Size.bits : Size → Nat
  | .b => 8 | .w => 16 | .d => 32 | .q => 64

def Size.bytes : Size → Nat
  | .b => 1 | .w => 2 | .d => 4 | .q => 8

/-- Store the low `n` bytes of `v` (`n ≤ 8`). -/
def Data.store (d : Data) (n : Nat) (a v : BitVec 64) : Data :=
  { d with mem := fun x => if (x - a).toNat < n then v.extractLsb' (8 * (x - a).toNat) 8 else d.mem x }

def Data.load128 (d : Data) (a : BitVec 64) : BitVec 128 := d.load64 (a + 8) ++ d.load64 a

def Data.setXmm (d : Data) (r : BitVec 4) (v : BitVec 128) : Data :=
  { d with xmm := fun q => if q = r then v else d.xmm q }

/-- Write a register. A 32-bit result is zero-extended, shorter ones leave the other bits alone. -/
def Data.setReg (d : Data) (sz : Size) (r : Gpr) (v : BitVec sz.bits) : Data :=
  match sz with
  | .q => d.setGpr r v
  | .d => d.setGpr r (v.setWidth 64)
  | .w => d.setGpr r ((d.gpr r).extractLsb' 16 48 ++ v)
  | .b => d.setGpr r ((d.gpr r).extractLsb' 8 56 ++ v)

/-- Read an operand. -/
def Opd.read (o : Opd) (sz : Size) (next : BitVec 64) (d : Data) : BitVec sz.bits :=
  (o.value next d).setWidth sz.bits

/-- Write an operand. -/
def Opd.write (o : Opd) (sz : Size) (next : BitVec 64) (v : BitVec sz.bits) (d : Data) : Option Data :=
  match o with
  | .gpr r => some (d.setReg sz r v)
  | .high r =>
    let r : Gpr := r.setWidth 4
    some (d.setGpr r ((d.gpr r).extractLsb' 16 48 ++ (v.setWidth 8 ++ (d.gpr r).extractLsb' 0 8)))
  | .mem a => some (d.store sz.bytes (a.ea next d) (v.setWidth 64))
  | .xmm _ => none
  | .imm _ => none

/-- Even number of ones. -/
def parity (b : BitVec 8) : Bool :=
  !(b.getLsbD 0 ^^ b.getLsbD 1 ^^ b.getLsbD 2 ^^ b.getLsbD 3 ^^ b.getLsbD 4 ^^ b.getLsbD 5 ^^ b.getLsbD 6 ^^ b.getLsbD 7)

/-- Flags after a result `r`, with the given carry and overflow. -/
def flagsOf {n : Nat} (r : BitVec n) (cf of : Bool) : Flags where
  cf := cf
  pf := parity (r.setWidth 8)
  zf := r == 0
  sf := r.msb
  of := of

/-- Result and flags of `a + b + c`. -/
def addc {n : Nat} (a b : BitVec n) (c : Bool) : BitVec n × Flags :=
  let r := a + b + BitVec.ofNat n c.toNat
  (r, flagsOf r (decide (2 ^ n ≤ a.toNat + b.toNat + c.toNat)) (a.msb == b.msb && r.msb != a.msb))

/-- Result and flags of `a - b - c`. -/
def subb {n : Nat} (a b : BitVec n) (c : Bool) : BitVec n × Flags :=
  let r := a - b - BitVec.ofNat n c.toNat
  (r, flagsOf r (decide (a.toNat < b.toNat + c.toNat)) (a.msb != b.msb && r.msb != a.msb))

/-- Result and flags of the two-operand operations. -/
def AluOp.run {n : Nat} (op : AluOp) (a b : BitVec n) (c : Bool) : BitVec n × Flags :=
  match op with
  | .add => addc a b false
  | .adc => addc a b c
  | .sub => subb a b false
  | .sbb => subb a b c
  | .cmp => subb a b false
  | .and => (a &&& b, flagsOf (a &&& b) false false)
  | .or => (a ||| b, flagsOf (a ||| b) false false)
  | .xor => (a ^^^ b, flagsOf (a ^^^ b) false false)

/-- A set of flags. -/
structure FlagSet where
  cf : Bool := false
  pf : Bool := false
  zf : Bool := false
  sf : Bool := false
  of : Bool := false

/-- Equal except on the given flags. -/
def Flags.agree (u : FlagSet) (f g : Flags) : Prop :=
  (u.cf = false → f.cf = g.cf) ∧ (u.pf = false → f.pf = g.pf) ∧ (u.zf = false → f.zf = g.zf)
  ∧ (u.sf = false → f.sf = g.sf) ∧ (u.of = false → f.of = g.of)

/-- Shifts and rotates by `c`, `0 < c`: result, flags, and whether OF is undefined. -/
def ShiftOp.run {n : Nat} (op : ShiftOp) (a : BitVec n) (c : Nat) (f : Flags) : Option (BitVec n × Flags × FlagSet) :=
  let u : FlagSet := { of := c != 1 }
  match op with
  | .shl => let r := a <<< c; let cf := a.getLsbD (n - c); some (r, flagsOf r cf (r.msb != cf), u)
  | .shr => let r := a >>> c; some (r, flagsOf r (a.getLsbD (c - 1)) a.msb, u)
  | .sar => let r := a.sshiftRight c; some (r, flagsOf r (a.getLsbD (c - 1)) false, u)
  | .rol => let r := a.rotateLeft c; let cf := r.getLsbD 0; some (r, { f with cf := cf, of := r.msb != cf }, u)
  | .ror => let r := a.rotateRight c; some (r, { f with cf := r.msb, of := r.msb != r.getLsbD (n - 2) }, u)
  | .rcl => none
  | .rcr => none

def rax : Gpr := 0
def rcx : Gpr := 1
def rdx : Gpr := 2
def rbp : Gpr := 5

/-- Set the flags. -/
def Data.setFlags (d : Data) (f : Flags) : Data := { d with flags := f }

/-- The pair `rdx:rax` (`edx:eax`, `dx:ax`). -/
def Data.wide (d : Data) (n : Nat) : BitVec (n + n) := (d.gpr rdx).setWidth n ++ (d.gpr rax).setWidth n

/-- Write the pair `rdx:rax` (`edx:eax`). -/
def Data.setWide (d : Data) (sz : Size) (lo hi : BitVec sz.bits) : Data := (d.setReg sz rax lo).setReg sz rdx hi

/-- Number of ones. -/
def popCount {n : Nat} (a : BitVec n) : Nat := ((List.range n).filter fun i => a.getLsbD i).length

/-- Index of the lowest one, `n` if there is none. -/
def trailing {n : Nat} (a : BitVec n) : Nat := (List.range n).findIdx fun i => a.getLsbD i

/-- Number of zeros above the highest one. -/
def leading {n : Nat} (a : BitVec n) : Nat := (List.range n).findIdx fun i => a.getLsbD (n - 1 - i)

/-- Result and defined flags of the counting instructions. -/
def CntOp.run {n : Nat} (op : CntOp) (a : BitVec n) : Option (BitVec n × Flags × FlagSet) :=
  let u : FlagSet := { pf := true, sf := true, of := true }
  match op with
  | .popcnt => some (BitVec.ofNat n (popCount a), ⟨false, false, a == 0, false, false⟩, {})
  | .tzcnt => let r := BitVec.ofNat n (trailing a); some (r, ⟨a == 0, false, r == 0, false, false⟩, u)
  | .lzcnt => let r := BitVec.ofNat n (leading a); some (r, ⟨a == 0, false, r == 0, false, false⟩, u)
  | .bsf => none
  | .bsr => none

/-- 128-bit value of an xmm or (aligned) memory operand. -/
def Opd.read128 (o : Opd) (next : BitVec 64) (d : Data) : Option (BitVec 128) :=
  match o with
  | .xmm r => some (d.xmm r)
  | .mem a => if (a.ea next d) &&& 15 = 0 then some (d.load128 (a.ea next d)) else none
  | _ => none

def LOp.run (op : LOp) (a b : BitVec 128) : BitVec 128 :=
  match op with
  | .and => a &&& b
  | .andn => ~~~a &&& b
  | .or => a ||| b
  | .xor => a ^^^ b

/-- The arithmetic on doubles; the square root is that of the second operand. -/
def FOp.run (op : FOp) (a b : BitVec 64) : BitVec 64 :=
  match op with
  | .add => Double.add a b
  | .mul => Double.mul a b
  | .sub => Double.sub a b
  | .min => Double.min a b
  | .div => Double.div a b
  | .max => Double.max a b
  | .sqrt => Double.sqrt b

/-- Replace the lower half of an xmm register. -/
def lower (x : BitVec 128) (v : BitVec 64) : BitVec 128 := x.extractLsb' 64 64 ++ v

/-- Apply an operation to both halves. -/
def lanes (f : BitVec 64 → BitVec 64 → BitVec 64) (x y : BitVec 128) : BitVec 128 :=
  f (x.extractLsb' 64 64) (y.extractLsb' 64 64) ++ f (x.setWidth 64) (y.setWidth 64)

/-- Flags after a comparison of doubles. -/
def compareFlags (a b : BitVec 64) : Flags :=
  let u := Double.isNan a || Double.isNan b
  { cf := u || Double.lt a b, pf := u, zf := u || !(Double.lt a b || Double.lt b a), sf := false, of := false }

/-- sizes of shifts that are described (shorter ones have more undefined flags) -/
def Size.long : Size → Bool
  | .d => true | .q => true | _ => false

/-- sizes with a result in `rdx:rax` (the 8-bit forms use `ax`, and are not described) -/
def Size.pair : Size → Bool
  | .b => false | _ => true

/-- Flags undefined after a multiplication. -/
def afterMul : FlagSet := { pf := true, zf := true, sf := true }
def allFlags : FlagSet := ⟨true, true, true, true, true⟩

/-- Defined flags after a multiplication: carry and overflow tell that the result does not fit. -/
def mulFlags (f : Flags) (c : Bool) : Flags := { f with cf := c, of := c }

/-- Effect of an instruction that is not a control transfer: the new state, and the flags whose new
    value is undefined. `none`: the instruction faults, or is not described. -/
def effect (I : Instr) (next : BitVec 64) (d : Data) : Option (Data × FlagSet) :=
  match I with
  | .nop => some (d, {})
  | .alu op sz dst src =>
    let (r, f) := op.run (dst.read sz next d) (src.read sz next d) d.flags.cf
    if op = .cmp then some (d.setFlags f, {})
    else do return ((← dst.write sz next r d).setFlags f, {})
  | .test sz a b =>
    let r := a.read sz next d &&& b.read sz next d
    some (d.setFlags (flagsOf r false false), {})
  | .mov sz dst src => do return (← dst.write sz next (src.read sz next d) d, {})
  | .movsx dsz ssz dst src => do return (← dst.write dsz next ((src.read ssz next d).signExtend dsz.bits) d, {})
  | .movzx dsz ssz dst src => do return (← dst.write dsz next ((src.read ssz next d).setWidth dsz.bits) d, {})
  | .lea sz dst a => do return (← dst.write sz next ((a.ea next d).setWidth sz.bits) d, {})
  | .xchg sz a b =>
    -- at most one operand is memory, and its address is that before the exchange
    match a, b with
    | .mem _, _ => do return (← b.write sz next (a.read sz next d) (← a.write sz next (b.read sz next d) d), {})
    | _, _ => do return (← a.write sz next (b.read sz next d) (← b.write sz next (a.read sz next d) d), {})
  | .shift op sz dst count =>
    if sz.long then
      let a := dst.read sz next d
      let c := (count.value next d).toNat % sz.bits
      if c = 0 then do return (← dst.write sz next a d, {})
      else do
        let (r, f, u) ← op.run a c d.flags
        return ((← dst.write sz next r d).setFlags f, u)
    else none
  | .un op sz dst =>
    let a := dst.read sz next d
    match op with
    | .not => do return (← dst.write sz next (~~~a) d, {})
    | .neg =>
      let (r, f) := subb 0 a false
      do return ((← dst.write sz next r d).setFlags f, {})
    | .inc =>
      let (r, f) := addc a 1 false
      do return ((← dst.write sz next r d).setFlags { f with cf := d.flags.cf }, {})
    | .dec =>
      let (r, f) := subb a 1 false
      do return ((← dst.write sz next r d).setFlags { f with cf := d.flags.cf }, {})
    | .mul =>
      if sz.pair then
        let p := ((d.gpr rax).setWidth sz.bits).toNat * a.toNat
        let hi := BitVec.ofNat sz.bits (p / 2 ^ sz.bits)
        some ((d.setWide sz (BitVec.ofNat sz.bits p) hi).setFlags (mulFlags d.flags (hi != 0)), afterMul)
      else none
    | .imul =>
      if sz.pair then
        let p := ((d.gpr rax).setWidth sz.bits).toInt * a.toInt
        let lo := BitVec.ofInt sz.bits p
        some ((d.setWide sz lo (BitVec.ofInt sz.bits (p / 2 ^ sz.bits))).setFlags (mulFlags d.flags (lo.toInt != p)), afterMul)
      else none
    | .div =>
      let q := (d.wide sz.bits).toNat / a.toNat
      if sz.pair ∧ a ≠ 0 ∧ q < 2 ^ sz.bits then
        some (d.setWide sz (BitVec.ofNat sz.bits q) (BitVec.ofNat sz.bits ((d.wide sz.bits).toNat % a.toNat)), allFlags)
      else none
    | .idiv =>
      let q := (d.wide sz.bits).toInt.tdiv a.toInt
      if sz.pair ∧ a ≠ 0 ∧ (BitVec.ofInt sz.bits q).toInt = q then
        some (d.setWide sz (BitVec.ofInt sz.bits q) (BitVec.ofInt sz.bits ((d.wide sz.bits).toInt.tmod a.toInt)), allFlags)
      else none
  | .imul2 sz dst src =>
    let p := (dst.read sz next d).toInt * (src.read sz next d).toInt
    let r := BitVec.ofInt sz.bits p
    do return ((← dst.write sz next r d).setFlags (mulFlags d.flags (r.toInt != p)), afterMul)
  | .imul3 sz dst src imm =>
    let p := (src.read sz next d).toInt * (imm.read sz next d).toInt
    let r := BitVec.ofInt sz.bits p
    do return ((← dst.write sz next r d).setFlags (mulFlags d.flags (r.toInt != p)), afterMul)
  | .signExtAcc sz => some (d.setReg sz rax (((d.gpr rax).setWidth (sz.bits / 2)).signExtend sz.bits), {})
  | .signExtDx sz =>
    some (d.setReg sz rdx (if ((d.gpr rax).setWidth sz.bits).msb then BitVec.allOnes sz.bits else 0), {})
  | .push src => some (d.push (src.value next d), {})
  | .pop dst => do return (← dst.write .q next (d.load64 (d.gpr rsp)) d.drop, {})
  | .leave =>
    let d1 := d.setGpr rsp (d.gpr rbp)
    some (d1.drop.setGpr rbp (d1.load64 (d1.gpr rsp)), {})
  | .setcc c dst => do return (← dst.write .b next (if c.holds d.flags then 1#8 else 0#8) d, {})
  | .cmovcc c sz dst src =>
    do return (← dst.write sz next (if c.holds d.flags then src.read sz next d else dst.read sz next d) d, {})
  | .cnt op sz dst src => do
    let (r, f, u) ← op.run (src.read sz next d)
    return ((← dst.write sz next r d).setFlags f, u)
  | .movgx sz dst src =>
    match dst with
    | .xmm r => some (d.setXmm r ((src.read sz next d).setWidth 128), {})
    | _ => do return (← dst.write sz next (src.read sz next d) d, {})
  | .movqx dst src =>
    match dst with
    | .xmm r => some (d.setXmm r ((src.read .q next d).setWidth 128), {})
    | _ => do return (← dst.write .q next (src.read .q next d) d, {})
  | .fmov .sd dst src =>
    match dst, src with
    | .xmm r, .xmm s => some (d.setXmm r ((d.xmm r).extractLsb' 64 64 ++ (d.xmm s).setWidth 64), {})
    | .xmm r, .mem a => some (d.setXmm r ((d.load64 (a.ea next d)).setWidth 128), {})
    | .mem a, .xmm s => some (d.store 8 (a.ea next d) ((d.xmm s).setWidth 64), {})
    | _, _ => none
  | .flogic op _ dst src =>
    match dst with
    | .xmm r => do return (d.setXmm r (op.run (d.xmm r) (← src.read128 next d)), {})
    | _ => none
  | .fop op .sd dst src =>
    match dst with
    | .xmm r => some (d.setXmm r (lower (d.xmm r) (op.run ((d.xmm r).setWidth 64) (src.read .q next d))), {})
    | _ => none
  | .fop op .pd dst src =>
    match dst with
    | .xmm r => do return (d.setXmm r (lanes op.run (d.xmm r) (← src.read128 next d)), {})
    | _ => none
  | .round .sd dst src m =>
    match dst with
    | .xmm r => some (d.setXmm r (lower (d.xmm r) (Double.toIntegral (.of m) (src.read .q next d))), {})
    | _ => none
  | .round .pd dst src m =>
    match dst with
    | .xmm r => do return (d.setXmm r (lanes (fun _ b => Double.toIntegral (.of m) b) (d.xmm r) (← src.read128 next d)), {})
    | _ => none
  | .ucomi .sd dst src => some (d.setFlags (compareFlags (dst.read .q next d) (src.read .q next d)), {})
  | .comi .sd dst src => some (d.setFlags (compareFlags (dst.read .q next d) (src.read .q next d)), {})
  | .cvtsi2f .sd sz dst src =>
    match dst with
    | .xmm r => some (d.setXmm r (lower (d.xmm r) (Double.ofInt (src.read sz next d).toInt)), {})
    | _ => none
  | .cvttf2si .sd sz dst src => do return (← dst.write sz next (Double.truncate sz.bits (src.read .q next d)) d, {})
  | _ => none

/-- The effect of the instructions as a relation. -/
def Described : Effect := fun I next d d' =>
  ∃ d1 u, effect I next d = some (d1, u) ∧ d1.flags.agree u d'.flags ∧ d' = { d1 with flags := d'.flags }

end X86
