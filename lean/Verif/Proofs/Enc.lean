import Verif.Proofs.Bytes
import Verif.Spec.Meaning
/-
  Decoding the REX / opcode / ModRM / SIB / displacement bytes produced by `encItems`.
-/

set_option linter.unusedSimpArgs false

namespace Monoasm
open X86 (Pfx)

def Reg.of4 (r : BitVec 4) : Reg := ⟨r.setWidth 8⟩

theorem Reg.eq_of4 {r : Reg} (h : r.num < 16#8) : r = Reg.of4 (r.num.setWidth 4) := by
  cases r with
  | mk n =>
    simp only [Reg.of4, Reg.mk.injEq]
    revert h; revert n; decide +kernel

/-- REX byte, if any. -/
def rexOpt (k : Rex) (r b x : BitVec 4) (isReg : Bool) : Option Byte :=
  match k with
  | .rexw => some (rexByte 0x48 (.of4 r) (.of4 b) (.of4 x))
  | .none => if r > 7 || b > 7 || x > 7 then some (rexByte 0x40 (.of4 r) (.of4 b) (.of4 x)) else none
  | .byte =>
    if r > 7 || b > 7 || x > 7 then some (rexByte 0x40 (.of4 r) (.of4 b) (.of4 x))
    else if r > 3 || (b > 3 && isReg) then some 0x40 else none

theorem of4_gt7 : ∀ r : BitVec 4, ((Reg.of4 r).num > 7) ↔ (r > 7) := by decide +kernel
theorem of4_gt3 : ∀ r : BitVec 4, ((Reg.of4 r).num > 3) ↔ (r > 3) := by decide +kernel

theorem rexItems_eq (k r b x) (mode : Mode) :
    rexItems k (.of4 r) (.of4 b) (.of4 x) mode
      = ((rexOpt k r b x (mode = .reg)).toList).map .i8 := by
  cases k
  · rfl
  · simp only [rexItems, rexOpt, of4_gt7]; split <;> rfl
  · simp only [rexItems, rexOpt, of4_gt7, of4_gt3]; split
    · rfl
    · split <;> rfl

/-- The low bits of the REX byte, as the decoder records them. -/
def rexBits (o : Option Byte) : Option (BitVec 4) := o.map fun x => x.extractLsb' 0 4

def msb4 (r : BitVec 4) : BitVec 1 := r.extractLsb' 3 1

theorem rexByte40_bits : ∀ r b x : BitVec 4,
    X86.isRex (rexByte 0x40 (.of4 r) (.of4 b) (.of4 x)) = true
    ∧ X86.isLegacy (rexByte 0x40 (.of4 r) (.of4 b) (.of4 x)) = false
    ∧ (rexByte 0x40 (.of4 r) (.of4 b) (.of4 x)).extractLsb' 0 4 = (0#1 ++ msb4 r ++ msb4 x ++ msb4 b) := by
  decide +kernel

theorem rexByte48_bits : ∀ r b x : BitVec 4,
    X86.isRex (rexByte 0x48 (.of4 r) (.of4 b) (.of4 x)) = true
    ∧ X86.isLegacy (rexByte 0x48 (.of4 r) (.of4 b) (.of4 x)) = false
    ∧ (rexByte 0x48 (.of4 r) (.of4 b) (.of4 x)).extractLsb' 0 4 = (1#1 ++ msb4 r ++ msb4 x ++ msb4 b) := by
  decide +kernel

/-- What the decoder needs to know about the REX prefix. -/
structure RexOk (R : Option (BitVec 4)) (w : Bool) (r x b : BitVec 1) : Prop where
  w : Pfx.w { rex := R } = w
  r : Pfx.r { rex := R } = r
  x : Pfx.x { rex := R } = x
  b : Pfx.b { rex := R } = b

theorem rexOk_some : ∀ w r x b : BitVec 1,
    ((w ++ r ++ x ++ b : BitVec 4).getLsbD 3 = (w == 1#1))
    ∧ (w ++ r ++ x ++ b : BitVec 4).extractLsb' 2 1 = r
    ∧ (w ++ r ++ x ++ b : BitVec 4).extractLsb' 1 1 = x
    ∧ (w ++ r ++ x ++ b : BitVec 4).extractLsb' 0 1 = b := by decide +kernel

theorem msb4_zero : ∀ r : BitVec 4, ¬ r > 7 → msb4 r = 0 := by decide +kernel

theorem rexOpt_ok (k r b x isReg) :
    RexOk (rexBits (rexOpt k r b x isReg)) (k = .rexw) (msb4 r) (msb4 x) (msb4 b) := by
  have h40 := (rexByte40_bits r b x).2.2
  have h48 := (rexByte48_bits r b x).2.2
  have s0 := rexOk_some 0#1 (msb4 r) (msb4 x) (msb4 b)
  have s1 := rexOk_some 1#1 (msb4 r) (msb4 x) (msb4 b)
  by_cases hg : (r > 7 || b > 7 || x > 7) = true
  · cases k <;> simp only [rexOpt, hg, if_true, rexBits, Option.map_some, h40, h48]
    · exact ⟨s1.1, s1.2.1, s1.2.2.1, s1.2.2.2⟩
    · exact ⟨s0.1, s0.2.1, s0.2.2.1, s0.2.2.2⟩
    · exact ⟨s0.1, s0.2.1, s0.2.2.1, s0.2.2.2⟩
  · have hh := hg
    simp only [Bool.or_eq_true, decide_eq_true_eq, not_or] at hh
    have zr := msb4_zero r hh.1.1
    have zb := msb4_zero b hh.1.2
    have zx := msb4_zero x hh.2
    cases k
    · simp only [rexOpt, rexBits, Option.map_some, h48]
      exact ⟨s1.1, s1.2.1, s1.2.2.1, s1.2.2.2⟩
    · simp only [rexOpt, hg, rexBits, zr, zb, zx]
      exact ⟨rfl, rfl, rfl, rfl⟩
    · simp only [rexOpt, rexBits, zr, zb, zx]
      split
      · exact absurd ‹_› hg
      · split
        · exact ⟨by decide, by decide, by decide, by decide⟩
        · exact ⟨rfl, rfl, rfl, rfl⟩

theorem rexOpt_isRex (k r b x isReg y) (h : rexOpt k r b x isReg = some y) :
    X86.isRex y = true ∧ X86.isLegacy y = false := by
  have h40 := rexByte40_bits r b x
  have h48 := rexByte48_bits r b x
  cases k <;> simp only [rexOpt] at h
  · cases h; exact ⟨h48.1, h48.2.1⟩
  · split at h
    · cases h; exact ⟨h40.1, h40.2.1⟩
    · cases h
  · split at h
    · cases h; exact ⟨h40.1, h40.2.1⟩
    · split at h
      · cases h; decide
      · cases h

/-- Byte operands 4-7 always come with a REX prefix. -/
theorem rexOpt_byte (r b x isReg) (h : rexOpt .byte r b x isReg = none) :
    ¬ (r > 3) ∧ (isReg = true → ¬ b > 3) := by
  simp only [rexOpt] at h
  split at h
  · cases h
  · split at h
    · cases h
    · rename_i h2
      simp only [Bool.or_eq_true, decide_eq_true_eq, Bool.and_eq_true, not_or, not_and] at h2
      refine ⟨h2.1, fun hr hb => h2.2 hb hr⟩

/-- Prefix scanning past the REX byte. -/
theorem prefixes_rex (p : Pfx) (hp : p.rex = none) (o : Option Byte) (b0 : Byte) (rest : List Byte)
    (ho : ∀ y, o = some y → X86.isRex y = true ∧ X86.isLegacy y = false)
    (hb : X86.isRex b0 = false ∧ X86.isLegacy b0 = false) :
    X86.prefixes p (o.toList ++ b0 :: rest) = some ({ p with rex := rexBits o }, b0, rest) := by
  have leg : ∀ y : Byte, X86.isLegacy y = false → ¬ y = 0x66#8 ∧ ¬ y = 0xf2#8 ∧ ¬ y = 0xf3#8 := by
    decide +kernel
  cases o with
  | none =>
    obtain ⟨h1, h2, h3⟩ := leg b0 hb.2
    cases p
    simp only at hp
    simp [X86.prefixes, h1, h2, h3, hb.1, rexBits, hp]
  | some y =>
    obtain ⟨hy, hl⟩ := ho y rfl
    obtain ⟨h1, h2, h3⟩ := leg y hl
    simp [X86.prefixes, h1, h2, h3, hb.1, hb.2, hy, rexBits]

/-! ### ModRM, SIB and displacement -/

/-- Displacement denoted by `Disp`; `ψ l` is the content of the slot of label `l`. -/
def dispVal (ψ : DestLabel → BitVec 32) : Disp → BitVec 64
  | .none => 0
  | .d8 d => d.signExtend 64
  | .d32 d => d.signExtend 64
  | .label l => (ψ l).signExtend 64

/-- The operand denoted by a run-time `Rm`; an index `rsp` cannot be encoded and denotes no index. -/
def rmRM (ψ : DestLabel → BitVec 32) (rm : Rm) : Option X86.RM :=
  match rm.mode with
  | .reg => if rm.base.num < 16 then some (.reg (rm.base.num.setWidth 4)) else none
  | .ind .none disp =>
    if rm.base.num = 16 then some (.mem ⟨.rip, none, dispVal ψ disp⟩)
    else if rm.base.num < 16 then
      some (.mem ⟨.gpr (rm.base.num.setWidth 4), none, dispVal ψ disp⟩)
    else none
  | .ind (.s1 sc idx) disp =>
    if rm.base.num < 16 ∧ idx.num < 16 ∧ sc < 4 then
      some (.mem ⟨.gpr (rm.base.num.setWidth 4),
        if idx.num = 4 then none else some (idx.num.setWidth 4, sc.setWidth 2), dispVal ψ disp⟩)
    else none

/-- Value of the ModRM reg field. -/
def mmVal : ModRM → BitVec 4
  | .reg r => r.num.setWidth 4
  | .digit d => d.setWidth 4

def mmOk : ModRM → Prop
  | .reg r => r.num < 16
  | .digit d => d < 8

def mm3 (mm : ModRM) : BitVec 3 := (mmVal mm).extractLsb' 0 3

theorem msb_lo : ∀ r : BitVec 4, (msb4 r ++ (r.extractLsb' 0 3 : BitVec 3) : BitVec 4) = r := by
  decide +kernel

/-- fields of a ModRM byte -/
theorem modrm_fields : ∀ (m : BitVec 2) (r b : BitVec 8),
    (let y := (m.setWidth 8) <<< 6 ||| (r &&& 7#8) <<< 3 ||| (b &&& 7#8)
     y.extractLsb' 6 2 = m ∧ y.extractLsb' 3 3 = r.extractLsb' 0 3 ∧ y.extractLsb' 0 3 = b.extractLsb' 0 3) := by
  intro m r b
  refine ⟨?_, ?_, ?_⟩ <;>
  · ext i hi
    simp only [← BitVec.getLsbD_eq_getElem, BitVec.getLsbD_extractLsb', BitVec.getLsbD_or,
      BitVec.getLsbD_shiftLeft, BitVec.getLsbD_and, BitVec.getLsbD_setWidth, hi, decide_true]
    rcases i with _ | _ | _ | i
    · simp
    · simp
    · simp
    · omega

theorem extract_setWidth (b : BitVec 8) : (b.setWidth 4).extractLsb' 0 3 = b.extractLsb' 0 3 := by
  revert b; decide +kernel

theorem low3_eq (b : BitVec 8) (c : BitVec 3) : (b &&& 7#8) = c.setWidth 8 ↔ b.extractLsb' 0 3 = c := by
  revert b c; decide +kernel

theorem imm32_le32 (v : BitVec 32) (r) : X86.imm32 (le32 v ++ r) = some (v.signExtend 64, r) := by
  simp [X86.imm32, rd32_le32]

theorem imm32_le32' (v : BitVec 32) : X86.imm32 (le32 v) = some (v.signExtend 64, []) := by
  have := imm32_le32 v []; simpa using this

def dispBytes (ψ : DestLabel → BitVec 32) : Disp → List Byte
  | .none => []
  | .d8 d => [d]
  | .d32 d => le32 d
  | .label l => le32 (ψ l)

theorem dispItems_bytes (ψ imm disp) : bytesOf ψ (dispItems imm disp) = dispBytes ψ disp := by
  cases disp <;> simp [dispItems, dispBytes, Item.bytes]

/-- mod field chosen for a displacement -/
def modOf : Disp → BitVec 2
  | .none => 0
  | .d8 _ => 1
  | .d32 _ => 2
  | .label _ => 2

theorem mode_encode (sc disp) : (Mode.ind sc disp).encode = (modOf disp).setWidth 8 := by
  cases disp <;> rfl

theorem dispOf_bytes (ψ disp rest) :
    X86.dispOf (modOf disp) (dispBytes ψ disp ++ rest) = some (dispVal ψ disp, rest) := by
  cases disp
  · simp [X86.dispOf, modOf, dispBytes, dispVal]
  · simp [X86.dispOf, modOf, dispBytes, dispVal, X86.imm8, X86.rd8]
  · simp [X86.dispOf, modOf, dispBytes, dispVal, imm32_le32]
  · simp [X86.dispOf, modOf, dispBytes, dispVal, imm32_le32]

/-- ModRM + SIB + displacement + immediate bytes following the opcode. -/
def tailItems (mm : ModRM) (rm : Rm) (imm : Imm) : List Item :=
  if rm.base.is_rip then
    match Rm.rip_ind_from rm with
    | .error e => [.fail e]
    | .ok rm => [.i8 (modrmByte mm (.ind .none .none) rm.base)] ++ dispItems imm rm.mode.disp
  else match rm.mode with
  | .reg => [.i8 (modrmByte mm .reg rm.base)]
  | .ind scale disp =>
    if (rm.base.num &&& 0b111) = 4 then
      let (sc, index) : BitVec 8 × Reg := match scale with
        | .none => (0, ⟨4⟩)
        | .s1 sc index => (sc, index)
      [.i8 (modrmByte mm (.ind scale disp) rm.base), sibItem sc index rm.base] ++ dispItems imm disp
    else
      let disp' := if disp = .none ∧ (rm.base.num &&& 0b111) = 5 then .d8 0 else disp
      [.i8 (modrmByte mm (.ind scale disp') rm.base)] ++ scaleItems scale rm.base
        ++ dispItems imm disp'

/-- base and index registers used for the REX prefix -/
def rexBase (rm : Rm) : BitVec 4 := if rm.base.is_rip then 5 else rm.base.num.setWidth 4
def rexIdx (rm : Rm) : BitVec 4 :=
  match rm.mode with
  | .reg => 0
  | .ind .none _ => 0
  | .ind (.s1 _ i) _ => i.num.setWidth 4

def mmReg4 : ModRM → BitVec 4
  | .reg r => r.num.setWidth 4
  | .digit _ => 0

theorem modrmReg_of4 {mm} (h : mmOk mm) : modrmReg mm = .of4 (mmReg4 mm) := by
  cases mm with
  | reg r => exact Reg.eq_of4 h
  | digit d => rfl

theorem of4_not_rip : ∀ r : BitVec 4, (Reg.of4 r).is_rip = false := by decide +kernel

theorem rexOpt_idx4 (k r b isReg) : rexOpt k r b 4#4 isReg = rexOpt k r b 0#4 isReg := by
  cases k <;> simp [rexOpt, rexByte, Reg.of4]

theorem is_rip_iff (r : Reg) : r.is_rip = true ↔ r.num = 16#8 := by
  cases r; simp [Reg.is_rip, Reg.rip, Reg.from]

theorem encItems_split (op k mm rm imm) (hm : mmOk mm)
    (hr : rm.base.num < 16 ∨ rm.base.num = 16)
    (hi : ∀ sc i d, rm.mode = .ind (.s1 sc i) d → i.num < 16)
    (hrip : rm.base.is_rip = true → ∃ d, rm.mode = .ind .none d) :
    encItems op k mm rm imm
      = (rexOpt k (mmReg4 mm) (rexBase rm) (rexIdx rm) (rm.mode = .reg)).toList.map .i8
        ++ op.map .i8 ++ tailItems mm rm imm ++ immItems imm := by
  obtain ⟨base, mode⟩ := rm
  simp only at hr hi hrip
  simp only [encItems, modrmReg_of4 hm, of4_not_rip, Bool.false_eq_true, if_false]
  by_cases hb : base.is_rip = true
  · obtain ⟨d, rfl⟩ := hrip hb
    have h5 : Reg.rbp = .of4 5 := by decide
    have h0 : (⟨0#8⟩ : Reg) = .of4 0 := by decide
    cases d <;>
      simp [hb, tailItems, Rm.rip_ind_from, rexBase, rexIdx, h5, h0, rexItems_eq, Mode.disp]
  · have hlt : base.num < 16 := by
      rcases hr with h | h
      · exact h
      · exact absurd ((is_rip_iff base).2 h) hb
    have hbase := Reg.eq_of4 hlt
    have h0 : (⟨0#8⟩ : Reg) = .of4 0 := by decide
    have h4 : (⟨4#8⟩ : Reg) = .of4 4 := by decide
    simp only [hb, if_false, tailItems, rexBase, Bool.false_eq_true]
    generalize base.num.setWidth 4 = b4 at *
    subst hbase
    cases mode with
    | reg => simp [rexIdx, h0, rexItems_eq]
    | ind scale disp =>
      cases scale with
      | none =>
        by_cases hb4 : ((Reg.of4 b4).num &&& 7#8) = 4#8
        · simp [hb4, h4, rexItems_eq, rexIdx, rexOpt_idx4 k]
        · simp [hb4, h0, rexItems_eq, rexIdx, Scale.index]
      | s1 sc i =>
        have hi' := Reg.eq_of4 (hi sc i disp rfl)
        simp only [rexIdx]
        generalize i.num.setWidth 4 = i4 at *
        subst hi'
        by_cases hb4 : ((Reg.of4 b4).num &&& 7#8) = 4#8
        · simp [hb4, rexItems_eq]
        · simp [hb4, rexItems_eq, Scale.index]

def effBase (mode : Mode) (base : Reg) : BitVec 8 :=
  match mode with
  | .reg => base.num
  | .ind .none _ => base.num
  | .ind (.s1 _ _) _ => 4

def mmNum : ModRM → BitVec 8
  | .digit d => d
  | .reg r => r.num

theorem modrmByte_eq (mm mode base) : modrmByte mm mode base
    = mode.encode <<< 6 ||| (mmNum mm &&& 7#8) <<< 3 ||| (effBase mode base &&& 7#8) := by
  cases mm <;> (cases mode with
    | reg => rfl
    | ind sc d => cases sc <;> rfl)

theorem modrmByte_fields (mm : ModRM) (m : BitVec 2) (mode : Mode) (base : Reg)
    (hm : mode.encode = m.setWidth 8) :
    (modrmByte mm mode base).extractLsb' 6 2 = m
    ∧ (modrmByte mm mode base).extractLsb' 3 3 = (mmVal mm).extractLsb' 0 3
    ∧ (modrmByte mm mode base).extractLsb' 0 3 = (effBase mode base).extractLsb' 0 3 := by
  have hv : (mmVal mm).extractLsb' 0 3 = (mmNum mm).extractLsb' 0 3 := by
    cases mm <;> simp only [mmVal, mmNum, extract_setWidth]
  rw [hv, modrmByte_eq, hm]
  exact modrm_fields m _ _

theorem sib_fields : ∀ (s : BitVec 2) (i b : BitVec 8),
    (let y := (s.setWidth 8) <<< 6 ||| (i &&& 7#8) <<< 3 ||| (b &&& 7#8)
     y.extractLsb' 6 2 = s ∧ y.extractLsb' 3 3 = i.extractLsb' 0 3 ∧ y.extractLsb' 0 3 = b.extractLsb' 0 3) :=
  modrm_fields

theorem scale_of2 : ∀ sc : BitVec 8, sc < 4#8 → sc = (sc.setWidth 2).setWidth 8 := by decide +kernel

theorem mod_ne3 (disp) : modOf disp ≠ 3#2 := by cases disp <;> simp [modOf]

theorem lo_of4 : ∀ r : BitVec 4, (Reg.of4 r).num.extractLsb' 0 3 = r.extractLsb' 0 3 := by decide +kernel

/-! shapes of ModRM -/

section
variable (p : Pfx) (y : Byte) (bs : List Byte)

theorem modrm_shape_reg (h : y.extractLsb' 6 2 = 3#2) :
    X86.modrm p (y :: bs) = some (p.r ++ (y.extractLsb' 3 3 : BitVec 3), .reg (p.b ++ (y.extractLsb' 0 3 : BitVec 3)), bs) := by
  simp [X86.modrm, h]

theorem modrm_shape_rip (h : y.extractLsb' 6 2 = 0#2) (h5 : y.extractLsb' 0 3 = 5#3)
    (d r) (hd : X86.imm32 bs = some (d, r)) :
    X86.modrm p (y :: bs) = some (p.r ++ (y.extractLsb' 3 3 : BitVec 3), .mem ⟨.rip, none, d⟩, r) := by
  simp [X86.modrm, h, h5, hd]

theorem modrm_shape_base (h3 : y.extractLsb' 6 2 ≠ 3#2) (h4 : y.extractLsb' 0 3 ≠ 4#3)
    (h5 : y.extractLsb' 0 3 = 5#3 → y.extractLsb' 6 2 ≠ 0#2)
    (d r) (hd : X86.dispOf (y.extractLsb' 6 2) bs = some (d, r)) :
    X86.modrm p (y :: bs)
      = some (p.r ++ (y.extractLsb' 3 3 : BitVec 3), .mem ⟨.gpr (p.b ++ (y.extractLsb' 0 3 : BitVec 3)), none, d⟩, r) := by
  have : ¬ (y.extractLsb' 0 3 = 5#3 ∧ y.extractLsb' 6 2 = 0#2) := fun h => h5 h.1 h.2
  simp [X86.modrm, h3, h4, this, hd]

theorem modrm_shape_sib (s : Byte) (h3 : y.extractLsb' 6 2 ≠ 3#2) (h4 : y.extractLsb' 0 3 = 4#3)
    (h5 : s.extractLsb' 0 3 = 5#3 → y.extractLsb' 6 2 ≠ 0#2)
    (d r) (hd : X86.dispOf (y.extractLsb' 6 2) bs = some (d, r)) :
    X86.modrm p (y :: s :: bs)
      = some (p.r ++ (y.extractLsb' 3 3 : BitVec 3), .mem ⟨.gpr (p.b ++ (s.extractLsb' 0 3 : BitVec 3)),
          if (p.x ++ (s.extractLsb' 3 3 : BitVec 3) : BitVec 4) = 4#4 then none
          else some (p.x ++ (s.extractLsb' 3 3 : BitVec 3), s.extractLsb' 6 2), d⟩, r) := by
  have : ¬ (s.extractLsb' 0 3 = 5#3 ∧ y.extractLsb' 6 2 = 0#2) := fun h => h5 h.1 h.2
  simp [X86.modrm, h3, h4, this, hd]

end

theorem dispFix (ψ) (disp : Disp) (c : Prop) [Decidable c] :
    dispVal ψ (if disp = .none ∧ c then .d8 0 else disp) = dispVal ψ disp := by
  split
  · rename_i h; rw [h.1]; simp [dispVal]
  · rfl

theorem tail_decode (ψ p mm rm imm RM rest) (hRM : rmRM ψ rm = some RM)
    (hr : Pfx.r p = msb4 (mmVal mm)) (hx : Pfx.x p = msb4 (rexIdx rm)) (hb : Pfx.b p = msb4 (rexBase rm)) :
    X86.modrm p (bytesOf ψ (tailItems mm rm imm) ++ rest) = some (mmVal mm, RM, rest) := by
  obtain ⟨base, mode⟩ := rm
  cases mode with
  | reg =>
    simp only [rmRM] at hRM
    split at hRM
    case isFalse => cases hRM
    rename_i hlt
    cases hRM
    have hnr : base.is_rip = false := by
      rw [Reg.eq_of4 hlt]; exact of4_not_rip _
    have hf := modrmByte_fields mm 3 .reg base rfl
    simp only [rexBase, hnr, Bool.false_eq_true, if_false] at hb
    simp only [tailItems, hnr, Bool.false_eq_true, if_false, bytesOf_cons, bytesOf_nil, Item.bytes,
      List.cons_append, List.nil_append]
    rw [modrm_shape_reg _ _ _ hf.1, hf.2.1, hf.2.2, hr, hb, effBase, ← extract_setWidth, msb_lo, msb_lo]
  | ind scale disp =>
    cases scale with
    | none =>
      simp only [rmRM] at hRM
      split at hRM
      · rename_i h16
        cases hRM
        have hrip : base.is_rip = true := (is_rip_iff base).2 h16
        have hf := modrmByte_fields mm 0 (.ind .none .none) Reg.rbp rfl
        have e5 : BitVec.extractLsb' 0 3 (effBase (.ind .none .none) Reg.rbp) = 5#3 := by decide
        have sx : ∀ d : BitVec 8, (d.signExtend 32).signExtend 64 = d.signExtend 64 := by
          decide +kernel
        have z : (0#32).signExtend 64 = 0#64 := by decide
        cases disp <;>
          simp only [tailItems, hrip, Rm.rip_ind_from, Mode.disp, dispItems, Item.bytes, if_true,
            bytesOf_append, bytesOf_cons, bytesOf_nil, List.append_nil, List.cons_append, List.nil_append] <;>
          rw [modrm_shape_rip _ _ _ hf.1 (hf.2.2.trans e5) _ _ (imm32_le32 _ _), hf.2.1, hr, msb_lo] <;>
          simp only [dispVal, sx, BitVec.ofNat_eq_ofNat, z]
      · split at hRM
        case isFalse => cases hRM
        rename_i hlt
        cases hRM
        have hnr : base.is_rip = false := by
          rw [Reg.eq_of4 hlt]; exact of4_not_rip _
        simp only [rexBase, hnr, Bool.false_eq_true, if_false] at hb
        simp only [rexIdx] at hx
        by_cases h4 : (base.num &&& 7#8) = 4#8
        · have hf := modrmByte_fields mm (modOf disp) (.ind .none disp) base (mode_encode _ _)
          have h4' : base.num.extractLsb' 0 3 = 4#3 := (low3_eq base.num 4).1 h4
          have hs := sib_fields 0 4 base.num
          have hsib : sibItem 0#8 ⟨4#8⟩ base
              = .i8 (BitVec.setWidth 8 0#2 <<< 6 ||| (4#8 &&& 7#8) <<< 3 ||| (base.num &&& 7#8)) := rfl
          simp only [tailItems, hnr, h4, Bool.false_eq_true, if_false, if_true, BitVec.ofNat_eq_ofNat]
          rw [hsib]
          simp only [bytesOf_append, bytesOf_cons, bytesOf_nil, dispItems_bytes, Item.bytes,
            List.cons_append, List.nil_append, List.append_assoc]
          rw [modrm_shape_sib _ _ _ _ (by rw [hf.1]; exact mod_ne3 _) (by rw [hf.2.2]; exact h4')
            (by intro h; exact absurd (h.symm.trans (hs.2.2.trans h4')) (by decide))
            _ _ (by rw [hf.1]; exact dispOf_bytes ψ disp rest)]
          have hs1 := hs.2.1
          have hs2 := hs.2.2
          simp only [BitVec.ofNat_eq_ofNat] at hs1 hs2
          rw [hf.2.1, hr, msb_lo, hs1, hs2, hb, ← extract_setWidth, msb_lo, hx]
          rfl
        · have h4' : base.num.extractLsb' 0 3 ≠ 4#3 := fun h => h4 ((low3_eq base.num 4).2 h)
          simp only [tailItems, hnr, h4, Bool.false_eq_true, if_false, if_true, BitVec.ofNat_eq_ofNat]
          rw [← dispFix ψ disp ((base.num &&& 7#8) = 5#8)]
          have hd5 : base.num.extractLsb' 0 3 = 5#3 →
              modOf (if disp = .none ∧ (base.num &&& 7#8) = 5#8 then .d8 0#8 else disp) ≠ 0#2 := by
            intro h5
            have : (base.num &&& 7#8) = 5#8 := (low3_eq base.num 5).2 h5
            cases disp <;> simp [this, modOf]
          simp only [BitVec.ofNat_eq_ofNat]
          generalize (if disp = .none ∧ (base.num &&& 7#8) = 5#8 then Disp.d8 0#8 else disp) = disp' at *
          have hf := modrmByte_fields mm (modOf disp') (.ind .none disp') base (mode_encode _ _)
          simp only [scaleItems, bytesOf_append, bytesOf_cons, bytesOf_nil, dispItems_bytes, Item.bytes,
            List.cons_append, List.nil_append, List.append_assoc]
          rw [modrm_shape_base _ _ _ (by rw [hf.1]; exact mod_ne3 _) (by rw [hf.2.2]; exact h4')
            (by rw [hf.2.2, hf.1]; exact hd5)
            _ _ (by rw [hf.1]; exact dispOf_bytes ψ disp' rest)]
          rw [hf.2.1, hr, msb_lo, hf.2.2, effBase, hb, ← extract_setWidth, msb_lo]
    | s1 sc i =>
      simp only [rmRM] at hRM
      split at hRM
      case isFalse => cases hRM
      rename_i hc
      obtain ⟨hlt, hi, hsc⟩ := hc
      cases hRM
      have hnr : base.is_rip = false := by
        rw [Reg.eq_of4 hlt]; exact of4_not_rip _
      simp only [rexBase, hnr, Bool.false_eq_true, if_false] at hb
      simp only [rexIdx] at hx
      have hs := sib_fields (sc.setWidth 2) i.num base.num
      rw [← scale_of2 sc hsc] at hs
      have hsib : sibItem sc i base
          = .i8 (sc <<< 6 ||| (i.num &&& 7#8) <<< 3 ||| (base.num &&& 7#8)) := by
        rw [sibItem, if_pos ⟨hsc, hi⟩]; rfl
      have hi4 : i.num.setWidth 4 = 4#4 ↔ i.num = 4#8 := by
        have : ∀ n : BitVec 8, n < 16#8 → (n.setWidth 4 = 4#4 ↔ n = 4#8) := by decide +kernel
        exact this _ hi
      have key : ∀ disp' : Disp, (base.num.extractLsb' 0 3 = 5#3 → modOf disp' ≠ 0#2) →
          X86.modrm p (bytesOf ψ ([.i8 (modrmByte mm (.ind (.s1 sc i) disp') base), sibItem sc i base]
            ++ dispItems imm disp') ++ rest)
          = some (mmVal mm, .mem ⟨.gpr (base.num.setWidth 4),
              if i.num = 4#8 then none else some (i.num.setWidth 4, sc.setWidth 2), dispVal ψ disp'⟩, rest) := by
        intro disp' h5
        have hf := modrmByte_fields mm (modOf disp') (.ind (.s1 sc i) disp') base (mode_encode _ _)
        rw [hsib]
        simp only [bytesOf_append, bytesOf_cons, bytesOf_nil, dispItems_bytes, Item.bytes,
          List.cons_append, List.nil_append, List.append_assoc]
        rw [modrm_shape_sib _ _ _ _ (by rw [hf.1]; exact mod_ne3 _) (by rw [hf.2.2]; rfl)
            (by intro h; rw [hf.1]; exact h5 (hs.2.2.symm.trans h))
            _ _ (by rw [hf.1]; exact dispOf_bytes ψ disp' rest)]
        rw [hf.2.1, hr, msb_lo, hs.2.1, hs.2.2, hs.1, hb, ← extract_setWidth, msb_lo, hx,
          ← extract_setWidth, msb_lo]
        simp only [hi4]
      by_cases h4 : (base.num &&& 7#8) = 4#8
      · simp only [tailItems, hnr, h4, Bool.false_eq_true, if_false, if_true, BitVec.ofNat_eq_ofNat]
        apply key
        intro h5
        have := (low3_eq base.num 4).1 h4
        rw [this] at h5; exact absurd h5 (by decide)
      · simp only [tailItems, hnr, h4, Bool.false_eq_true, if_false, if_true, BitVec.ofNat_eq_ofNat]
        rw [← dispFix ψ disp ((base.num &&& 7#8) = 5#8)]
        have hd5 : base.num.extractLsb' 0 3 = 5#3 →
            modOf (if disp = .none ∧ (base.num &&& 7#8) = 5#8 then .d8 0#8 else disp) ≠ 0#2 := by
          intro h5
          have : (base.num &&& 7#8) = 5#8 := (low3_eq base.num 5).2 h5
          cases disp <;> simp [this, modOf]
        simp only [BitVec.ofNat_eq_ofNat]
        generalize (if disp = .none ∧ (base.num &&& 7#8) = 5#8 then Disp.d8 0#8 else disp) = disp' at *
        exact key disp' hd5

end Monoasm
