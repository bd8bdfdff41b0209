import Verif.Spec.Reduced
import Verif.Proofs.RexZero
import Verif.Proofs.WideIndex
import Verif.Proofs.Link
/-
  Registers outside the register file: the code generated is that of the register whose number is
  reduced modulo 16, perhaps with an empty REX prefix.
-/

set_option linter.unusedSimpArgs false

namespace Monoasm
open Spec

/-- The register of the reduced number; 16 is `rip`. -/
def Reg.low (r : Reg) : Reg := if r.num = 16 then r else ⟨r.num &&& 15⟩

theorem Reg.low_rip (r : Reg) : r.low.is_rip = r.is_rip := by
  obtain ⟨n⟩ := r
  revert n
  decide +kernel

theorem Reg.low_7 (r : Reg) : r.low.num &&& 7 = r.num &&& 7 := by
  obtain ⟨n⟩ := r
  revert n
  decide +kernel

theorem Reg.low_8 (r : Reg) : r.low.num &&& 8 = r.num &&& 8 := by
  obtain ⟨n⟩ := r
  revert n
  decide +kernel

theorem Reg.low_gt7 (r : Reg) (h : r.low.num > 7) : r.num > 7 := by
  obtain ⟨n⟩ := r
  revert n
  decide +kernel

theorem Reg.low_of_le7 (r : Reg) (h : ¬ r.num > 7) : r.low = r := by
  obtain ⟨n⟩ := r
  revert n
  decide +kernel

theorem Reg.and8_of_le7 (r : Reg) (h : ¬ r.num > 7) : r.num &&& 8 = 0 := by
  obtain ⟨n⟩ := r
  revert n
  decide +kernel

theorem Reg.low_small (r : Reg) (h : r.num < 16) : r.low = r := by
  obtain ⟨n⟩ := r
  revert n
  decide +kernel

theorem rexByte_low (w r b i) : rexByte w (Reg.low r) (Reg.low b) i = rexByte w r b i := by
  have h1 := Reg.low_8 r
  have h2 := Reg.low_8 b
  simp only [BitVec.ofNat_eq_ofNat] at h1 h2
  simp only [rexByte, BitVec.ofNat_eq_ofNat, h1, h2]

/-- `a` is `b`, perhaps with an empty REX prefix inserted before the opcode. -/
inductive Rex0 : List Item → List Item → Prop where
  | same (l) : Rex0 l l
  | ins (b t) (h : X86.isRex b = false ∧ X86.isLegacy b = false) : Rex0 (.i8 0x40 :: .i8 b :: t) (.i8 b :: t)
  | legacy (b) {l l'} (hb : X86.isLegacy b = true) (h : Rex0 l l') : Rex0 (.i8 b :: l) (.i8 b :: l')

theorem Rex0.append {a b} (h : Rex0 a b) (c) : Rex0 (a ++ c) (b ++ c) := by
  induction h with
  | same => exact .same _
  | ins b t h => exact .ins b (t ++ c) h
  | legacy b hb _ ih => exact .legacy b hb ih

theorem Rex0.fails {a b} (h : Rex0 a b) (e) : Item.fail e ∈ b ↔ Item.fail e ∈ a := by
  induction h with
  | same => exact Iff.rfl
  | ins b t h => simp
  | legacy b hb _ ih => simp [ih]

theorem rexItems_low (k r b i mode) :
    rexItems k r b i mode = rexItems k (Reg.low r) (Reg.low b) i mode
    ∨ (rexItems k r b i mode = [.i8 0x40] ∧ rexItems k (Reg.low r) (Reg.low b) i mode = []) := by
  cases k with
  | rexw => left; simp only [rexItems, rexByte_low]
  | none | byte =>
    simp only [rexItems, rexByte_low]
    by_cases h1 : r.low.num > 7
    · left; simp only [h1, Reg.low_gt7 r h1, decide_true, decide_false, Bool.true_or, Bool.or_true, Bool.or_false, Bool.false_or, if_true, if_false, Bool.false_eq_true]
    by_cases h2 : b.low.num > 7
    · left; simp only [h2, Reg.low_gt7 b h2, decide_true, decide_false, Bool.true_or, Bool.or_true, Bool.or_false, Bool.false_or, if_true, if_false, Bool.false_eq_true]
    by_cases h3 : i.num > 7
    · left; simp only [h3, decide_true, decide_false, Bool.true_or, Bool.or_true, Bool.or_false, Bool.false_or, if_true, if_false, Bool.false_eq_true]
    have e : rexByte 0x40 r b i = 0x40 := by
      rw [← rexByte_low]
      have a1 := Reg.and8_of_le7 _ h1
      have a2 := Reg.and8_of_le7 _ h2
      have a3 := Reg.and8_of_le7 _ h3
      simp only [BitVec.ofNat_eq_ofNat] at a1 a2 a3
      simp only [rexByte, BitVec.ofNat_eq_ofNat, a1, a2, a3]
      decide
    by_cases g1 : r.num > 7
    · simp only [g1, h1, h2, h3, e, decide_true, decide_false, Bool.true_or, Bool.or_true, Bool.or_false, Bool.false_or, if_true, if_false, Bool.false_eq_true, true_and]
      first | exact .inr trivial | (split <;> simp)
    by_cases g2 : b.num > 7
    · simp only [g1, g2, h1, h2, h3, e, decide_true, decide_false, Bool.true_or, Bool.or_true, Bool.or_false, Bool.false_or, if_true, if_false, Bool.false_eq_true, true_and]
      first | exact .inr trivial | (split <;> simp)
    rw [Reg.low_of_le7 r g1, Reg.low_of_le7 b g2]
    exact .inl rfl

def ModRM.low : ModRM → ModRM
  | .reg r => .reg r.low
  | .digit d => .digit d

def Scale.low : Scale → Scale
  | .none => .none
  | .s1 sc x => .s1 sc x.low

def Mode.low : Mode → Mode
  | .reg => .reg
  | .ind s d => .ind s.low d

def Rm.low (rm : Rm) : Rm := ⟨rm.base.low, rm.mode.low⟩

theorem modrmByte_low (mm mode base) : modrmByte (ModRM.low mm) mode (Reg.low base) = modrmByte mm mode base := by
  have h1 := Reg.low_7 base
  simp only [BitVec.ofNat_eq_ofNat] at h1
  cases mm with
  | digit d =>
    cases mode with
    | reg => simp only [modrmByte, ModRM.low, BitVec.ofNat_eq_ofNat, h1]
    | ind s d => cases s <;> simp only [modrmByte, ModRM.low, BitVec.ofNat_eq_ofNat, h1]
  | reg r =>
    have h2 := Reg.low_7 r
    simp only [BitVec.ofNat_eq_ofNat] at h2
    cases mode with
    | reg => simp only [modrmByte, ModRM.low, BitVec.ofNat_eq_ofNat, h1, h2]
    | ind s d => cases s <;> simp only [modrmByte, ModRM.low, BitVec.ofNat_eq_ofNat, h1, h2]

theorem modrmReg_low (mm) : modrmReg (ModRM.low mm) = (modrmReg mm).low := by
  cases mm with
  | digit =>
    show (⟨0⟩ : Reg) = Reg.low ⟨0⟩
    decide
  | reg => rfl

theorem sibItem_low (s i b) : sibItem s i (Reg.low b) = sibItem s i b := by
  have h1 := Reg.low_7 b
  simp only [BitVec.ofNat_eq_ofNat] at h1
  simp only [sibItem, BitVec.ofNat_eq_ofNat, h1]

theorem rex0_of {k r b i mode b0 t} (hb : X86.isRex b0 = false ∧ X86.isLegacy b0 = false) :
    Rex0 (rexItems k r b i mode ++ .i8 b0 :: t) (rexItems k (Reg.low r) (Reg.low b) i mode ++ .i8 b0 :: t) := by
  rcases rexItems_low k r b i mode with h | ⟨h, h'⟩
  · rw [h]; exact .same _
  · rw [h, h']; exact .ins _ _ hb

theorem enc_low {b0 : Byte} {ops k mm rm imm} (hb : X86.isRex b0 = false ∧ X86.isLegacy b0 = false)
    (hf : NoFail (encItems (b0 :: ops) k mm rm imm)) :
    Rex0 (encItems (b0 :: ops) k mm rm imm) (encItems (b0 :: ops) k (ModRM.low mm) (Rm.low rm) imm) := by
  have hx : ∀ sc x d, rm.mode = .ind (.s1 sc x) d → x.low = x := fun sc x d h => by
    apply Reg.low_small
    by_cases h' : 16 ≤ x.num
    · exact absurd hf (encItems_wide h h')
    · simpa [BitVec.not_le] using h'
  have hm : rm.mode.low = rm.mode := by
    obtain ⟨base, mode⟩ := rm
    cases mode with
    | reg => rfl
    | ind s d =>
      cases s with
      | none => rfl
      | s1 sc x => simp only [Mode.low, Scale.low, hx sc x d rfl]
  have hl : Rm.low rm = ⟨rm.base.low, rm.mode⟩ := by rw [Rm.low, hm]
  rw [hl]
  obtain ⟨base, mode⟩ := rm
  simp only [encItems, modrmReg_low, Reg.low_rip, modrmByte_low, sibItem_low, Reg.low_7] at hf ⊢
  have h7 := Reg.low_7 base
  simp only [BitVec.ofNat_eq_ofNat] at h7
  have l0 : Reg.low Reg.rbp = Reg.rbp := by decide
  split
  · exact .same _
  split
  · cases mode with
    | reg => exact .same _
    | ind s d =>
      have key : ∀ rm : Rm, rm.base = Reg.rbp →
          Rex0 (rexItems k (modrmReg mm) rm.base ⟨0⟩ rm.mode ++ (b0 :: ops).map .i8 ++ [.i8 (modrmByte mm (.ind .none .none) rm.base)]
              ++ dispItems imm rm.mode.disp ++ immItems imm)
            (rexItems k (modrmReg mm).low rm.base ⟨0⟩ rm.mode ++ (b0 :: ops).map .i8
              ++ [.i8 (modrmByte (ModRM.low mm) (.ind .none .none) rm.base)] ++ dispItems imm rm.mode.disp ++ immItems imm) := by
        rintro ⟨_, m⟩ rfl
        have e := modrmByte_low mm (.ind .none .none) Reg.rbp
        rw [l0] at e
        simp only [e, List.map_cons, List.append_assoc, List.cons_append]
        have := rex0_of (k := k) (r := modrmReg mm) (b := Reg.rbp) (i := ⟨0⟩) (mode := m) (b0 := b0)
          (t := ops.map .i8 ++ (.i8 (modrmByte mm (.ind .none .none) Reg.rbp) :: ([] ++ (dispItems imm m.disp ++ immItems imm)))) hb
        rw [l0] at this
        exact this
      cases s with
      | s1 => exact .same _
      | none => cases d <;> exact key _ rfl
  · cases mode with
    | reg =>
      simp only [List.map_cons, List.append_assoc, List.cons_append]
      exact rex0_of hb
    | ind s d =>
      simp only [BitVec.ofNat_eq_ofNat, h7, List.map_cons, List.append_assoc, List.cons_append]
      cases s with
      | none =>
        dsimp only
        split
        · exact rex0_of hb
        · exact rex0_of hb
      | s1 sc x =>
        dsimp only [scaleItems]
        rw [sibItem_low]
        split
        · exact rex0_of hb
        · exact rex0_of hb

theorem o_low {k op r t} (hb : X86.isRex (op ||| (r.num &&& 7)) = false ∧ X86.isLegacy (op ||| (r.num &&& 7)) = false) :
    Rex0 (It.o k op r ++ t) (It.o k op (Reg.low r) ++ t) := by
  have h7 := Reg.low_7 r
  simp only [BitVec.ofNat_eq_ofNat] at h7
  simp only [It.o, Reg.low_rip, BitVec.ofNat_eq_ofNat, h7]
  split
  · exact .same _
  · simp only [List.append_assoc, List.cons_append]
    exact rex0_of (r := ⟨0⟩) hb

/-! ### Statements -/

theorem low8 (e : Val) : (if e.setWidth 8 = 16#8 then (⟨16#8⟩ : Reg) else ⟨(e.setWidth 4).setWidth 8⟩) = Reg.low ⟨e.setWidth 8⟩ := by
  have h : ∀ n : BitVec 8, (if n = 16#8 then (⟨16#8⟩ : Reg) else ⟨(n.setWidth 4).setWidth 8⟩) = Reg.low ⟨n⟩ := by decide +kernel
  have e1 : (e.setWidth 8).setWidth 4 = e.setWidth 4 := by
    apply BitVec.eq_of_toNat_eq
    simp only [BitVec.toNat_setWidth]
    omega
  have := h (e.setWidth 8)
  rwa [e1] at this

theorem toReg_val (r : Register Val) : r.toReg = ⟨(regVal r).setWidth 8⟩ := by
  cases r <;> simp [Register.toReg, Reg.from, regVal]

theorem toReg_xval (r : XmmReg Val) : r.toReg = ⟨(xmmVal r).setWidth 8⟩ := by
  cases r <;> simp [XmmReg.toReg, Reg.from, xmmVal]

theorem toReg_reduced (r : Register Val) : (reduced r).toReg = r.toReg.low := by
  rw [toReg_val r, ← low8, reduced]
  split <;> simp [Register.toReg, Reg.from]

theorem toReg_reducedXmm (r : XmmReg Val) : (reducedXmm r).toReg = r.toReg.low := by
  rw [toReg_xval r, ← low8, reducedXmm]
  split <;> simp [XmmReg.toReg, Reg.from]

theorem notAcc {r : Register Val} (h : NotAcc r) : r.toReg.low.is_rax = r.toReg.is_rax := by
  rw [toReg_val]
  simp only [NotAcc] at h
  have e1 : ((regVal r).setWidth 8).setWidth 4 = (regVal r).setWidth 4 := by
    apply BitVec.eq_of_toNat_eq
    simp only [BitVec.toNat_setWidth]
    omega
  rw [← e1] at h
  revert h
  generalize (regVal r).setWidth 8 = n
  revert n
  decide +kernel

theorem low_rm_reg (r) : Rm.low (Rm.reg r) = Rm.reg r.low := rfl

theorem low_addr (a : IndAddr Val Nat) : (a.mapRegs reduced).toRm = a.toRm.low := by
  obtain ⟨b, sc, d⟩ := a
  cases sc <;> simp [IndAddr.mapRegs, IndAddr.toRm, toReg_reduced, MScale.toScale, Rm.low, Rm.ind, Mode.low, Scale.low]

theorem low_rm (o : RmOperand Val Nat) : (o.mapRegs reduced).toRm = o.toRm.low := by
  cases o <;> simp [RmOperand.mapRegs, RmOperand.toRm, toReg_reduced, low_addr, low_rm_reg]

theorem low_xm (o : XmOperand Val Nat) : (o.mapRegs reduced reducedXmm).toRm = o.toRm.low := by
  cases o <;> simp [XmOperand.mapRegs, XmOperand.toRm, toReg_reducedXmm, low_addr, low_rm_reg]

/-- Items without a panic stand for those of the reduced registers. -/
def L (a b : List Item) : Prop := NoFail a → Rex0 a b

theorem L.same (a) : L a a := fun _ => .same _
theorem L.fail (e t b) : L (.fail e :: t) b := fun h => absurd (h e) (by simp)
theorem L.legacy {b a a'} (hb : X86.isLegacy b = true) (h : L a a') : L (.i8 b :: a) (.i8 b :: a') :=
  fun hf => .legacy b hb (h (noFail_tail hf))
theorem L.append {a a'} (h : L a a') (t) : L (a ++ t) (a' ++ t) := fun hf => (h (noFail_left hf)).append t
theorem L.ite {c : Prop} [Decidable c] {a a' b b'} (h1 : L a a') (h2 : L b b') : L (if c then a else b) (if c then a' else b') := by
  split <;> assumption

/-- First bytes of opcodes. -/
abbrev Op0 (b : Byte) : Prop := X86.isRex b = false ∧ X86.isLegacy b = false

theorem L.enc {b0 : Byte} {ops k mm mm' rm rm' imm} (hb : Op0 b0) (h1 : mm' = ModRM.low mm) (h2 : rm' = Rm.low rm) :
    L (encItems (b0 :: ops) k mm rm imm) (encItems (b0 :: ops) k mm' rm' imm) := by
  subst h1 h2
  exact fun hf => enc_low hb hf

theorem L.mm0 : ModRM.reg ⟨0⟩ = ModRM.low (.reg ⟨0⟩) := by decide

section
variable {rm rm' : Rm} {r r' : Reg}

theorem L.rexw_mr {b ops} (hb : Op0 b) (h1 : r' = r.low) (h2 : rm' = rm.low) : L (It.rexw_mr (b :: ops) r rm) (It.rexw_mr (b :: ops) r' rm') :=
  .enc hb (by rw [h1]; rfl) h2
theorem L.mr {b ops} (hb : Op0 b) (h1 : r' = r.low) (h2 : rm' = rm.low) : L (It.mr (b :: ops) r rm) (It.mr (b :: ops) r' rm') :=
  .enc hb (by rw [h1]; rfl) h2
theorem L.mr_byte {b ops} (hb : Op0 b) (h1 : r' = r.low) (h2 : rm' = rm.low) : L (It.mr_byte (b :: ops) r rm) (It.mr_byte (b :: ops) r' rm') :=
  .enc hb (by rw [h1]; rfl) h2
theorem L.mi {b i} (hb : Op0 b) (h2 : rm' = rm.low) : L (It.mi b rm i) (It.mi b rm' i) := .enc hb mm0 h2
theorem L.rexw_mi {b i} (hb : Op0 b) (h2 : rm' = rm.low) : L (It.rexw_mi b rm i) (It.rexw_mi b rm' i) := .enc hb mm0 h2
theorem L.mi_byte {b i} (hb : Op0 b) (h2 : rm' = rm.low) : L (It.mi_byte b rm i) (It.mi_byte b rm' i) := .enc hb mm0 h2
theorem L.m_byte {b ops} (hb : Op0 b) (h2 : rm' = rm.low) : L (It.m_byte (b :: ops) rm) (It.m_byte (b :: ops) rm') := .enc hb mm0 h2
theorem L.digit {b ops d} (hb : Op0 b) (h2 : rm' = rm.low) : L (It.digit (b :: ops) rm d) (It.digit (b :: ops) rm' d) := .enc hb rfl h2
theorem L.digit_imm {b ops d i} (hb : Op0 b) (h2 : rm' = rm.low) : L (It.digit_imm (b :: ops) rm d i) (It.digit_imm (b :: ops) rm' d i) :=
  .enc hb rfl h2
theorem L.rexw_digit {b ops d i} (hb : Op0 b) (h2 : rm' = rm.low) : L (It.rexw_digit (b :: ops) rm d i) (It.rexw_digit (b :: ops) rm' d i) :=
  .enc hb rfl h2
theorem L.digit_imm_byte {b ops al d i} (hb : Op0 b) (h2 : rm' = rm.low) (h3 : rm.low.is_rax = rm.is_rax) :
    L (It.digit_imm_byte (b :: ops) al rm d i) (It.digit_imm_byte (b :: ops) al rm' d i) := by
  subst h2
  have e : rm.low.is_reg = rm.is_reg := by
    obtain ⟨x, m⟩ := rm
    cases m <;> rfl
  simp only [It.digit_imm_byte, h3, e]
  exact .ite (.same _) (.ite (.enc hb rfl rfl) (.enc hb rfl rfl))
theorem L.o {k op t} (hb : ∀ n : BitVec 8, Op0 (op ||| (n &&& 7))) (h1 : r' = r.low) : L (It.o k op r ++ t) (It.o k op r' ++ t) := by
  subst h1
  exact fun _ => o_low (hb _)
theorem L.o' {k op} (hb : ∀ n : BitVec 8, Op0 (op ||| (n &&& 7))) (h1 : r' = r.low) : L (It.o k op r) (It.o k op r') := by
  have := L.o (k := k) (t := []) hb h1
  simpa using this

end

/-- The same for results of the macro. -/
def LE (a b : Except CompileError (List Item)) : Prop := ∀ its, a = .ok its → NoFail its → ∃ its', b = .ok its' ∧ Rex0 its its'

theorem LE.error (e b) : LE (.error e) b := fun _ h => by cases h
theorem LE.ok {a b} (h : L a b) : LE (.ok a) (.ok b) := by
  rintro _ ⟨⟩ hf
  exact ⟨b, rfl, h hf⟩

macro "lsolve" : tactic => `(tactic| (
  repeat' first
  | with_reducible exact LE.error _ _
  | with_reducible apply LE.ok
  | with_reducible exact L.same _
  | with_reducible exact L.fail _ _ _
  | with_reducible apply L.rexw_mr (by first | assumption | decide +kernel)
  | with_reducible apply L.mr (by first | assumption | decide +kernel)
  | with_reducible apply L.mr_byte (by first | assumption | decide +kernel)
  | with_reducible apply L.mi (by first | assumption | decide +kernel)
  | with_reducible apply L.rexw_mi (by first | assumption | decide +kernel)
  | with_reducible apply L.mi_byte (by first | assumption | decide +kernel)
  | with_reducible apply L.m_byte (by first | assumption | decide +kernel)
  | with_reducible apply L.digit (by first | assumption | decide +kernel)
  | with_reducible apply L.digit_imm (by first | assumption | decide +kernel)
  | with_reducible apply L.rexw_digit (by first | assumption | decide +kernel)
  | with_reducible apply L.o (by decide +kernel)
  | with_reducible apply L.o' (by decide +kernel)
  | with_reducible apply L.legacy (by decide +kernel)
  | with_reducible rfl
  | with_reducible exact toReg_reduced _
  | with_reducible exact toReg_reducedXmm _
  | with_reducible exact low_rm _
  | with_reducible exact low_xm _
  | with_reducible exact low_addr _
  | (simp only [low_rm_reg, toReg_reduced, toReg_reducedXmm]; done)
  | with_reducible apply L.append
  | with_reducible apply L.ite
  | split))

/-- The registers for which there is another encoding if they are the accumulator. -/
def accRegs : Inst Val Nat → List (Register Val)
  | .Testq (.reg r) (.imm _) | .Testb (.reg r) (.imm _) => [r]
  | .Add .BYTE (.reg r) (.imm _) | .Or .BYTE (.reg r) (.imm _) | .Adc .BYTE (.reg r) (.imm _) | .Sbb .BYTE (.reg r) (.imm _) | .And .BYTE (.reg r) (.imm _) | .Sub .BYTE (.reg r) (.imm _) | .Xor .BYTE (.reg r) (.imm _) | .Cmp .BYTE (.reg r) (.imm _) => [r]
  | .Xchg .QWORD (.reg p) (.reg q) => [p, q]
  | _ => []

theorem binary_low {sz o d} {a : RmOperand Val Nat} {b : RmiOperand Val Nat} (ho : o ∈ [0x01#8, 0x09, 0x11, 0x19, 0x21, 0x29, 0x31, 0x39])
    (ha : ∀ r i, sz = .BYTE → a = .reg r → b = .imm i → NotAcc r) :
    LE (It.binary_op sz o d a b) (It.binary_op sz o d (a.mapRegs reduced) (b.mapRegs reduced)) := by
  have h1 : Op0 o ∧ Op0 (o + 2) ∧ Op0 (o - 1) ∧ Op0 (o - 1 + 2) := by
    revert o
    decide
  obtain ⟨h1, h2, h3, h4⟩ := h1
  cases sz <;> cases a <;> cases b <;>
    simp only [It.binary_op, It.binary_opq, It.binary_opl, It.binary_opw, It.binary_opb, RmOperand.mapRegs, RmiOperand.mapRegs, RmOperand.toRm]
  all_goals lsolve
  · rename_i r i _ _ _
    refine L.digit_imm_byte (by decide) (by rw [low_rm_reg, toReg_reduced]) ?_
    exact notAcc (ha r _ rfl rfl rfl)
  · exact L.digit_imm_byte (by decide) (low_addr _) (by simp [IndAddr.toRm, Rm.ind, Rm.is_rax, Rm.low, Mode.low])

theorem shift_low {sz d} {a : RmOperand Val Nat} {b : RiOperand Val} :
    LE (It.shift_op sz d a b) (It.shift_op sz d (a.mapRegs reduced) (b.mapRegs reduced)) := by
  have hc : ∀ {r : Register Val} {x y : List Item}, L x y →
      L (if r.toReg.is_cl = true then x else [.fail .regShouldBeCl]) (if (reduced r).toReg.is_cl = true then y else [.fail .regShouldBeCl]) := by
    intro r x y h
    by_cases h1 : r.toReg.is_cl = true
    · have h2 : (reduced r).toReg.is_cl = true := by
        rw [toReg_reduced]
        revert h1
        generalize r.toReg = q
        obtain ⟨n⟩ := q
        revert n
        decide +kernel
      rwa [if_pos h1, if_pos h2]
    · rw [if_neg h1]
      exact .fail _ _ _
  cases sz <;> cases b <;> simp only [It.shift_op, RiOperand.mapRegs]
  all_goals first | (lsolve; done) | (apply LE.ok; apply hc; lsolve; done)

theorem from0 (r : Reg) : (r = Reg.from 0) ↔ r.is_rax = true := decide_eq_true_iff.symm

theorem items_low {i : Inst Val Nat} (hr : ∀ r ∈ accRegs i, NotAcc r) : LE (items i) (items (i.mapRegs reduced reducedXmm)) := by
  cases i
  case Movq a b =>
    cases a <;> cases b <;> simp only [items, Inst.mapRegs, MovOperand.mapRegs, It.movq]
    all_goals try (rename_i z; cases z <;> simp only [It.movq])
    all_goals lsolve
  case Movl a b | Movw a b | Movb a b =>
    cases a <;> cases b <;>
      simp only [items, Inst.mapRegs, RmOperand.mapRegs, RmiOperand.mapRegs, It.movl, It.movw, It.movb, RmOperand.toRm]
    all_goals lsolve
  case Add | Sub | Adc | Sbb | And | Or | Xor | Cmp =>
    exact binary_low (by decide) fun r i h1 h2 h3 => hr r (by subst h1 h2 h3; simp [accRegs])
  case Shl | Shr | Sal | Sar | Rol | Ror => exact shift_low
  case Xchg sz a b =>
    cases sz <;> cases a <;> cases b <;> simp only [items, Inst.mapRegs, RmOperand.mapRegs]
    all_goals try (lsolve; done)
    rename_i p q
    simp only [from0, toReg_reduced, notAcc (hr p (by simp [accRegs])), notAcc (hr q (by simp [accRegs]))]
    lsolve
  case Testq a b | Testb a b =>
    cases a <;> cases b <;> simp only [items, Inst.mapRegs, RmOperand.mapRegs, RiOperand.mapRegs, RmOperand.toRm]
    all_goals try (lsolve; done)
    rename_i p q
    simp only [toReg_reduced, notAcc (hr p (by simp [accRegs]))]
    lsolve
  case Imul a b =>
    cases a <;> cases b <;> simp only [items, Inst.mapRegs, RmiOperand.mapRegs, RmOperand.mapRegs] <;> lsolve
  case Lea a b =>
    cases a <;> cases b <;> simp only [items, Inst.mapRegs, RmOperand.mapRegs] <;> lsolve
  case Movsd a b =>
    cases a <;> cases b <;> simp only [items, Inst.mapRegs, XmOperand.mapRegs, It.sd, XmOperand.toRm] <;> lsolve
  case Pushq a | Popq a =>
    cases a <;> simp only [items, Inst.mapRegs, RmOperand.mapRegs, It.push_pop] <;> lsolve
  case Jmp d | Call d =>
    cases d <;> simp only [items, Inst.mapRegs, Dest.mapRegs] <;> lsolve
  case Cmovcc sz _ _ _ | Lzcnt sz _ _ | Tzcnt sz _ _ | Popcnt sz _ _ =>
    cases sz <;> simp only [items, Inst.mapRegs, It.count_op] <;> lsolve
  all_goals simp only [items, Inst.mapRegs, It.sd]
  all_goals lsolve

/-! ### Decoding -/

theorem prefixes_rex0 {ψ a b} (h : Rex0 a b) : ∀ {p0 p op bs rest}, p0.rex = none →
    X86.prefixes p0 (bytesOf ψ b ++ rest) = some (p, op, bs) →
    ∃ q, X86.prefixes p0 (bytesOf ψ a ++ rest) = some (q, op, bs) ∧ (q = p ∨ (p.rex = none ∧ q = p.zero)) := by
  induction h with
  | same l => exact fun _ h => ⟨_, h, .inl rfl⟩
  | ins b t hb =>
    intro p0 p op bs rest hp h
    have leg : ¬ b = 0x66#8 ∧ ¬ b = 0xf2#8 ∧ ¬ b = 0xf3#8 := by
      have := hb.2
      simp only [X86.isLegacy, Bool.or_eq_false_iff, beq_eq_false_iff_ne] at this
      exact ⟨this.1.1, this.1.2, this.2⟩
    simp only [bytesOf_cons, Item.bytes, List.cons_append, List.nil_append, X86.prefixes, leg.1, leg.2.1, leg.2.2, hb.1, hb.2, if_false,
      Bool.false_eq_true, Option.some.injEq, Prod.mk.injEq, Bool.or_self] at h ⊢
    obtain ⟨rfl, rfl, rfl⟩ := h
    refine ⟨_, ?_, .inr ⟨hp, rfl⟩⟩
    simp [X86.isRex, X86.Pfx.zero]
  | legacy b hb _ ih =>
    intro p0 p op bs rest hp h
    have leg : b = 0x66#8 ∨ b = 0xf2#8 ∨ b = 0xf3#8 := by
      simp only [X86.isLegacy, Bool.or_eq_true, beq_iff_eq] at hb
      exact or_assoc.1 hb
    rcases leg with rfl | rfl | rfl
    all_goals
      simp only [bytesOf_cons, Item.bytes, List.cons_append, List.nil_append, X86.prefixes, if_true, BitVec.reduceEq, if_false] at h ⊢
      exact ih (by exact hp) h

theorem Dec.rex0 {ψ a b I} (h : Rex0 a b) (hd : Dec ψ b I) (hl : ∀ o ∈ operands I, X86.Opd.low o) : Dec ψ a I := by
  refine ⟨fun rest => ?_, fun e he => hd.noFail e ((h.fails e).2 he)⟩
  have := hd.dec rest
  simp only [X86.decode] at this ⊢
  cases hp : X86.prefixes {} (bytesOf ψ b ++ rest) with
  | none => rw [hp] at this; cases this
  | some t =>
    obtain ⟨p, op, bs⟩ := t
    rw [hp] at this
    obtain ⟨q, hq, rfl | ⟨h1, rfl⟩⟩ := prefixes_rex0 h rfl hp
    · rw [hq]; exact this
    · rw [hq]; exact X86.dispatch_zero h1 op bs I rest this hl

/-! ### No statement denotes a high byte register -/

theorem rm_low {rel o x} (h : rm rel o = some x) : X86.Opd.low x := by
  cases o with
  | reg r => simp only [rm] at h; cases hg : gpr r <;> simp [hg] at h; subst h; trivial
  | ind a => simp only [rm] at h; cases hg : addr rel a <;> simp [hg] at h; subst h; trivial

theorem rmi_low {rel o x} (h : rmi rel o = some x) : X86.Opd.low x := by
  cases o with
  | imm i => simp only [rmi] at h; cases h; trivial
  | reg r => simp only [rmi] at h; cases hg : gpr r <;> simp [hg] at h; subst h; trivial
  | ind a => simp only [rmi] at h; cases hg : addr rel a <;> simp [hg] at h; subst h; trivial

theorem ri_low {o x} (h : ri o = some x) : X86.Opd.low x := by
  cases o with
  | imm i => simp only [ri] at h; cases h; trivial
  | reg r => simp only [ri] at h; cases hg : gpr r <;> simp [hg] at h; subst h; trivial

theorem xm_low {rel o x} (h : xm rel o = some x) : X86.Opd.low x := by
  cases o with
  | xmm r => simp only [xm] at h; cases hg : Spec.xmm r <;> simp [hg] at h; subst h; trivial
  | ind a => simp only [xm] at h; cases hg : addr rel a <;> simp [hg] at h; subst h; trivial

/-- An instruction without high byte registers, if any. -/
def LowI (x : Option X86.Instr) : Prop := ∀ I, x = some I → ∀ o ∈ operands I, X86.Opd.low o

theorem LowI.none : LowI none := fun _ h => by cases h
theorem LowI.bind {α} {x : Option α} {f : α → Option X86.Instr} (h : ∀ a, x = some a → LowI (f a)) : LowI (x >>= f) := by
  cases x with
  | none => exact .none
  | some a => exact h a rfl
theorem LowI.ite {c : Prop} [Decidable c] {a b} (h1 : LowI a) (h2 : LowI b) : LowI (if c then a else b) := by split <;> assumption
theorem LowI.some {I} (h : ∀ o ∈ operands I, X86.Opd.low o) : LowI (some I) := by
  rintro _ ⟨⟩
  exact h
theorem LowI.pure {I} (h : ∀ o ∈ operands I, X86.Opd.low o) : LowI (pure I) := .some h

macro "lowo" : tactic => `(tactic| first
  | exact trivial
  | exact rm_low (by assumption)
  | exact rmi_low (by assumption)
  | exact ri_low (by assumption)
  | exact xm_low (by assumption))

macro "lowi" : tactic => `(tactic| (
  repeat' first
  | with_reducible exact LowI.none
  | with_reducible apply LowI.ite
  | (with_reducible apply LowI.bind; intro x hx)
  | with_reducible apply LowI.some
  | with_reducible apply LowI.pure
  | (simp only [operands, List.mem_cons, List.not_mem_nil, or_false, forall_eq_or_imp, forall_eq, false_imp_iff, implies_true]; done)
  | (simp only [operands, List.mem_cons, List.not_mem_nil, or_false, forall_eq_or_imp, forall_eq]; (repeat' apply And.intro) <;> lowo)
  | split))

theorem meaning_low (rel) (i : Inst Val Nat) : LowI (meaning rel i) := by
  cases i
  case Movq a b => cases a <;> cases b <;> simp only [meaning, Spec.movq] <;> lowi
  all_goals simp only [meaning, mov, ext, alu, xchg, un, shift, sse]
  all_goals lowi

/-! ### Other encodings of the accumulator -/

/-- Statements with a number of the accumulator for which the short encoding is not chosen. -/
inductive AccForm : Inst Val Nat → Prop where
  | testq {r} (h : ¬ NotAcc r) (v) : AccForm (.Testq (.reg r) (.imm v))
  | testb {r} (h : ¬ NotAcc r) (v) : AccForm (.Testb (.reg r) (.imm v))
  | xchgl {p r} (h : ¬ NotAcc r) (h0 : (regVal p).setWidth 8 = 0#8) : AccForm (.Xchg .QWORD (.reg p) (.reg r))
  | xchgr {p r} (h : ¬ NotAcc r) (h0 : (regVal p).setWidth 8 = 0#8) : AccForm (.Xchg .QWORD (.reg r) (.reg p))
  | add {r} (h : ¬ NotAcc r) (v) : AccForm (.Add .BYTE (.reg r) (.imm v))
  | or' {r} (h : ¬ NotAcc r) (v) : AccForm (.Or .BYTE (.reg r) (.imm v))
  | adc {r} (h : ¬ NotAcc r) (v) : AccForm (.Adc .BYTE (.reg r) (.imm v))
  | sbb {r} (h : ¬ NotAcc r) (v) : AccForm (.Sbb .BYTE (.reg r) (.imm v))
  | and' {r} (h : ¬ NotAcc r) (v) : AccForm (.And .BYTE (.reg r) (.imm v))
  | sub {r} (h : ¬ NotAcc r) (v) : AccForm (.Sub .BYTE (.reg r) (.imm v))
  | xor {r} (h : ¬ NotAcc r) (v) : AccForm (.Xor .BYTE (.reg r) (.imm v))
  | cmp {r} (h : ¬ NotAcc r) (v) : AccForm (.Cmp .BYTE (.reg r) (.imm v))

theorem accForm_of {i} (hx : PlainXchg i)
    (h : ¬ ∀ r ∈ accRegs i, NotAcc r) : AccForm i := by
  obtain ⟨r, h⟩ := Classical.not_forall.1 h
  obtain ⟨hm, hn⟩ := Classical.not_imp.1 h
  clear h
  unfold accRegs at hm
  split at hm
  case h_11 =>
    rename_i p q
    have hp := hx p q rfl
    have h0 : ∀ {r : Register Val}, (regVal r).setWidth 8 = 0#8 → NotAcc r := fun h _ => by rw [h]; decide
    simp only [List.mem_cons, List.not_mem_nil, or_false] at hm
    by_cases h1 : (regVal p).setWidth 8 = 0#8
    · rcases hm with rfl | rfl
      · exact absurd (h0 h1) hn
      · exact .xchgl hn h1
    · by_cases h2 : (regVal q).setWidth 8 = 0#8
      · rcases hm with rfl | rfl
        · exact .xchgr hn h2
        · exact absurd (h0 h2) hn
      · obtain ⟨h3, h4⟩ := hp h1 h2
        rcases hm with rfl | rfl
        · exact absurd h3 hn
        · exact absurd h4 hn
  case h_12 => cases hm
  all_goals
    cases List.mem_singleton.1 hm
    constructor
    exact hn

theorem acc_low {r : Register Val} (h : ¬ NotAcc r) : r.toReg.low = ⟨0⟩ ∧ r.toReg.is_rax = false ∧ reduced r = .reg 0 := by
  have e1 : ((regVal r).setWidth 8).setWidth 4 = (regVal r).setWidth 4 := by
    apply BitVec.eq_of_toNat_eq
    simp only [BitVec.toNat_setWidth]
    omega
  rw [toReg_val]
  simp only [NotAcc, reduced] at h ⊢
  rw [← e1] at h ⊢
  revert h
  generalize (regVal r).setWidth 8 = n
  intro h
  have key : ∀ n : BitVec 8, ¬ (n.setWidth 4 = 0#4 → n < 32#8) → Reg.low ⟨n⟩ = ⟨0⟩ ∧ Reg.is_rax ⟨n⟩ = false ∧ n ≠ 16#8 ∧ n.setWidth 4 = 0#4 := by
    decide +kernel
  obtain ⟨h1, h2, h3, h4⟩ := key n h
  exact ⟨h1, h2, by rw [if_neg h3, h4]; rfl⟩

theorem alu_acc {op r v its ψ} (h : ¬ NotAcc r)
    (hi : It.binary_op .BYTE (aluMr op) (aluDigit op) (.reg r : RmOperand Val Nat) (.imm v) = .ok its) (hN : NoFail its) :
    ∃ its', Rex0 its its' ∧ Dec ψ its' (.alu op .b (.gpr 0) (.imm v)) := by
  obtain ⟨h1, h2, -⟩ := acc_low h
  simp only [It.binary_op, It.binary_opb, Except.ok.injEq] at hi
  cases h8 : i8TryFrom v with
  | none => rw [h8] at hi; subst hi; exact absurd (hN .immOutOfRange) (by simp)
  | some w =>
    have e1 : (Rm.reg r.toReg).is_rax = false := by simp [Rm.is_rax, Rm.reg, h2]
    have e2 : (Rm.reg r.toReg).is_reg = true := rfl
    simp only [h8, RmOperand.toRm, It.digit_imm_byte, e1, e2, if_true, if_false, Bool.false_eq_true] at hi
    subst hi
    refine ⟨_, L.enc (by decide) rfl rfl hN, ?_⟩
    rw [low_rm_reg, h1]
    exact alu_i_b_reg _ h8 (reg_rm ψ (r := ⟨0⟩) (by decide))

theorem nop_rexw {ψ} : Dec ψ (It.o .rexw 0x90 ⟨0⟩) .nop := by
  have e : It.o .rexw 0x90 ⟨0⟩ = [.i8 0x48, .i8 0x90] := by decide
  rw [e]
  refine ⟨fun rest => ?_, by simp [NoFail]⟩
  rfl

theorem xchg_acc {p r : Register Val} (h : ¬ NotAcc r) (h0 : (regVal p).setWidth 8 = 0#8) :
    p.toReg = Reg.from 0 ∧ ¬ r.toReg = Reg.from 0 ∧ reduced p = .reg 0 ∧ Rex0 (It.o .rexw 0x90 r.toReg) (It.o .rexw 0x90 ⟨0⟩) := by
  obtain ⟨h1, h2, -⟩ := acc_low h
  refine ⟨by rw [toReg_val, h0]; rfl, fun e => ?_, ?_, ?_⟩
  · rw [e] at h2; exact absurd h2 (by decide)
  · have e1 : ((regVal p).setWidth 8).setWidth 4 = (regVal p).setWidth 4 := by
      apply BitVec.eq_of_toNat_eq
      simp only [BitVec.toNat_setWidth]
      omega
    rw [reduced, ← e1, h0]
    rfl
  · have := o_low (k := .rexw) (op := 0x90) (r := r.toReg) (t := []) (by
      generalize r.toReg.num = n; revert n; decide +kernel)
    rw [h1] at this
    simpa using this

theorem AccForm.dec {i its} (h : AccForm i) (hi : items i = .ok its) (hN : NoFail its) (ψ rel) :
    ∃ I its', meaning rel (i.mapRegs reduced reducedXmm) = some I ∧ Rex0 its its' ∧ Dec ψ its' I := by
  cases h with
  | testq h v =>
    obtain ⟨h1, h2, h3⟩ := acc_low h
    simp only [items, Except.ok.injEq, h2, Bool.false_eq_true, if_false] at hi
    cases h8 : i32TryFrom v with
    | none => rw [h8] at hi; subst hi; exact absurd (hN .immOutOfRange) (by simp)
    | some w =>
      rw [h8] at hi; subst hi
      refine ⟨.test .q (.gpr 0) (.imm v), _, by simp only [Inst.mapRegs, RmOperand.mapRegs, RiOperand.mapRegs, h3]; rfl, L.rexw_mi (by decide) rfl hN, ?_⟩
      rw [low_rm_reg, h1]
      exact test_mi_q h8 (reg_rm ψ (r := ⟨0⟩) (by decide))
  | testb h v =>
    obtain ⟨h1, h2, h3⟩ := acc_low h
    simp only [items, Except.ok.injEq, h2, Bool.false_eq_true, if_false] at hi
    cases h8 : i8TryFrom v with
    | none => rw [h8] at hi; subst hi; exact absurd (hN .immOutOfRange) (by simp)
    | some w =>
      rw [h8] at hi; subst hi
      refine ⟨.test .b (.gpr 0) (.imm v), _, by simp only [Inst.mapRegs, RmOperand.mapRegs, RiOperand.mapRegs, h3]; rfl, L.mi_byte (by decide) rfl hN, ?_⟩
      rw [low_rm_reg, h1]
      exact test_mi_b h8 (reg_rm ψ (r := ⟨0⟩) (by decide))
  | xchgl h h0 =>
    obtain ⟨h1, h2, h3, h4⟩ := xchg_acc h h0
    simp only [items, h1, h2, if_true, if_false, Except.ok.injEq] at hi
    subst hi
    exact ⟨.nop, _, by simp only [Inst.mapRegs, RmOperand.mapRegs, h3, (acc_low h).2.2]; rfl, h4, nop_rexw⟩
  | xchgr h h0 =>
    obtain ⟨h1, h2, h3, h4⟩ := xchg_acc h h0
    simp only [items, h1, h2, if_true, if_false, Except.ok.injEq] at hi
    subst hi
    exact ⟨.nop, _, by simp only [Inst.mapRegs, RmOperand.mapRegs, h3, (acc_low h).2.2]; rfl, h4, nop_rexw⟩
  | add h v =>
    obtain ⟨its', h1, h2⟩ := alu_acc (op := .add) h hi hN
    exact ⟨_, its', by simp only [Inst.mapRegs, RmOperand.mapRegs, RmiOperand.mapRegs, (acc_low h).2.2]; rfl, h1, h2⟩
  | or' h v =>
    obtain ⟨its', h1, h2⟩ := alu_acc (op := .or) h hi hN
    exact ⟨_, its', by simp only [Inst.mapRegs, RmOperand.mapRegs, RmiOperand.mapRegs, (acc_low h).2.2]; rfl, h1, h2⟩
  | adc h v =>
    obtain ⟨its', h1, h2⟩ := alu_acc (op := .adc) h hi hN
    exact ⟨_, its', by simp only [Inst.mapRegs, RmOperand.mapRegs, RmiOperand.mapRegs, (acc_low h).2.2]; rfl, h1, h2⟩
  | sbb h v =>
    obtain ⟨its', h1, h2⟩ := alu_acc (op := .sbb) h hi hN
    exact ⟨_, its', by simp only [Inst.mapRegs, RmOperand.mapRegs, RmiOperand.mapRegs, (acc_low h).2.2]; rfl, h1, h2⟩
  | and' h v =>
    obtain ⟨its', h1, h2⟩ := alu_acc (op := .and) h hi hN
    exact ⟨_, its', by simp only [Inst.mapRegs, RmOperand.mapRegs, RmiOperand.mapRegs, (acc_low h).2.2]; rfl, h1, h2⟩
  | sub h v =>
    obtain ⟨its', h1, h2⟩ := alu_acc (op := .sub) h hi hN
    exact ⟨_, its', by simp only [Inst.mapRegs, RmOperand.mapRegs, RmiOperand.mapRegs, (acc_low h).2.2]; rfl, h1, h2⟩
  | xor h v =>
    obtain ⟨its', h1, h2⟩ := alu_acc (op := .xor) h hi hN
    exact ⟨_, its', by simp only [Inst.mapRegs, RmOperand.mapRegs, RmiOperand.mapRegs, (acc_low h).2.2]; rfl, h1, h2⟩
  | cmp h v =>
    obtain ⟨its', h1, h2⟩ := alu_acc (op := .cmp) h hi hN
    exact ⟨_, its', by simp only [Inst.mapRegs, RmOperand.mapRegs, RmiOperand.mapRegs, (acc_low h).2.2]; rfl, h1, h2⟩

/-- The code of a statement that is assembled decodes to the meaning of the statement with reduced
    register numbers. -/
theorem reduced_faithful {i : Inst Val Nat} (hx : PlainXchg i) (h1 : ∀ a b c, i ≠ .Roundpd a b c)
    (h2 : ∀ a b, i ≠ .Cvttsd2siq a b) {s s' la mem I} (h : Runs i s s') (hl : Linked s s' la mem) (hn : Near la (here s'))
    (hM : meaning (dist la (here s')) (i.mapRegs reduced reducedXmm) = some I) (rest) :
    X86.decode (bytes mem (here s) (here s' - here s) ++ rest) = some (I, rest) := by
  obtain ⟨its, hi, hran⟩ := runs_items h
  have hh := hran.here
  have e : here s' - here s = lenOf its := by omega
  rw [e, linked_bytes hran hl (slotsOk_items hi h1)]
  by_cases hr : ∀ r ∈ accRegs i, NotAcc r
  case neg =>
    obtain ⟨J, its', hJ, h0, hd⟩ := (accForm_of hx hr).dec hi hran.noFail _ (dist la (here s'))
    cases hM.symm.trans hJ
    exact (Dec.rex0 h0 hd (meaning_low _ _ _ hM)).dec rest
  obtain ⟨its', hi', h0⟩ := items_low hr its hi hran.noFail
  have hA : actual (dist la (here s')) (i.mapRegs reduced reducedXmm) = some I := by
    cases i <;> first | exact hM | exact absurd rfl (h2 _ _)
  exact (Dec.rex0 h0 (decode_items (near_fits hn) _ hA hi' fun he => hran.noFail _ ((h0.fails _).1 he)) (meaning_low _ _ _ hM)).dec rest

end Monoasm
