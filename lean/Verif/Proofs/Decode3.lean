import Verif.Proofs.Decode2

set_option linter.unusedSimpArgs false

namespace Monoasm
open X86 (Pfx)

def aluMr : X86.AluOp → BitVec 8
  | .add => 0x01 | .or => 0x09 | .adc => 0x11 | .sbb => 0x19
  | .and => 0x21 | .sub => 0x29 | .xor => 0x31 | .cmp => 0x39

def aluDigit : X86.AluOp → BitVec 8
  | .add => 0 | .or => 1 | .adc => 2 | .sbb => 3
  | .and => 4 | .sub => 5 | .xor => 6 | .cmp => 7

/-- evaluate the opcode tables at a concrete opcode -/
macro "opc" : tactic => `(tactic| (
  simp [X86.dispatch, X86.map1, X86.map2, X86.map3A, X86.group3, X86.group5, X86.shiftGroup,
    X86.Pfx.size', X86.Pfx.size, X86.Pfx.isize, X86.Pfx.fty, X86.FTy.packed, X86.fOp, X86.lOp,
    X86.aluOp, X86.shiftOp, X86.digit, X86.immz, *,
    aluMr, aluDigit, mmVal, rmOpd_q, rmOpd_d, rmOpd_w, regOpd_q, regOpd_d, regOpd_w, immBytes, imm8_b, imm16_w,
    imm32_le32]))

section alu
variable {ψ : DestLabel → BitVec 32} {r : Reg} {rm : Rm} {RM : X86.RM} (op : X86.AluOp)

theorem alu_mr_q (hr : r.num < 16#8) (h : rmRM ψ rm = some RM) :
    Dec ψ (It.rexw_mr [aluMr op] r rm) (.alu op .q (opd RM) (.gpr (r.num.setWidth 4))) := by
  refine dec_enc hr h (by cases op <;> decide) ?_
  rintro R tail rest ⟨hm, hw, hb⟩
  cases op <;> opc

theorem alu_rm_q (hr : r.num < 16#8) (h : rmRM ψ rm = some RM) :
    Dec ψ (It.rexw_mr [aluMr op + 2] r rm) (.alu op .q (.gpr (r.num.setWidth 4)) (opd RM)) := by
  refine dec_enc hr h (by cases op <;> decide) ?_
  rintro R tail rest ⟨hm, hw, hb⟩
  cases op <;> opc

theorem alu_i8_q {i : V} {v} (hi : i8TryFrom i = some v) (h : rmRM ψ rm = some RM) :
    Dec ψ (It.rexw_digit [0x83] rm (aluDigit op) (.b v)) (.alu op .q (opd RM) (.imm i)) := by
  have hi := i8_some hi
  refine dec_enc (by cases op <;> simp [mmOk, aluDigit]) h (by decide) ?_
  rintro R tail rest ⟨hm, hw, hb⟩
  cases op <;> opc

theorem alu_i32_q {i : V} {v} (hi : i32TryFrom i = some v) (h : rmRM ψ rm = some RM) :
    Dec ψ (It.rexw_digit [0x81] rm (aluDigit op) (.l v)) (.alu op .q (opd RM) (.imm i)) := by
  have hi := i32_some hi
  refine dec_enc (by cases op <;> simp [mmOk, aluDigit]) h (by decide) ?_
  rintro R tail rest ⟨hm, hw, hb⟩
  cases op <;> opc

theorem alu_mr_d (hr : r.num < 16#8) (h : rmRM ψ rm = some RM) :
    Dec ψ (It.mr [aluMr op] r rm) (.alu op .d (opd RM) (.gpr (r.num.setWidth 4))) := by
  refine dec_enc hr h (by cases op <;> decide) ?_
  rintro R tail rest ⟨hm, hw, hb⟩
  cases op <;> opc

theorem alu_rm_d (hr : r.num < 16#8) (h : rmRM ψ rm = some RM) :
    Dec ψ (It.mr [aluMr op + 2] r rm) (.alu op .d (.gpr (r.num.setWidth 4)) (opd RM)) := by
  refine dec_enc hr h (by cases op <;> decide) ?_
  rintro R tail rest ⟨hm, hw, hb⟩
  cases op <;> opc

theorem alu_i8_d {i : V} {v} (hi : i8TryFrom i = some v) (h : rmRM ψ rm = some RM) :
    Dec ψ (It.digit_imm [0x83] rm (aluDigit op) (.b v)) (.alu op .d (opd RM) (.imm i)) := by
  have hi := i8_some hi
  refine dec_enc (by cases op <;> simp [mmOk, aluDigit]) h (by decide) ?_
  rintro R tail rest ⟨hm, hw, hb⟩
  cases op <;> opc

theorem alu_i32_d {i : V} {v} (hi : i32TryFrom i = some v) (h : rmRM ψ rm = some RM) :
    Dec ψ (It.digit_imm [0x81] rm (aluDigit op) (.l v)) (.alu op .d (opd RM) (.imm i)) := by
  have hi := i32_some hi
  refine dec_enc (by cases op <;> simp [mmOk, aluDigit]) h (by decide) ?_
  rintro R tail rest ⟨hm, hw, hb⟩
  cases op <;> opc

theorem alu_mr_w (hr : r.num < 16#8) (h : rmRM ψ rm = some RM) :
    Dec ψ (.i8 0x66 :: It.mr [aluMr op] r rm) (.alu op .w (opd RM) (.gpr (r.num.setWidth 4))) := by
  refine dec_enc66 hr h (by cases op <;> decide) ?_
  rintro R tail rest ⟨hm, hw, hb⟩
  cases op <;> opc

theorem alu_rm_w (hr : r.num < 16#8) (h : rmRM ψ rm = some RM) :
    Dec ψ (.i8 0x66 :: It.mr [aluMr op + 2] r rm) (.alu op .w (.gpr (r.num.setWidth 4)) (opd RM)) := by
  refine dec_enc66 hr h (by cases op <;> decide) ?_
  rintro R tail rest ⟨hm, hw, hb⟩
  cases op <;> opc

theorem alu_i8_w {i : V} {v} (hi : i8TryFrom i = some v) (h : rmRM ψ rm = some RM) :
    Dec ψ (.i8 0x66 :: It.digit_imm [0x83] rm (aluDigit op) (.b v)) (.alu op .w (opd RM) (.imm i)) := by
  have hi := i8_some hi
  refine dec_enc66 (by cases op <;> simp [mmOk, aluDigit]) h (by decide) ?_
  rintro R tail rest ⟨hm, hw, hb⟩
  cases op <;> opc

theorem alu_i16_w {i : V} {v} (hi : i16TryFrom i = some v) (h : rmRM ψ rm = some RM) :
    Dec ψ (.i8 0x66 :: It.digit_imm [0x81] rm (aluDigit op) (.w v)) (.alu op .w (opd RM) (.imm i)) := by
  have hi := i16_some hi
  refine dec_enc66 (by cases op <;> simp [mmOk, aluDigit]) h (by decide) ?_
  rintro R tail rest ⟨hm, hw, hb⟩
  cases op <;> opc

theorem alu_mr_b (hr : r.num < 16#8) (h : rmRM ψ rm = some RM) :
    Dec ψ (It.mr_byte [aluMr op - 1] r rm) (.alu op .b (opd RM) (.gpr (r.num.setWidth 4))) := by
  refine dec_enc hr h (by cases op <;> decide) ?_
  intro R tail rest E
  have h1 := E.rm_b
  have h2 := E.reg_b
  obtain ⟨hm, hw, hb⟩ := E
  cases op <;> opc

theorem alu_rm_b (hr : r.num < 16#8) (h : rmRM ψ rm = some RM) :
    Dec ψ (It.mr_byte [aluMr op - 1 + 2] r rm) (.alu op .b (.gpr (r.num.setWidth 4)) (opd RM)) := by
  refine dec_enc hr h (by cases op <;> decide) ?_
  intro R tail rest E
  have h1 := E.rm_b
  have h2 := E.reg_b
  obtain ⟨hm, hw, hb⟩ := E
  cases op <;> opc

theorem alu_i_b_reg {i : V} {v} (hi : i8TryFrom i = some v) (h : rmRM ψ rm = some RM) :
    Dec ψ (encItems [0x80] .byte (.digit (aluDigit op)) rm (.b v)) (.alu op .b (opd RM) (.imm i)) := by
  have hi := i8_some hi
  refine dec_enc (by cases op <;> simp [mmOk, aluDigit]) h (by decide) ?_
  intro R tail rest E
  have h1 := E.rm_b
  obtain ⟨hm, hw, hb⟩ := E
  cases op <;> opc

theorem alu_i_b {i : V} {v} (hi : i8TryFrom i = some v) (h : rmRM ψ rm = some RM) :
    Dec ψ (It.digit_imm_byte [0x80] (aluMr op - 1 + 4) rm (aluDigit op) (.b v))
      (.alu op .b (opd RM) (.imm i)) := by
  have hi' := hi
  have hi := i8_some hi
  simp only [It.digit_imm_byte]
  split
  · rename_i hrax
    have hRM : RM = .reg 0 := by
      obtain ⟨⟨n⟩, mode⟩ := rm
      simp only [Rm.is_rax, Reg.is_rax, Reg.rax, Reg.from, Bool.and_eq_true, decide_eq_true_eq, Reg.mk.injEq] at hrax
      obtain ⟨rfl, rfl⟩ := hrax
      simp [rmRM] at h
      exact h.symm
    subst hRM
    refine ⟨fun rest => ?_, by simp [immItems]⟩
    cases op <;> simp [aluMr, immItems, Item.bytes, X86.decode, X86.prefixes, X86.isRex, X86.dispatch, X86.map1,
      X86.Pfx.size', X86.immz, imm8_b, hi, X86.aluOp, opd]
  · split
    · exact alu_i_b_reg _ hi' h
    · rename_i hnr
      have : ∃ A, RM = .mem A := by
        obtain ⟨b, mode⟩ := rm
        cases mode with
        | reg => simp [Rm.is_reg] at hnr
        | ind sc d =>
          simp only [rmRM] at h
          cases sc <;> simp only at h <;> (repeat' split at h) <;> cases h <;> exact ⟨_, rfl⟩
      obtain ⟨A, rfl⟩ := this
      refine dec_enc (by cases op <;> simp [mmOk, aluDigit]) h (by decide) ?_
      rintro R tail rest ⟨hm, hw, hb⟩
      cases op <;> (opc; rfl)

end alu

theorem rmi_reg {rel r o} (h : Spec.rmi rel (.reg r) = some o) :
    ∃ g, Spec.gpr r = some g ∧ o = .gpr g := by
  cases hg : Spec.gpr r <;> simp [Spec.rmi, hg] at h
  exact ⟨_, rfl, h.symm⟩

theorem rmi_ind {rel a o} (h : Spec.rmi rel (.ind a) = some o) :
    ∃ A, Spec.addr rel a = some A ∧ o = .mem A := by
  cases hg : Spec.addr rel a <;> simp [Spec.rmi, hg] at h
  exact ⟨_, rfl, h.symm⟩

theorem rm_reg {rel r o} (h : Spec.rm rel (.reg r) = some o) :
    ∃ g, Spec.gpr r = some g ∧ o = .gpr g := by
  cases hg : Spec.gpr r <;> simp [Spec.rm, hg] at h
  exact ⟨_, rfl, h.symm⟩

theorem rm_ind {rel a o} (h : Spec.rm rel (.ind a) = some o) :
    ∃ A, Spec.addr rel a = some A ∧ o = .mem A := by
  cases hg : Spec.addr rel a <;> simp [Spec.rm, hg] at h
  exact ⟨_, rfl, h.symm⟩

theorem xm_xmm {rel r o} (h : Spec.xm rel (.xmm r) = some o) :
    ∃ g, Spec.xmm r = some g ∧ o = .xmm g := by
  cases hg : Spec.xmm r <;> simp [Spec.xm, hg] at h
  exact ⟨_, rfl, h.symm⟩

theorem xm_ind {rel a o} (h : Spec.xm rel (.ind a) = some o) :
    ∃ A, Spec.addr rel a = some A ∧ o = .mem A := by
  cases hg : Spec.addr rel a <;> simp [Spec.xm, hg] at h
  exact ⟨_, rfl, h.symm⟩

section
variable {rel : Nat → BitVec 64} {ψ : DestLabel → BitVec 32}
  {δ : IndAddr V DestLabel → IndAddr V DestLabel} (hδ : Encodes rel ψ δ)
  {I : X86.Instr} {its : List Item}
include hδ

theorem dec_alu (op sz a b) (hM : Spec.alu rel op sz (a.mapAddr δ) (b.mapAddr δ) = some I)
    (hI : It.binary_op sz (aluMr op) (aluDigit op) a b = .ok its) (hN : Item.fail .immOutOfRange ∉ its) : Dec ψ its I := by
  simp only [Spec.alu, Option.bind_eq_bind, Option.bind_eq_some_iff] at hM
  obtain ⟨d, hd, s, hs, hM⟩ := hM
  split at hM
  case isFalse => cases hM
  rename_i hnb
  cases hM
  obtain ⟨RM, hRM, rfl⟩ := rm_some hδ hd
  cases b with
  | imm i =>
    cases hs
    cases sz <;> simp only [It.binary_op, It.binary_opq, It.binary_opl, It.binary_opw, It.binary_opb] at hI <;>
      cases hI <;> simp only [Spec.size]
    · cases h8 : i8TryFrom i with
      | some v => exact alu_i8_q op h8 hRM
      | none =>
        cases h32 : i32TryFrom i with
        | some v => exact alu_i32_q op h32 hRM
        | none => simp [h8, h32] at hN
    · cases h8 : i8TryFrom i with
      | some v => exact alu_i8_d op h8 hRM
      | none =>
        cases h32 : i32TryFrom i with
        | some v => exact alu_i32_d op h32 hRM
        | none => simp [h8, h32] at hN
    · cases h8 : i8TryFrom i with
      | some v => exact alu_i8_w op h8 hRM
      | none =>
        cases h16 : i16TryFrom i with
        | some v => exact alu_i16_w op h16 hRM
        | none => simp [h8, h16] at hN
    · cases h8 : i8TryFrom i with
      | some v => exact alu_i_b op h8 hRM
      | none => simp [h8] at hN
  | reg r =>
    obtain ⟨g, hg, rfl⟩ := rmi_reg hs
    obtain ⟨hlt, rfl⟩ := gpr_some hg
    cases sz <;> simp only [It.binary_op, It.binary_opq, It.binary_opl, It.binary_opw, It.binary_opb] at hI <;>
      cases hI <;> simp only [Spec.size]
    · exact alu_mr_q op hlt hRM
    · exact alu_mr_d op hlt hRM
    · exact alu_mr_w op hlt hRM
    · exact alu_mr_b op hlt hRM
  | ind m =>
    obtain ⟨A, hA, rfl⟩ := rmi_ind hs
    have hA' := hδ hA
    cases a with
    | ind m' =>
      cases sz <;> simp [It.binary_op, It.binary_opq, It.binary_opl, It.binary_opw, It.binary_opb] at hI
    | reg r =>
      obtain ⟨g, hg, hh⟩ := rm_reg hd
      obtain ⟨hlt, rfl⟩ := gpr_some hg
      rw [hh]
      cases sz <;> simp only [It.binary_op, It.binary_opq, It.binary_opl, It.binary_opw, It.binary_opb] at hI <;>
        cases hI <;> simp only [Spec.size]
      · exact alu_rm_q op hlt hA'
      · exact alu_rm_d op hlt hA'
      · exact alu_rm_w op hlt hA'
      · exact alu_rm_b op hlt hA'

end

end Monoasm
