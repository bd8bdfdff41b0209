import Verif.Proofs.Decode4

set_option linter.unusedSimpArgs false

namespace Monoasm
open X86 (Pfx)

theorem mmOk0 : mmOk (.reg ⟨0⟩) := by simp [mmOk]

/-- start a decoding proof for an `encItems` encoding -/
macro "enc0 " hr:term ", " h:term : tactic => `(tactic|
  (refine dec_enc $hr $h (by decide) ?_; rintro R tail rest ⟨hm, hw, hb⟩; opc))
macro "enc66 " hr:term ", " h:term : tactic => `(tactic|
  (refine dec_enc66 $hr $h (by decide) ?_; rintro R tail rest ⟨hm, hw, hb⟩; opc))
macro "encf2 " hr:term ", " h:term : tactic => `(tactic|
  (refine dec_encf2 $hr $h (by decide) ?_; rintro R tail rest ⟨hm, hw, hb⟩; opc))
macro "encf3 " hr:term ", " h:term : tactic => `(tactic|
  (refine dec_encf3 $hr $h (by decide) ?_; rintro R tail rest ⟨hm, hw, hb⟩; opc))
/-- byte operand encodings -/
macro "encb " hr:term ", " h:term : tactic => `(tactic|
  (refine dec_enc $hr $h (by decide) ?_; intro R tail rest E
   have h1 := Enc.rm_b E
   have h2 := Enc.reg_b E
   obtain ⟨hm, hw, hb⟩ := E
   opc))

section
variable {ψ : DestLabel → BitVec 32} {r : Reg} {rm : Rm} {RM : X86.RM} {i : V}

/-! ### Integer moves -/

theorem mov_mr_q (hr : r.num < 16#8) (h : rmRM ψ rm = some RM) :
    Dec ψ (It.rexw_mr [0x89] r rm) (.mov .q (opd RM) (.gpr (r.num.setWidth 4))) := by enc0 hr, h
theorem mov_mr_d (hr : r.num < 16#8) (h : rmRM ψ rm = some RM) :
    Dec ψ (It.mr [0x89] r rm) (.mov .d (opd RM) (.gpr (r.num.setWidth 4))) := by enc0 hr, h
theorem mov_mr_w (hr : r.num < 16#8) (h : rmRM ψ rm = some RM) :
    Dec ψ (.i8 0x66 :: It.mr [0x89] r rm) (.mov .w (opd RM) (.gpr (r.num.setWidth 4))) := by enc66 hr, h
theorem mov_mr_b (hr : r.num < 16#8) (h : rmRM ψ rm = some RM) :
    Dec ψ (It.mr_byte [0x88] r rm) (.mov .b (opd RM) (.gpr (r.num.setWidth 4))) := by encb hr, h
theorem mov_rm_q (hr : r.num < 16#8) (h : rmRM ψ rm = some RM) :
    Dec ψ (It.rexw_mr [0x8b] r rm) (.mov .q (.gpr (r.num.setWidth 4)) (opd RM)) := by enc0 hr, h
theorem mov_rm_d (hr : r.num < 16#8) (h : rmRM ψ rm = some RM) :
    Dec ψ (It.mr [0x8b] r rm) (.mov .d (.gpr (r.num.setWidth 4)) (opd RM)) := by enc0 hr, h
theorem mov_rm_w (hr : r.num < 16#8) (h : rmRM ψ rm = some RM) :
    Dec ψ (.i8 0x66 :: It.mr [0x8b] r rm) (.mov .w (.gpr (r.num.setWidth 4)) (opd RM)) := by enc66 hr, h
theorem mov_rm_b (hr : r.num < 16#8) (h : rmRM ψ rm = some RM) :
    Dec ψ (It.mr_byte [0x8a] r rm) (.mov .b (.gpr (r.num.setWidth 4)) (opd RM)) := by encb hr, h

theorem mov_mi_q {v} (hi : i32TryFrom i = some v) (h : rmRM ψ rm = some RM) :
    Dec ψ (It.rexw_mi 0xc7 rm (.l v)) (.mov .q (opd RM) (.imm i)) := by
  have hi := i32_some hi
  enc0 mmOk0, h
theorem mov_mi_d {v} (hi : i32TryFrom i = some v) (h : rmRM ψ rm = some RM) :
    Dec ψ (It.mi 0xc7 rm (.l v)) (.mov .d (opd RM) (.imm i)) := by
  have hi := i32_some hi
  enc0 mmOk0, h
theorem mov_mi_w {v} (hi : i16TryFrom i = some v) (h : rmRM ψ rm = some RM) :
    Dec ψ (.i8 0x66 :: It.mi 0xc7 rm (.w v)) (.mov .w (opd RM) (.imm i)) := by
  have hi := i16_some hi
  enc66 mmOk0, h
theorem mov_mi_b {v} (hi : i8TryFrom i = some v) (h : rmRM ψ rm = some RM) :
    Dec ψ (It.mi_byte 0xc6 rm (.b v)) (.mov .b (opd RM) (.imm i)) := by
  have hi := i8_some hi
  encb mmOk0, h

/-! ### Sign and zero extension -/

theorem rmOpd_b_w {p : Pfx} {RM} (hw : p.w = true) : X86.rmOpd p .b RM = opd RM := by
  refine rmOpd_b p RM fun hp => ?_
  simp [Pfx.w, hp] at hw

theorem movsxl_ok (hr : r.num < 16#8) (h : rmRM ψ rm = some RM) :
    Dec ψ (It.rexw_mr [0x63] r rm) (.movsx .q .d (.gpr (r.num.setWidth 4)) (opd RM)) := by enc0 hr, h
theorem movzxw_ok (hr : r.num < 16#8) (h : rmRM ψ rm = some RM) :
    Dec ψ (It.rexw_mr [0x0f, 0xb7] r rm) (.movzx .q .w (.gpr (r.num.setWidth 4)) (opd RM)) := by enc0 hr, h
theorem movsxw_ok (hr : r.num < 16#8) (h : rmRM ψ rm = some RM) :
    Dec ψ (It.rexw_mr [0x0f, 0xbf] r rm) (.movsx .q .w (.gpr (r.num.setWidth 4)) (opd RM)) := by enc0 hr, h
theorem movzxb_ok (hr : r.num < 16#8) (h : rmRM ψ rm = some RM) :
    Dec ψ (It.rexw_mr [0x0f, 0xb6] r rm) (.movzx .q .b (.gpr (r.num.setWidth 4)) (opd RM)) := by
  refine dec_enc hr h (by decide) ?_
  rintro R tail rest ⟨hm, hw, hb⟩
  have := rmOpd_b_w (RM := RM) (by simpa using hw)
  opc
theorem movsxb_ok (hr : r.num < 16#8) (h : rmRM ψ rm = some RM) :
    Dec ψ (It.rexw_mr [0x0f, 0xbe] r rm) (.movsx .q .b (.gpr (r.num.setWidth 4)) (opd RM)) := by
  refine dec_enc hr h (by decide) ?_
  rintro R tail rest ⟨hm, hw, hb⟩
  have := rmOpd_b_w (RM := RM) (by simpa using hw)
  opc

/-! ### Exchange, test, multiplication, unary operations, conditions, counting -/

theorem xchg_mr (hr : r.num < 16#8) (h : rmRM ψ rm = some RM) :
    Dec ψ (It.rexw_mr [0x87] r rm) (.xchg .q (opd RM) (.gpr (r.num.setWidth 4))) := by enc0 hr, h

theorem test_mr_q (hr : r.num < 16#8) (h : rmRM ψ rm = some RM) :
    Dec ψ (It.rexw_mr [0x85] r rm) (.test .q (opd RM) (.gpr (r.num.setWidth 4))) := by enc0 hr, h
theorem test_mr_b (hr : r.num < 16#8) (h : rmRM ψ rm = some RM) :
    Dec ψ (It.mr_byte [0x84] r rm) (.test .b (opd RM) (.gpr (r.num.setWidth 4))) := by encb hr, h
theorem test_mi_q {v} (hi : i32TryFrom i = some v) (h : rmRM ψ rm = some RM) :
    Dec ψ (It.rexw_mi 0xf7 rm (.l v)) (.test .q (opd RM) (.imm i)) := by
  have hi := i32_some hi
  enc0 mmOk0, h
theorem test_mi_b {v} (hi : i8TryFrom i = some v) (h : rmRM ψ rm = some RM) :
    Dec ψ (It.mi_byte 0xf6 rm (.b v)) (.test .b (opd RM) (.imm i)) := by
  have hi := i8_some hi
  encb mmOk0, h
theorem test_rax_q {v} (hi : i32TryFrom i = some v) :
    Dec ψ [.i8 0x48, .i8 0xa9, .i32 v] (.test .q (.gpr 0) (.imm i)) := by
  have hi := i32_some hi
  refine ⟨fun rest => ?_, by simp [It.d, NoFail]⟩
  simp [Item.bytes, X86.decode, X86.prefixes, X86.isRex, X86.isLegacy, X86.dispatch, X86.map1,
      X86.Pfx.size', X86.Pfx.size, X86.Pfx.w, X86.immz, imm32_le32, hi]
theorem test_rax_b {v} (hi : i8TryFrom i = some v) :
    Dec ψ [.i8 0xa8, .i8 v] (.test .b (.gpr 0) (.imm i)) := by
  have hi := i8_some hi
  refine ⟨fun rest => ?_, by simp [It.d, NoFail]⟩
  simp [Item.bytes, X86.decode, X86.prefixes, X86.isRex, X86.dispatch, X86.map1,
      X86.Pfx.size', X86.Pfx.size, X86.Pfx.w, X86.immz, imm8_b, hi]

theorem imul_ok (hr : r.num < 16#8) (h : rmRM ψ rm = some RM) :
    Dec ψ (It.rexw_mr [0x0f, 0xaf] r rm) (.imul2 .q (.gpr (r.num.setWidth 4)) (opd RM)) := by enc0 hr, h

theorem neg_ok (h : rmRM ψ rm = some RM) :
    Dec ψ (It.rexw_digit [0xf7] rm 3 .none) (.un .neg .q (opd RM)) := by enc0 (by simp [mmOk]), h
theorem idiv_q (h : rmRM ψ rm = some RM) :
    Dec ψ (It.rexw_digit [0xf7] rm 7 .none) (.un .idiv .q (opd RM)) := by enc0 (by simp [mmOk]), h
theorem idiv_d (h : rmRM ψ rm = some RM) :
    Dec ψ (It.digit [0xf7] rm 7) (.un .idiv .d (opd RM)) := by enc0 (by simp [mmOk]), h
theorem div_q (h : rmRM ψ rm = some RM) :
    Dec ψ (It.rexw_digit [0xf7] rm 6 .none) (.un .div .q (opd RM)) := by enc0 (by simp [mmOk]), h
theorem div_d (h : rmRM ψ rm = some RM) :
    Dec ψ (It.digit [0xf7] rm 6) (.un .div .d (opd RM)) := by enc0 (by simp [mmOk]), h

theorem lea_ok {A} (hr : r.num < 16#8) (h : rmRM ψ rm = some (.mem A)) :
    Dec ψ (It.rexw_mr [0x8d] r rm) (.lea .q (.gpr (r.num.setWidth 4)) A) := by enc0 hr, h

theorem setcc_ok (c : Cond) (h : rmRM ψ rm = some RM) :
    Dec ψ (It.m_byte [0x0f, 0x90 + c.code] rm) (.setcc (Spec.cc c) (opd RM)) := by
  refine dec_enc mmOk0 h (by decide) ?_
  intro R tail rest E
  have h1 := Enc.rm_b E
  obtain ⟨hm, hw, hb⟩ := E
  cases c <;> simp only [Cond.code, Spec.cc] <;> opc

theorem cmov_q (c : Cond) (hr : r.num < 16#8) (h : rmRM ψ rm = some RM) :
    Dec ψ (It.rexw_mr [0x0f, 0x40 + c.code] r rm)
      (.cmovcc (Spec.cc c) .q (.gpr (r.num.setWidth 4)) (opd RM)) := by
  refine dec_enc hr h (by decide) ?_
  rintro R tail rest ⟨hm, hw, hb⟩
  cases c <;> simp only [Cond.code, Spec.cc] <;> opc
theorem cmov_d (c : Cond) (hr : r.num < 16#8) (h : rmRM ψ rm = some RM) :
    Dec ψ (It.mr [0x0f, 0x40 + c.code] r rm)
      (.cmovcc (Spec.cc c) .d (.gpr (r.num.setWidth 4)) (opd RM)) := by
  refine dec_enc hr h (by decide) ?_
  rintro R tail rest ⟨hm, hw, hb⟩
  cases c <;> simp only [Cond.code, Spec.cc] <;> opc
theorem cmov_w (c : Cond) (hr : r.num < 16#8) (h : rmRM ψ rm = some RM) :
    Dec ψ (.i8 0x66 :: It.mr [0x0f, 0x40 + c.code] r rm)
      (.cmovcc (Spec.cc c) .w (.gpr (r.num.setWidth 4)) (opd RM)) := by
  refine dec_enc66 hr h (by decide) ?_
  rintro R tail rest ⟨hm, hw, hb⟩
  cases c <;> simp only [Cond.code, Spec.cc] <;> opc

def cntOpc : X86.CntOp → BitVec 8
  | .tzcnt => 0xbc | .lzcnt => 0xbd | _ => 0xb8

theorem cnt_q (op : X86.CntOp) (ho : op = .tzcnt ∨ op = .lzcnt ∨ op = .popcnt)
    (hr : r.num < 16#8) (h : rmRM ψ rm = some RM) :
    Dec ψ (.i8 0xf3 :: It.rexw_mr [0x0f, cntOpc op] r rm)
      (.cnt op .q (.gpr (r.num.setWidth 4)) (opd RM)) := by
  refine dec_encf3 hr h (by decide) ?_
  rintro R tail rest ⟨hm, hw, hb⟩
  rcases ho with rfl | rfl | rfl <;> simp only [cntOpc] <;> opc
theorem cnt_d (op : X86.CntOp) (ho : op = .tzcnt ∨ op = .lzcnt ∨ op = .popcnt)
    (hr : r.num < 16#8) (h : rmRM ψ rm = some RM) :
    Dec ψ (.i8 0xf3 :: It.mr [0x0f, cntOpc op] r rm)
      (.cnt op .d (.gpr (r.num.setWidth 4)) (opd RM)) := by
  refine dec_encf3 hr h (by decide) ?_
  rintro R tail rest ⟨hm, hw, hb⟩
  rcases ho with rfl | rfl | rfl <;> simp only [cntOpc] <;> opc

/-! ### Shifts -/

def shDigit : X86.ShiftOp → BitVec 8
  | .rol => 0 | .ror => 1 | .rcl => 2 | .rcr => 3 | .shl => 4 | .shr => 5 | .sar => 7

theorem sh1_q (op) (h : rmRM ψ rm = some RM) :
    Dec ψ (It.rexw_digit [0xd1] rm (shDigit op) .none) (.shift op .q (opd RM) (.imm 1)) := by
  refine dec_enc (by cases op <;> simp [mmOk, shDigit]) h (by decide) ?_
  rintro R tail rest ⟨hm, hw, hb⟩
  cases op <;> simp only [shDigit] at hm ⊢ <;> opc
theorem shi_q (op) {v} (hi : i8TryFrom i = some v) (h : rmRM ψ rm = some RM) :
    Dec ψ (It.rexw_digit [0xc1] rm (shDigit op) (.b v)) (.shift op .q (opd RM) (.imm i)) := by
  have hi := i8_some hi
  refine dec_enc (by cases op <;> simp [mmOk, shDigit]) h (by decide) ?_
  rintro R tail rest ⟨hm, hw, hb⟩
  cases op <;> simp only [shDigit] at hm ⊢ <;> opc
theorem shcl_q (op) (h : rmRM ψ rm = some RM) :
    Dec ψ (It.rexw_digit [0xd3] rm (shDigit op) .none) (.shift op .q (opd RM) (.gpr 1)) := by
  refine dec_enc (by cases op <;> simp [mmOk, shDigit]) h (by decide) ?_
  rintro R tail rest ⟨hm, hw, hb⟩
  cases op <;> simp only [shDigit] at hm ⊢ <;> opc
theorem sh1_d (op) (h : rmRM ψ rm = some RM) :
    Dec ψ (It.digit [0xd1] rm (shDigit op)) (.shift op .d (opd RM) (.imm 1)) := by
  refine dec_enc (by cases op <;> simp [mmOk, shDigit]) h (by decide) ?_
  rintro R tail rest ⟨hm, hw, hb⟩
  cases op <;> simp only [shDigit] at hm ⊢ <;> opc
theorem shi_d (op) {v} (hi : i8TryFrom i = some v) (h : rmRM ψ rm = some RM) :
    Dec ψ (It.digit_imm [0xc1] rm (shDigit op) (.b v)) (.shift op .d (opd RM) (.imm i)) := by
  have hi := i8_some hi
  refine dec_enc (by cases op <;> simp [mmOk, shDigit]) h (by decide) ?_
  rintro R tail rest ⟨hm, hw, hb⟩
  cases op <;> simp only [shDigit] at hm ⊢ <;> opc
theorem shcl_d (op) (h : rmRM ψ rm = some RM) :
    Dec ψ (It.digit [0xd3] rm (shDigit op)) (.shift op .d (opd RM) (.gpr 1)) := by
  refine dec_enc (by cases op <;> simp [mmOk, shDigit]) h (by decide) ?_
  rintro R tail rest ⟨hm, hw, hb⟩
  cases op <;> simp only [shDigit] at hm ⊢ <;> opc

/-! ### SSE -/

theorem movsd_load (hr : r.num < 16#8) (h : rmRM ψ rm = some RM) :
    Dec ψ (.i8 0xf2 :: It.mr [0x0f, 0x10] r rm)
      (.fmov .sd (.xmm (r.num.setWidth 4)) (X86.xmOpd RM)) := by encf2 hr, h
theorem movsd_store (hr : r.num < 16#8) (h : rmRM ψ rm = some RM) :
    Dec ψ (.i8 0xf2 :: It.mr [0x0f, 0x11] r rm)
      (.fmov .sd (X86.xmOpd RM) (.xmm (r.num.setWidth 4))) := by encf2 hr, h

def fopc : X86.FOp → BitVec 8
  | .sqrt => 0x51 | .add => 0x58 | .mul => 0x59 | .sub => 0x5c | .min => 0x5d | .div => 0x5e
  | .max => 0x5f

theorem fop_sd (op : X86.FOp) (hr : r.num < 16#8) (h : rmRM ψ rm = some RM) :
    Dec ψ (.i8 0xf2 :: It.mr [0x0f, fopc op] r rm)
      (.fop op .sd (.xmm (r.num.setWidth 4)) (X86.xmOpd RM)) := by
  refine dec_encf2 hr h (by decide) ?_
  rintro R tail rest ⟨hm, hw, hb⟩
  cases op <;> simp only [fopc] <;> opc
theorem fop_pd (op : X86.FOp) (hr : r.num < 16#8) (h : rmRM ψ rm = some RM) :
    Dec ψ (.i8 0x66 :: It.mr [0x0f, fopc op] r rm)
      (.fop op .pd (.xmm (r.num.setWidth 4)) (X86.xmOpd RM)) := by
  refine dec_enc66 hr h (by decide) ?_
  rintro R tail rest ⟨hm, hw, hb⟩
  cases op <;> simp only [fopc] <;> opc
theorem xorps_ok (hr : r.num < 16#8) (h : rmRM ψ rm = some RM) :
    Dec ψ (It.mr [0x0f, 0x57] r rm)
      (.flogic .xor .ps (.xmm (r.num.setWidth 4)) (X86.xmOpd RM)) := by enc0 hr, h
theorem xorpd_ok (hr : r.num < 16#8) (h : rmRM ψ rm = some RM) :
    Dec ψ (.i8 0x66 :: It.mr [0x0f, 0x57] r rm)
      (.flogic .xor .pd (.xmm (r.num.setWidth 4)) (X86.xmOpd RM)) := by enc66 hr, h
theorem andpd_ok (hr : r.num < 16#8) (h : rmRM ψ rm = some RM) :
    Dec ψ (.i8 0x66 :: It.mr [0x0f, 0x54] r rm)
      (.flogic .and .pd (.xmm (r.num.setWidth 4)) (X86.xmOpd RM)) := by enc66 hr, h
theorem ucomisd_ok (hr : r.num < 16#8) (h : rmRM ψ rm = some RM) :
    Dec ψ (.i8 0x66 :: It.mr [0x0f, 0x2e] r rm)
      (.ucomi .sd (.xmm (r.num.setWidth 4)) (X86.xmOpd RM)) := by enc66 hr, h
theorem cvtsi2sd_ok (hr : r.num < 16#8) (h : rmRM ψ rm = some RM) :
    Dec ψ (.i8 0xf2 :: It.rexw_mr [0x0f, 0x2a] r rm)
      (.cvtsi2f .sd .q (.xmm (r.num.setWidth 4)) (opd RM)) := by encf2 hr, h
/-- the 32-bit conversion: this is what `cvttsd2siq` assembles to -/
theorem cvttsd2si_d (hr : r.num < 16#8) (h : rmRM ψ rm = some RM) :
    Dec ψ (.i8 0xf2 :: It.mr [0x0f, 0x2c] r rm)
      (.cvttf2si .sd .d (.gpr (r.num.setWidth 4)) (X86.xmOpd RM)) := by encf2 hr, h

theorem movq_xr (hr : r.num < 16#8) (h : rmRM ψ rm = some RM) :
    Dec ψ (.i8 0x66 :: It.rexw_mr [0x0f, 0x6e] r rm)
      (.movgx .q (.xmm (r.num.setWidth 4)) (opd RM)) := by enc66 hr, h
theorem movq_rx (hr : r.num < 16#8) (h : rmRM ψ rm = some RM) :
    Dec ψ (.i8 0x66 :: It.rexw_mr [0x0f, 0x7e] r rm)
      (.movgx .q (opd RM) (.xmm (r.num.setWidth 4))) := by enc66 hr, h
theorem movq_xx (hr : r.num < 16#8) (h : rmRM ψ rm = some RM) :
    Dec ψ (.i8 0xf3 :: It.mr [0x0f, 0x7e] r rm)
      (.movqx (.xmm (r.num.setWidth 4)) (X86.xmOpd RM)) := by encf3 hr, h
theorem movq_mx (hr : r.num < 16#8) (h : rmRM ψ rm = some RM) :
    Dec ψ (.i8 0x66 :: It.mr [0x0f, 0xd6] r rm)
      (.movqx (X86.xmOpd RM) (.xmm (r.num.setWidth 4))) := by enc66 hr, h

theorem roundpd_ok (m : Byte) (hr : r.num < 16#8) (h : rmRM ψ rm = some RM) :
    Dec ψ (.i8 0x66 :: It.mr [0x0f, 0x3a, 0x09] r rm ++ [.i8 m])
      (.round .pd (.xmm (r.num.setWidth 4)) (X86.xmOpd RM) m) := by
  refine ⟨fun rest => ?_, by simp [It.mr, encItems_noFail ψ _ _ (.reg r) _ _ _ hr h]⟩
  obtain ⟨R, tail, h1, h2, h3, h4⟩ :=
    enc_decode ψ 0x0f [0x3a, 0x09] .none (.reg r) rm .none { opsize := true } RM (m :: rest) rfl
      (by decide) hr h
  simp only [It.mr, X86.decode, bytesOf_cons, bytesOf_append, bytesOf_nil, Item.bytes, List.cons_append,
    List.nil_append, List.append_assoc, X86.prefixes, BitVec.ofNat_eq_ofNat, if_true]
  simp only [BitVec.ofNat_eq_ofNat] at h1
  rw [h1]
  simp [X86.dispatch, X86.map3A, h2, mmVal, immBytes, X86.rd8]

/-! ### Stack and control transfer -/

theorem push_mem (h : rmRM ψ rm = some RM) :
    Dec ψ (It.digit [0xff] rm 6) (.push (opd RM)) := by enc0 (by simp [mmOk]), h
theorem pop_mem (h : rmRM ψ rm = some RM) :
    Dec ψ (It.digit [0x8f] rm 0) (.pop (opd RM)) := by enc0 (by simp [mmOk]), h
theorem call_ind (h : rmRM ψ rm = some RM) :
    Dec ψ (It.digit [0xff] rm 2) (.callInd (opd RM)) := by enc0 (by simp [mmOk]), h
theorem jmp_ind (h : rmRM ψ rm = some RM) :
    Dec ψ (It.digit [0xff] rm 4) (.jmpInd (opd RM)) := by enc0 (by simp [mmOk]), h

theorem call_rel (l : DestLabel) : Dec ψ [.i8 0xe8, .rel l 4] (.callRel ((ψ l).signExtend 64)) := by
  refine ⟨fun rest => ?_, by simp [It.d, NoFail]⟩
  simp [Item.bytes, X86.decode, X86.prefixes, X86.isRex, X86.dispatch, X86.map1, imm32_le32]
theorem call_disp {v} (hi : i32TryFrom i = some v) : Dec ψ [.i8 0xe8, .i32 v] (.callRel i) := by
  have hi := i32_some hi
  refine ⟨fun rest => ?_, by simp [It.d, NoFail]⟩
  simp [Item.bytes, X86.decode, X86.prefixes, X86.isRex, X86.dispatch, X86.map1, imm32_le32, hi]
theorem jmp_rel (l : DestLabel) : Dec ψ (It.d [0xe9] l) (.jmpRel ((ψ l).signExtend 64)) := by
  refine ⟨fun rest => ?_, by simp [It.d, NoFail]⟩
  simp [It.d, Item.bytes, X86.decode, X86.prefixes, X86.isRex, X86.dispatch, X86.map1, imm32_le32]
theorem jcc_rel (c : Cond) (l : DestLabel) :
    Dec ψ (It.d [0x0f, 0x80 + c.code] l) (.jcc (Spec.cc c) ((ψ l).signExtend 64)) := by
  refine ⟨fun rest => ?_, by simp [It.d, NoFail]⟩
  cases c <;> simp [It.d, Item.bytes, X86.decode, X86.prefixes, X86.isRex, X86.dispatch, X86.map2,
    imm32_le32, Cond.code, Spec.cc]

/-! ### No operands -/

macro "bytes" : tactic => `(tactic|
  (refine ⟨fun rest => ?_, by simp⟩; simp [Item.bytes, X86.decode, X86.prefixes, X86.isRex, X86.isLegacy, X86.dispatch,
     X86.map1, X86.map2, X86.Pfx.size, X86.Pfx.w, X86.opReg, X86.Pfx.b]))

theorem cqo_ok : Dec ψ [.i8 0x48, .i8 0x99] (.signExtDx .q) := by bytes
theorem cdq_ok : Dec ψ [.i8 0x99] (.signExtDx .d) := by bytes
theorem int3_ok : Dec ψ [.i8 0xcc] .int3 := by bytes
theorem ret_ok : Dec ψ [.i8 0xc3] .ret := by bytes
theorem leave_ok : Dec ψ [.i8 0xc9] .leave := by bytes
theorem syscall_ok : Dec ψ [.i8 0x0f, .i8 0x05] .syscall := by bytes
theorem nop_ok : Dec ψ [.i8 0x90] .nop := by bytes

end

end Monoasm
