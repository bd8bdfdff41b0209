import Verif.Proofs.Decode
/-
  Decoding of whole instructions.
-/

set_option linter.unusedSimpArgs false

namespace Monoasm
open X86 (Pfx)

/-- The bytes of the items decode to `I`, whatever follows, and no item panics by itself. -/
structure Dec (ψ : DestLabel → BitVec 32) (its : List Item) (I : X86.Instr) : Prop where
  dec : ∀ rest, X86.decode (bytesOf ψ its ++ rest) = some (I, rest)
  noFail : NoFail its

/-- Facts about the REX prefix and the operand bytes, as provided by `enc_decode`. -/
structure Enc (p : Pfx) (k : Rex) (mm : ModRM) (RM : X86.RM) (imm : Imm) (tail rest : List Byte) :
    Prop where
  modrm : X86.modrm p tail = some (mmVal mm, RM, immBytes imm ++ rest)
  w : p.w = decide (k = .rexw)
  byte : k = .byte → p.rex = none → ¬ mmReg4 mm > 3 ∧ ∀ r, RM = .reg r → ¬ r > 3

section
variable {ψ : DestLabel → BitVec 32} {b0 : Byte} {ops : List Byte} {k : Rex} {mm : ModRM} {rm : Rm}
  {imm : Imm} {RM : X86.RM} {I : X86.Instr}

theorem dec_enc (hm : mmOk mm) (hRM : rmRM ψ rm = some RM)
    (hb : X86.isRex b0 = false ∧ X86.isLegacy b0 = false)
    (h : ∀ R tail rest, Enc ⟨false, .none, R⟩ k mm RM imm tail rest →
      X86.dispatch ⟨false, .none, R⟩ b0 (ops ++ tail) = some (I, rest)) :
    Dec ψ (encItems (b0 :: ops) k mm rm imm) I := by
  refine ⟨fun rest => ?_, by simp [encItems_noFail ψ _ _ _ _ _ _ hm hRM]⟩
  obtain ⟨R, tail, h1, h2, h3, h4⟩ := enc_decode ψ b0 ops k mm rm imm {} RM rest rfl hb hm hRM
  simp only [X86.decode, h1]
  exact h R tail rest ⟨h2, h3, h4⟩

theorem dec_enc66 (hm : mmOk mm) (hRM : rmRM ψ rm = some RM)
    (hb : X86.isRex b0 = false ∧ X86.isLegacy b0 = false)
    (h : ∀ R tail rest, Enc ⟨true, .none, R⟩ k mm RM imm tail rest →
      X86.dispatch ⟨true, .none, R⟩ b0 (ops ++ tail) = some (I, rest)) :
    Dec ψ (.i8 0x66 :: encItems (b0 :: ops) k mm rm imm) I := by
  refine ⟨fun rest => ?_, by simp [encItems_noFail ψ _ _ _ _ _ _ hm hRM]⟩
  obtain ⟨R, tail, h1, h2, h3, h4⟩ :=
    enc_decode ψ b0 ops k mm rm imm { opsize := true } RM rest rfl hb hm hRM
  simp only [X86.decode, bytesOf_cons, Item.bytes, List.cons_append, List.nil_append, X86.prefixes,
    BitVec.ofNat_eq_ofNat, if_true, h1]
  exact h R tail rest ⟨h2, h3, h4⟩

theorem dec_encf2 (hm : mmOk mm) (hRM : rmRM ψ rm = some RM)
    (hb : X86.isRex b0 = false ∧ X86.isLegacy b0 = false)
    (h : ∀ R tail rest, Enc ⟨false, .f2, R⟩ k mm RM imm tail rest →
      X86.dispatch ⟨false, .f2, R⟩ b0 (ops ++ tail) = some (I, rest)) :
    Dec ψ (.i8 0xf2 :: encItems (b0 :: ops) k mm rm imm) I := by
  refine ⟨fun rest => ?_, by simp [encItems_noFail ψ _ _ _ _ _ _ hm hRM]⟩
  obtain ⟨R, tail, h1, h2, h3, h4⟩ :=
    enc_decode ψ b0 ops k mm rm imm { rep := .f2 } RM rest rfl hb hm hRM
  have hne : ¬ (242#8 = 102#8) := by decide
  simp only [X86.decode, bytesOf_cons, Item.bytes, List.cons_append, List.nil_append, X86.prefixes,
    BitVec.ofNat_eq_ofNat, if_true, hne, if_false, h1]
  exact h R tail rest ⟨h2, h3, h4⟩

theorem dec_encf3 (hm : mmOk mm) (hRM : rmRM ψ rm = some RM)
    (hb : X86.isRex b0 = false ∧ X86.isLegacy b0 = false)
    (h : ∀ R tail rest, Enc ⟨false, .f3, R⟩ k mm RM imm tail rest →
      X86.dispatch ⟨false, .f3, R⟩ b0 (ops ++ tail) = some (I, rest)) :
    Dec ψ (.i8 0xf3 :: encItems (b0 :: ops) k mm rm imm) I := by
  refine ⟨fun rest => ?_, by simp [encItems_noFail ψ _ _ _ _ _ _ hm hRM]⟩
  obtain ⟨R, tail, h1, h2, h3, h4⟩ :=
    enc_decode ψ b0 ops k mm rm imm { rep := .f3 } RM rest rfl hb hm hRM
  have hne : ¬ (243#8 = 102#8) := by decide
  have hne' : ¬ (243#8 = 242#8) := by decide
  simp only [X86.decode, bytesOf_cons, Item.bytes, List.cons_append, List.nil_append, X86.prefixes,
    BitVec.ofNat_eq_ofNat, if_true, hne, hne', if_false, h1]
  exact h R tail rest ⟨h2, h3, h4⟩
end

/-- register class general / memory -/
def opd : X86.RM → X86.Opd
  | .reg r => .gpr r
  | .mem a => .mem a

theorem rmOpd_q (p RM) : X86.rmOpd p .q RM = opd RM := by cases RM <;> simp [X86.rmOpd, X86.regOpd, opd]
theorem rmOpd_d (p RM) : X86.rmOpd p .d RM = opd RM := by cases RM <;> simp [X86.rmOpd, X86.regOpd, opd]
theorem rmOpd_w (p RM) : X86.rmOpd p .w RM = opd RM := by cases RM <;> simp [X86.rmOpd, X86.regOpd, opd]
theorem regOpd_q (p r) : X86.regOpd p .q r = .gpr r := by simp [X86.regOpd]
theorem regOpd_d (p r) : X86.regOpd p .d r = .gpr r := by simp [X86.regOpd]
theorem regOpd_w (p r) : X86.regOpd p .w r = .gpr r := by simp [X86.regOpd]

theorem ge4_gt3 : ∀ r : BitVec 4, 4#4 ≤ r → r > 3#4 := by decide +kernel

theorem regOpd_b (p : Pfx) (r) (h : p.rex = none → ¬ r > 3) : X86.regOpd p .b r = .gpr r := by
  simp only [X86.regOpd]
  rw [if_neg]
  rintro ⟨_, h1, h2, _⟩
  exact h h1 (ge4_gt3 r h2)

theorem rmOpd_b (p : Pfx) (RM) (h : p.rex = none → ∀ r, RM = .reg r → ¬ r > 3) :
    X86.rmOpd p .b RM = opd RM := by
  cases RM with
  | mem a => rfl
  | reg r => exact regOpd_b p r (fun hp => h hp r rfl)

section
variable {p : Pfx} {k : Rex} {mm : ModRM} {RM : X86.RM} {imm : Imm} {tail rest : List Byte}

theorem Enc.rm_b (h : Enc p .byte mm RM imm tail rest) : X86.rmOpd p .b RM = opd RM :=
  rmOpd_b p RM fun hp => (h.byte rfl hp).2

theorem Enc.reg_b {r : Reg} (h : Enc p .byte (.reg r) RM imm tail rest) :
    X86.regOpd p .b (r.num.setWidth 4) = .gpr (r.num.setWidth 4) :=
  regOpd_b p _ fun hp => (h.byte rfl hp).1

end

theorem reg_rm (ψ) {r : Reg} (h : r.num < 16#8) :
    rmRM ψ (Rm.reg r) = some (.reg (r.num.setWidth 4)) := if_pos h

theorem rm_some {rel ψ δ} (hδ : Encodes rel ψ δ) {op : RmOperand V DestLabel} {o}
    (h : Spec.rm rel (op.mapAddr δ) = some o) : ∃ RM, rmRM ψ op.toRm = some RM ∧ o = opd RM := by
  cases op with
  | reg r =>
    simp only [RmOperand.mapAddr, Spec.rm] at h
    cases hg : Spec.gpr r with
    | none => simp [hg] at h
    | some g =>
      simp [hg] at h; subst h
      have := gpr_some hg
      exact ⟨.reg g, by rw [← this.2]; exact reg_rm ψ this.1, rfl⟩
  | ind a =>
    simp only [RmOperand.mapAddr, Spec.rm] at h
    cases ha : Spec.addr rel (δ a) with
    | none => simp [ha] at h
    | some A =>
      simp [ha] at h; subst h
      exact ⟨.mem A, hδ ha, rfl⟩

theorem xm_some {rel ψ δ} (hδ : Encodes rel ψ δ) {op : XmOperand V DestLabel} {o}
    (h : Spec.xm rel (op.mapAddr δ) = some o) : ∃ RM, rmRM ψ op.toRm = some RM ∧ o = X86.xmOpd RM := by
  cases op with
  | xmm r =>
    simp only [XmOperand.mapAddr, Spec.xm] at h
    cases hg : Spec.xmm r with
    | none => simp [hg] at h
    | some g =>
      simp [hg] at h; subst h
      have := xmm_some hg
      exact ⟨.reg g, by rw [← this.2]; exact reg_rm ψ this.1, rfl⟩
  | ind a =>
    simp only [XmOperand.mapAddr, Spec.xm] at h
    cases ha : Spec.addr rel (δ a) with
    | none => simp [ha] at h
    | some A =>
      simp [ha] at h; subst h
      exact ⟨.mem A, hδ ha, rfl⟩

/-! ### Immediates -/

theorem toInt_setWidth_of_range (x : BitVec 64) (n : Nat) (hn : 0 < n) (h64 : n ≤ 64)
    (hl : -(2 ^ (n - 1) : Int) ≤ x.toInt) (hu : x.toInt < (2 ^ (n - 1) : Int)) :
    (x.setWidth n).toInt = x.toInt := by
  rw [BitVec.toInt_setWidth]
  have e := BitVec.toInt_eq_toNat_bmod x
  have : ((x.toNat : Int).bmod (2^n)) = (((x.toNat : Int).bmod (2^64)).bmod (2^n)) := by
    rw [Int.bmod_bmod_of_dvd]
    exact_mod_cast Nat.pow_dvd_pow 2 h64
  rw [this, ← e]
  have hp : (2 ^ n : Nat) = 2 * 2 ^ (n - 1) := by
    obtain ⟨m, rfl⟩ := Nat.exists_eq_succ_of_ne_zero (Nat.pos_iff_ne_zero.1 hn)
    simp [Nat.pow_succ, Nat.mul_comm]
  have hpi : (2 ^ (n - 1) : Int) = ((2 ^ (n - 1) : Nat) : Int) := by push_cast; rfl
  rw [hpi] at hl hu
  rw [Int.bmod_eq_of_le] <;> rw [hp] <;> omega

theorem i8_some {i : V} {v} (h : i8TryFrom i = some v) : v.signExtend 64 = i := by
  simp only [i8TryFrom] at h
  split at h
  · rename_i hr; cases h
    apply BitVec.eq_of_toInt_eq
    rw [BitVec.toInt_signExtend_of_le (by omega)]
    exact toInt_setWidth_of_range i 8 (by omega) (by omega) (by omega) (by omega)
  · cases h

theorem i16_some {i : V} {v} (h : i16TryFrom i = some v) : v.signExtend 64 = i := by
  simp only [i16TryFrom] at h
  split at h
  · rename_i hr; cases h
    apply BitVec.eq_of_toInt_eq
    rw [BitVec.toInt_signExtend_of_le (by omega)]
    exact toInt_setWidth_of_range i 16 (by omega) (by omega) (by omega) (by omega)
  · cases h

theorem i32_some {i : V} {v} (h : i32TryFrom i = some v) : v.signExtend 64 = i := by
  simp only [i32TryFrom] at h
  split at h
  · rename_i hr; cases h
    apply BitVec.eq_of_toInt_eq
    rw [BitVec.toInt_signExtend_of_le (by omega)]
    exact toInt_setWidth_of_range i 32 (by omega) (by omega) (by omega) (by omega)
  · cases h

theorem imm8_b (v : BitVec 8) (r) : X86.imm8 (v :: r) = some (v.signExtend 64, r) := by
  simp [X86.imm8, X86.rd8]
theorem imm16_w (v : BitVec 16) (r) : X86.imm16 (le16 v ++ r) = some (v.signExtend 64, r) := by
  simp [X86.imm16, rd16_le16]

end Monoasm
