import Verif.Proofs.Enc
import Verif.Spec.NoIndex
/-
  Every instruction's bytes decode to its meaning.
-/

set_option linter.unusedSimpArgs false

namespace Monoasm
open X86 (Pfx)

def immBytes : Imm → List Byte
  | .none => []
  | .b v => [v]
  | .w v => le16 v
  | .l v => le32 v
  | .q v => le64 v

theorem immItems_bytes (ψ imm) : bytesOf ψ (immItems imm) = immBytes imm := by
  cases imm <;> simp [immItems, immBytes, Item.bytes]

theorem mmReg4_msb (mm) (h : mmOk mm) : msb4 (mmReg4 mm) = msb4 (mmVal mm) := by
  cases mm with
  | reg r => rfl
  | digit d =>
    have : ∀ d : BitVec 8, d < 8#8 → msb4 0 = msb4 (d.setWidth 4) := by decide +kernel
    exact this d h

theorem rmRM_base {ψ rm RM} (h : rmRM ψ rm = some RM) :
    (rm.base.num < 16 ∨ rm.base.num = 16)
    ∧ (∀ sc i d, rm.mode = .ind (.s1 sc i) d → i.num < 16)
    ∧ (rm.base.is_rip = true → ∃ d, rm.mode = .ind .none d)
    ∧ (rm.mode = .reg → RM = .reg (rexBase rm)) := by
  obtain ⟨base, mode⟩ := rm
  have hne : base.num < 16 → ¬ base.is_rip = true := by
    intro hlt hr
    rw [Reg.eq_of4 hlt, of4_not_rip] at hr; cases hr
  cases mode with
  | reg =>
    simp only [rmRM] at h
    split at h
    · rename_i hlt; cases h
      refine ⟨.inl hlt, by simp, fun hr => absurd hr (hne hlt), fun _ => ?_⟩
      simp [rexBase, hne hlt]
    · cases h
  | ind sc d =>
    cases sc with
    | none =>
      simp only [rmRM] at h
      split at h
      · rename_i h16; exact ⟨.inr h16, by simp, fun _ => ⟨d, rfl⟩, by simp⟩
      · split at h
        · rename_i hlt; exact ⟨.inl hlt, by simp, fun hr => ⟨d, rfl⟩, by simp⟩
        · cases h
    | s1 s i =>
      simp only [rmRM] at h
      split at h
      · rename_i hc
        refine ⟨.inl hc.1, ?_, fun hr => absurd hr (hne hc.1), by simp⟩
        rintro _ _ _ ⟨⟩; exact hc.2.1
      · cases h

/-- Decoding of the bytes of `encItems` reduces to dispatching on the opcode. -/
theorem enc_decode (ψ) (b0 : Byte) (ops : List Byte) (k mm rm imm) (p0 : Pfx) (RM) (rest : List Byte)
    (hp : p0.rex = none) (hb : X86.isRex b0 = false ∧ X86.isLegacy b0 = false)
    (hm : mmOk mm) (hRM : rmRM ψ rm = some RM) :
    ∃ (R : Option (BitVec 4)) (tail : List Byte),
      X86.prefixes p0 (bytesOf ψ (encItems (b0 :: ops) k mm rm imm) ++ rest)
        = some ({ p0 with rex := R }, b0, ops ++ tail)
      ∧ X86.modrm { p0 with rex := R } tail = some (mmVal mm, RM, immBytes imm ++ rest)
      ∧ Pfx.w { p0 with rex := R } = decide (k = .rexw)
      ∧ (k = .byte → R = none → ¬ mmReg4 mm > 3 ∧ ∀ r, RM = .reg r → ¬ r > 3) := by
  obtain ⟨h1, h2, h3, h4⟩ := rmRM_base hRM
  have hsplit := encItems_split (b0 :: ops) k mm rm imm hm h1 h2 h3
  have hok := rexOpt_ok k (mmReg4 mm) (rexBase rm) (rexIdx rm) (rm.mode = .reg)
  refine ⟨rexBits (rexOpt k (mmReg4 mm) (rexBase rm) (rexIdx rm) (rm.mode = .reg)),
    bytesOf ψ (tailItems mm rm imm) ++ (immBytes imm ++ rest), ?_, ?_, ?_, ?_⟩
  · rw [hsplit]
    simp only [bytesOf_append, bytesOf_map_i8, List.append_assoc, immItems_bytes, List.map_cons,
      bytesOf_cons, Item.bytes, List.cons_append, List.nil_append]
    exact prefixes_rex p0 hp _ b0 _ (fun y hy => rexOpt_isRex _ _ _ _ _ y hy) hb
  · exact tail_decode ψ _ mm rm imm RM _ hRM (hok.r.trans (mmReg4_msb mm hm)) hok.x hok.b
  · exact hok.w
  · rintro rfl hR
    have : rexOpt .byte (mmReg4 mm) (rexBase rm) (rexIdx rm) (rm.mode = .reg) = none := by
      simpa [rexBits] using hR
    have hh := rexOpt_byte _ _ _ _ this
    refine ⟨hh.1, ?_⟩
    rintro r rfl
    cases hmode : rm.mode with
    | reg =>
      have := h4 hmode
      cases this
      exact hh.2 (by simp [hmode])
    | ind sc d =>
      exfalso
      simp only [rmRM, hmode] at hRM
      cases sc <;> simp only at hRM <;> (repeat' split at hRM) <;> cases hRM

/-- The items of a well-formed operand contain no failing assertion. -/
theorem encItems_noFail (ψ) (op k mm rm imm RM) (hm : mmOk mm) (hRM : rmRM ψ rm = some RM) :
    NoFail (encItems op k mm rm imm) := by
  obtain ⟨h1, h2, h3, h4⟩ := rmRM_base hRM
  rw [encItems_split op k mm rm imm hm h1 h2 h3]
  have i8 : ∀ l : List Byte, NoFail (l.map .i8) := by
    intro l e h; simp at h
  have hd : ∀ d, NoFail (dispItems imm d) := by intro d; cases d <;> simp [dispItems]
  have hi : NoFail (immItems imm) := by cases imm <;> simp [immItems]
  simp only [noFail_append, i8, hi, and_true, true_and]
  obtain ⟨base, mode⟩ := rm
  simp only [tailItems]
  by_cases hr : base.is_rip = true
  · obtain ⟨d, hd'⟩ := h3 hr
    simp only at hd'; subst hd'
    cases d <;> simp [hr, Rm.rip_ind_from, hd]
  · simp only [hr, if_false, Bool.false_eq_true]
    cases mode with
    | reg => simp
    | ind sc d =>
      cases sc with
      | none =>
        simp only [scaleItems]
        split
        · have hsib : sibItem 0#8 ⟨4#8⟩ base
              = .i8 (BitVec.setWidth 8 0#2 <<< 6 ||| (4#8 &&& 7#8) <<< 3 ||| (base.num &&& 7#8)) := rfl
          simp only [BitVec.ofNat_eq_ofNat, hsib]
          simp [hd]
        · simp [hd]
      | s1 s i =>
        simp only [rmRM] at hRM
        split at hRM
        · rename_i hc
          have hsib : sibItem s i base
              = .i8 (s <<< 6 ||| (i.num &&& 7#8) <<< 3 ||| (base.num &&& 7#8)) := by
            rw [sibItem, if_pos ⟨hc.2.2, hc.2.1⟩]; rfl
          simp only [scaleItems]
          split <;> simp [hsib, hd]
        · cases hRM

/-! ### Operands -/

/-- The slot content that makes a label reference denote `rel l`. -/
def Fits (rel : Nat → BitVec 64) (ψ : DestLabel → BitVec 32) : Prop :=
  ∀ l, rel l = (ψ l).signExtend 64

theorem toReg_num (r : Register V) : r.toReg.num = (Spec.regVal r).setWidth 8 := by
  cases r <;> rfl

theorem xmm_toReg_num (r : XmmReg V) : r.toReg.num = (Spec.xmmVal r).setWidth 8 := by
  cases r <;> rfl

theorem v16 (v : BitVec 64) (h : v < 16) : v.setWidth 8 < 16#8 ∧ (v.setWidth 8).setWidth 4 = v.setWidth 4 := by
  have h' : v.toNat < 16 := by simpa [BitVec.lt_def] using h
  constructor
  · simp [BitVec.lt_def]; omega
  · apply BitVec.eq_of_toNat_eq; simp

theorem gpr_some {r : Register V} {g} (h : Spec.gpr r = some g) :
    r.toReg.num < 16#8 ∧ r.toReg.num.setWidth 4 = g := by
  simp only [Spec.gpr] at h
  split at h
  · rename_i hlt; cases h
    rw [toReg_num]; exact v16 _ hlt
  · cases h

theorem xmm_some {r : XmmReg V} {g} (h : Spec.xmm r = some g) :
    r.toReg.num < 16#8 ∧ r.toReg.num.setWidth 4 = g := by
  simp only [Spec.xmm] at h
  split at h
  · rename_i hlt; cases h
    rw [xmm_toReg_num]; exact v16 _ hlt
  · cases h

/-- Displacement compaction keeps the value. -/
theorem from_disp_val (ψ) (d : BitVec 32) : dispVal ψ (Disp.from_disp d) = d.signExtend 64 := by
  simp only [Disp.from_disp]
  split
  · rename_i h; subst h; rfl
  · simp only [i8TryFrom32]
    split
    · rename_i h; split at h
      · rename_i hr
        cases h
        simp only [dispVal]
        apply BitVec.eq_of_toInt_eq
        have e : (d.setWidth 8).toInt = d.toInt := by
          rw [BitVec.toInt_setWidth]
          have := BitVec.toInt_eq_toNat_bmod d
          rw [this] at hr ⊢
          have : ((d.toNat : Int).bmod (2^8)) = (((d.toNat : Int).bmod (2^32)).bmod (2^8)) := by
            rw [Int.bmod_bmod_of_dvd]; decide
          rw [this]
          rw [Int.bmod_eq_of_le] <;> omega
        rw [BitVec.toInt_signExtend_of_le (by omega), BitVec.toInt_signExtend_of_le (by omega), e]
      · cases h
    · rfl

theorem disp_val {rel ψ} (hf : Fits rel ψ) (d : MDisp V DestLabel) :
    dispVal ψ d.toDisp = Spec.disp rel d := by
  cases d with
  | imm d => exact from_disp_val ψ d
  | expr n e => cases n <;> exact from_disp_val ψ _
  | label l => exact (hf l).symm

theorem addr_some {rel ψ} (hf : Fits rel ψ) {a : IndAddr V DestLabel} {A}
    (h : Spec.addr rel a = some A) : rmRM ψ a.toRm = some (.mem A) := by
  obtain ⟨base, scale, disp⟩ := a
  simp only [IndAddr.toRm, Rm.ind]
  cases scale with
  | none =>
    simp only [Spec.addr] at h
    simp only [MScale.toScale, rmRM]
    split at h
    · rename_i h16; cases h
      rw [if_pos (by rw [toReg_num, h16]; rfl), disp_val hf]
    · rename_i h16
      cases hg : Spec.gpr base with
      | none => simp [hg] at h
      | some g =>
        simp [hg] at h; cases h
        have := gpr_some hg
        rw [if_neg (by intro hh; rw [hh] at this; exact absurd this.1 (by decide)), if_pos (by exact this.1),
          this.2, disp_val hf]
  | s1 sc idx =>
    simp only [Spec.addr] at h
    simp only [MScale.toScale, rmRM]
    cases hg : Spec.gpr base with
    | none => simp [hg] at h
    | some g =>
      cases hi : Spec.gpr idx with
      | none => simp [hg, hi] at h
      | some i =>
        simp only [hg, hi, Option.bind_eq_bind, Option.bind_some] at h
        split at h
        · cases h
        · split at h
          · rename_i h4 hs
            cases h
            have hb := gpr_some hg
            have hx := gpr_some hi
            rw [if_pos ⟨hb.1, hx.1, hs⟩, if_neg (by
              intro hh; rw [hh] at hx; exact h4 (by rw [← hx.2]; rfl)), hb.2, hx.2, disp_val hf]
          · cases h

/-- `δ a` denotes what is encoded for the memory operand `a`. -/
def Encodes (rel : Nat → BitVec 64) (ψ : DestLabel → BitVec 32) (δ : IndAddr V DestLabel → IndAddr V DestLabel) : Prop :=
  ∀ {a A}, Spec.addr rel (δ a) = some A → rmRM ψ a.toRm = some (.mem A)

/-- An index `rsp` disappears. -/
theorem addr_dropped {rel ψ} (hf : Fits rel ψ) {a : IndAddr V DestLabel} {A}
    (h : Spec.addr rel (Spec.dropRsp a) = some A) : rmRM ψ a.toRm = some (.mem A) := by
  obtain ⟨base, scale, disp⟩ := a
  cases scale with
  | none => exact addr_some hf h
  | s1 sc idx =>
    simp only [Spec.dropRsp] at h
    split at h
    · rename_i hc
      simp only [Spec.addr, if_neg hc.2.2] at h
      cases hg : Spec.gpr base with
      | none => simp [hg] at h
      | some g =>
        simp [hg] at h; cases h
        have hb := gpr_some hg
        have hn : idx.toReg.num = 4#8 := by rw [toReg_num, hc.1]; rfl
        simp only [IndAddr.toRm, Rm.ind, MScale.toScale, rmRM, hn]
        rw [if_pos ⟨hb.1, by decide, hc.2.1⟩, if_pos (by rfl), hb.2, disp_val hf]
    · exact addr_some hf h

end Monoasm
