import Verif.Proofs.Decode3

set_option linter.unusedSimpArgs false

namespace Monoasm
open X86 (Pfx)

theorem low3_cases : ∀ n : BitVec 8, (n &&& 7#8) = 0#8 ∨ (n &&& 7#8) = 1#8 ∨ (n &&& 7#8) = 2#8 ∨ (n &&& 7#8) = 3#8
    ∨ (n &&& 7#8) = 4#8 ∨ (n &&& 7#8) = 5#8 ∨ (n &&& 7#8) = 6#8 ∨ (n &&& 7#8) = 7#8 := by decide +kernel

theorem low3_ext (n : BitVec 8) (c : BitVec 8) (h : (n &&& 7#8) = c) :
    n.extractLsb' 0 3 = c.extractLsb' 0 3 := by
  subst h; revert n; decide +kernel

/-- `op + reg` encodings -/
theorem o_decode (ψ) (k : Rex) (op : Byte) (r : Reg) (p0 : Pfx) (rest : List Byte)
    (hp : p0.rex = none) (hr : r.num < 16#8)
    (hb : X86.isRex (op ||| (r.num &&& 7#8)) = false ∧ X86.isLegacy (op ||| (r.num &&& 7#8)) = false) :
    ∃ R : Option (BitVec 4),
      X86.prefixes p0 (bytesOf ψ (It.o k op r) ++ rest)
        = some ({ p0 with rex := R }, op ||| (r.num &&& 7#8), rest)
      ∧ Pfx.w { p0 with rex := R } = decide (k = .rexw)
      ∧ Pfx.b { p0 with rex := R } = msb4 (r.num.setWidth 4)
      ∧ (k = .byte → R = none → ¬ r.num.setWidth 4 > 3#4) := by
  have hnr : r.is_rip = false := by rw [Reg.eq_of4 hr]; exact of4_not_rip _
  have hok := rexOpt_ok k 0 (r.num.setWidth 4) 0 true
  have h0 : (⟨0⟩ : Reg) = .of4 0 := by decide
  have hit : It.o k op r = (rexOpt k 0 (r.num.setWidth 4) 0 true).toList.map .i8
      ++ [.i8 (op ||| (r.num &&& 7#8))] := by
    simp only [It.o, hnr, Bool.false_eq_true, if_false, h0]
    have := rexItems_eq k 0 (r.num.setWidth 4) 0 .reg
    rw [← Reg.eq_of4 hr] at this
    rw [this]; rfl
  refine ⟨rexBits (rexOpt k 0 (r.num.setWidth 4) 0 true), ?_, hok.w, hok.b, ?_⟩
  · rw [hit]
    simp only [bytesOf_append, bytesOf_map_i8, bytesOf_cons, bytesOf_nil, Item.bytes, List.append_assoc,
      List.cons_append, List.nil_append]
    exact prefixes_rex p0 hp _ _ _ (fun y hy => rexOpt_isRex _ _ _ _ _ y hy) hb
  · rintro rfl hR
    have : rexOpt .byte 0 (r.num.setWidth 4) 0 true = none := by simpa [rexBits] using hR
    exact (rexOpt_byte _ _ _ _ this).2 rfl

/-- the register decoded from an `op + reg` opcode -/
theorem opReg_eq (p : Pfx) (r : Reg) (hb : p.b = msb4 (r.num.setWidth 4)) (y : Byte)
    (hy : y.extractLsb' 0 3 = r.num.extractLsb' 0 3) : X86.opReg p y = r.num.setWidth 4 := by
  rw [X86.opReg, hb, hy, ← extract_setWidth, msb_lo]

theorem o_noFail (k op) {r : Reg} (hr : r.num < 16#8) : NoFail (It.o k op r) := by
  have hnr : r.is_rip = false := by rw [Reg.eq_of4 hr]; exact of4_not_rip _
  simp only [It.o, hnr, Bool.false_eq_true, if_false, rexItems]
  cases k <;> simp
  · split <;> simp
  · split
    · simp
    · split <;> simp

theorem and7_eq : ∀ n : BitVec 8, n &&& 7#8 = (n.extractLsb' 0 3).setWidth 8 := by decide +kernel

theorem low_ind {P : BitVec 8 → Prop} (n : BitVec 8)
    (h : ∀ c : BitVec 3, n.extractLsb' 0 3 = c → P (c.setWidth 8)) : P (n &&& 7#8) := by
  rw [and7_eq]; exact h _ rfl

theorem c3_cases : ∀ c : BitVec 3, c = 0 ∨ c = 1 ∨ c = 2 ∨ c = 3 ∨ c = 4 ∨ c = 5 ∨ c = 6 ∨ c = 7 := by
  decide +kernel

def NoPfx (y : Byte) : Prop := X86.isRex y = false ∧ X86.isLegacy y = false

theorem noPfx_low (op : Byte) (hop : ∀ c : BitVec 3, NoPfx (op ||| c.setWidth 8)) (n : BitVec 8) :
    NoPfx (op ||| (n &&& 7#8)) := by
  rw [and7_eq]; exact hop _

instance (y : Byte) : Decidable (NoPfx y) := by unfold NoPfx; infer_instance

/-- Decoding of an `op + reg` instruction reduces to the eight opcodes of its row. -/
theorem dec_o {ψ} {k : Rex} {op : Byte} {r : Reg} {I : X86.Instr} {p0 : Pfx} {imm : List Byte} {rest}
    (hp : p0.rex = none) (hr : r.num < 16#8)
    (hop : ∀ c : BitVec 3, NoPfx (op ||| c.setWidth 8) ∧ (op ||| c.setWidth 8).extractLsb' 0 3 = c)
    (h : ∀ R (c : BitVec 3), Pfx.w { p0 with rex := R } = decide (k = .rexw) →
      X86.opReg { p0 with rex := R } (op ||| c.setWidth 8) = r.num.setWidth 4 →
      (k = .byte → R = none → ¬ r.num.setWidth 4 > 3#4) →
      X86.dispatch { p0 with rex := R } (op ||| c.setWidth 8) (imm ++ rest) = some (I, rest)) :
    (match X86.prefixes p0 (bytesOf ψ (It.o k op r) ++ (imm ++ rest)) with
      | none => none
      | some (p, op, bs) => X86.dispatch p op bs) = some (I, rest) := by
  obtain ⟨R, h1, h2, h3, h4⟩ := o_decode ψ k op r p0 (imm ++ rest) hp hr (noPfx_low op (fun c => (hop c).1) _)
  rw [h1]
  rw [and7_eq]
  refine h R _ h2 (opReg_eq _ r h3 _ (hop _).2) h4

section
variable {ψ : DestLabel → BitVec 32} {r : Reg}

theorem push_reg (hr : r.num < 16#8) : Dec ψ (It.o .none 0x50 r) (.push (.gpr (r.num.setWidth 4))) := by
  refine ⟨fun rest => ?_, by simp [o_noFail _ _ hr]⟩
  refine dec_o (p0 := {}) (imm := []) rfl hr (by decide +kernel) ?_
  intro R c hw hg hb
  rcases c3_cases c with rfl | rfl | rfl | rfl | rfl | rfl | rfl | rfl <;> simp at hg <;> simp [X86.dispatch, X86.map1, hg]

theorem pop_reg (hr : r.num < 16#8) : Dec ψ (It.o .none 0x58 r) (.pop (.gpr (r.num.setWidth 4))) := by
  refine ⟨fun rest => ?_, by simp [o_noFail _ _ hr]⟩
  refine dec_o (p0 := {}) (imm := []) rfl hr (by decide +kernel) ?_
  intro R c hw hg hb
  rcases c3_cases c with rfl | rfl | rfl | rfl | rfl | rfl | rfl | rfl <;> simp at hg <;> simp [X86.dispatch, X86.map1, hg]

theorem xchg_reg (hr : r.num < 16#8) (h0 : r.num.setWidth 4 ≠ 0#4) :
    Dec ψ (It.o .rexw 0x90 r) (.xchg .q (.gpr (r.num.setWidth 4)) (.gpr 0)) := by
  refine ⟨fun rest => ?_, by simp [o_noFail _ _ hr]⟩
  refine dec_o (p0 := {}) (imm := []) rfl hr (by decide +kernel) ?_
  intro R c hw hg hb
  rcases c3_cases c with rfl | rfl | rfl | rfl | rfl | rfl | rfl | rfl <;> simp at hg <;> simp [X86.dispatch, X86.map1, hg, X86.Pfx.size, hw, h0]

theorem movq_ri (hr : r.num < 16#8) (i : BitVec 64) :
    Dec ψ (It.o .rexw 0xb8 r ++ [.i64 i]) (.mov .q (.gpr (r.num.setWidth 4)) (.imm i)) := by
  refine ⟨fun rest => ?_, by simp [o_noFail _ _ hr]⟩
  simp only [bytesOf_append, bytesOf_cons, bytesOf_nil, Item.bytes, List.append_assoc, List.nil_append]
  refine dec_o (p0 := {}) (imm := le64 i) rfl hr (by decide +kernel) ?_
  intro R c hw hg hb
  rcases c3_cases c with rfl | rfl | rfl | rfl | rfl | rfl | rfl | rfl <;> simp at hg <;> simp [X86.dispatch, X86.map1, hg, X86.Pfx.size, X86.Pfx.size', hw, X86.immv, rd64_le64]

theorem movl_ri (hr : r.num < 16#8) {i : V} {v} (hi : i32TryFrom i = some v) :
    Dec ψ (It.o .none 0xb8 r ++ [.i32 v]) (.mov .d (.gpr (r.num.setWidth 4)) (.imm i)) := by
  refine ⟨fun rest => ?_, by simp [o_noFail _ _ hr]⟩
  have hi := i32_some hi
  simp only [bytesOf_append, bytesOf_cons, bytesOf_nil, Item.bytes, List.append_assoc, List.nil_append]
  refine dec_o (p0 := {}) (imm := le32 v) rfl hr (by decide +kernel) ?_
  intro R c hw hg hb
  rcases c3_cases c with rfl | rfl | rfl | rfl | rfl | rfl | rfl | rfl <;> simp at hg <;> simp [X86.dispatch, X86.map1, hg, X86.Pfx.size, X86.Pfx.size', hw, X86.immv, X86.immz, imm32_le32, hi]

theorem movw_ri (hr : r.num < 16#8) {i : V} {v} (hi : i16TryFrom i = some v) :
    Dec ψ (.i8 0x66 :: It.o .none 0xb8 r ++ [.i16 v]) (.mov .w (.gpr (r.num.setWidth 4)) (.imm i)) := by
  refine ⟨fun rest => ?_, by simp [o_noFail _ _ hr]⟩
  have hi := i16_some hi
  simp only [bytesOf_append, bytesOf_cons, bytesOf_nil, Item.bytes, List.append_assoc, List.nil_append,
    List.cons_append]
  rw [X86.decode, X86.prefixes.eq_def]
  simp only [BitVec.ofNat_eq_ofNat, if_true]
  refine dec_o (p0 := { opsize := true }) (imm := le16 v) rfl hr (by decide +kernel) ?_
  intro R c hw hg hb
  rcases c3_cases c with rfl | rfl | rfl | rfl | rfl | rfl | rfl | rfl <;> simp at hg <;> simp [X86.dispatch, X86.map1, hg, X86.Pfx.size, X86.Pfx.size', hw, X86.immv, X86.immz, imm16_w, hi]

theorem movb_ri (hr : r.num < 16#8) {i : V} {v} (hi : i8TryFrom i = some v) :
    Dec ψ (It.o .byte 0xb0 r ++ [.i8 v]) (.mov .b (.gpr (r.num.setWidth 4)) (.imm i)) := by
  refine ⟨fun rest => ?_, by simp [o_noFail _ _ hr]⟩
  have hi := i8_some hi
  simp only [bytesOf_append, bytesOf_cons, bytesOf_nil, Item.bytes, List.append_assoc, List.nil_append]
  refine dec_o (p0 := {}) (imm := [v]) rfl hr (by decide +kernel) ?_
  intro R c hw hg hb
  have hreg := regOpd_b ⟨false, .none, R⟩ (r.num.setWidth 4) (hb rfl)
  rcases c3_cases c with rfl | rfl | rfl | rfl | rfl | rfl | rfl | rfl <;> simp at hg <;> simp [X86.dispatch, X86.map1, hg, X86.Pfx.size, X86.Pfx.size', hw, imm8_b, hi, hreg]

end

end Monoasm
