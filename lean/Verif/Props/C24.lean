import Verif.Proofs.Correct
/-
  C24: ModRM, SIB, displacement and REX bytes denote the operand that was asked for.
-/

namespace Monoasm
open Spec

/-- For any opcode, prefix mode, ModRM.reg operand, register or memory operand and immediate:
    `encode` succeeds if there is room, and the bytes it emits are read by the x86-64 rules as the
    opcode, the same ModRM.reg operand, the same r/m operand, and the immediate; REX.W is set
    exactly if asked for. -/
theorem C24_operand (b0 : Byte) (ops : List Byte) (k : Rex) (mm : ModRM) (r : BitVec 4) (rm : Rm) (RM : X86.RM)
    (imm : Imm) (s : JitMemory)
    (hb : X86.isRex b0 = false ∧ X86.isLegacy b0 = false) (hm : DenotesReg mm r) (hRM : Denotes rm RM)
    (room : cursor s s.page + ops.length + 16 ≤ PAGE_SIZE) :
    ∃ s', JitMemory.encode (b0 :: ops) k mm rm imm s = .ok () s' ∧ ∀ rest, ∃ p tail,
      X86.prefixes {} (bytes s'.mem (here s) (here s' - here s) ++ rest) = some (p, b0, ops ++ tail)
      ∧ X86.modrm p tail = some (r, RM, immField imm ++ rest)
      ∧ p.w = decide (k = .rexw) := by
  have hm' : mmOk mm ∧ mmVal mm = r := by
    cases hm with
    | reg r => revert r; simp only [mmOk, mmVal, regNo]; decide +kernel
    | digit d => revert d; simp only [mmOk, mmVal]; decide +kernel
  obtain ⟨hm1, rfl⟩ := hm'
  have h16 : ∀ b : BitVec 4, b.setWidth 8 < 16#8 ∧ (b.setWidth 8).setWidth 4 = b ∧ b.setWidth 8 ≠ 16#8
      ∧ (b ≠ 4#4 → b.setWidth 8 ≠ 4#8) := by decide +kernel
  have h4 : ∀ sc : BitVec 2, sc.setWidth 8 < 4#8 ∧ (sc.setWidth 8).setWidth 2 = sc := by decide +kernel
  have hR (ψ) : rmRM ψ rm = some RM := by
    cases hRM with
    | reg r => simp [rmRM, Rm.reg, regNo, h16 r]
    | base b d => simp [rmRM, Rm.ind, regNo, h16 b, from_disp_val]
    | index b x sc d h => simp [rmRM, Rm.ind, regNo, h16 b, h16 x, (h16 x).2.2.2 h, h4 sc, from_disp_val]
    | rip d => simp [rmRM, Rm.ind, from_disp_val]
  have hno : ∀ l off, Item.rel l off ∉ encItems (b0 :: ops) k mm rm imm := by
    refine enc_noRel _ _ _ _ _ fun l => ?_
    cases hRM with
    | reg r => simp [Rm.reg, Mode.disp]
    | _ => simpa [Rm.ind, Mode.disp] using from_disp_noLabel _ _
  have hf := encItems_noFail (fun _ => 0) (b0 :: ops) k mm rm imm RM hm1 (hR _)
  have hlen := enc_len (b0 :: ops) k mm rm imm
  have himm : lenOf (immItems imm) ≤ 8 := by cases imm <;> simp [immItems, Item.len]
  obtain ⟨s', hs⟩ := runItems_total (s := s) hf (fun l off h => absurd h (hno l off))
    (fun l h => (encItems_noBind _ _ _ _ _ _ h).elim)
    (by simp only [cursor, List.length_cons] at room hlen; omega)
  refine ⟨s', by rw [encode_eq]; exact hs, fun rest => ?_⟩
  have hr := runItems_ok hs
  have hh := hr.here
  have e : here s' - here s = lenOf (encItems (b0 :: ops) k mm rm imm) := by omega
  obtain ⟨R, tail, h1, h2, h3, _⟩ :=
    enc_decode (fun _ => 0) b0 ops k mm rm imm {} RM rest rfl hb hm1 (hR _)
  refine ⟨_, tail, ?_, ?_, h3⟩
  · rw [← h1, e, bytes_eq_bytesAt, hr.mem, ← bytesOf_length (fun _ => 0), bytesAt_put]
  · rw [h2]
    have : immField imm = immBytes imm := by
      cases imm <;> simp only [immField, immBytes, littleEndian_16, littleEndian_32, littleEndian_64]
      rename_i v; simp [littleEndian]
    rw [this]

/-- `mov r13, [r12 + r9*8 - 129]`: both special cases of the encoding are involved. -/
example : ∃ s', JitMemory.encode [0x8b] .rexw (.reg ⟨13⟩)
      (Rm.ind ⟨12⟩ (Disp.from_disp (-129)) (.s1 3 ⟨9⟩)) .none ex0 = .ok () s' ∧ ∀ rest, ∃ p tail,
    X86.prefixes {} (bytes s'.mem (here ex0) (here s' - here ex0) ++ rest) = some (p, 0x8b, tail)
    ∧ X86.modrm p tail = some (13, .mem ⟨.gpr 12, some (9, 3), -129⟩, rest)
    ∧ p.w = true :=
  C24_operand 0x8b [] .rexw _ 13 _ _ .none ex0 (by decide) (.reg 13) (.index 12 9 3 (-129) (by decide))
    (by simp [cursor, ex0, JitMemory.new, MemPage.new, PAGE_SIZE])

end Monoasm
