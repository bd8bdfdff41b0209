import Verif.Proofs.Spill
/-
  C01: the emission functions append the little-endian bytes of their argument.
-/

namespace Monoasm
open Spec

/-- `emitb`. -/
theorem C01_emitb (s : JitMemory) (v : BitVec 8) (room : s.get_current + 1 ≤ PAGE_SIZE) :
    ∃ s', JitMemory.emitb v s = .ok () s' ∧ Appended s s.page (littleEndian 1 v.toNat) s' := by
  refine ⟨_, ?_, appended_emitted s s.page _⟩
  simp only [JitMemory.emitb, cur_bind, emitb_run, emitRes]
  refine (if_pos room).trans ?_
  simp [littleEndian]

/-- `emitw`. -/
theorem C01_emitw (s : JitMemory) (v : BitVec 16) (room : s.get_current + 2 ≤ PAGE_SIZE) :
    ∃ s', JitMemory.emitw v s = .ok () s' ∧ Appended s s.page (littleEndian 2 v.toNat) s' := by
  refine ⟨_, ?_, appended_emitted s s.page _⟩
  simp only [JitMemory.emitw, cur_bind, emitw_run, emitRes, littleEndian_16]
  exact if_pos room

/-- `emitl`. -/
theorem C01_emitl (s : JitMemory) (v : BitVec 32) (room : s.get_current + 4 ≤ PAGE_SIZE) :
    ∃ s', JitMemory.emitl v s = .ok () s' ∧ Appended s s.page (littleEndian 4 v.toNat) s' := by
  refine ⟨_, ?_, appended_emitted s s.page _⟩
  simp only [JitMemory.emitl, cur_bind, emitl_run, emitRes, littleEndian_32]
  exact if_pos room

/-- `emitq`. -/
theorem C01_emitq (s : JitMemory) (v : BitVec 64) (room : s.get_current + 8 ≤ PAGE_SIZE) :
    ∃ s', JitMemory.emitq v s = .ok () s' ∧ Appended s s.page (littleEndian 8 v.toNat) s' := by
  refine ⟨_, ?_, appended_emitted s s.page _⟩
  simp only [JitMemory.emitq, cur_bind, littleEndian_64]
  exact emitq_run _ _ _ room

/-- `emit` of a slice of any length. -/
theorem C01_emit (s : JitMemory) (bs : List Byte) (room : s.get_current + bs.length ≤ PAGE_SIZE) :
    ∃ s', JitMemory.emit bs s = .ok () s' ∧ Appended s s.page bs s' :=
  ⟨_, emit_fits bs s room, appended_emitted s s.page _⟩

/-- The hypotheses hold of a fresh `JitMemory`; the bytes of `0x12345678` are stored low byte
    first. -/
example : ∃ s', JitMemory.emitl 0x12345678 (JitMemory.new 0x10000000 fun _ => 0xcc) = .ok () s'
    ∧ Appended (JitMemory.new 0x10000000 fun _ => 0xcc) 0 [0x78, 0x56, 0x34, 0x12] s' :=
  C01_emitl _ _ (by simp [JitMemory.get_current, JitMemory.new, MemPage.new, PAGE_SIZE])

end Monoasm
