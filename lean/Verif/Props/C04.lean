import Verif.Proofs.History
/-
  C04: the alignment functions.
-/

namespace Monoasm
open Spec

variable (base : Nat) (mem : Nat → Byte) (h : List Op) (p : Page)

/-- `align4` of page `p`, after any history. -/
theorem C04_align4 (ha : Alloc base) :
    ∃ s', MemPage.align4 p (reach base mem h) = .ok () s' ∧ AlignedTo base 4 (reach base mem h) p s' :=
  ⟨_, rfl, alignedTo_skipped (k := 2) (by decide) ha.aligned ((inv_reach base mem h).counter p)⟩

/-- `align8`. -/
theorem C04_align8 (ha : Alloc base) :
    ∃ s', MemPage.align8 p (reach base mem h) = .ok () s' ∧ AlignedTo base 8 (reach base mem h) p s' :=
  ⟨_, rfl, alignedTo_skipped (k := 3) (by decide) ha.aligned ((inv_reach base mem h).counter p)⟩

/-- `align16`. -/
theorem C04_align16 (ha : Alloc base) :
    ∃ s', MemPage.align16 p (reach base mem h) = .ok () s' ∧ AlignedTo base 16 (reach base mem h) p s' :=
  ⟨_, rfl, alignedTo_skipped (k := 4) (by decide) ha.aligned ((inv_reach base mem h).counter p)⟩

/-- `align_page`. -/
theorem C04_align_page (ha : Alloc base) :
    ∃ s', MemPage.align_page p (reach base mem h) = .ok () s'
      ∧ AlignedTo base 4096 (reach base mem h) p s' :=
  ⟨_, rfl, alignedTo_skipped (k := 12) (by decide) ha.aligned ((inv_reach base mem h).counter p)⟩

/-- A possible allocation address, and a history leaving the cursor unaligned: `align16` moves the
    cursor of page 0 from 3 to 16. -/
example : Alloc 0x10000000 ∧ ∃ s', MemPage.align16 0 (reach 0x10000000 mem [.emit [1, 2, 3]]) = .ok () s'
    ∧ cursor (reach 0x10000000 mem [.emit [1, 2, 3]]) 0 = 3 ∧ cursor s' 0 = 16 := by
  refine ⟨⟨by simp [PAGE_SIZE], by decide, by simp [PAGE_SIZE]⟩, _, rfl, ?_⟩
  have : reach 0x10000000 mem [.emit [1, 2, 3]]
    = emitted (emitted (emitted (JitMemory.new 0x10000000 mem) 0 [1]) 0 [2]) 0 [3] := by
    simp [reach, runCaught, Op.run, JitMemory.emit, M.bind_def, JitMemory.emitb, JitMemory.cur,
      emitb_run, emitRes, emitted, JitMemory.new, MemPage.new, PAGE_SIZE]
  rw [this]
  exact ⟨rfl, show MemPage.alignUp 3 15 = 16 by decide⟩

end Monoasm
