import Verif.Proofs.Patch
import Verif.Spec.Jump
/-
  C14: jump patching.

  `h` is any history (panics caught). A patch point is a place where a 5-byte `jmp rel32` (0xE9) or
  `call rel32` (0xE8) was emitted; the four bytes after the opcode may be anything, so the patch
  point may have been resolved, patched before, or still be waiting for its label.
-/

namespace Monoasm
open Spec

variable {base : Nat} {mem : Nat → Byte} {h : List Op} {p d : DestLabel} {pa da : Nat}

/-- `apply_jmp_patch_address`, for every patch point inside the pages (or up to 2^30 bytes outside). -/
theorem C14_address (ha : Alloc base) (hd : HasAddress (reach base mem h) d da)
    (hp : base ≤ pa + 0x40000000 ∧ pa ≤ base + 3 * PAGE_SIZE + 0x40000000)
    (hop : (reach base mem h).mem pa = 0xe9 ∨ (reach base mem h).mem pa = 0xe8) :
    ∃ s', JitMemory.apply_jmp_patch_address pa d (reach base mem h) = .ok () s'
      ∧ s'.mem pa = (reach base mem h).mem pa ∧ GoesTo s'.mem pa da := by
  obtain ⟨m, h1, h2, h3⟩ := patch_run (y := pa) hd
  obtain ⟨b1, b2⟩ := addr_range (inv_reach base mem h) ha.pos hd
  have e0 : m pa = (reach base mem h).mem pa := h2 pa (by omega)
  have e1 := offset_toInt (x := da) (y := pa) (by rw [PAGE_SIZE_eq] at *; omega) (by rw [PAGE_SIZE_eq] at *; omega)
  refine ⟨_, h1, e0, _, (by rw [toInt_signExtend32]; exact e1), ?_⟩
  rcases hop with hop | hop
  · exact .inl ⟨e0.trans hop, fun n => decode_jmp (e0.trans hop) h3⟩
  · exact .inr ⟨e0.trans hop, fun n => decode_call (e0.trans hop) h3⟩

/-- `apply_jmp_patch`, for every pair of bound labels, whichever pages they are on. -/
theorem C14 (ha : Alloc base) (hp : HasAddress (reach base mem h) p pa) (hd : HasAddress (reach base mem h) d da)
    (hop : (reach base mem h).mem pa = 0xe9 ∨ (reach base mem h).mem pa = 0xe8) :
    ∃ s', JitMemory.apply_jmp_patch p d (reach base mem h) = .ok () s'
      ∧ s'.mem pa = (reach base mem h).mem pa ∧ GoesTo s'.mem pa da := by
  rw [patch_label_run hp]
  obtain ⟨b1, b2⟩ := addr_range (inv_reach base mem h) ha.pos hp
  exact C14_address ha hd ⟨by omega, by omega⟩ hop

/-- The offset is `as i32` of a 64-bit difference; it is the difference itself. -/
theorem C14_exact (ha : Alloc base) (hp : HasAddress (reach base mem h) p pa) (hd : HasAddress (reach base mem h) d da) :
    (BitVec.ofNat 64 da - BitVec.ofNat 64 pa - 5).toInt
      = ((BitVec.ofNat 64 da - BitVec.ofNat 64 pa - 5).setWidth 32).toInt := by
  obtain ⟨b1, b2⟩ := addr_range (inv_reach base mem h) ha.pos hp
  obtain ⟨b3, b4⟩ := addr_range (inv_reach base mem h) ha.pos hd
  have e1 := offset_toInt (x := da) (y := pa) (by rw [PAGE_SIZE_eq] at *; omega) (by rw [PAGE_SIZE_eq] at *; omega)
  have hu := ha.user
  have e2 : (BitVec.ofNat 64 da - BitVec.ofNat 64 pa - 5) = BitVec.ofInt 64 ((da : Int) - pa - 5) := by
    apply BitVec.eq_of_toNat_eq
    simp only [BitVec.toNat_sub, BitVec.toNat_ofNat, BitVec.toNat_ofInt]
    rw [show BitVec.toNat (5 : BitVec 64) = 5 from rfl]
    omega
  rw [e2, BitVec.toInt_ofInt, Int.bmod_eq_of_le (by rw [PAGE_SIZE_eq] at *; omega) (by rw [PAGE_SIZE_eq] at *; omega), ← e2]
  omega

/-- Patch points that `apply_jmp_patch_address` accepts far away from the pages are a different
    matter: the truncated offset leads elsewhere. Here the patch point is 4 GiB above the label, and
    the patched instruction jumps to an address 4 GiB beyond it. -/
theorem C14_far_wrong :
    ∃ s', JitMemory.apply_jmp_patch_address 0x110000000 0
        (reach 0x10000000 (fun _ => 0xe9) [.new .label, .bind_label 0]) = .ok () s'
      ∧ HasAddress (reach 0x10000000 (fun _ => 0xe9) [.new .label, .bind_label 0]) 0 0x10000000
      ∧ GoesTo s'.mem 0x110000000 0x110000000 := by
  have hd : HasAddress (reach 0x10000000 (fun _ => 0xe9) [.new .label, .bind_label 0]) 0 0x10000000 := ⟨rfl, rfl⟩
  obtain ⟨m, h1, h2, h3⟩ := patch_run (y := 0x110000000) hd
  have e0 : m 0x110000000 = 0xe9 := h2 _ (by omega)
  refine ⟨_, h1, hd, _, ?_, .inl ⟨e0, fun n => decode_jmp e0 h3⟩⟩
  rw [toInt_signExtend32]
  decide

/-- A jump on page 0, resolved to a label of page 0 and then patched to a label of page 1. -/
def C14_history : List Op :=
  [.new .label, .new .label, .new .label, .bind_label 0, .inst (.Jmp (.rel 1)), .bind_label 1, .inst .Ret,
    .select_page 1, .inst .Leave, .bind_label 2, .inst .Ret, .finalize]

example :
    let s := reach 0x10000000 (fun _ => 0xcc) C14_history
    HasAddress s 0 0x10000000 ∧ HasAddress s 2 0x20000001 ∧ s.mem 0x10000000 = 0xe9
    ∧ bytes (JitMemory.apply_jmp_patch 0 2 s).state.mem 0x10000000 5 = 0xe9 :: littleEndian 4 0xffffffc := by
  intro s
  have hl : s.locOf 0 = some (0, 0) ∧ s.locOf 2 = some (1, 1) := by decide +kernel
  refine ⟨?_, ?_, by decide +kernel, by decide +kernel⟩
  · exact hasAddress_at (inv_reach 0x10000000 (fun _ => 0xcc) C14_history) (by decide) hl.1 (by decide)
  · exact hasAddress_at (inv_reach 0x10000000 (fun _ => 0xcc) C14_history) (by decide) hl.2 (by decide)

end Monoasm
