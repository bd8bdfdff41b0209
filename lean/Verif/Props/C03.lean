import Verif.Proofs.Spill
/-
  C03: cursors stay inside their page; a write that does not fit panics.
-/

namespace Monoasm
open Spec

/-- Every cursor is at most the page size, after any history (panics caught, patches included). -/
theorem C03_cursor (base : Nat) (mem : Nat → Byte) (h : List Op) (p : Page) :
    cursor (reach base mem h) p ≤ PAGE_SIZE := (inv_reach base mem h).counter p

/-- A byte that does not fit. -/
theorem C03_emitb (base mem h v) (full : PAGE_SIZE < (reach base mem h).get_current + 1) :
    Spills base (reach base mem h) (JitMemory.emitb v) := by
  refine spills_of (op := .cur (.emitb v)) (inv_reach base mem h) rfl (by simp) (by simp [Op.isPatch])
    (s' := spilled (reach base mem h) (reach base mem h).page [v]) ?_
  simp only [Op.run, PageCall.run, cur_bind, emitb_run, emitRes]
  exact if_neg (by simp [JitMemory.get_current] at full ⊢; omega)

/-- A 16-bit word that does not fit. -/
theorem C03_emitw (base mem h v) (full : PAGE_SIZE < (reach base mem h).get_current + 2) :
    Spills base (reach base mem h) (JitMemory.emitw v) := by
  refine spills_of (op := .cur (.emitw v)) (inv_reach base mem h) rfl (by simp) (by simp [Op.isPatch])
    (s' := spilled (reach base mem h) (reach base mem h).page (le16 v)) ?_
  simp only [Op.run, PageCall.run, cur_bind, emitw_run, emitRes]
  exact if_neg (by simp [JitMemory.get_current] at full ⊢; omega)

/-- A 32-bit word that does not fit. -/
theorem C03_emitl (base mem h v) (full : PAGE_SIZE < (reach base mem h).get_current + 4) :
    Spills base (reach base mem h) (JitMemory.emitl v) := by
  refine spills_of (op := .cur (.emitl v)) (inv_reach base mem h) rfl (by simp) (by simp [Op.isPatch])
    (s' := spilled (reach base mem h) (reach base mem h).page (le32 v)) ?_
  simp only [Op.run, PageCall.run, cur_bind, emitl_run, emitRes]
  exact if_neg (by simp [JitMemory.get_current] at full ⊢; omega)

/-- A 64-bit word that does not fit. -/
theorem C03_emitq (base mem h v) (full : PAGE_SIZE < (reach base mem h).get_current + 8) :
    Spills base (reach base mem h) (JitMemory.emitq v) := by
  generalize hs : reach base mem h = s at full
  have key : ∃ s', MemPage.emitq s.page v s = .panic .pageSizeOverflow s' := by
    cases e : MemPage.emitq s.page v s with
    | ok a s' => have := (emitq_ok e).1; simp only [JitMemory.get_current] at full; omega
    | panic er s' =>
      refine ⟨s', ?_⟩
      simp only [MemPage.emitq, M.bind_def] at e
      cases e1 : MemPage.emitl s.page (v.setWidth 32) s with
      | ok a s1 => rw [e1] at e; rw [emitl_panic e]
      | panic er1 s1 => rw [e1] at e; cases e; rw [emitl_panic e1]
  obtain ⟨s', hk⟩ := key
  rw [← hs] at hk
  rw [← hs]
  exact spills_of (op := .cur (.emitq v)) (inv_reach base mem h) rfl (by simp) (by simp [Op.isPatch]) hk

/-- A slice that does not fit. -/
theorem C03_emit (base mem h bs) (full : PAGE_SIZE < (reach base mem h).get_current + bs.length) :
    Spills base (reach base mem h) (JitMemory.emit bs) := by
  obtain ⟨s', hk⟩ := emit_spills bs _ ((inv_reach base mem h).counter _) full
  exact spills_of (op := .emit bs) (inv_reach base mem h) rfl (by simp) (by simp [Op.isPatch]) hk

/-- Cursors near the end of the page exist: filling the page up to its last byte leaves room for a
    byte but not for a word, which then panics. -/
example (base : Nat) (mem : Nat → Byte) (bs : List Byte) (hb : bs.length + 1 = PAGE_SIZE) :
    Spills base (reach base mem [.emit bs]) (JitMemory.emitw 0x1234) := by
  apply C03_emitw
  rw [reach_fill base mem bs (by omega)]
  simp only [JitMemory.get_current, emitted, JitMemory.new, if_true, MemPage.new]
  omega

end Monoasm
