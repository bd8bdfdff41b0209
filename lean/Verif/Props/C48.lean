import Verif.Proofs.Correct
/-
  C48: an instruction whose immediate is out of range leaves no bytes behind.

  The property fails for the 16-bit ALU instructions: the operand size prefix is emitted before the
  immediate is checked.
-/

namespace Monoasm
open Spec

/-- All statements except the 16-bit ALU instructions: the whole state is as before (whether or not
    there is room on the page). -/
theorem C48_clean_partial (i : Inst Val Nat) (hw : aluWord i = false) (n v) (ha : Accepted i)
    (hi : imm i = some (n, v)) (hf : ¬ fits n v) (s : JitMemory) : Panics i s .immOutOfRange s := by
  obtain ⟨its, h⟩ := accepted_items.1 ha
  have h1 := immFail h hi hf
  rw [hw] at h1
  cases h1
  exact panics_of_items h rfl

/-- **The property is false for the 16-bit ALU instructions**: all of them leave the byte 0x66 on
    the page. -/
theorem C48_word_wrong (i : Inst Val Nat) (hw : aluWord i = true) (n v) (ha : Accepted i)
    (hi : imm i = some (n, v)) (hf : ¬ fits n v) (s : JitMemory) (hr : Room s) :
    ∃ s', Panics i s .immOutOfRange s' ∧ Appended s s.page [0x66] s' := by
  obtain ⟨its, h⟩ := accepted_items.1 ha
  have h1 := immFail h hi hf
  rw [hw] at h1
  cases h1
  refine ⟨_, panics_of_items h ?_, appended_emitted s s.page [0x66]⟩
  have h1 : (Item.i8 0x66).run s = .ok () (emitted s s.page [0x66]) := by
    simp only [Item.run, JitMemory.emitb, cur_bind, emitb_run, emitRes]
    rw [if_pos]
    simp only [Room, cursor] at hr
    simp; omega
  rw [runItems_cons, ok_bind h1]; rfl

/-- `movw [rax], 40000` panics and emits nothing. -/
example : Panics (.Movw (.ind ⟨.reg 0, .none, .imm 0⟩) (.imm 40000)) ex0 .immOutOfRange ex0 :=
  C48_clean_partial _ rfl 16 40000 ⟨_, rfl⟩ rfl (by decide) ex0

/-- `addw rcx, 40000` panics and leaves a byte. -/
example : ∃ s', Panics (.Add .WORD (.reg (.reg 1)) (.imm 40000)) ex0 .immOutOfRange s'
    ∧ Appended ex0 0 [0x66] s' :=
  C48_word_wrong _ rfl 16 40000 ⟨_, rfl⟩ rfl (by decide) ex0 room_ex0

end Monoasm
