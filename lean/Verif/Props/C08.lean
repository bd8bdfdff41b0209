import Verif.Proofs.Mentions
/-
  C08: unbound and unknown labels are never given an address.
-/

namespace Monoasm
open Spec

variable (base : Nat) (mem : Nat → Byte) (h1 h2 : List Op)

/-- The label of a `label()` call (the `countNew h1`-th created) that no later call binds: asking
    for its address panics, whatever happens in between (as long as no `finalize` loses the label table). -/
theorem C08_unbound (hf : KeepsLabels (JitMemory.new base mem) (h1 ++ .new .label :: h2))
    (hb : ∀ op ∈ h2, ¬ op.binds (countNew h1)) :
    NoAddress (reach base mem (h1 ++ .new .label :: h2)) (countNew h1) .noPositionBinding :=
  noAddress_unbound (label_reach hf).1 ((label_reach hf).2.2 hb)

/-- The label of a constant or data object before the first `finalize` after its creation. -/
theorem C08_unplaced (c : NewCall) (hf : KeepsLabels (JitMemory.new base mem) (h1 ++ .new c :: h2))
    (hb : ∀ op ∈ h2, ¬ op.binds (countNew h1) ∧ op ≠ .finalize) :
    NoAddress (reach base mem (h1 ++ .new c :: h2)) (countNew h1) .noPositionBinding :=
  noAddress_unbound (unplaced_reach hf hb).1 (unplaced_reach hf hb).2

/-- A label that was never created, after any history (panics caught): asking for its address,
    binding it, referring to it and patching with it all panic. -/
theorem C08_unknown (h : List Op) (l : DestLabel) (hl : countNew h ≤ l) (off : BitVec 8) (p : Page)
    (l' : DestLabel) (a : Nat) :
    let s := reach base mem h
    NoAddress s l .indexOutOfBounds
      ∧ JitMemory.bind_label l s = .panic .indexOutOfBounds s
      ∧ JitMemory.bind_label_with_page p l s = .panic .indexOutOfBounds s
      ∧ JitMemory.save_reloc l off s = .panic .indexOutOfBounds s
      ∧ JitMemory.apply_jmp_patch l l' s = .panic .indexOutOfBounds s
      ∧ JitMemory.apply_jmp_patch_address a l s = .panic .indexOutOfBounds s := by
  intro s
  have hs : s.labels.length ≤ l := Nat.le_trans (len_reach_le base mem h) hl
  have hn := noAddress_unknown hs
  refine ⟨hn, modifyLabel_none hs, ?_, modifyLabel_none hs, panic_bind hn.1, panic_bind hn.1⟩
  simp only [JitMemory.bind_label_with_page]
  by_cases hp : p < 3
  · rw [ok_bind (a := ()) (s1 := s) (by simp [checkPage, hp])]
    exact modifyLabel_none hs
  · exact panic_bind (by simp [checkPage, hp])

/-- No instruction that refers to a label that was never created is emitted without a panic. -/
theorem C08_unknown_inst (h : List Op) (l : DestLabel) (hl : countNew h ≤ l) (i : Inst V DestLabel)
    (hi : i.mentions l) (m : M Unit) (hm : compile i = .ok m) (s' : JitMemory) :
    m (reach base mem h) ≠ .ok () s' :=
  unknown_inst (Nat.le_trans (len_reach_le base mem h) hl) hi hm s'

/-- Concrete cases: label 0 never bound although code, a finalize and another label intervene. -/
example : NoAddress (reach 0x10000000 mem [.new .label, .new .label, .inst .Ret, .bind_label 1]) 0
      .noPositionBinding :=
  C08_unbound 0x10000000 mem [] [.new .label, .inst .Ret, .bind_label 1]
    (by simp [KeepsLabels]) (by simp [Op.binds, countNew])

/-- Label 3 was never created: `jmp` to it and `lea rax, [rip + 3]` panic. -/
example (s' : JitMemory) (m : M Unit)
    (hm : compile (.Lea (.reg (.reg 0)) (.ind ⟨.reg 16, .none, .label 3⟩)) = .ok m) :
    m (reach 0x10000000 mem [.new .label, .new (.data 8)]) ≠ .ok () s' :=
  C08_unknown_inst 0x10000000 mem _ 3 (by decide) _ (by simp [Inst.mentions, Inst.labels, RmOperand.labels, IndAddr.labels, MDisp.labels]) m hm s'

end Monoasm
