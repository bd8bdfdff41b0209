import Verif.Proofs.Spill
import Verif.Proofs.Past
/-
  C06: labels are fresh.
-/

namespace Monoasm
open Spec

/-- After a history in which no `finalize` loses the label table, a label-creating call returns
    the number of labels created so far; the new label is unbound and has no pending reference. -/
theorem C06_number (base : Nat) (mem : Nat → Byte) (h : List Op)
    (hf : KeepsLabels (JitMemory.new base mem) h) (c : NewCall) :
    ∃ s', c.run (reach base mem h) = .ok (countNew h) s'
      ∧ s'.labels[countNew h]? = some { loc := none, target := [] } := by
  rw [← len_reach hf]
  exact ⟨_, newCall_run c _, newState_fresh c _⟩

/-- Two different label-creating calls of such a history return different labels. -/
theorem C06_distinct (base : Nat) (mem : Nat → Byte) (h1 h2 : List Op) (c1 c2 : NewCall)
    (hf : KeepsLabels (JitMemory.new base mem) (h1 ++ .new c1 :: h2))
    {l1 l2 : DestLabel} {s1 s2 : JitMemory}
    (r1 : c1.run (reach base mem h1) = .ok l1 s1)
    (r2 : c2.run (reach base mem (h1 ++ .new c1 :: h2)) = .ok l2 s2) : l1 ≠ l2 := by
  obtain ⟨_, e1, _⟩ := C06_number base mem h1 (keepsLabels_append.1 hf).1 c1
  obtain ⟨_, e2, _⟩ := C06_number base mem _ hf c2
  rw [e1] at r1; cases r1
  rw [e2] at r2; cases r2
  rw [countNew_append]
  simp only [countNew]
  exact Nat.ne_of_lt (Nat.lt_add_of_pos_right (Nat.succ_pos _))

/-- The hypothesis holds of a history with labels, constants, data and a call that panics. -/
example (mem : Nat → Byte) : KeepsLabels (JitMemory.new 0x10000000 mem)
    [.new .label, .new (.const_i64 5), .bind_label 9, .new (.data 16), .bind_label 0, .new (.abs_address 0)] := by
  simp [KeepsLabels]

/-- ... and of one with a `finalize` that panics: `abs_address` names a label that does not exist. -/
example : let h : List Op := [.new .label, .new (.abs_address 9), .bind_label 0, .inst .Ret, .finalize, .new .label]
    KeepsLabels (JitMemory.new 0x10000000 fun _ => 0xcc) h ∧ ¬ NoFinalizePanic (JitMemory.new 0x10000000 fun _ => 0xcc) h
    ∧ countNew h = 3 := by
  refine ⟨by decide +kernel, by decide +kernel, rfl⟩

/-- Without it the claim fails: a `finalize` that panics because a relocation slot crosses the page
    end loses the whole label table (`mem::take` in `fill_relocs`), and the next label created is
    the first label again. -/
theorem C06_finalize_panic (base : Nat) (mem : Nat → Byte) (bs : List Byte) (hb : bs.length + 2 = PAGE_SIZE) :
    let h := [.new .label, .emit bs, .bind_label 0, .save_reloc 0 4, .finalize]
    (∃ s, (NewCall.label).run (JitMemory.new base mem) = .ok 0 s)
      ∧ ∃ s, (NewCall.label).run (reach base mem h) = .ok 0 s := by
  intro h
  refine ⟨⟨_, newCall_run _ _⟩, newState .label (reach base mem h), ?_⟩
  have e1 : reach base mem h = (JitMemory.finalize (reach base mem (overflowHist bs))).state := by
    simp only [reach, h, overflowHist, runCaught_cons]; rfl
  rw [newCall_run, e1, overflow_finalize base mem bs hb]
  rfl

end Monoasm
